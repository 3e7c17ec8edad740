import Verif.ReasonsWithdraw
import Verif.TradeFair

/-!
# C54: what certainly goes through

The reasons for refusals, turned round: orders and withdrawals that meet none of them are executed.
-/

namespace Perp

theorem not_expired {env : Env} {cl : Caller} {s s' : State} {a : Addr} {i : Nat} {u : Option PriceUpdate} {o : Out}
    {acc : Account} {r : KeeperRequest} (h0 : Reach env s) (h : step env cl s (.processRequest a i u) = Except.ok (s', o))
    (ha : s.accounts.get a = some acc) (hr : acc.requests[i]? = some r) (hexp : s.now < r.expiry) : o.ev ≠ .expired := by
  obtain ⟨acc', _, r', _, ha', hr', -, -, -, -, hc⟩ := process_requires h0 h
  rw [ha] at ha'; cases ha'
  rw [hr] at hr'; cases hr'
  rcases hc with ⟨-, hle, -⟩ | ⟨hx, -⟩
  · exact absurd hle (not_le.mpr hexp)
  · exact hx

/-- Amounts that are equal, up to entries of zero, have the same weighted sums. -/
theorem sum_of_getD {f : Res → Dec → Int} {m m' : AMap Res Dec} (hf : ∀ r, f r 0 = 0)
    (h : ∀ r, (m.get r).getD 0 = (m'.get r).getD 0) : m.sum f = m'.sum f := by
  have h0 : ∀ n : AMap Res Dec, (n.filterV (fun x => decide (x ≠ 0))).sum f = n.sum f := by
    intro n
    refine AMap.sum_filterV (fun k v _ hv => ?_)
    have : v = 0 := by simpa using hv
    rw [this, hf]
  rw [← h0 m, ← h0 m']
  refine AMap.sum_ext (fun r => ?_)
  rw [AMap.get_filterV, AMap.get_filterV]
  have := h r
  cases h1 : m.get r with
  | none =>
    cases h2 : m'.get r with
    | none => rfl
    | some y => rw [h1, h2] at this; simp only [Option.getD_none, Option.getD_some] at this; subst this; rfl
  | some x =>
    cases h2 : m'.get r with
    | none => rw [h1, h2] at this; simp only [Option.getD_none, Option.getD_some] at this; subst this; rfl
    | some y => rw [h1, h2] at this; simp only [Option.getD_some] at this; subst this; rfl

/-- What is left by a withdrawal has one value and one margin requirement. -/
theorem Withdrawn.unique {env : Env} {s : State} {acc x y : Account} {claims : List (Res × Dec)}
    (hx : Withdrawn env acc x claims) (hy : Withdrawn env acc y claims) :
    s.accountValue x = s.accountValue y ∧ s.initialMargin x = s.initialMargin y := by
  have hb : ∀ r, (x.collateralBalances.get r).getD 0 = (y.collateralBalances.get r).getD 0 := by
    intro r; rw [hx.balances, hy.balances]
  have hv : x.vb = y.vb := by rw [hx.vb, hy.vb]
  have p1 : x.positions = acc.positions := by rw [hx.same]
  have p2 : y.positions = acc.positions := by rw [hy.same]
  have r1 : s.rebateOf x = s.rebateOf acc := by rw [hx.same]; rfl
  have r2 : s.rebateOf y = s.rebateOf acc := by rw [hy.same]; rfl
  have z1 : ∀ r, s.market.collValue r 0 = 0 := by
    intro r; unfold Market.collValue; split <;> simp [mulT]
  have z2 : ∀ r, s.market.collMargin r 0 = 0 := by
    intro r; unfold Market.collMargin; split <;> simp [mulT]
  constructor
  · unfold State.accountValue Market.value
    rw [p1, p2, r1, r2, hv, sum_of_getD z1 hb]
  · unfold State.initialMargin Market.margin
    rw [p1, p2, sum_of_getD z2 hb]

/-- **C54, a trader can always get out.** An active, due, unexpired order that may only reduce a position and sets no limits is
executed, at usable prices, whenever it makes the value of the pair's skew smaller: whatever the account's margin, the
open-interest limit, the number of positions and the skew of the pool. (Overflow of `Decimal` remains possible.) -/
theorem c54_close_executes {env : Env} {cl : Caller} {s : State} (h : Reach env s) (hw : s.RewardWhole env) {a : Addr}
    {acc : Account} {i : Nat} {r : KeeperRequest} {q : MarginOrderReq} (hp : Permitted cl s (.processRequest a i none))
    (ha : s.accounts.get a = some acc) (hr : acc.requests[i]? = some r) (hq : r.request = .marginOrder q)
    (hst : r.status = STATUS_ACTIVE) (hi : acc.validStart ≤ i) (hsub : r.submission < s.now) (hexp : s.now < r.expiry)
    (hprices : s.PricesReady (insertId acc.positions.keys q.pair))
    (hred : q.reduceOnly = true) (hpl : q.priceLimit = .none) (hsl : q.slippageLimit = .none)
    (hlink : ∀ j, j ∈ q.activate ∨ j ∈ q.cancel → j < acc.requests.length)
    (hskew : |mulT (s.netOi q.pair + closingPart (acc.size q.pair) q.amount) (s.market.price q.pair)| <
      |mulT (s.netOi q.pair) (s.market.price q.pair)|) :
    (∃ s' o e, step env cl s (.processRequest a i none) = Except.ok (s', o) ∧ o.ev = .order e ∧
      e.amountClose = closingPart (acc.size q.pair) q.amount ∧ e.amountOpen = 0) ∨
      step env cl s (.processRequest a i none) = Except.error .arithmetic := by
  cases hs : step env cl s (.processRequest a i none) with
  | ok x =>
    left
    obtain ⟨s', o⟩ := x
    have hx := not_expired h hs ha hr hexp
    obtain ⟨acc', ids, s1, c, w0, w, e, hrun, hparts, hev, -, -⟩ := run_order (step_body hs) ha hr hq hx
    have h1 := hparts.split
    rw [hrun.size0] at h1
    obtain ⟨h2, h3⟩ := split_spec h1
    exact ⟨s', o, e, rfl, hev, h2, by rw [h3, hred]; rfl⟩
  | error e =>
    right
    have hlive : ∀ e, RequestRefused env s a i none e → e ∈ [Err.priceLimit, .slippageLimit, .pairOiTooHigh, .positionsTooMany,
        .insufficientMargin, .skewTooHigh, .missingRequest] → OrderRefused env s acc q none e := by
      intro e hre hmem
      have key : (∃ acc : Account, s.accounts.get a = some acc ∧
          ((e = .missingRequest ∧ acc.requests.length ≤ i) ∨
           ∃ kr : KeeperRequest, acc.requests[i]? = some kr ∧ acc.validStart ≤ i ∧ kr.submission < s.now ∧ s.now < kr.expiry ∧
            kr.status = STATUS_ACTIVE ∧
            match kr.request with
            | .marginOrder q => OrderRefused env s acc q none e
            | .removeCollateral q => WithdrawalRefused env s acc q none e)) := by
        simp only [List.mem_cons, List.not_mem_nil, or_false] at hmem
        rcases hmem with rfl | rfl | rfl | rfl | rfl | rfl | rfl <;> exact hre
      obtain ⟨acc', ha', hcase⟩ := key
      rw [ha] at ha'; cases ha'
      rcases hcase with ⟨-, hlen⟩ | ⟨kr, hkr, -, -, -, -, hm⟩
      · have := (List.getElem?_eq_some_iff.mp hr).1
        omega
      · rw [hr] at hkr; cases hkr
        rw [hq] at hm
        exact hm
    have h1 := c53_order h hw hp ha hr hq hst hi hsub hprices hs
    have h2 := c54_request h hw hp hs
    have hop : openingPart (acc.size q.pair) q.amount q.reduceOnly = 0 := by rw [hred]; rfl
    simp only [List.mem_cons, List.not_mem_nil, or_false] at h1
    rcases h1 with rfl | rfl | rfl | rfl | rfl | rfl | rfl | rfl
    · obtain ⟨x, t, -, hn⟩ := hlive _ h2 (by simp)
      rw [hpl] at hn; exact absurd trivial hn
    · obtain ⟨s1, -, hn⟩ := hlive _ h2 (by simp)
      rw [hsl] at hn; exact absurd trivial hn
    · obtain ⟨s1, -, hn⟩ := hlive _ h2 (by simp)
      dsimp only at hn; rw [hop] at hn
      rcases hn with ⟨h, -⟩ | ⟨h, -⟩ <;> exact absurd h (lt_irrefl _)
    · obtain ⟨s1, -, hn⟩ := hlive _ h2 (by simp)
      exact absurd hop hn.1
    · obtain ⟨s1, -, hn⟩ := hlive _ h2 (by simp)
      exact absurd hop hn.1
    · obtain ⟨s1, hr1, -, hn⟩ := hlive _ h2 (by simp)
      have hnow : s1.now = s.now := by rw [hr1.same]
      have e1 : s1.market.price = s.market.price := by
        funext p; simp only [State.market, hr1.prices]; rfl
      have e2 : s1.netOi q.pair = s.netOi q.pair := by
        unfold State.netOi
        rw [hnow, (hr1.sizes q.pair).1, (hr1.sizes q.pair).2.1]
      rw [e1, e2, hop, add_zero] at hn
      exact absurd hn (not_le.mpr hskew)
    · obtain ⟨j, hj, hl⟩ := hlive _ h2 (by simp)
      have := hlink j hj
      omega
    · rfl

/-- **C54, a withdrawal that leaves enough margin is paid.** An active, due, unexpired withdrawal of non-negative amounts within
the balances of the account, to a wallet, goes through at usable prices if the pool holds the base tokens claimed and the account
it leaves has the initial margin. -/
theorem c54_withdrawal_executes {env : Env} {cl : Caller} {s : State} (h : Reach env s) (hw : s.RewardWhole env) {a : Addr}
    {acc left : Account} {i : Nat} {r : KeeperRequest} {q : RemoveCollateralReq} (hp : Permitted cl s (.processRequest a i none))
    (ha : s.accounts.get a = some acc) (hr : acc.requests[i]? = some r) (hq : r.request = .removeCollateral q)
    (hst : r.status = STATUS_ACTIVE) (hi : acc.validStart ≤ i) (hsub : r.submission < s.now) (hexp : s.now < r.expiry)
    (hprices : s.PricesReady acc.positions.keys) (hwallet : env.isWallet q.target = true)
    (hpos : ∀ x ∈ q.claims, 0 ≤ x.2)
    (hbase : claimed q.claims BASE ≤ acc.vb) (htok : claimed q.claims BASE ≤ s.pool.baseTokens)
    (hbal : ∀ x ∈ q.claims, x.1 ≠ BASE → ∃ b, acc.collateralBalances.get x.1 = some b ∧ claimed q.claims x.1 ≤ b)
    (hleft : Withdrawn env acc left q.claims) (hmargin : s.initialMargin left ≤ s.accountValue left) :
    (∃ s' o tokens, step env cl s (.processRequest a i none) = Except.ok (s', o) ∧
      o.ev = .removeCollateral q.target tokens ∧
      ∀ r, totalOf tokens r = amountFor (env.gran r) (claimed q.claims r) .toZero) ∨
      step env cl s (.processRequest a i none) = Except.error .arithmetic := by
  cases hs : step env cl s (.processRequest a i none) with
  | ok x =>
    left
    obtain ⟨s', o⟩ := x
    have hx := not_expired h hs ha hr hexp
    obtain ⟨acc0, acc', kr', ids, s1, c, w0, w, out, hrun, hkr, -, -, hex, hev, -, -⟩ := run_execute (step_body hs) hx
    have e := hrun.before
    rw [ha] at e; cases e
    rw [hr] at hkr; cases hkr
    rw [hq] at hex
    rcases executeRequest_ok hex with ⟨q', tokens, hq', hrc, ho⟩ | ⟨q', e, hq', hmo, ho⟩
    case inr => cases hq'
    cases hq'
    have henv : c.env = env := (keeperLoad_ok hrun.load).1
    refine ⟨s', o, tokens, rfl, by rw [hev, ho], fun r => ?_⟩
    rw [← henv]
    exact removeCollateral_exact hrc r
  | error e =>
    right
    have h1 := c53_withdrawal h hw hp ha hr hq hst hi hsub hprices hs
    have h2 := c54_request h hw hp hs
    have hlive : e ∈ [Err.insufficientBalance, .insufficientPoolTokens, .vault, .invalidAccount, .insufficientMargin] →
        WithdrawalRefused env s acc q none e := by
      intro hmem
      have key : (∃ acc : Account, s.accounts.get a = some acc ∧
          ((e = .missingRequest ∧ acc.requests.length ≤ i) ∨
           ∃ kr : KeeperRequest, acc.requests[i]? = some kr ∧ acc.validStart ≤ i ∧ kr.submission < s.now ∧ s.now < kr.expiry ∧
            kr.status = STATUS_ACTIVE ∧
            match kr.request with
            | .marginOrder q => OrderRefused env s acc q none e
            | .removeCollateral q => WithdrawalRefused env s acc q none e)) := by
        simp only [List.mem_cons, List.not_mem_nil, or_false] at hmem
        rcases hmem with rfl | rfl | rfl | rfl | rfl <;> exact h2
      obtain ⟨acc', ha', hcase⟩ := key
      rw [ha] at ha'; cases ha'
      rcases hcase with ⟨-, hlen⟩ | ⟨kr, hkr, -, -, -, -, hm⟩
      · have := (List.getElem?_eq_some_iff.mp hr).1
        omega
      · rw [hr] at hkr; cases hkr
        rw [hq] at hm
        exact hm
    have hnn : ∀ r, 0 ≤ claimed q.claims r := by
      intro r
      have : ∀ l : List (Res × Dec), (∀ x ∈ l, 0 ≤ x.2) → 0 ≤ claimed l r := by
        intro l
        induction l with
        | nil => intro _; simp [claimed]
        | cons e l ih =>
          intro hl
          rw [claimed_cons]
          have h1 := hl e (by simp)
          have h2 := ih (fun x hx => hl x (by simp [hx]))
          split <;> omega
      exact this _ hpos
    have hsame : ∀ acc', (s.priced none).initialMargin acc' = s.initialMargin acc' ∧
        (s.priced none).accountValue acc' = s.accountValue acc' := fun _ => ⟨rfl, rfl⟩
    simp only [List.mem_cons, List.not_mem_nil, or_false] at h1
    rcases h1 with rfl | rfl | rfl | rfl | rfl | rfl
    · obtain ⟨r', hr', hc⟩ := hlive (by simp)
      rcases hc with ⟨-, hc⟩ | ⟨hne, hc⟩
      · exact absurd hbase (not_le.mpr hc)
      · obtain ⟨x, hx, rfl⟩ := List.mem_map.mp hr'
        obtain ⟨b, hb, hle⟩ := hbal x hx hne
        rw [hb] at hc
        rcases hc with hc | hc
        · exact absurd hle (not_le.mpr hc)
        · cases hc
    · exact absurd htok (not_le.mpr (hlive (by simp)))
    · obtain ⟨r', -, hc⟩ := hlive (by simp)
      exact absurd (amountFor_down (env.gran_pos r') (hnn r') rfl).2.2.2 (not_le.mpr hc)
    · have := hlive (by simp)
      have : env.isWallet q.target = false := this
      rw [hwallet] at this; cases this
    · obtain ⟨acc', hwd, hlt⟩ := hlive (by simp)
      rw [(hsame acc').1, (hsame acc').2] at hlt
      rw [(hwd.unique hleft).1, (hwd.unique hleft).2] at hlt
      exact absurd hmargin (not_le.mpr hlt)
    · rfl

/-- **C17, exactly what is asked for.** An executed withdrawal pays the target, of every token, the amounts claimed added up and
rounded towards zero to the divisibility of the token: nothing is held back. -/
theorem c17_exact {env : Env} {cl : Caller} {s s' : State} {a : Addr} {i : Nat} {u : Option PriceUpdate} {o : Out}
    {acc : Account} {kr : KeeperRequest} {q : RemoveCollateralReq}
    (h : step env cl s (.processRequest a i u) = Except.ok (s', o)) (ha : s.accounts.get a = some acc)
    (hk : acc.requests[i]? = some kr) (hr : kr.request = .removeCollateral q) (hx : o.ev ≠ .expired) (r : Res) :
    totalOf (o.paid.map Prod.snd) r = amountFor (env.gran r) (claimed q.claims r) .toZero := by
  obtain ⟨acc0, acc', kr', ids, s1, c, w0, w, out, hrun, hkr, -, -, hex, hev, hpd, -⟩ := run_execute (step_body h) hx
  have e := hrun.before
  rw [ha] at e; cases e
  rw [hk] at hkr; cases hkr
  rw [hr] at hex
  rcases executeRequest_ok hex with ⟨q', tokens, hq', hrc, ho⟩ | ⟨q', e, hq', hmo, ho⟩
  case inr => cases hq'
  cases hq'
  have henv : c.env = env := (keeperLoad_ok hrun.load).1
  have hpaid : o.paid.map Prod.snd = tokens := by rw [hpd, ho]; simp
  rw [hpaid, ← henv]
  exact removeCollateral_exact hrc r

namespace Scn

/-- A check that prices are usable. -/
def readyTest (s : State) (ids : List PairId) : Bool :=
  let fresh (p : PairId) (x : Dec) (t : Int) : Bool := decide (0 < x) &&
    s.config.collaterals.entries.all (fun e => !decide (e.2.pairId = p) || decide (s.now - t < e.2.priceAgeMax))
  (ids.all fun p => match s.oracle.prices.get p, s.pairAge p with
    | some (x, t), some age => fresh p x t && decide (s.now - t < age)
    | _, _ => false) &&
  (s.config.collaterals.entries.all fun e => match s.oracle.prices.get e.2.pairId with
    | some (x, t) => fresh e.2.pairId x t
    | none => false)

theorem pricesReady {s : State} {ids : List PairId} (h : readyTest s ids = true) : s.PricesReady ids := by
  unfold readyTest at h
  rw [Bool.and_eq_true] at h
  obtain ⟨h1, h2⟩ := h
  have fresh : ∀ (p : PairId) (x : Dec) (t : Int), (decide (0 < x) &&
      s.config.collaterals.entries.all (fun e => !decide (e.2.pairId = p) || decide (s.now - t < e.2.priceAgeMax))) = true →
      0 < x ∧ ∀ r cc, s.config.collaterals.get r = some cc → cc.pairId = p → s.now - t < cc.priceAgeMax := by
    intro p x t hh
    rw [Bool.and_eq_true, decide_eq_true_eq, List.all_eq_true] at hh
    refine ⟨hh.1, fun r cc hr hp => ?_⟩
    have := hh.2 (r, cc) (AMap.get_eq_some.mp hr)
    simpa [hp] using this
  refine ⟨fun p hp => ?_, fun r cc hr => ?_⟩
  · have := (List.all_eq_true.mp h1) p hp
    split at this
    · rename_i x t age hx ha
      rw [Bool.and_eq_true, decide_eq_true_eq] at this
      obtain ⟨h3, h4⟩ := this
      obtain ⟨h5, h6⟩ := fresh p x t h3
      exact ⟨x, h5, t, hx, fun a' ha' => (by rw [ha] at ha'; cases ha'; exact h4), h6⟩
    · cases this
  · have := (List.all_eq_true.mp h2) (r, cc) (AMap.get_eq_some.mp hr)
    dsimp only at this
    split at this
    · rename_i x t hx
      obtain ⟨h5, h6⟩ := fresh _ x t this
      exact ⟨x, h5, t, hx, fun a' ha' => (by cases ha'), h6⟩
    · cases this

/-- Anybody may call a method open to all. -/
def openTo (s : State) (op : Op) : Bool :=
  (match op.role with | some r => (s.roles r).sat anyone.pf | none => true) &&
  (match op.ownerRule s with | some r => r.sat anyone.pf | none => true) && decide (1 ≤ s.authority)

theorem permitted {s : State} {op : Op} (h : openTo s op = true) : Permitted anyone s op := by
  unfold openTo at h
  rw [Bool.and_eq_true, Bool.and_eq_true, decide_eq_true_eq] at h
  obtain ⟨⟨h1, h2⟩, h3⟩ := h
  refine ⟨fun r hr => ?_, fun r hr => ?_, fun _ => h3⟩
  · rw [hr] at h1; exact h1
  · rw [hr] at h2; exact h2

/-- Account 100 (long 2, the net open interest is 1) asks to sell 1 and to withdraw 1000 base tokens and 10000 of resource 10;
later both requests are due. -/
def leaving : State := after open_
  [ .marginOrderRequest none 100 (order 1 (d (-1)) true) [] [] STATUS_ACTIVE,
    .removeCollateralRequest none 1000 100 55 [(BASE, d 600), (10, d 10000), (BASE, d 400)],
    .tick 1040 ]

theorem leaving_reach : Reach env leaving := after_reach open_reach _

/-- `c54_close_executes` applies to the order. -/
example : (∃ s' o e, step env anyone leaving (.processRequest 100 3 none) = Except.ok (s', o) ∧ o.ev = .order e ∧
      e.amountClose = d (-1) ∧ e.amountOpen = 0) ∨
    step env anyone leaving (.processRequest 100 3 none) = Except.error .arithmetic := by
  obtain ⟨acc, ha, h1, h2, h3, h4, h5⟩ := tested (s := leaving) (a := 100) (P := fun acc => acc.positions.keys = [1] ∧
    (∃ x ∈ acc.requests[3]?, x.status = STATUS_ACTIVE ∧ x.submission < leaving.now ∧ leaving.now < x.expiry ∧
      x.request = .marginOrder { pair := 1, amount := d (-1), reduceOnly := true, priceLimit := .none, slippageLimit := .none, activate := [], cancel := [] }) ∧
    acc.validStart ≤ 3 ∧ acc.size 1 = d 2 ∧
    |mulT (leaving.netOi 1 + d (-1)) (leaving.market.price 1)| < |mulT (leaving.netOi 1) (leaving.market.price 1)|) (by decide +kernel)
  obtain ⟨r, hr, hst, hsub, hexp, hq⟩ := h2
  have hcl : closingPart (acc.size 1) (d (-1)) = d (-1) := by rw [h4]; decide +kernel
  have := c54_close_executes leaving_reach (whole _) (permitted (by decide +kernel)) ha hr hq hst h3 hsub hexp
    (by rw [h1]; exact pricesReady (by decide +kernel)) rfl rfl rfl (by simp) (by dsimp only; rw [hcl]; exact h5)
  dsimp only at this
  rw [hcl] at this
  exact this

/-- `c54_withdrawal_executes` and `c17_exact` apply to the withdrawal. -/
example : ∃ s' o tokens, step env anyone leaving (.processRequest 100 4 none) = Except.ok (s', o) ∧
    o.ev = .removeCollateral 55 tokens ∧ totalOf tokens BASE = d 1000 ∧ totalOf tokens 10 = d 10000 := by
  obtain ⟨acc, ha, h1, h2, h3, h4, h5, h6⟩ := tested (s := leaving) (a := 100) (P := fun acc => acc.positions.keys = [1] ∧
    (∃ x ∈ acc.requests[4]?, x.status = STATUS_ACTIVE ∧ x.submission < leaving.now ∧ leaving.now < x.expiry ∧
      x.request = .removeCollateral { target := 55, claims := [(BASE, d 600), (10, d 10000), (BASE, d 400)] }) ∧
    acc.validStart ≤ 4 ∧ d 1000 ≤ acc.vb ∧ acc.collateralBalances.get 10 = some (d 50000) ∧
    leaving.initialMargin { acc with vb := acc.vb - d 1000, collateralBalances := acc.collateralBalances.set 10 (d 40000) } ≤
      leaving.accountValue { acc with vb := acc.vb - d 1000, collateralBalances := acc.collateralBalances.set 10 (d 40000) })
    (by decide +kernel)
  obtain ⟨r, hr, hst, hsub, hexp, hq⟩ := h2
  have c1 : claimed [(BASE, d 600), (10, d 10000), (BASE, d 400)] BASE = d 1000 := by decide +kernel
  have c2 : claimed [(BASE, d 600), (10, d 10000), (BASE, d 400)] 10 = d 10000 := by decide +kernel
  have g1 : amountFor (env.gran BASE) (d 1000) .toZero = d 1000 := by decide +kernel
  have g2 : amountFor (env.gran 10) (d 10000) .toZero = d 10000 := by decide +kernel
  have hleft : Withdrawn env acc
      { acc with vb := acc.vb - d 1000, collateralBalances := acc.collateralBalances.set 10 (d 40000) }
      [(BASE, d 600), (10, d 10000), (BASE, d 400)] := by
    refine ⟨rfl, by rw [c1, g1], fun r => ?_⟩
    dsimp only
    rw [AMap.get_set]
    by_cases h10 : 10 = r
    · subst h10
      rw [if_pos rfl, h5, if_neg (by decide), c2, g2]; decide +kernel
    · rw [if_neg h10]
      split
      · simp
      · rename_i hb
        have : claimed [(BASE, d 600), (10, d 10000), (BASE, d 400)] r = 0 := by
          rw [claimed_cons, claimed_cons, claimed_cons, if_neg (Ne.symm hb), if_neg h10, if_neg (Ne.symm hb)]; rfl
        rw [this]; simp [amountFor]
  rcases c54_withdrawal_executes leaving_reach (whole _) (permitted (by decide +kernel)) ha hr hq hst h3 hsub hexp
    (by rw [h1]; exact pricesReady (by decide +kernel)) rfl (by decide +kernel) (by rw [c1]; exact h4)
    (by rw [c1]; decide +kernel)
    (by
      intro x hx hne
      simp only [List.mem_cons, List.not_mem_nil, or_false] at hx
      rcases hx with rfl | rfl | rfl
      · exact absurd rfl hne
      · exact ⟨_, h5, by rw [c2]; decide +kernel⟩
      · exact absurd rfl hne)
    hleft h6 with ⟨s', o, tokens, h, hev, ht⟩ | h
  · exact ⟨s', o, tokens, h, hev, by rw [ht, c1, g1], by rw [ht, c2, g2]⟩
  · obtain ⟨s', o, h', -⟩ := stepped (s := leaving) (op := .processRequest 100 4 none) (P := fun _ _ => True) (by decide +kernel)
    rw [h] at h'; cases h'

/-- The price has fallen and the funding of pair 1 has been brought up to date since. -/
def underwater : State := after open_ [.tick 1040, .oraclePush crash, .updatePairs [1] none]

theorem underwater_reach : Reach env underwater := after_reach open_reach _

/-- `c54_liquidatable` applies: account 100 can be liquidated, whoever tries. -/
example : ∃ s' o, step env anyone underwater (.liquidate 100 ⟨BASE, d 3000⟩ none) = Except.ok (s', o) := by
  obtain ⟨acc, ha, h1, h2, h3, h4⟩ := tested (s := underwater) (a := 100) (P := fun acc => acc.positions.keys = [1] ∧
    (∀ e ∈ acc.positions.entries, (underwater.pool.position underwater.now e.1).lastUpdate = underwater.now) ∧
    underwater.accountValue acc < underwater.maintenanceMargin acc ∧
    acc.collateralBalances.sum underwater.market.collValue ≤ d 3000) (by decide +kernel)
  rcases c54_liquidatable underwater_reach (whole _) (b := ⟨BASE, d 3000⟩) (permitted (by decide +kernel)) ha
    (by decide +kernel) rfl (by rw [h1]; exact pricesReady (by decide +kernel))
    (fun p x hx => h2 (p, x) (AMap.get_eq_some.mp hx)) h3 h4 with h | h
  · exact h
  · obtain ⟨s', o, h', -⟩ := stepped (s := underwater) (op := .liquidate 100 ⟨BASE, d 3000⟩ none) (P := fun _ _ => True) (by decide +kernel)
    rw [h] at h'; cases h'

/-- `c54_liquidation`: refused, and the reason says that the account is healthy. -/
example : LiquidationRefused env open_ 100 ⟨BASE, d 3000⟩ none .sufficientMargin :=
  c54_liquidation open_reach (whole _) (permitted (by decide +kernel)) (failed (by decide +kernel))

/-- `c54_request`: refused, and the reason says that the price limit is not reached. -/
example : RequestRefused env open_ 100 1 none .priceLimit :=
  c54_request open_reach (whole _) (permitted (by decide +kernel)) (failed (by decide +kernel))

/-- `c54_adl`: refused, and the reason says that the skew is too small. -/
example : AdlRefused env open_ 100 1 none .adlSkewTooLow :=
  c54_adl open_reach (whole _) (permitted (by decide +kernel)) (failed (by decide +kernel))

/-- `c55_adl`: a position closed by force pays a fee and gets its profit. -/
example : ∃ s' o, step env anyone (skewed (d 29 1)) (adlAt (d 60000)) = Except.ok (s', o) ∧
    (match o.ev with | .adl e => decide (0 < e.fees.total ∧ 0 < e.pnl) | _ => false) = true :=
  stepped (by decide +kernel)

end Scn

end Perp
