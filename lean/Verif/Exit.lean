import Verif.Executes
import Verif.RefusalsAll
import Verif.Asked
import Verif.Access
import Verif.Debt
import Verif.Adl
import Verif.Orders
import Verif.Known

/-!
# C67: who holds no position is safe, and free to leave

An account without positions and without debt cannot be liquidated, deleveraged or sold off, at whatever
prices, and nothing anybody else calls changes it (`c67_call`, `c67_untouched`); and its holder gets the
tokens out, whatever others do in between (`c67_exit`).
-/

namespace Perp

/-! ## Specification -/

/-- An account without positions and without debt. -/
structure Account.AtRest (acc : Account) : Prop where
  flat : ∀ p, acc.positions.get p = none
  solvent : 0 ≤ acc.vb

/-- A caller who satisfies none of the account's three rules. -/
def Account.Stranger (acc : Account) (cl : Caller) : Prop := ∀ l, (acc.rule l).sat cl.pf = false

/-- Calls by strangers to account `a`, whatever they call and whatever else they may do, except that nobody executes a pending
request of `a`. -/
inductive Strangers (env : Env) (a : Addr) : State → State → Prop where
  | refl {s : State} : Strangers env a s s
  | step {s s' s'' : State} {cl : Caller} {op : Op} {o : Out} : Strangers env a s s' →
      (∀ acc, s'.accounts.get a = some acc → acc.Stranger cl ∧ (acc.active = ∅ ∨ ∀ i u, op ≠ .processRequest a i u)) →
      step env cl s' op = Except.ok (s'', o) → Strangers env a s s''

/-! ## Collateral covers its own margin -/

theorem coll_covers {m : Market} {r : Res} {x : Dec} (hx : 0 ≤ x)
    (hm : ∀ cc, m.coll r = some cc → cc.Bounded ∧ 0 ≤ m.price cc.pairId) :
    m.collMargin r x ≤ m.collValue r x ∧ 0 ≤ m.collMargin r x := by
  unfold Market.collMargin Market.collValue
  cases hc : m.coll r with
  | none => simp
  | some cc =>
    obtain ⟨hb, hp⟩ := hm cc hc
    have h1 : (decLit 1 1 : Int) ≤ decLit 8 1 := by decide
    have h2 := mulT_nonneg hx hp
    simp only
    refine ⟨mulT_mono_nonneg (le_refl _) ?_ h2 ?_, mulT_nonneg h2 hb.margin.1⟩
    · exact hb.margin.2.trans (h1.trans hb.discount.1)
    · exact le_trans hb.margin.1 (hb.margin.2.trans (h1.trans hb.discount.1))

theorem rest_covered {m : Market} {f : PairConfig → Dec} {rebate vb : Dec} {pos : AMap PairId AccountPosition} {bal : AMap Res Dec}
    (hpos : ∀ p, pos.get p = none) (hvb : 0 ≤ vb) (hbal : ∀ r x, bal.get r = some x → 0 ≤ x)
    (hm : ∀ r cc, m.coll r = some cc → cc.Bounded ∧ 0 ≤ m.price cc.pairId) :
    m.margin f pos bal ≤ m.value rebate pos bal vb := by
  have e : ∀ g : PairId → AccountPosition → Int, pos.sum g = 0 := by
    intro g
    exact AMap.sum_zero (fun k v hk => by rw [hpos] at hk; cases hk)
  unfold Market.margin Market.value
  rw [e, e]
  have := AMap.sum_le (f := m.collMargin) (g := m.collValue) (m := bal)
    (fun k v hk => (coll_covers (hbal k v hk) (fun cc hc => hm k cc hc)).1)
  omega

theorem balances_nonneg {env : Env} {s : State} {a : Addr} {acc : Account} (h : Reach env s) (ha : s.accounts.get a = some acc)
    (r : Res) (x : Dec) (hx : acc.collateralBalances.get r = some x) : 0 ≤ x :=
  ((c25_recorded_is_held h ha r).2 x hx).1

/-! ## Safe -/

/-- **C67, safe.** An account without positions and without debt can be neither liquidated nor deleveraged nor made to sell its
collateral, by anybody, at whatever prices. -/
theorem c67_safe {env : Env} {cl : Caller} {s : State} {a : Addr} {acc : Account} (h : Reach env s)
    (ha : s.accounts.get a = some acc) (hr : acc.AtRest) (op : Op)
    (hop : (∃ b u, op = .liquidate a b u) ∨ (∃ p u, op = .autoDeleverage a p u) ∨ ∃ r b u, op = .swapDebt a r b u) :
    ∀ x, step env cl s op ≠ Except.ok x := by
  rintro ⟨s', o⟩ hs
  rcases hop with ⟨b, u, rfl⟩ | ⟨p, u, rfl⟩ | ⟨r, b, u, rfl⟩
  · have hlt := (c19_only_below_maintenance hs ha).1
    obtain ⟨acc0, acc', ids, s1, c, w0, w, tokens, e, hrun, -⟩ := run_liquidate (step_body hs)
    refine absurd (rest_covered hr.flat hr.solvent (balances_nonneg h ha) ?_) (not_le.mpr hlt)
    intro r cc hc
    have hc' : s'.market.coll r = some cc := hc
    unfold State.market at hc'
    simp only [hrun.config, Option.map_eq_some_iff] at hc'
    obtain ⟨x, hx, rfl⟩ := hc'
    refine ⟨(reach_inForce h).colls r x hx, ?_⟩
    obtain ⟨y, -, hy⟩ := (keeperLoad_prices hrun.load).2.2 r x hx
    obtain ⟨h1, h2⟩ := hrun.price hy
    show 0 ≤ s'.market.price x.pairId
    rw [h1]; exact le_of_lt h2
  · obtain ⟨e, _, -, -, -, -, -, hne, -⟩ := c28_adl h hs ha
    apply hne
    unfold Account.size
    rw [hr.flat p]
    rfl
  · have := (c30_swap_debt h hs ha).1
    exact absurd hr.solvent (not_le.mpr this)

/-- **C67, one call.** No call of a stranger changes an account at rest (unless it executes a pending request). -/
theorem c67_call {env : Env} {cl : Caller} {s s' : State} {a : Addr} {acc : Account} {op : Op} {o : Out} (h : Reach env s)
    (ha : s.accounts.get a = some acc) (hr : acc.AtRest) (hc : acc.Stranger cl)
    (hp : acc.active = ∅ ∨ ∀ i u, op ≠ .processRequest a i u)
    (hs : step env cl s op = Except.ok (s', o)) : s'.accounts.get a = some acc := by
  by_cases ho : op.account = some a
  swap
  · rw [body_accounts (step_body hs) a ho]; exact ha
  exfalso
  have hn : ∀ l, op.needs ≠ some (a, l) := by
    intro l hl
    obtain ⟨acc', h1, h2⟩ := c36_levels hs hl
    rw [ha] at h1; cases h1
    rw [hc l] at h2; cases h2
  cases op <;> simp only [Op.account, Option.some.injEq, reduceCtorEq] at ho <;> subst ho
  case createAccount f r t c =>
    have := (c36_created hs).1
    rw [ha] at this; cases this
  case processRequest i u =>
    rcases hp with hp | hp
    · obtain ⟨acc', _, r, _, h1, h2, -, -, h3, -, h4⟩ := process_requires h hs
      rw [ha] at h1; cases h1
      have : i ∈ acc.active := by
        rw [active_mem (reach_requestsOk h _ _ ha)]
        refine ⟨h3, r, h2, ?_⟩
        rcases h4 with ⟨-, -, h5 | h5, -⟩ | ⟨-, -, h5, -⟩ <;> rw [h5] <;> decide
      rw [hp] at this
      simp at this
    · exact hp i u rfl
  case liquidate b u => exact c67_safe h ha hr _ (Or.inl ⟨b, u, rfl⟩) _ hs
  case autoDeleverage p u => exact c67_safe h ha hr _ (Or.inr (Or.inl ⟨p, u, rfl⟩)) _ hs
  case swapDebt r b u => exact c67_safe h ha hr _ (Or.inr (Or.inr ⟨r, b, u, rfl⟩)) _ hs
  all_goals exact hn _ rfl

/-- **C67, untouched.** In no history of strangers' calls does an account at rest change. -/
theorem c67_untouched {env : Env} {s s' : State} {a : Addr} {acc : Account} (h : Reach env s)
    (ha : s.accounts.get a = some acc) (hr : acc.AtRest) (hm : Strangers env a s s') :
    Reach env s' ∧ s'.accounts.get a = some acc := by
  induction hm with
  | refl => exact ⟨h, ha⟩
  | step _ hc hs ih =>
    obtain ⟨h1, h2⟩ := ih
    obtain ⟨h3, h4⟩ := hc acc h2
    exact ⟨h1.step hs, c67_call h1 h2 hr h3 h4 hs⟩

/-! ## Free to leave -/

theorem claims_nonneg {l : List (Res × Dec)} (h : ∀ x ∈ l, 0 ≤ x.2) (r : Res) : 0 ≤ claimed l r := by
  induction l with
  | nil => simp [claimed]
  | cons e l ih =>
    rw [claimed_cons]
    have h1 := h e (by simp)
    have h2 := ih (fun x hx => h x (by simp [hx]))
    split <;> omega

theorem claimed_none {l : List (Res × Dec)} {r : Res} (h : ∀ x ∈ l, x.1 ≠ r) : claimed l r = 0 := by
  induction l with
  | nil => simp [claimed]
  | cons e l ih =>
    rw [claimed_cons, if_neg (h e (by simp)), ih (fun x hx => h x (by simp [hx]))]; rfl

/-- What is left of an account at rest passes the margin check. -/
theorem rest_withdrawn {env : Env} {s : State} {a : Addr} {acc : Account} {claims : List (Res × Dec)} (h : Reach env s)
    (ha : s.accounts.get a = some acc) (hr : acc.AtRest) (hp : s.PricesReady []) (hpos : ∀ x ∈ claims, 0 ≤ x.2)
    (hbase : claimed claims BASE ≤ acc.vb)
    (hbal : ∀ x ∈ claims, x.1 ≠ BASE → ∃ b, acc.collateralBalances.get x.1 = some b ∧ claimed claims x.1 ≤ b) :
    ∃ left, Withdrawn env acc left claims ∧ s.initialMargin left ≤ s.accountValue left := by
  have down : ∀ r, 0 ≤ amountFor (env.gran r) (claimed claims r) .toZero ∧
      amountFor (env.gran r) (claimed claims r) .toZero ≤ claimed claims r := by
    intro r
    obtain ⟨h1, -, -, h2⟩ := amountFor_down (env.gran_pos r) (claims_nonneg hpos r) rfl
    exact ⟨h2, h1⟩
  let g : Res → Dec → Dec := fun r b => b - (if r = BASE then 0 else amountFor (env.gran r) (claimed claims r) .toZero)
  let left : Account := { acc with
    vb := acc.vb - amountFor (env.gran BASE) (claimed claims BASE) .toZero
    collateralBalances := acc.collateralBalances.mapV g }
  refine ⟨left, ⟨rfl, rfl, fun r => ?_⟩, ?_⟩
  · show ((acc.collateralBalances.mapV g).get r).getD 0 = _
    rw [AMap.get_mapV]
    cases hg : acc.collateralBalances.get r with
    | some b => rfl
    | none =>
      simp only [Option.map_none, Option.getD_none]
      by_cases hb : r = BASE
      · simp [hb]
      · rw [if_neg hb, claimed_none (l := claims) (r := r), amountFor_zero]; rfl
        rintro x hx rfl
        obtain ⟨b, h1, -⟩ := hbal x hx hb
        rw [hg] at h1; cases h1
  · refine rest_covered (pos := acc.positions) hr.flat ?_ ?_ ?_
    · have := (down BASE).2
      show 0 ≤ acc.vb - _
      omega
    · intro r x hx
      replace hx : (acc.collateralBalances.mapV g).get r = some x := hx
      rw [AMap.get_mapV, Option.map_eq_some_iff] at hx
      obtain ⟨b, hb, rfl⟩ := hx
      have hb0 := balances_nonneg h ha r b hb
      show 0 ≤ b - _
      split
      · omega
      · have h1 := (down r).2
        by_cases hin : ∃ y ∈ claims, y.1 = r
        · obtain ⟨y, hy, rfl⟩ := hin
          obtain ⟨b', h2, h3⟩ := hbal y hy (by assumption)
          rw [hb] at h2; cases h2
          omega
        · rw [claimed_none (fun y hy e => hin ⟨y, hy, e⟩)] at h1
          rw [claimed_none (fun y hy e => hin ⟨y, hy, e⟩)]
          omega
    · intro r cc hc
      unfold State.market at hc
      simp only [Option.map_eq_some_iff] at hc
      obtain ⟨x, hx, rfl⟩ := hc
      refine ⟨(reach_inForce h).colls r x hx, ?_⟩
      obtain ⟨y, h1, t, h2, -⟩ := hp.colls r x hx
      show 0 ≤ s.market.price x.pairId
      unfold State.market
      simp only [h2, Option.map_some, Option.getD_some]
      exact le_of_lt h1

/-- **C67, free to leave.** The holder of an account at rest asks for any of the tokens in it; strangers do what they like; and
when a keeper then executes the request, in time and with usable prices of the collaterals, exactly those tokens are paid to the
target.  Nothing is asked of anybody else, except that the pool has the base tokens asked for; only an arithmetic overflow can
interfere. -/
theorem c67_exit {env : Env} {cl : Caller} {s : State} {a target : Addr} {acc : Account} {claims : List (Res × Dec)} {expiry : Nat}
    (h : Reach env s) (ha : s.accounts.get a = some acc) (hr : acc.AtRest)
    (hp : Permitted cl s (.removeCollateralRequest none expiry a target claims)) (hl : acc.level2.sat cl.pf = true)
    (hlen : claims.length ≤ 10) (hact : acc.active.card + 1 ≤ s.config.exchange.decompress.activeRequestsMax)
    (htime : ¬ TimeOverflow s.now 0 expiry)
    (hpos : ∀ x ∈ claims, 0 ≤ x.2) (hbase : claimed claims BASE ≤ acc.vb)
    (hbal : ∀ x ∈ claims, x.1 ≠ BASE → ∃ b, acc.collateralBalances.get x.1 = some b ∧ claimed claims x.1 ≤ b)
    (hwallet : env.isWallet target = true) :
    ∃ s1 o1 i, step env cl s (.removeCollateralRequest none expiry a target claims) = Except.ok (s1, o1) ∧
      o1.indexes = [some i] ∧
      ∀ {s2 : State} {kp : Caller}, Strangers env a s1 s2 → s.now < s2.now → s2.now < s.now + u64AsI64 expiry →
        s2.RewardWhole env → Permitted kp s2 (.processRequest a i none) → s2.PricesReady [] →
        claimed claims BASE ≤ s2.pool.baseTokens →
        (∃ s3 o, step env kp s2 (.processRequest a i none) = Except.ok (s3, o) ∧ (∀ x ∈ o.paid, x.1 = target) ∧
          ∀ r, totalOf (o.paid.map Prod.snd) r = amountFor (env.gran r) (claimed claims r) .toZero) ∨
        step env kp s2 (.processRequest a i none) = Except.error .arithmetic := by
  obtain ⟨⟨s1, o1⟩, h1⟩ := (c54_withdrawal_request_exact h hp).mpr ⟨acc, ha, hl, fun e he => by
    cases e <;> simp only [RemovalRefused] at he
    · exact htime he
    · omega
    · omega⟩
  obtain ⟨acc0, ha0, ho1, hs1⟩ := c60_withdrawal_request h h1
  rw [ha] at ha0; cases ha0
  refine ⟨s1, o1, acc.requests.length, h1, by rw [ho1], ?_⟩
  intro s2 kp hm hnow hexp hw hpp hready htok
  have ha1 : s1.accounts.get a = some (acc.placed none
      [⟨.removeCollateral { target, claims }, s.now, s.now + u64AsI64 expiry, STATUS_ACTIVE, [target]⟩]) := by
    rw [hs1]; exact AMap.get_set_self ..
  generalize hacc1 : acc.placed none
      [⟨.removeCollateral { target, claims }, s.now, s.now + u64AsI64 expiry, STATUS_ACTIVE, [target]⟩] = acc1 at ha1
  have hvb1 : acc1.vb = acc.vb := by rw [← hacc1]; simp [Account.placed, oathAmt]
  have hb1 : acc1.collateralBalances = acc.collateralBalances := by rw [← hacc1]; rfl
  have hp1 : acc1.positions = acc.positions := by rw [← hacc1]; rfl
  have hr1 : acc1.AtRest := ⟨by rw [hp1]; exact hr.flat, by rw [hvb1]; exact hr.solvent⟩
  obtain ⟨h2, ha2⟩ := c67_untouched (h.step h1) ha1 hr1 hm
  have hk : acc1.requests[acc.requests.length]? =
      some ⟨.removeCollateral { target, claims }, s.now, s.now + u64AsI64 expiry, STATUS_ACTIVE, [target]⟩ := by
    rw [← hacc1]; simp [Account.placed]
  have hkeys : acc1.positions.keys = [] := by
    rw [List.eq_nil_iff_forall_not_mem]
    intro p hp
    obtain ⟨x, hx⟩ := AMap.mem_keys.mp hp
    rw [hr1.flat p] at hx; cases hx
  have hstart : acc1.validStart ≤ acc.requests.length := by
    have : acc1.validStart = acc.validStart := by rw [← hacc1]; rfl
    rw [this]; exact (reach_requestsOk h _ _ ha).1
  obtain ⟨left, hleft, hmarg⟩ := rest_withdrawn (env := env) (claims := claims) h2 ha2 hr1 hready hpos (by rw [hvb1]; exact hbase)
    (by rw [hb1]; exact hbal)
  rcases c54_withdrawal_executes h2 hw hpp ha2 hk rfl rfl hstart hnow hexp (by rw [hkeys]; exact hready) hwallet hpos
    (by rw [hvb1]; exact hbase) htok (by rw [hb1]; exact hbal) hleft hmarg with ⟨s3, o, tokens, h3, h4, h5⟩ | h3
  · left
    refine ⟨s3, o, h3, ?_, ?_⟩
    · obtain ⟨acc0, acc', kr', ids, s1, c, w0, w, out, hrun, hkr, -, -, hex, hev, hpd, -⟩ :=
        run_execute (step_body h3) (by rw [h4]; simp)
      have e := hrun.before
      rw [ha2] at e; cases e
      rw [hk] at hkr; cases hkr
      rcases executeRequest_ok hex with ⟨q', tokens, hq', hrc, ho⟩ | ⟨q', e, hq', hmo, ho⟩
      case inr => cases hq'
      cases hq'
      intro x hx
      rw [hpd, ho] at hx
      obtain ⟨y, -, rfl⟩ := List.mem_map.mp hx
      rfl
    · intro r
      exact c17_exact h3 ha2 hk rfl (by rw [h4]; simp) r
  · exact Or.inr h3

/-! ## Closing a position -/

/-- A history of calls by anybody, none of which names account `a`. -/
inductive Elsewhere (env : Env) (a : Addr) : State → State → Prop where
  | refl {s : State} : Elsewhere env a s s
  | step {s s' s'' : State} {cl : Caller} {op : Op} {o : Out} : Elsewhere env a s s' → op.account ≠ some a →
      step env cl s' op = Except.ok (s'', o) → Elsewhere env a s s''

theorem elsewhere_account {env : Env} {a : Addr} {s s' : State} (h : Reach env s) (hm : Elsewhere env a s s') :
    Reach env s' ∧ s'.accounts.get a = s.accounts.get a := by
  induction hm with
  | refl => exact ⟨h, rfl⟩
  | step _ hn hs ih => exact ⟨ih.1.step hs, by rw [body_accounts (step_body hs) a hn, ih.2]⟩

/-- **C67, a position can be closed.** The holder of a position, however small, asks to close it, by a reduce-only order of at least
its size without limits; others go about their business; and when a keeper then executes the order, in time, with usable prices,
and the pool's skew in the pair would not grow, the position is closed. -/
theorem c67_close {env : Env} {cl : Caller} {s : State} {a : Addr} {acc : Account} {q : OrderArgs} (h : Reach env s)
    (ha : s.accounts.get a = some acc) (hq1 : q.reduceOnly = true) (hq2 : q.priceLimit = .none) (hq3 : q.slippageLimit = .none)
    (hamt : (0 < acc.size q.pair ∧ q.amount ≤ -acc.size q.pair) ∨ (acc.size q.pair < 0 ∧ -acc.size q.pair ≤ q.amount))
    (hmin : (s.market.pair q.pair).tradeSizeMin ≤ |q.amount|) (hin : InRange |q.amount|)
    (hp : Permitted cl s (.marginOrderRequest none a q [] [] STATUS_ACTIVE)) (hl : acc.level3.sat cl.pf = true)
    (hact : acc.active.card + 1 ≤ s.config.exchange.decompress.activeRequestsMax)
    (htime : ¬ TimeOverflow s.now q.delay q.expiry) :
    ∃ s1 o1 i, step env cl s (.marginOrderRequest none a q [] [] STATUS_ACTIVE) = Except.ok (s1, o1) ∧ o1.indexes = [some i] ∧
      ∀ {s2 : State} {kp : Caller}, Elsewhere env a s1 s2 → s.now + u64AsI64 q.delay < s2.now →
        s2.now < s.now + u64AsI64 q.delay + u64AsI64 q.expiry → s2.RewardWhole env → Permitted kp s2 (.processRequest a i none) →
        s2.PricesReady acc.positions.keys →
        |mulT (s2.netOi q.pair - acc.size q.pair) (s2.market.price q.pair)| < |mulT (s2.netOi q.pair) (s2.market.price q.pair)| →
        (∃ s3 o acc3, step env kp s2 (.processRequest a i none) = Except.ok (s3, o) ∧ s3.accounts.get a = some acc3 ∧
          acc3.size q.pair = 0) ∨
        step env kp s2 (.processRequest a i none) = Except.error .arithmetic := by
  have hpos : ∃ pos, acc.positions.get q.pair = some pos := by
    cases hg : acc.positions.get q.pair with
    | some pos => exact ⟨pos, rfl⟩
    | none =>
      exfalso
      have : acc.size q.pair = 0 := by unfold Account.size; rw [hg]; rfl
      omega
  obtain ⟨pos, hpos⟩ := hpos
  obtain ⟨⟨s1, o1⟩, h1⟩ := (c54_order_request_exact h hp).mpr ⟨acc, ha, hl, fun e he => by
    cases e <;> simp only [OrderRequestRefused] at he
    case arithmetic =>
      rcases he with he | he | ⟨off, he, -⟩
      · exact htime he
      · exact he hin
      · simp at he
    case missingPairConfig =>
      obtain ⟨x, hx⟩ := (reach_resolves h).position a acc _ _ ha hpos
      rw [hx] at he; cases he
    case invalidStatus => exact he.1 rfl
    case effectedTooMany => simp at he
    all_goals omega⟩
  obtain ⟨acc0, act, can, ha0, hact1, hcan1, ho1, hs1⟩ := c60_order_request h h1
  rw [ha] at ha0; cases ha0
  cases hact1; cases hcan1
  refine ⟨s1, o1, acc.requests.length, h1, by rw [ho1], ?_⟩
  intro s2 kp hm hnow hexp hw hpp hready hskew
  have ha1 : s1.accounts.get a = some (acc.placed none [mainOrder s.now q [] [] STATUS_ACTIVE]) := by
    rw [hs1]; exact AMap.get_set_self ..
  generalize hacc1 : acc.placed none [mainOrder s.now q [] [] STATUS_ACTIVE] = acc1 at ha1
  have hp1 : acc1.positions = acc.positions := by rw [← hacc1]; rfl
  have hsz : ∀ p, acc1.size p = acc.size p := by intro p; unfold Account.size; rw [hp1]
  obtain ⟨h2, ha2⟩ := elsewhere_account (h.step h1) hm
  rw [ha1] at ha2
  have hk : acc1.requests[acc.requests.length]? = some (mainOrder s.now q [] [] STATUS_ACTIVE) := by
    rw [← hacc1]; simp [Account.placed]
  have hstart : acc1.validStart ≤ acc.requests.length := by
    have : acc1.validStart = acc.validStart := by rw [← hacc1]; rfl
    rw [this]; exact (reach_requestsOk h _ _ ha).1
  have hcl : closingPart (acc.size q.pair) q.amount = -acc.size q.pair := by
    unfold closingPart
    rcases hamt with ⟨h3, h4⟩ | ⟨h3, h4⟩
    · rw [if_pos ⟨h3, by omega⟩]; omega
    · rw [if_neg (by omega), if_pos ⟨h3, by omega⟩]; omega
  have hkeys : insertId acc1.positions.keys q.pair = acc.positions.keys := by
    rw [hp1]
    unfold insertId
    rw [if_pos (AMap.mem_keys.mpr ⟨pos, hpos⟩)]
  rcases c54_close_executes h2 hw hpp ha2 hk rfl rfl hstart hnow hexp (by
      show s2.PricesReady (insertId acc1.positions.keys q.pair)
      rw [hkeys]; exact hready) hq1 hq2 hq3 (by simp [mainOrder]) (by
      simp only [hsz, hcl]
      exact hskew) with ⟨s3, o, e, h3, h4, -, -⟩ | h3
  · left
    obtain ⟨acc3, h5, h6⟩ := c22_order_size h2 h3 ha2 hk rfl (by rw [h4]; simp)
    refine ⟨s3, o, acc3, h3, h5, ?_⟩
    replace h6 : acc3.size q.pair = orderResult (acc1.size q.pair) q.amount q.reduceOnly := h6
    rw [h6, hsz, hq1]
    have := (c22_reduce_only (acc.size q.pair) q.amount).2 (by omega)
    have h7 : |orderResult (acc.size q.pair) q.amount true| = 0 := by
      rw [this]
      rcases hamt with ⟨h3, h4⟩ | ⟨h3, h4⟩
      · rw [abs_of_pos h3, abs_of_neg (by omega)]; omega
      · rw [abs_of_neg h3, abs_of_pos (by omega)]; omega
    exact abs_eq_zero.mp h7
  · exact Or.inr h3

end Perp
