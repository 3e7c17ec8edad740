import Verif.TradeFair
import Verif.LiquidateFair
import Verif.Debt
import Verif.Positions
import Verif.Asked
import Verif.Adl
import Verif.Limits
import Verif.Claiming
import Verif.Fees
import Verif.Oaths

/-!
# Where an account's profit and loss comes from (C64)

Whatever happens on the ledger, the worth of an account at the mark (its balance plus what its open positions have gained)
changes for two reasons only: the market moved (the prices and funding indexes of the pairs it holds), or the account paid
something in, took something out or was charged the fee that the call reports.  In a market that stands still nobody gains
by trading, in whatever sequence.
-/

namespace Perp

/-! ## Specification -/

/-- What the caller of a liquidation or a debt swap is charged: the payment less the change, which comes last. -/
def Out.charged (o : Out) (payment : Bucket) : Dec := payment.amt - o.buckets.getLast?.elim 0 Bucket.amt

/-- What a call pays into the account (positive) or takes from it (negative): base tokens deposited, base tokens withdrawn,
the fees of an order, a forced close or a liquidation as the call reports them, fee oaths, what a liquidator or debt buyer
pays for the account's collateral, and the debt that a liquidation writes off. -/
def Op.flow (op : Op) (o : Out) (a : Addr) : Dec :=
  if op.account = some a then
    match op with
    | .addCollateral oath _ tokens => totalOf tokens BASE - oathAmt oath
    | .processRequest .. | .autoDeleverage .. =>
      match o.ev with
      | .order e => -e.fees.total
      | .adl e => -e.fees.total
      | _ => -totalOf (o.paid.map Prod.snd) BASE
    | .liquidate _ b _ =>
      match o.ev with
      | .liquidate e => o.charged b - e.fees.total - e.poolLoss
      | _ => 0
    | .swapDebt _ _ b _ => o.charged b
    | _ => -oathAmt op.oath
  else 0

/-- Units of the last decimal place that rounding may move: two for an order, one for a forced close, the smallest amount of
base tokens for a debt swap. -/
def Op.rounds (env : Env) (op : Op) (o : Out) (a : Addr) : Nat :=
  if op.account = some a then
    match op with
    | .swapDebt .. => env.gran BASE
    | _ =>
      match o.ev with
      | .order _ => 2
      | .adl _ => 1
      | _ => 0
  else 0

/-- What the positions of an account gain when the market moves from `s` to `s'`: their size times the change of price,
less the change of the funding they owe. -/
def State.gains (s s' : State) (acc : Account) : Dec :=
  acc.positions.sum (fun p pos => mulT pos.amount (s'.market.price p) - mulT pos.amount (s.market.price p)
    - (pos.fundingDue (s'.market.pool p) - pos.fundingDue (s.market.pool p)))

theorem gains_eq (s s' : State) (acc : Account) : s.gains s' acc = s'.equity acc - s.equity acc := by
  have : acc.positions.sum s'.market.gain = s.gains s' acc + acc.positions.sum s.market.gain := by
    unfold State.gains
    rw [← AMap.sum_add]
    refine AMap.sum_congr (fun p pos _ => ?_)
    unfold Market.gain; ring
  unfold State.equity
  rw [this]; ring

/-! ## One call -/

theorem equity_congr {s : State} {acc acc' : Account} {x : Dec} (hp : ∀ p, acc'.positions.get p = acc.positions.get p)
    (hv : acc'.vb = acc.vb + x) : s.equity acc' = s.equity acc + x := by
  unfold State.equity
  rw [AMap.sum_ext hp, hv]; ring

/-- **C64, one call.** Whatever call succeeds, every account is worth afterwards what its old positions
are worth at the new prices and funding, plus what the call paid in or charged, up to the rounding of a trade. -/
theorem c64_call {env : Env} {cl : Caller} {s s' : State} {op : Op} {o : Out} {a : Addr} {acc acc' : Account}
    (h0 : Reach env s) (h : step env cl s op = Except.ok (s', o)) (ha : s.accounts.get a = some acc)
    (ha' : s'.accounts.get a = some acc') :
    |s'.equity acc' - (s.equity acc + s.gains s' acc + op.flow o a)| ≤ op.rounds env o a := by
  rw [gains_eq, show s.equity acc + (s'.equity acc - s.equity acc) = s'.equity acc by ring]
  by_cases hop : op.account = some a
  case neg =>
    have := body_accounts (step_body h) a hop
    rw [ha, ha'] at this
    cases this
    unfold Op.flow Op.rounds
    rw [if_neg hop, if_neg hop]; simp
  have hb := step_body h
  have exact : ∀ {x : Dec}, acc'.vb = acc.vb + x → ¬ op.moves o a → op.flow o a = x →
      |s'.equity acc' - (s'.equity acc + op.flow o a)| ≤ op.rounds env o a := by
    intro x hv hm hf
    rw [equity_congr (c49_positions_moved_by h0 h ha ha' hm) hv, hf]
    simp
  have holder : op.holder = true → op.flow o a = -oathAmt op.oath → ¬ op.moves o a →
      |s'.equity acc' - (s'.equity acc + op.flow o a)| ≤ op.rounds env o a := by
    intro hh hf hm
    obtain ⟨acc1, he⟩ := holder_effect hb hop hh ha
    have e := he.account
    rw [ha'] at e; cases e
    exact exact (by rw [he.vb]; ring) hm hf
  cases op with
  | createAccount a' oath r t c =>
    cases hop
    obtain ⟨s0, rid, extra, s1, v, s2, w, acc, refs, -, hn, -⟩ := createAccount_ok hb
    rw [ha] at hn; cases hn
  | createRecoveryKey oath a' => exact holder rfl (by simp [Op.flow, hop]) (by simp [Op.moves])
  | addAuthRule oath a' l n => exact holder rfl (by simp [Op.flow, hop]) (by simp [Op.moves])
  | setLevelAuth oath a' l r => exact holder rfl (by simp [Op.flow, hop]) (by simp [Op.moves])
  | removeCollateralRequest oath e a' t c => exact holder rfl (by simp [Op.flow, hop]) (by simp [Op.moves])
  | marginOrderRequest oath a' args act can st => exact holder rfl (by simp [Op.flow, hop]) (by simp [Op.moves])
  | marginOrderTpSlRequest oath a' args tp sl => exact holder rfl (by simp [Op.flow, hop]) (by simp [Op.moves])
  | cancelRequests oath a' is => exact holder rfl (by simp [Op.flow, hop]) (by simp [Op.moves])
  | addCollateral oath a' t =>
    cases hop
    obtain ⟨acc0, acc1, g1, -, g2, g3, -⟩ := c60_add_collateral h
    rw [ha] at g1; cases g1
    have : s'.accounts.get a = some acc1 := by rw [g2]; exact AMap.get_set_self _ _ _
    rw [ha'] at this; cases this
    exact exact (x := totalOf t BASE - oathAmt oath) (by rw [g3]; ring) (by simp [Op.moves]) (by simp [Op.flow, Op.account])
  | processRequest a' i u =>
    cases hop
    by_cases hex : o.ev = .expired
    · refine exact (x := 0) ?_ ?_ ?_
      · obtain ⟨v, v1, r, expired, cfg, hv, hpr, -, -, -, h⟩ := processRequest_ok hb
        obtain ⟨h1, h2, h3, h4, h5, h6, h7, h8⟩ := (holds_load hv ha).req (processRequest_reqOnly hpr)
        rcases h with ⟨-, acc1, refs, hr, he, ho⟩ | ⟨-, s1, c, w, out, acc1, refs, hkl, hex', hr', he, ho⟩
        · have : s'.accounts.get a = some acc1 := by rw [he]; simp only [State.realizedAcc, h1, AMap.get_set_self]
          rw [ha'] at this; cases this
          obtain ⟨_, -, hacc⟩ := realize_ok hr.1
          rw [hacc]
          simp only
          rw [h4]; ring
        · exfalso
          rcases executeRequest_ok hex' with ⟨q, tokens, -, -, rfl⟩ | ⟨q, e, -, -, rfl⟩ <;> rw [ho] at hex <;> simp at hex
      · rintro ⟨-, e, he⟩; rw [hex] at he; cases he
      · have hp : o.paid = [] := by
          obtain ⟨v, v1, r, expired, cfg, hv, hpr, -, -, -, h⟩ := processRequest_ok hb
          rcases h with ⟨-, acc1, refs, hr, he, ho⟩ | ⟨-, s1, c, w, out, acc1, refs, hkl, hex', hr', he, ho⟩
          · rw [ho]
          · exfalso
            rcases executeRequest_ok hex' with ⟨q, tokens, -, -, rfl⟩ | ⟨q, e, -, -, rfl⟩ <;> rw [ho] at hex <;> simp at hex
        simp [Op.flow, Op.account, hex, hp, totalOf_nil]
    · obtain ⟨acc0, acc1, kr, ids, s1, c, w0, w, out, hrun, hkr, -, -, hexe, hev, -, -⟩ := run_execute hb hex
      have e := hrun.before
      rw [ha] at e; cases e
      rcases executeRequest_ok hexe with ⟨q, tokens, hq, hrm, hout⟩ | ⟨q, e, hq, hmo, hout⟩
      · have hno : ∀ e, o.ev ≠ .order e := by intro e he; rw [hev, hout] at he; cases he
        obtain ⟨-, -, -, -, -, acc2, g1, g2, -⟩ := c17_withdrawal h0 h ha hkr hq hex
        rw [ha'] at g1; cases g1
        refine exact (x := -totalOf (o.paid.map Prod.snd) BASE) (by rw [g2]; ring) ?_ ?_
        · rintro ⟨-, e, he⟩; exact hno e he
        · have hev' : o.ev = .removeCollateral q.target tokens := by rw [hev, hout]
          simp only [Op.flow, Op.account, if_true, hev']
      · have he : o.ev = .order e := by rw [hev, hout]
        obtain ⟨s2, -, g1, -, -, g2⟩ := c55_order h0 h he ha ha'
        rw [g2] at g1
        simp only [Op.flow, Op.rounds, Op.account, if_true, he]
        rw [sub_eq_add_neg] at g1 ⊢
        simpa [sub_eq_add_neg] using g1
  | swapDebt a' r b u =>
    cases hop
    obtain ⟨-, -, acc1, got, repaid, taken, g1, g2, -, g3, -, -, -, -, -, g4, g5, -, -, -, g6, -⟩ := c30_swap_debt h0 h ha
    rw [ha'] at g1; cases g1
    rw [equity_congr g6 g3]
    simp only [Op.flow, Op.rounds, Op.account, if_true, Out.charged, g2]
    rw [abs_le]
    simp only [List.getLast?_cons_cons, List.getLast?_singleton, Option.elim_some]
    constructor <;> linarith
  | liquidate a' b u =>
    cases hop
    obtain ⟨-, e, he, -⟩ := c19_only_below_maintenance h ha
    obtain ⟨s1, taken, -, g1, -, g2, -, -, -, g3⟩ := c55_liquidation h0 h he ha ha'
    obtain ⟨acc1, _, g4, g5, -⟩ := c19_complete h0 h ha
    rw [ha'] at g4; cases g4
    have hz : s'.equity acc' = acc'.vb := by
      unfold State.equity
      rw [AMap.sum_congr (g := fun _ _ => 0) (fun p pos hp => by rw [g5 p] at hp; cases hp)]
      simp [AMap.sum]
    rw [hz]
    simp only [Op.flow, Op.rounds, Op.account, if_true, Out.charged, g1, he, Option.elim_some]
    rw [g3] at g2
    rw [show acc'.vb - (s'.equity acc + (b.amt - (b.amt - taken) - e.fees.total - e.poolLoss)) = 0 by linarith]
    simp
  | autoDeleverage a' p u =>
    cases hop
    obtain ⟨e, accrued, he, -⟩ := c28_adl h0 h ha
    obtain ⟨s2, -, g1, -, -, g2⟩ := c55_adl h0 h he ha ha'
    rw [g2] at g1
    simp only [Op.flow, Op.rounds, Op.account, if_true, he]
    simpa [sub_eq_add_neg] using g1
  | _ => cases hop

/-! ## Histories -/

/-- A history of account `a`: successful calls by anybody.  The numbers are what was paid in
less what was charged, what the market gave, and the rounding allowed. -/
inductive Career (env : Env) (a : Addr) (s : State) (acc : Account) : Dec → Dec → Nat → State → Account → Prop where
  | start : s.accounts.get a = some acc → Career env a s acc 0 0 0 s acc
  | call {f g : Dec} {n : Nat} {s1 s2 : State} {acc1 acc2 : Account} {cl : Caller} {op : Op} {o : Out} :
      Career env a s acc f g n s1 acc1 → step env cl s1 op = Except.ok (s2, o) →
      s2.accounts.get a = some acc2 →
      Career env a s acc (f + op.flow o a) (g + s1.gains s2 acc1) (n + op.rounds env o a) s2 acc2

theorem Career.reach {env : Env} {a : Addr} {s s' : State} {acc acc' : Account} {f g : Dec} {n : Nat} (h0 : Reach env s)
    (h : Career env a s acc f g n s' acc') : Reach env s' ∧ s'.accounts.get a = some acc' := by
  induction h with
  | start h => exact ⟨h0, h⟩
  | call _ hs ha ih => exact ⟨.step ih.1 hs, ha⟩

/-- **C64, any history.** Over any history an account's worth changes by what it paid in, less what
it took out and was charged, plus what the positions it held gained from the market while it held them, up to two units of the
last place per order (and the smallest amount of base tokens per debt swap). -/
theorem c64_history {env : Env} {a : Addr} {s s' : State} {acc acc' : Account} {f g : Dec} {n : Nat} (h0 : Reach env s)
    (h : Career env a s acc f g n s' acc') : |s'.equity acc' - (s.equity acc + f + g)| ≤ n := by
  induction h with
  | start => simp
  | call hc hs ha ih =>
    obtain ⟨hr, ha1⟩ := hc.reach h0
    have := c64_call hr hs ha1 ha
    push_cast
    rw [abs_le] at this ih ⊢
    constructor <;> linarith [this.1, this.2, ih.1, ih.2]

/-! ## A market that stands still -/

/-- The funding of every pair the account holds is up to date. -/
def State.UpToDate (s : State) (acc : Account) : Prop :=
  ∀ p pos, acc.positions.get p = some pos → (s.pool.position s.now p).lastUpdate = s.now

/-- No time passes and the prices of the pairs the account holds do not change. -/
def Still (s s' : State) (acc : Account) : Prop :=
  s'.now = s.now ∧ ∀ x ∈ acc.positions.entries, s'.market.price x.1 = s.market.price x.1

/-- **C64, others.** While prices and clock stand still, no call by anybody changes what positions that are up to date are
worth; in particular an account's worth does not change at all through calls on other accounts. -/
theorem c64_still {env : Env} {cl : Caller} {s s' : State} {op : Op} {o : Out} {acc : Account}
    (h0 : Reach env s) (h : step env cl s op = Except.ok (s', o)) (hs : Still s s' acc) (hu : s.UpToDate acc) :
    s.gains s' acc = 0 ∧ s'.equity acc = s.equity acc := by
  have : s.gains s' acc = 0 := by
    unfold State.gains
    rw [AMap.sum_congr (g := fun _ _ => 0) (fun p pos hp => ?_)]
    · simp [AMap.sum]
    rw [hs.2 (p, pos) (AMap.get_eq_some.mp hp)]
    have hf := c43_no_funding p h0 h rfl rfl (.inr (.inr (hu p pos hp)))
    have : pos.fundingDue (s'.market.pool p) = pos.fundingDue (s.market.pool p) := by
      unfold AccountPosition.fundingDue State.market
      simp only
      rw [hs.1, hf.1, hf.2]
    rw [this]; ring
  refine ⟨this, ?_⟩
  rw [gains_eq] at this; linarith

/-- Pairs that a call does not bring up to date keep the account's position in them. -/
theorem positions_outside {env : Env} {cl : Caller} {s s' : State} {op : Op} {o : Out} {a : Addr} {acc acc' : Account}
    (h0 : Reach env s) (h : step env cl s op = Except.ok (s', o)) (ha : s.accounts.get a = some acc)
    (ha' : s'.accounts.get a = some acc') {p : PairId} {pos : AccountPosition} (hp : p ∉ op.updates s o)
    (hg : acc'.positions.get p = some pos) : acc.positions.get p = some pos := by
  by_cases hm : op.moves o a
  case neg => rw [← c49_positions_moved_by h0 h ha ha' hm]; exact hg
  have run : ∀ {acc0 acc1 : Account} {ids u s1 c w0 w}, KeeperRun env s s' a acc0 acc1 ids u s1 c w0 w →
      w.acc.positions.get p = w0.acc.positions.get p → acc.positions.get p = some pos := by
    intro acc0 acc1 ids u s1 c w0 w hrun hpp
    have e := hrun.before
    rw [ha] at e; cases e
    have e := hrun.after
    rw [ha'] at e; cases e
    rw [hrun.positions (reach_noEmpty h0), hpp, hrun.pos0] at hg
    exact (Option.filter_eq_some_iff.mp hg).1
  cases op <;> first | (cases hm; done) | skip
  case processRequest a' i u =>
    obtain ⟨rfl, e, he⟩ := hm
    have hex : o.ev ≠ .expired := by intro hx; rw [hx] at he; cases he
    obtain ⟨acc0, acc1, kr, ids, s1, c, w0, w, out, hrun, hkr, -, -, hexe, hev, -, -⟩ := run_execute (step_body h) hex
    rcases executeRequest_ok hexe with ⟨q, tokens, hq, hrm, hout⟩ | ⟨q, e', hq, hmo, hout⟩
    · rw [hev, hout] at he; cases he
    · rw [hev, hout] at he; cases he
      have hpar := order_parts hmo
      refine run hrun (hpar.pos p ?_)
      intro e
      refine hp ?_
      simp only [Op.updates]
      rw [hev, hout]
      simp [e, hpar.pair]
  case liquidate a' b u =>
    cases hm
    obtain ⟨acc1, _, g4, g5, -⟩ := c19_complete h0 h ha
    rw [ha'] at g4; cases g4
    rw [g5 p] at hg; cases hg
  case autoDeleverage a' p' u =>
    cases hm
    obtain ⟨acc0, acc1, ids, s1, c, w0, w, e', hrun, hids, hl, rfl⟩ := run_adl (step_body h)
    refine run hrun ((autoDeleverage_touches hl).pos p ?_)
    intro e
    exact hp (by simp [Op.updates, e])

theorem upToDate_step {env : Env} {cl : Caller} {s s' : State} {op : Op} {o : Out} {a : Addr} {acc acc' : Account}
    (h0 : Reach env s) (h : step env cl s op = Except.ok (s', o)) (ha : s.accounts.get a = some acc)
    (ha' : s'.accounts.get a = some acc') (hs : s'.now = s.now) (hu : s.UpToDate acc) : s'.UpToDate acc' := by
  intro p pos hp
  have hc := c43_update h0 h
  by_cases hin : p ∈ op.updates s o
  · obtain ⟨d, hb⟩ := hc.1 p hin
    exact hb.stamped.1
  · have := (hc.2 p hin).2.2.2.2
    rw [hs, this]
    exact hu p pos (positions_outside h0 h ha ha' hin hp)

/-- What a call pays into the account, in base tokens: a deposit, the payment for its collateral, the debt written off. -/
def Op.deposits (op : Op) (o : Out) (a : Addr) : Dec :=
  if op.account = some a then
    match op with
    | .addCollateral _ _ tokens => totalOf tokens BASE
    | .liquidate _ b _ => o.charged b - (match o.ev with | .liquidate e => e.poolLoss | _ => 0)
    | .swapDebt _ _ b _ => o.charged b
    | _ => 0
  else 0

/-- **C64, payments.** Nothing is ever paid to an account but what is deposited into it, paid for its collateral or written
off: fees, oaths and withdrawals take. -/
theorem c64_flow {env : Env} {cl : Caller} {s s' : State} {op : Op} {o : Out} {a : Addr} (h0 : Reach env s)
    (h : step env cl s op = Except.ok (s', o)) : op.flow o a ≤ op.deposits o a := by
  have hb := step_body h
  have hoath := (body_oath_nonneg hb).1
  have hfee : ∀ f, o.ev.fees = some f → 0 ≤ f.total := fun f hf => (c21_fee_split h0 h hf).nonneg.1
  unfold Op.flow
  by_cases hop : op.account = some a
  case neg =>
    unfold Op.deposits
    rw [if_neg hop, if_neg hop]
  unfold Op.deposits
  rw [if_pos hop, if_pos hop]
  cases op with
  | addCollateral oath b t =>
    cases hop
    simp only [Op.oath] at hoath
    linarith
  | processRequest b i u =>
    cases hop
    by_cases hex : o.ev = .expired
    · obtain ⟨v, v1, r, expired, cfg, hv, hpr, -, -, -, h⟩ := processRequest_ok hb
      rcases h with ⟨-, acc1, refs, hr, he, ho⟩ | ⟨-, s1, c, w, out, acc1, refs, hkl, hex', hr', he, ho⟩
      · rw [ho]; simp [totalOf_nil]
      · exfalso
        rcases executeRequest_ok hex' with ⟨q, tokens, -, -, rfl⟩ | ⟨q, e, -, -, rfl⟩ <;> rw [ho] at hex <;> simp at hex
    · obtain ⟨acc0, acc1, kr, ids, s1, c, w0, w, out, hrun, hkr, -, -, hexe, hev, -, -⟩ := run_execute hb hex
      rcases executeRequest_ok hexe with ⟨q, tokens, hq, hrm, hout⟩ | ⟨q, e, hq, hmo, hout⟩
      · have hev' : o.ev = .removeCollateral q.target tokens := by rw [hev, hout]
        obtain ⟨-, g, -⟩ := c17_withdrawal h0 h hrun.before hkr hq hex
        simp only [hev']
        have : 0 ≤ totalOf (o.paid.map Prod.snd) BASE := totalOf_nonneg (fun b hb => by
          obtain ⟨x, hx, rfl⟩ := List.mem_map.mp hb
          exact (g x hx).2) _
        linarith
      · have he : o.ev = .order e := by rw [hev, hout]
        simp only [he]
        have := hfee e.fees (by rw [he]; rfl)
        linarith
  | autoDeleverage b p u =>
    cases hop
    obtain ⟨acc0, acc1, ids, s1, c, w0, w, e', hrun, hids, hl, rfl⟩ := run_adl hb
    have := hfee e'.fees rfl
    simp only
    linarith
  | swapDebt b r p u => exact le_refl _
  | liquidate b p u =>
    obtain ⟨acc0, acc1, ids, s1, c, w0, w, tokens, e', hrun, -, hids, hl, rfl⟩ := run_liquidate hb
    have := hfee e'.fees rfl
    simp only
    linarith
  | _ => simp only; linarith

/-- A history of account `a` in a market that stands still.  The numbers are what was paid in less what was charged, what was
paid in, and the rounding allowed. -/
inductive StillCareer (env : Env) (a : Addr) (s : State) (acc : Account) : Dec → Dec → Nat → State → Account → Prop where
  | start : s.accounts.get a = some acc → StillCareer env a s acc 0 0 0 s acc
  | call {f d : Dec} {n : Nat} {s1 s2 : State} {acc1 acc2 : Account} {cl : Caller} {op : Op} {o : Out} :
      StillCareer env a s acc f d n s1 acc1 → step env cl s1 op = Except.ok (s2, o) → Still s1 s2 acc1 →
      s2.accounts.get a = some acc2 →
      StillCareer env a s acc (f + op.flow o a) (d + op.deposits o a) (n + op.rounds env o a) s2 acc2

/-- **C64, nobody gains by trading in a market that stands still.** In whatever sequence an account and all the others trade,
deposit, withdraw and cancel, the account's worth changes by what it paid in less what it took out and was charged, up to two
units of the last place per order of its own. -/
theorem c64_still_history {env : Env} {a : Addr} {s s' : State} {acc acc' : Account} {f d : Dec} {n : Nat} (h0 : Reach env s)
    (hu : s.UpToDate acc) (h : StillCareer env a s acc f d n s' acc') :
    f ≤ d ∧ |s'.equity acc' - (s.equity acc + f)| ≤ n := by
  have key : Reach env s' ∧ s'.accounts.get a = some acc' ∧ s'.UpToDate acc' ∧ f ≤ d ∧
      |s'.equity acc' - (s.equity acc + f)| ≤ n := by
    induction h with
    | start h => exact ⟨h0, h, hu, le_refl _, by simp⟩
    | call hc hs hst ha ih =>
      obtain ⟨hr, ha1, hu1, hfd, ih⟩ := ih
      have hg := (c64_still hr hs hst hu1).1
      have := c64_call hr hs ha1 ha
      rw [hg] at this
      refine ⟨.step hr hs, ha, upToDate_step hr hs ha1 ha hst.1 hu1, by linarith [c64_flow (a := a) hr hs], ?_⟩
      push_cast
      rw [abs_le] at this ih ⊢
      constructor <;> linarith [this.1, this.2, ih.1, ih.2]
  exact key.2.2.2

/-- **C64, round trips lose.** An account without positions that trades in a market that stands still and ends without
positions ends with at most the balance it began with plus what was deposited, up to two units of the last place per order:
precisely, with that less the fees, oaths and withdrawals. -/
theorem c64_round_trip {env : Env} {a : Addr} {s s' : State} {acc acc' : Account} {f d : Dec} {n : Nat} (h0 : Reach env s)
    (h : StillCareer env a s acc f d n s' acc') (hp : acc.positions.entries = []) (hp' : acc'.positions.entries = []) :
    acc'.vb ≤ acc.vb + d + n ∧ |acc'.vb - (acc.vb + f)| ≤ n := by
  have hu : s.UpToDate acc := by
    intro p pos hg
    have := AMap.get_eq_some.mp hg
    rw [hp] at this; cases this
  have := c64_still_history h0 hu h
  have e : ∀ (t : State) (x : Account), x.positions.entries = [] → t.equity x = x.vb := by
    intro t x hx
    unfold State.equity AMap.sum
    rw [hx]; simp
  rw [e _ _ hp, e _ _ hp'] at this
  obtain ⟨h1, h2⟩ := this
  exact ⟨by have := abs_le.mp h2; linarith [this.2], h2⟩

end Perp
