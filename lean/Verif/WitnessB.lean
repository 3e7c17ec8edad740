import Verif.WitnessA
import Verif.Debt
import Verif.Claiming
import Verif.Access
import Verif.Positions
import Verif.Fees

/-!
# Concrete cases for C16 to C36
-/

namespace Perp.Scn

/-- Run one call on an account and test the result. -/
def trialOn (s : State) (a : Addr) (op : Op) (P : State → Out → Account → Account → Bool) : Bool :=
  match step env anyone s op, s.accounts.get a with
  | .ok r, some acc => match r.1.accounts.get a with
    | some acc' => P r.1 r.2 acc acc'
    | none => false
  | _, _ => false

theorem steppedOn {s : State} {a : Addr} {op : Op} {P : State → Out → Account → Account → Prop}
    [∀ s o x y, Decidable (P s o x y)] (h : trialOn s a op (fun s o x y => decide (P s o x y)) = true) :
    ∃ s' o acc acc', step env anyone s op = Except.ok (s', o) ∧ s.accounts.get a = some acc ∧
      s'.accounts.get a = some acc' ∧ P s' o acc acc' := by
  unfold trialOn at h
  split at h
  · rename_i r acc hr ha
    split at h
    · rename_i acc' ha'
      exact ⟨r.1, r.2, acc, acc', hr, ha, ha', of_decide_eq_true h⟩
    · cases h
  · cases h

/-- The first order of account 100 as recorded. -/
def buy : MarginOrderReq :=
  { pair := 1, amount := d 2, reduceOnly := false, priceLimit := .none, slippageLimit := .none, activate := [1, 2], cancel := [] }

/-- The execution of the first order: the position grows from 0 to 2. -/
theorem bought : ∃ s' o acc acc', step env anyone due (.processRequest 100 0 none) = Except.ok (s', o) ∧
    due.accounts.get 100 = some acc ∧ s'.accounts.get 100 = some acc' ∧ (acc.size 1 = 0 ∧ acc'.size 1 = d 2 ∧
      (∃ kr ∈ acc.requests[0]?, kr.request = .marginOrder buy) ∧ o.ev ≠ .expired ∧
      (match o.ev with | .order e => decide (e.pair = 1 ∧ e.price = d 50000 ∧ 0 < e.fees.total) | _ => false) = true) :=
  steppedOn (by decide +kernel)

theorem not_shrunk : ¬ Shrunk 0 (d 2) := by
  unfold Shrunk; decide

/-- `c16_open_needs_margin`: opening the position of 2. -/
example : ∃ s' o acc acc', step env anyone due (.processRequest 100 0 none) = Except.ok (s', o) ∧
    due.accounts.get 100 = some acc ∧ s'.accounts.get 100 = some acc' ∧ s'.initialMargin acc' ≤ s'.accountValue acc' := by
  obtain ⟨s', o, acc, acc', h, ha, ha', h0, h1, -⟩ := bought
  exact ⟨s', o, acc, acc', h, ha, ha', c16_open_needs_margin due_reach h ha ha' (p := 1) (by rw [h0, h1]; exact not_shrunk)⟩

/-- `c17_withdrawal` and `c24_withdrawal_is_local`: account 100 withdraws 1000 base tokens and 10000 tokens. -/
example : ∃ s' o acc acc', step env anyone leaving (.processRequest 100 4 none) = Except.ok (s', o) ∧
    leaving.accounts.get 100 = some acc ∧ s'.accounts.get 100 = some acc' ∧
    acc'.vb = acc.vb - totalOf (o.paid.map Prod.snd) BASE ∧ totalOf (o.paid.map Prod.snd) BASE ≤ max acc.vb 0 ∧
    s'.initialMargin acc' ≤ s'.accountValue acc' ∧ s'.pool.positions = leaving.pool.positions ∧
    s'.accounts.get 200 = leaving.accounts.get 200 := by
  obtain ⟨s', o, acc, acc', h, ha, ha', ⟨kr, hk, hr⟩, hx⟩ := steppedOn (s := leaving) (a := 100) (op := .processRequest 100 4 none)
    (P := fun _ o acc _ => (∃ kr ∈ acc.requests[4]?, kr.request =
      .removeCollateral { target := 55, claims := [(BASE, d 600), (10, d 10000), (BASE, d 400)] }) ∧ o.ev ≠ .expired)
    (by decide +kernel)
  obtain ⟨-, -, -, h1, -, acc1, h2, h3, -, h4⟩ := c17_withdrawal leaving_reach h ha hk hr hx
  obtain ⟨h5, h6, -⟩ := c24_withdrawal_is_local leaving_reach h ha hk hr hx
  rw [ha'] at h2; cases h2
  exact ⟨s', o, acc, acc', h, ha, ha', h3, h1, h4, h6, h5 200 (by decide)⟩

/-- What `c18` needs of account 100 in `open_`. -/
theorem healthy : ∃ acc, open_.accounts.get 100 = some acc ∧ open_.initialMargin acc ≤ open_.accountValue acc ∧
    open_.FundingCurrent acc ∧ open_.MarginsOrdered acc := by
  obtain ⟨acc, h1, h2, h4⟩ := tested (s := open_) (a := 100) (P := fun acc => open_.initialMargin acc ≤ open_.accountValue acc ∧
      ∀ e ∈ acc.positions.entries, (open_.pool.position open_.now e.1).lastUpdate = open_.now ∧
        (open_.market.pair e.1).marginMaintenance ≤ (open_.market.pair e.1).marginInitial) (by decide +kernel)
  exact ⟨acc, h1, h2, fun p x hx => (h4 (p, x) ((AMap.get_eq_some).mp hx)).1,
    fun p x hx => (h4 (p, x) ((AMap.get_eq_some).mp hx)).2⟩

/-- `c18_healthy_not_liquidatable` -/
example (cl : Caller) (b : Bucket) (s' : State) (o : Out) (hp : s'.oracle.prices = open_.oracle.prices) :
    step env cl open_ (.liquidate 100 b none) ≠ Except.ok (s', o) := by
  obtain ⟨acc, h1, h2, h3, h4⟩ := healthy
  exact c18_healthy_not_liquidatable h1 h2 h3 h4 hp

/-- `c18_not_liquidatable_after_order`: right after the first order. -/
example : ∃ s' o, step env anyone due (.processRequest 100 0 none) = Except.ok (s', o) ∧
    ∀ cl b r, step env cl s' (.liquidate 100 b none) ≠ Except.ok r := by
  obtain ⟨s', o, acc, acc', h, ha, ha', h0, h1, h4⟩ := steppedOn (s := due) (a := 100) (op := .processRequest 100 0 none)
    (P := fun s' _ acc acc' => acc.size 1 = 0 ∧ acc'.size 1 = d 2 ∧
      ∀ e ∈ acc'.positions.entries, (s'.pool.position s'.now e.1).lastUpdate = s'.now ∧
        (s'.market.pair e.1).marginMaintenance ≤ (s'.market.pair e.1).marginInitial) (by decide +kernel)
  exact ⟨s', o, h, fun cl b r => c18_not_liquidatable_after_order due_reach h ha ha' (p := 1) (by rw [h0, h1]; exact not_shrunk)
    (fun p x hx => (h4 (p, x) ((AMap.get_eq_some).mp hx)).1) (fun p x hx => (h4 (p, x) ((AMap.get_eq_some).mp hx)).2) b r⟩

/-- `c19_only_below_maintenance`, `c19_complete` and `c20_liquidation_fee`: the liquidation of account 100. -/
example : ∃ s' o acc acc' e taken, step env anyone underwater (.liquidate 100 ⟨BASE, d 3000⟩ none) = Except.ok (s', o) ∧
    underwater.accounts.get 100 = some acc ∧ s'.accounts.get 100 = some acc' ∧ o.ev = .liquidate e ∧
    e.accountValue < e.margin ∧ (∀ p, acc'.positions.get p = none) ∧ 0 ≤ taken ∧
    s'.pool.baseTokens = underwater.pool.baseTokens + taken ∧ 0 ≤ e.fees.total := by
  obtain ⟨s', o, acc, acc', h, ha, ha', -⟩ := steppedOn (s := underwater) (a := 100) (op := .liquidate 100 ⟨BASE, d 3000⟩ none)
    (P := fun _ _ _ _ => True) (by decide +kernel)
  obtain ⟨h1, e, he, h2, h3⟩ := c19_only_below_maintenance h ha
  obtain ⟨acc1, taken, h4, h5, -, -, -, h6, -, -, -, -, h7⟩ := c19_complete underwater_reach h ha
  rw [ha'] at h4; cases h4
  exact ⟨s', o, acc, acc', e, taken, h, ha, ha', he, by rw [h2, h3]; exact h1, h5, h6, h7,
    (c20_liquidation_fee underwater_reach h he ha).1⟩

/-- `c20_order_fee`, `c21_fee_split` and `c21_order_charge`: the fee of the first order is positive. -/
example : ∃ s' o acc acc' e, step env anyone due (.processRequest 100 0 none) = Except.ok (s', o) ∧
    due.accounts.get 100 = some acc ∧ s'.accounts.get 100 = some acc' ∧ o.ev = .order e ∧ 0 < e.fees.total ∧
    e.fees.total * ONE * ONE ≤ due.config.exchange.decompress.feeMax * e.price * (|e.amountClose| + |e.amountOpen|) ∧
    SplitExact due s' (Op.referrer due (.processRequest 100 0 none)) e.fees ∧ acc'.vb = acc.vb + e.pnl := by
  obtain ⟨s', o, acc, acc', h, ha, ha', -, -, -, -, hev⟩ := bought
  cases he : o.ev with
  | order e =>
    rw [he] at hev
    have hev := of_decide_eq_true hev
    exact ⟨s', o, acc, acc', e, h, ha, ha', he, hev.2.2, (c20_order_fee due_reach h he).2.2,
      c21_fee_split due_reach h (by rw [he]; rfl), (c21_order_charge due_reach h he ha ha').2⟩
  | _ => rw [he] at hev; cases hev

/-- The auto-deleverage of a winning long position. -/
theorem deleveraged : ∃ s' o acc acc' e, step env anyone (skewed (d 29 1)) (adlAt (d 60000)) = Except.ok (s', o) ∧
    (skewed (d 29 1)).accounts.get 100 = some acc ∧ s'.accounts.get 100 = some acc' ∧ o.ev = .adl e ∧ 0 < acc.size 1 := by
  obtain ⟨s', o, acc, acc', h, ha, ha', h1, h2⟩ := steppedOn (s := skewed (d 29 1)) (a := 100) (op := adlAt (d 60000))
    (P := fun _ o acc _ => 0 < acc.size 1 ∧ (match o.ev with | .adl _ => true | _ => false) = true) (by decide +kernel)
  cases he : o.ev with
  | adl e => exact ⟨s', o, acc, acc', e, h, ha, ha', he, h1⟩
  | _ => rw [he] at h2; cases h2

/-- `c20_adl_fee`, `c21_adl_charge`, `c28_adl`, `c29_long_ranked_partial` -/
example : ∃ s' o acc acc' e, step env anyone (skewed (d 29 1)) (adlAt (d 60000)) = Except.ok (s', o) ∧
    (skewed (d 29 1)).accounts.get 100 = some acc ∧ s'.accounts.get 100 = some acc' ∧ o.ev = .adl e ∧
    0 ≤ e.fees.total ∧ acc'.positions.get 1 = none ∧ acc'.vb = acc.vb + e.pnl ∧
    (∃ accrued, (skewed (d 29 1)).config.exchange.decompress.skewRatioCap < (skewed (d 29 1)).markedRatio 1 e.price accrued) ∧
    (∃ accrued, adlLine (skewed (d 29 1)).config.exchange.decompress ((skewed (d 29 1)).markedRatio 1 e.price accrued) <
      relativeProfit (acc.size 1) (acc.costOf 1) e.price) := by
  obtain ⟨s', o, acc, acc', e, h, ha, ha', he, h1⟩ := deleveraged
  obtain ⟨h2, h3, -, h4⟩ := c21_adl_charge (skewed_reach _) h he ha ha'
  obtain ⟨e1, x, h5, -, -, h6, -⟩ := c28_adl (skewed_reach _) h ha
  obtain ⟨e2, y, h7, -, -, -, h8⟩ := c29_long_ranked_partial (skewed_reach _) h ha h1
  rw [he] at h5 h7
  cases h5; cases h7
  exact ⟨s', o, acc, acc', e, h, ha, ha', he, (c20_adl_fee (skewed_reach _) h he).1, h3, h4, ⟨x, h6⟩, ⟨y, h8⟩⟩

/-- `c22_order_size`, `c23_limits`, `c24_order_is_local`, `c26_open_limits` and `c27_order_skew`: the first order. -/
example : ∃ s' o acc acc' e t, step env anyone due (.processRequest 100 0 none) = Except.ok (s', o) ∧
    due.accounts.get 100 = some acc ∧ s'.accounts.get 100 = some acc' ∧
    acc'.size 1 = orderResult 0 (d 2) false ∧ o.ev = .order e ∧ s'.oracle.prices.get 1 = some (e.price, t) ∧
    s'.accounts.get 200 = due.accounts.get 200 ∧ acc'.collateralBalances = acc.collateralBalances ∧
    acc'.positions.size ≤ s'.config.exchange.decompress.positionsMax ∧
    (s'.pool.skewRatio < s'.config.exchange.decompress.skewRatioCap ∨
      ∃ price t, s'.oracle.prices.get 1 = some (price, t) ∧
        |mulT ((s'.pool.position s'.now 1).oiLong - (s'.pool.position s'.now 1).oiShort) price| <
        |mulT ((due.pool.position due.now 1).oiLong - (due.pool.position due.now 1).oiShort) price|) := by
  obtain ⟨s', o, acc, acc', h, ha, ha', h0, h1, ⟨kr, hk, hr⟩, hx, -⟩ := bought
  obtain ⟨acc1, g1, g2⟩ := c22_order_size due_reach h ha hk hr hx
  rw [ha'] at g1; cases g1
  obtain ⟨acc1, e, t, g1, g3, g4, -⟩ := c23_limits due_reach h ha hk hr hx
  rw [ha'] at g1; cases g1
  obtain ⟨k1, -, ⟨acc1, g1, k2, -⟩, -⟩ := c24_order_is_local due_reach h ha hk hr hx
  rw [ha'] at g1; cases g1
  obtain ⟨k3, -⟩ := c26_open_limits due_reach h ha ha' hk hr hx (by
    change ¬ Shrunk (acc.size 1) (acc'.size 1); rw [h0, h1]; exact not_shrunk)
  refine ⟨s', o, acc, acc', e, t, h, ha, ha', ?_, g3, g4, k1 200 (by decide), k2, k3, c27_order_skew h ha hk hr hx⟩
  change acc'.size 1 = orderResult (acc.size 1) (d 2) false at g2
  rw [h0] at g2
  exact g2

/-- `c22_reduce_only`: closing 3 of a short position of 2 with a reduce-only order leaves nothing. -/
example : |orderResult (-2) 3 true| = |(-2 : Int)| - min |(3 : Int)| |(-2 : Int)| :=
  (c22_reduce_only (-2) 3).2 (Or.inr ⟨by decide, by decide⟩)

/-- `c25_recorded_is_held`: the 50000 tokens of account 100 are in its vault. -/
example : ∃ acc, open_.accounts.get 100 = some acc ∧ (acc.collateral.get 10).getD 0 = d 50000 := by
  obtain ⟨acc, ha, h1⟩ := tested (s := open_) (a := 100) (P := fun acc => (acc.collateralBalances.get 10).getD 0 = d 50000)
    (by decide +kernel)
  exact ⟨acc, ha, by rw [← (c25_recorded_is_held open_reach ha 10).1]; exact h1⟩

/-- `c25_no_zero_balance`: a liquidation hands out all of the tokens. -/
example : ∃ s' o acc', step env anyone underwater (.liquidate 100 ⟨BASE, d 3000⟩ none) = Except.ok (s', o) ∧
    s'.accounts.get 100 = some acc' ∧ (∃ b ∈ o.given, b.res = 10) ∧ ∀ x, acc'.collateralBalances.get 10 = some x → 0 < x := by
  obtain ⟨s', o, acc, acc', h, ha, ha', b, hb, hr⟩ := steppedOn (s := underwater) (a := 100) (op := .liquidate 100 ⟨BASE, d 3000⟩ none)
    (P := fun _ o _ _ => ∃ b ∈ o.given, b.res = 10) (by decide +kernel)
  obtain ⟨acc1, h1, h2⟩ := c25_no_zero_balance underwater_reach h (Or.inr (Or.inr ⟨_, _, rfl⟩)) ha
  rw [ha'] at h1; cases h1
  exact ⟨s', o, acc', h, ha', ⟨b, hb, hr⟩, h2 10 (Or.inl ⟨b, hb, hr, by decide⟩)⟩

/-- `c26_active_requests` -/
example : ∃ s' o acc', step env anyone open_ (.marginOrderRequest none 100 (order 1 (d 1)) [] [] STATUS_ACTIVE) = Except.ok (s', o) ∧
    s'.accounts.get 100 = some acc' ∧ acc'.active.card ≤ open_.config.exchange.decompress.activeRequestsMax := by
  obtain ⟨s', o, h, -⟩ := stepped (s := open_) (op := .marginOrderRequest none 100 (order 1 (d 1)) [] [] STATUS_ACTIVE)
    (P := fun _ _ => True) (by decide +kernel)
  obtain ⟨acc', h1⟩ := c26_active_requests (a := 100) open_reach h (Or.inr (Or.inl ⟨_, _, _, _, _, rfl⟩))
  exact ⟨s', o, acc', h, h1⟩

/-- `c26_collaterals` -/
example : ∃ s' o acc', step env anyone open_ (.addCollateral none 200 [⟨10, d 5⟩]) = Except.ok (s', o) ∧
    s'.accounts.get 200 = some acc' ∧ acc'.collateralBalances.size ≤ s'.config.exchange.decompress.collateralsMax := by
  obtain ⟨s', o, acc, acc', h, ha, ha', -⟩ := steppedOn (s := open_) (a := 200) (op := .addCollateral none 200 [⟨10, d 5⟩])
    (P := fun _ _ _ _ => True) (by decide +kernel)
  exact ⟨s', o, acc', h, ha', c26_collaterals open_reach h (Or.inl ⟨_, _, rfl⟩) ha'⟩

/-- `c27_remove_liquidity_skew` -/
example : ∃ s' o, step env anyone open_ (.removeLiquidity ⟨LP, d 100⟩) = Except.ok (s', o) ∧
    s'.pool.skewRatio < s'.config.exchange.decompress.skewRatioCap := by
  obtain ⟨s', o, h, -⟩ := stepped (s := open_) (op := .removeLiquidity ⟨LP, d 100⟩) (P := fun _ _ => True) (by decide +kernel)
  exact ⟨s', o, h, c27_remove_liquidity_skew h⟩

/-- `c29_threshold_falls` -/
example : adlLine open_.config.exchange.decompress (d 2) ≤ adlLine open_.config.exchange.decompress (d 1) :=
  c29_threshold_falls open_reach (by decide +kernel) (by decide)

/-- `c30_swap_debt` -/
example : ∃ s' o acc acc' repaid, step env anyone indebted (.swapDebt 100 10 ⟨BASE, d 1000⟩ none) = Except.ok (s', o) ∧
    indebted.accounts.get 100 = some acc ∧ s'.accounts.get 100 = some acc' ∧ acc.vb < 0 ∧ 0 ≤ repaid ∧
    acc'.vb = acc.vb + repaid ∧ acc'.vb ≤ 0 := by
  obtain ⟨s', o, acc, acc', h, ha, ha', -⟩ := steppedOn (s := indebted) (a := 100) (op := .swapDebt 100 10 ⟨BASE, d 1000⟩ none)
    (P := fun _ _ _ _ => True) (by decide +kernel)
  obtain ⟨h1, -, acc1, got, repaid, taken, h2, -, h3, h4, h5, -⟩ := c30_swap_debt indebted_reach h ha
  rw [ha'] at h2; cases h2
  exact ⟨s', o, acc, acc', repaid, h, ha, ha', h1, h3, h4, h5⟩

/-- `c30_debt_price`: the tokens are worth 0.05 and are sold for 0.0495. -/
example : open_.market.debtPrice 10 = d 495 4 ∧ open_.market.debtPrice 10 ≤ d 5 2 := by
  refine ⟨by decide +kernel, ?_⟩
  cases hc : open_.market.coll 10 with
  | none => exact absurd hc (by decide +kernel)
  | some cc =>
    have hid : cc.pairId = 7 := by
      have : (open_.market.coll 10).map CollateralConfig.pairId = some 7 := by decide +kernel
      rw [hc] at this
      exact Option.some.inj this
    have := (c30_debt_price open_reach hc (by rw [hid]; decide +kernel)).2
    rw [hid] at this
    exact le_trans this (by decide +kernel)

/-- `c31_add`, `c31_remove` and `c31_pro_rata` -/
example : ∃ s1 o1 minted fee s2 o2 paid price fee', step env anyone open_ (.addLiquidity ⟨BASE, d 100⟩) = Except.ok (s1, o1) ∧
    Added env open_ s1 ⟨BASE, d 100⟩ minted fee ∧ step env anyone open_ (.removeLiquidity ⟨LP, d 100⟩) = Except.ok (s2, o2) ∧
    Removed env open_ s2 ⟨LP, d 100⟩ paid price fee' ∧ paid * open_.lpSupply ≤ d 100 * max open_.pool.value 0 := by
  obtain ⟨s1, o1, h1, -⟩ := stepped (s := open_) (op := .addLiquidity ⟨BASE, d 100⟩) (P := fun _ _ => True) (by decide +kernel)
  obtain ⟨s2, o2, h2, -⟩ := stepped (s := open_) (op := .removeLiquidity ⟨LP, d 100⟩) (P := fun _ _ => True) (by decide +kernel)
  obtain ⟨minted, fee, -, -, h3⟩ := c31_add open_reach h1
  obtain ⟨paid, price, fee', hb, -, -, h4⟩ := c31_remove open_reach h2
  obtain ⟨paid', hb', -, h5⟩ := c31_pro_rata open_reach h2
  rw [hb] at hb'; cases hb'
  exact ⟨s1, o1, minted, fee, s2, o2, paid, price, fee', h1, h3, h2, h4, h5⟩

/-- `c32_paid_once` and `c32_second_call_pays_nothing`: collecting the treasury twice. -/
example : ∃ s1 o1 s2 o2 paid rest rest', step env anyone open_ .collectTreasury = Except.ok (s1, o1) ∧
    o1.buckets = ⟨BASE, paid⟩ :: rest ∧ paid ≤ open_.dist.treasury ∧ open_.dist.treasury < paid + env.gran BASE ∧
    step env anyone s1 .collectTreasury = Except.ok (s2, o2) ∧ o2.buckets = ⟨BASE, 0⟩ :: rest' := by
  obtain ⟨s1, o1, h1, h2⟩ := stepped (s := open_) (op := .collectTreasury)
    (P := fun s1 _ => trial s1 .collectTreasury (fun _ _ => decide True) = true) (by decide +kernel)
  obtain ⟨s2, o2, h2, -⟩ := stepped h2
  obtain ⟨⟨paid, rest, h3, h4, h5, -⟩, -⟩ := c32_paid_once open_reach h1 rfl
  obtain ⟨rest', h6, -⟩ := c32_second_call_pays_nothing open_reach (op' := .collectTreasury) h1 rfl trivial h2
  exact ⟨s1, o1, s2, o2, paid, rest, rest', h1, h3, h4, h5, h2, h6⟩

/-- `c32_protocol_burn` -/
example : ∃ s' o burn, step env anyone open_ (.swapProtocolFee ⟨PROTOCOL, d 200000⟩) = Except.ok (s', o) ∧
    o.burnt = [⟨PROTOCOL, burn⟩] ∧ open_.config.exchange.decompress.protocolBurnAmount ≤ burn := by
  obtain ⟨s', o, h, -⟩ := stepped (s := open_) (op := .swapProtocolFee ⟨PROTOCOL, d 200000⟩) (P := fun _ _ => True) (by decide +kernel)
  obtain ⟨burn, paid, -, h1, -, h2, -⟩ := c32_protocol_burn open_reach h
  exact ⟨s', o, burn, h, h1, h2⟩

/-- Referral 1 has two accounts and earns from the order of one of them. -/
def earning : State := after claimedTwice [.addCollateral none 301 [⟨BASE, d 5000⟩],
  .marginOrderRequest none 301 (order 1 (d 1)) [] [] STATUS_ACTIVE, .tick 1040, .processRequest 301 0 none]

theorem earning_reach : Reach env earning := after_reach claimedTwice_reach _

/-- `c33_balances_nonnegative`: the referrer's balance is positive. -/
example : 0 ≤ earning.dist.protocol ∧ ∃ x, earning.referrals.get 1 = some x ∧ 0 < x.balance ∧ x.balance ≤ x.totalRewarded := by
  obtain ⟨h1, -, -, h2⟩ := c33_balances_nonnegative earning_reach
  cases hx : earning.referrals.get 1 with
  | none => exact absurd hx (by decide +kernel)
  | some x =>
    refine ⟨h1, x, rfl, ?_, (h2 1 x hx).2⟩
    have : (earning.referrals.get 1).all (fun x => decide (0 < x.balance)) = true := by decide +kernel
    rw [hx] at this
    exact of_decide_eq_true this

/-- `c34_backed` -/
example : codes.promised 10 = d 21 ∧ codes.promised 10 ≤ codes.backing 10 :=
  ⟨by decide +kernel, ((c34_backed codes_reach).1 10).2⟩

/-- `c34_use_counted`: one more account with the code for four. -/
example : ∃ s' o, step env anyone codes (.createAccount 303 none .allowAll [] (some 4)) = Except.ok (s', o) ∧
    ∃ c, codes.refgen.codes.get 5004 = some c ∧ c.count < c.maxCount ∧
      s'.refgen.codes.get 5004 = some { c with count := c.count + 1 } := by
  obtain ⟨s', o, h, -⟩ := stepped (s := codes) (op := .createAccount 303 none .allowAll [] (some 4)) (P := fun _ _ => True)
    (by decide +kernel)
  obtain ⟨h1, h2⟩ := c34_use_counted h 5004
  obtain ⟨c, hc, hlt⟩ := h1 (by decide)
  have := h2 c hc
  rw [if_pos (by decide)] at this
  exact ⟨s', o, h, c, hc, hlt, this⟩

/-- `c34_uses_bounded`: whatever happens next, at most two more. -/
example (ops : List Op) (s' : State) (h : Trace env claimedTwice ops s') :
    2 + ops.countP (fun op => op.claims env 5004) ≤ 4 :=
  c34_uses_bounded claimedTwice_reach h 5004 (c := ⟨1, [], 2, 4⟩) (by decide +kernel)

/-- `c35_counts_exact` -/
example : (claimedTwice.granted 1 : Int) = claimedTwice.issued 1 ∧ claimedTwice.referred 1 = claimedTwice.used 1 ∧
    claimedTwice.referred 1 = 2 ∧ claimedTwice.referred 1 ≤ claimedTwice.granted 1 := by
  obtain ⟨h1, h2, h3⟩ := c35_counts_exact claimedTwice_reach 1
  exact ⟨h1, h2, by decide +kernel, h3⟩

/-- `c35_granted_within_limit`: two more codes. -/
example : ∃ s' o x, step env anyone codes (.createReferralCodes 1 [] (AMap.empty.set 5005 ([], 2))) = Except.ok (s', o) ∧
    codes.granted 1 < s'.granted 1 ∧ s'.referrals.get 1 = some x ∧ s'.granted 1 ≤ x.maxReferrals := by
  obtain ⟨s', o, h, h1⟩ := stepped (s := codes) (op := .createReferralCodes 1 [] (AMap.empty.set 5005 ([], 2)))
    (P := fun s' _ => codes.granted 1 < s'.granted 1) (by decide +kernel)
  obtain ⟨x, h2⟩ := (c35_granted_within_limit h 1).2 h1
  exact ⟨s', o, x, h, h1, h2⟩

/-- `c36_levels`, `c36_rules_change` and `c36_set_level`: the holder of account 100 changes the rule of level 3. -/
example : ∃ s' o acc acc', step env anyone open_ (.setLevelAuth none 100 .l3 (.prot (.proof 20))) = Except.ok (s', o) ∧
    open_.accounts.get 100 = some acc ∧ s'.accounts.get 100 = some acc' ∧ acc.level1.sat anyone.pf = true ∧
    acc'.rule .l3 = .prot (.proof 20) ∧ acc'.rule .l2 = acc.rule .l2 := by
  obtain ⟨s', o, acc, acc', h, ha, ha', hn⟩ := steppedOn (s := open_) (a := 100) (op := .setLevelAuth none 100 .l3 (.prot (.proof 20)))
    (P := fun _ _ acc acc' => acc'.rule .l3 ≠ acc.rule .l3) (by decide +kernel)
  obtain ⟨acc1, acc2, h1, h2, h3, h4⟩ := c36_set_level h
  rw [ha] at h1; cases h1
  rw [ha'] at h2; cases h2
  exact ⟨s', o, acc, acc', h, ha, ha', (c36_rules_change h ha ha' hn).1, h3, h4 .l2 (by decide)⟩

/-- `c36_levels` -/
example : ∃ acc, open_.accounts.get 100 = some acc ∧ (acc.rule .l2).sat anyone.pf = true := by
  obtain ⟨s', o, h, -⟩ := stepped (s := open_) (op := .removeCollateralRequest none 1000 100 55 [(BASE, d 1)]) (P := fun _ _ => True)
    (by decide +kernel)
  exact c36_levels h rfl

/-- `c36_created` -/
example : ∃ s' o acc', step env anyone open_ (.createAccount 300 none (.prot (.proof 33)) [⟨BASE, d 5⟩] none) = Except.ok (s', o) ∧
    s'.accounts.get 300 = some acc' ∧ acc'.rule .l2 = .prot (.proof 33) := by
  obtain ⟨s', o, h, -⟩ := stepped (s := open_) (op := .createAccount 300 none (.prot (.proof 33)) [⟨BASE, d 5⟩] none)
    (P := fun _ _ => True) (by decide +kernel)
  obtain ⟨-, acc', h1, h2⟩ := c36_created h
  exact ⟨s', o, acc', h, h1, h2 .l2⟩

/-- `c36_new_request`: a new withdrawal request. -/
example : ∃ acc, open_.accounts.get 100 = some acc ∧ acc.level2.sat anyone.pf = true := by
  obtain ⟨s', o, acc, acc', h, ha, ha', ⟨r, hi, hq⟩, hn⟩ := steppedOn (s := open_) (a := 100)
    (op := .removeCollateralRequest none 1000 100 55 [(BASE, d 1)])
    (P := fun _ _ acc acc' => (∃ r ∈ acc'.requests[3]?, r.request = .removeCollateral ⟨55, [(BASE, d 1)]⟩) ∧ acc.requests[3]? = none)
    (by decide +kernel)
  exact ⟨acc, ha, (c36_new_request open_reach h ha ha' hi hn).1 _ hq⟩

/-- `c36_cancelled`: cancelling the take-profit order. -/
example : ∃ acc, open_.accounts.get 100 = some acc ∧ ((acc.level3.sat anyone.pf = true ∧
    ∃ oath is, Op.cancelRequests none 100 [1] = .cancelRequests oath 100 is ∧ 1 ∈ is) ∨
    ∃ j u, ∃ q : KeeperRequest, Op.cancelRequests none 100 [1] = .processRequest 100 j u ∧ acc.requests[j]? = some q ∧ 1 ∈ q.request.cancels) := by
  obtain ⟨s', o, acc, acc', h, ha, ha', ⟨r, hi, h1⟩, r', hi', h2⟩ := steppedOn (s := open_) (a := 100) (op := .cancelRequests none 100 [1])
    (P := fun _ _ acc acc' => (∃ r ∈ acc.requests[1]?, r.status ≠ STATUS_CANCELLED) ∧ (∃ r ∈ acc'.requests[1]?, r.status = STATUS_CANCELLED))
    (by decide +kernel)
  exact ⟨acc, ha, c36_cancelled open_reach h ha ha' hi hi' h1 h2⟩

end Perp.Scn
