import Verif.Balances
import Verif.Limits

/-!
# Providing and redeeming liquidity (C31)
-/

namespace Perp

/-- The published price of an LP token: pool value (at least 1) over supply; 1 while there are none. -/
def State.lpPrice (s : State) : Dec := if s.lpSupply = 0 then ONE else divT (max s.pool.value ONE) s.lpSupply

theorem accOp_lpSupply {s s' : State} {a : Addr} {lr : Option (Level × Rule)} (h : AccOp s a lr s') :
    s'.lpSupply = s.lpSupply := by
  cases h; rfl

theorem reach_lpSupply {env : Env} {s : State} (h : Reach env s) : 0 ≤ s.lpSupply := by
  refine Reach.induct (P := fun s => 0 ≤ s.lpSupply) (env := env) ?_ ?_ h
  · intro s g; rw [g.lp]
  · intro s s' cl op o h0 hb
    cases body_shape hb with
    | liquidity b l _ _ _ hl => exact hl h0
    | account h => rw [accOp_lpSupply h]; exact h0
    | create g _ _ h => rw [accOp_lpSupply h]; exact h0
    | _ => exact h0

/-- The part of a liquidity fee that leaves the pool. -/
theorem shares_le {ex : ExchangeConfig} (hv : ex.validate = true) {F : Dec} (h0 : 0 ≤ F) :
    0 ≤ mulT F ex.feeShareProtocol ∧ 0 ≤ mulT F ex.feeShareTreasury ∧
    mulT F ex.feeShareProtocol + mulT F ex.feeShareTreasury ≤ F := by
  obtain ⟨h1, h2, h3⟩ := split_bounds hv h0 (x := 0) (by omega)
  exact ⟨h1, h2, by omega⟩

/-- What one `add_liquidity` does. -/
structure Added (env : Env) (s s' : State) (b : Bucket) (minted fee : Dec) : Prop where
  base : b.res = BASE
  paid : 0 ≤ b.amt
  feeIs : fee = mulT b.amt s.config.exchange.decompress.feeLiquidityAdd
  mintedIs : minted = divT (b.amt - fee) s.lpPrice
  nonneg : 0 ≤ minted ∧ 0 ≤ fee
  supply : s'.lpSupply = s.lpSupply + minted
  tokens : s'.pool.baseTokens = s.pool.baseTokens + b.amt
  value : s.pool.value + b.amt - fee ≤ s'.pool.value ∧ s'.pool.value ≤ s.pool.value + b.amt

theorem divT_one (x : Int) : divT x ONE = x := by
  unfold divT; exact Int.mul_tdiv_cancel x (by decide)

theorem lpPrice_pos {s : State} (h0 : 0 ≤ s.lpSupply) : 0 ≤ s.lpPrice := by
  unfold State.lpPrice
  split
  · decide
  · exact divT_nonneg (le_trans ONE_pos.le (le_max_right _ _)) (by omega)

/-- **C31, adding.** `add_liquidity` takes the whole payment into the pool and mints `(payment - fee) / price` LP tokens at
the published price, the fee being the configured share of the payment; the pool's value grows by at least the payment less
the fee. -/
theorem c31_add {env : Env} {cl : Caller} {s s' : State} {b : Bucket} {o : Out} (h0 : Reach env s)
    (h : step env cl s (.addLiquidity b) = Except.ok (s', o)) :
    ∃ minted fee, o.buckets = [⟨LP, minted⟩] ∧ o.paid = [] ∧ Added env s s' b minted fee := by
  obtain ⟨cfg, fee, lp, price, hc, hb, hres, hfee, hlp, hmint, rfl, ho, hp, -⟩ := opAddLiquidity_ok (step_body h)
  have hv := (reach_inForce h0).exchange
  rw [VConfig.new_ex hc] at hfee ⊢
  have hpay := okBucket_nonneg hb
  have hv' := hv
  rw [ExchangeConfig.validate, decide_eq_true_eq] at hv'
  have hf0 : 0 ≤ fee := by rw [hfee]; exact mulT_nonneg hpay hv'.2.2.2.2.2.1
  have hs := shares_le hv hf0
  have hm := (mintAmount_ok.mp hmint).1
  have hsup := reach_lpSupply h0
  have e : lp = divT (b.amt - fee) s.lpPrice := by
    unfold State.lpPrice
    rcases lpMint_ok hlp with ⟨a, e, -⟩ | ⟨a, e1, e2, e3⟩
    · rw [if_pos a, divT_one]; exact e
    · rw [if_neg a, ← e1]; exact e3
  refine ⟨lp, fee, ho, hp, hres, hpay, hfee, e, ⟨hm, hf0⟩, rfl, rfl, ?_⟩
  simp only [Pool.value]; omega

/-- What one `remove_liquidity` does; `price` is the redemption price. -/
structure Removed (env : Env) (s s' : State) (b : Bucket) (paid price fee : Dec) : Prop where
  lp : b.res = LP
  amount : 0 ≤ b.amt ∧ b.amt ≤ s.lpSupply ∧ 0 < s.lpSupply
  priceIs : price = divT (max s.pool.value 0) s.lpSupply
  feeIs : fee = mulT (mulT b.amt price) s.config.exchange.decompress.feeLiquidityRemove
  paidIs : amountFor (env.gran BASE) (mulT b.amt price - fee) .toZero = paid
  nonneg : 0 ≤ paid ∧ 0 ≤ fee
  atMost : paid ≤ max (mulT b.amt price - fee) 0
  supply : s'.lpSupply = s.lpSupply - b.amt
  tokens : s'.pool.baseTokens = s.pool.baseTokens - paid
  value : s.pool.value - paid - fee ≤ s'.pool.value

/-- **C31, redeeming.** `remove_liquidity` burns the LP tokens and pays `amount * price - fee`, rounded down to the
granularity of the base token, where price is the pool's value (at least 0) over the supply. -/
theorem c31_remove {env : Env} {cl : Caller} {s s' : State} {b : Bucket} {o : Out} (h0 : Reach env s)
    (h : step env cl s (.removeLiquidity b) = Except.ok (s', o)) :
    ∃ paid price fee, o.buckets = [⟨BASE, paid⟩] ∧ o.burnt = [b] ∧ o.paid = [] ∧ Removed env s s' b paid price fee := by
  obtain ⟨cfg, price, value, fee, x, hc, hb, hres, hne, hpr, hval, hfee, -, ht, rfl, -, ho, hbu, hp, -⟩ :=
    opRemoveLiquidity_ok (step_body h)
  have hv := (reach_inForce h0).exchange
  rw [VConfig.new_ex hc] at hfee ⊢
  have hpay := okBucket_nonneg hb
  simp only [okBucket, decide_eq_true_eq] at hb
  have hle := hb.2.2.1 hres
  have hpn : 0 ≤ price := by rw [hpr]; exact divT_nonneg (le_max_right _ _) (by omega)
  have hv' := hv
  rw [ExchangeConfig.validate, decide_eq_true_eq] at hv'
  have hf0 : 0 ≤ fee := by rw [hfee, hval]; exact mulT_nonneg (mulT_nonneg hpay hpn) hv'.2.2.2.2.2.2.1
  have hs := shares_le hv hf0
  rw [takeAmount_ok] at ht
  obtain ⟨t1, t2, -, -⟩ := ht
  rw [hval] at t1 hfee
  refine ⟨x, price, fee, ho, hbu, hp, hres, ⟨hpay, hle, by omega⟩, hpr, hfee, t1, ⟨t2, hf0⟩, amountFor_toZero_le t1 t2, rfl, rfl, ?_⟩
  simp only [Pool.value]; omega

/-- **C31, no more than the share.** What `remove_liquidity` pays is at most the pro-rata share of the pool's value. -/
theorem c31_pro_rata {env : Env} {cl : Caller} {s s' : State} {b : Bucket} {o : Out} (h0 : Reach env s)
    (h : step env cl s (.removeLiquidity b) = Except.ok (s', o)) :
    ∃ paid, o.buckets = [⟨BASE, paid⟩] ∧ 0 ≤ paid ∧ paid * s.lpSupply ≤ b.amt * max s.pool.value 0 := by
  obtain ⟨paid, price, fee, ho, -, -, hr⟩ := c31_remove h0 h
  refine ⟨paid, ho, hr.nonneg.1, ?_⟩
  have hpn : 0 ≤ price := by rw [hr.priceIs]; exact divT_nonneg (le_max_right _ _) hr.amount.2.2
  have h1 : price * s.lpSupply ≤ max s.pool.value 0 * ONE := by
    rw [hr.priceIs]; exact divT_mul_le (le_max_right _ _) hr.amount.2.2
  have h2 := mulT_mul_le hr.amount.1 hpn
  have h3 : paid ≤ mulT b.amt price := by
    have := hr.atMost
    have := hr.nonneg.2
    have := mulT_nonneg hr.amount.1 hpn
    omega
  have h4 : paid * ONE ≤ b.amt * price := le_trans (Int.mul_le_mul_of_nonneg_right h3 ONE_pos.le) h2
  have h5 : paid * ONE * s.lpSupply ≤ b.amt * price * s.lpSupply := Int.mul_le_mul_of_nonneg_right h4 hr.amount.2.2.le
  have h6 : b.amt * (price * s.lpSupply) ≤ b.amt * (max s.pool.value 0 * ONE) := Int.mul_le_mul_of_nonneg_left h1 hr.amount.1
  refine Int.le_of_mul_le_mul_right (a := ONE) ?_ ONE_pos
  calc paid * s.lpSupply * ONE = paid * ONE * s.lpSupply := by ring
    _ ≤ b.amt * price * s.lpSupply := h5
    _ = b.amt * (price * s.lpSupply) := by ring
    _ ≤ b.amt * (max s.pool.value 0 * ONE) := h6
    _ = b.amt * max s.pool.value 0 * ONE := by ring

theorem le_divT {q v n : Int} (h : q * n ≤ v * ONE) (hq : 0 ≤ q) (hn : 0 < n) : q ≤ divT v n := by
  have hv : 0 ≤ v * ONE := le_trans (mul_nonneg hq hn.le) h
  unfold divT
  rw [Int.tdiv_eq_ediv_of_nonneg hv]
  exact (Int.le_ediv_iff_mul_le hn).mpr h

/-- **C31, the published price never falls by adding or redeeming.** While the pool is worth at least 1, LP tokens exist
before and after the call, and the fees for adding and removing are at most 100%, neither call lowers the published price: whoever comes
or goes does so at no expense of those who stay. -/
theorem c31_price_never_falls {env : Env} {cl : Caller} {s s' : State} {op : Op} {o : Out} (h0 : Reach env s)
    (h : step env cl s op = Except.ok (s', o)) (hop : ∃ b, op = .addLiquidity b ∨ op = .removeLiquidity b)
    (hV : ONE ≤ s.pool.value) (hS : s.lpSupply ≠ 0) (hS' : s'.lpSupply ≠ 0)
    (hfee : s.config.exchange.decompress.feeLiquidityAdd ≤ ONE)
    (hfee' : s.config.exchange.decompress.feeLiquidityRemove ≤ ONE) : s.lpPrice ≤ s'.lpPrice := by
  have hs0 := reach_lpSupply h0
  have hs1 := reach_lpSupply (.step h0 h)
  have hq : s.lpPrice = divT s.pool.value s.lpSupply := by
    unfold State.lpPrice; rw [if_neg hS, max_eq_left hV]
  have hqn := lpPrice_pos hs0
  have hqs : s.lpPrice * s.lpSupply ≤ s.pool.value * ONE := by
    rw [hq]; exact divT_mul_le (le_trans ONE_pos.le hV) (by omega)
  -- it suffices that the value is at least price times the new supply
  have key : s.lpPrice * s'.lpSupply ≤ s'.pool.value * ONE → s.lpPrice ≤ s'.lpPrice := by
    intro hk
    have hk' : s.lpPrice * s'.lpSupply ≤ max s'.pool.value ONE * ONE :=
      le_trans hk (Int.mul_le_mul_of_nonneg_right (le_max_left _ _) ONE_pos.le)
    have := le_divT hk' hqn (by omega)
    unfold State.lpPrice at this ⊢
    rw [if_neg hS'] at ⊢
    exact this
  apply key
  obtain ⟨b, rfl | rfl⟩ := hop
  · obtain ⟨m, fee, -, -, ha⟩ := c31_add h0 h
    have hfa : fee ≤ b.amt := by
      have hv := (reach_inForce h0).exchange
      rw [ExchangeConfig.validate, decide_eq_true_eq] at hv
      rw [ha.feeIs]
      exact mulT_le_self ha.paid hfee hv.2.2.2.2.2.1
    rw [ha.supply]
    have hm : s.lpPrice * m ≤ (b.amt - fee) * ONE := by
      rw [ha.mintedIs, mul_comm]
      rcases lt_or_eq_of_le hqn with hp | hp
      · exact divT_mul_le (by omega) hp
      · rw [← hp, mul_zero]; exact mul_nonneg (by omega) ONE_pos.le
    have hv := Int.mul_le_mul_of_nonneg_right ha.value.1 ONE_pos.le
    nlinarith
  · obtain ⟨paid, price, fee, -, -, -, hr⟩ := c31_remove h0 h
    rw [hr.supply]
    have hpe : price = s.lpPrice := by
      rw [hr.priceIs, hq, max_eq_left (by have := ONE_pos; omega)]
    have hv := (reach_inForce h0).exchange
    rw [ExchangeConfig.validate, decide_eq_true_eq] at hv
    have hfe := hr.feeIs
    rw [hpe] at hfe
    have hval := mulT_nonneg hr.amount.1 hqn
    have hfl : fee ≤ mulT b.amt s.lpPrice := by
      rw [hfe]; exact mulT_le_self hval hfee' hv.2.2.2.2.2.2.1
    have h2 := mulT_mul_le hr.amount.1 hqn
    have h3 : paid + fee ≤ mulT b.amt s.lpPrice := by
      have := hr.atMost
      rw [hpe] at this
      omega
    have h4 := Int.mul_le_mul_of_nonneg_right hr.value ONE_pos.le
    have h5 := Int.mul_le_mul_of_nonneg_right h3 ONE_pos.le
    nlinarith

/-- **C31, round trip.** While LP tokens exist, adding liquidity and immediately redeeming the LP tokens received pays back
at most the payment plus one smallest unit of the base token per whole LP token, and at most the payment itself if the
fee for adding was at least that much. -/
theorem c31_round_trip {env : Env} {cl cl' : Caller} {s s1 s2 : State} {b : Bucket} {m paid : Dec} {o o' : Out}
    (h0 : Reach env s) (hS : s.lpSupply ≠ 0)
    (h : step env cl s (.addLiquidity b) = Except.ok (s1, o)) (ho : o.buckets = [⟨LP, m⟩])
    (h' : step env cl' s1 (.removeLiquidity ⟨LP, m⟩) = Except.ok (s2, o')) (ho' : o'.buckets = [⟨BASE, paid⟩]) :
    paid * ONE ≤ b.amt * ONE + m ∧
    (m ≤ mulT b.amt s.config.exchange.decompress.feeLiquidityAdd * ONE → paid ≤ b.amt) := by
  obtain ⟨m', fee, e, -, ha⟩ := c31_add h0 h
  rw [ho] at e
  simp only [List.cons.injEq, Bucket.mk.injEq, true_and, and_true] at e
  subst e
  obtain ⟨paid', e, hpn, hpr⟩ := c31_pro_rata (.step h0 h) h'
  rw [ho'] at e
  simp only [List.cons.injEq, Bucket.mk.injEq, true_and, and_true] at e
  subst e
  simp only at hpr
  rw [← ha.feeIs]
  have hs0 := reach_lpSupply h0
  have hSp : 0 < s.lpSupply := by omega
  rw [ha.supply] at hpr
  have hq : s.lpPrice = divT (max s.pool.value ONE) s.lpSupply := by
    unfold State.lpPrice; rw [if_neg hS]
  have hM : ONE ≤ max s.pool.value ONE := le_max_right _ _
  have hqn := lpPrice_pos hs0
  have hlt : max s.pool.value ONE * ONE < s.lpPrice * s.lpSupply + s.lpSupply := by
    rw [hq]; exact lt_divT_mul (le_trans ONE_pos.le hM) hSp
  have hm0 := ha.nonneg.1
  have hf0 := ha.nonneg.2
  have hb0 := ha.paid
  have hv1 : max s1.pool.value 0 ≤ max s.pool.value ONE + b.amt := by
    have := ha.value.2; have := ONE_pos; omega
  have hm00 : b.amt - fee < 0 → m = 0 := by
    intro hx
    have : m ≤ 0 := by
      rw [ha.mintedIs]
      rcases lt_or_eq_of_le hqn with hp | hp
      · have h1 : divT (b.amt - fee) s.lpPrice = -divT (-(b.amt - fee)) s.lpPrice := by
          unfold divT; rw [← Int.neg_tdiv, ← Int.neg_mul, neg_neg]
        rw [h1]
        have := divT_nonneg (a := -(b.amt - fee)) (b := s.lpPrice) (by omega) hp
        omega
      · rw [← hp]; unfold divT; simp
    omega
  have hmq : s.lpPrice * m ≤ max (b.amt - fee) 0 * ONE := by
    rcases lt_or_eq_of_le hqn with hp | hp
    · rcases le_or_gt 0 (b.amt - fee) with hx | hx
      · rw [max_eq_left hx, ha.mintedIs, mul_comm]
        exact divT_mul_le hx hp
      · rw [hm00 hx, max_eq_right hx.le]; simp
    · rw [← hp, zero_mul]; exact mul_nonneg (le_max_right _ _) ONE_pos.le
  -- m * value after <= payment * supply after + rounding
  have k1 : m * max s1.pool.value 0 ≤ m * (max s.pool.value ONE + b.amt) := Int.mul_le_mul_of_nonneg_left hv1 hm0
  have k2 : m * (max s.pool.value ONE * ONE) ≤ m * (s.lpPrice * s.lpSupply + s.lpSupply) :=
    Int.mul_le_mul_of_nonneg_left hlt.le hm0
  have k3 : s.lpPrice * m * s.lpSupply ≤ max (b.amt - fee) 0 * ONE * s.lpSupply :=
    Int.mul_le_mul_of_nonneg_right hmq hSp.le
  generalize max s.pool.value ONE = M at *
  generalize max s1.pool.value 0 = V1 at *
  generalize s.lpPrice = q at *
  generalize s.lpSupply = S at *
  have hsum : 0 < S + m := by omega
  -- paid * (S + m) * ONE <= ...
  have main : paid * ONE * (S + m) ≤ (max (b.amt - fee) 0 * S + m * b.amt) * ONE + m * S := by
    have a1 : paid * (S + m) * ONE ≤ m * (M + b.amt) * ONE :=
      Int.mul_le_mul_of_nonneg_right (le_trans hpr k1) ONE_pos.le
    nlinarith
  refine ⟨?_, ?_⟩
  · refine Int.le_of_mul_le_mul_right (a := S + m) ?_ hsum
    have x1 : max (b.amt - fee) 0 ≤ b.amt := by omega
    have x2 := Int.mul_le_mul_of_nonneg_right (Int.mul_le_mul_of_nonneg_right x1 hSp.le) ONE_pos.le
    have x3 : 0 ≤ m * m := mul_nonneg hm0 hm0
    nlinarith
  · intro hmf
    have x0 : max (b.amt - fee) 0 * S * ONE + m * S ≤ b.amt * S * ONE := by
      rcases le_or_gt 0 (b.amt - fee) with hx | hx
      · rw [max_eq_left hx]
        have := Int.mul_le_mul_of_nonneg_right hmf hSp.le
        nlinarith
      · rw [max_eq_right hx.le] at hmq ⊢
        have hb1 : 0 ≤ b.amt * S * ONE := mul_nonneg (mul_nonneg hb0 hSp.le) ONE_pos.le
        rw [hm00 hx]; simpa using hb1
    have : paid * (S + m) * ONE ≤ b.amt * (S + m) * ONE := by nlinarith
    have := Int.le_of_mul_le_mul_right this ONE_pos
    exact Int.le_of_mul_le_mul_right this hsum

namespace Scn

/-- The hypotheses of `c31_price_never_falls` and `c31_round_trip` are met: paying 10 into a pool of 1,000,000 mints LP
tokens, and the fee exceeds the rounding allowance. -/
example : ∃ s' o, step env anyone ready (.addLiquidity ⟨BASE, d 10⟩) = Except.ok (s', o) ∧
    ready.lpSupply ≠ 0 ∧ ONE ≤ ready.pool.value ∧ s'.lpSupply ≠ 0 ∧
    ready.config.exchange.decompress.feeLiquidityAdd ≤ ONE ∧ ready.config.exchange.decompress.feeLiquidityRemove ≤ ONE ∧
    s'.lpSupply - ready.lpSupply ≤ mulT (d 10) ready.config.exchange.decompress.feeLiquidityAdd * ONE :=
  stepped (by decide +kernel)

/-- ... and redeeming them at once succeeds and pays less than the 10 that were paid in, and more than 9. -/
example : ∃ s' o, step env anyone (after ready [.addLiquidity ⟨BASE, d 10⟩])
      (.removeLiquidity ⟨LP, (after ready [.addLiquidity ⟨BASE, d 10⟩]).lpSupply - ready.lpSupply⟩) = Except.ok (s', o) ∧
    ∃ b ∈ o.buckets, b.res = BASE ∧ d 9 < b.amt ∧ b.amt < d 10 :=
  stepped (by decide +kernel)

/-- The pool of `ready` after its only provider has redeemed everything: no LP tokens, but 699.79 of fees. -/
def drained : State := after ready [.removeLiquidity ⟨LP, ready.lpSupply⟩]

theorem drained_reach : Reach env drained := after_reach ready_reach _

/-- **C31, why "while LP tokens exist".** Once every LP token has been redeemed, the fees left in the pool belong to
whoever pays in next: 10 paid in come straight back as more than 700. -/
theorem c31_empty_pool_windfall : Reach env drained ∧ drained.lpSupply = 0 ∧
    ∃ s1 o1, step env anyone drained (.addLiquidity ⟨BASE, d 10⟩) = Except.ok (s1, o1) ∧
      ∃ s2 o2, step env anyone s1 (.removeLiquidity ⟨LP, s1.lpSupply⟩) = Except.ok (s2, o2) ∧
        ∃ b ∈ o2.buckets, b.res = BASE ∧ d 700 < b.amt := by
  refine ⟨drained_reach, by decide +kernel, ?_⟩
  have h := stepped (s := drained) (op := .addLiquidity ⟨BASE, d 10⟩)
    (P := fun s1 _ => trial s1 (.removeLiquidity ⟨LP, s1.lpSupply⟩)
      (fun _ o2 => decide (∃ b ∈ o2.buckets, b.res = BASE ∧ d 700 < b.amt)) = true) (by decide +kernel)
  obtain ⟨s1, o1, h1, h2⟩ := h
  exact ⟨s1, o1, h1, stepped h2⟩

end Scn

end Perp
