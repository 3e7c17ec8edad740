import Verif.Positions
import Verif.Limits

/-!
# Swapping debt for collateral (C30)
-/

namespace Perp

/-- The price at which `swap_debt` sells collateral: nine tenths of the discount separates it from the market price, that
is, `price × (0.9 + 0.1 × discount)`; nothing for collateral that is not configured. -/
def Market.debtPrice (m : Market) (r : Res) : Dec :=
  match m.coll r with
  | some cc => mulT (m.price cc.pairId) (mulT cc.discount (decLit 1 1) + decLit 9 1)
  | none => 0

theorem takeOne {env : Env} {m m' : AMap Res Dec} {r : Res} {x : Dec} {bs : List Bucket}
    (h : vaultTakeBatch env .toZero m [(r, x)] = Except.ok (m', bs)) :
    ∃ y, bs = [⟨r, y⟩] ∧ amountFor (env.gran r) x .toZero = y ∧ 0 ≤ y := by
  simp only [vaultTakeBatch, bind_ok, pure_ok, Prod.mk.injEq] at h
  obtain ⟨⟨m1, b⟩, h1, ⟨m2, bs2⟩, h2, rfl, rfl⟩ := h
  simp only [Except.ok.injEq, Prod.mk.injEq] at h2
  obtain ⟨rfl, rfl⟩ := h2
  simp only [vaultTake, bind_ok, pure_ok, takeAmount_ok, Prod.mk.injEq] at h1
  obtain ⟨y, ⟨h1, h2, -, -⟩, -, rfl⟩ := h1
  exact ⟨y, rfl, h1, h2⟩

/-- **C30.** A successful `swap_debt` on an account means that its virtual balance was negative; the debt is repaid by some
amount `repaid`, at most the whole debt, so the balance does not become positive; the collateral handed out is no more than
the account owns and its value at the debt price is at most `repaid`; the caller pays `repaid` rounded up to the
granularity of the base token and gets the rest back; nothing else of the account and no other account changes. -/
theorem c30_swap_debt {env : Env} {cl : Caller} {s s' : State} {a : Addr} {r : Res} {b : Bucket} {u : Option PriceUpdate}
    {o : Out} {acc : Account} (h0 : Reach env s)
    (h : step env cl s (.swapDebt a r b u) = Except.ok (s', o)) (ha : s.accounts.get a = some acc) :
    acc.vb < 0 ∧ b.res = BASE ∧
    ∃ acc' got repaid taken, s'.accounts.get a = some acc' ∧ o.buckets = [⟨r, got⟩, ⟨BASE, b.amt - taken⟩] ∧
      0 ≤ repaid ∧ acc'.vb = acc.vb + repaid ∧ acc'.vb ≤ 0 ∧
      0 ≤ got ∧ got ≤ (acc.collateralBalances.get r).getD 0 ∧
      (∀ q, (acc'.collateralBalances.get q).getD 0 = (acc.collateralBalances.get q).getD 0 - if q = r then got else 0) ∧
      mulT got (s'.market.debtPrice r) ≤ repaid ∧
      repaid ≤ taken ∧ taken < repaid + env.gran BASE ∧ taken ≤ b.amt ∧
      s'.pool.baseTokens = s.pool.baseTokens + taken ∧ s'.pool.vb = s.pool.vb - repaid ∧
      (∀ p, acc'.positions.get p = acc.positions.get p) ∧
      (∀ c, c ≠ a → s'.accounts.get c = s.accounts.get c) := by
  obtain ⟨acc0, acc', s1, c, w0, w, token, rest, e, hrun, hbk, hx, rfl⟩ := run_swapDebt (step_body h)
  have hb := hrun.before
  rw [ha] at hb; cases hb
  have hpos := c49_positions_moved_by h0 h ha hrun.after (by simp [Op.moves])
  obtain ⟨cc, pr, priceRes, amount, value, taken, pool, w1, ac, bs, hres, hvb, hcc, hpr, hprice, ham, htk, hdep, hs, hwd,
    hlast, rfl, rfl, -⟩ := swapDebt_ok hx
  have hpr' := hrun.feeds.price hcc hpr
  obtain ⟨hmp, hp0⟩ := hrun.price hpr'
  have hc := hrun.coll r
  rw [hcc] at hc
  cases hcf : s.config.collaterals.get r with
  | none => rw [hcf] at hc; cases hc
  | some x =>
  rw [hcf] at hc
  simp only [Option.map_some, Option.some.injEq] at hc
  have hbd := (reach_inForce h0).colls r x hcf
  have hdisc := hbd.discount
  rw [← hc] at hdisc
  have hmk : s'.market.debtPrice r = priceRes := by
    unfold Market.debtPrice
    have : s'.market.coll r = some cc := by
      unfold State.market
      simp only [hrun.config, hcf, Option.map_some, hc]
    rw [this]; simp only
    rw [hmp, hprice]
  have h80 : (0 : Int) ≤ decLit 8 1 := by decide
  have hpn : 0 ≤ priceRes := by
    rw [hprice]
    have h9 : (0 : Int) ≤ decLit 9 1 := by decide
    have h1 : (0 : Int) ≤ decLit 1 1 := by decide
    exact mulT_nonneg (le_of_lt hp0) (by have := mulT_nonneg (a := cc.discount) (le_trans h80 hdisc.1) h1; omega)
  obtain ⟨hpne, hcase⟩ := swapDebtAmounts_ok ham
  have hpp : 0 < priceRes := by omega
  have hpay := okBucket_nonneg hbk
  have hvb0 := hrun.vb0
  rw [hvb0] at hvb hcase
  have hmin : 0 ≤ min b.amt (-acc.vb) := by omega
  have hav : w0.acc.collateralAmount r = (acc.collateralBalances.get r).getD 0 := by
    unfold VAccount.collateralAmount AMap.getD; rw [hrun.coll0]
  rw [hav] at hcase
  have hav0 : 0 ≤ (acc.collateralBalances.get r).getD 0 := by
    cases hg : acc.collateralBalances.get r with
    | none => simp
    | some y => exact ((c25_recorded_is_held h0 ha r).2 y hg).1
  have hval : 0 ≤ amount ∧ amount ≤ (acc.collateralBalances.get r).getD 0 ∧ 0 ≤ value ∧ value ≤ -acc.vb ∧
      mulT amount priceRes ≤ value := by
    rcases hcase with ⟨hgt, rfl, rfl⟩ | ⟨hle, rfl, rfl⟩
    · have h1 := divT_mul_le hmin hpp
      have h2 : (acc.collateralBalances.get r).getD 0 * priceRes ≤ divT (min b.amt (-acc.vb)) priceRes * priceRes :=
        Int.mul_le_mul_of_nonneg_right (le_of_lt hgt) hpn
      have h3 := mulT_mul_le hav0 hpn
      have h4 : mulT ((acc.collateralBalances.get r).getD 0) priceRes ≤ min b.amt (-acc.vb) :=
        Int.le_of_mul_le_mul_right (by omega) ONE_pos
      exact ⟨hav0, le_refl _, mulT_nonneg hav0 hpn, by omega, le_refl _⟩
    · have h1 := divT_mul_le hmin hpp
      have h0' := divT_nonneg hmin hpp
      have h3 := mulT_mul_le h0' hpn
      exact ⟨h0', hle, hmin, by omega, Int.le_of_mul_le_mul_right (by omega) ONE_pos⟩
  obtain ⟨v0, v1, v2, v3, v4⟩ := hval
  have htake := withdrawCollateral_take hwd
  obtain ⟨y, rfl, hy, hy0⟩ := takeOne htake.vault
  simp only [List.getLast?_singleton, Option.some.injEq] at hlast
  subst hlast
  have hya := amountFor_toZero_le hy hy0
  rw [max_eq_left v0] at hya
  rw [takeAmount_ok] at htk
  obtain ⟨t1, t2, -, t4⟩ := htk
  have hup := amountFor_up (c.env.gran_pos BASE) value
  rw [t1] at hup
  have henv : c.env = env := (keeperLoad_ok hrun.load).1
  rw [henv] at hup
  have hw1 := settleAccount_ok hs
  have hco := withdrawCollateral_collOnly hwd
  unfold CollOnly at hco
  have hvb' : acc'.vb = acc.vb + value := by
    rw [hrun.vb]
    show ac.vb = _
    rw [hco, hw1]
    simp only
    rw [hvb0]
  have hpool : pool = { w0.pool with base := w0.pool.base + taken, comp := { w0.pool.comp with baseTokens := w0.pool.comp.baseTokens + taken } } := by
    simp only [VPool.deposit, bind_ok, pure_ok, dadd_ok] at hdep
    obtain ⟨_, ⟨-, rfl⟩, _, ⟨-, rfl⟩, rfl⟩ := hdep
    rfl
  have hsub := subBatch_get htake.comp
  have hpl : w1.acc.comp.collateralBalances = acc.collateralBalances := by
    rw [hw1]; simp only; rw [hrun.comp0]
  refine ⟨hvb, hres, acc', y, value, taken, hrun.after, rfl, v2, hvb', by omega, hy0, by omega, ?_, ?_, hup.1, hup.2, t4, ?_, ?_, hpos,
    hrun.others⟩
  · intro q
    rw [(realize_coll hrun.real).2]
    have := hsub q
    have e1 : w1.acc.collPart.2.1 = acc.collateralBalances := hpl
    rw [e1] at this
    have e2 : totalOf [⟨r, y⟩] q = if q = r then y else 0 := by
      rw [totalOf_cons]
      by_cases hq : q = r
      · subst hq; simp [totalOf]
      · rw [if_neg (by simpa using fun h => hq h.symm), if_neg hq]; simp [totalOf]
    rw [e2] at this
    exact this
  · rw [hmk]
    exact le_trans (mulT_mono_left hya hpn) v4
  · rw [hrun.pool]
    show w1.pool.comp.baseTokens = _
    rw [hw1, hpool]
    simp only
    rw [hrun.pool0]; rfl
  · rw [hrun.pool]
    show w1.pool.vb = _
    rw [hw1, hpool]
    simp only
    rw [hrun.pool0]; rfl

/-- The debt price is never above the market price and never more than two per cent below it. -/
theorem c30_debt_price {env : Env} {s : State} {r : Res} {cc : CollateralConfig} (h0 : Reach env s)
    (hc : s.market.coll r = some cc) (hp : 0 ≤ s.market.price cc.pairId) :
    mulT (s.market.price cc.pairId) (decLit 98 2) ≤ s.market.debtPrice r ∧
    s.market.debtPrice r ≤ s.market.price cc.pairId := by
  unfold Market.debtPrice
  rw [hc]
  simp only
  have hc' : (s.config.collaterals.get r).map CollateralConfigC.decompress = some cc := hc
  cases hcf : s.config.collaterals.get r with
  | none => rw [hcf] at hc'; cases hc'
  | some x =>
    have hbd := ((reach_inForce h0).colls r x hcf).discount
    have : x.decompress = cc := by
      rw [hcf] at hc'
      simpa using hc'
    rw [this] at hbd
    have l : mulT (decLit 8 1) (decLit 1 1) ≤ mulT cc.discount (decLit 1 1) := mulT_mono_left hbd.1 (by decide)
    have u : mulT cc.discount (decLit 1 1) ≤ mulT (decLit 1 0) (decLit 1 1) := mulT_mono_left hbd.2 (by decide)
    have e1 : mulT (decLit 8 1) (decLit 1 1) + decLit 9 1 = decLit 98 2 := by decide
    have e2 : mulT (decLit 1 0) (decLit 1 1) + decLit 9 1 = ONE := by decide
    have e3 : (0 : Int) ≤ decLit 98 2 := by decide
    refine ⟨?_, ?_⟩
    · rw [mulT_comm, mulT_comm (s.market.price _)]
      exact mulT_mono_left (by omega) hp
    · exact mulT_le_self hp (by omega) (by omega)

namespace Scn

/-- Account 100 closes its long position at 44800 and is left with a debt. -/
def indebted : State :=
  after open_ [.tick 1040, .oraclePush (prices 1040 (d 44800) (d 2000) (d 5 2)),
    .marginOrderRequest none 100 (order 1 (d (-2)) true) [] [] STATUS_ACTIVE, .tick 1050, .processRequest 100 3 none]

theorem indebted_reach : Reach env indebted := after_reach open_reach _

/-- It owes about 600; somebody offering 1000 gets 12113.2 tokens (0.0495 each) and about 400 back, and the debt is gone. -/
example : Reach env indebted ∧ (indebted.accounts.get 100).map Account.vb = some (-599604356504423216346) ∧
    ∃ s' o, step env anyone indebted (.swapDebt 100 10 ⟨BASE, d 1000⟩ none) = Except.ok (s', o) ∧
      o.buckets = [⟨10, 12113219323320000000000⟩, ⟨BASE, 400395643495576783654⟩] ∧
      (s'.accounts.get 100).map Account.vb = some 0 :=
  ⟨indebted_reach, by decide +kernel, stepped (P := fun s' o =>
      o.buckets = [⟨10, 12113219323320000000000⟩, ⟨BASE, 400395643495576783654⟩] ∧
      (s'.accounts.get 100).map Account.vb = some 0) (by decide +kernel)⟩

end Scn

end Perp
