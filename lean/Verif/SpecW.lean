import Verif.Frame

/-!
# Exact results of the internal methods

For every internal method of the exchange: what its successful result is, as an explicit function of
its arguments.  These lemmas are the interface between the model and the property proofs.
-/

namespace Perp

theorem VPool.position_ok {v : VPool} {p : PairId} {pp : PoolPosition} :
    v.position p = Except.ok pp ↔ v.positions.get p = some pp := by
  unfold VPool.position; exact expect_ok

theorem VConfig.pair_ok {c : VConfig} {p : PairId} {pc : PairConfig} :
    c.pair p = Except.ok pc ↔ c.pairs.get p = some pc := by
  unfold VConfig.pair; exact expect_ok

theorem VOracle.price_ok {o : VOracle} {p : PairId} {x : Dec} :
    o.price p = Except.ok x ↔ o.prices.get p = some x := by
  unfold VOracle.price; exact expect_ok

theorem VPool.addVb_ok {v v' : VPool} {a : Dec} (h : v.addVb a = Except.ok v') :
    v' = { v with vb := v.vb + a } := by
  simp only [VPool.addVb, bind_ok, pure_ok, dadd_ok] at h
  obtain ⟨_, ⟨-, rfl⟩, rfl⟩ := h; rfl

theorem VPool.addUnreal_ok {v v' : VPool} {a : Dec} (h : v.addUnreal a = Except.ok v') :
    v' = { v with unreal := v.unreal + a } := by
  simp only [VPool.addUnreal, bind_ok, pure_ok, dadd_ok] at h
  obtain ⟨_, ⟨-, rfl⟩, rfl⟩ := h; rfl

theorem VPool.addSkew_ok {v v' : VPool} {a : Dec} (h : v.addSkew a = Except.ok v') :
    v' = { v with skewSnap := v.skewSnap + a } := by
  simp only [VPool.addSkew, bind_ok, pure_ok, dadd_ok] at h
  obtain ⟨_, ⟨-, rfl⟩, rfl⟩ := h; rfl

theorem VPool.addPnl_ok {v v' : VPool} {a : Dec} (h : v.addPnl a = Except.ok v') :
    v' = { v with pnlSnap := v.pnlSnap + a } := by
  simp only [VPool.addPnl, bind_ok, pure_ok, dadd_ok] at h
  obtain ⟨_, ⟨-, rfl⟩, rfl⟩ := h; rfl

theorem VPool.deposit_ok {v v' : VPool} {a : Dec} (h : v.deposit a = Except.ok v') :
    v' = { v with base := v.base + a, comp := { v.comp with baseTokens := v.comp.baseTokens + a } } := by
  simp only [VPool.deposit, bind_ok, pure_ok, dadd_ok] at h
  obtain ⟨_, ⟨-, rfl⟩, _, ⟨-, rfl⟩, rfl⟩ := h; rfl

theorem VPool.withdraw_ok {env : Env} {v v' : VPool} {a x : Dec} {st : Strategy}
    (h : v.withdraw env a st = Except.ok (v', x)) :
    takeAmount (env.gran BASE) v.comp.baseTokens a st = Except.ok x ∧
    v' = { v with base := v.base - x, comp := { v.comp with baseTokens := v.comp.baseTokens - x } } := by
  simp only [VPool.withdraw, bind_ok, pure_ok, dsub_ok, Prod.mk.injEq] at h
  obtain ⟨y, hy, _, ⟨-, rfl⟩, _, ⟨-, rfl⟩, rfl, rfl⟩ := h
  exact ⟨hy, rfl⟩

theorem VAccount.addVb_ok {v v' : VAccount} {a : Dec} (h : v.addVb a = Except.ok v') :
    v' = { v with vb := v.vb + a } := by
  simp only [VAccount.addVb, bind_ok, pure_ok, dadd_ok] at h
  obtain ⟨_, ⟨-, rfl⟩, rfl⟩ := h; rfl

theorem settleAccount_ok {w w' : W} {x : Dec} (h : settleAccount w x = Except.ok w') :
    w' = { w with pool := { w.pool with vb := w.pool.vb - x }, acc := { w.acc with vb := w.acc.vb + x } } := by
  simp only [settleAccount, bind_ok, pure_ok, dneg_ok] at h
  obtain ⟨_, ⟨-, rfl⟩, pool, hp, acc, ha, rfl⟩ := h
  rw [VPool.addVb_ok hp, VAccount.addVb_ok ha]
  simp [sub_eq_add_neg]

theorem distribute_ok {d d' : FeeDist} {p t : Dec} (h : d.distribute p t = Except.ok d') :
    d' = { protocol := d.protocol + p, treasury := d.treasury + t } := by
  simp only [FeeDist.distribute, bind_ok, pure_ok, dadd_ok] at h
  obtain ⟨_, ⟨-, rfl⟩, _, ⟨-, rfl⟩, rfl⟩ := h; rfl

/-- The parts of a basic fee: protocol and treasury shares are truncated products, the pool keeps the
rest. -/
theorem settleFeesBasic_ok {ex : ExchangeConfig} {pool pool' : VPool} {d d' : FeeDist} {fee : Dec}
    {f : FeeSplit} (h : settleFeesBasic ex pool d fee = Except.ok (pool', d', f)) :
    pool' = { pool with vb := pool.vb - mulT fee ex.feeShareProtocol - mulT fee ex.feeShareTreasury } ∧
    d' = { protocol := d.protocol + mulT fee ex.feeShareProtocol,
           treasury := d.treasury + mulT fee ex.feeShareTreasury } ∧
    f = { pool := -(fee - mulT fee ex.feeShareProtocol - mulT fee ex.feeShareTreasury),
          protocol := -mulT fee ex.feeShareProtocol, treasury := -mulT fee ex.feeShareTreasury,
          referral := 0 } := by
  simp only [settleFeesBasic, bind_ok, pure_ok, dmul_ok, dsub_ok, dneg_ok, Prod.mk.injEq] at h
  obtain ⟨_, ⟨-, rfl⟩, _, ⟨-, rfl⟩, _, ⟨-, rfl⟩, _, ⟨-, rfl⟩, _, ⟨-, rfl⟩, _, ⟨-, rfl⟩, p', hp, d1, hd,
    _, ⟨-, rfl⟩, _, ⟨-, rfl⟩, _, ⟨-, rfl⟩, rfl, rfl, rfl⟩ := h
  refine ⟨?_, distribute_ok hd, rfl⟩
  rw [VPool.addVb_ok hp]
  congr 1
  ring

theorem rewardReferral_ok {v v' : VAccount} {x : Dec} (h : v.rewardReferral x = Except.ok v') :
    (v.referralData = none ∧ v' = v) ∨
    ∃ d, v.referralData = some d ∧
      v' = { v with
        referralData := some { d with balance := d.balance + x, totalRewarded := d.totalRewarded + x }
        referralRewarded := true } := by
  unfold VAccount.rewardReferral at h
  split at h
  · rename_i d hd
    simp only [bind_ok, pure_ok, dadd_ok] at h
    obtain ⟨_, ⟨-, rfl⟩, _, ⟨-, rfl⟩, rfl⟩ := h
    exact Or.inr ⟨d, hd, rfl⟩
  · rename_i hd
    simp only [pure_ok] at h
    exact Or.inl ⟨hd, h.symm⟩

/-- The referrer's part of a fee. -/
def referralPart (ex : ExchangeConfig) (v : VAccount) (fee : Dec) : Dec :=
  mulT (mulT fee ex.feeShareReferral) v.feeShareReferral

/-- The account after the referrer has been credited. -/
def VAccount.credited (v : VAccount) (x : Dec) : VAccount :=
  match v.referralData with
  | some d => { v with
      referralData := some { d with balance := d.balance + x, totalRewarded := d.totalRewarded + x }
      referralRewarded := true }
  | none => v

theorem settleFeesReferral_ok {ex : ExchangeConfig} {w w' : W} {fee : Dec} {f : FeeSplit}
    (h : settleFeesReferral ex w fee = Except.ok (w', f)) :
    w'.pool = { w.pool with
      vb := w.pool.vb - mulT fee ex.feeShareProtocol - mulT fee ex.feeShareTreasury
              - referralPart ex w.acc fee } ∧
    w'.dist = { protocol := w.dist.protocol + mulT fee ex.feeShareProtocol,
                treasury := w.dist.treasury + mulT fee ex.feeShareTreasury } ∧
    w'.acc = w.acc.credited (referralPart ex w.acc fee) ∧
    f = { pool := -(fee - mulT fee ex.feeShareProtocol - mulT fee ex.feeShareTreasury
                      - referralPart ex w.acc fee),
          protocol := -mulT fee ex.feeShareProtocol, treasury := -mulT fee ex.feeShareTreasury,
          referral := -referralPart ex w.acc fee } := by
  simp only [settleFeesReferral, bind_ok, pure_ok, dmul_ok, dsub_ok, dneg_ok, Prod.mk.injEq] at h
  obtain ⟨_, ⟨-, rfl⟩, _, ⟨-, rfl⟩, _, ⟨-, rfl⟩, _, ⟨-, rfl⟩, _, ⟨-, rfl⟩, _, ⟨-, rfl⟩, _, ⟨-, rfl⟩,
    _, ⟨-, rfl⟩, _, ⟨-, rfl⟩, _, ⟨-, rfl⟩, p', hp, d1, hd, a', ha,
    _, ⟨-, rfl⟩, _, ⟨-, rfl⟩, _, ⟨-, rfl⟩, _, ⟨-, rfl⟩, rfl, rfl⟩ := h
  refine ⟨?_, distribute_ok hd, ?_, rfl⟩
  · simp only [VPool.addVb_ok hp, referralPart]
    congr 1
    ring
  · rcases rewardReferral_ok ha with ⟨hn, rfl⟩ | ⟨d, hd, rfl⟩
    · simp [VAccount.credited, hn]
    · simp [VAccount.credited, hd, referralPart]

/-- Funding owed by a position since it was last settled. -/
def fundingOwed (pp : PoolPosition) (pos : AccountPosition) : Dec :=
  if pos.amount > 0 then mulT pos.amount (pp.fundingLongIndex - pos.fundingIndex)
  else mulT (-pos.amount) (pp.fundingShortIndex - pos.fundingIndex)

theorem positionFunding_ok {pp : PoolPosition} {pos : AccountPosition} {x : Dec}
    (h : positionFunding pp pos = Except.ok x) : x = fundingOwed pp pos := by
  unfold positionFunding at h
  unfold fundingOwed
  split at h
  · rename_i hc
    simp only [bind_ok, dsub_ok, dmul_ok] at h
    obtain ⟨_, ⟨-, rfl⟩, -, rfl⟩ := h
    rw [if_pos hc]
  · rename_i hc
    simp only [bind_ok, dsub_ok, dmul_ok, dneg_ok] at h
    obtain ⟨_, ⟨-, rfl⟩, _, ⟨-, rfl⟩, -, rfl⟩ := h
    rw [if_neg hc]

/-- The position after its funding has been settled. -/
def settledPos (pp : PoolPosition) (pos : AccountPosition) : AccountPosition :=
  { pos with fundingIndex := if pos.amount > 0 then pp.fundingLongIndex else pp.fundingShortIndex }

/-- `_settle_funding`: the funding owed moves from the account to the pool's realised balance; the
position's index is brought up to date.  The returned amount is what the account received. -/
theorem settleFunding_ok {w w' : W} {p : PairId} {n : Dec} (h : settleFunding w p = Except.ok (w', n)) :
    ∃ pp, w.pool.positions.get p = some pp ∧
      n = -((w.acc.positions.get p).elim 0 (fundingOwed pp)) ∧
      w'.pool = { w.pool with unreal := w.pool.unreal + n, vb := w.pool.vb - n } ∧
      w'.acc = { w.acc with
        positions := match w.acc.positions.get p with
          | some pos => w.acc.positions.set p (settledPos pp pos)
          | none => w.acc.positions
        positionsUpdated := w.acc.positions.keys ++ w.acc.positionsUpdated
        vb := w.acc.vb + n } ∧
      w'.dist = w.dist := by
  simp only [settleFunding, bind_ok, pure_ok, VPool.position_ok, dneg_ok, Prod.mk.injEq] at h
  obtain ⟨pp, hpp, ⟨acc, f⟩, hm, _, ⟨-, rfl⟩, pool, hpool, w1, hs, rfl, rfl⟩ := h
  refine ⟨pp, hpp, ?_⟩
  have hs' := settleAccount_ok hs
  have hpool' := VPool.addUnreal_ok hpool
  subst hs' hpool'
  unfold settlePosition at hm
  simp only [VAccount.touchAll] at hm ⊢
  cases hg : w.acc.positions.get p with
  | none =>
    rw [hg] at hm
    simp only [pure_ok, Prod.mk.injEq] at hm
    obtain ⟨rfl, rfl⟩ := hm
    simp
  | some pos =>
    rw [hg] at hm
    simp only [bind_ok, pure_ok, Prod.mk.injEq] at hm
    obtain ⟨x, hx, rfl, rfl⟩ := hm
    rw [positionFunding_ok hx]
    simp [settledPos]

theorem snapPosition_ok {pp : PoolPosition} {price : Dec} {s : Snap}
    (h : snapPosition pp price = Except.ok s) :
    s = { skew := mulT (pp.oiLong - pp.oiShort) price
          skewAbs := |mulT (pp.oiLong - pp.oiShort) price|
          dSkew := |mulT (pp.oiLong - pp.oiShort) price| - pp.skewAbsSnap
          dPnl := pp.cost - mulT (pp.oiLong - pp.oiShort) price - pp.pnlSnap
          pp := { pp with skewAbsSnap := |mulT (pp.oiLong - pp.oiShort) price|
                          pnlSnap := pp.cost - mulT (pp.oiLong - pp.oiShort) price } } := by
  simp only [snapPosition, bind_ok, pure_ok, dsub_ok, dmul_ok, dabs_ok] at h
  obtain ⟨_, ⟨-, rfl⟩, _, ⟨-, rfl⟩, _, ⟨-, rfl⟩, _, ⟨-, rfl⟩, _, ⟨-, rfl⟩, _, ⟨-, rfl⟩, rfl⟩ := h
  rfl

/-- Mark-to-market skew of a pool position. -/
def PoolPosition.skewAt (pp : PoolPosition) (price : Dec) : Dec := mulT (pp.oiLong - pp.oiShort) price

/-- A pool position with its snapshots brought to a price. -/
def PoolPosition.snapAt (pp : PoolPosition) (price : Dec) : PoolPosition :=
  { pp with skewAbsSnap := |pp.skewAt price|, pnlSnap := pp.cost - pp.skewAt price }

theorem updatePairSnaps_ok {c : Ctx} {pool pool' : VPool} {p : PairId}
    (h : updatePairSnaps c pool p = Except.ok pool') :
    ∃ price pp, c.orc.prices.get p = some price ∧ pool.positions.get p = some pp ∧
      pool' = { pool with
        positions := pool.positions.set p (pp.snapAt price)
        updated := p :: pool.updated
        skewSnap := pool.skewSnap + ((pp.snapAt price).skewAbsSnap - pp.skewAbsSnap)
        pnlSnap := pool.pnlSnap + ((pp.snapAt price).pnlSnap - pp.pnlSnap) } := by
  simp only [updatePairSnaps, bind_ok, VPool.position_ok, VOracle.price_ok] at h
  obtain ⟨price, hprice, pp, hpp, s, hs, p1, h1, h2⟩ := h
  refine ⟨price, pp, hprice, hpp, ?_⟩
  rw [VPool.addPnl_ok h2, VPool.addSkew_ok h1, snapPosition_ok hs]
  rfl

/-- A change of the pool position that funding may cause: only the integral rate and the two indexes. -/
def FundingOnly (a b : PoolPosition) : Prop :=
  b = { a with funding2Rate := b.funding2Rate, fundingLongIndex := b.fundingLongIndex,
               fundingShortIndex := b.fundingShortIndex }

theorem fundingUpdate_only {pc : PairConfig} {pp pp' : PoolPosition}
    {price skew skewAbs period d : Dec}
    (h : fundingUpdate pc pp price skew skewAbs period = Except.ok (pp', d)) : FundingOnly pp pp' := by
  simp only [fundingUpdate, bind_ok] at h
  obtain ⟨_, -, _, -, _, -, _, -, _, -, rate, -, h⟩ := h
  split at h
  · simp only [bind_ok, pure_ok, Prod.mk.injEq] at h
    obtain ⟨_, -, _, -, _, -, rfl, -⟩ := h
    rfl
  · simp only [pure_ok, Prod.mk.injEq] at h
    obtain ⟨rfl, -⟩ := h
    rfl

/-- `_update_pair`: what changes, with the funding part left as computed by `fundingUpdate`. -/
theorem updatePair_ok {c : Ctx} {pool pool' : VPool} {p : PairId} {b : Bool}
    (h : updatePair c pool p = Except.ok (pool', b)) :
    ∃ pc price pp0 pp1 dPool, ∃ seconds period : Int,
      c.cfg.pairs.get p = some pc ∧ c.orc.prices.get p = some price ∧
      pool.positions.get p = some pp0 ∧
      seconds = c.now - pp0.lastUpdate ∧ period = divT (ofInt seconds) YEAR ∧
      fundingStep pc { pp0.snapAt price with lastPrice := price, lastUpdate := c.now } price
          (pp0.skewAt price) |pp0.skewAt price| period = Except.ok (pp1, dPool) ∧
      pool' = { pool with
        positions := pool.positions.set p pp1
        updated := p :: pool.updated
        skewSnap := pool.skewSnap + (|pp0.skewAt price| - pp0.skewAbsSnap)
        pnlSnap := pool.pnlSnap + (pp0.cost - pp0.skewAt price - pp0.pnlSnap)
        unreal := pool.unreal + dPool } ∧
      pp0.lastPrice ≠ 0 ∧
      b = decide (seconds ≥ pc.updatePeriodSeconds ∨
        divT |price - pp0.lastPrice| pp0.lastPrice ≥ pc.updatePriceDeltaRatio) := by
  simp only [updatePair, bind_ok, pure_ok, VPool.position_ok, VOracle.price_ok, VConfig.pair_ok,
    addSeconds_ok, ddiv_ok, dsub_ok, dabs_ok, Prod.mk.injEq] at h
  obtain ⟨pc, hpc, price, hprice, pp0, hpp, s, hs, _, ⟨-, rfl⟩, _, ⟨-, -, rfl⟩, _, ⟨-, rfl⟩, _,
    ⟨-, rfl⟩, _, ⟨hlp, -, rfl⟩, ⟨pp1, dPool⟩, hr, p1, h1, p2, h2, p3, h3, rfl, rfl⟩ := h
  have hs := snapPosition_ok hs
  subst hs
  refine ⟨pc, price, pp0, pp1, dPool, _, _, hpc, hprice, hpp, rfl, rfl, ?_, ?_, hlp, ?_⟩
  · exact hr
  · rw [VPool.addUnreal_ok h3, VPool.addPnl_ok h2, VPool.addSkew_ok h1]
    rfl
  · rfl

/-- The pool position after `_update_pair`: open interest and cost are untouched, the snapshots are the
mark-to-market values at the price. -/
theorem fundingStep_only {pc : PairConfig} {pp pp' : PoolPosition}
    {price skew skewAbs period d : Dec}
    (h : fundingStep pc pp price skew skewAbs period = Except.ok (pp', d)) : FundingOnly pp pp' := by
  unfold fundingStep at h
  split at h
  · exact fundingUpdate_only h
  · simp only [pure_ok, Prod.mk.injEq] at h
    rw [← h.1]; rfl

/-! ## Fees -/

/-- Fee before clamping: `(|v|*fee0 + v*(2*skew+v)*fee1) * rebate`, every product truncated. -/
def rawFee (pc : PairConfig) (pp : PoolPosition) (rebate price value : Dec) : Dec :=
  mulT (mulT |value| pc.fee0 +
    mulT (mulT value (2 * mulT (pp.oiLong - pp.oiShort) price + value)) pc.fee1) rebate

/-- The fee: the raw fee clamped between zero and the maximum rate. -/
def feeOf (ex : ExchangeConfig) (pc : PairConfig) (pp : PoolPosition) (rebate price value : Dec) : Dec :=
  max 0 (min (rawFee pc pp rebate price value) (mulT |value| ex.feeMax))

theorem mulT_ofInt_left (n : Int) (x : Int) : mulT (ofInt n) x = n * x := by
  unfold mulT ofInt
  rw [show n * ONE * x = (n * x) * ONE by ring]
  exact Int.mul_tdiv_cancel _ (by decide)

theorem mulT_ofInt_right (n : Int) (x : Int) : mulT x (ofInt n) = x * n := by
  rw [mulT_comm, mulT_ofInt_left]; ring

theorem calculateFee_ok {ex : ExchangeConfig} {pc : PairConfig} {pp : PoolPosition}
    {rebate price value fee : Dec} (h : calculateFee ex pc pp rebate price value = Except.ok fee) :
    fee = feeOf ex pc pp rebate price value ∧ 0 ≤ mulT |value| ex.feeMax := by
  simp only [calculateFee, bind_ok, dsub_ok, dmul_ok, dabs_ok, dadd_ok, dclamp_ok] at h
  obtain ⟨_, ⟨-, rfl⟩, _, ⟨-, rfl⟩, _, ⟨-, rfl⟩, _, ⟨-, rfl⟩, _, ⟨-, rfl⟩, _, ⟨-, rfl⟩, _, ⟨-, rfl⟩,
    _, ⟨-, rfl⟩, _, ⟨-, rfl⟩, _, ⟨-, rfl⟩, _, ⟨-, rfl⟩, hm, rfl⟩ := h
  refine ⟨?_, hm⟩
  unfold feeOf rawFee
  rw [mulT_ofInt_left]

/-- The account's fee multiplier: one minus the rebate. -/
def VAccount.rebate (v : VAccount) : Dec :=
  match v.referralData with
  | some d => ONE - d.feeRebate
  | none => ONE

theorem feeRebate_ok {v : VAccount} {x : Dec} (h : v.feeRebate = Except.ok x) : x = v.rebate := by
  unfold VAccount.feeRebate at h
  unfold VAccount.rebate
  split at h
  · rename_i d hd
    rw [hd]
    simp only [dsub_ok] at h
    exact h.2.symm
  · rename_i hd
    rw [hd]
    simp only [pure_ok] at h
    exact h.symm

/-! ## Opening and closing -/

/-- Pool position after a trade that adds `amount` to the long side (if positive) or short side. -/
def PoolPosition.opened (pp : PoolPosition) (amount cost : Dec) : PoolPosition :=
  if amount > 0 then { pp with oiLong := pp.oiLong + amount, cost := pp.cost + cost }
  else { pp with oiShort := pp.oiShort - amount, cost := pp.cost + cost }

/-- Pool position after a trade that closes: a negative amount closes longs. -/
def PoolPosition.closed (pp : PoolPosition) (amount cost : Dec) : PoolPosition :=
  if amount < 0 then { pp with oiLong := pp.oiLong + amount, cost := pp.cost - cost }
  else { pp with oiShort := pp.oiShort - amount, cost := pp.cost - cost }

theorem openPool_ok {pc : PairConfig} {pp pp' : PoolPosition} {amount cost : Dec}
    (h : openPool pc pp amount cost = Except.ok pp') :
    pp' = pp.opened amount cost ∧
    (amount > 0 → pp.oiLong + amount ≤ pc.oiMax) ∧ (¬ amount > 0 → pp.oiShort - amount ≤ pc.oiMax) := by
  simp only [openPool, openSide, bind_ok, pure_ok, dadd_ok] at h
  obtain ⟨x, hx, _, ⟨-, rfl⟩, rfl⟩ := h
  unfold PoolPosition.opened
  split at hx
  · rename_i hc
    simp only [bind_ok, pure_ok, dadd_ok, require_ok, decide_eq_true_eq] at hx
    obtain ⟨_, ⟨-, rfl⟩, -, hm, rfl⟩ := hx
    rw [if_pos hc]
    exact ⟨rfl, fun _ => hm, fun h => absurd hc h⟩
  · rename_i hc
    simp only [bind_ok, pure_ok, dsub_ok, require_ok, decide_eq_true_eq] at hx
    obtain ⟨_, ⟨-, rfl⟩, -, hm, rfl⟩ := hx
    rw [if_neg hc]
    exact ⟨rfl, fun h => absurd h hc, fun _ => hm⟩

theorem closePool_ok {pp pp' : PoolPosition} {amount cost : Dec}
    (h : closePool pp amount cost = Except.ok pp') : pp' = pp.closed amount cost := by
  simp only [closePool, closeSide, bind_ok, pure_ok, dsub_ok] at h
  obtain ⟨x, hx, _, ⟨-, rfl⟩, rfl⟩ := h
  unfold PoolPosition.closed
  split at hx
  · rename_i hc
    simp only [bind_ok, pure_ok, dadd_ok] at hx
    obtain ⟨_, ⟨-, rfl⟩, rfl⟩ := hx
    rw [if_pos hc]
  · rename_i hc
    simp only [bind_ok, pure_ok, dsub_ok] at hx
    obtain ⟨_, ⟨-, rfl⟩, rfl⟩ := hx
    rw [if_neg hc]

theorem liqPool_ok {pp pp' : PoolPosition} {pos : AccountPosition}
    (h : liqPool pp pos = Except.ok pp') : pp' = pp.closed (-pos.amount) pos.cost := by
  simp only [liqPool, liqSide, bind_ok, pure_ok, dsub_ok] at h
  obtain ⟨x, hx, _, ⟨-, rfl⟩, rfl⟩ := h
  unfold PoolPosition.closed
  split at hx
  · rename_i hc
    simp only [bind_ok, pure_ok, dsub_ok] at hx
    obtain ⟨_, ⟨-, rfl⟩, rfl⟩ := hx
    rw [if_pos (by omega)]
    rfl
  · rename_i hc
    simp only [bind_ok, pure_ok, dadd_ok] at hx
    obtain ⟨_, ⟨-, rfl⟩, rfl⟩ := hx
    rw [if_neg (by omega)]
    simp [sub_eq_add_neg]

@[simp] theorem opened_skewAbsSnap (pp : PoolPosition) (a c : Dec) :
    (pp.opened a c).skewAbsSnap = pp.skewAbsSnap := by unfold PoolPosition.opened; split <;> rfl
@[simp] theorem opened_pnlSnap (pp : PoolPosition) (a c : Dec) :
    (pp.opened a c).pnlSnap = pp.pnlSnap := by unfold PoolPosition.opened; split <;> rfl
@[simp] theorem opened_cost (pp : PoolPosition) (a c : Dec) :
    (pp.opened a c).cost = pp.cost + c := by unfold PoolPosition.opened; split <;> rfl
@[simp] theorem opened_fundingLong (pp : PoolPosition) (a c : Dec) :
    (pp.opened a c).fundingLongIndex = pp.fundingLongIndex := by unfold PoolPosition.opened; split <;> rfl
@[simp] theorem opened_fundingShort (pp : PoolPosition) (a c : Dec) :
    (pp.opened a c).fundingShortIndex = pp.fundingShortIndex := by unfold PoolPosition.opened; split <;> rfl
@[simp] theorem closed_skewAbsSnap (pp : PoolPosition) (a c : Dec) :
    (pp.closed a c).skewAbsSnap = pp.skewAbsSnap := by unfold PoolPosition.closed; split <;> rfl
@[simp] theorem closed_pnlSnap (pp : PoolPosition) (a c : Dec) :
    (pp.closed a c).pnlSnap = pp.pnlSnap := by unfold PoolPosition.closed; split <;> rfl
@[simp] theorem closed_cost (pp : PoolPosition) (a c : Dec) :
    (pp.closed a c).cost = pp.cost - c := by unfold PoolPosition.closed; split <;> rfl
@[simp] theorem closed_fundingLong (pp : PoolPosition) (a c : Dec) :
    (pp.closed a c).fundingLongIndex = pp.fundingLongIndex := by unfold PoolPosition.closed; split <;> rfl
@[simp] theorem closed_fundingShort (pp : PoolPosition) (a c : Dec) :
    (pp.closed a c).fundingShortIndex = pp.fundingShortIndex := by unfold PoolPosition.closed; split <;> rfl
@[simp] theorem snapAt_oiLong (pp : PoolPosition) (x : Dec) : (pp.snapAt x).oiLong = pp.oiLong := rfl
@[simp] theorem snapAt_oiShort (pp : PoolPosition) (x : Dec) : (pp.snapAt x).oiShort = pp.oiShort := rfl
@[simp] theorem snapAt_cost (pp : PoolPosition) (x : Dec) : (pp.snapAt x).cost = pp.cost := rfl

/-- Replacing the position of a pair and marking it to market at once. -/
def VPool.remark (pool : VPool) (p : PairId) (old new : PoolPosition) (price : Dec) : VPool :=
  { pool with
    positions := pool.positions.set p (new.snapAt price)
    updated := p :: p :: pool.updated
    skewSnap := pool.skewSnap + ((new.snapAt price).skewAbsSnap - old.skewAbsSnap)
    pnlSnap := pool.pnlSnap + ((new.snapAt price).pnlSnap - old.pnlSnap) }

theorem setThenSnap_ok {c : Ctx} {pool pool' : VPool} {p : PairId} {old new : PoolPosition}
    (hs : new.skewAbsSnap = old.skewAbsSnap) (hp : new.pnlSnap = old.pnlSnap)
    (h : updatePairSnaps c (pool.setPosition p new) p = Except.ok pool') :
    ∃ price, c.orc.prices.get p = some price ∧ pool' = pool.remark p old new price := by
  obtain ⟨price, pp, hprice, hpp, rfl⟩ := updatePairSnaps_ok h
  refine ⟨price, hprice, ?_⟩
  simp only [VPool.setPosition, AMap.get_set_self, Option.some.injEq] at hpp
  subst hpp
  simp [VPool.remark, VPool.setPosition, hs, hp]

/-- `_open_position`, successful result. -/
theorem openPosition_ok {c : Ctx} {w w' : W} {p : PairId} {amount fee : Dec}
    (h : openPosition c w p amount = Except.ok (w', fee)) :
    ∃ pc price pp, c.cfg.pairs.get p = some pc ∧ c.orc.prices.get p = some price ∧
      w.pool.positions.get p = some pp ∧
      0 ≤ (w.acc.position p).amount.sign * amount.sign ∧
      fee = feeOf c.cfg.ex pc pp w.acc.rebate price (mulT amount price) ∧
      0 ≤ mulT |mulT amount price| c.cfg.ex.feeMax ∧
      (amount > 0 → pp.oiLong + amount ≤ pc.oiMax) ∧ (¬ amount > 0 → pp.oiShort - amount ≤ pc.oiMax) ∧
      w'.pool = w.pool.remark p pp (pp.opened amount (mulT amount price + fee)) price ∧
      w'.acc = w.acc.setPosition p
        { amount := (w.acc.position p).amount + amount
          cost := (w.acc.position p).cost + (mulT amount price + fee)
          fundingIndex := if (w.acc.position p).amount + amount > 0 then pp.fundingLongIndex
                          else pp.fundingShortIndex } ∧
      w'.dist = w.dist ∧
      w'.acc.positions.size ≤ c.cfg.ex.positionsMax ∧
      assertAccountIntegrity c w'.pool w'.acc = Except.ok () := by
  simp only [openPosition, bind_ok, pure_ok, VPool.position_ok, VOracle.price_ok, VConfig.pair_ok,
    dmul_ok, dadd_ok, require_ok, decide_eq_true_eq, Prod.mk.injEq, assertPositionLimit] at h
  obtain ⟨pc, hpc, rb, hrb, price, hprice, _, ⟨-, rfl⟩, pp, hpp, -, hsign, fee, hfee, _, ⟨-, rfl⟩,
    pp', hopen, _, ⟨-, rfl⟩, _, ⟨-, rfl⟩, pool, hsnap, -, hlim, ⟨⟩, hint, rfl, rfl⟩ := h
  have hrb := feeRebate_ok hrb
  subst hrb
  obtain ⟨hfee, hmax⟩ := calculateFee_ok hfee
  obtain ⟨rfl, ho1, ho2⟩ := openPool_ok hopen
  obtain ⟨price', hprice', rfl⟩ := setThenSnap_ok (old := pp) (by simp) (by simp) hsnap
  rw [hprice] at hprice'
  cases hprice'
  refine ⟨pc, price, pp, hpc, hprice, hpp, hsign, hfee, hmax, ho1, ho2, rfl, ?_, rfl, hlim, hint⟩
  simp

/-- Cost released when `amount` of a position is closed. -/
def closedCost (pos : AccountPosition) (amount : Dec) : Dec :=
  mulT (divT (-amount) pos.amount) pos.cost

/-- `_close_position`, successful result. -/
theorem closePosition_ok {c : Ctx} {w w' : W} {p : PairId} {amount pnl fee : Dec}
    (h : closePosition c w p amount = Except.ok (w', pnl, fee)) :
    ∃ pc price pp, c.cfg.pairs.get p = some pc ∧ c.orc.prices.get p = some price ∧
      w.pool.positions.get p = some pp ∧
      (w.acc.position p).amount ≠ 0 ∧
      (w.acc.position p).amount.sign * amount.sign ≤ 0 ∧
      |amount| ≤ |(w.acc.position p).amount| ∧
      fee = feeOf c.cfg.ex pc pp w.acc.rebate price (mulT amount price) ∧
      0 ≤ mulT |mulT amount price| c.cfg.ex.feeMax ∧
      pnl = -mulT amount price - closedCost (w.acc.position p) amount - fee ∧
      w'.pool = { w.pool.remark p pp (pp.closed amount (closedCost (w.acc.position p) amount)) price with
        vb := w.pool.vb - pnl } ∧
      w'.acc = { w.acc.setPosition p
        { w.acc.position p with
          amount := (w.acc.position p).amount + amount
          cost := (w.acc.position p).cost - closedCost (w.acc.position p) amount } with
        vb := w.acc.vb + pnl } ∧
      w'.dist = w.dist := by
  simp only [closePosition, bind_ok, pure_ok, VPool.position_ok, VOracle.price_ok, VConfig.pair_ok,
    dmul_ok, dadd_ok, dsub_ok, dneg_ok, ddiv_ok, require_ok, decide_eq_true_eq, Prod.mk.injEq] at h
  obtain ⟨pc, hpc, rb, hrb, price, hprice, _, ⟨-, rfl⟩, pp, hpp, -, hsign, -, habs, fee, hfee,
    _, ⟨-, rfl⟩, _, ⟨hne, -, rfl⟩, _, ⟨-, rfl⟩, _, ⟨-, rfl⟩, _, ⟨-, rfl⟩, _, ⟨-, rfl⟩, pp', hclose,
    _, ⟨-, rfl⟩, _, ⟨-, rfl⟩, w1, hset, pool, hsnap, rfl, rfl, rfl⟩ := h
  have hrb := feeRebate_ok hrb
  subst hrb
  obtain ⟨hfee, hmax⟩ := calculateFee_ok hfee
  have hclose := closePool_ok hclose
  subst hclose
  have hset := settleAccount_ok hset
  subst hset
  obtain ⟨price', pp2, hprice', hpp2, rfl⟩ := updatePairSnaps_ok hsnap
  rw [hprice] at hprice'
  cases hprice'
  simp only [VPool.setPosition, AMap.get_set_self, Option.some.injEq] at hpp2
  subst hpp2
  refine ⟨pc, price, pp, hpc, hprice, hpp, hne, hsign, habs, hfee, hmax, rfl, ?_, rfl, rfl⟩
  simp [VPool.remark, VPool.setPosition, closedCost]

end Perp
