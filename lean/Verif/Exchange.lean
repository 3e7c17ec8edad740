import Verif.Virtual

/-!
# Internal methods of the exchange

exchange/src/exchange.rs:1541-2872, function by function.
-/

namespace Perp

/-- What the internal methods read: environment, clock, `VirtualConfig`, `VirtualOracle`. -/
structure Ctx where
  env : Env
  now : Int
  cfg : VConfig
  orc : VOracle

/-- What the internal methods update: the virtual pool, the virtual account, and the fee distributor
component (written at once by `distribute`). -/
structure W where
  pool : VPool
  acc : VAccount
  dist : FeeDist

/-! ## Feeds, valuations of the pool, assertions -/

/-- `_pair_feeds`: exchange.rs:1543-1552 -/
def pairFeeds (cfg : VConfig) (ids : List PairId) : R (AMap PairId Int) :=
  AMap.buildM (fun p => do let c ← cfg.pair p; pure c.priceAgeMax) ids

/-- `_pair_feeds_no_max_age`: exchange.rs:1554-1561 -/
def pairFeedsNoMaxAge (ids : List PairId) : AMap PairId Int := AMap.build (fun _ => I64MAX) ids

/-- `_pool_value`: exchange.rs:1563-1571 -/
def poolValue (v : VPool) : R Dec := do
  let a ← dadd v.base v.vb
  let b ← dadd a v.unreal
  dadd b v.pnlSnap

/-- `_skew_ratio`: exchange.rs:1573-1578 -/
def skewRatio (v : VPool) : R Dec := do
  let pv ← poolValue v
  ddiv v.skewSnap (max pv ONE)

/-- `_assert_pool_integrity`: exchange.rs:1600-1612 -/
def assertPoolIntegrity (cfg : VConfig) (v : VPool) (skewDelta : Dec) : R Unit := do
  let r ← skewRatio v
  require (decide (r < cfg.ex.skewRatioCap ∨ skewDelta < 0)) .skewTooHigh

/-- `_assert_valid_collateral`: exchange.rs:1632-1642 -/
def assertValidCollateral (cfg : VConfig) (r : Res) : R Unit :=
  require (cfg.colls.has r) .invalidCollateral

/-- `_assert_position_limit`: exchange.rs:1644-1655 -/
def assertPositionLimit (cfg : VConfig) (a : VAccount) : R Unit :=
  require (decide (a.positions.size ≤ cfg.ex.positionsMax)) .positionsTooMany

/-- `_assert_collaterals_limit`: exchange.rs:1657-1668 -/
def assertCollateralsLimit (cfg : VConfig) (a : VAccount) : R Unit :=
  require (decide (a.collateralBalances.size ≤ cfg.ex.collateralsMax)) .collateralsTooMany

/-- `_assert_active_requests_limit`: exchange.rs:1670-1681 -/
def assertActiveLimit (cfg : VConfig) (a : VAccount) : R Unit :=
  require (decide (a.activeLen ≤ cfg.ex.activeRequestsMax)) .activeTooMany

/-- `_calculate_fee`: exchange.rs:1683-1701 -/
def calculateFee (ex : ExchangeConfig) (pc : PairConfig) (pp : PoolPosition)
    (rebate price value : Dec) : R Dec := do
  let valueAbs ← dabs value
  let d ← dsub pp.oiLong pp.oiShort
  let skew ← dmul d price
  let fee0 ← dmul valueAbs pc.fee0
  let t2 ← dmul (ofInt 2) skew
  let t ← dadd t2 value
  let vt ← dmul value t
  let fee1 ← dmul vt pc.fee1
  let feeMax ← dmul valueAbs ex.feeMax
  let s ← dadd fee0 fee1
  let x ← dmul s rebate
  dclamp x 0 feeMax

/-- Funding owed by a position since it was last settled: exchange.rs:2653-2657 (also 2703-2709,
2818-2825) -/
def positionFunding (pp : PoolPosition) (pos : AccountPosition) : R Dec :=
  if pos.amount > 0 then do
    let d ← dsub pp.fundingLongIndex pos.fundingIndex
    dmul pos.amount d
  else do
    let n ← dneg pos.amount
    let d ← dsub pp.fundingShortIndex pos.fundingIndex
    dmul n d

/-! ## Valuation of an account -/

/-- Loop body of `_value_positions`: exchange.rs:2642-2663 -/
def valuePosition (c : Ctx) (pool : VPool) (rebate : Dec) (t : Dec × Dec)
    (e : PairId × AccountPosition) : R (Dec × Dec) := do
  let pc ← c.cfg.pair e.1
  let price ← c.orc.price e.1
  let n ← dneg e.2.amount
  let value ← dmul n price
  let valueAbs ← dabs value
  let pp ← pool.position e.1
  let fee ← calculateFee c.cfg.ex pc pp rebate price value
  let funding ← positionFunding pp e.2
  let nv ← dneg value
  let a ← dsub nv e.2.cost
  let b ← dsub a fee
  let pnl ← dsub b funding
  let margin ← dmul valueAbs pc.marginInitial
  let tp ← dadd t.1 pnl
  let tm ← dadd t.2 margin
  pure (tp, tm)

/-- `_value_positions`: exchange.rs:2630-2669.  Returns (pnl, margin_positions). -/
def valuePositions (c : Ctx) (pool : VPool) (a : VAccount) : R (Dec × Dec) := do
  let rebate ← a.feeRebate
  a.positions.entries.foldlM (valuePosition c pool rebate) (0, 0)

/-- Loop body of `_value_collateral`: exchange.rs:2747-2757 -/
def valueCollateralOne (c : Ctx) (t : Dec × Dec) (e : Res × Dec) : R (Dec × Dec) :=
  match c.cfg.colls.get e.1 with
  | some cc => do
      let price ← c.orc.priceResource e.1
      let value ← dmul e.2 price
      let vd ← dmul value cc.discount
      let margin ← dmul value cc.margin
      let tv ← dadd t.1 vd
      let tm ← dadd t.2 margin
      pure (tv, tm)
  | none => pure t

/-- `_value_collateral`: exchange.rs:2739-2763.  Returns (collateral_value_discounted,
margin_collateral). -/
def valueCollateral (c : Ctx) (a : VAccount) : R (Dec × Dec) :=
  a.collateralBalances.entries.foldlM (valueCollateralOne c) (0, 0)

/-- `_assert_account_integrity`: exchange.rs:1614-1630 -/
def assertAccountIntegrity (c : Ctx) (pool : VPool) (a : VAccount) : R Unit := do
  let vp ← valuePositions c pool a
  let vc ← valueCollateral c a
  let x ← dadd vp.1 vc.1
  let accountValue ← dadd x a.vb
  let margin ← dadd vp.2 vc.2
  require (decide (accountValue ≥ margin)) .insufficientMargin

/-! ## Settlement -/

/-- `_settle_account`: exchange.rs:2800-2808 -/
def settleAccount (w : W) (amount : Dec) : R W := do
  let n ← dneg amount
  let pool ← w.pool.addVb n
  let acc ← w.acc.addVb amount
  pure { w with pool, acc }

/-- `FeeDistributor::distribute`: fee_distributor.rs:59-62 -/
def FeeDist.distribute (d : FeeDist) (protocol treasury : Dec) : R FeeDist := do
  let p ← dadd d.protocol protocol
  let t ← dadd d.treasury treasury
  pure { protocol := p, treasury := t }

/-- The four parts into which a fee is split. -/
structure FeeSplit where
  pool : Dec
  protocol : Dec
  treasury : Dec
  referral : Dec
deriving DecidableEq, Repr

/-- `_settle_fees_basic`: exchange.rs:2837-2852.  The returned (and emitted) parts are negated, as in
the code. -/
def settleFeesBasic (ex : ExchangeConfig) (pool : VPool) (dist : FeeDist) (feePaid : Dec) :
    R (VPool × FeeDist × FeeSplit) := do
  let fp ← dmul feePaid ex.feeShareProtocol
  let ft ← dmul feePaid ex.feeShareTreasury
  let x ← dsub feePaid fp
  let feePool ← dsub x ft
  let nfp ← dneg fp
  let d ← dsub nfp ft
  let pool ← pool.addVb d
  let dist ← dist.distribute fp ft
  let a ← dneg feePool
  let b ← dneg fp
  let e ← dneg ft
  pure (pool, dist, { pool := a, protocol := b, treasury := e, referral := 0 })

/-- `_settle_fees_referral`: exchange.rs:2854-2872 -/
def settleFeesReferral (ex : ExchangeConfig) (w : W) (feePaid : Dec) : R (W × FeeSplit) := do
  let fp ← dmul feePaid ex.feeShareProtocol
  let ft ← dmul feePaid ex.feeShareTreasury
  let r1 ← dmul feePaid ex.feeShareReferral
  let fr ← dmul r1 w.acc.feeShareReferral
  let x ← dsub feePaid fp
  let y ← dsub x ft
  let feePool ← dsub y fr
  let nfp ← dneg fp
  let d1 ← dsub nfp ft
  let d2 ← dsub d1 fr
  let pool ← w.pool.addVb d2
  let dist ← w.dist.distribute fp ft
  let acc ← w.acc.rewardReferral fr
  let a ← dneg feePool
  let b ← dneg fp
  let e ← dneg ft
  let f ← dneg fr
  pure ({ pool, acc, dist }, { pool := a, protocol := b, treasury := e, referral := f })

/-- Funding of one position and its new index: exchange.rs:2817-2829.  No position, no funding. -/
def settlePosition (pp : PoolPosition) (acc : VAccount) (p : PairId) : R (VAccount × Dec) :=
  match acc.positions.get p with
  | some pos => do
      let f ← positionFunding pp pos
      let idx := if pos.amount > 0 then pp.fundingLongIndex else pp.fundingShortIndex
      pure ({ acc with positions := acc.positions.set p { pos with fundingIndex := idx } }, f)
  | none => pure (acc, 0)

/-- `_settle_funding`: exchange.rs:2810-2835.  `positions_mut` marks every position as updated.
Returns the negated funding. -/
def settleFunding (w : W) (p : PairId) : R (W × Dec) := do
  let pp ← w.pool.position p
  let (acc, funding) ← settlePosition pp w.acc.touchAll p
  let n ← dneg funding
  let pool ← w.pool.addUnreal n
  let w ← settleAccount { w with pool, acc } n
  pure (w, n)

/-! ## Pair update -/

/-- Result of marking a pair to market. -/
structure Snap where
  pp : PoolPosition
  skew : Dec
  skewAbs : Dec
  dSkew : Dec
  dPnl : Dec

/-- Snapshot computation shared by `_update_pair` (exchange.rs:2494-2504) and `_update_pair_snaps`
(exchange.rs:2614-2624) -/
def snapPosition (pp : PoolPosition) (price : Dec) : R Snap := do
  let d ← dsub pp.oiLong pp.oiShort
  let skew ← dmul d price
  let skewAbs ← dabs skew
  let dSkew ← dsub skewAbs pp.skewAbsSnap
  let pnl ← dsub pp.cost skew
  let dPnl ← dsub pnl pp.pnlSnap
  pure { pp := { pp with skewAbsSnap := skewAbs, pnlSnap := pnl }, skew, skewAbs, dSkew, dPnl }

/-- Decay of the integral rate toward a bound it exceeds: exchange.rs:2520-2522 and 2532-2534 -/
def decayRate (pc : PairConfig) (period rate bound : Dec) : R Dec := do
  let excess ← dsub rate bound
  let k ← dmul pc.funding2Decay period
  let decay ← dmul excess (min k ONE)
  dsub rate decay

/-- New value of the funding integral rate: exchange.rs:2519-2551 -/
def funding2Next (pc : PairConfig) (period rate delta lo hi : Dec) : R Dec :=
  if rate > hi then do
    let rate ← decayRate pc period rate hi
    if delta < 0 then do
      let s ← dadd rate delta
      pure (if s < lo then lo else s)
    else pure rate
  else if rate < lo then do
    let rate ← decayRate pc period rate lo
    if delta > 0 then do
      let s ← dadd rate delta
      pure (if s > hi then hi else s)
    else pure rate
  else do
    let s ← dadd rate delta
    pure (if s > hi then hi else if s < lo then lo else s)

/-- Funding accrued in one period: increments of the long and short index and of the pool's
unrealised funding. -/
structure Accrual where
  dLong : Dec
  dShort : Dec
  dPool : Dec
deriving DecidableEq, Repr

/-- The funding exchanged between the two sides: exchange.rs:2558-2574.
Returns (long index, short index, share). -/
def fundingSides (pc : PairConfig) (oiLong oiShort period rate : Dec) : R (Dec × Dec × Dec) :=
  if rate > 0 then do
    let fl ← dmul rate period
    let li ← ddiv fl oiLong
    let share ← dmul fl pc.fundingShare
    let x ← dsub fl share
    let n ← dneg x
    let si ← ddiv n oiShort
    pure (li, si, share)
  else do
    let nr ← dneg rate
    let fs ← dmul nr period
    let si ← ddiv fs oiShort
    let share ← dmul fs pc.fundingShare
    let x ← dsub fs share
    let n ← dneg x
    let li ← ddiv n oiLong
    pure (li, si, share)

/-- Accrual when both sides are non-empty: exchange.rs:2554-2586 -/
def accrue (pc : PairConfig) (oiLong oiShort price skew skewAbs period rate2 lo hi : Dec) :
    R Accrual := do
  let f1 ← dmul skew pc.funding1
  let cl ← dclamp rate2 lo hi
  let f2 ← dmul cl pc.funding2
  let rate ← dadd f1 f2
  let s ← fundingSides pc oiLong oiShort period rate
  let oi ← dadd oiLong oiShort
  let p0 ← dmul oi price
  let p0 ← dmul p0 pc.fundingPool0
  let p1 ← dmul skewAbs pc.fundingPool1
  let pr ← dadd p0 p1
  let fp ← dmul pr period
  let fpi ← ddiv fp oi
  let dLong ← dadd s.1 fpi
  let dShort ← dadd s.2.1 fpi
  let dPool ← dadd fp s.2.2
  pure { dLong, dShort, dPool }

/-- Seconds in a year, exchange.rs:2508 -/
def YEAR : Dec := 31536000 * ONE

/-- Funding part of `_update_pair` for a non-zero period: exchange.rs:2514-2589 -/
def fundingUpdate (pc : PairConfig) (pp : PoolPosition) (price skew skewAbs period : Dec) :
    R (PoolPosition × Dec) := do
  let hi ← dmul pp.oiLong price
  let ns ← dneg pp.oiShort
  let lo ← dmul ns price
  let d1 ← dmul skew pc.funding2Delta
  let delta ← dmul d1 period
  let rate2 ← funding2Next pc period pp.funding2Rate delta lo hi
  let pp := { pp with funding2Rate := rate2 }
  if pp.oiLong ≠ 0 ∧ pp.oiShort ≠ 0 then do
    let a ← accrue pc pp.oiLong pp.oiShort price skew skewAbs period rate2 lo hi
    let li ← dadd pp.fundingLongIndex a.dLong
    let si ← dadd pp.fundingShortIndex a.dShort
    pure ({ pp with fundingLongIndex := li, fundingShortIndex := si }, a.dPool)
  else pure (pp, 0)

/-- exchange.rs:2514: funding only accrues if time has passed. -/
def fundingStep (pc : PairConfig) (pp : PoolPosition) (price skew skewAbs period : Dec) :
    R (PoolPosition × Dec) :=
  if period ≠ 0 then fundingUpdate pc pp price skew skewAbs period else pure (pp, 0)

/-- `_update_pair`: exchange.rs:2483-2603.  Returns whether the update earns a reward. -/
def updatePair (c : Ctx) (pool : VPool) (p : PairId) : R (VPool × Bool) := do
  let pc ← c.cfg.pair p
  let price ← c.orc.price p
  let pp0 ← pool.position p
  let s ← snapPosition pp0 price
  let periodSeconds ← addSeconds c.now (-pp0.lastUpdate)
  let period ← ddiv (ofInt periodSeconds) YEAR
  let d ← dsub price pp0.lastPrice
  let da ← dabs d
  let ratio ← ddiv da pp0.lastPrice
  let pp1 : PoolPosition := { s.pp with lastPrice := price, lastUpdate := c.now }
  let r ← fundingStep pc pp1 price s.skew s.skewAbs period
  let pool := pool.setPosition p r.1
  let pool ← pool.addSkew s.dSkew
  let pool ← pool.addPnl s.dPnl
  let pool ← pool.addUnreal r.2
  pure (pool, decide (periodSeconds ≥ pc.updatePeriodSeconds ∨ ratio ≥ pc.updatePriceDeltaRatio))

/-- `_update_pair_snaps`: exchange.rs:2605-2628 -/
def updatePairSnaps (c : Ctx) (pool : VPool) (p : PairId) : R VPool := do
  let price ← c.orc.price p
  let pp ← pool.position p
  let s ← snapPosition pp price
  let pool := pool.setPosition p s.pp
  let pool ← pool.addSkew s.dSkew
  pool.addPnl s.dPnl

/-! ## Opening and closing -/

/-- Open interest after opening, with its limit: exchange.rs:2413-2421 -/
def openSide (pc : PairConfig) (pp : PoolPosition) (amount : Dec) : R PoolPosition :=
  if amount > 0 then do
    let oi ← dadd pp.oiLong amount
    require (decide (oi ≤ pc.oiMax)) .pairOiTooHigh
    pure { pp with oiLong := oi }
  else do
    let oi ← dsub pp.oiShort amount
    require (decide (oi ≤ pc.oiMax)) .pairOiTooHigh
    pure { pp with oiShort := oi }

/-- Pool side of `_open_position`: exchange.rs:2410-2423 -/
def openPool (pc : PairConfig) (pp : PoolPosition) (amount cost : Dec) : R PoolPosition := do
  let pp ← openSide pc pp amount
  let co ← dadd pp.cost cost
  pure { pp with cost := co }

/-- `_open_position`: exchange.rs:2386-2439.  Returns the fee. -/
def openPosition (c : Ctx) (w : W) (p : PairId) (amount : Dec) : R (W × Dec) := do
  let pc ← c.cfg.pair p
  let rebate ← w.acc.feeRebate
  let price ← c.orc.price p
  let value ← dmul amount price
  let pp ← w.pool.position p
  let pos := w.acc.position p
  require (decide (pos.amount.sign * amount.sign ≥ 0)) .assertion
  let fee ← calculateFee c.cfg.ex pc pp rebate price value
  let cost ← dadd value fee
  let pp ← openPool pc pp amount cost
  let am ← dadd pos.amount amount
  let co ← dadd pos.cost cost
  let idx := if am > 0 then pp.fundingLongIndex else pp.fundingShortIndex
  let acc := w.acc.setPosition p { amount := am, cost := co, fundingIndex := idx }
  let pool ← updatePairSnaps c (w.pool.setPosition p pp) p
  assertPositionLimit c.cfg acc
  assertAccountIntegrity c pool acc
  pure ({ w with pool, acc }, fee)

/-- Open interest after closing: exchange.rs:2467-2471 -/
def closeSide (pp : PoolPosition) (amount : Dec) : R PoolPosition :=
  if amount < 0 then do
    let oi ← dadd pp.oiLong amount
    pure { pp with oiLong := oi }
  else do
    let oi ← dsub pp.oiShort amount
    pure { pp with oiShort := oi }

/-- Pool side of `_close_position`: exchange.rs:2467-2472 -/
def closePool (pp : PoolPosition) (amount cost : Dec) : R PoolPosition := do
  let pp ← closeSide pp amount
  let co ← dsub pp.cost cost
  pure { pp with cost := co }

/-- `_close_position`: exchange.rs:2441-2481.  Returns (pnl, fee). -/
def closePosition (c : Ctx) (w : W) (p : PairId) (amount : Dec) : R (W × Dec × Dec) := do
  let pc ← c.cfg.pair p
  let rebate ← w.acc.feeRebate
  let price ← c.orc.price p
  let value ← dmul amount price
  let pp ← w.pool.position p
  let pos := w.acc.position p
  require (decide (pos.amount.sign * amount.sign ≤ 0)) .assertion
  require (decide (|pos.amount| ≥ |amount|)) .assertion
  let fee ← calculateFee c.cfg.ex pc pp rebate price value
  let na ← dneg amount
  let q ← ddiv na pos.amount
  let cost ← dmul q pos.cost
  let nv ← dneg value
  let x ← dsub nv cost
  let pnl ← dsub x fee
  let pp ← closePool pp amount cost
  let am ← dadd pos.amount amount
  let co ← dsub pos.cost cost
  let acc := w.acc.setPosition p { pos with amount := am, cost := co }
  let w ← settleAccount { w with pool := w.pool.setPosition p pp, acc } pnl
  let pool ← updatePairSnaps c w.pool p
  pure ({ w with pool }, pnl, fee)

/-! ## Liquidation of positions and collateral -/

/-- Totals of `_liquidate_positions`: exchange.rs:2686-2691 -/
structure LiqTotals where
  pnl : Dec
  margin : Dec
  funding : Dec
  fee : Dec
deriving DecidableEq, Repr

/-- Open interest after liquidating a position: exchange.rs:2703-2709 -/
def liqSide (pp : PoolPosition) (pos : AccountPosition) : R PoolPosition :=
  if pos.amount > 0 then do
    let oi ← dsub pp.oiLong pos.amount
    pure { pp with oiLong := oi }
  else do
    let oi ← dadd pp.oiShort pos.amount
    pure { pp with oiShort := oi }

/-- Update of the pool position in exchange.rs:2703-2710 -/
def liqPool (pp : PoolPosition) (pos : AccountPosition) : R PoolPosition := do
  let pp ← liqSide pp pos
  let co ← dsub pp.cost pos.cost
  pure { pp with cost := co }

/-- Loop body of `_liquidate_positions`: exchange.rs:2692-2723 (the position itself is removed for all
entries in `liquidatePositions`) -/
def liquidateOne (c : Ctx) (rebate : Dec) (t : VPool × LiqTotals) (e : PairId × AccountPosition) :
    R (VPool × LiqTotals) := do
  let pc ← c.cfg.pair e.1
  let price ← c.orc.price e.1
  let n ← dneg e.2.amount
  let value ← dmul n price
  let valueAbs ← dabs value
  let pp ← t.1.position e.1
  let fee ← calculateFee c.cfg.ex pc pp rebate price value
  let funding ← positionFunding pp e.2
  let pp ← liqPool pp e.2
  let nv ← dneg value
  let a ← dsub nv e.2.cost
  let b ← dsub a fee
  let pnl ← dsub b funding
  let margin ← dmul valueAbs pc.marginMaintenance
  let tf ← dadd t.2.funding funding
  let tp ← dadd t.2.pnl pnl
  let tm ← dadd t.2.margin margin
  let tfee ← dadd t.2.fee fee
  pure (t.1.setPosition e.1 pp, { pnl := tp, margin := tm, funding := tf, fee := tfee })

/-- `_liquidate_positions`: exchange.rs:2671-2737 -/
def liquidatePositions (c : Ctx) (w : W) : R (W × LiqTotals) := do
  let rebate ← w.acc.feeRebate
  let ids := w.acc.positions.keys
  let pool ← ids.foldlM (fun pool p => do let r ← updatePair c pool p; pure r.1) w.pool
  let r ← w.acc.positions.entries.foldlM (liquidateOne c rebate) (pool, ⟨0, 0, 0, 0⟩)
  let acc := w.acc.touchAll
  let acc := { acc with positions := acc.positions.mapV (fun _ _ => AccountPosition.zero) }
  let n ← dneg r.2.funding
  let pool ← r.1.addUnreal n
  let pool ← ids.foldlM (updatePairSnaps c) pool
  pure ({ w with pool, acc }, r.2)

/-- Totals of `_liquidate_collateral`: exchange.rs:2771-2775 -/
structure LiqColl where
  value : Dec
  valueDiscounted : Dec
  margin : Dec
  amounts : List (Res × Dec)
deriving DecidableEq, Repr

/-- Loop body of `_liquidate_collateral`: exchange.rs:2776-2789 -/
def liquidateCollateralOne (c : Ctx) (t : LiqColl) (e : Res × Dec) : R LiqColl :=
  match c.cfg.colls.get e.1 with
  | some cc => do
      let price ← c.orc.priceResource e.1
      let value ← dmul e.2 price
      let vd ← dmul value cc.discount
      let margin ← dmul value cc.margin
      let tv ← dadd t.value value
      let tvd ← dadd t.valueDiscounted vd
      let tm ← dadd t.margin margin
      pure { value := tv, valueDiscounted := tvd, margin := tm, amounts := t.amounts ++ [e] }
  | none => pure t

/-- `_liquidate_collateral`: exchange.rs:2765-2798 -/
def liquidateCollateral (c : Ctx) (a : VAccount) : R LiqColl :=
  a.collateralBalances.entries.foldlM (liquidateCollateralOne c) ⟨0, 0, 0, []⟩

/-! ## The bodies of the methods -/

/-- `_settle_fee_oath`: exchange.rs:1826-1845.  The oath is burnt: the caller of this function
reduces the supply by the amount. -/
def settleFeeOath (c : Ctx) (pool : VPool) (a : VAccount) (oath : Bucket) : R VAccount := do
  require (decide (oath.res = FEE_OATH)) .invalidFeeOath
  let n ← dneg oath.amt
  let a ← a.addVb n
  assertAccountIntegrity c pool a
  pure a

/-- Event of the two liquidity methods: exchange.rs:1873-1880, 1914-1921 -/
structure LiquidityEv where
  lpPrice : Dec
  lpAmount : Dec
  amount : Dec
  fees : FeeSplit
deriving DecidableEq, Repr

/-- Amount of LP tokens for a contribution, and the LP price: exchange.rs:1859-1866 -/
def lpMint (lpSupply poolVal x : Dec) : R (Dec × Dec) :=
  if lpSupply = 0 then pure (x, ONE)
  else do
    let lpPrice ← ddiv poolVal lpSupply
    let lpAmount ← ddiv x lpPrice
    pure (lpAmount, lpPrice)

/-- `_add_liquidity`: exchange.rs:1847-1883.  Returns the minted LP amount. -/
def addLiquidity (env : Env) (cfg : VConfig) (pool : VPool) (dist : FeeDist) (lpSupply : Dec)
    (payment : Bucket) : R (VPool × FeeDist × Dec × LiquidityEv) := do
  require (decide (payment.res = BASE)) .invalidPaymentToken
  let value := payment.amt
  let fee ← dmul value cfg.ex.feeLiquidityAdd
  let pv ← poolValue pool
  let poolVal := max pv ONE
  let x ← dsub value fee
  let r ← lpMint lpSupply poolVal x
  let pool ← pool.deposit payment.amt
  let minted ← mintAmount (env.gran LP) r.1
  let (pool, dist, fees) ← settleFeesBasic cfg.ex pool dist fee
  pure (pool, dist, minted, { lpPrice := r.2, lpAmount := r.1, amount := value, fees })

/-- `_remove_liquidity`: exchange.rs:1885-1924.  Returns the amount of base tokens paid out.  The LP
bucket is burnt. -/
def removeLiquidity (env : Env) (cfg : VConfig) (pool : VPool) (dist : FeeDist) (lpSupply : Dec)
    (lp : Bucket) : R (VPool × FeeDist × Dec × LiquidityEv) := do
  require (decide (lp.res = LP)) .invalidLpToken
  let pv ← poolValue pool
  let poolVal := max pv 0
  let lpPrice ← ddiv poolVal lpSupply
  let value ← dmul lp.amt lpPrice
  let fee ← dmul value cfg.ex.feeLiquidityRemove
  let withdrawAmount ← dsub value fee
  require (decide (withdrawAmount ≤ pool.base)) .insufficientPoolTokens
  let (pool, token) ← pool.withdraw env withdrawAmount .toZero
  let (pool, dist, fees) ← settleFeesBasic cfg.ex pool dist fee
  assertPoolIntegrity cfg pool 0
  let nl ← dneg lp.amt
  let nt ← dneg token
  pure (pool, dist, token, { lpPrice, lpAmount := nl, amount := nt, fees })

/-- Loop exchange.rs:2039-2048: base tokens go to the pool and are credited to the account. -/
def addBase (w : W) (b : Bucket) : R W := do
  let pool ← w.pool.deposit b.amt
  settleAccount { w with pool } b.amt

/-- `_add_collateral`: exchange.rs:2031-2058 -/
def addCollateral (cfg : VConfig) (w : W) (tokens : List Bucket) : R W := do
  let w ← (tokens.filter (fun b => b.res = BASE)).foldlM addBase w
  let rest := tokens.filter (fun b => b.res ≠ BASE)
  require (rest.all (fun b => cfg.colls.has b.res)) .invalidCollateral
  let acc ← w.acc.depositCollateral rest
  assertCollateralsLimit cfg acc
  pure { w with acc }

/-- Aggregation of claims: exchange.rs:2069-2073 -/
def addClaim (m : AMap Res Dec) (e : Res × Dec) : R (AMap Res Dec) :=
  match m.get e.1 with
  | some x => do
      let y ← dadd x e.2
      pure (m.set e.1 y)
  | none => pure (m.set e.1 e.2)

/-- Closure of exchange.rs:2076-2100.  State: working state, base tokens taken, claims kept. -/
def claimOne (env : Env) (t : W × List Bucket × List (Res × Dec)) (e : Res × Dec) :
    R (W × List Bucket × List (Res × Dec)) :=
  if e.1 = BASE then do
    require (decide (e.2 ≤ t.1.acc.vb)) .insufficientBalance
    require (decide (e.2 ≤ t.1.pool.base)) .insufficientPoolTokens
    let (pool, x) ← t.1.pool.withdraw env e.2 .toZero
    let n ← dneg x
    let w ← settleAccount { t.1 with pool } n
    pure (w, t.2.1 ++ [⟨BASE, x⟩], t.2.2)
  else do
    require (decide (e.2 ≤ t.1.acc.collateralAmount e.1)) .insufficientBalance
    pure (t.1, t.2.1, t.2.2 ++ [e])

/-- `_remove_collateral`: exchange.rs:2060-2114.  Returns the tokens deposited into the target. -/
def removeCollateral (c : Ctx) (w : W) (r : RemoveCollateralReq) : R (W × List Bucket) := do
  let claims ← r.claims.foldlM addClaim AMap.empty
  let t ← claims.entries.foldlM (claimOne c.env) (w, [], [])
  let (acc, bs) ← t.1.acc.withdrawCollateral c.env t.2.2 .toZero
  let tokens := t.2.1 ++ bs
  require (c.env.isWallet r.target) .invalidAccount
  assertAccountIntegrity c t.1.pool acc
  pure ({ t.1 with acc }, tokens)

/-- Event of a margin order: exchange.rs:2189-2204 -/
structure MarginOrderEv where
  pair : PairId
  price : Dec
  amountClose : Dec
  amountOpen : Dec
  pnl : Dec
  funding : Dec
  fees : FeeSplit
deriving DecidableEq, Repr

/-- The closing part of an order: exchange.rs:2141-2152 -/
def closeAmount (posAmount amount : Dec) : R Dec :=
  if posAmount > 0 ∧ amount < 0 then do
    let n ← dneg posAmount
    pure (max amount n)
  else if posAmount < 0 ∧ amount > 0 then do
    let n ← dneg posAmount
    pure (min amount n)
  else pure 0

/-- The opening part of an order: exchange.rs:2153-2159 -/
def openAmount (amount close : Dec) (reduceOnly : Bool) : R Dec :=
  if reduceOnly then pure 0 else dsub amount close

/-- Split of an order into closing and opening part: exchange.rs:2141-2159 -/
def splitOrder (posAmount amount : Dec) (reduceOnly : Bool) : R (Dec × Dec) := do
  let close ← closeAmount posAmount amount
  let op ← openAmount amount close reduceOnly
  pure (close, op)

/-- exchange.rs:2163-2167: close if there is something to close. -/
def closePart (c : Ctx) (w : W) (p : PairId) (close : Dec) : R (W × Dec × Dec) :=
  if close ≠ 0 then closePosition c w p close else pure (w, 0, 0)

/-- exchange.rs:2168-2171: open if there is something to open. -/
def openPart (c : Ctx) (w : W) (p : PairId) (op : Dec) : R (W × Dec) :=
  if op ≠ 0 then openPosition c w p op else pure (w, 0)

/-- The position change of `_margin_order`: exchange.rs:2161-2173.  Returns (pnl, fee_paid). -/
def executeOrder (c : Ctx) (w : W) (p : PairId) (close op : Dec) : R (W × Dec × Dec) := do
  let r ← closePart c w p close
  let s ← openPart c r.1 p op
  let fee ← dadd r.2.2 s.2
  pure (s.1, r.2.1, fee)

/-- `_margin_order`: exchange.rs:2116-2205 -/
def marginOrder (c : Ctx) (w : W) (r : MarginOrderReq) : R (W × MarginOrderEv) := do
  let price ← c.orc.price r.pair
  require (r.priceLimit.compare price) .priceLimit
  let u ← updatePair c w.pool r.pair
  let (w, funding) ← settleFunding { w with pool := u.1 } r.pair
  let posAmount := (w.acc.positions.getD r.pair AccountPosition.zero).amount
  let (close, op) ← splitOrder posAmount r.amount r.reduceOnly
  let skew0 := w.pool.skewSnap
  let (w, pnl, feePaid) ← executeOrder c w r.pair close op
  let total ← dadd op close
  let ta ← dabs total
  let tradeValue ← dmul price ta
  let ok ← r.slippageLimit.compare feePaid tradeValue
  require ok .slippageLimit
  let (w, fees) ← settleFeesReferral c.cfg.ex w feePaid
  let acc ← w.acc.trySetStatus r.activate STATUS_ACTIVE
  let acc ← acc.trySetStatus r.cancel STATUS_CANCELLED
  let w := { w with acc }
  let dSkew ← dsub w.pool.skewSnap skew0
  assertPoolIntegrity c.cfg w.pool dSkew
  let tp ← dadd pnl funding
  pure (w, { pair := r.pair, price, amountClose := close, amountOpen := op, pnl := tp, funding, fees })

/-- Event of a debt swap: exchange.rs:2242-2247, plus the amount paid -/
structure SwapDebtEv where
  resource : Res
  amount : Dec
  price : Dec
deriving DecidableEq, Repr

/-- Amount and value of a debt swap: exchange.rs:2226-2236 -/
def swapDebtAmounts (payment debt available priceRes : Dec) : R (Dec × Dec) := do
  let value := min payment debt
  let amount ← ddiv value priceRes
  if amount > available then do
    let v ← dmul available priceRes
    pure (available, v)
  else pure (amount, value)

/-- `_swap_debt`: exchange.rs:2207-2250.  Returns (collateral token, remaining payment). -/
def swapDebt (c : Ctx) (w : W) (resource : Res) (payment : Bucket) :
    R (W × Bucket × Bucket × SwapDebtEv) := do
  require (decide (payment.res = BASE)) .invalidPaymentToken
  assertValidCollateral c.cfg resource
  require (decide (w.acc.vb < 0)) .noDebt
  let cc ← expect (c.cfg.colls.get resource) .invalidCollateral
  let d1 ← dmul cc.discount (decLit 1 1)
  let discount ← dadd d1 (decLit 9 1)
  let debt ← dneg w.acc.vb
  let pr ← c.orc.priceResource resource
  let priceRes ← dmul pr discount
  let (amount, value) ← swapDebtAmounts payment.amt debt (w.acc.collateralAmount resource) priceRes
  let taken ← takeAmount (c.env.gran BASE) payment.amt value .toInfinity
  let pool ← w.pool.deposit taken
  let w ← settleAccount { w with pool } value
  let (acc, bs) ← w.acc.withdrawCollateral c.env [(resource, amount)] .toZero
  let token ← expect bs.getLast? .vault
  pure ({ w with acc }, token, ⟨BASE, payment.amt - taken⟩,
        { resource, amount := token.amt, price := priceRes })

/-- Event of a liquidation: exchange.rs:2297-2315; the position amounts and the prices are in `Event.liquidate` -/
structure LiquidateEv where
  accountValue : Dec
  margin : Dec
  virtualBalance : Dec
  positionsPnl : Dec
  collateralAmounts : List (Res × Dec)
  collateralValue : Dec
  collateralValueDiscounted : Dec
  funding : Dec
  fees : FeeSplit
  poolLoss : Dec
deriving DecidableEq, Repr

/-- Writing off the remaining debt: exchange.rs:2286-2292 -/
def writeOff (w : W) : R (W × Dec) :=
  if w.acc.vb < 0 then do
    let loss := w.acc.vb
    let n ← dneg loss
    let w ← settleAccount w n
    pure (w, loss)
  else pure (w, 0)

/-- `_liquidate`: exchange.rs:2252-2318.  Returns the tokens given to the liquidator. -/
def liquidate (c : Ctx) (w : W) (payment : Bucket) : R (W × List Bucket × LiquidateEv) := do
  require (decide (payment.res = BASE)) .invalidPaymentToken
  let (w, lp) ← liquidatePositions c w
  let lc ← liquidateCollateral c w.acc
  let vb := w.acc.vb
  let x ← dadd lp.pnl lc.valueDiscounted
  let accountValue ← dadd x vb
  let margin ← dadd lp.margin lc.margin
  require (decide (accountValue < margin)) .sufficientMargin
  let value := amountFor (c.env.gran BASE) lc.valueDiscounted .toInfinity
  require (decide (payment.amt ≥ value)) .insufficientPayment
  let (acc, bs) ← w.acc.withdrawCollateral c.env lc.amounts .toZero
  let taken ← takeAmount (c.env.gran BASE) payment.amt value .exact
  let pool ← w.pool.deposit taken
  let settlement ← dadd lp.pnl value
  let w ← settleAccount { w with pool, acc } settlement
  let (w, loss) ← writeOff w
  let (w, fees) ← settleFeesReferral c.cfg.ex w lp.fee
  let w := { w with acc := w.acc.updateValidStart }
  let nf ← dneg lp.funding
  pure (w, bs ++ [⟨BASE, payment.amt - taken⟩],
    { accountValue, margin, virtualBalance := vb, positionsPnl := lp.pnl,
      collateralAmounts := lc.amounts, collateralValue := lc.value,
      collateralValueDiscounted := lc.valueDiscounted, funding := nf, fees, poolLoss := loss })

/-- Event of an auto-deleverage: exchange.rs:2370-2383 -/
structure AdlEv where
  pair : PairId
  price : Dec
  amountClose : Dec
  pnl : Dec
  funding : Dec
  fees : FeeSplit
  pnlPercent : Dec
  threshold : Dec
deriving DecidableEq, Repr

/-- ADL threshold: exchange.rs:2353-2354 -/
def adlThreshold (ex : ExchangeConfig) (ratio : Dec) : R Dec := do
  let a ← ddiv ratio ex.adlA
  let b ← ddiv ex.adlOffset ex.adlA
  let u ← dsub a b
  let u2 ← dmul u u
  let u3 ← dmul u2 u
  let n ← dneg u3
  let bu ← dmul ex.adlB u
  dsub n bu

/-- `_auto_deleverage`: exchange.rs:2320-2384 -/
def autoDeleverage (c : Ctx) (w : W) (p : PairId) : R (W × AdlEv) := do
  let u ← updatePair c w.pool p
  let (w, funding) ← settleFunding { w with pool := u.1 } p
  let ratio0 ← skewRatio w.pool
  require (decide (ratio0 > c.cfg.ex.skewRatioCap)) .adlSkewTooLow
  let pos := w.acc.position p
  let price ← c.orc.price p
  require (decide (pos.amount ≠ 0)) .adlNoPosition
  let value ← dmul pos.amount price
  let x ← dsub value pos.cost
  let pnlPercent ← ddiv x pos.cost
  let threshold ← adlThreshold c.cfg.ex ratio0
  require (decide (pnlPercent > threshold)) .adlPnlBelowThreshold
  let amountClose ← dneg pos.amount
  let (w, pnl, fee) ← closePosition c w p amountClose
  let (w, fees) ← settleFeesReferral c.cfg.ex w fee
  let ratio1 ← skewRatio w.pool
  require (decide (ratio1 < ratio0)) .adlSkewNotReduced
  let tp ← dadd pnl funding
  pure (w, { pair := p, price, amountClose, pnl := tp, funding, fees, pnlPercent, threshold })

end Perp
