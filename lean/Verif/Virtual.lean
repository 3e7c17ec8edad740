import Verif.Oracle

/-!
# The virtual layer: VirtualLiquidityPool and VirtualMarginAccount

exchange/src/exchange/virtual_margin_pool.rs, virtual_margin_account.rs, and the components they
buffer: pool/src/margin_pool.rs, account/src/margin_account.rs, common/src/vaults.rs.
-/

namespace Perp

/-! ## VirtualLiquidityPool -/

/-- virtual_margin_pool.rs:8-17.  `comp` is the component behind it; vault movements act on it at
once, everything else is buffered until `realize`. -/
structure VPool where
  comp : Pool
  positions : AMap PairId PoolPosition
  updated : List PairId
  base : Dec
  vb : Dec
  unreal : Dec
  skewSnap : Dec
  pnlSnap : Dec

/-- Stored position or the default: margin_pool.rs:78-83.  `PoolPosition::default()` stamps the
current time. -/
def Pool.position (pl : Pool) (now : Int) (p : PairId) : PoolPosition :=
  (pl.positions.get p).getD (PoolPosition.dflt now)

/-- `VirtualLiquidityPool::new`: virtual_margin_pool.rs:20-33 with margin_pool.rs:63-83 -/
def VPool.new (pl : Pool) (now : Int) (ids : List PairId) : VPool where
  comp := pl
  positions := AMap.build (pl.position now) ids
  updated := []
  base := pl.baseTokens
  vb := pl.vb
  unreal := pl.unrealizedFunding
  skewSnap := pl.skewAbsSnap
  pnlSnap := pl.pnlSnap

/-- `position`: virtual_margin_pool.rs:56-58 -/
def VPool.position (v : VPool) (p : PairId) : R PoolPosition :=
  expect (v.positions.get p) .missingPoolPosition

/-- Writing through the reference returned by `position_mut`: virtual_margin_pool.rs:60-63 -/
def VPool.setPosition (v : VPool) (p : PairId) (x : PoolPosition) : VPool :=
  { v with positions := v.positions.set p x, updated := p :: v.updated }

/-- `deposit`: virtual_margin_pool.rs:85-88, margin_pool.rs:96-98 -/
def VPool.deposit (v : VPool) (amount : Dec) : R VPool := do
  let base ← dadd v.base amount
  let tok ← dadd v.comp.baseTokens amount
  pure { v with base, comp := { v.comp with baseTokens := tok } }

/-- `withdraw`: virtual_margin_pool.rs:90-94, margin_pool.rs:100-102.  Returns the amount taken. -/
def VPool.withdraw (env : Env) (v : VPool) (amount : Dec) (st : Strategy) : R (VPool × Dec) := do
  let x ← takeAmount (env.gran BASE) v.comp.baseTokens amount st
  let base ← dsub v.base x
  let tok ← dsub v.comp.baseTokens x
  pure ({ v with base, comp := { v.comp with baseTokens := tok } }, x)

/-- `add_virtual_balance`: virtual_margin_pool.rs:96-98 -/
def VPool.addVb (v : VPool) (a : Dec) : R VPool := do
  let vb ← dadd v.vb a
  pure { v with vb }

/-- `add_unrealized_pool_funding`: virtual_margin_pool.rs:100-102 -/
def VPool.addUnreal (v : VPool) (a : Dec) : R VPool := do
  let unreal ← dadd v.unreal a
  pure { v with unreal }

/-- `add_skew_abs_snap`: virtual_margin_pool.rs:104-106 -/
def VPool.addSkew (v : VPool) (a : Dec) : R VPool := do
  let skewSnap ← dadd v.skewSnap a
  pure { v with skewSnap }

/-- `add_pnl_snap`: virtual_margin_pool.rs:108-110 -/
def VPool.addPnl (v : VPool) (a : Dec) : R VPool := do
  let pnlSnap ← dadd v.pnlSnap a
  pure { v with pnlSnap }

/-- The stored positions after `MarginPool::update` with the updated entries:
virtual_margin_pool.rs:37, margin_pool.rs:85-88 -/
def VPool.realPositions (v : VPool) : AMap PairId PoolPosition :=
  v.positions.entries.foldl
    (fun m e => if e.1 ∈ v.updated then m.set e.1 e.2 else m) v.comp.positions

/-- `realize`: virtual_margin_pool.rs:35-54 with margin_pool.rs:85-94 (events omitted) -/
def VPool.realize (v : VPool) : Pool where
  positions := v.realPositions
  baseTokens := v.comp.baseTokens
  vb := v.vb
  unrealizedFunding := v.unreal
  skewAbsSnap := v.skewSnap
  pnlSnap := v.pnlSnap

/-! ## Vaults — common/src/vaults.rs -/

/-- `Vaults::put`: vaults.rs:30-38.  The engine refuses to deposit fee oaths anywhere
(fee_delegator.rs:65-68: depositor `deny_all`). -/
def vaultPut (m : AMap Res Dec) (b : Bucket) : R (AMap Res Dec) := do
  require (decide (b.res ≠ FEE_OATH)) .vault
  let x ← dadd (m.getD b.res 0) b.amt
  pure (m.set b.res x)

/-- `Vaults::put_batch`: vaults.rs:40-44 -/
def vaultPutBatch (m : AMap Res Dec) (bs : List Bucket) : R (AMap Res Dec) := bs.foldlM vaultPut m

/-- `Vaults::take_advanced`: vaults.rs:61-67 -/
def vaultTake (env : Env) (st : Strategy) (m : AMap Res Dec) (c : Res × Dec) :
    R (AMap Res Dec × Bucket) := do
  let x ← takeAmount (env.gran c.1) (m.getD c.1 0) c.2 st
  pure (m.set c.1 (m.getD c.1 0 - x), ⟨c.1, x⟩)

/-- `Vaults::take_advanced_batch`: vaults.rs:69-74 -/
def vaultTakeBatch (env : Env) (st : Strategy) (m : AMap Res Dec) :
    List (Res × Dec) → R (AMap Res Dec × List Bucket)
  | [] => .ok (m, [])
  | c :: cs => do
      let (m, b) ← vaultTake env st m c
      let (m, bs) ← vaultTakeBatch env st m cs
      pure (m, b :: bs)

/-! ## Collateral balances (the same code in the component and in the virtual account) -/

/-- margin_account.rs:168-175 and virtual_margin_account.rs:370-377, one token -/
def balanceAdd (m : AMap Res Dec) (b : Bucket) : R (AMap Res Dec) :=
  match m.get b.res with
  | some x => do
      let y ← dadd x b.amt
      pure (m.set b.res y)
  | none => pure (m.set b.res b.amt)

def balanceAddBatch (m : AMap Res Dec) (bs : List Bucket) : R (AMap Res Dec) :=
  bs.foldlM balanceAdd m

/-- margin_account.rs:181-190 and virtual_margin_account.rs:384-393, one token.  Indexing a missing
key panics. -/
def balanceSub (m : AMap Res Dec) (b : Bucket) : R (AMap Res Dec) := do
  let x ← expect (m.get b.res) .insufficientBalance
  let y ← dsub x b.amt
  pure (if y = 0 then m.erase b.res else m.set b.res y)

def balanceSubBatch (m : AMap Res Dec) (bs : List Bucket) : R (AMap Res Dec) :=
  bs.foldlM balanceSub m

/-! ## VirtualMarginAccount -/

/-- virtual_margin_account.rs:13-32.  `comp` is the component behind it. -/
structure VAccount where
  addr : Addr
  comp : Account
  positions : AMap PairId AccountPosition
  collateralBalances : AMap Res Dec
  vb : Dec
  validStart : Nat
  requestsLen : Nat
  activeLen : Nat
  positionsUpdated : List PairId
  requestAdditions : List KeeperRequest
  requestUpdates : AMap Nat KeeperRequest
  activeAdditions : List Nat
  activeRemovals : List Nat
  referralId : Option RefId
  referralData : Option ReferralData
  referralRewarded : Bool

/-- Referral NFT data of the account: virtual_margin_account.rs:38-43 -/
def loadReferral (refs : AMap RefId ReferralData) (rid : Option RefId) : R (Option ReferralData) :=
  match rid with
  | some r => do
      let d ← expect (refs.get r) .invalidReferral
      pure (some d)
  | none => pure none

/-- `VirtualMarginAccount::new`: virtual_margin_account.rs:35-65, margin_account.rs:97-107 -/
def VAccount.new (accounts : AMap Addr Account) (refs : AMap RefId ReferralData) (a : Addr) :
    R VAccount := do
  let c ← expect (accounts.get a) .invalidMarginAccount
  let rd ← loadReferral refs c.referralId
  pure { addr := a, comp := c, positions := c.positions, collateralBalances := c.collateralBalances,
         vb := c.vb, validStart := c.validStart, requestsLen := c.requests.length,
         activeLen := c.active.card, positionsUpdated := [], requestAdditions := [],
         requestUpdates := AMap.empty, activeAdditions := [], activeRemovals := [],
         referralId := c.referralId, referralData := rd, referralRewarded := false }

/-- `position_ids`: virtual_margin_account.rs:114-116 -/
def VAccount.positionIds (v : VAccount) : List PairId := v.positions.keys

/-- `positions_mut`: virtual_margin_account.rs:109-112 (marks every position as updated) -/
def VAccount.touchAll (v : VAccount) : VAccount :=
  { v with positionsUpdated := v.positions.keys ++ v.positionsUpdated }

/-- Value behind `position`/`position_mut`: virtual_margin_account.rs:118-125 -/
def VAccount.position (v : VAccount) (p : PairId) : AccountPosition :=
  v.positions.getD p AccountPosition.zero

/-- Writing through `position_mut`: virtual_margin_account.rs:122-125 -/
def VAccount.setPosition (v : VAccount) (p : PairId) (x : AccountPosition) : VAccount :=
  { v with positions := v.positions.set p x, positionsUpdated := p :: v.positionsUpdated }

/-- `fee_share_referral`: virtual_margin_account.rs:137-139 -/
def VAccount.feeShareReferral (v : VAccount) : Dec :=
  match v.referralData with
  | some d => d.feeReferral
  | none => 0

/-- `fee_rebate`: virtual_margin_account.rs:141-143 -/
def VAccount.feeRebate (v : VAccount) : R Dec :=
  match v.referralData with
  | some d => dsub ONE d.feeRebate
  | none => pure ONE

/-- `reward_referral`: virtual_margin_account.rs:145-151 -/
def VAccount.rewardReferral (v : VAccount) (amount : Dec) : R VAccount :=
  match v.referralData with
  | some d => do
      let b ← dadd d.balance amount
      let t ← dadd d.totalRewarded amount
      pure { v with referralData := some { d with balance := b, totalRewarded := t },
                    referralRewarded := true }
  | none => pure v

/-- `keeper_request`: virtual_margin_account.rs:157-163 -/
def VAccount.keeperRequest (v : VAccount) (i : Nat) : R KeeperRequest :=
  match v.requestUpdates.get i with
  | some r => pure r
  | none => expect v.comp.requests[i]? .missingRequest

/-- `keeper_requests`: virtual_margin_account.rs:165-180; duplicates collapse in the map. -/
def VAccount.keeperRequests (v : VAccount) (is : List Nat) : R (AMap Nat KeeperRequest) :=
  AMap.buildM v.keeperRequest is

/-- `collateral_amount`: virtual_margin_account.rs:197-199 -/
def VAccount.collateralAmount (v : VAccount) (r : Res) : Dec := v.collateralBalances.getD r 0

/-- `add_virtual_balance`: virtual_margin_account.rs:398-400 -/
def VAccount.addVb (v : VAccount) (a : Dec) : R VAccount := do
  let vb ← dadd v.vb a
  pure { v with vb }

/-- `_add_active_request`: virtual_margin_account.rs:411-414 -/
def VAccount.addActive (v : VAccount) (i : Nat) : VAccount :=
  { v with activeLen := v.activeLen + 1, activeAdditions := v.activeAdditions ++ [i] }

/-- `_remove_active_request`: virtual_margin_account.rs:416-419; `usize` subtraction is
overflow-checked. -/
def VAccount.removeActive (v : VAccount) (i : Nat) : R VAccount := do
  require (decide (0 < v.activeLen)) .arithmetic
  pure { v with activeLen := v.activeLen - 1, activeRemovals := v.activeRemovals ++ [i] }

/-- `push_request`: virtual_margin_account.rs:252-272 -/
def VAccount.pushRequest (v : VAccount) (now : Int) (request : Request) (delay expiry : Nat)
    (status : Status) (effected : List Addr) : R VAccount := do
  require (decide (status = STATUS_ACTIVE ∨ status = STATUS_DORMANT)) .invalidStatus
  let submission ← addSeconds now (u64AsI64 delay)
  let exp ← addSeconds submission (u64AsI64 expiry)
  let kr : KeeperRequest := { request, submission, expiry := exp, status, effected }
  let index := v.requestsLen + v.requestAdditions.length
  let v := v.addActive index
  pure { v with requestAdditions := v.requestAdditions ++ [kr] }

/-- `_status_phases`: virtual_margin_account.rs:421-428 -/
def statusPhases (status : Status) : R (List Status) :=
  if status = STATUS_ACTIVE then .ok [STATUS_DORMANT]
  else if status = STATUS_EXECUTED then .ok [STATUS_ACTIVE]
  else if status = STATUS_CANCELLED then .ok [STATUS_ACTIVE, STATUS_DORMANT]
  else .error .invalidStatus

/-- Is a status pending (Active or Dormant)? -/
def pending (s : Status) : Bool := decide (s = STATUS_ACTIVE ∨ s = STATUS_DORMANT)

/-- Bookkeeping of the active set for a change of status: virtual_margin_account.rs:283-291 -/
def VAccount.moveActive (v : VAccount) (i : Nat) (old new : Status) : R VAccount :=
  if pending new then
    (if pending old then pure v else pure (v.addActive i))
  else
    (if pending old then v.removeActive i else pure v)

/-- Loop body of `try_set_keeper_requests_status`: virtual_margin_account.rs:278-294 -/
def VAccount.trySetOne (status : Status) (phases : List Status) (v : VAccount) (e : Nat × KeeperRequest) :
    R VAccount :=
  if e.2.status ∉ phases then pure v
  else do
    let v ← v.moveActive e.1 e.2.status status
    pure { v with requestUpdates := v.requestUpdates.set e.1 { e.2 with status := status } }

/-- `try_set_keeper_requests_status`: virtual_margin_account.rs:274-297 (the returned list of updated
indexes only feeds an event: `VAccount.effected`) -/
def VAccount.trySetStatus (v : VAccount) (is : List Nat) (status : Status) : R VAccount := do
  let phases ← statusPhases status
  let krs ← v.keeperRequests is
  krs.entries.foldlM (VAccount.trySetOne status phases) v

/-- Loop body of `cancel_requests`: virtual_margin_account.rs:315-326 -/
def VAccount.cancelOne (v : VAccount) (e : Nat × KeeperRequest) : R VAccount := do
  let phases ← statusPhases STATUS_CANCELLED
  require (decide (e.2.status ∈ phases)) .cancelNotActive
  let v ← v.moveActive e.1 e.2.status STATUS_CANCELLED
  pure { v with requestUpdates := v.requestUpdates.set e.1 { e.2 with status := STATUS_CANCELLED } }

/-- `cancel_requests`: virtual_margin_account.rs:313-327 -/
def VAccount.cancelRequests (v : VAccount) (is : List Nat) : R VAccount := do
  let krs ← v.keeperRequests is
  krs.entries.foldlM VAccount.cancelOne v

/-- The status a processed request ends in: virtual_margin_account.rs:336-347 -/
def processStatus (now : Int) (kr : KeeperRequest) : R Status :=
  if now ≥ kr.expiry then do
    require (pending kr.status) .processNotActive
    pure STATUS_EXPIRED
  else do
    require (decide (kr.status = STATUS_ACTIVE)) .processNotActive
    pure STATUS_EXECUTED

/-- `process_request`: virtual_margin_account.rs:329-367 -/
def VAccount.processRequest (v : VAccount) (now : Int) (i : Nat) : R (VAccount × Request × Bool) := do
  require (decide (i ≥ v.validStart)) .processBeforeStart
  let kr ← v.keeperRequest i
  let status ← processStatus now kr
  require (decide (now > kr.submission)) .processBeforeSubmission
  let v ← v.removeActive i
  pure ({ v with requestUpdates := v.requestUpdates.set i { kr with status := status } },
        kr.request, decide (now ≥ kr.expiry))

/-- `deposit_collateral_batch`: virtual_margin_account.rs:369-380 and margin_account.rs:167-177 -/
def VAccount.depositCollateral (v : VAccount) (bs : List Bucket) : R VAccount := do
  let cb ← balanceAddBatch v.collateralBalances bs
  let ccb ← balanceAddBatch v.comp.collateralBalances bs
  let vaults ← vaultPutBatch v.comp.collateral bs
  pure { v with collateralBalances := cb,
                comp := { v.comp with collateralBalances := ccb, collateral := vaults } }

/-- `withdraw_collateral_batch`: virtual_margin_account.rs:382-396 and margin_account.rs:179-193 -/
def VAccount.withdrawCollateral (env : Env) (v : VAccount) (claims : List (Res × Dec)) (st : Strategy) :
    R (VAccount × List Bucket) := do
  let (vaults, bs) ← vaultTakeBatch env st v.comp.collateral claims
  let ccb ← balanceSubBatch v.comp.collateralBalances bs
  let cb ← balanceSubBatch v.collateralBalances bs
  pure ({ v with collateralBalances := cb,
                 comp := { v.comp with collateralBalances := ccb, collateral := vaults } }, bs)

/-- `update_valid_requests_start`: virtual_margin_account.rs:402-409 -/
def VAccount.updateValidStart (v : VAccount) : VAccount := { v with validStart := v.requestsLen }

/-- Position part of `MarginAccount::update`: virtual_margin_account.rs:69, margin_account.rs:139-145 -/
def VAccount.realPositions (v : VAccount) : AMap PairId AccountPosition :=
  v.positions.entries.foldl
    (fun m e =>
      if e.1 ∈ v.positionsUpdated then
        (if e.2.amount ≠ 0 then m.set e.1 e.2 else m.erase e.1)
      else m)
    v.comp.positions

/-- `List::update`: common/src/list.rs:36-39 -/
def requestUpdate (l : List KeeperRequest) (e : Nat × KeeperRequest) : R (List KeeperRequest) := do
  require (decide (e.1 < l.length)) .outOfBounds
  pure (l.set e.1 e.2)

/-- Active set after `MarginAccount::update`: margin_account.rs:147-150 and 157-160 -/
def VAccount.realActive (v : VAccount) : Finset Nat :=
  let a := if v.validStart > v.comp.validStart then v.comp.active.filter (fun i => i ≥ v.validStart)
           else v.comp.active
  (a ∪ v.activeAdditions.toFinset) \ v.activeRemovals.toFinset

/-- The account part of `realize`: virtual_margin_account.rs:67-99 with margin_account.rs:138-161
(events omitted) -/
def VAccount.realize (v : VAccount) : R Account := do
  let requests ← v.requestUpdates.entries.foldlM requestUpdate (v.comp.requests ++ v.requestAdditions)
  pure { v.comp with
    positions := v.realPositions
    vb := v.vb
    validStart := if v.validStart > v.comp.validStart then v.validStart else v.comp.validStart
    requests := requests
    active := v.realActive }

/-- The referral part of `realize`: virtual_margin_account.rs:90-96.  Only `balance` and
`total_rewarded` of the NFT are written. -/
def VAccount.realizeReferral (v : VAccount) (refs : AMap RefId ReferralData) :
    R (AMap RefId ReferralData) :=
  if v.referralRewarded then do
    let r ← expect v.referralId .invalidReferral
    let d ← expect v.referralData .invalidReferral
    let old ← expect (refs.get r) .invalidReferral
    pure (refs.set r { old with balance := d.balance, totalRewarded := d.totalRewarded })
  else pure refs

end Perp
