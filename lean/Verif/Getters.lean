import Verif.Step
import Mathlib.Data.Finset.Sort

/-!
# Read methods of the exchange

exchange.rs:604-711 and 1703-1824.  Reading changes nothing, so these are plain functions of the state.
-/

namespace Perp

/-- `PoolDetails`: exchange/src/exchange/structs.rs (PoolDetails) -/
structure PoolDetails where
  baseTokensAmount : Dec
  virtualBalance : Dec
  unrealizedPoolFunding : Dec
  pnlSnap : Dec
  skewRatio : Dec
  skewRatioCap : Dec
  lpSupply : Dec
  lpPrice : Dec
deriving DecidableEq, Repr

/-- The price quoted by `_pool_details`: exchange.rs:1787-1793 -/
def quotedPrice (supply value : Dec) : R Dec :=
  if supply = 0 then pure ONE else ddiv value supply

/-- `get_pool_details`: exchange.rs:633-640 with `_pool_details` at 1781-1805 -/
def getPoolDetails (s : State) : R PoolDetails := do
  let cfg ← VConfig.new s.config []
  let pool := VPool.new s.pool s.now []
  let pv ← poolValue pool
  let lpPrice ← quotedPrice s.lpSupply (max pv ONE)
  let ratio ← Perp.skewRatio pool
  pure { baseTokensAmount := pool.base, virtualBalance := pool.vb, unrealizedPoolFunding := pool.unreal,
         pnlSnap := pool.pnlSnap, skewRatio := ratio, skewRatioCap := cfg.ex.skewRatioCap,
         lpSupply := s.lpSupply, lpPrice }

/-- `PositionDetails`: exchange/src/exchange/structs.rs -/
structure PositionDetails where
  pair : PairId
  amount : Dec
  cost : Dec
  funding : Dec
  marginInitial : Dec
  marginMaintenance : Dec
deriving DecidableEq, Repr

/-- One entry of the position list: exchange.rs:1711-1731 -/
def positionDetails (cfg : VConfig) (pool : VPool) (e : PairId × AccountPosition) : R PositionDetails := do
  let pc ← cfg.pair e.1
  let pp ← pool.position e.1
  let funding ← positionFunding pp e.2
  let x ← dabs e.2.amount
  let mi ← dmul x pc.marginInitial
  let mm ← dmul x pc.marginMaintenance
  pure { pair := e.1, amount := e.2.amount, cost := e.2.cost, funding, marginInitial := mi,
         marginMaintenance := mm }

/-- `CollateralDetails`: exchange/src/exchange/structs.rs -/
structure CollateralDetails where
  pair : PairId
  resource : Res
  amount : Dec
  discount : Dec
  margin : Dec
deriving DecidableEq, Repr

/-- One entry of the collateral list: exchange.rs:1734-1748 -/
def collateralDetails (v : VAccount) (e : Res × CollateralConfig) : R CollateralDetails := do
  let margin ← dmul (v.collateralAmount e.1) e.2.margin
  pure { pair := e.2.pairId, resource := e.1, amount := v.collateralAmount e.1, discount := e.2.discount,
         margin }

/-- The members of a set of indexes, largest first: the effect of
`sort_by_key(|(index, _)| Reverse(*index))` on a set, exchange/src/exchange/virtual_margin_account.rs:188 -/
def descending (x : Finset Nat) : List Nat :=
  ((List.range (x.sup id + 1)).filter (fun i => decide (i ∈ x))).reverse

/-- The active requests, newest first: virtual_margin_account.rs:185-190 and
margin_account.rs:134-136; a missing request panics (`unwrap`). -/
def activeRequests (a : Account) : R (List (Nat × KeeperRequest)) :=
  (descending a.active).mapM (fun i => do
    let r ← expect a.requests[i]? .missingRequest
    pure (i, r))

/-- Where a page of the history ends: account/src/margin_account.rs:120-121; `end + 1` may overflow -/
def tailEnd (len : Nat) (stop : Option Nat) : R Nat :=
  match stop with
  | some x => do
      let y ← uadd x 1
      pure (min y len)
  | none => pure len

/-- A page of the request history, newest first: account/src/margin_account.rs:119-124.  The `List` container is
the plain list it stands for (see `Verif.Lists`). -/
def requestsTail (a : Account) (n : Nat) (stop : Option Nat) : R (List (Nat × KeeperRequest)) := do
  let e ← tailEnd a.requests.length stop
  let st := e - min n e
  pure ((List.range' st (e - st)).reverse.zip ((a.requests.drop st).take (e - st)).reverse)

/-- `AccountDetails`: exchange/src/exchange/structs.rs:44-54.  A request entry is its index and the stored record,
from which `RequestDetails` copies the fields. -/
structure AccountDetails where
  virtualBalance : Dec
  positions : List PositionDetails
  collaterals : List CollateralDetails
  validRequestsStart : Nat
  activeRequests : List (Nat × KeeperRequest)
  requestsHistory : List (Nat × KeeperRequest)
  requestsLen : Nat
  referral : Option (RefId × ReferralData)

/-- The referral pair: virtual_margin_account.rs:127-135; a missing NFT panics (`unwrap`) -/
def VAccount.referral (v : VAccount) : R (Option (RefId × ReferralData)) :=
  match v.referralId with
  | some r => do
      let d ← expect v.referralData .invalidReferral
      pure (some (r, d))
  | none => pure none

/-- `get_account_details`: exchange.rs:619-631 with `_account_details` at 1703-1779 -/
def getAccountDetails (s : State) (a : Addr) (n : Nat) (stop : Option Nat) : R AccountDetails := do
  let v ← s.load a
  let cfg ← VConfig.new s.config v.positionIds
  let pool := VPool.new s.pool s.now v.positionIds
  let positions ← v.positions.entries.mapM (positionDetails cfg pool)
  let collaterals ← cfg.colls.entries.mapM (collateralDetails v)
  let active ← activeRequests v.comp
  let history ← requestsTail v.comp n stop
  let referral ← v.referral
  pure { virtualBalance := v.vb, positions, collaterals, validRequestsStart := v.validStart,
         activeRequests := active, requestsHistory := history, requestsLen := v.requestsLen, referral }

/-- `PairDetails`: exchange/src/exchange/structs.rs:68-73 -/
structure PairDetails where
  pair : PairId
  position : PoolPosition
  config : PairConfig

/-- `_pair_details`: exchange.rs:1807-1822 -/
def pairDetails (cfg : VConfig) (pool : VPool) (p : PairId) : R PairDetails := do
  let pc ← cfg.pair p
  let pp ← pool.position p
  pure { pair := p, position := pp, config := pc }

/-- `get_pair_details`: exchange.rs:642-650 -/
def getPairDetails (s : State) (ids : List PairId) : R (List PairDetails) := do
  let cfg ← VConfig.new s.config ids
  ids.mapM (pairDetails cfg (VPool.new s.pool s.now ids))

/-- `get_referral_details`: exchange.rs:652-666, referral_generator.rs:57-63.  Reading an NFT that does not exist
panics. -/
def getReferralDetails (s : State) (id : RefId) : R (ReferralData × List ReferralAllocation) := do
  let d ← expect (s.referrals.get id) .invalidReferral
  pure (d, (s.refgen.allocations.get id).getD [])

/-- `get_exchange_config`: exchange.rs:668-672 -/
def getExchangeConfig (s : State) : ExchangeConfig := s.config.exchange.decompress

/-- One page of `Config::get_pair_configs`: config/src/config.rs:72-76.  The `HashList` container is the
insertion-ordered map it stands for (see `Verif.Lists`). -/
def pairPage (s : State) (n : Nat) (start : Option Nat) : R (List (PairId × PairConfigC)) := do
  let st := start.getD 0
  let e ← uadd st n
  pure ((s.config.pairs.entries.drop st).take (min e s.config.pairs.size - st))

/-- `get_pair_configs`: exchange.rs:674-680 -/
def getPairConfigs (s : State) (n : Nat) (start : Option Nat) : R (List PairConfig) := do
  let l ← pairPage s n start
  pure (l.map (fun e => e.2.decompress))

/-- `get_pairs`: exchange.rs:604-610 -/
def getPairs (s : State) (n : Nat) (start : Option Nat) : R (List PairId) := do
  let l ← pairPage s n start
  pure (l.map (fun e => e.2.pairId))

/-- `get_pair_configs_len`: exchange.rs:682-686 -/
def getPairConfigsLen (s : State) : Nat := s.config.pairs.size

/-- `get_collateral_configs`: exchange.rs:688-693 -/
def getCollateralConfigs (s : State) : AMap Res CollateralConfig := s.config.collaterals.mapV (fun _ x => x.decompress)

/-- `get_collaterals`: exchange.rs:695-699 -/
def getCollaterals (s : State) : List Res := s.config.collaterals.keys

/-- `get_protocol_balance`: exchange.rs:701-705 -/
def getProtocolBalance (s : State) : Dec := s.dist.protocol

/-- `get_treasury_balance`: exchange.rs:707-711 -/
def getTreasuryBalance (s : State) : Dec := s.dist.treasury

end Perp
