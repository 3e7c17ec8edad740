import Verif.DFloat
import Mathlib.Data.Finset.Card
import Mathlib.Data.Finset.Insert

/-!
# Data types of the protocol
-/

namespace Perp

/-- `PairId = String` (common/src/consts.rs:6); only equality of ids is used, so ids are numbers. -/
abbrev PairId := Nat
/-- `ResourceAddress`; only equality is used. -/
abbrev Res := Nat
/-- `ComponentAddress`; only equality is used. -/
abbrev Addr := Nat
/-- `NonFungibleLocalId` of a referral NFT. -/
abbrev RefId := Nat
/-- A keccak256 hash. -/
abbrev Hash := Nat

/-- The fixed resources baked in at build time.  common/build.rs, exchange.rs:47-54 -/
def BASE : Res := 0
def LP : Res := 1
def PROTOCOL : Res := 2
def KEEPER_REWARD : Res := 3
def FEE_OATH : Res := 4
/-- Radix's native token, in which network fees are paid.  fee_delegator.rs:71-78 -/
def XRD : Res := 5
/-- The authority badge.  exchange.rs:316-319 -/
def AUTHORITY : Res := 6

/-- A bucket of fungible tokens. -/
structure Bucket where
  res : Res
  amt : Dec
deriving DecidableEq, Repr

/-! ## Access rules (Scrypto 1.2 `AccessRule`, `AccessRuleNode`) -/

/-- `AccessRuleNode`; a `ProofRule` is an opaque requirement on the caller's proofs. -/
inductive Node where
  | proof (p : Nat)
  | anyOf (l : List Node)
  | allOf (l : List Node)

/-- `AccessRule`. -/
inductive Rule where
  | allowAll
  | denyAll
  | prot (n : Node)

mutual
def Node.beq : Node → Node → Bool
  | .proof a, .proof b => a == b
  | .anyOf a, .anyOf b => Node.beqL a b
  | .allOf a, .allOf b => Node.beqL a b
  | _, _ => false
def Node.beqL : List Node → List Node → Bool
  | [], [] => true
  | a :: as, b :: bs => Node.beq a b && Node.beqL as bs
  | _, _ => false
end

mutual
theorem Node.beq_iff : ∀ a b : Node, Node.beq a b = true ↔ a = b
  | .proof a, .proof b => by simp [Node.beq]
  | .anyOf a, .anyOf b => by simp [Node.beq, Node.beqL_iff a b]
  | .allOf a, .allOf b => by simp [Node.beq, Node.beqL_iff a b]
  | .proof _, .anyOf _ => by simp [Node.beq]
  | .proof _, .allOf _ => by simp [Node.beq]
  | .anyOf _, .proof _ => by simp [Node.beq]
  | .anyOf _, .allOf _ => by simp [Node.beq]
  | .allOf _, .proof _ => by simp [Node.beq]
  | .allOf _, .anyOf _ => by simp [Node.beq]
theorem Node.beqL_iff : ∀ a b : List Node, Node.beqL a b = true ↔ a = b
  | [], [] => by simp [Node.beqL]
  | a :: as, b :: bs => by simp [Node.beqL, Node.beq_iff a b, Node.beqL_iff as bs]
  | [], _ :: _ => by simp [Node.beqL]
  | _ :: _, [] => by simp [Node.beqL]
end

instance : DecidableEq Node := fun a b => decidable_of_iff _ (Node.beq_iff a b)

instance : DecidableEq Rule
  | .allowAll, .allowAll => isTrue rfl
  | .denyAll, .denyAll => isTrue rfl
  | .prot a, .prot b => decidable_of_iff (a = b) (by simp)
  | .allowAll, .denyAll => isFalse (by simp)
  | .allowAll, .prot _ => isFalse (by simp)
  | .denyAll, .allowAll => isFalse (by simp)
  | .denyAll, .prot _ => isFalse (by simp)
  | .prot _, .allowAll => isFalse (by simp)
  | .prot _, .denyAll => isFalse (by simp)

mutual
/-- Evaluation of a node against the proofs the caller presents (engine semantics). -/
def Node.sat (pf : Nat → Bool) : Node → Bool
  | .proof p => pf p
  | .anyOf l => Node.satAny pf l
  | .allOf l => Node.satAll pf l
def Node.satAny (pf : Nat → Bool) : List Node → Bool
  | [] => false
  | n :: l => n.sat pf || Node.satAny pf l
def Node.satAll (pf : Nat → Bool) : List Node → Bool
  | [] => true
  | n :: l => n.sat pf && Node.satAll pf l
end

/-- Evaluation of an access rule against the caller's proofs (engine semantics). -/
def Rule.sat (pf : Nat → Bool) : Rule → Bool
  | .allowAll => true
  | .denyAll => false
  | .prot n => n.sat pf

/-- `AccessRuleNode::or` (Scrypto 1.2): push onto an `AnyOf`, otherwise build one. -/
def Node.or (a b : Node) : Node :=
  match a with
  | .anyOf l => .anyOf (l ++ [b])
  | a => .anyOf [a, b]

/-! ## Requests — exchange/src/exchange/requests.rs -/

/-- `Status = u8`.  account/src/margin_account/structs.rs:41; requests.rs:6-10 -/
abbrev Status := Nat
def STATUS_DORMANT : Status := 0
def STATUS_ACTIVE : Status := 1
def STATUS_EXECUTED : Status := 2
def STATUS_CANCELLED : Status := 3
def STATUS_EXPIRED : Status := 4

/-- requests.rs:12-17 -/
inductive PriceLimit where
  | none | gte (limit : Dec) | lte (limit : Dec)
deriving DecidableEq, Repr

/-- requests.rs:20-26 -/
def PriceLimit.compare (l : PriceLimit) (value : Dec) : Bool :=
  match l with
  | .none => true
  | .gte limit => decide (value ≥ limit)
  | .lte limit => decide (value ≤ limit)

/-- requests.rs:45-50 -/
inductive SlippageLimit where
  | none | percent (limit : Dec) | absolute (limit : Dec)
deriving DecidableEq, Repr

/-- requests.rs:58-64 -/
def SlippageLimit.allowed (l : SlippageLimit) (value : Dec) : R Dec :=
  match l with
  | .none => .ok DMAX
  | .percent limit => do
      let x ← dmul value limit
      ddiv x (ofInt 100)
  | .absolute limit => .ok limit

/-- requests.rs:53-56 -/
def SlippageLimit.compare (l : SlippageLimit) (slippage value : Dec) : R Bool := do
  let a ← l.allowed value
  pure (decide (slippage ≤ a))

/-- requests.rs:67-71 -/
inductive RequestIndexRef where
  | index (i : Nat) | relative (offset : Int)
deriving DecidableEq, Repr

/-- requests.rs:74-79: `(request_index as i64 + offset) as u64`, the addition is overflow-checked. -/
def RequestIndexRef.resolve (r : RequestIndexRef) (requestIndex : Nat) : R Nat :=
  match r with
  | .index i => .ok i
  | .relative off => do
      let x ← addSeconds (u64AsI64 requestIndex) off   -- checked i64 addition
      pure (i64AsU64 x)

/-- requests.rs:82-86 -/
structure RemoveCollateralReq where
  target : Addr
  claims : List (Res × Dec)
deriving DecidableEq, Repr

/-- requests.rs:88-97 -/
structure MarginOrderReq where
  pair : PairId
  amount : Dec
  reduceOnly : Bool
  priceLimit : PriceLimit
  slippageLimit : SlippageLimit
  activate : List Nat
  cancel : List Nat
deriving DecidableEq, Repr

/-- requests.rs:99-103.  SBOR encode/decode (requests.rs:105-113) is the identity in the model. -/
inductive Request where
  | removeCollateral (r : RemoveCollateralReq)
  | marginOrder (r : MarginOrderReq)
deriving DecidableEq, Repr

/-- account/src/margin_account/structs.rs:43-50 -/
structure KeeperRequest where
  request : Request
  submission : Int
  expiry : Int
  status : Status
  effected : List Addr
deriving DecidableEq, Repr

/-! ## Margin account — account/src/margin_account.rs -/

/-- account/src/margin_account/structs.rs:4-9 (`Default` is all zero) -/
structure AccountPosition where
  amount : Dec
  cost : Dec
  fundingIndex : Dec
deriving DecidableEq, Repr

def AccountPosition.zero : AccountPosition := ⟨0, 0, 0⟩

/-- The `MarginAccount` component: margin_account.rs:45-54, with the three role rules of
margin_account.rs:82-87.  `requests` models `List<KeeperRequest>` (see `Verif.Lists` for the
refinement), `collateral` the `Vaults`. -/
structure Account where
  collateral : AMap Res Dec
  collateralBalances : AMap Res Dec
  positions : AMap PairId AccountPosition
  vb : Dec
  requests : List KeeperRequest
  active : Finset Nat
  validStart : Nat
  referralId : Option RefId
  level1 : Rule
  level2 : Rule
  level3 : Rule

/-! ## Margin pool — pool/src/margin_pool.rs -/

/-- pool/src/margin_pool/structs.rs:4-16 -/
structure PoolPosition where
  oiLong : Dec
  oiShort : Dec
  cost : Dec
  skewAbsSnap : Dec
  pnlSnap : Dec
  funding2Rate : Dec
  fundingLongIndex : Dec
  fundingShortIndex : Dec
  lastUpdate : Int
  lastPrice : Dec
deriving DecidableEq, Repr

/-- `PoolPosition::default()`: pool/src/margin_pool/structs.rs:18-33 -/
def PoolPosition.dflt (now : Int) : PoolPosition :=
  ⟨0, 0, 0, 0, 0, 0, 0, 0, now, ONE⟩

/-- The `MarginPool` component: margin_pool.rs:33-40 -/
structure Pool where
  positions : AMap PairId PoolPosition
  baseTokens : Dec
  vb : Dec
  unrealizedFunding : Dec
  skewAbsSnap : Dec
  pnlSnap : Dec

/-! ## Configuration — config/src/config/structs.rs -/

/-- config/src/config/structs.rs:28-60 -/
structure ExchangeConfig where
  positionsMax : Nat
  collateralsMax : Nat
  activeRequestsMax : Nat
  skewRatioCap : Dec
  adlOffset : Dec
  adlA : Dec
  adlB : Dec
  feeLiquidityAdd : Dec
  feeLiquidityRemove : Dec
  feeShareProtocol : Dec
  feeShareTreasury : Dec
  feeShareReferral : Dec
  feeMax : Dec
  protocolBurnAmount : Dec
  rewardKeeper : Dec
deriving DecidableEq, Repr

/-- config/src/config/structs.rs:62-94 -/
structure ExchangeConfigC where
  positionsMax : Nat
  collateralsMax : Nat
  activeRequestsMax : Nat
  skewRatioCap : DFloat
  adlOffset : DFloat
  adlA : DFloat
  adlB : DFloat
  feeLiquidityAdd : DFloat
  feeLiquidityRemove : DFloat
  feeShareProtocol : DFloat
  feeShareTreasury : DFloat
  feeShareReferral : DFloat
  feeMax : DFloat
  protocolBurnAmount : DFloat
  keeperReward : DFloat
deriving DecidableEq, Repr

/-- config/src/config/structs.rs:178-214 -/
structure PairConfig where
  pairId : PairId
  priceAgeMax : Int
  oiMax : Dec
  tradeSizeMin : Dec
  updatePriceDeltaRatio : Dec
  updatePeriodSeconds : Int
  marginInitial : Dec
  marginMaintenance : Dec
  funding1 : Dec
  funding2 : Dec
  funding2Delta : Dec
  funding2Decay : Dec
  fundingPool0 : Dec
  fundingPool1 : Dec
  fundingShare : Dec
  fee0 : Dec
  fee1 : Dec
deriving DecidableEq, Repr

/-- config/src/config/structs.rs:216-252 -/
structure PairConfigC where
  pairId : PairId
  priceAgeMax : Nat
  oiMax : DFloat
  tradeSizeMin : DFloat
  updatePriceDeltaRatio : DFloat
  updatePeriodSeconds : Nat
  marginInitial : DFloat
  marginMaintenance : DFloat
  funding1 : DFloat
  funding2 : DFloat
  funding2Delta : DFloat
  funding2Decay : DFloat
  fundingPool0 : DFloat
  fundingPool1 : DFloat
  fundingShare : DFloat
  fee0 : DFloat
  fee1 : DFloat
deriving DecidableEq, Repr

/-- config/src/config/structs.rs:321-331 -/
structure CollateralConfig where
  pairId : PairId
  priceAgeMax : Int
  discount : Dec
  margin : Dec
deriving DecidableEq, Repr

/-- config/src/config/structs.rs:333-343 -/
structure CollateralConfigC where
  pairId : PairId
  priceAgeMax : Nat
  discount : DFloat
  margin : DFloat
deriving DecidableEq, Repr

/-- The `Config` component: config/src/config.rs:35-39.  `pairs` models the
`HashList<PairId, PairConfigCompressed>`: an insertion-ordered map (see `Verif.Lists`). -/
structure Config where
  exchange : ExchangeConfigC
  pairs : AMap PairId PairConfigC
  collaterals : AMap Res CollateralConfigC

/-! ## Oracle, referrals, fees, permissions -/

/-- A price message entry: oracle/src/oracle/structs.rs -/
structure Price where
  pair : PairId
  quote : Dec
  timestamp : Int
deriving DecidableEq, Repr

/-- The `Oracle` component: oracle/src/oracle.rs:30-33 (public keys are opaque). -/
structure Oracle where
  keys : AMap Nat Nat
  prices : AMap PairId (Dec × Int)

/-- referral_generator/src/referral_generator/structs.rs:3-14 without the display strings -/
structure ReferralData where
  feeReferral : Dec
  feeRebate : Dec
  referrals : Nat
  maxReferrals : Nat
  balance : Dec
  totalRewarded : Dec
deriving DecidableEq, Repr

/-- referral_generator/src/referral_generator/structs.rs:16-22 -/
structure ReferralCode where
  referralId : RefId
  claims : List (Res × Dec)
  count : Nat
  maxCount : Nat
deriving DecidableEq, Repr

/-- referral_generator/src/referral_generator/structs.rs:24-29 -/
structure ReferralAllocation where
  claims : List (Res × Dec)
  count : Nat
  maxCount : Nat
deriving DecidableEq, Repr

/-- The `ReferralGenerator` component: referral_generator.rs:36-40 -/
structure RefGen where
  vaults : AMap Res Dec
  allocations : AMap RefId (List ReferralAllocation)
  codes : AMap Hash ReferralCode

/-- The `FeeDistributor` component: fee_distributor.rs:22-25 -/
structure FeeDist where
  treasury : Dec
  protocol : Dec
deriving DecidableEq, Repr

/-- The `FeeDelegator` component: fee_delegator.rs:34-41 -/
structure Delegator where
  vault : Dec
  vb : Dec
  maxLock : Dec
  priceMultiplier : Dec
  isContingent : Bool
deriving DecidableEq, Repr

/-- permission_registry/src/permission_registry/structs.rs: three index sets -/
structure Permissions where
  level1 : Finset Addr
  level2 : Finset Addr
  level3 : Finset Addr

def Permissions.none : Permissions := ⟨∅, ∅, ∅⟩

/-- Roles of the exchange: exchange.rs:210-231 (and OWNER). -/
inductive Role where
  | owner | feeDelegatorAdmin | treasuryAdmin | referralAdmin | userAdmin
  | protocolSwapUser | liquidityUser | referralUser | accountCreationUser
  | accountManagementUser | removeCollateralRequestUser | marginOrderRequestUser
  | cancelRequestUser
  | keeperProcess | keeperSwapDebt | keeperLiquidate | keeperAutoDeleverage | keeperUpdatePairs
deriving DecidableEq, Repr

/-- Everything outside the modelled components that the code consults. -/
structure Env where
  /-- smallest unit of each resource in attos: `10^(18-divisibility)` -/
  gran : Res → Nat
  gran_pos : ∀ r, 0 < gran r
  /-- BLS12-381 verification of a message under a key: `CryptoUtils::bls12381_v1_verify` of the
  keccak hash of the encoded prices -/
  verify : List Price → Nat → Nat → Bool
  /-- keccak256 of a referral code string -/
  hash : Nat → Hash
  /-- `Runtime::get_usd_price()` -/
  usdPrice : Dec
  /-- `Global::<Account>::try_from(addr)` succeeds and the account accepts the deposit -/
  isWallet : Addr → Bool
  /-- the proof rule created for the recovery key with a given number -/
  recoveryProof : Nat → Nat

/-- The whole modelled ledger state. -/
structure State where
  now : Int
  authority : Dec
  roles : Role → Rule
  oracleOwner : Rule
  delegatorOwner : Rule
  oracle : Oracle
  config : Config
  accounts : AMap Addr Account
  pool : Pool
  referrals : AMap RefId ReferralData
  refgen : RefGen
  dist : FeeDist
  delegator : Delegator
  perms : AMap Rule Permissions
  lpSupply : Dec
  oathSupply : Dec
  rewardSupply : Dec
  recoveryKeys : Nat

end Perp
