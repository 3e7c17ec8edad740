import Verif.Ops

/-!
# The transition system

All public methods with their role checks, composed into transactions and histories.
-/

namespace Perp

/-- Every call that can change the modelled state. -/
inductive Op where
  -- exchange, owner methods
  | depositAuthority (amount : Dec)
  | withdrawAuthority
  | signalUpgrade (newExchange : Addr)
  | updateExchangeConfig (c : ExchangeConfig)
  | updatePairConfigs (cs : List PairConfig)
  | updateCollateralConfigs (cs : List (Res × CollateralConfig))
  | removeCollateralConfig (r : Res)
  -- exchange, admin methods
  | collectTreasury
  | collectFeeDelegator
  | mintReferral (id : RefId) (feeReferral feeRebate : Dec) (maxReferrals : Nat)
  | mintReferralWithAllocation (id : RefId) (feeReferral feeRebate : Dec) (maxReferrals : Nat)
      (tokens : List Bucket) (claims : List (Res × Dec)) (count : Nat)
  | updateReferral (id : RefId) (feeReferral feeRebate : Option Dec) (maxReferrals : Option Nat)
  | addReferralAllocation (id : RefId) (tokens : List Bucket) (claims : List (Res × Dec)) (count : Nat)
  -- exchange, user methods
  | swapProtocolFee (payment : Bucket)
  | addLiquidity (payment : Bucket)
  | removeLiquidity (lp : Bucket)
  | createReferralCodes (id : RefId) (tokens : List Bucket) (hashes : AMap Hash (List (Res × Dec) × Nat))
  | createReferralCodesFromAllocation (id : RefId) (index : Nat) (hashes : List Hash)
  | collectReferralRewards (id : RefId)
  | createAccount (a : Addr) (oath : Option Bucket) (rule : Rule) (tokens : List Bucket)
      (code : Option Nat)
  | createRecoveryKey (oath : Option Bucket) (a : Addr)
  | addAuthRule (oath : Option Bucket) (a : Addr) (level : Nat) (n : Node)
  | setLevelAuth (oath : Option Bucket) (a : Addr) (l : Level) (r : Rule)
  | addCollateral (oath : Option Bucket) (a : Addr) (tokens : List Bucket)
  | removeCollateralRequest (oath : Option Bucket) (expiry : Nat) (a target : Addr)
      (claims : List (Res × Dec))
  | marginOrderRequest (oath : Option Bucket) (a : Addr) (o : OrderArgs)
      (activate cancel : List RequestIndexRef) (status : Status)
  | marginOrderTpSlRequest (oath : Option Bucket) (a : Addr) (o : OrderArgs)
      (priceTp priceSl : Option Dec)
  | cancelRequests (oath : Option Bucket) (a : Addr) (indexes : List Nat)
  -- exchange, keeper methods
  | processRequest (a : Addr) (i : Nat) (updates : Option PriceUpdate)
  | swapDebt (a : Addr) (resource : Res) (payment : Bucket) (updates : Option PriceUpdate)
  | liquidate (a : Addr) (payment : Bucket) (updates : Option PriceUpdate)
  | autoDeleverage (a : Addr) (p : PairId) (updates : Option PriceUpdate)
  | updatePairs (ids : List PairId) (updates : Option PriceUpdate)
  -- role assignment of the exchange component
  | setRole (r : Role) (rule : Rule)
  -- oracle
  | oraclePush (u : PriceUpdate)
  | oracleAddKey (id key : Nat)
  | oracleRemoveKey (id : Nat)
  | oracleRemovePrice (p : PairId)
  -- fee delegator
  | delegatorMaxLock (x : Dec)
  | delegatorMultiplier (x : Dec)
  | delegatorContingent (b : Bool)
  | delegatorDeposit (amount : Dec)
  | delegatorWithdraw (amount : Dec)
  | lockFee (amount : Dec)
  -- the ledger clock advances
  | tick (t : Int)

/-- The role a method of the exchange is restricted to: exchange.rs:232-290.  `none` for calls to
other components and for the clock. -/
def Op.role : Op → Option Role
  | .depositAuthority _ | .withdrawAuthority | .signalUpgrade _ | .updateExchangeConfig _
  | .updatePairConfigs _ | .updateCollateralConfigs _ | .removeCollateralConfig _ => some .owner
  | .collectTreasury => some .treasuryAdmin
  | .collectFeeDelegator => some .feeDelegatorAdmin
  | .mintReferral .. | .mintReferralWithAllocation .. | .updateReferral .. |
    .addReferralAllocation .. => some .referralAdmin
  | .swapProtocolFee _ => some .protocolSwapUser
  | .addLiquidity _ | .removeLiquidity _ => some .liquidityUser
  | .createReferralCodes .. | .createReferralCodesFromAllocation .. |
    .collectReferralRewards _ => some .referralUser
  | .createAccount .. => some .accountCreationUser
  | .createRecoveryKey .. | .addAuthRule .. | .setLevelAuth .. | .addCollateral .. =>
      some .accountManagementUser
  | .removeCollateralRequest .. => some .removeCollateralRequestUser
  | .marginOrderRequest .. | .marginOrderTpSlRequest .. => some .marginOrderRequestUser
  | .cancelRequests .. => some .cancelRequestUser
  | .processRequest .. => some .keeperProcess
  | .swapDebt .. => some .keeperSwapDebt
  | .liquidate .. => some .keeperLiquidate
  | .autoDeleverage .. => some .keeperAutoDeleverage
  | .updatePairs .. => some .keeperUpdatePairs
  | .setRole .. | .oraclePush _ | .oracleAddKey .. | .oracleRemoveKey _ | .oracleRemovePrice _
  | .delegatorMaxLock _ | .delegatorMultiplier _ | .delegatorContingent _ | .delegatorDeposit _
  | .delegatorWithdraw _ | .lockFee _ | .tick _ => none

/-- Does the method body run inside `authorize!` (exchange.rs:293-299)?  All exchange methods but
`deposit_authority`, `withdraw_authority` and `signal_upgrade` do. -/
def Op.authorized : Op → Bool
  | .depositAuthority _ | .withdrawAuthority | .signalUpgrade _ => false
  | op => op.role.isSome

/-- The component owner an operation on the oracle or the fee delegator needs: oracle.rs:21-28,
fee_delegator.rs:19-31 (admin, depositor and withdrawer roles are the owner, as instantiated at
fee_delegator.rs:81-87). -/
def Op.ownerRule (s : State) : Op → Option Rule
  | .oracleAddKey .. | .oracleRemoveKey _ | .oracleRemovePrice _ => some s.oracleOwner
  | .delegatorMaxLock _ | .delegatorMultiplier _ | .delegatorContingent _ | .delegatorDeposit _
  | .delegatorWithdraw _ => some s.delegatorOwner
  | _ => none

/-- Roles that `user_admin` may update besides the owner: exchange.rs:217-224 -/
def Role.userRole : Role → Bool
  | .protocolSwapUser | .liquidityUser | .referralUser | .accountCreationUser
  | .accountManagementUser | .removeCollateralRequestUser | .marginOrderRequestUser
  | .cancelRequestUser => true
  | _ => false

/-- Role assignment: exchange.rs:211-231.  The owner role itself is not updated in the model. -/
def setRole (cl : Caller) (s : State) (r : Role) (rule : Rule) : R State := do
  require (decide (r ≠ .owner)) .role
  require ((s.roles .owner).sat cl.pf || (r.userRole && (s.roles .userAdmin).sat cl.pf)) .role
  pure { s with roles := fun x => if x = r then rule else s.roles x }

/-- Method bodies. -/
def body (env : Env) (cl : Caller) (s : State) : Op → R (State × Out)
  | .depositAuthority x => do
      -- exchange.rs:361-366
      require (decide (0 ≤ x)) .badBucket
      let y ← dadd s.authority x
      pure ({ s with authority := y }, {})
  | .withdrawAuthority =>                                                -- exchange.rs:368-372
      pure ({ s with authority := 0 }, { buckets := [⟨AUTHORITY, s.authority⟩] })
  | .signalUpgrade _ => pure (s, {})                                     -- exchange.rs:374-381
  | .updateExchangeConfig c => do                                        -- exchange.rs:383-394
      let x ← s.config.updateExchange c
      pure ({ s with config := x }, {})
  | .updatePairConfigs cs => do                                          -- exchange.rs:396-407
      let x ← s.config.updatePairs cs
      pure ({ s with config := x }, {})
  | .updateCollateralConfigs cs => do                                    -- exchange.rs:409-420
      let x ← s.config.updateCollaterals cs
      pure ({ s with config := x }, {})
  | .removeCollateralConfig r =>                                         -- exchange.rs:422-433
      pure ({ s with config := s.config.removeCollateral r }, {})
  | .collectTreasury => Perp.collectTreasury env s
  | .collectFeeDelegator => Perp.collectFeeDelegator env s
  | .mintReferral id a b m => do
      let s ← Perp.mintReferral s id a b m
      pure (s, {})
  | .mintReferralWithAllocation id a b m t c n => Perp.mintReferralWithAllocation env s id a b m t c n
  | .updateReferral id a b m => do
      let s ← Perp.updateReferral s id a b m
      pure (s, {})
  | .addReferralAllocation id t c n => Perp.addReferralAllocation env s id t c n
  | .swapProtocolFee b => Perp.swapProtocolFee env s b
  | .addLiquidity b => opAddLiquidity env s b
  | .removeLiquidity b => opRemoveLiquidity env s b
  | .createReferralCodes id t h => Perp.createReferralCodes env cl s id t h
  | .createReferralCodesFromAllocation id i h => do
      let s ← Perp.createReferralCodesFromAllocation cl s id i h
      pure (s, {})
  | .collectReferralRewards id => Perp.collectReferralRewards env cl s id
  | .createAccount a o r t c => Perp.createAccount env s a o r t c
  | .createRecoveryKey o a => Perp.createRecoveryKey env cl s o a
  | .addAuthRule o a l n => Perp.addAuthRule env cl s o a l n
  | .setLevelAuth o a l r => Perp.setLevelAuth env cl s o a l r
  | .addCollateral o a t => opAddCollateral env cl s o a t
  | .removeCollateralRequest o e a t c => Perp.removeCollateralRequest env cl s o e a t c
  | .marginOrderRequest o a args act can st => Perp.marginOrderRequest env cl s o a args act can st
  | .marginOrderTpSlRequest o a args tp sl => Perp.marginOrderTpSlRequest env cl s o a args tp sl
  | .cancelRequests o a is => opCancelRequests env cl s o a is
  | .processRequest a i u => Perp.processRequest env s a i u
  | .swapDebt a r p u => opSwapDebt env s a r p u
  | .liquidate a p u => opLiquidate env s a p u
  | .autoDeleverage a p u => opAutoDeleverage env s a p u
  | .updatePairs ids u => opUpdatePairs env s ids u
  | .setRole r rule => do
      let s ← Perp.setRole cl s r rule
      pure (s, {})
  | .oraclePush u => do                                                  -- oracle.rs:96-124
      let o ← s.oracle.push env u
      pure ({ s with oracle := o }, {})
  | .oracleAddKey id k => do
      let o ← s.oracle.addKey id k
      pure ({ s with oracle := o }, {})
  | .oracleRemoveKey id => pure ({ s with oracle := s.oracle.removeKey id }, {})
  | .oracleRemovePrice p => pure ({ s with oracle := s.oracle.removePrice p }, {})
  | .delegatorMaxLock x => do
      let d ← s.delegator.updateMaxLock x
      pure ({ s with delegator := d }, {})
  | .delegatorMultiplier x => do
      let d ← s.delegator.updateMultiplier x
      pure ({ s with delegator := d }, {})
  | .delegatorContingent b =>                                            -- fee_delegator.rs:110-112
      pure ({ s with delegator := { s.delegator with isContingent := b } }, {})
  | .delegatorDeposit x => do
      let d ← s.delegator.deposit x
      pure ({ s with delegator := d }, {})
  | .delegatorWithdraw x => do
      let (d, y) ← s.delegator.withdraw x
      pure ({ s with delegator := d }, { buckets := [⟨XRD, y⟩] })
  | .lockFee x => Perp.lockFee env s x
  | .tick t => do
      require (decide (s.now ≤ t ∧ t ≤ I64MAX)) .assertion
      pure ({ s with now := t }, {})

/-- Role check on the exchange component. -/
def checkRole (cl : Caller) (s : State) (op : Op) : R Unit :=
  match op.role with
  | some r => require ((s.roles r).sat cl.pf) .role
  | none => pure ()

/-- Owner check on the other components. -/
def checkOwner (cl : Caller) (s : State) (op : Op) : R Unit :=
  match op.ownerRule s with
  | some r => require (r.sat cl.pf) .role
  | none => pure ()

/-- `authorize!`: exchange.rs:293-299 creates a proof of 10^-18 authority tokens, the smallest
unit. -/
def checkAuthority (s : State) (op : Op) : R Unit :=
  if op.authorized then require (decide (1 ≤ s.authority)) .authority else pure ()

/-- One call by one caller. -/
def step (env : Env) (cl : Caller) (s : State) (op : Op) : R (State × Out) := do
  checkRole cl s op
  checkOwner cl s op
  checkAuthority s op
  body env cl s op

/-- The calls of one transaction in order. -/
def runOps (env : Env) (cl : Caller) (s : State) : List Op → R (State × List Out)
  | [] => .ok (s, [])
  | op :: ops => do
      let (s, o) ← step env cl s op
      let (s, os) ← runOps env cl s ops
      pure (s, o :: os)

/-- A transaction: the calls run atomically and no fee oath may be left over (a fee-oath bucket
cannot be deposited anywhere, fee_delegator.rs:65-68, and the engine rejects dangling buckets). -/
def runTx (env : Env) (cl : Caller) (s : State) (ops : List Op) : R (State × List Out) := do
  let r ← runOps env cl s ops
  require (decide (r.1.oathSupply = 0)) .oathOutstanding
  pure r

/-- Atomic effect of a submitted transaction: a failed one changes nothing. -/
def applyTx (env : Env) (cl : Caller) (s : State) (ops : List Op) : State :=
  match runTx env cl s ops with
  | .ok r => r.1
  | .error _ => s

/-- Freshly instantiated components: exchange.rs:306-357, margin_pool.rs:43-61, config.rs:42-58,
oracle.rs:36-55, fee_distributor.rs:28-40, fee_delegator.rs:71-78, referral_generator.rs:43-55,
permission_registry.rs:30-40. -/
structure Genesis (s : State) : Prop where
  authority : 0 ≤ s.authority
  accounts : s.accounts = AMap.empty
  pool : s.pool = { positions := AMap.empty, baseTokens := 0, vb := 0, unrealizedFunding := 0,
                    skewAbsSnap := 0, pnlSnap := 0 }
  config : s.config.pairs = AMap.empty ∧ s.config.collaterals = AMap.empty
  exchangeConfig : ExchangeConfig.dflt.compress = Except.ok s.config.exchange
  prices : s.oracle.prices = AMap.empty
  referrals : s.referrals = AMap.empty
  refgen : s.refgen = { vaults := AMap.empty, allocations := AMap.empty, codes := AMap.empty }
  dist : s.dist = { treasury := 0, protocol := 0 }
  delegator : s.delegator = { vault := 0, vb := 0, maxLock := 3 * ONE,
                              priceMultiplier := decLit 15 1, isContingent := false }
  perms : s.perms = AMap.empty
  lp : s.lpSupply = 0
  oath : s.oathSupply = 0
  reward : s.rewardSupply = 0
  recovery : s.recoveryKeys = 0
  now : I64MIN ≤ s.now ∧ s.now ≤ I64MAX

/-- States reachable call by call (also in the middle of a transaction). -/
inductive Reach (env : Env) : State → Prop where
  | init {s : State} : Genesis s → Reach env s
  | step {s s' : State} {cl : Caller} {op : Op} {o : Out} :
      Reach env s → step env cl s op = Except.ok (s', o) → Reach env s'

/-- States between transactions. -/
inductive ReachTx (env : Env) : State → Prop where
  | init {s : State} : Genesis s → ReachTx env s
  | tx {s : State} (cl : Caller) (ops : List Op) : ReachTx env s → ReachTx env (applyTx env cl s ops)

/-- One state leads to another by some history of successful calls. -/
inductive Later (env : Env) : State → State → Prop where
  | refl {s : State} : Later env s s
  | step {s s' s'' : State} {cl : Caller} {op : Op} {o : Out} :
      Later env s s' → step env cl s' op = Except.ok (s'', o) → Later env s s''

end Perp
