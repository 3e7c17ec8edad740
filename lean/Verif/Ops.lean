import Verif.Referral

/-!
# Public methods

The `pub fn`s of exchange/src/exchange.rs:361-1539 as functions on the whole ledger state, together
with the public methods of the oracle and of the fee delegator.  Authorization by role and the
authority token are in `Verif.Step`.
-/

namespace Perp

/-- Who calls: which proof requirements the caller can satisfy, and which referral NFTs the caller
can show a proof of. -/
structure Caller where
  pf : Nat → Bool
  refs : RefId → Bool

/-- What an operation reports: the event it emits. -/
inductive Ev where
  | none
  | expired
  | liquidity (e : LiquidityEv)
  | removeCollateral (target : Addr) (tokens : List Bucket)
  | order (e : MarginOrderEv)
  | swapDebt (e : SwapDebtEv)
  | liquidate (e : LiquidateEv)
  | adl (e : AdlEv)
  | created (a : Addr) (r : Option RefId)
deriving DecidableEq, Repr

/-- Observable outcome of a call. -/
structure Out where
  /-- buckets returned to the caller -/
  buckets : List Bucket := []
  /-- tokens deposited by the exchange into a wallet -/
  paid : List (Addr × Bucket) := []
  /-- tokens burnt out of what the caller supplied -/
  burnt : List Bucket := []
  /-- keeper reward tokens minted for the caller -/
  reward : Dec := 0
  /-- list indexes returned -/
  indexes : List (Option Nat) := []
  /-- flags returned by `update_pairs` -/
  flags : List Bool := []
  ev : Ev := .none

/-- Engine rule for a bucket handed to a method: a non-negative multiple of the resource's smallest
unit, and no more than exists of the two resources whose supply the model tracks. -/
def okBucket (env : Env) (s : State) (b : Bucket) : Bool :=
  decide (0 ≤ b.amt ∧ b.amt % (env.gran b.res : Int) = 0 ∧ (b.res = LP → b.amt ≤ s.lpSupply) ∧
    (b.res = FEE_OATH → b.amt ≤ s.oathSupply))

/-- `HashSet::insert` on a list of distinct pair ids. -/
def insertId (ids : List PairId) (p : PairId) : List PairId := if p ∈ ids then ids else ids ++ [p]

/-! ## Shared plumbing -/

/-- Writing a working state back: `account.realize(); pool.realize()`. -/
def State.commit (s : State) (w : W) : R State := do
  let acc ← w.acc.realize
  let refs ← w.acc.realizeReferral s.referrals
  pure { s with pool := w.pool.realize, accounts := s.accounts.set w.acc.addr acc,
                referrals := refs, dist := w.dist }

/-- `account.realize()` alone, for the methods that do not touch the pool. -/
def State.commitAcc (s : State) (v : VAccount) : R State := do
  let acc ← v.realize
  let refs ← v.realizeReferral s.referrals
  pure { s with accounts := s.accounts.set v.addr acc, referrals := refs }

/-- The three loads of every fee-oath branch: exchange.rs:943-946 and its copies.  Ages are not
limited and no prices are pushed, so the oracle component stays as it is. -/
def oathLoad (env : Env) (s : State) (ids : List PairId) : R (Ctx × VPool) := do
  let cfg ← VConfig.new s.config ids
  let (_, orc) ← VOracle.new env s.now s.oracle cfg.colls (pairFeedsNoMaxAge ids) none
  pure ({ env, now := s.now, cfg, orc }, VPool.new s.pool s.now ids)

/-- Burning a fee oath: exchange.rs:1842 -/
def State.burnOath (env : Env) (s : State) (oath : Bucket) : R State := do
  require (okBucket env s oath) .badBucket
  pure { s with oathSupply := s.oathSupply - oath.amt }

/-- The fee-oath branch shared by the account methods: exchange.rs:942-949, 992-999, 1046-1053,
1071-1078, 1096-1103, 1156-1166, 1207-1218, 1276-1287, 1389-1396.  Returns the configuration loaded
with the pairs `ids` (with an oath) or `plain` (without). -/
def payOath (env : Env) (s : State) (v : VAccount) (oath : Option Bucket) (ids plain : List PairId) :
    R (State × VAccount × VConfig) :=
  match oath with
  | some b => do
      let (c, pool) ← oathLoad env s ids
      let v ← settleFeeOath c pool v b
      let s ← s.burnOath env b
      pure (s, v, c.cfg)
  | none => do
      let cfg ← VConfig.new s.config plain
      pure (s, v, cfg)

/-- `VirtualMarginAccount::new(account)` -/
def State.load (s : State) (a : Addr) : R VAccount := VAccount.new s.accounts s.referrals a

/-- The loads of the keeper methods: config, pool and oracle with age limits and optional price
push.  exchange.rs:1419-1423, 1453-1455, 1475-1477, 1499-1503, 1522-1526 -/
def keeperLoad (env : Env) (s : State) (ids : List PairId) (updates : Option PriceUpdate) :
    R (State × Ctx × VPool) := do
  let cfg ← VConfig.new s.config ids
  let feeds ← pairFeeds cfg ids
  let (o, orc) ← VOracle.new env s.now s.oracle cfg.colls feeds updates
  pure ({ s with oracle := o }, { env, now := s.now, cfg, orc }, VPool.new s.pool s.now ids)

/-- `ResourceManager::mint` of keeper rewards: exchange.rs:1439, 1484, 1510, 1535 -/
def State.mintReward (env : Env) (s : State) (amount : Dec) : R State := do
  let x ← mintAmount (env.gran KEEPER_REWARD) amount
  let t ← dadd s.rewardSupply x
  pure { s with rewardSupply := t }

/-! ## Permission registry -/

/-- Direct alternatives of a rule: exchange.rs:892, 1937, 1951 -/
def subRules : Rule → List Rule
  | .prot (.anyOf l) => l.map Rule.prot
  | _ => []

/-- `get_permissions` / `set_permissions`: permission_registry.rs:42-48 -/
def permsOf (m : AMap Rule Permissions) (r : Rule) : Permissions := m.getD r Permissions.none

def permsModify (f : Permissions → Permissions) (m : AMap Rule Permissions) (r : Rule) :
    AMap Rule Permissions := m.set r (f (permsOf m r))

/-- Account authorization levels. -/
inductive Level where
  | l1 | l2 | l3
deriving DecidableEq, Repr

/-- The index set of a level. -/
def Permissions.at (p : Permissions) : Level → Finset Addr
  | .l1 => p.level1
  | .l2 => p.level2
  | .l3 => p.level3

/-- Replace the index set of a level. -/
def Permissions.put (p : Permissions) (l : Level) (x : Finset Addr) : Permissions :=
  match l with
  | .l1 => { p with level1 := x }
  | .l2 => { p with level2 := x }
  | .l3 => { p with level3 := x }

/-- Insert / remove the account at a level. -/
def permIns (l : Level) (a : Addr) (p : Permissions) : Permissions := p.put l (insert a (p.at l))
def permDel (l : Level) (a : Addr) (p : Permissions) : Permissions := p.put l ((p.at l).erase a)

/-- The role rule of the account at a level: `get_level_i_auth`, virtual_margin_account.rs:225-250 -/
def Account.rule (a : Account) : Level → Rule
  | .l1 => a.level1
  | .l2 => a.level2
  | .l3 => a.level3

/-- `set_level_i_auth` on the component. -/
def Account.setRule (a : Account) (l : Level) (r : Rule) : Account :=
  match l with
  | .l1 => { a with level1 := r }
  | .l2 => { a with level2 := r }
  | .l3 => { a with level3 := r }

/-- `_set_level_{1,2,3}_auth`: exchange.rs:1926-2029 -/
def setAuth (perms : AMap Rule Permissions) (v : VAccount) (l : Level) (r : Rule) :
    AMap Rule Permissions × VAccount :=
  let old := v.comp.rule l
  let perms := permsModify (permDel l v.addr) perms old
  let perms := (subRules old).foldl (permsModify (permDel l v.addr)) perms
  let perms := permsModify (permIns l v.addr) perms r
  let perms := (subRules r).foldl (permsModify (permIns l v.addr)) perms
  (perms, { v with comp := v.comp.setRule l r })

/-- Registration of a new account at all three levels: exchange.rs:886-901 -/
def permAll (a : Addr) (p : Permissions) : Permissions :=
  permIns .l3 a (permIns .l2 a (permIns .l1 a p))

def registerAccount (perms : AMap Rule Permissions) (a : Addr) (r : Rule) : AMap Rule Permissions :=
  (subRules r).foldl (permsModify (permAll a)) (permsModify (permAll a) perms r)

/-- Adding an alternative to a rule: exchange.rs:962-972, 1013-1023 -/
def extendRule (r : Rule) (n : Node) : Rule :=
  match r with
  | .allowAll => .prot n
  | .denyAll => .prot n
  | .prot m => .prot (m.or n)

/-- `verify_level_i_auth`: the account's own role check. -/
def verifyLevel (cl : Caller) (v : VAccount) (l : Level) : R Unit :=
  require ((v.comp.rule l).sat cl.pf) .role

/-! ## Admin and fee collection -/

/-- Crediting the pool and paying out: exchange.rs:445-454, 468-477, 733-742, 840-849.  Returns the
pool and the amount paid. -/
def payout (env : Env) (s : State) (amount : Dec) : R (Pool × Dec) := do
  let pool := VPool.new s.pool s.now []
  require (decide (amount ≤ pool.base)) .insufficientPoolTokens
  let pool ← pool.addVb amount
  let (pool, x) ← pool.withdraw env amount .toZero
  pure (pool.realize, x)

/-- `collect_treasury`: exchange.rs:437-458 -/
def collectTreasury (env : Env) (s : State) : R (State × Out) := do
  let (pool, x) ← payout env s s.dist.treasury
  pure ({ s with pool, dist := { s.dist with treasury := 0 } }, { buckets := [⟨BASE, x⟩] })

/-- `collect_fee_delegator`: exchange.rs:460-481 -/
def collectFeeDelegator (env : Env) (s : State) : R (State × Out) := do
  let (pool, x) ← payout env s s.delegator.vb
  pure ({ s with pool, delegator := { s.delegator with vb := 0 } }, { buckets := [⟨BASE, x⟩] })

/-- Bounds on referral rates: exchange.rs:494-501, 551-561 -/
def referralRateOk (x : Dec) : Bool := decide (0 ≤ x ∧ x ≤ decLit 1 1)

/-- `mint_referral`: exchange.rs:483-518.  The engine draws a fresh id (RUID): here the id is a
parameter that has to be new. -/
def mintReferral (s : State) (id : RefId) (feeReferral feeRebate : Dec) (maxReferrals : Nat) :
    R State := do
  require (referralRateOk feeReferral) .invalidReferralData
  require (referralRateOk feeRebate) .invalidReferralData
  require (!s.referrals.has id) .assertion
  let d : ReferralData :=
    { feeReferral, feeRebate, referrals := 0, maxReferrals, balance := 0, totalRewarded := 0 }
  pure { s with referrals := s.referrals.set id d }

/-- One optional rate of `update_referral`: exchange.rs:550-563 -/
def checkRate (x : Option Dec) : R Unit :=
  match x with
  | some v => require (referralRateOk v) .invalidReferralData
  | none => pure ()

/-- `update_referral`: exchange.rs:540-568.  Without anything to change the code never looks at the
referral, so the call succeeds for an unknown id as well. -/
def updateReferral (s : State) (id : RefId) (feeReferral feeRebate : Option Dec)
    (maxReferrals : Option Nat) : R State :=
  if feeReferral.isNone ∧ feeRebate.isNone ∧ maxReferrals.isNone then pure s
  else do
    let d ← expect (s.referrals.get id) .invalidReferral
    checkRate feeReferral
    checkRate feeRebate
    let d' : ReferralData :=
      { d with feeReferral := feeReferral.getD d.feeReferral
               feeRebate := feeRebate.getD d.feeRebate
               maxReferrals := maxReferrals.getD d.maxReferrals }
    pure { s with referrals := s.referrals.set id d' }

/-- Tokens backing referral claims have to be base tokens or valid collateral: exchange.rs:582-587,
791-796; and they are well-formed buckets. -/
def checkReferralTokens (env : Env) (s : State) (cfg : VConfig) (tokens : List Bucket) : R Unit := do
  require (tokens.all (okBucket env s)) .badBucket
  require (tokens.all (fun b => decide (b.res = BASE) || cfg.colls.has b.res)) .invalidCollateral

/-- Counting granted referrals: exchange.rs:588-593, 797-802 -/
def grantReferrals (s : State) (id : RefId) (count : Nat) : R State := do
  let d ← expect (s.referrals.get id) .invalidReferral
  let n ← uadd d.referrals count
  require (decide (n ≤ d.maxReferrals)) .referralLimit
  pure { s with referrals := s.referrals.set id { d with referrals := n } }

/-- `add_referral_allocation`: exchange.rs:570-600 -/
def addReferralAllocation (env : Env) (s : State) (id : RefId) (tokens : List Bucket)
    (claims : List (Res × Dec)) (count : Nat) : R (State × Out) := do
  let cfg ← VConfig.new s.config []
  checkReferralTokens env s cfg tokens
  let s ← grantReferrals s id count
  let (g, rest, i) ← s.refgen.addAllocation env tokens id claims count
  pure ({ s with refgen := g }, { buckets := rest, indexes := [some i] })

/-- `mint_referral_with_allocation`: exchange.rs:520-538 -/
def mintReferralWithAllocation (env : Env) (s : State) (id : RefId) (feeReferral feeRebate : Dec)
    (maxReferrals : Nat) (tokens : List Bucket) (claims : List (Res × Dec)) (count : Nat) :
    R (State × Out) := do
  let s ← mintReferral s id feeReferral feeRebate maxReferrals
  addReferralAllocation env s id tokens claims count

/-! ## User methods -/

/-- `swap_protocol_fee`: exchange.rs:714-746 -/
def swapProtocolFee (env : Env) (s : State) (payment : Bucket) : R (State × Out) := do
  let cfg ← VConfig.new s.config []
  require (decide (payment.res = PROTOCOL)) .invalidProtocolToken
  require (okBucket env s payment) .badBucket
  require (decide (payment.amt ≥ cfg.ex.protocolBurnAmount)) .insufficientPayment
  let burn ← takeAmount (env.gran PROTOCOL) payment.amt cfg.ex.protocolBurnAmount .toInfinity
  let (pool, x) ← payout env s s.dist.protocol
  pure ({ s with pool, dist := { s.dist with protocol := 0 } },
        { buckets := [⟨BASE, x⟩, ⟨PROTOCOL, payment.amt - burn⟩], burnt := [⟨PROTOCOL, burn⟩] })

/-- `add_liquidity`: exchange.rs:748-760 -/
def opAddLiquidity (env : Env) (s : State) (payment : Bucket) : R (State × Out) := do
  let cfg ← VConfig.new s.config []
  require (okBucket env s payment) .badBucket
  let (pool, dist, minted, ev) ←
    addLiquidity env cfg (VPool.new s.pool s.now []) s.dist s.lpSupply payment
  let supply ← dadd s.lpSupply minted
  pure ({ s with pool := pool.realize, dist, lpSupply := supply },
        { buckets := [⟨LP, minted⟩], ev := .liquidity ev })

/-- `remove_liquidity`: exchange.rs:762-774 -/
def opRemoveLiquidity (env : Env) (s : State) (lp : Bucket) : R (State × Out) := do
  let cfg ← VConfig.new s.config []
  require (okBucket env s lp) .badBucket
  let (pool, dist, x, ev) ←
    removeLiquidity env cfg (VPool.new s.pool s.now []) s.dist s.lpSupply lp
  pure ({ s with pool := pool.realize, dist, lpSupply := s.lpSupply - lp.amt },
        { buckets := [⟨BASE, x⟩], burnt := [lp], ev := .liquidity ev })

/-- Sum of the use counts of new codes, overflow-checked: exchange.rs:789 -/
def sumCounts (hashes : AMap Hash (List (Res × Dec) × Nat)) : R Nat :=
  hashes.entries.foldlM (fun n e => uadd n e.2.2) 0

/-- `create_referral_codes`: exchange.rs:776-808 -/
def createReferralCodes (env : Env) (cl : Caller) (s : State) (id : RefId) (tokens : List Bucket)
    (hashes : AMap Hash (List (Res × Dec) × Nat)) : R (State × Out) := do
  require (cl.refs id) .invalidReferral
  let cfg ← VConfig.new s.config []
  let count ← sumCounts hashes
  checkReferralTokens env s cfg tokens
  let s ← grantReferrals s id count
  let (g, rest) ← s.refgen.createCodes env tokens id hashes
  pure ({ s with refgen := g }, { buckets := rest })

/-- `create_referral_codes_from_allocation`: exchange.rs:810-824 -/
def createReferralCodesFromAllocation (cl : Caller) (s : State) (id : RefId) (index : Nat)
    (hashes : List Hash) : R State := do
  require (cl.refs id) .invalidReferral
  let g ← s.refgen.codesFromAllocation id index hashes
  pure { s with refgen := g }

/-- `collect_referral_rewards`: exchange.rs:826-853 -/
def collectReferralRewards (env : Env) (cl : Caller) (s : State) (id : RefId) : R (State × Out) := do
  require (cl.refs id) .invalidReferral
  let d ← expect (s.referrals.get id) .invalidReferral
  let (pool, x) ← payout env s d.balance
  pure ({ s with pool, referrals := s.referrals.set id { d with balance := 0 } },
        { buckets := [⟨BASE, x⟩] })

/-- `MarginAccount::new`: account/src/margin_account.rs:57-95 -/
def Account.fresh (r : Rule) (rid : Option RefId) : Account where
  collateral := AMap.empty
  collateralBalances := AMap.empty
  positions := AMap.empty
  vb := 0
  requests := []
  active := ∅
  validStart := 0
  referralId := rid
  level1 := r
  level2 := r
  level3 := r

/-- The referral-code part of `create_account`: exchange.rs:864-871 -/
def claimCode (env : Env) (s : State) (code : Option Nat) :
    R (State × Option RefId × List Bucket) :=
  match code with
  | some c => do
      let (g, rid, bs) ← s.refgen.claim env (env.hash c)
      pure ({ s with refgen := g }, some rid, bs)
  | none => pure (s, none, [])

/-- The deposit part of `create_account` and `add_collateral`: exchange.rs:904-921, 1121-1138 -/
def depositTokens (env : Env) (s : State) (v : VAccount) (oath : Option Bucket)
    (tokens : List Bucket) : R (State × W) :=
  match oath with
  | some b => do
      let (c, pool) ← oathLoad env s v.positionIds
      let w ← addCollateral c.cfg { pool, acc := v, dist := s.dist } tokens
      let acc ← settleFeeOath c w.pool w.acc b
      let s ← s.burnOath env b
      pure (s, { w with acc })
  | none => do
      let cfg ← VConfig.new s.config []
      let w ← addCollateral cfg { pool := VPool.new s.pool s.now [], acc := v, dist := s.dist } tokens
      pure (s, w)

/-- `create_account`: exchange.rs:855-931.  The engine allocates a fresh address: here the address is
a parameter that has to be new. -/
def createAccount (env : Env) (s : State) (a : Addr) (oath : Option Bucket) (rule : Rule)
    (tokens : List Bucket) (code : Option Nat) : R (State × Out) := do
  require (tokens.all (okBucket env s)) .badBucket
  require (!s.accounts.has a) .assertion
  let (s, rid, extra) ← claimCode env s code
  let s := { s with accounts := s.accounts.set a (Account.fresh rule rid),
                    perms := registerAccount s.perms a rule }
  let v ← s.load a
  let (s, w) ← depositTokens env s v oath (tokens ++ extra)
  let s ← s.commit w
  pure (s, { ev := .created a rid })

/-- `create_recovery_key`: exchange.rs:933-979.  The new key's proof rule is
`env.recoveryProof n` for the `n`-th key. -/
def createRecoveryKey (env : Env) (cl : Caller) (s : State) (oath : Option Bucket) (a : Addr) :
    R (State × Out) := do
  let v ← s.load a
  verifyLevel cl v .l1
  let (s, v, _) ← payOath env s v oath v.positionIds []
  let n : Node := .proof (env.recoveryProof s.recoveryKeys)
  let (perms, v) := setAuth s.perms v .l1 (extendRule (v.comp.rule .l1) n)
  let s ← { s with perms, recoveryKeys := s.recoveryKeys + 1 }.commitAcc v
  pure (s, {})

/-- The level argument of `add_auth_rule`: exchange.rs:1001-1011 -/
def levelOf (n : Nat) : R Level :=
  match n with
  | 1 => .ok .l1
  | 2 => .ok .l2
  | 3 => .ok .l3
  | _ => .error .invalidLevel

/-- `add_auth_rule`: exchange.rs:981-1034 -/
def addAuthRule (env : Env) (cl : Caller) (s : State) (oath : Option Bucket) (a : Addr) (level : Nat)
    (n : Node) : R (State × Out) := do
  let v ← s.load a
  verifyLevel cl v .l1
  let (s, v, _) ← payOath env s v oath v.positionIds []
  let l ← levelOf level
  let (perms, v) := setAuth s.perms v l (extendRule (v.comp.rule l) n)
  let s ← { s with perms }.commitAcc v
  pure (s, {})

/-- `set_level_1_auth`, `set_level_2_auth`, `set_level_3_auth`: exchange.rs:1036-1109 -/
def setLevelAuth (env : Env) (cl : Caller) (s : State) (oath : Option Bucket) (a : Addr) (l : Level)
    (r : Rule) : R (State × Out) := do
  let v ← s.load a
  verifyLevel cl v .l1
  let (s, v, _) ← payOath env s v oath v.positionIds []
  let (perms, v) := setAuth s.perms v l r
  let s ← { s with perms }.commitAcc v
  pure (s, {})

/-- `add_collateral`: exchange.rs:1111-1142 -/
def opAddCollateral (env : Env) (cl : Caller) (s : State) (oath : Option Bucket) (a : Addr)
    (tokens : List Bucket) : R (State × Out) := do
  require (tokens.all (okBucket env s)) .badBucket
  let v ← s.load a
  verifyLevel cl v .l3
  let (s, w) ← depositTokens env s v oath tokens
  let s ← s.commit w
  pure (s, {})

/-- `remove_collateral_request`: exchange.rs:1144-1186 -/
def removeCollateralRequest (env : Env) (cl : Caller) (s : State) (oath : Option Bucket)
    (expiry : Nat) (a target : Addr) (claims : List (Res × Dec)) : R (State × Out) := do
  let v ← s.load a
  verifyLevel cl v .l2
  let (s, v, cfg) ← payOath env s v oath v.positionIds []
  require (decide (claims.length ≤ 10)) .claimsTooMany
  let i := v.requestsLen
  let v ← v.pushRequest s.now (.removeCollateral { target, claims }) 0 expiry STATUS_ACTIVE [target]
  assertActiveLimit cfg v
  let s ← s.commitAcc v
  pure (s, { indexes := [some i] })

/-- The arguments that `margin_order_request` and `margin_order_tp_sl_request` share. -/
structure OrderArgs where
  delay : Nat
  expiry : Nat
  pair : PairId
  amount : Dec
  reduceOnly : Bool
  priceLimit : PriceLimit
  slippageLimit : SlippageLimit
deriving DecidableEq, Repr

/-- Minimum trade size: exchange.rs:1220-1225, 1289-1294 -/
def assertTradeSize (cfg : VConfig) (p : PairId) (amount : Dec) : R Unit := do
  let pc ← cfg.pair p
  let x ← dabs amount
  require (decide (x ≥ pc.tradeSizeMin)) .tradeSizeMin

/-- `activate_requests.iter().map(|r| r.resolve(request_index)).collect()` -/
def resolveAll (refs : List RequestIndexRef) (i : Nat) : R (List Nat) :=
  refs.mapM (fun r => r.resolve i)

/-- `margin_order_request`: exchange.rs:1188-1256 -/
def marginOrderRequest (env : Env) (cl : Caller) (s : State) (oath : Option Bucket) (a : Addr)
    (o : OrderArgs) (activate cancel : List RequestIndexRef) (status : Status) :
    R (State × Out) := do
  let v ← s.load a
  verifyLevel cl v .l3
  let (s, v, cfg) ← payOath env s v oath (insertId v.positionIds o.pair) [o.pair]
  assertTradeSize cfg o.pair o.amount
  require (decide (activate.length ≤ 2)) .effectedTooMany
  require (decide (cancel.length ≤ 2)) .effectedTooMany
  let i := v.requestsLen
  let act ← resolveAll activate i
  let can ← resolveAll cancel i
  let v ← v.pushRequest s.now
    (.marginOrder { pair := o.pair, amount := o.amount, reduceOnly := o.reduceOnly,
                    priceLimit := o.priceLimit, slippageLimit := o.slippageLimit,
                    activate := act, cancel := can })
    o.delay o.expiry status []
  assertActiveLimit cfg v
  let s ← s.commitAcc v
  pure (s, { indexes := [some i] })

/-- Price limit of the take-profit (`tp = true`) or stop-loss order: exchange.rs:1309-1313,
1324-1328 -/
def exitLimit (tp : Bool) (amount price : Dec) : PriceLimit :=
  if tp = decide (0 < amount) then .gte price else .lte price

/-- Pushing an optional exit order: exchange.rs:1346-1369 -/
def pushExit (v : VAccount) (now : Int) (o : OrderArgs) (limit : Option PriceLimit)
    (cancel : List Nat) : R VAccount :=
  match limit with
  | some l => do
      let na ← dneg o.amount
      v.pushRequest now
        (.marginOrder { pair := o.pair, amount := na, reduceOnly := true, priceLimit := l,
                        slippageLimit := o.slippageLimit, activate := [], cancel })
        o.delay o.expiry STATUS_DORMANT []
  | none => pure v

/-- `margin_order_tp_sl_request`: exchange.rs:1258-1377 -/
def marginOrderTpSlRequest (env : Env) (cl : Caller) (s : State) (oath : Option Bucket) (a : Addr)
    (o : OrderArgs) (priceTp priceSl : Option Dec) : R (State × Out) := do
  let v ← s.load a
  verifyLevel cl v .l3
  let (s, v, cfg) ← payOath env s v oath (insertId v.positionIds o.pair) [o.pair]
  assertTradeSize cfg o.pair o.amount
  let i := v.requestsLen
  let iTp : Option Nat := priceTp.map (fun _ => i + 1)
  let iSl : Option Nat := priceSl.map (fun _ => (if priceTp.isSome then i + 1 else i) + 1)
  let v ← v.pushRequest s.now
    (.marginOrder { pair := o.pair, amount := o.amount, reduceOnly := o.reduceOnly,
                    priceLimit := o.priceLimit, slippageLimit := o.slippageLimit,
                    activate := iTp.toList ++ iSl.toList, cancel := [] })
    o.delay o.expiry STATUS_ACTIVE []
  let v ← pushExit v s.now o (priceTp.map (exitLimit true o.amount)) iSl.toList
  let v ← pushExit v s.now o (priceSl.map (exitLimit false o.amount)) iTp.toList
  assertActiveLimit cfg v
  let s ← s.commitAcc v
  pure (s, { indexes := [some i, iTp, iSl] })

/-- `cancel_requests`: exchange.rs:1379-1401 -/
def opCancelRequests (env : Env) (cl : Caller) (s : State) (oath : Option Bucket) (a : Addr)
    (indexes : List Nat) : R (State × Out) := do
  let v ← s.load a
  verifyLevel cl v .l3
  let (s, v, _) ← payOath env s v oath v.positionIds []
  let v ← v.cancelRequests indexes
  let s ← s.commitAcc v
  pure (s, {})

/-! ## Keeper methods -/

/-- Pair ids loaded for a request: exchange.rs:1415-1418 -/
def requestPairs (v : VAccount) (r : Request) : List PairId :=
  match r with
  | .marginOrder o => insertId v.positionIds o.pair
  | .removeCollateral _ => v.positionIds

/-- The `match request` of `process_request`: exchange.rs:1425-1432 -/
def executeRequest (c : Ctx) (w : W) (r : Request) : R (W × Out) :=
  match r with
  | .removeCollateral q => do
      let (w, tokens) ← removeCollateral c w q
      pure (w, { paid := tokens.map (fun b => (q.target, b)), ev := .removeCollateral q.target tokens })
  | .marginOrder o => do
      let (w, e) ← marginOrder c w o
      pure (w, { ev := .order e })

/-- The two branches of `process_request`: exchange.rs:1419-1437.  An expired request is only
recorded as such. -/
def processBody (env : Env) (s : State) (v : VAccount) (r : Request) (expired : Bool)
    (updates : Option PriceUpdate) : R (State × Out) :=
  if expired then do
    let s ← s.commitAcc v
    pure (s, { ev := .expired })
  else do
    let (s, c, pool) ← keeperLoad env s (requestPairs v r) updates
    let (w, out) ← executeRequest c { pool, acc := v, dist := s.dist } r
    let s ← s.commit w
    pure (s, out)

/-- `process_request`: exchange.rs:1405-1442 -/
def processRequest (env : Env) (s : State) (a : Addr) (i : Nat) (updates : Option PriceUpdate) :
    R (State × Out) := do
  let v ← s.load a
  let (v, r, expired) ← v.processRequest s.now i
  let cfg ← VConfig.new s.config (requestPairs v r)
  let (s, out) ← processBody env s v r expired updates
  let s ← s.mintReward env cfg.ex.rewardKeeper
  pure (s, { out with reward := cfg.ex.rewardKeeper })

/-- `swap_debt`: exchange.rs:1444-1464 -/
def opSwapDebt (env : Env) (s : State) (a : Addr) (resource : Res) (payment : Bucket)
    (updates : Option PriceUpdate) : R (State × Out) := do
  require (okBucket env s payment) .badBucket
  let v ← s.load a
  let (s, c, pool) ← keeperLoad env s [] updates
  let (w, token, rest, e) ← swapDebt c { pool, acc := v, dist := s.dist } resource payment
  let s ← s.commit w
  pure (s, { buckets := [token, rest], ev := .swapDebt e })

/-- `liquidate`: exchange.rs:1466-1487 -/
def opLiquidate (env : Env) (s : State) (a : Addr) (payment : Bucket)
    (updates : Option PriceUpdate) : R (State × Out) := do
  require (okBucket env s payment) .badBucket
  let v ← s.load a
  let (s, c, pool) ← keeperLoad env s v.positionIds updates
  let (w, tokens, e) ← liquidate c { pool, acc := v, dist := s.dist } payment
  let s ← s.commit w
  let s ← s.mintReward env c.cfg.ex.rewardKeeper
  pure (s, { buckets := tokens, reward := c.cfg.ex.rewardKeeper, ev := .liquidate e })

/-- `auto_deleverage`: exchange.rs:1489-1513 -/
def opAutoDeleverage (env : Env) (s : State) (a : Addr) (p : PairId)
    (updates : Option PriceUpdate) : R (State × Out) := do
  let v ← s.load a
  let (s, c, pool) ← keeperLoad env s (insertId v.positionIds p) updates
  let (w, e) ← autoDeleverage c { pool, acc := v, dist := s.dist } p
  let s ← s.commit w
  let s ← s.mintReward env c.cfg.ex.rewardKeeper
  pure (s, { reward := c.cfg.ex.rewardKeeper, ev := .adl e })

/-- The loop of `update_pairs`: exchange.rs:1528-1530 -/
def updatePairsLoop (c : Ctx) (pool : VPool) : List PairId → R (VPool × List Bool)
  | [] => .ok (pool, [])
  | p :: ps => do
      let (pool, b) ← updatePair c pool p
      let (pool, bs) ← updatePairsLoop c pool ps
      pure (pool, b :: bs)

/-- `update_pairs`: exchange.rs:1515-1539 -/
def opUpdatePairs (env : Env) (s : State) (ids : List PairId) (updates : Option PriceUpdate) :
    R (State × Out) := do
  let ids := ids.dedup
  let (s, c, pool) ← keeperLoad env s ids updates
  let (pool, flags) ← updatePairsLoop c pool ids
  let s := { s with pool := pool.realize }
  let n := ofInt (flags.filter (fun b => b)).length
  let s ← s.mintReward env n
  pure (s, { reward := n, flags })

/-! ## Fee delegator — fee_delegator/src/fee_delegator.rs -/

/-- `update_max_lock`: fee_delegator.rs:100-103 -/
def Delegator.updateMaxLock (d : Delegator) (x : Dec) : R Delegator := do
  require (decide (0 ≤ x)) .assertion
  pure { d with maxLock := x }

/-- `update_price_multiplier`: fee_delegator.rs:105-108 -/
def Delegator.updateMultiplier (d : Delegator) (x : Dec) : R Delegator := do
  require (decide (0 ≤ x)) .assertion
  pure { d with priceMultiplier := x }

/-- `deposit`: fee_delegator.rs:119-121 -/
def Delegator.deposit (d : Delegator) (amount : Dec) : R Delegator := do
  require (decide (0 ≤ amount)) .badBucket
  let x ← dadd d.vault amount
  pure { d with vault := x }

/-- `withdraw`: fee_delegator.rs:123-126 (XRD has 18 decimals) -/
def Delegator.withdraw (d : Delegator) (amount : Dec) : R (Delegator × Dec) := do
  let x ← takeAmount 1 d.vault amount .toZero
  pure ({ d with vault := d.vault - x }, x)

/-- `lock_fee`: fee_delegator.rs:128-147.  The engine's later refund of unused fees is not
modelled. -/
def lockFee (env : Env) (s : State) (amount : Dec) : R (State × Out) := do
  require (decide (0 ≤ amount ∧ amount ≤ s.delegator.vault)) .vault
  let price ← dmul env.usdPrice s.delegator.priceMultiplier
  let value ← dmul price amount
  let vb ← dadd s.delegator.vb value
  let minted ← mintAmount (env.gran FEE_OATH) value
  let supply ← dadd s.oathSupply minted
  require (decide (supply ≤ s.delegator.maxLock)) .maxLock
  pure ({ s with delegator := { s.delegator with vault := s.delegator.vault - amount, vb },
                 oathSupply := supply }, { buckets := [⟨FEE_OATH, minted⟩] })

end Perp
