import Verif.Guarded
import Verif.Known
import Verif.Validated
import Verif.Asked

/-!
# C68: every setting in force is the last one its owner wrote, from deployment on

The first part models the constructors of the components.  The second is the specification: `Settings` is what the owners
have written, call by call, and `State.Shows` says that the system works with exactly that.
-/

namespace Perp

/-! ## Constructors -/

/-- `MarginPool::new`: pool/src/margin_pool.rs:43-61 -/
def Pool.new : Pool where
  positions := AMap.empty
  baseTokens := 0
  vb := 0
  unrealizedFunding := 0
  skewAbsSnap := 0
  pnlSnap := 0

/-- `Config::new`: config/src/config.rs:42-58 (the default is config/src/config/structs.rs:96-116) -/
def Config.new : R Config := do
  let exchange ← ExchangeConfig.dflt.compress
  pure { exchange, pairs := AMap.empty, collaterals := AMap.empty }

/-- `Oracle::new`: oracle/src/oracle.rs:36-68 (without the royalties) -/
def Oracle.new (keys : AMap Nat Nat) : Oracle := { keys, prices := AMap.empty }

/-- `ReferralGenerator::new`: referral_generator/src/referral_generator.rs:43-55 -/
def RefGen.new : RefGen := { vaults := AMap.empty, allocations := AMap.empty, codes := AMap.empty }

/-- `FeeDistributor::new`: fee_distributor/src/fee_distributor.rs:28-39 -/
def FeeDist.new : FeeDist := { treasury := 0, protocol := 0 }

/-- `FeeDelegator::new`: fee_delegator/src/fee_delegator.rs:44-90; the fee-oath resource is created with no supply. -/
def Delegator.new : Delegator where
  vault := 0
  vb := 0
  maxLock := decLit 3 0
  priceMultiplier := decLit 15 1
  isContingent := false

/-- The roles an exchange is created with: exchange/src/exchange.rs:334-354.  A role given to `OWNER` follows the owner's rule,
which does not change in the model. -/
def rolesAtBirth (owner : Rule) : Role → Rule
  | .owner => owner
  | .feeDelegatorAdmin => owner
  | .treasuryAdmin => owner
  | .referralAdmin => owner
  | .userAdmin => owner
  | .protocolSwapUser => .allowAll
  | .liquidityUser => .allowAll
  | .referralUser => .allowAll
  | .accountCreationUser => .allowAll
  | .accountManagementUser => .allowAll
  | .removeCollateralRequestUser => .allowAll
  | .marginOrderRequestUser => .allowAll
  | .cancelRequestUser => .allowAll
  | .keeperProcess => .allowAll
  | .keeperSwapDebt => .allowAll
  | .keeperLiquidate => .allowAll
  | .keeperAutoDeleverage => .allowAll
  | .keeperUpdatePairs => .allowAll

/-- What a deployment is given: the owner rules of exchange, oracle and fee delegator, the oracle's keys, the bucket handed to the
exchange, and the time. -/
structure Birth where
  owner : Rule
  oracleOwner : Rule
  delegatorOwner : Rule
  keys : AMap Nat Nat
  token : Bucket
  now : Int

/-- Deployment: the components' constructors and `Exchange::new` (exchange/src/exchange.rs:306-357; the checks that the addresses
compiled into the package are components of the right blueprints are about the build, not about state). -/
def deploy (b : Birth) : R State := do
  let config ← Config.new
  require (decide (0 ≤ b.token.amt)) .badBucket
  require (decide (b.token.res = AUTHORITY)) .authority
  pure { now := b.now, authority := b.token.amt, roles := rolesAtBirth b.owner, oracleOwner := b.oracleOwner,
         delegatorOwner := b.delegatorOwner, oracle := Oracle.new b.keys, config, accounts := AMap.empty, pool := Pool.new,
         referrals := AMap.empty, refgen := RefGen.new, dist := FeeDist.new, delegator := Delegator.new, perms := AMap.empty,
         lpSupply := 0, oathSupply := 0, rewardSupply := 0, recoveryKeys := 0 }

/-! ## Specification -/

/-- What the owners have written. -/
structure Settings where
  exchange : ExchangeConfig
  pairs : PairId → Option PairConfig
  collaterals : Res → Option CollateralConfig
  roles : Role → Rule
  keys : Nat → Option Nat
  maxLock : Dec
  multiplier : Dec
  contingent : Bool

/-- The documented defaults. -/
def Settings.atBirth (b : Birth) : Settings where
  exchange :=
    { positionsMax := 30, collateralsMax := 5, activeRequestsMax := 100, skewRatioCap := decLit 15 2, adlOffset := decLit 2 1,
      adlA := decLit 7 2, adlB := decLit 7 2, feeLiquidityAdd := decLit 1 3, feeLiquidityRemove := decLit 1 3,
      feeShareProtocol := decLit 22 2, feeShareTreasury := decLit 8 2, feeShareReferral := decLit 1 0, feeMax := decLit 1 2,
      protocolBurnAmount := decLit 10000 0, rewardKeeper := decLit 1 0 }
  pairs := fun _ => none
  collaterals := fun _ => none
  roles := fun r => if r ∈ [Role.owner, .feeDelegatorAdmin, .treasuryAdmin, .referralAdmin, .userAdmin] then b.owner else .allowAll
  keys := b.keys.get
  maxLock := decLit 3 0
  multiplier := decLit 15 1
  contingent := false

/-- The last entry of a list that is about a given key. -/
def lastAbout {κ α : Type} [DecidableEq κ] (key : α → κ) (k : κ) (l : List α) : Option α :=
  (l.filter (fun x => key x = k)).getLast?

/-- What a call writes. -/
def Settings.write (S : Settings) : Op → Settings
  | .updateExchangeConfig c => { S with exchange := c }
  | .updatePairConfigs cs => { S with pairs := fun p => (lastAbout PairConfig.pairId p cs).or (S.pairs p) }
  | .updateCollateralConfigs cs =>
      { S with collaterals := fun r => ((lastAbout Prod.fst r cs).map Prod.snd).or (S.collaterals r) }
  | .removeCollateralConfig r => { S with collaterals := fun x => if x = r then none else S.collaterals x }
  | .setRole r rule => { S with roles := fun x => if x = r then rule else S.roles x }
  | .oracleAddKey id k => { S with keys := fun x => if x = id then some k else S.keys x }
  | .oracleRemoveKey id => { S with keys := fun x => if x = id then none else S.keys x }
  | .delegatorMaxLock x => { S with maxLock := x }
  | .delegatorMultiplier x => { S with multiplier := x }
  | .delegatorContingent x => { S with contingent := x }
  | _ => S

/-- Whose approval writing takes. -/
def Settings.mayWrite (b : Birth) (S : Settings) (cl : Caller) : Op → Prop
  | .updateExchangeConfig _ | .updatePairConfigs _ | .updateCollateralConfigs _ | .removeCollateralConfig _ =>
      b.owner.sat cl.pf = true
  | .setRole r _ => r ≠ .owner ∧ (b.owner.sat cl.pf = true ∨ (r ∈ userRoles ∧ (S.roles .userAdmin).sat cl.pf = true))
  | .oracleAddKey .. | .oracleRemoveKey _ => b.oracleOwner.sat cl.pf = true
  | .delegatorMaxLock _ | .delegatorMultiplier _ | .delegatorContingent _ => b.delegatorOwner.sat cl.pf = true
  | _ => True

/-- A history: who called what, in order. -/
inductive Ran (env : Env) (s : State) : List (Caller × Op) → State → Prop where
  | nil : Ran env s [] s
  | snoc {l : List (Caller × Op)} {s' s'' : State} {cl : Caller} {op : Op} {o : Out} : Ran env s l s' →
      step env cl s' op = Except.ok (s'', o) → Ran env s (l ++ [(cl, op)]) s''

/-- What has been written after a history. -/
def Settings.after (S : Settings) (l : List (Caller × Op)) : Settings := l.foldl (fun S x => S.write x.2) S

/-- A decimal written and the one in force: sixteen-bit floats lose less than one hundredth, never more than is there. -/
def Trimmed (written inForce : Dec) : Prop := 0 ≤ inForce ∧ inForce ≤ written ∧ 99 * written ≤ 100 * inForce

/-- Exchange parameters written and in force. -/
structure ExchangeConfig.Shown (w x : ExchangeConfig) : Prop where
  positionsMax : x.positionsMax = w.positionsMax
  collateralsMax : x.collateralsMax = w.collateralsMax
  activeRequestsMax : x.activeRequestsMax = w.activeRequestsMax
  skewRatioCap : Trimmed w.skewRatioCap x.skewRatioCap
  adlOffset : Trimmed w.adlOffset x.adlOffset
  adlA : Trimmed w.adlA x.adlA
  adlB : Trimmed w.adlB x.adlB
  feeLiquidityAdd : Trimmed w.feeLiquidityAdd x.feeLiquidityAdd
  feeLiquidityRemove : Trimmed w.feeLiquidityRemove x.feeLiquidityRemove
  feeShareProtocol : Trimmed w.feeShareProtocol x.feeShareProtocol
  feeShareTreasury : Trimmed w.feeShareTreasury x.feeShareTreasury
  feeShareReferral : Trimmed w.feeShareReferral x.feeShareReferral
  feeMax : Trimmed w.feeMax x.feeMax
  protocolBurnAmount : Trimmed w.protocolBurnAmount x.protocolBurnAmount
  rewardKeeper : Trimmed w.rewardKeeper x.rewardKeeper

/-- Pair parameters written and in force (ages and periods are kept modulo 2^16, see C46). -/
structure PairConfig.Shown (w x : PairConfig) : Prop where
  pair : x.pairId = w.pairId
  priceAgeMax : x.priceAgeMax = w.priceAgeMax % 65536
  updatePeriodSeconds : x.updatePeriodSeconds = w.updatePeriodSeconds % 65536
  oiMax : Trimmed w.oiMax x.oiMax
  tradeSizeMin : Trimmed w.tradeSizeMin x.tradeSizeMin
  updatePriceDeltaRatio : Trimmed w.updatePriceDeltaRatio x.updatePriceDeltaRatio
  marginInitial : Trimmed w.marginInitial x.marginInitial
  marginMaintenance : Trimmed w.marginMaintenance x.marginMaintenance
  funding1 : Trimmed w.funding1 x.funding1
  funding2 : Trimmed w.funding2 x.funding2
  funding2Delta : Trimmed w.funding2Delta x.funding2Delta
  funding2Decay : Trimmed w.funding2Decay x.funding2Decay
  fundingPool0 : Trimmed w.fundingPool0 x.fundingPool0
  fundingPool1 : Trimmed w.fundingPool1 x.fundingPool1
  fundingShare : Trimmed w.fundingShare x.fundingShare
  fee0 : Trimmed w.fee0 x.fee0
  fee1 : Trimmed w.fee1 x.fee1

/-- Collateral parameters written and in force. -/
structure CollateralConfig.Shown (w x : CollateralConfig) : Prop where
  pair : x.pairId = w.pairId
  priceAgeMax : x.priceAgeMax = w.priceAgeMax % 65536
  discount : Trimmed w.discount x.discount
  margin : Trimmed w.margin x.margin

/-- The system works with what has been written. -/
structure State.Shows (s : State) (S : Settings) : Prop where
  exchange : S.exchange.Shown s.config.exchange.decompress
  pairs : ∀ p, match S.pairs p with
    | none => s.config.pairs.get p = none
    | some w => ∃ x, s.config.pairs.get p = some x ∧ w.pairId = p ∧ w.Shown x.decompress
  collaterals : ∀ r, match S.collaterals r with
    | none => s.config.collaterals.get r = none
    | some w => ∃ x, s.config.collaterals.get r = some x ∧ w.Shown x.decompress
  roles : ∀ r, s.roles r = S.roles r
  keys : ∀ i, s.oracle.keys.get i = S.keys i
  maxLock : s.delegator.maxLock = S.maxLock
  multiplier : s.delegator.priceMultiplier = S.multiplier
  contingent : s.delegator.isContingent = S.contingent

/-! ## Compression -/

theorem trimmed {v : Dec} {f : DFloat} (h : DFloat.ofDec v = Except.ok f) (h0 : 0 ≤ v) : Trimmed v f.toDec :=
  ⟨(ofDec_between h h0).1, (ofDec_between h h0).2, ofDec_lower h h0⟩

theorem exchange_shown {c : ExchangeConfig} {x : ExchangeConfigC} (hv : c.validate = true)
    (h : c.compress = Except.ok x) : c.Shown x.decompress := by
  simp only [ExchangeConfig.validate, decide_eq_true_eq] at hv
  obtain ⟨h1, h2, h3, h4, h5, h6, h7, ⟨h8, h8'⟩, ⟨h9, h9'⟩, ⟨h10, h10'⟩, h11, h12, h13⟩ := hv
  simp only [ExchangeConfig.compress, bind_ok, pure_ok] at h
  obtain ⟨_, k2, _, k3, _, k4, _, k5, _, k6, _, k7, _, k8, _, k9, _, k10, _, k11, _, k12, _, k13, rfl⟩ := h
  exact ⟨rfl, rfl, rfl, trimmed k2 h2, trimmed k3 h3, trimmed k4 h4, trimmed k5 h5, trimmed k6 h6, trimmed k7 h7, trimmed k8 h8,
    trimmed k9 h9, trimmed k10 h10, trimmed k11 h11, trimmed k12 (le_trans (by norm_num [decLit]) h12), trimmed k13 h13⟩

theorem pair_shown {c : PairConfig} {x : PairConfigC} (hv : c.validate = true) (h : c.compress = Except.ok x) :
    c.Shown x.decompress := by
  simp only [PairConfig.validate, decide_eq_true_eq] at hv
  obtain ⟨h1, h2, h3, h4, h5, ⟨h6, h6'⟩, ⟨h7, h7', h7''⟩, ⟨h8, h8'⟩, ⟨h9, h9'⟩, ⟨h10, h10'⟩, h11, ⟨h12, h12'⟩, ⟨h13, h13'⟩,
    ⟨h14, h14'⟩, ⟨h15, h15'⟩, ⟨h16, h16'⟩⟩ := hv
  simp only [PairConfig.compress, bind_ok, pure_ok] at h
  obtain ⟨_, k2, _, k3, _, k4, _, k6, _, k7, _, k8, _, k9, _, k10, _, k11, _, k12, _, k13, _, k14, _, k15, _, k16, rfl⟩ := h
  exact ⟨rfl, i64AsU16_eq _, i64AsU16_eq _, trimmed k2 h2, trimmed k3 h3, trimmed k4 h4.le, trimmed k6 h6, trimmed k7 h7,
    trimmed k8 h8, trimmed k9 h9, trimmed k10 h10, trimmed k11 h11, trimmed k12 h12, trimmed k13 h13, trimmed k14 h14,
    trimmed k15 h15, trimmed k16 h16⟩

theorem coll_shown {c : CollateralConfig} {x : CollateralConfigC} (hv : c.validate = true)
    (h : c.compress = Except.ok x) : c.Shown x.decompress := by
  simp only [CollateralConfig.validate, decide_eq_true_eq] at hv
  obtain ⟨h1, ⟨h2, h2'⟩, ⟨h3, h3'⟩⟩ := hv
  simp only [CollateralConfig.compress, bind_ok, pure_ok] at h
  obtain ⟨_, k2, _, k3, rfl⟩ := h
  exact ⟨rfl, i64AsU16_eq _, trimmed k2 (le_trans (by norm_num [decLit]) h2), trimmed k3 h3⟩

theorem lastAbout_nil {κ α : Type} [DecidableEq κ] (key : α → κ) (k : κ) : lastAbout key k [] = none := rfl

theorem lastAbout_cons {κ α : Type} [DecidableEq κ] (key : α → κ) (k : κ) (x : α) (l : List α) :
    lastAbout key k (x :: l) = (lastAbout key k l).or (if key x = k then some x else none) := by
  unfold lastAbout
  rw [List.filter_cons]
  by_cases h : key x = k
  · simp only [h, decide_true, if_true]
    cases hl : (l.filter (fun x => key x = k)).getLast? with
    | none => rw [List.getLast?_eq_none_iff] at hl; simp [hl]
    | some y => 
      rw [List.getLast?_cons]
      simp [hl]
  · simp [h]

/-- `update_pair_configs` stores the last entry for each pair. -/
theorem updatePairs_shown {cs : List PairConfig} : ∀ {c c' : Config}, c.updatePairs cs = Except.ok c' →
    c'.exchange = c.exchange ∧ c'.collaterals = c.collaterals ∧
    ∀ p, match lastAbout PairConfig.pairId p cs with
      | none => c'.pairs.get p = c.pairs.get p
      | some w => ∃ x, c'.pairs.get p = some x ∧ w.pairId = p ∧ w.Shown x.decompress := by
  induction cs with
  | nil =>
    intro c c' h
    simp only [Config.updatePairs, List.foldlM_nil, pure_ok] at h
    subst h
    exact ⟨rfl, rfl, fun p => rfl⟩
  | cons e cs ih =>
    intro c c' h
    simp only [Config.updatePairs, List.foldlM_cons, bind_ok] at h
    obtain ⟨c1, h1, h2⟩ := h
    simp only [Config.updatePair, bind_ok, require_ok, pure_ok] at h1
    obtain ⟨-, hv, xc, hx, rfl⟩ := h1
    obtain ⟨i1, i2, i3⟩ := ih h2
    refine ⟨i1, i2, fun p => ?_⟩
    have := i3 p
    rw [lastAbout_cons]
    cases hl : lastAbout PairConfig.pairId p cs with
    | some w => rw [hl] at this; simpa using this
    | none =>
      rw [hl] at this
      simp only [Option.none_or]
      simp only [AMap.get_set] at this
      by_cases hp : e.pairId = p
      · rw [if_pos hp]
        simp only [hp, if_true] at this
        exact ⟨xc, this, hp, pair_shown hv hx⟩
      · rw [if_neg hp]
        rw [if_neg hp] at this
        exact this

/-- `update_collateral_configs` stores the last entry for each resource. -/
theorem updateCollaterals_shown {cs : List (Res × CollateralConfig)} : ∀ {c c' : Config},
    c.updateCollaterals cs = Except.ok c' →
    c'.exchange = c.exchange ∧ c'.pairs = c.pairs ∧
    ∀ r, match lastAbout Prod.fst r cs with
      | none => c'.collaterals.get r = c.collaterals.get r
      | some w => ∃ x, c'.collaterals.get r = some x ∧ w.2.Shown x.decompress := by
  induction cs with
  | nil =>
    intro c c' h
    simp only [Config.updateCollaterals, List.foldlM_nil, pure_ok] at h
    subst h
    exact ⟨rfl, rfl, fun p => rfl⟩
  | cons e cs ih =>
    intro c c' h
    simp only [Config.updateCollaterals, List.foldlM_cons, bind_ok] at h
    obtain ⟨c1, h1, h2⟩ := h
    simp only [Config.updateCollateral, bind_ok, require_ok, pure_ok] at h1
    obtain ⟨-, hv, xc, hx, rfl⟩ := h1
    obtain ⟨i1, i2, i3⟩ := ih h2
    refine ⟨i1, i2, fun p => ?_⟩
    have := i3 p
    rw [lastAbout_cons]
    cases hl : lastAbout Prod.fst p cs with
    | some w => rw [hl] at this; simpa using this
    | none =>
      rw [hl] at this
      simp only [Option.none_or]
      simp only [AMap.get_set] at this
      by_cases hp : e.1 = p
      · rw [if_pos hp]
        simp only [hp, if_true] at this
        exact ⟨xc, this, coll_shown hv hx⟩
      · rw [if_neg hp]
        rw [if_neg hp] at this
        exact this

/-! ## Deployment -/

/-- **C68, deployment.** A deployment succeeds exactly if the exchange is handed authority tokens (and nothing else); the result is a
state from which the histories of all other properties start. -/
theorem c68_deploy (b : Birth) :
    ((∃ s, deploy b = Except.ok s) ↔ 0 ≤ b.token.amt ∧ b.token.res = AUTHORITY) ∧
    ∀ s, deploy b = Except.ok s → I64MIN ≤ b.now ∧ b.now ≤ I64MAX →
      Genesis s ∧ s.now = b.now ∧ s.authority = b.token.amt ∧ s.oracleOwner = b.oracleOwner ∧
      s.delegatorOwner = b.delegatorOwner ∧ s.Shows (Settings.atBirth b) := by
  have hc : ∃ x, ExchangeConfig.dflt.compress = Except.ok x := by
    have : (match ExchangeConfig.dflt.compress with | .ok _ => true | .error _ => false) = true := by decide +kernel
    split at this
    · rename_i x hx; exact ⟨x, hx⟩
    · cases this
  obtain ⟨x, hx⟩ := hc
  refine ⟨⟨?_, ?_⟩, ?_⟩
  · rintro ⟨s, h⟩
    simp only [deploy, Config.new, bind_ok, pure_ok, require_ok, decide_eq_true_eq] at h
    obtain ⟨_, -, -, h1, -, h2, -⟩ := h
    exact ⟨h1, h2⟩
  · rintro ⟨h1, h2⟩
    simp only [deploy, Config.new, hx, h1, h2, decide_true, require, pure]
    exact ⟨_, rfl⟩
  · intro s h hn
    simp only [deploy, Config.new, bind_ok, pure_ok, require_ok, decide_eq_true_eq] at h
    obtain ⟨_, ⟨x, hx, rfl⟩, -, h1, -, h2, rfl⟩ := h
    refine ⟨⟨h1, rfl, rfl, ⟨rfl, rfl⟩, hx, rfl, rfl, rfl, rfl, rfl, rfl, rfl, rfl, rfl, rfl, hn⟩, rfl, rfl, rfl, rfl, ?_⟩
    refine ⟨exchange_shown (c := ExchangeConfig.dflt) (by decide +kernel) hx, fun p => AMap.get_empty _, fun p => AMap.get_empty _, fun r => ?_, fun i => rfl,
      rfl, rfl, rfl⟩
    cases r <;> rfl

/-! ## Histories -/

theorem delegator_settings {env : Env} {cl : Caller} {s s' : State} {op : Op} {o : Out} (h : step env cl s op = Except.ok (s', o))
    {S : Settings} (h1 : s.delegator.maxLock = S.maxLock) (h2 : s.delegator.priceMultiplier = S.multiplier)
    (h3 : s.delegator.isContingent = S.contingent) :
    s'.delegator.maxLock = (S.write op).maxLock ∧ s'.delegator.priceMultiplier = (S.write op).multiplier ∧
    s'.delegator.isContingent = (S.write op).contingent := by
  have hb := step_body h
  rcases (body_apart hb).delegator with h4 | h4
  · cases op
    case delegatorMaxLock x =>
      simp only [body, Delegator.updateMaxLock, bind_ok, pure_ok, require_ok, Prod.mk.injEq] at hb
      obtain ⟨_, ⟨-, -, rfl⟩, rfl, -⟩ := hb
      exact ⟨rfl, h2, h3⟩
    case delegatorMultiplier x =>
      simp only [body, Delegator.updateMultiplier, bind_ok, pure_ok, require_ok, Prod.mk.injEq] at hb
      obtain ⟨_, ⟨-, -, rfl⟩, rfl, -⟩ := hb
      exact ⟨h1, rfl, h3⟩
    case delegatorContingent x =>
      simp only [body, pure_ok, Prod.mk.injEq] at hb
      obtain ⟨rfl, -⟩ := hb
      exact ⟨h1, h2, rfl⟩
    all_goals (rw [h4]; exact ⟨h1, h2, h3⟩)
  · cases op <;> first | (cases h4; done) | skip
    case collectFeeDelegator =>
      obtain ⟨pool, x, hp, rfl, -⟩ := collectFeeDelegator_ok hb
      exact ⟨h1, h2, h3⟩
    case lockFee x =>
      obtain ⟨value, -, -, -, -, hle, rfl, -⟩ := lockFee_ok hb
      exact ⟨h1, h2, h3⟩
    case delegatorMaxLock x =>
      simp only [body, Delegator.updateMaxLock, bind_ok, pure_ok, require_ok, Prod.mk.injEq] at hb
      obtain ⟨_, ⟨-, -, rfl⟩, rfl, -⟩ := hb
      exact ⟨rfl, h2, h3⟩
    case delegatorMultiplier x =>
      simp only [body, Delegator.updateMultiplier, bind_ok, pure_ok, require_ok, Prod.mk.injEq] at hb
      obtain ⟨_, ⟨-, -, rfl⟩, rfl, -⟩ := hb
      exact ⟨h1, rfl, h3⟩
    case delegatorContingent x =>
      simp only [body, pure_ok, Prod.mk.injEq] at hb
      obtain ⟨rfl, -⟩ := hb
      exact ⟨h1, h2, rfl⟩
    case delegatorDeposit x =>
      simp only [body, Delegator.deposit, bind_ok, pure_ok, require_ok, Prod.mk.injEq] at hb
      obtain ⟨_, ⟨-, -, _, -, rfl⟩, rfl, -⟩ := hb
      exact ⟨h1, h2, h3⟩
    case delegatorWithdraw x =>
      simp only [body, Delegator.withdraw, bind_ok, pure_ok, Prod.mk.injEq, Prod.exists] at hb
      obtain ⟨_, _, ⟨_, -, rfl, -⟩, rfl, -⟩ := hb
      exact ⟨h1, h2, h3⟩

/-- **C68, one call.** What a call writes is in force afterwards, and nothing else has changed. -/
theorem c68_call {env : Env} {cl : Caller} {s s' : State} {op : Op} {o : Out} {S : Settings}
    (h : step env cl s op = Except.ok (s', o)) (hs : s.Shows S) : s'.Shows (S.write op) := by
  have ha := body_admin (step_body h)
  obtain ⟨hd1, hd2, hd3⟩ := delegator_settings h hs.maxLock hs.multiplier hs.contingent
  have hroles : ∀ r, s'.roles r = (S.write op).roles r := by
    intro r
    rcases ha.roles with e | ⟨r', rule, rfl, -, -, e⟩
    · rw [e, hs.roles]
      cases op <;> first | rfl | skip
      case setRole r' rule =>
        have hb := step_body h
        simp only [body, setRole, bind_ok, pure_ok, require_ok, Prod.mk.injEq] at hb
        obtain ⟨_, ⟨-, -, -, -, rfl⟩, rfl, -⟩ := hb
        have := congrFun e r
        rw [hs.roles] at this
        rw [← this]
        simp only [Settings.write]
        split
        · rfl
        · exact hs.roles r
    · rw [e]
      simp only [Settings.write]
      split
      · rfl
      · exact hs.roles r
  have hkeys : ∀ i, s'.oracle.keys.get i = (S.write op).keys i := by
    intro i
    have push : ∀ u, s.oracle.push env u = Except.ok s'.oracle → s'.oracle.keys = s.oracle.keys := by
      intro u hp
      obtain ⟨_, -, -, he⟩ := Oracle.push_ok hp
      rw [he]
    by_cases hop : (∃ id k, op = .oracleAddKey id k) ∨ ∃ id, op = .oracleRemoveKey id
    · have hb := step_body h
      rcases hop with ⟨id, k, rfl⟩ | ⟨id, rfl⟩
      · simp only [body, Oracle.addKey, bind_ok, pure_ok, require_ok, Prod.mk.injEq] at hb
        obtain ⟨_, ⟨-, -, rfl⟩, rfl, -⟩ := hb
        simp only [Settings.write, AMap.get_set, hs.keys]
        simp only [eq_comm]
      · simp only [body, pure_ok, Prod.mk.injEq] at hb
        obtain ⟨rfl, -⟩ := hb
        simp only [Settings.write, Oracle.removeKey, AMap.get_erase, hs.keys]
        simp only [eq_comm]
    · have e : s'.oracle.keys = s.oracle.keys := by
        rcases ha.oracle with h1 | ⟨u, -, hp⟩ | ⟨i, k, rfl, -⟩ | ⟨i, rfl, -⟩ | ⟨p, rfl, he⟩
        · rw [h1]
        · exact push u hp
        · exact absurd (Or.inl ⟨i, k, rfl⟩) hop
        · exact absurd (Or.inr ⟨i, rfl⟩) hop
        · rw [he]; rfl
      rw [e, hs.keys]
      cases op <;> first | rfl | skip
      case oracleAddKey id k => exact absurd (Or.inl ⟨id, k, rfl⟩) hop
      case oracleRemoveKey id => exact absurd (Or.inr ⟨id, rfl⟩) hop
  have done : s'.config = s.config → (S.write op).exchange = S.exchange → (S.write op).pairs = S.pairs →
      (S.write op).collaterals = S.collaterals → s'.Shows (S.write op) := by
    intro e e1 e2 e3
    refine ⟨?_, ?_, ?_, hroles, hkeys, hd1, hd2, hd3⟩
    · rw [e, e1]; exact hs.exchange
    · rw [e, e2]; exact hs.pairs
    · rw [e, e3]; exact hs.collaterals
  have hb := step_body h
  cases op
  case updateExchangeConfig c =>
    simp only [body, Config.updateExchange, bind_ok, pure_ok, require_ok, Prod.mk.injEq] at hb
    obtain ⟨_, ⟨-, hv, x, hx, rfl⟩, rfl, -⟩ := hb
    exact ⟨exchange_shown hv hx, hs.pairs, hs.collaterals, hroles, hkeys, hd1, hd2, hd3⟩
  case updatePairConfigs cs =>
    simp only [body, bind_ok, pure_ok, Prod.mk.injEq] at hb
    obtain ⟨x, hx, rfl, -⟩ := hb
    obtain ⟨e1, e2, e3⟩ := updatePairs_shown hx
    refine ⟨?_, fun p => ?_, ?_, hroles, hkeys, hd1, hd2, hd3⟩
    · show S.exchange.Shown x.exchange.decompress
      rw [e1]; exact hs.exchange
    · have e := e3 p
      have e' := hs.pairs p
      simp only [Settings.write]
      cases hl : lastAbout PairConfig.pairId p cs with
      | none => rw [hl] at e; simp only [Option.none_or]; rw [e]; exact e'
      | some w => rw [hl] at e; exact e
    · show ∀ r, match S.collaterals r with
        | none => x.collaterals.get r = none
        | some w => _
      rw [e2]; exact hs.collaterals
  case updateCollateralConfigs cs =>
    simp only [body, bind_ok, pure_ok, Prod.mk.injEq] at hb
    obtain ⟨x, hx, rfl, -⟩ := hb
    obtain ⟨e1, e2, e3⟩ := updateCollaterals_shown hx
    refine ⟨?_, ?_, fun p => ?_, hroles, hkeys, hd1, hd2, hd3⟩
    · show S.exchange.Shown x.exchange.decompress
      rw [e1]; exact hs.exchange
    · show ∀ r, match S.pairs r with
        | none => x.pairs.get r = none
        | some w => _
      rw [e2]; exact hs.pairs
    · have e := e3 p
      have e' := hs.collaterals p
      simp only [Settings.write]
      cases hl : lastAbout Prod.fst p cs with
      | none => rw [hl] at e; simp only [Option.map_none, Option.none_or]; rw [e]; exact e'
      | some w => rw [hl] at e; exact e
  case removeCollateralConfig r =>
    simp only [body, pure_ok, Prod.mk.injEq] at hb
    obtain ⟨rfl, -⟩ := hb
    refine ⟨hs.exchange, hs.pairs, fun p => ?_, hroles, hkeys, hd1, hd2, hd3⟩
    have e' := hs.collaterals p
    simp only [Settings.write, Config.removeCollateral, AMap.get_erase]
    by_cases hp : p = r
    · simp [hp]
    · rw [if_neg hp, if_neg (fun h => hp h.symm)]; exact e'
  all_goals
    refine done ?_ rfl rfl rfl
    rcases ha.config with e | ⟨_, e, -⟩ | ⟨_, e, -⟩ | ⟨_, e, -⟩ | ⟨_, e, -⟩ <;> first | exact e | cases e

/-- **C68, whose approval.** A call that writes settings is approved by those who may write them. -/
theorem c68_approved {env : Env} {cl : Caller} {s s' : State} {op : Op} {o : Out} {S : Settings} {b : Birth}
    (h : step env cl s op = Except.ok (s', o)) (hs : s.Shows S) (h1 : s.roles .owner = b.owner)
    (h2 : s.oracleOwner = b.oracleOwner) (h3 : s.delegatorOwner = b.delegatorOwner) : S.mayWrite b cl op := by
  cases op <;> first | exact trivial | skip
  case setRole r rule =>
    have hb := step_body h
    simp only [body, setRole, bind_ok, pure_ok, require_ok, Prod.mk.injEq, decide_eq_true_eq, Bool.or_eq_true,
      Bool.and_eq_true] at hb
    obtain ⟨_, ⟨-, hr, -, ho, -⟩, -⟩ := hb
    refine ⟨hr, ho.imp (fun e => by rw [← h1]; exact e) (fun ⟨e1, e2⟩ => ⟨?_, by rw [← hs.roles]; exact e2⟩)⟩
    cases r <;> first | (simp [userRoles]; done) | cases e1
  case oracleAddKey => have := c40_owners h (by constructor); rw [h2] at this; exact this
  case oracleRemoveKey => have := c40_owners h (by constructor); rw [h2] at this; exact this
  case delegatorMaxLock => have := c40_owners h (by constructor); rw [h3] at this; exact this
  case delegatorMultiplier => have := c40_owners h (by constructor); rw [h3] at this; exact this
  case delegatorContingent => have := c40_owners h (by constructor); rw [h3] at this; exact this
  all_goals
    have := c40_methods h (r := .owner) (by constructor)
    unfold Caller.holds at this
    rw [h1] at this
    exact this

/-- What holds after any history from a deployment. -/
structure Since (env : Env) (b : Birth) (l : List (Caller × Op)) (s : State) : Prop where
  reach : Reach env s
  shows_ : s.Shows ((Settings.atBirth b).after l)
  owner : s.roles .owner = b.owner
  oracleOwner : s.oracleOwner = b.oracleOwner
  delegatorOwner : s.delegatorOwner = b.delegatorOwner

theorem since {env : Env} {b : Birth} {s0 s : State} {l : List (Caller × Op)}
    (hd : deploy b = Except.ok s0) (hn : I64MIN ≤ b.now ∧ b.now ≤ I64MAX) (h : Ran env s0 l s) : Since env b l s := by
  obtain ⟨g1, -, -, g2, g3, g4⟩ := (c68_deploy b).2 s0 hd hn
  induction h with
  | nil => exact ⟨.init g1, g4, by rw [g4.roles]; rfl, g2, g3⟩
  | snoc _ hs ih =>
    obtain ⟨e1, e2, e3⟩ := c40_component_owners hs
    refine ⟨ih.reach.step hs, ?_, e3.trans ih.owner, e1.trans ih.oracleOwner, e2.trans ih.delegatorOwner⟩
    have := c68_call hs ih.shows_
    unfold Settings.after at this ⊢
    rw [List.foldl_append]
    exact this

/-- **C68, settings.** After any history from a deployment, the system works with the last values written: exchange, pair and
collateral parameters (to the precision of the sixteen-bit floats), roles, oracle keys and the fee delegator's terms; what
nobody has written has its documented default, or does not exist. -/
theorem c68_settings {env : Env} {b : Birth} {s0 s : State} {l : List (Caller × Op)}
    (hd : deploy b = Except.ok s0) (hn : I64MIN ≤ b.now ∧ b.now ≤ I64MAX) (h : Ran env s0 l s) :
    s.Shows ((Settings.atBirth b).after l) :=
  (since hd hn h).shows_

theorem ran_prefix {env : Env} {s0 s : State} {l l' : List (Caller × Op)} (h : Ran env s0 (l ++ l') s) :
    ∃ s1, Ran env s0 l s1 := by
  induction l' using List.reverseRecOn generalizing s with
  | nil => rw [List.append_nil] at h; exact ⟨s, h⟩
  | append_singleton l' x ih =>
    rw [← List.append_assoc] at h
    generalize hm : l ++ l' ++ [x] = m at h
    cases h with
    | nil => simp at hm
    | snoc h1 h2 =>
      obtain ⟨e1, e2⟩ := List.append_inj' hm rfl
      rw [← e1] at h1
      exact ih h1

/-- **C68, writers.** And whoever wrote a setting had the approval of its owner: for parameters the exchange's owner, for the user
roles also the user admin of the moment, for keys the oracle's owner, for the fee delegator's terms its owner. -/
theorem c68_writers {env : Env} {b : Birth} {s0 s : State} {l l' : List (Caller × Op)} {cl : Caller} {op : Op}
    (hd : deploy b = Except.ok s0) (hn : I64MIN ≤ b.now ∧ b.now ≤ I64MAX)
    (h : Ran env s0 (l ++ (cl, op) :: l') s) : ((Settings.atBirth b).after l).mayWrite b cl op := by
  rw [show l ++ (cl, op) :: l' = (l ++ [(cl, op)]) ++ l' by simp] at h
  obtain ⟨s2, h2⟩ := ran_prefix h
  generalize hm : l ++ [(cl, op)] = m at h2
  cases h2 with
  | nil => simp at hm
  | snoc h3 h4 =>
    obtain ⟨e1, e2⟩ := List.append_inj' hm rfl
    cases e2
    rw [← e1] at h3
    have := since hd hn h3
    exact c68_approved h4 this.shows_ this.owner this.oracleOwner this.delegatorOwner

/-! ## Nothing is traded before it is listed -/

theorem pairs_written {b : Birth} {l : List (Caller × Op)} {p : PairId} {w : PairConfig}
    (h : ((Settings.atBirth b).after l).pairs p = some w) :
    ∃ l1 cl cs l2, l = l1 ++ (cl, Op.updatePairConfigs cs) :: l2 ∧ w ∈ cs ∧ lastAbout PairConfig.pairId p cs = some w := by
  induction l using List.reverseRecOn with
  | nil => cases h
  | append_singleton l x ih =>
    obtain ⟨cl, op⟩ := x
    unfold Settings.after at h ih
    rw [List.foldl_append] at h
    simp only [List.foldl_cons, List.foldl_nil] at h
    have old : (List.foldl (fun S x => S.write x.2) (Settings.atBirth b) l).pairs p = some w →
        ∃ l1 cl' cs l2, l ++ [(cl, op)] = l1 ++ (cl', Op.updatePairConfigs cs) :: l2 ∧ w ∈ cs ∧
          lastAbout PairConfig.pairId p cs = some w := by
      intro e
      obtain ⟨l1, cl', cs, l2, rfl, h1⟩ := ih e
      exact ⟨l1, cl', cs, l2 ++ [(cl, op)], by simp, h1⟩
    cases op
    case updatePairConfigs cs =>
      change (lastAbout PairConfig.pairId p cs).or _ = _ at h
      cases hl : lastAbout PairConfig.pairId p cs with
      | none => rw [hl, Option.none_or] at h; exact old h
      | some w' =>
        rw [hl] at h
        simp only [Option.some_or, Option.some.injEq] at h
        subst h
        refine ⟨l, cl, cs, [], rfl, ?_, hl⟩
        unfold lastAbout at hl
        exact (List.mem_filter.mp (List.mem_of_getLast? hl)).1
    all_goals exact old h

/-- **C68, listed first.** If an account holds a position in a pair, or a request for an order in it, then the owner has listed
that pair before, and the parameters in force are the last ones the owner gave for it. -/
theorem c68_listed {env : Env} {b : Birth} {s0 s : State} {l : List (Caller × Op)} {a : Addr} {acc : Account}
    {p : PairId} (hd : deploy b = Except.ok s0) (hn : I64MIN ≤ b.now ∧ b.now ≤ I64MAX) (h : Ran env s0 l s)
    (ha : s.accounts.get a = some acc)
    (hp : (∃ pos, acc.positions.get p = some pos) ∨ ∃ (i : Nat) (r : KeeperRequest), acc.requests[i]? = some r ∧ r.request.pair? = some p) :
    ∃ l1 cl cs l2 w x, l = l1 ++ (cl, Op.updatePairConfigs cs) :: l2 ∧ b.owner.sat cl.pf = true ∧ w ∈ cs ∧ w.pairId = p ∧
      s.config.pairs.get p = some x ∧ w.Shown x.decompress := by
  have hs := since hd hn h
  obtain ⟨x, hx⟩ : ∃ x, s.config.pairs.get p = some x := by
    rcases hp with ⟨pos, hpos⟩ | ⟨i, r, hr, hrp⟩
    · exact (reach_resolves hs.reach).position a acc p pos ha hpos
    · exact (reach_resolves hs.reach).order a acc i r p ha hr hrp
  have hq := hs.shows_.pairs p
  cases hw : ((Settings.atBirth b).after l).pairs p with
  | none => rw [hw] at hq; rw [hx] at hq; cases hq
  | some w =>
    rw [hw] at hq
    obtain ⟨x', hx', hwp, hsh⟩ := hq
    rw [hx] at hx'; cases hx'
    obtain ⟨l1, cl, cs, l2, rfl, hm, -⟩ := pairs_written hw
    exact ⟨l1, cl, cs, l2, w, x, rfl, c68_writers hd hn h, hm, hwp, hx, hsh⟩

/-! ## Nothing is deposited before it is accepted -/

theorem collaterals_written {b : Birth} {l : List (Caller × Op)} {r : Res} {w : CollateralConfig}
    (h : ((Settings.atBirth b).after l).collaterals r = some w) :
    ∃ l1 cl cs l2, l = l1 ++ (cl, Op.updateCollateralConfigs cs) :: l2 ∧ (r, w) ∈ cs := by
  induction l using List.reverseRecOn with
  | nil => cases h
  | append_singleton l x ih =>
    obtain ⟨cl, op⟩ := x
    unfold Settings.after at h ih
    rw [List.foldl_append] at h
    simp only [List.foldl_cons, List.foldl_nil] at h
    have old : (List.foldl (fun S x => S.write x.2) (Settings.atBirth b) l).collaterals r = some w →
        ∃ l1 cl' cs l2, l ++ [(cl, op)] = l1 ++ (cl', Op.updateCollateralConfigs cs) :: l2 ∧ (r, w) ∈ cs := by
      intro e
      obtain ⟨l1, cl', cs, l2, rfl, h1⟩ := ih e
      exact ⟨l1, cl', cs, l2 ++ [(cl, op)], by simp, h1⟩
    cases op
    case updateCollateralConfigs cs =>
      change ((lastAbout Prod.fst r cs).map Prod.snd).or _ = _ at h
      cases hl : lastAbout Prod.fst r cs with
      | none => rw [hl, Option.map_none, Option.none_or] at h; exact old h
      | some w' =>
        rw [hl] at h
        simp only [Option.map_some, Option.some_or, Option.some.injEq] at h
        subst h
        unfold lastAbout at hl
        obtain ⟨h1, h2⟩ := List.mem_filter.mp (List.mem_of_getLast? hl)
        simp only [decide_eq_true_eq] at h2
        subst h2
        exact ⟨l, cl, cs, [], rfl, h1⟩
    case removeCollateralConfig r' =>
      change (if r = r' then none else _) = _ at h
      split at h
      · cases h
      · exact old h
    all_goals exact old h

theorem deposit_accepted {env : Env} {s s1 : State} {v : VAccount} {oath : Option Bucket} {tokens : List Bucket} {w : W}
    (h : depositTokens env s v oath tokens = Except.ok (s1, w)) {t : Bucket} (ht : t ∈ tokens) (hb : t.res ≠ BASE) :
    ∃ x, s.config.collaterals.get t.res = some x := by
  obtain ⟨cfg, ids, w0, hc, ha, -⟩ := depositTokens_ok h
  obtain ⟨w1, acc, -, hall, -⟩ := addCollateral_ok ha
  have := hall t ht hb
  rw [(VConfig.new_ok hc).2.1] at this
  obtain ⟨y, hy⟩ := AMap.has_iff.mp this
  rw [AMap.get_mapV, Option.map_eq_some_iff] at hy
  obtain ⟨x, hx, -⟩ := hy
  exact ⟨x, hx⟩

theorem balanceSubs_get : ∀ {bs : List Bucket} {m m' : AMap Res Dec}, balanceSubBatch m bs = Except.ok m' → ∀ r x,
    m'.get r = some x → ∃ y, m.get r = some y := by
  intro bs
  unfold balanceSubBatch
  induction bs with
  | nil => intro m m' h r x hx; simp only [List.foldlM_nil, pure_ok] at h; subst h; exact ⟨x, hx⟩
  | cons b bs ih =>
    intro m m' h r x hx
    simp only [List.foldlM_cons, bind_ok] at h
    obtain ⟨m1, h1, h2⟩ := h
    obtain ⟨y, hy⟩ := ih h2 r x hx
    obtain ⟨z, hz, hg⟩ := balanceSub_get h1
    rw [hg] at hy
    split at hy
    · rename_i e; subst e; exact ⟨z, hz⟩
    · exact ⟨y, hy⟩

/-- Where a kind of collateral an account holds after a call comes from: it held it before, or it is deposited now and accepted. -/
theorem collateral_origin {env : Env} {cl : Caller} {s s' : State} {op : Op} {o : Out} {a : Addr} {acc' : Account} {r : Res} {x : Dec}
    (h : step env cl s op = Except.ok (s', o)) (ha' : s'.accounts.get a = some acc') (hx : acc'.collateralBalances.get r = some x) :
    (∃ acc y, s.accounts.get a = some acc ∧ acc.collateralBalances.get r = some y) ∨
    ∃ c, s.config.collaterals.get r = some c := by
  by_cases hop : op.account = some a
  swap
  · left
    rw [body_accounts (step_body h) a hop] at ha'
    exact ⟨acc', x, ha', hx⟩
  cases hg : s.accounts.get a with
  | some acc =>
    obtain ⟨acc2, h1, h2⟩ := body_collateral (step_body h) hop hg
    rw [ha'] at h1; cases h1
    cases h2 with
    | same e _ _ => left; exact ⟨acc, x, rfl, by rw [← e]; exact hx⟩
    | take cs bs y _ e _ =>
      left
      obtain ⟨z, hz⟩ := balanceSubs_get e.comp r x hx
      exact ⟨acc, z, rfl, hz⟩
    | put oath t y e _ =>
      subst e
      obtain ⟨v, s1, w, acc2, refs, -, hv, -, hd, hr, he, ho⟩ := opAddCollateral_ok (step_body h)
      obtain ⟨e1, e2, e3, e4⟩ := deposit_exact hv hg hd hr
      have : s'.accounts.get a = some acc2 := by
        rw [he, e1]; exact AMap.get_set_self ..
      rw [ha'] at this; cases this
      have e5 := e4 r
      rw [hx] at e5
      split at e5
      · rename_i hb
        obtain ⟨hb, t', ht, rfl⟩ := hb
        exact Or.inr (deposit_accepted hd ht hb)
      · exact Or.inl ⟨acc, x, rfl, e5.symm⟩
  | none =>
    right
    cases op <;> simp only [Op.account, Option.some.injEq, reduceCtorEq] at hop <;> subst hop
    case createAccount a' oath rule tokens code =>
      obtain ⟨s0, rid, extra, s1, v, s2, w, acc2, refs, -, hn, hc, rfl, hv, hd, hr, he, ho⟩ := createAccount_ok (step_body h)
      obtain ⟨e1, e2, e3, e4⟩ := deposit_exact hv (AMap.get_set_self _ _ _) hd hr
      have : s'.accounts.get a' = some acc2 := by
        rw [he, e1]; exact AMap.get_set_self ..
      rw [ha'] at this; cases this
      have e5 := e4 r
      rw [hx] at e5
      split at e5
      · rename_i hb
        obtain ⟨hb, t', ht, rfl⟩ := hb
        have e6 := deposit_accepted hd ht hb
        have e7 : s0.config = s.config := by
          rcases claimCode_ok hc with ⟨-, -, -, e⟩ | ⟨c, g, r, -, -, -, e⟩ <;> rw [e]
        rw [← e7]; exact e6
      · rw [show (Account.fresh rule rid).collateralBalances = AMap.empty from rfl, AMap.get_empty] at e5
        cases e5
    all_goals
      exfalso
      rcases body_account (step_body h) rfl with ⟨-, -, acc0, h0⟩ | ⟨_, _, _, ⟨_, _, _, h0⟩, -⟩
      · rw [hg] at h0; cases h0
      · cases h0

/-- **C68, accepted first.** If an account records a balance of a resource as collateral, then the owner has listed that resource as
collateral before. -/
theorem c68_accepted {env : Env} {b : Birth} {s0 s : State} {l : List (Caller × Op)} {a : Addr} {acc : Account}
    {r : Res} {x : Dec} (hd : deploy b = Except.ok s0) (hn : I64MIN ≤ b.now ∧ b.now ≤ I64MAX) (h : Ran env s0 l s)
    (ha : s.accounts.get a = some acc) (hx : acc.collateralBalances.get r = some x) :
    ∃ l1 cl cs l2 w, l = l1 ++ (cl, Op.updateCollateralConfigs cs) :: l2 ∧ b.owner.sat cl.pf = true ∧ (r, w) ∈ cs := by
  induction h generalizing acc x with
  | nil =>
    rw [((c68_deploy b).2 s0 hd hn).1.accounts, AMap.get_empty] at ha
    cases ha
  | @snoc l s1 s2 cl op o hr hs ih =>
    rcases collateral_origin hs ha hx with ⟨acc', y, h1, h2⟩ | ⟨c, hc⟩
    · obtain ⟨l1, cl', cs, l2, w, rfl, h3⟩ := ih h1 h2
      exact ⟨l1, cl', cs, l2 ++ [(cl, op)], w, by simp, h3⟩
    · have hs' := since hd hn hr
      have hq := hs'.shows_.collaterals r
      cases hw : ((Settings.atBirth b).after l).collaterals r with
      | none => rw [hw, hc] at hq; cases hq
      | some w =>
        obtain ⟨l1, cl', cs, l2, rfl, h3⟩ := collaterals_written hw
        exact ⟨l1, cl', cs, l2 ++ [(cl, op)], w, by simp, c68_writers hd hn hr, h3⟩

end Perp
