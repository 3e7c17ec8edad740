import Verif.Types

/-!
# Configuration: validation, compression, decompression, updates

config/src/config.rs and config/src/config/structs.rs
-/

namespace Perp

namespace AMap
variable {K V : Type} [DecidableEq K]

/-- `ids.into_iter().map(|k| (k, f(k))).collect()` into a map, where `f` may panic. -/
def buildM (f : K → R V) : List K → R (AMap K V)
  | [] => .ok empty
  | k :: ks => do
      let v ← f k
      let m ← buildM f ks
      pure (m.set k v)

/-- The same for a function that cannot panic. -/
def build (f : K → V) : List K → AMap K V
  | [] => empty
  | k :: ks => (build f ks).set k (f k)

theorem get_build (f : K → V) (ks : List K) (k : K) :
    (build f ks).get k = if k ∈ ks then some (f k) else none := by
  induction ks with
  | nil => simp [build]
  | cons a ks ih =>
    simp only [build, get_set, ih, List.mem_cons]
    by_cases h : a = k
    · subst h; simp
    · have : ¬ k = a := fun e => h e.symm
      simp [h, this]

theorem buildM_ok {f : K → R V} {ks : List K} {m : AMap K V} (h : buildM f ks = Except.ok m) :
    (∀ k ∈ ks, ∃ v, f k = Except.ok v ∧ m.get k = some v) ∧ (∀ k, k ∉ ks → m.get k = none) := by
  induction ks generalizing m with
  | nil =>
    simp only [buildM, Except.ok.injEq] at h
    subst h; simp
  | cons a ks ih =>
    simp only [buildM, bind_ok, pure_ok] at h
    obtain ⟨v, hv, m', hm', rfl⟩ := h
    obtain ⟨h1, h2⟩ := ih hm'
    constructor
    · intro k hk
      by_cases e : a = k
      · subst e; exact ⟨v, hv, by simp⟩
      · have : k ∈ ks := by
          rcases List.mem_cons.mp hk with rfl | h
          · exact absurd rfl e
          · exact h
        obtain ⟨w, hw, hg⟩ := h1 k this
        exact ⟨w, hw, by rw [get_set_ne _ _ e]; exact hg⟩
    · intro k hk
      simp only [List.mem_cons, not_or] at hk
      rw [get_set_ne _ _ (fun e => hk.1 e.symm)]
      exact h2 k hk.2

theorem buildM_get {f : K → R V} {ks : List K} {m : AMap K V} (h : buildM f ks = Except.ok m)
    {k : K} {v : V} (hg : m.get k = some v) : k ∈ ks ∧ f k = Except.ok v := by
  obtain ⟨h1, h2⟩ := buildM_ok h
  by_cases hk : k ∈ ks
  · obtain ⟨w, hw, hg'⟩ := h1 k hk
    rw [hg] at hg'; cases hg'
    exact ⟨hk, hw⟩
  · rw [h2 k hk] at hg; cases hg

end AMap

/-- Attos of a decimal literal `n/10^k`; used to write the `dec!(..)` constants. -/
def decLit (n : Int) (k : Nat) : Dec := n * 10 ^ (18 - k)

/-! ## Exchange configuration -/

/-- `ExchangeConfig::default()`: config/src/config/structs.rs:96-116 -/
def ExchangeConfig.dflt : ExchangeConfig where
  positionsMax := 30
  collateralsMax := 5
  activeRequestsMax := 100
  skewRatioCap := decLit 15 2
  adlOffset := decLit 2 1
  adlA := decLit 7 2
  adlB := decLit 7 2
  feeLiquidityAdd := decLit 1 3
  feeLiquidityRemove := decLit 1 3
  feeShareProtocol := decLit 22 2
  feeShareTreasury := decLit 8 2
  feeShareReferral := decLit 1 0
  feeMax := decLit 1 2
  protocolBurnAmount := decLit 10000 0
  rewardKeeper := decLit 1 0

/-- `ExchangeConfig::validate`: config/src/config/structs.rs:119-133 -/
def ExchangeConfig.validate (c : ExchangeConfig) : Bool :=
  decide (c.positionsMax > 0 ∧ 0 ≤ c.skewRatioCap ∧ 0 ≤ c.adlOffset ∧ 0 ≤ c.adlA ∧ 0 ≤ c.adlB ∧
    0 ≤ c.feeLiquidityAdd ∧ 0 ≤ c.feeLiquidityRemove ∧
    (0 ≤ c.feeShareProtocol ∧ c.feeShareProtocol ≤ decLit 3 1) ∧
    (0 ≤ c.feeShareTreasury ∧ c.feeShareTreasury ≤ decLit 15 2) ∧
    (0 ≤ c.feeShareReferral ∧ c.feeShareReferral ≤ decLit 1 0) ∧
    0 ≤ c.feeMax ∧ decLit 1000 0 ≤ c.protocolBurnAmount ∧ 0 ≤ c.rewardKeeper)

/-- `ExchangeConfig::compress`: config/src/config/structs.rs:135-153 -/
def ExchangeConfig.compress (c : ExchangeConfig) : R ExchangeConfigC := do
  let skewRatioCap ← DFloat.ofDec c.skewRatioCap
  let adlOffset ← DFloat.ofDec c.adlOffset
  let adlA ← DFloat.ofDec c.adlA
  let adlB ← DFloat.ofDec c.adlB
  let feeLiquidityAdd ← DFloat.ofDec c.feeLiquidityAdd
  let feeLiquidityRemove ← DFloat.ofDec c.feeLiquidityRemove
  let feeShareProtocol ← DFloat.ofDec c.feeShareProtocol
  let feeShareTreasury ← DFloat.ofDec c.feeShareTreasury
  let feeShareReferral ← DFloat.ofDec c.feeShareReferral
  let feeMax ← DFloat.ofDec c.feeMax
  let protocolBurnAmount ← DFloat.ofDec c.protocolBurnAmount
  let keeperReward ← DFloat.ofDec c.rewardKeeper
  pure { positionsMax := c.positionsMax, collateralsMax := c.collateralsMax,
         activeRequestsMax := c.activeRequestsMax, skewRatioCap, adlOffset, adlA, adlB,
         feeLiquidityAdd, feeLiquidityRemove, feeShareProtocol, feeShareTreasury,
         feeShareReferral, feeMax, protocolBurnAmount, keeperReward }

/-- `ExchangeConfigCompressed::decompress`: config/src/config/structs.rs:157-175 -/
def ExchangeConfigC.decompress (c : ExchangeConfigC) : ExchangeConfig where
  positionsMax := c.positionsMax
  collateralsMax := c.collateralsMax
  activeRequestsMax := c.activeRequestsMax
  skewRatioCap := c.skewRatioCap.toDec
  adlOffset := c.adlOffset.toDec
  adlA := c.adlA.toDec
  adlB := c.adlB.toDec
  feeLiquidityAdd := c.feeLiquidityAdd.toDec
  feeLiquidityRemove := c.feeLiquidityRemove.toDec
  feeShareProtocol := c.feeShareProtocol.toDec
  feeShareTreasury := c.feeShareTreasury.toDec
  feeShareReferral := c.feeShareReferral.toDec
  feeMax := c.feeMax.toDec
  protocolBurnAmount := c.protocolBurnAmount.toDec
  rewardKeeper := c.keeperReward.toDec

/-! ## Pair configuration -/

/-- `PairConfig::validate`: config/src/config/structs.rs:255-272 -/
def PairConfig.validate (c : PairConfig) : Bool :=
  decide (c.priceAgeMax > 0 ∧ 0 ≤ c.oiMax ∧ 0 ≤ c.tradeSizeMin ∧ 0 < c.updatePriceDeltaRatio ∧
    c.updatePeriodSeconds > 0 ∧
    (0 ≤ c.marginInitial ∧ c.marginInitial ≤ decLit 1 0) ∧
    (0 ≤ c.marginMaintenance ∧ c.marginMaintenance ≤ decLit 1 0 ∧
      c.marginMaintenance ≤ c.marginInitial) ∧
    (0 ≤ c.funding1 ∧ c.funding1 ≤ decLit 2 0) ∧
    (0 ≤ c.funding2 ∧ c.funding2 ≤ decLit 4 0) ∧
    (0 ≤ c.funding2Delta ∧ c.funding2Delta ≤ decLit 10000 0) ∧
    0 ≤ c.funding2Decay ∧
    (0 ≤ c.fundingPool0 ∧ c.fundingPool0 ≤ decLit 1 0) ∧
    (0 ≤ c.fundingPool1 ∧ c.fundingPool1 ≤ decLit 2 0) ∧
    (0 ≤ c.fundingShare ∧ c.fundingShare ≤ decLit 1 1) ∧
    (0 ≤ c.fee0 ∧ c.fee0 ≤ decLit 15 3) ∧
    (0 ≤ c.fee1 ∧ c.fee1 ≤ decLit 1 6))

/-- `PairConfig::compress`: config/src/config/structs.rs:274-294.  `as u16` wraps. -/
def PairConfig.compress (c : PairConfig) : R PairConfigC := do
  let oiMax ← DFloat.ofDec c.oiMax
  let tradeSizeMin ← DFloat.ofDec c.tradeSizeMin
  let updatePriceDeltaRatio ← DFloat.ofDec c.updatePriceDeltaRatio
  let marginInitial ← DFloat.ofDec c.marginInitial
  let marginMaintenance ← DFloat.ofDec c.marginMaintenance
  let funding1 ← DFloat.ofDec c.funding1
  let funding2 ← DFloat.ofDec c.funding2
  let funding2Delta ← DFloat.ofDec c.funding2Delta
  let funding2Decay ← DFloat.ofDec c.funding2Decay
  let fundingPool0 ← DFloat.ofDec c.fundingPool0
  let fundingPool1 ← DFloat.ofDec c.fundingPool1
  let fundingShare ← DFloat.ofDec c.fundingShare
  let fee0 ← DFloat.ofDec c.fee0
  let fee1 ← DFloat.ofDec c.fee1
  pure { pairId := c.pairId, priceAgeMax := i64AsU16 c.priceAgeMax, oiMax, tradeSizeMin,
         updatePriceDeltaRatio, updatePeriodSeconds := i64AsU16 c.updatePeriodSeconds,
         marginInitial, marginMaintenance, funding1, funding2, funding2Delta, funding2Decay,
         fundingPool0, fundingPool1, fundingShare, fee0, fee1 }

/-- `PairConfigCompressed::decompress`: config/src/config/structs.rs:298-318 -/
def PairConfigC.decompress (c : PairConfigC) : PairConfig where
  pairId := c.pairId
  priceAgeMax := c.priceAgeMax
  oiMax := c.oiMax.toDec
  tradeSizeMin := c.tradeSizeMin.toDec
  updatePriceDeltaRatio := c.updatePriceDeltaRatio.toDec
  updatePeriodSeconds := c.updatePeriodSeconds
  marginInitial := c.marginInitial.toDec
  marginMaintenance := c.marginMaintenance.toDec
  funding1 := c.funding1.toDec
  funding2 := c.funding2.toDec
  funding2Delta := c.funding2Delta.toDec
  funding2Decay := c.funding2Decay.toDec
  fundingPool0 := c.fundingPool0.toDec
  fundingPool1 := c.fundingPool1.toDec
  fundingShare := c.fundingShare.toDec
  fee0 := c.fee0.toDec
  fee1 := c.fee1.toDec

/-! ## Collateral configuration -/

/-- `CollateralConfig::validate`: config/src/config/structs.rs:346-350 -/
def CollateralConfig.validate (c : CollateralConfig) : Bool :=
  decide (c.priceAgeMax > 0 ∧ (decLit 8 1 ≤ c.discount ∧ c.discount ≤ decLit 1 0) ∧
    (0 ≤ c.margin ∧ c.margin ≤ decLit 1 1))

/-- `CollateralConfig::compress`: config/src/config/structs.rs:352-359 -/
def CollateralConfig.compress (c : CollateralConfig) : R CollateralConfigC := do
  let discount ← DFloat.ofDec c.discount
  let margin ← DFloat.ofDec c.margin
  pure { pairId := c.pairId, priceAgeMax := i64AsU16 c.priceAgeMax, discount, margin }

/-- `CollateralConfigCompressed::decompress`: config/src/config/structs.rs:363-370 -/
def CollateralConfigC.decompress (c : CollateralConfigC) : CollateralConfig where
  pairId := c.pairId
  priceAgeMax := c.priceAgeMax
  discount := c.discount.toDec
  margin := c.margin.toDec

/-! ## The Config component -/

/-- `Config::update_exchange_config`: config/src/config.rs:89-92 -/
def Config.updateExchange (c : Config) (x : ExchangeConfig) : R Config := do
  require x.validate .invalidConfig
  let xc ← x.compress
  pure { c with exchange := xc }

/-- One iteration of the loop of config.rs:95-98 -/
def Config.updatePair (c : Config) (x : PairConfig) : R Config := do
  require x.validate .invalidConfig
  let xc ← x.compress
  pure { c with pairs := c.pairs.set x.pairId xc }

/-- `Config::update_pair_configs`: config/src/config.rs:94-99 -/
def Config.updatePairs (c : Config) (xs : List PairConfig) : R Config :=
  xs.foldlM Config.updatePair c

/-- One element of config.rs:101-106.  The code validates all entries first and then compresses and
inserts them; as a failure aborts the whole call, checking one by one is equivalent. -/
def Config.updateCollateral (c : Config) (e : Res × CollateralConfig) : R Config := do
  require e.2.validate .invalidConfig
  let xc ← e.2.compress
  pure { c with collaterals := c.collaterals.set e.1 xc }

/-- `Config::update_collateral_configs`: config/src/config.rs:101-106 -/
def Config.updateCollaterals (c : Config) (xs : List (Res × CollateralConfig)) : R Config :=
  xs.foldlM Config.updateCollateral c

/-- `Config::remove_collateral_config`: config/src/config.rs:108-110 -/
def Config.removeCollateral (c : Config) (r : Res) : Config :=
  { c with collaterals := c.collaterals.erase r }

/-! ## VirtualConfig — exchange/src/exchange/virtual_config.rs -/

/-- virtual_config.rs:7-11 -/
structure VConfig where
  ex : ExchangeConfig
  pairs : AMap PairId PairConfig
  colls : AMap Res CollateralConfig

/-- Effective configuration of a pair, as loaded by `get_info` + `decompress`. -/
def Config.pair (c : Config) (p : PairId) : R PairConfig := do
  let x ← expect (c.pairs.get p) .missingPairConfig
  pure x.decompress

/-- `VirtualConfig::new`: virtual_config.rs:14-26 with config.rs:60-83 and structs.rs:18-26 -/
def VConfig.new (c : Config) (ids : List PairId) : R VConfig := do
  let pairs ← AMap.buildM c.pair ids
  pure { ex := c.exchange.decompress, pairs, colls := c.collaterals.mapV (fun _ x => x.decompress) }

/-- `VirtualConfig::pair_config`: virtual_config.rs:32-37 -/
def VConfig.pair (c : VConfig) (p : PairId) : R PairConfig := expect (c.pairs.get p) .missingPairConfig

end Perp
