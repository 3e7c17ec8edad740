import Verif.Admin
import Verif.DFloatProps
import Verif.Scenario

/-!
# C46: the configuration in force

`update_exchange_config`, `update_pair_configs` and `update_collateral_configs` validate the submitted values and then
store a 16-bit compression of them; what the exchange uses afterwards is the decompressed value.  This file shows which
validated bounds hold for the values in force.
-/

namespace Perp

/-- Only values far inside the range of a `Decimal` can be compressed. -/
theorem ofDec_inRange {v : Dec} {f : DFloat} (h : DFloat.ofDec v = Except.ok f) : InRange v = true := by
  by_cases hv : v = 0
  · subst hv; decide
  have hp : pos10 v ≤ 34 := by
    unfold DFloat.ofDec at h
    rw [if_neg hv] at h
    simp only at h
    split at h
    all_goals
      unfold DFloat.mk' at h
      split at h
      · omega
      · cases h
  have hb : bitLen v.natAbs ≤ 120 := by
    unfold pos10 at hp
    omega
  have h2 := (bitLen_bounds (Int.natAbs_ne_zero.mpr hv)).2
  have h3 : v.natAbs < 2 ^ 120 := lt_of_lt_of_le h2 (Nat.pow_le_pow_right (by norm_num) hb)
  rw [inRange_iff]
  unfold DMIN DMAX
  have : (2:Nat) ^ 120 < 2 ^ 190 := by norm_num
  omega

/-- Compression of a non-negative value: between zero and the value. -/
theorem ofDec_between {v : Dec} {f : DFloat} (h : DFloat.ofDec v = Except.ok f) (h0 : 0 ≤ v) :
    0 ≤ f.toDec ∧ f.toDec ≤ v := by
  obtain ⟨h1, h2, -⟩ := c45_magnitude (ofDec_inRange h) h
  have := h2 h0
  rw [abs_of_nonneg this, abs_of_nonneg h0] at h1
  exact ⟨this, h1⟩

theorem ofDec_pos {v : Dec} {f : DFloat} (h : DFloat.ofDec v = Except.ok f) (h0 : 0 < v) : 0 < f.toDec := by
  have h1 := (ofDec_between h h0.le).1
  have h2 := (c45_precision (ofDec_inRange h) (by omega) h).2
  omega

/-- Compression of a non-negative value loses less than one hundredth of it. -/
theorem ofDec_lower {v : Dec} {f : DFloat} (h : DFloat.ofDec v = Except.ok f) (h0 : 0 ≤ v) :
    99 * v ≤ 100 * f.toDec := by
  rcases eq_or_lt_of_le h0 with h1 | h1
  · subst h1; rw [ofDec_zero h]; norm_num
  · have h2 := (c45_precision (ofDec_inRange h) (by omega) h).1
    have h3 := ofDec_between h h0
    rw [abs_of_nonneg h0, abs_of_nonneg h3.1] at h2
    omega

/-! ## Exchange configuration -/

theorem exchange_validated {c : ExchangeConfig} {x : ExchangeConfigC} (hv : c.validate = true)
    (h : c.compress = Except.ok x) : x.decompress.validate = true := by
  simp only [ExchangeConfig.validate, decide_eq_true_eq] at hv ⊢
  obtain ⟨h1, h2, h3, h4, h5, h6, h7, ⟨h8, h8'⟩, ⟨h9, h9'⟩, ⟨h10, h10'⟩, h11, h12, h13⟩ := hv
  simp only [ExchangeConfig.compress, bind_ok, pure_ok] at h
  obtain ⟨_, k2, _, k3, _, k4, _, k5, _, k6, _, k7, _, k8, _, k9, _, k10, _, k11, _, k12, _, k13, rfl⟩ := h
  have g12 := ofDec_ge (ofDec_inRange k12) (m := 1) (k := 21) (by norm_num)
    (le_trans (by norm_num [decLit]) h12) k12
  refine ⟨h1, (ofDec_between k2 h2).1, (ofDec_between k3 h3).1, (ofDec_between k4 h4).1, (ofDec_between k5 h5).1,
    (ofDec_between k6 h6).1, (ofDec_between k7 h7).1,
    ⟨(ofDec_between k8 h8).1, (ofDec_between k8 h8).2.trans h8'⟩,
    ⟨(ofDec_between k9 h9).1, (ofDec_between k9 h9).2.trans h9'⟩,
    ⟨(ofDec_between k10 h10).1, (ofDec_between k10 h10).2.trans h10'⟩,
    (ofDec_between k11 h11).1, le_trans (by norm_num [decLit]) g12, (ofDec_between k13 h13).1⟩

/-! ## Pair configurations -/

/-- The bounds `PairConfig::validate` checks that survive compression: all but the positive ages and the order of the
two margins. -/
structure PairConfig.Bounded (c : PairConfig) : Prop where
  age : 0 ≤ c.priceAgeMax ∧ c.priceAgeMax ≤ 65535
  period : 0 ≤ c.updatePeriodSeconds ∧ c.updatePeriodSeconds ≤ 65535
  oiMax : 0 ≤ c.oiMax
  tradeSizeMin : 0 ≤ c.tradeSizeMin
  deltaRatio : 0 < c.updatePriceDeltaRatio
  initial : 0 ≤ c.marginInitial ∧ c.marginInitial ≤ decLit 1 0
  maintenance : 0 ≤ c.marginMaintenance ∧ c.marginMaintenance ≤ decLit 1 0
  funding1 : 0 ≤ c.funding1 ∧ c.funding1 ≤ decLit 2 0
  funding2 : 0 ≤ c.funding2 ∧ c.funding2 ≤ decLit 4 0
  funding2Delta : 0 ≤ c.funding2Delta ∧ c.funding2Delta ≤ decLit 10000 0
  funding2Decay : 0 ≤ c.funding2Decay
  fundingPool0 : 0 ≤ c.fundingPool0 ∧ c.fundingPool0 ≤ decLit 1 0
  fundingPool1 : 0 ≤ c.fundingPool1 ∧ c.fundingPool1 ≤ decLit 2 0
  fundingShare : 0 ≤ c.fundingShare ∧ c.fundingShare ≤ decLit 1 1
  fee0 : 0 ≤ c.fee0 ∧ c.fee0 ≤ decLit 15 3
  fee1 : 0 ≤ c.fee1 ∧ c.fee1 ≤ decLit 1 6

/-- How the values in force relate to the submitted ones: ages are taken modulo 2^16 and every decimal loses less than
one hundredth. -/
structure PairConfig.Rounded (c : PairConfig) (x : PairConfig) : Prop where
  pair : x.pairId = c.pairId
  age : x.priceAgeMax = c.priceAgeMax % 65536
  period : x.updatePeriodSeconds = c.updatePeriodSeconds % 65536
  initial : x.marginInitial ≤ c.marginInitial ∧ 99 * c.marginInitial ≤ 100 * x.marginInitial
  maintenance : x.marginMaintenance ≤ c.marginMaintenance ∧ 99 * c.marginMaintenance ≤ 100 * x.marginMaintenance
  oiMax : x.oiMax ≤ c.oiMax ∧ 99 * c.oiMax ≤ 100 * x.oiMax
  fee0 : x.fee0 ≤ c.fee0 ∧ 99 * c.fee0 ≤ 100 * x.fee0
  fee1 : x.fee1 ≤ c.fee1 ∧ 99 * c.fee1 ≤ 100 * x.fee1
  same : c.marginMaintenance = c.marginInitial → x.marginMaintenance = x.marginInitial

theorem i64AsU16_eq (x : Int) : ((i64AsU16 x : Nat) : Int) = x % 65536 := by
  unfold i64AsU16
  omega

theorem pair_bounded {c : PairConfig} {x : PairConfigC} (hv : c.validate = true) (h : c.compress = Except.ok x) :
    x.decompress.Bounded ∧ c.Rounded x.decompress := by
  simp only [PairConfig.validate, decide_eq_true_eq] at hv
  obtain ⟨h1, h2, h3, h4, h5, ⟨h6, h6'⟩, ⟨h7, h7', h7''⟩, ⟨h8, h8'⟩, ⟨h9, h9'⟩, ⟨h10, h10'⟩, h11, ⟨h12, h12'⟩, ⟨h13, h13'⟩,
    ⟨h14, h14'⟩, ⟨h15, h15'⟩, ⟨h16, h16'⟩⟩ := hv
  simp only [PairConfig.compress, bind_ok, pure_ok] at h
  obtain ⟨_, k2, _, k3, _, k4, _, k6, _, k7, _, k8, _, k9, _, k10, _, k11, _, k12, _, k13, _, k14, _, k15, _, k16, rfl⟩ := h
  have e1 := i64AsU16_eq c.priceAgeMax
  have e2 := i64AsU16_eq c.updatePeriodSeconds
  constructor
  · constructor <;> simp only [PairConfigC.decompress]
    · omega
    · omega
    · exact (ofDec_between k2 h2).1
    · exact (ofDec_between k3 h3).1
    · exact ofDec_pos k4 h4
    · exact ⟨(ofDec_between k6 h6).1, (ofDec_between k6 h6).2.trans h6'⟩
    · exact ⟨(ofDec_between k7 h7).1, (ofDec_between k7 h7).2.trans h7'⟩
    · exact ⟨(ofDec_between k8 h8).1, (ofDec_between k8 h8).2.trans h8'⟩
    · exact ⟨(ofDec_between k9 h9).1, (ofDec_between k9 h9).2.trans h9'⟩
    · exact ⟨(ofDec_between k10 h10).1, (ofDec_between k10 h10).2.trans h10'⟩
    · exact (ofDec_between k11 h11).1
    · exact ⟨(ofDec_between k12 h12).1, (ofDec_between k12 h12).2.trans h12'⟩
    · exact ⟨(ofDec_between k13 h13).1, (ofDec_between k13 h13).2.trans h13'⟩
    · exact ⟨(ofDec_between k14 h14).1, (ofDec_between k14 h14).2.trans h14'⟩
    · exact ⟨(ofDec_between k15 h15).1, (ofDec_between k15 h15).2.trans h15'⟩
    · exact ⟨(ofDec_between k16 h16).1, (ofDec_between k16 h16).2.trans h16'⟩
  · refine ⟨rfl, e1, e2, ⟨(ofDec_between k6 h6).2, ofDec_lower k6 h6⟩, ⟨(ofDec_between k7 h7).2, ofDec_lower k7 h7⟩,
      ⟨(ofDec_between k2 h2).2, ofDec_lower k2 h2⟩, ⟨(ofDec_between k15 h15).2, ofDec_lower k15 h15⟩,
      ⟨(ofDec_between k16 h16).2, ofDec_lower k16 h16⟩, ?_⟩
    intro he
    simp only [PairConfigC.decompress]
    rw [he, k6] at k7
    cases k7; rfl

/-! ## Collateral configurations -/

/-- The bounds `CollateralConfig::validate` checks that survive compression: all but the positive age. -/
structure CollateralConfig.Bounded (c : CollateralConfig) : Prop where
  age : 0 ≤ c.priceAgeMax ∧ c.priceAgeMax ≤ 65535
  discount : decLit 8 1 ≤ c.discount ∧ c.discount ≤ decLit 1 0
  margin : 0 ≤ c.margin ∧ c.margin ≤ decLit 1 1

theorem coll_bounded {c : CollateralConfig} {x : CollateralConfigC} (hv : c.validate = true)
    (h : c.compress = Except.ok x) : x.decompress.Bounded := by
  simp only [CollateralConfig.validate, decide_eq_true_eq] at hv
  obtain ⟨h1, ⟨h2, h2'⟩, ⟨h3, h3'⟩⟩ := hv
  simp only [CollateralConfig.compress, bind_ok, pure_ok] at h
  obtain ⟨_, k2, _, k3, rfl⟩ := h
  have e1 := i64AsU16_eq c.priceAgeMax
  have g := ofDec_ge (ofDec_inRange k2) (m := 8) (k := 17) (by norm_num) (le_trans (by norm_num [decLit]) h2) k2
  have h2p : 0 ≤ c.discount := le_trans (by norm_num [decLit]) h2
  constructor <;> simp only [CollateralConfigC.decompress]
  · omega
  · exact ⟨le_trans (by norm_num [decLit]) g, (ofDec_between k2 h2p).2.trans h2'⟩
  · exact ⟨(ofDec_between k3 h3).1, (ofDec_between k3 h3).2.trans h3'⟩

/-! ## Reachable configurations -/

structure Config.InForce (c : Config) : Prop where
  exchange : c.exchange.decompress.validate = true
  pairs : ∀ p x, c.pairs.get p = some x → x.decompress.pairId = p ∧ x.decompress.Bounded ∧
    ∃ y : PairConfig, y.validate = true ∧ y.compress = Except.ok x
  colls : ∀ r x, c.collaterals.get r = some x → x.decompress.Bounded

theorem updatePairs_inForce {xs : List PairConfig} : ∀ {c c' : Config}, c.updatePairs xs = Except.ok c' → c.InForce →
    c'.InForce := by
  unfold Config.updatePairs
  induction xs with
  | nil => intro c c' h h0; simp only [List.foldlM_nil, pure_ok] at h; rw [← h]; exact h0
  | cons x xs ih =>
    intro c c' h h0
    simp only [List.foldlM_cons, bind_ok, Config.updatePair, require_ok, pure_ok] at h
    obtain ⟨c1, ⟨-, hv, y, hy, rfl⟩, h⟩ := h
    refine ih h ⟨h0.exchange, ?_, h0.colls⟩
    intro p z hz
    by_cases hp : x.pairId = p
    · subst hp
      simp only [AMap.get_set_self, Option.some.injEq] at hz
      subst hz
      obtain ⟨b1, b2⟩ := pair_bounded hv hy
      exact ⟨b2.pair, b1, x, hv, hy⟩
    · simp only [AMap.get_set_ne _ _ hp] at hz
      exact h0.pairs p z hz

theorem updateCollaterals_inForce {xs : List (Res × CollateralConfig)} : ∀ {c c' : Config},
    c.updateCollaterals xs = Except.ok c' → c.InForce → c'.InForce := by
  unfold Config.updateCollaterals
  induction xs with
  | nil => intro c c' h h0; simp only [List.foldlM_nil, pure_ok] at h; rw [← h]; exact h0
  | cons x xs ih =>
    intro c c' h h0
    simp only [List.foldlM_cons, bind_ok, Config.updateCollateral, require_ok, pure_ok] at h
    obtain ⟨c1, ⟨-, hv, y, hy, rfl⟩, h⟩ := h
    refine ih h ⟨h0.exchange, h0.pairs, ?_⟩
    intro p z hz
    by_cases hp : x.1 = p
    · subst hp
      simp only [AMap.get_set_self, Option.some.injEq] at hz
      subst hz
      exact coll_bounded hv hy
    · simp only [AMap.get_set_ne _ _ hp] at hz
      exact h0.colls p z hz

theorem reach_inForce {env : Env} {s : State} (h : Reach env s) : s.config.InForce := by
  refine Reach.induct (P := fun s => s.config.InForce) (env := env) ?_ ?_ h
  · intro s g
    refine ⟨exchange_validated (c := ExchangeConfig.dflt) (by decide +kernel) g.exchangeConfig, ?_, ?_⟩
    · intro p x hx; rw [g.config.1] at hx; simp at hx
    · intro p x hx; rw [g.config.2] at hx; simp at hx
  · intro s s' cl op o h0 hb
    rcases (body_admin hb).config with e | ⟨c, -, e⟩ | ⟨c, -, e⟩ | ⟨c, -, e⟩ | ⟨r, -, e⟩
    · rw [e]; exact h0
    · simp only [Config.updateExchange, bind_ok, require_ok, pure_ok] at e
      obtain ⟨-, hv, x, hx, e⟩ := e
      rw [← e]
      exact ⟨exchange_validated hv hx, h0.pairs, h0.colls⟩
    · exact updatePairs_inForce e h0
    · exact updateCollaterals_inForce e h0
    · rw [e]
      refine ⟨h0.exchange, h0.pairs, ?_⟩
      intro q x hx
      simp only [Config.removeCollateral, AMap.get_erase] at hx
      split at hx
      · cases hx
      · exact h0.colls q x hx

/-- **C46, exchange-wide parameters.** In every reachable state the exchange configuration in force passes the validation
that guards updates. -/
theorem c46_exchange_in_force {env : Env} {s : State} (h : Reach env s) :
    let c := s.config.exchange.decompress
    0 < c.positionsMax ∧ 0 ≤ c.skewRatioCap ∧ 0 ≤ c.adlOffset ∧ 0 ≤ c.adlA ∧ 0 ≤ c.adlB ∧
    0 ≤ c.feeLiquidityAdd ∧ 0 ≤ c.feeLiquidityRemove ∧
    0 ≤ c.feeShareProtocol ∧ 100 * c.feeShareProtocol ≤ 30 * ONE ∧
    0 ≤ c.feeShareTreasury ∧ 100 * c.feeShareTreasury ≤ 15 * ONE ∧
    0 ≤ c.feeShareReferral ∧ c.feeShareReferral ≤ ONE ∧
    0 ≤ c.feeMax ∧ 1000 * ONE ≤ c.protocolBurnAmount ∧ 0 ≤ c.rewardKeeper := by
  intro c
  have hv : c.validate = true := (reach_inForce h).exchange
  rw [ExchangeConfig.validate, decide_eq_true_eq] at hv
  clear_value c
  simp only [decLit, ONE] at hv ⊢
  omega

/-- **C46, collaterals (partial).** In every reachable state a configured collateral has a discount between 80% and 100%
and a margin between 0 and 10%.  Not included: a positive price age (see `c46_ages_wrap`). -/
theorem c46_collateral_in_force_partial {env : Env} {s : State} (h : Reach env s) {r : Res} {x : CollateralConfigC}
    (hx : s.config.collaterals.get r = some x) :
    80 * ONE ≤ 100 * x.decompress.discount ∧ x.decompress.discount ≤ ONE ∧
    0 ≤ x.decompress.margin ∧ 100 * x.decompress.margin ≤ 10 * ONE ∧
    0 ≤ x.decompress.priceAgeMax ∧ x.decompress.priceAgeMax ≤ 65535 := by
  have := (reach_inForce h).colls r x hx
  obtain ⟨h1, h2, h3⟩ := this
  simp only [decLit, ONE] at *
  omega

/-- **C46, pairs (partial).** In every reachable state every bound checked on the parameters of a pair holds for the
values in force, except that the price age and update period may be zero and that the maintenance margin may exceed the
initial margin — by less than a hundredth of it, and only if the submitted values were within one hundredth of each other
without being equal. -/
theorem c46_pair_in_force_partial {env : Env} {s : State} (h : Reach env s) {p : PairId} {x : PairConfigC}
    (hx : s.config.pairs.get p = some x) :
    x.decompress.pairId = p ∧ x.decompress.Bounded ∧
    99 * x.decompress.marginMaintenance ≤ 100 * x.decompress.marginInitial ∧
    ∃ y : PairConfig, y.validate = true ∧ y.Rounded x.decompress ∧
      (100 * y.marginMaintenance ≤ 99 * y.marginInitial ∨ y.marginMaintenance = y.marginInitial →
        x.decompress.marginMaintenance ≤ x.decompress.marginInitial) ∧
      (y.priceAgeMax ≤ 65535 → x.decompress.priceAgeMax = y.priceAgeMax ∧ 0 < x.decompress.priceAgeMax) ∧
      (y.updatePeriodSeconds ≤ 65535 → x.decompress.updatePeriodSeconds = y.updatePeriodSeconds ∧
        0 < x.decompress.updatePeriodSeconds) := by
  obtain ⟨h1, h2, y, hv, hy⟩ := (reach_inForce h).pairs p x hx
  obtain ⟨-, hr⟩ := pair_bounded hv hy
  simp only [PairConfig.validate, decide_eq_true_eq] at hv
  refine ⟨h1, h2, ?_, y, ?_, hr, ?_, ?_, ?_⟩
  · have := hr.initial; have := hr.maintenance; omega
  · simpa only [PairConfig.validate, decide_eq_true_eq] using hv
  · have := hr.initial; have := hr.maintenance
    rintro (h5 | h5)
    · omega
    · exact le_of_eq (hr.same h5)
  · have := hr.age; intro _; omega
  · have := hr.period; intro _; omega

/-- The scenario's state with two pairs and a collateral. -/
example : Reach Scn.env Scn.open_ ∧ (Scn.open_.config.pairs.get 1).isSome = true ∧
    (Scn.open_.config.collaterals.get 10).isSome = true := ⟨Scn.open_reach, by decide +kernel⟩

/-- A pair whose price age and update period are 65536 seconds and whose margins are 10.25% and 10.24%. -/
def oddPair : PairConfig :=
  { Scn.pairCfg 3 with priceAgeMax := 65536, updatePeriodSeconds := 65536, marginInitial := Scn.d 1025 4, marginMaintenance := Scn.d 1024 4 }

/-- **C46 fails for ages and for the order of the margins**: a reachable state in which a pair, updated with valid
values, has a price age of zero, an update period of zero and a maintenance margin above its initial margin; likewise a
collateral whose price age is zero. -/
theorem c46_ages_wrap : oddPair.validate = true ∧ ∃ s x y, Reach Scn.env s ∧ s.config.pairs.get 3 = some x ∧
    s.config.collaterals.get 10 = some y ∧
    x.decompress.priceAgeMax = 0 ∧ x.decompress.updatePeriodSeconds = 0 ∧
    x.decompress.marginInitial < x.decompress.marginMaintenance ∧ y.decompress.priceAgeMax = 0 := by
  refine ⟨by decide +kernel, Scn.after Scn.genesis [.updatePairConfigs [oddPair],
    .updateCollateralConfigs [(10, { Scn.collCfg with priceAgeMax := 131072 })]],
    (match oddPair.compress with | .ok x => x | .error _ => ⟨0, 0, ⟨0⟩, ⟨0⟩, ⟨0⟩, 0, ⟨0⟩, ⟨0⟩, ⟨0⟩, ⟨0⟩, ⟨0⟩, ⟨0⟩, ⟨0⟩, ⟨0⟩, ⟨0⟩, ⟨0⟩, ⟨0⟩⟩),
    (match ({ Scn.collCfg with priceAgeMax := 131072 } : CollateralConfig).compress with | .ok x => x | .error _ => ⟨0, 0, ⟨0⟩, ⟨0⟩⟩),
    Scn.after_reach (.init Scn.genesis_ok) _, ?_⟩
  decide +kernel

end Perp
