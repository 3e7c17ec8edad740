import Verif.RefusalsPool
import Verif.Tokens

/-!
# Every refusal has its reason, for configuration, referrals and the other components (C54)
-/

namespace Perp

/-! ## Configuration -/

/-- The decimal settings of an exchange configuration. -/
def ExchangeConfig.settings (c : ExchangeConfig) : List Dec :=
  [c.skewRatioCap, c.adlOffset, c.adlA, c.adlB, c.feeLiquidityAdd, c.feeLiquidityRemove, c.feeShareProtocol,
    c.feeShareTreasury, c.feeShareReferral, c.feeMax, c.protocolBurnAmount, c.rewardKeeper]

/-- The decimal settings of a pair. -/
def PairConfig.settings (c : PairConfig) : List Dec :=
  [c.oiMax, c.tradeSizeMin, c.updatePriceDeltaRatio, c.marginInitial, c.marginMaintenance, c.funding1, c.funding2,
    c.funding2Delta, c.funding2Decay, c.fundingPool0, c.fundingPool1, c.fundingShare, c.fee0, c.fee1]

/-- The largest setting that can be stored is below 1.025 * 10^16. -/
def storeLimit : Dec := 1025 * 10 ^ 31

/-- **Specification.** The documented bounds of the exchange settings. -/
structure ExchangeConfig.WithinBounds (c : ExchangeConfig) : Prop where
  positions : 0 < c.positionsMax
  nonneg : ∀ x ∈ c.settings, 0 ≤ x
  shareProtocol : c.feeShareProtocol ≤ decLit 3 1
  shareTreasury : c.feeShareTreasury ≤ decLit 15 2
  shareReferral : c.feeShareReferral ≤ decLit 1 0
  burn : decLit 1000 0 ≤ c.protocolBurnAmount

/-- **Specification.** The documented bounds of the settings of a pair. -/
structure PairConfig.WithinBounds (c : PairConfig) : Prop where
  age : 0 < c.priceAgeMax
  period : 0 < c.updatePeriodSeconds
  delta : c.updatePriceDeltaRatio ≠ 0
  nonneg : ∀ x ∈ c.settings, 0 ≤ x
  initial : c.marginInitial ≤ decLit 1 0
  maintenance : c.marginMaintenance ≤ c.marginInitial
  funding1 : c.funding1 ≤ decLit 2 0
  funding2 : c.funding2 ≤ decLit 4 0
  funding2Delta : c.funding2Delta ≤ decLit 10000 0
  pool0 : c.fundingPool0 ≤ decLit 1 0
  pool1 : c.fundingPool1 ≤ decLit 2 0
  share : c.fundingShare ≤ decLit 1 1
  fee0 : c.fee0 ≤ decLit 15 3
  fee1 : c.fee1 ≤ decLit 1 6

/-- **Specification.** The documented bounds of the settings of a collateral. -/
structure CollateralConfig.WithinBounds (c : CollateralConfig) : Prop where
  age : 0 < c.priceAgeMax
  discount : decLit 8 1 ≤ c.discount ∧ c.discount ≤ decLit 1 0
  margin : 0 ≤ c.margin ∧ c.margin ≤ decLit 1 1

/-- **Specification.** Why a configuration can be refused: it breaks the documented bounds, or a setting is too large to be
stored. -/
def ExchangeConfigRefused (c : ExchangeConfig) : Err → Prop
  | .invalidConfig => ¬ c.WithinBounds ∨ ∃ x ∈ c.settings, storeLimit ≤ x
  | _ => False

/-- **Specification.** The same for pairs. -/
def PairConfigRefused (cs : List PairConfig) : Err → Prop
  | .invalidConfig => ∃ c ∈ cs, ¬ c.WithinBounds ∨ ∃ x ∈ c.settings, storeLimit ≤ x
  | _ => False

/-- **Specification.** The same for collaterals; discounts and margins are at most 1 and so can always be stored. -/
def CollateralConfigRefused (cs : List (Res × CollateralConfig)) : Err → Prop
  | .invalidConfig => ∃ c ∈ cs, ¬ c.2.WithinBounds
  | _ => False

/-- **C54, configuration.** The checks of the configuration component are the documented bounds. -/
theorem exchange_within (c : ExchangeConfig) : c.validate = true ↔ c.WithinBounds := by
  rw [ExchangeConfig.validate, decide_eq_true_eq]
  have hb : 0 ≤ decLit 1000 0 := by decide
  constructor
  · intro h
    refine ⟨by omega, ?_, by omega, by omega, by omega, by omega⟩
    simp only [ExchangeConfig.settings, List.forall_mem_cons, List.not_mem_nil, false_implies, implies_true, and_true]
    omega
  · rintro ⟨h1, h2, h3, h4, h5, h6⟩
    simp only [ExchangeConfig.settings, List.forall_mem_cons, List.not_mem_nil, false_implies, implies_true, and_true] at h2
    simp only [gt_iff_lt]
    tauto

theorem pair_within (c : PairConfig) : c.validate = true ↔ c.WithinBounds := by
  rw [PairConfig.validate, decide_eq_true_eq]
  constructor
  · intro h
    refine ⟨by omega, by omega, by omega, ?_, by omega, by omega, by omega, by omega, by omega, by omega, by omega, by omega,
      by omega, by omega⟩
    simp only [PairConfig.settings, List.forall_mem_cons, List.not_mem_nil, false_implies, implies_true, and_true]
    omega
  · rintro ⟨h1, h2, h3, h4, h5, h6, h7, h8, h9, h10, h11, h12, h13, h14⟩
    simp only [PairConfig.settings, List.forall_mem_cons, List.not_mem_nil, false_implies, implies_true, and_true] at h4
    omega

theorem collateral_within (c : CollateralConfig) : c.validate = true ↔ c.WithinBounds := by
  rw [CollateralConfig.validate, decide_eq_true_eq]
  exact ⟨fun ⟨h1, h2, h3⟩ => ⟨h1, h2, h3⟩, fun ⟨h1, h2, h3⟩ => ⟨h1, h2, h3⟩⟩

theorem ofDec_fails {x : Dec} (h0 : 0 ≤ x) {P : Err → Prop} (h : storeLimit ≤ x → P .invalidConfig) :
    Fails P (DFloat.ofDec x) := by
  intro e he
  have := ofDec_errs x e he
  rw [List.mem_singleton] at this
  subst this
  refine h (not_lt.mp fun hlt => ?_)
  have hr : InRange x = true := by
    rw [inRange_iff]; unfold DMIN DMAX; unfold storeLimit at hlt; norm_num at hlt ⊢; omega
  obtain ⟨f, hf⟩ := (c45_storable hr).mpr ⟨by norm_num; omega, hlt⟩
  rw [hf] at he; cases he

theorem updateExchange_fails (k : Config) (c : ExchangeConfig) : Fails (ExchangeConfigRefused c) (k.updateExchange c) := by
  unfold Config.updateExchange
  refine fails_bind (fails_require (fun hn => Or.inl ?_)) (fun _ hv => fails_bind ?_ (fun _ _ => fails_pure _))
  · rw [← exchange_within, hn]; simp
  rw [require_ok, exchange_within] at hv
  have hx : ∀ x ∈ c.settings, Fails (ExchangeConfigRefused c) (DFloat.ofDec x) :=
    fun x hx => ofDec_fails (hv.nonneg x hx) (fun hl => Or.inr ⟨x, hx, hl⟩)
  unfold ExchangeConfig.compress
  repeat refine fails_bind (hx _ (by simp [ExchangeConfig.settings])) (fun _ _ => ?_)
  exact fails_pure _

theorem updatePairs_config_fails (k : Config) (cs : List PairConfig) : Fails (PairConfigRefused cs) (k.updatePairs cs) := by
  unfold Config.updatePairs
  refine fails_foldlM (fun _ => True) trivial (fun c hc k _ => ⟨?_, fun _ _ => trivial⟩)
  unfold Config.updatePair
  refine fails_bind (fails_require (fun hn => ⟨c, hc, Or.inl ?_⟩)) (fun _ hv => fails_bind ?_ (fun _ _ => fails_pure _))
  · rw [← pair_within, hn]; simp
  rw [require_ok, pair_within] at hv
  have hx : ∀ x ∈ c.settings, Fails (PairConfigRefused cs) (DFloat.ofDec x) :=
    fun x hx => ofDec_fails (hv.nonneg x hx) (fun hl => ⟨c, hc, Or.inr ⟨x, hx, hl⟩⟩)
  unfold PairConfig.compress
  repeat refine fails_bind (hx _ (by simp [PairConfig.settings])) (fun _ _ => ?_)
  exact fails_pure _

theorem updateCollaterals_fails (k : Config) (cs : List (Res × CollateralConfig)) :
    Fails (CollateralConfigRefused cs) (k.updateCollaterals cs) := by
  unfold Config.updateCollaterals
  refine fails_foldlM (fun _ => True) trivial (fun c hc k _ => ⟨?_, fun _ _ => trivial⟩)
  unfold Config.updateCollateral
  refine fails_bind (fails_require (fun hn => ⟨c, hc, ?_⟩)) (fun _ hv => fails_bind ?_ (fun _ _ => fails_pure _))
  · rw [← collateral_within, hn]; simp
  rw [require_ok, collateral_within] at hv
  obtain ⟨-, ⟨h1, h2⟩, h3, h4⟩ := hv
  unfold CollateralConfig.compress
  refine fails_bind (ofDec_fails (le_trans (by decide) h1) (fun hl => absurd (le_trans hl h2) (by decide))) (fun _ _ => ?_)
  refine fails_bind (ofDec_fails h3 (fun hl => absurd (le_trans hl h4) (by decide))) (fun _ _ => ?_)
  exact fails_pure _

/-! ## Referrals -/

/-- The rates a referral may have. -/
def rateAllowed (x : Dec) : Prop := 0 ≤ x ∧ x ≤ decLit 1 1

/-- **Specification.** Why the tokens that back claims can be refused: a claim is not positive, fewer tokens than needed are
offered, or fee oaths are claimed and offered, which no vault holds. -/
def BackingRefused (tokens : List Bucket) (claims : List (Res × Dec)) (need : Res → Int) : Err → Prop
  | .claimAmount => ∃ c ∈ claims, c.2 ≤ 0
  | .insufficientToken => ∃ r, totalOf tokens r < need r
  | .vault => (∃ c ∈ claims, c.1 = FEE_OATH) ∧ ∃ t ∈ tokens, t.res = FEE_OATH
  | .arithmetic => True
  | _ => False

/-- **Specification.** Why tokens offered to a referral can be refused outright. -/
def TokensRefused (env : Env) (s : State) (tokens : List Bucket) : Err → Prop
  | .badBucket => ∃ t ∈ tokens, okBucket env s t = false
  | .invalidCollateral => ∃ t ∈ tokens, t.res ≠ BASE ∧ s.config.collaterals.get t.res = none
  | _ => False

/-- **Specification.** Why `mint_referral` can be refused. -/
def MintReferralRefused (s : State) (id : RefId) (feeReferral feeRebate : Dec) : Err → Prop
  | .invalidReferralData => ¬ rateAllowed feeReferral ∨ ¬ rateAllowed feeRebate
  | .assertion => ∃ d, s.referrals.get id = some d
  | _ => False

/-- **Specification.** Why `update_referral` can be refused (without anything to change the referral is not even looked up). -/
def UpdateReferralRefused (s : State) (id : RefId) (feeReferral feeRebate : Option Dec) (maxReferrals : Option Nat) : Err → Prop
  | .invalidReferral => s.referrals.get id = none ∧ (feeReferral ≠ none ∨ feeRebate ≠ none ∨ maxReferrals ≠ none)
  | .invalidReferralData => (∃ x, feeReferral = some x ∧ ¬ rateAllowed x) ∨ ∃ x, feeRebate = some x ∧ ¬ rateAllowed x
  | _ => False

/-- **Specification.** Why `add_referral_allocation` can be refused. -/
def AllocationRefused (env : Env) (s : State) (id : RefId) (tokens : List Bucket) (claims : List (Res × Dec)) (count : Nat)
    (e : Err) : Prop :=
  TokensRefused env s tokens e ∨
  (e = .invalidReferral ∧ s.referrals.get id = none) ∨
  (e = .referralLimit ∧ ∃ d, s.referrals.get id = some d ∧ d.maxReferrals < d.referrals + count) ∨
  BackingRefused tokens claims (fun r => count * claimed claims r) e

/-- **Specification.** Why `mint_referral_with_allocation` can be refused. -/
def MintAllocationRefused (env : Env) (s : State) (id : RefId) (feeReferral feeRebate : Dec) (maxReferrals : Nat)
    (tokens : List Bucket) (claims : List (Res × Dec)) (count : Nat) (e : Err) : Prop :=
  MintReferralRefused s id feeReferral feeRebate e ∨
  TokensRefused env s tokens e ∨
  (e = .referralLimit ∧ maxReferrals < count) ∨
  BackingRefused tokens claims (fun r => count * claimed claims r) e

/-- The claims of all codes. -/
def codeClaims (hashes : AMap Hash (List (Res × Dec) × Nat)) : List (Res × Dec) := hashes.entries.flatMap (fun e => e.2.1)

/-- **Specification.** Why `create_referral_codes` can be refused. -/
def CodesRefused (env : Env) (cl : Caller) (s : State) (id : RefId) (tokens : List Bucket)
    (hashes : AMap Hash (List (Res × Dec) × Nat)) (e : Err) : Prop :=
  (e = .invalidReferral ∧ (cl.refs id = false ∨ s.referrals.get id = none)) ∨
  TokensRefused env s tokens e ∨
  (e = .referralLimit ∧ ∃ d, s.referrals.get id = some d ∧
    d.maxReferrals < d.referrals + (hashes.entries.map (fun x => x.2.2)).sum) ∨
  (e = .multiUseWithClaims ∧ ∃ x ∈ hashes.entries, x.2.2 ≠ 1 ∧ x.2.1 ≠ []) ∨
  (e = .codeExists ∧ ∃ x ∈ hashes.entries, ∃ c, s.refgen.codes.get x.1 = some c) ∨
  BackingRefused tokens (codeClaims hashes) (claimed (codeClaims hashes)) e

/-- The allocation a caller refers to. -/
def State.allocation (s : State) (id : RefId) (index : Nat) : Option ReferralAllocation :=
  (s.refgen.allocations.get id).bind (fun l => l[index]?)

/-- **Specification.** Why `create_referral_codes_from_allocation` can be refused. -/
def AllocCodesRefused (cl : Caller) (s : State) (id : RefId) (index : Nat) (hashes : List Hash) : Err → Prop
  | .invalidReferral => cl.refs id = false
  | .allocNotFound => s.allocation id index = none
  | .allocLimit => ∃ al, s.allocation id index = some al ∧ al.maxCount < al.count + hashes.toFinset.card
  | .codeExists => ∃ h ∈ hashes, ∃ c, s.refgen.codes.get h = some c
  | .arithmetic => True
  | _ => False

variable {env : Env} {cl : Caller} {s : State}

theorem rateOk_iff {x : Dec} : referralRateOk x = true ↔ rateAllowed x := by
  unfold referralRateOk rateAllowed; rw [decide_eq_true_eq]

theorem mintReferral_fails (id : RefId) (a b : Dec) (m : Nat) : Fails (MintReferralRefused s id a b) (mintReferral s id a b m) := by
  unfold mintReferral
  refine fails_bind (fails_require (fun hn => Or.inl ?_)) (fun _ _ => fails_bind (fails_require (fun hn => Or.inr ?_)) (fun _ _ => ?_))
  · rw [← rateOk_iff, hn]; simp
  · rw [← rateOk_iff, hn]; simp
  refine fails_bind (fails_require (fun hn => ?_)) (fun _ _ => fails_pure _)
  simp only [Bool.not_eq_false'] at hn
  exact AMap.has_iff.mp hn

theorem updateReferral_fails (id : RefId) (a b : Option Dec) (m : Option Nat) :
    Fails (UpdateReferralRefused s id a b m) (updateReferral s id a b m) := by
  have hc : ∀ x : Option Dec, ((∃ y, x = some y ∧ ¬ rateAllowed y) → UpdateReferralRefused s id a b m .invalidReferralData) →
      Fails (UpdateReferralRefused s id a b m) (checkRate x) := by
    intro x hx
    unfold checkRate
    split
    · refine fails_require (fun hn => hx ⟨_, rfl, ?_⟩)
      rw [← rateOk_iff, hn]; simp
    · exact fails_pure _
  unfold updateReferral
  split
  · exact fails_pure _
  rename_i hne
  have hne' : a ≠ none ∨ b ≠ none ∨ m ≠ none := by
    by_contra hc
    push Not at hc
    obtain ⟨rfl, rfl, rfl⟩ := hc
    exact hne (by simp)
  refine fails_bind (fails_expect (fun hn => ⟨hn, hne'⟩)) (fun d hd => ?_)
  refine fails_bind (hc a Or.inl) (fun _ _ => fails_bind (hc b Or.inr) (fun _ _ => fails_pure _))

theorem checkReferralTokens_fails {cfg : VConfig} {ids : List PairId} (hcfg : VConfig.new s.config ids = Except.ok cfg)
    {tokens : List Bucket} : Fails (TokensRefused env s tokens) (checkReferralTokens env s cfg tokens) := by
  unfold checkReferralTokens
  refine fails_bind (fails_require (fun hn => ?_)) (fun _ _ => fails_require (fun hn => ?_))
  · rw [List.all_eq_false] at hn
    obtain ⟨t, ht, h⟩ := hn
    exact ⟨t, ht, by simpa using h⟩
  · rw [List.all_eq_false] at hn
    obtain ⟨t, ht, h⟩ := hn
    simp only [Bool.or_eq_true, decide_eq_true_eq, not_or] at h
    refine ⟨t, ht, h.1, ?_⟩
    by_contra hne
    obtain ⟨x, hx⟩ := Option.ne_none_iff_exists'.mp hne
    refine h.2 ?_
    rw [AMap.has_iff, (VConfig.new_ok hcfg).2.1, AMap.get_mapV, hx]
    exact ⟨_, rfl⟩

/-- The taken tokens are in the claimed resources. -/
theorem takeClaims_res {env : Env} {l : List (Res × Dec)} : ∀ {t t' : AMap Res Dec × List Bucket},
    l.foldlM (takeClaim env) t = Except.ok t' → ∀ b ∈ t'.2, b ∈ t.2 ∨ b.res ∈ l.map Prod.fst := by
  induction l with
  | nil =>
    intro t t' h b hb
    simp only [List.foldlM_nil, pure_ok] at h
    subst h; exact Or.inl hb
  | cons e l ih =>
    intro t t' h b hb
    simp only [List.foldlM_cons, bind_ok] at h
    obtain ⟨t1, h1, h⟩ := h
    rcases ih h b hb with hb | hb
    · unfold takeClaim at h1
      split at h1
      · simp only [bind_ok, pure_ok] at h1
        obtain ⟨-, -, x, -, rfl⟩ := h1
        simp only [List.mem_append, List.mem_singleton] at hb
        rcases hb with hb | rfl
        · exact Or.inl hb
        · exact Or.inr (by simp)
      · simp only [bind_ok, pure_ok] at h1
        obtain ⟨-, -, rfl⟩ := h1
        exact Or.inl hb
    · exact Or.inr (by simp [hb])

theorem takeClaims_fails {env : Env} {P : Err → Prop} : ∀ (l : List (Res × Dec)) (t : AMap Res Dec × List Bucket),
    (l.map Prod.fst).Nodup → (∀ e ∈ l, 0 ≤ e.2) → (∀ r x, t.1.get r = some x → x % (env.gran r : Int) = 0) →
    (∀ e ∈ l, (t.1.get e.1).getD 0 < e.2 → P .insufficientToken) → Fails P (l.foldlM (takeClaim env) t) := by
  intro l
  induction l with
  | nil => intro t _ _ _ _; exact fails_pure _
  | cons e l ih =>
    intro t hnd h0 hm hP
    rw [List.map_cons, List.nodup_cons] at hnd
    rw [List.foldlM_cons]
    have he0 := h0 e (by simp)
    refine fails_bind ?_ (fun t1 ht1 => ?_)
    · unfold takeClaim
      split
      · rename_i avail ha
        refine fails_bind (fails_require (fun hn => hP e (by simp) ?_)) (fun _ hle => ?_)
        · rw [decide_eq_false_iff_not, not_le] at hn
          rw [ha]; exact hn
        rw [require_ok, decide_eq_true_eq] at hle
        exact fails_bind (fails_of_ok ⟨_, takeAmount_up (env.gran_pos _) he0 hle (hm _ _ ha)⟩) (fun _ _ => fails_pure _)
      · rename_i ha
        refine fails_bind (fails_require (fun hn => hP e (by simp) ?_)) (fun _ _ => fails_pure _)
        rw [decide_eq_false_iff_not] at hn
        rw [ha]; simp only [Option.getD_none]; omega
    · have key : (∀ r, r ≠ e.1 → t1.1.get r = t.1.get r) ∧ ∀ r x, t1.1.get r = some x → x % (env.gran r : Int) = 0 := by
        unfold takeClaim at ht1
        split at ht1
        · rename_i avail ha
          simp only [bind_ok, pure_ok] at ht1
          obtain ⟨-, -, x, hx, rfl⟩ := ht1
          refine ⟨fun r hr => AMap.get_set_ne _ _ (Ne.symm hr), fun r y hy => ?_⟩
          simp only at hy
          rw [AMap.get_set] at hy
          split at hy
          · rename_i hr; subst hr; cases hy
            rw [takeAmount_ok] at hx
            have h1 := hm _ _ ha
            have h2 := hx.2.2.1
            rw [Int.sub_emod, h1, h2]; simp
          · exact hm r y hy
        · simp only [bind_ok, pure_ok] at ht1
          obtain ⟨-, -, rfl⟩ := ht1
          exact ⟨fun _ _ => rfl, hm⟩
      refine ih t1 hnd.2 (fun x hx => h0 x (by simp [hx])) key.2 (fun x hx hlt => hP x (by simp [hx]) ?_)
      rw [key.1 x.1 (fun he => hnd.1 (he ▸ List.mem_map_of_mem hx))] at hlt
      exact hlt

/-- Setting aside the tokens that back the claims. -/
theorem splitTokens_fails {tokens : List Bucket} {totals : AMap Res Dec} {P : Err → Prop} (har : P .arithmetic)
    (hok : ∀ b ∈ tokens, b.amt % (env.gran b.res : Int) = 0) (h0 : ∀ r x, totals.get r = some x → 0 ≤ x)
    (hP : ∀ r, totalOf tokens r < (totals.get r).getD 0 → P .insufficientToken) : Fails P (splitTokens env tokens totals) := by
  unfold splitTokens
  refine fails_bind (fails_foldlM (fun _ => True) trivial (fun b _ m _ => ⟨?_, fun _ _ => trivial⟩)) (fun mapped hm => ?_)
  · unfold mergeToken addClaim
    split
    · exact fails_bind ((errs_dadd (l := arith) (by decide) _ _).arithmetic har) (fun _ _ => fails_pure _)
    · exact fails_pure _
  have hmod : ∀ r x, mapped.get r = some x → x % (env.gran r : Int) = 0 := by
    refine foldlM_inv (P := fun m : AMap Res Dec => ∀ r x, m.get r = some x → x % (env.gran r : Int) = 0) ?_ ?_ hm
    · intro r x hx; rw [AMap.get_empty] at hx; cases hx
    · intro b hb m m' hI hf r x hx
      unfold mergeToken addClaim at hf
      have hbm := hok b hb
      split at hf
      · rename_i y hy
        simp only [bind_ok, pure_ok, dadd_ok] at hf
        obtain ⟨_, ⟨-, rfl⟩, rfl⟩ := hf
        rw [AMap.get_set] at hx
        split at hx
        · rename_i hr; cases hx
          simp only at hr hy; subst hr
          rw [Int.add_emod, hI _ _ hy, hbm]; simp
        · exact hI r x hx
      · rw [pure_ok] at hf
        rw [← hf, AMap.get_set] at hx
        split at hx
        · rename_i hr; cases hx
          simp only at hr; subst hr; exact hbm
        · exact hI r x hx
  refine fails_bind (takeClaims_fails _ _ (AMap.keys_nodup totals) (fun e he => h0 e.1 e.2 (AMap.get_mem he)) hmod (fun e he hlt => ?_))
    (fun _ _ => fails_pure _)
  have h1 := mergeTokens_total hm e.1
  simp only [AMap.get_empty, Option.getD_none, zero_add] at h1
  refine hP e.1 ?_
  rw [AMap.get_mem he]
  simp only at hlt
  rw [h1] at hlt
  exact hlt

theorem splitTokens_res {tokens taken rest : List Bucket} {totals : AMap Res Dec}
    (h : splitTokens env tokens totals = Except.ok (taken, rest)) : ∀ b ∈ taken, ∃ x, totals.get b.res = some x := by
  intro b hb
  simp only [splitTokens, bind_ok, pure_ok, Prod.mk.injEq] at h
  obtain ⟨mapped, -, t, ht, rfl, -⟩ := h
  rcases takeClaims_res ht b hb with h | h
  · cases h
  · exact AMap.mem_keys.mp h

theorem takeClaims_taken {env : Env} {r : Res} {l : List (Res × Dec)} : ∀ {t t' : AMap Res Dec × List Bucket},
    l.foldlM (takeClaim env) t = Except.ok t' →
    ((∃ b ∈ t'.2, b.res = r) ↔ (∃ b ∈ t.2, b.res = r) ∨ (r ∈ l.map Prod.fst ∧ ∃ x, t.1.get r = some x)) := by
  induction l with
  | nil =>
    intro t t' h
    simp only [List.foldlM_nil, pure_ok] at h
    subst h; simp
  | cons e l ih =>
    intro t t' h
    simp only [List.foldlM_cons, bind_ok] at h
    obtain ⟨t1, h1, h⟩ := h
    rw [ih h]
    unfold takeClaim at h1
    split at h1
    · rename_i avail hav
      simp only [bind_ok, pure_ok] at h1
      obtain ⟨-, -, x, -, rfl⟩ := h1
      simp only [List.mem_append, List.map_cons, List.mem_cons, List.not_mem_nil, or_false]
      by_cases hr : r = e.1
      · subst hr
        constructor
        · intro _; exact Or.inr ⟨Or.inl rfl, avail, hav⟩
        · intro _; exact Or.inl ⟨_, Or.inr rfl, rfl⟩
      · rw [AMap.get_set_ne _ _ (Ne.symm hr)]
        constructor
        · rintro (⟨b, hb | rfl, hbr⟩ | ⟨h1, h2⟩)
          · exact Or.inl ⟨b, hb, hbr⟩
          · exact absurd hbr.symm hr
          · exact Or.inr ⟨Or.inr h1, h2⟩
        · rintro (⟨b, hb, hbr⟩ | ⟨h1 | h1, h2⟩)
          · exact Or.inl ⟨b, Or.inl hb, hbr⟩
          · exact absurd h1 hr
          · exact Or.inr ⟨h1, h2⟩
    · rename_i hav
      simp only [bind_ok, pure_ok] at h1
      obtain ⟨-, -, rfl⟩ := h1
      simp only [List.map_cons, List.mem_cons]
      constructor
      · rintro (h1 | ⟨h1, h2⟩)
        · exact Or.inl h1
        · exact Or.inr ⟨Or.inr h1, h2⟩
      · rintro (h1 | ⟨h1 | h1, x, h2⟩)
        · exact Or.inl h1
        · rw [h1, hav] at h2; cases h2
        · exact Or.inr ⟨h1, x, h2⟩

theorem mergeTokens_has {r : Res} : ∀ {tokens : List Bucket} {m m' : AMap Res Dec}, tokens.foldlM mergeToken m = Except.ok m' →
    ((∃ x, m'.get r = some x) ↔ (∃ x, m.get r = some x) ∨ ∃ b ∈ tokens, b.res = r) := by
  intro tokens
  induction tokens with
  | nil => intro m m' h; simp only [List.foldlM_nil, pure_ok] at h; subst h; simp
  | cons b l ih =>
    intro m m' h
    simp only [List.foldlM_cons, bind_ok] at h
    obtain ⟨m1, h1, h⟩ := h
    rw [ih h]
    have : ∃ y, m1 = m.set b.res y := by
      unfold mergeToken addClaim at h1
      split at h1
      · simp only [bind_ok, pure_ok] at h1
        obtain ⟨y, -, rfl⟩ := h1
        exact ⟨y, rfl⟩
      · rw [pure_ok] at h1; exact ⟨_, h1.symm⟩
    obtain ⟨y, rfl⟩ := this
    rw [AMap.get_set]
    by_cases hr : b.res = r
    · simp [hr]
    · simp [hr]

/-- The tokens kept are the ones both offered and claimed. -/
theorem splitTokens_taken {tokens taken rest : List Bucket} {totals : AMap Res Dec}
    (h : splitTokens env tokens totals = Except.ok (taken, rest)) (r : Res) :
    (∃ b ∈ taken, b.res = r) ↔ (∃ x, totals.get r = some x) ∧ ∃ b ∈ tokens, b.res = r := by
  simp only [splitTokens, bind_ok, pure_ok, Prod.mk.injEq] at h
  obtain ⟨mapped, hm, t, ht, rfl, -⟩ := h
  rw [takeClaims_taken ht, mergeTokens_has hm]
  have : r ∈ totals.entries.map Prod.fst ↔ ∃ x, totals.get r = some x := AMap.mem_keys
  rw [this]
  simp

theorem vaultPutBatch_fails {m : AMap Res Dec} {bs : List Bucket} {P : Err → Prop} (har : P .arithmetic)
    (hP : ∀ b ∈ bs, b.res = FEE_OATH → P .vault) : Fails P (vaultPutBatch m bs) := by
  unfold vaultPutBatch
  refine fails_foldlM (fun _ => True) trivial (fun b hb m _ => ⟨?_, fun _ _ => trivial⟩)
  unfold vaultPut
  refine fails_bind (fails_require (fun hn => hP b hb ?_)) (fun _ _ => ?_)
  · simpa using hn
  · exact fails_bind ((errs_dadd (l := arith) (by decide) _ _).arithmetic har) (fun _ _ => fails_pure _)

theorem totalClaim_fails {n : Nat} {m : AMap Res Dec} {e : Res × Dec} {P : Err → Prop} (har : P .arithmetic)
    (hP : e.2 ≤ 0 → P .claimAmount) : Fails P (totalClaim n m e) := by
  unfold totalClaim
  refine fails_bind (fails_require (fun hn => hP ?_)) (fun _ _ => ?_)
  · rw [decide_eq_false_iff_not, not_lt] at hn; exact hn
  refine fails_bind ((errs_dmul (l := arith) (by decide) _ _).arithmetic har) (fun _ _ => ?_)
  exact fails_bind ((errs_dadd (l := arith) (by decide) _ _).arithmetic har) (fun _ _ => fails_pure _)

/-- Totals are of claimed resources, and not negative. -/
def TotalsOk (claims : List (Res × Dec)) (m : AMap Res Dec) : Prop :=
  ∀ r x, m.get r = some x → 0 ≤ x ∧ ∃ c ∈ claims, c.1 = r

theorem totalClaim_totals {n : Nat} {m m' : AMap Res Dec} {e : Res × Dec} {claims : List (Res × Dec)} (he : e ∈ claims)
    (h : totalClaim n m e = Except.ok m') (hI : TotalsOk claims m) : TotalsOk claims m' := by
  simp only [totalClaim, bind_ok, pure_ok, require_ok, decide_eq_true_eq, dmul_ok, dadd_ok] at h
  obtain ⟨-, hp, _, ⟨-, rfl⟩, _, ⟨-, rfl⟩, rfl⟩ := h
  intro r x hx
  rw [AMap.get_set] at hx
  split at hx
  · rename_i hr
    cases hx
    refine ⟨?_, e, he, hr⟩
    rw [mulT_ofNat]
    have h1 : 0 ≤ m.getD e.1 0 := by
      unfold AMap.getD
      cases hg : m.get e.1 with
      | none => exact le_refl _
      | some y => exact (hI _ _ hg).1
    have := mul_nonneg (Int.natCast_nonneg n) hp.le
    omega
  · exact hI r x hx

/-- Backing claims: what is left after the totals are known. -/
theorem backing_fails {tokens : List Bucket} {claims : List (Res × Dec)} {need : Res → Int} {totals : AMap Res Dec} {α : Type}
    {P : Err → Prop} (hP : ∀ e, BackingRefused tokens claims need e → P e)
    (hok : ∀ b ∈ tokens, b.amt % (env.gran b.res : Int) = 0) (ht : TotalsOk claims totals)
    (hneed : ∀ r, (totals.get r).getD 0 = need r) {f : List Bucket × List Bucket → R α}
    (hf : ∀ taken rest, (∀ m, Fails P (vaultPutBatch m taken)) → Fails P (f (taken, rest))) :
    Fails P (splitTokens env tokens totals >>= f) := by
  have har : P .arithmetic := hP _ trivial
  refine fails_bind (splitTokens_fails har hok (fun r x hx => (ht r x hx).1) (fun r hr => hP .insufficientToken ⟨r, ?_⟩))
    (fun x hx => ?_)
  · rw [← hneed]; exact hr
  obtain ⟨taken, rest⟩ := x
  refine hf taken rest (fun m => vaultPutBatch_fails har (fun b hb hr => hP .vault ?_))
  obtain ⟨⟨y, hy⟩, hin⟩ := (splitTokens_taken hx FEE_OATH).mp ⟨b, hb, hr⟩
  obtain ⟨-, c, hc, hcr⟩ := ht _ _ hy
  exact ⟨⟨c, hc, hcr⟩, hin⟩

theorem totalsOk_empty (claims : List (Res × Dec)) : TotalsOk claims AMap.empty := by
  intro r x hx; rw [AMap.get_empty] at hx; cases hx

theorem addAllocation_fails {g : RefGen} {tokens : List Bucket} {id : RefId} {claims : List (Res × Dec)} {n : Nat}
    (hok : ∀ b ∈ tokens, b.amt % (env.gran b.res : Int) = 0) :
    Fails (BackingRefused tokens claims (fun r => n * claimed claims r)) (g.addAllocation env tokens id claims n) := by
  unfold RefGen.addAllocation
  refine fails_bind (fails_foldlM (fun _ => True) trivial (fun e he m _ => ⟨?_, fun _ _ => trivial⟩)) (fun totals htot => ?_)
  · exact totalClaim_fails trivial (fun hle => ⟨e, he, hle⟩)
  have h1 : TotalsOk claims totals :=
    foldlM_inv (P := TotalsOk claims) (totalsOk_empty _) (fun e he m m' hI hf => totalClaim_totals he hf hI) htot
  have h2 := (totalClaims_ok htot).2
  simp only [AMap.get_empty, Option.getD_none, zero_add] at h2
  refine backing_fails (fun _ he => he) hok h1 h2 (fun taken rest hv => ?_)
  exact fails_bind (hv _) (fun _ _ => fails_pure _)

theorem insertCodes_fails {α : Type} (k : α → Hash) (v : α → ReferralCode) {P : Err → Prop} : ∀ (l : List α)
    (m : AMap Hash ReferralCode), (l.map k).Nodup → (∀ e ∈ l, (∃ c, m.get (k e) = some c) → P .codeExists) →
    Fails P (l.foldlM (fun m e => insertCode m (k e) (v e)) m) := by
  intro l
  induction l with
  | nil => intro m _ _; exact fails_pure _
  | cons e l ih =>
    intro m hnd hP
    rw [List.map_cons, List.nodup_cons] at hnd
    rw [List.foldlM_cons]
    refine fails_bind ?_ (fun m1 hm1 => ih m1 hnd.2 (fun x hx hc => ?_))
    · unfold insertCode
      refine fails_bind (fails_require (fun hn => hP e (by simp) ?_)) (fun _ _ => fails_pure _)
      simp only [Bool.not_eq_false'] at hn
      exact AMap.has_iff.mp hn
    · simp only [insertCode, bind_ok, pure_ok] at hm1
      obtain ⟨-, -, rfl⟩ := hm1
      have hne : k e ≠ k x := fun he => hnd.1 (he ▸ List.mem_map_of_mem (f := k) hx)
      rw [AMap.get_set_ne _ _ hne] at hc
      exact hP x (by simp [hx]) hc

/-- **Specification helper.** Refusals of the generator for new codes. -/
theorem createCodes_fails {g : RefGen} {tokens : List Bucket} {id : RefId} {hs : AMap Hash (List (Res × Dec) × Nat)}
    (hok : ∀ b ∈ tokens, b.amt % (env.gran b.res : Int) = 0) :
    Fails (fun e => (e = .multiUseWithClaims ∧ ∃ x ∈ hs.entries, x.2.2 ≠ 1 ∧ x.2.1 ≠ []) ∨
      (e = .codeExists ∧ ∃ x ∈ hs.entries, ∃ c, g.codes.get x.1 = some c) ∨
      BackingRefused tokens (codeClaims hs) (claimed (codeClaims hs)) e) (g.createCodes env tokens id hs) := by
  have hmem : ∀ e ∈ hs.entries, ∀ c ∈ e.2.1, c ∈ codeClaims hs := fun e he c hc => List.mem_flatMap.mpr ⟨e, he, hc⟩
  unfold RefGen.createCodes
  refine fails_bind (fails_foldlM (fun _ => True) trivial (fun e he m _ => ⟨?_, fun _ _ => trivial⟩)) (fun totals htot => ?_)
  · unfold codeTotals
    split
    · refine fails_foldlM (fun _ => True) trivial (fun c hc m _ => ⟨?_, fun _ _ => trivial⟩)
      exact totalClaim_fails (Or.inr (Or.inr trivial)) (fun hle => Or.inr (Or.inr ⟨c, hmem e he c hc, hle⟩))
    · rename_i hne
      refine fails_bind (fails_require (fun hn => Or.inl ⟨rfl, e, he, hne, ?_⟩)) (fun _ _ => fails_pure _)
      rw [decide_eq_false_iff_not] at hn
      exact fun h => hn (by rw [h]; rfl)
  have h1 : TotalsOk (codeClaims hs) totals := by
    refine foldlM_inv (P := TotalsOk (codeClaims hs)) (totalsOk_empty _) (fun e he m m' hI hf => ?_) htot
    unfold codeTotals at hf
    split at hf
    · exact foldlM_inv (P := TotalsOk (codeClaims hs)) hI (fun c hc m m' hI hf => totalClaim_totals (hmem e he c hc) hf hI) hf
    · simp only [bind_ok, pure_ok] at hf
      obtain ⟨-, -, rfl⟩ := hf
      exact hI
  have h2 : ∀ r, (totals.get r).getD 0 = claimed (codeClaims hs) r := by
    intro r
    obtain ⟨hone, htt⟩ := codeTotals_ok htot
    rw [htt r, AMap.get_empty]
    simp only [Option.getD_none, zero_add]
    unfold codeClaims
    have key : ∀ l : List (Hash × (List (Res × Dec) × Nat)), (∀ e ∈ l, e.2.1 ≠ [] → e.2.2 = 1) →
        (l.map (fun e => (e.2.2 : Int) * claimed e.2.1 r)).sum = claimed (l.flatMap (fun e => e.2.1)) r := by
      intro l
      induction l with
      | nil => intro _; rfl
      | cons e l ih =>
        intro hl
        rw [List.map_cons, List.sum_cons, ih (fun x hx => hl x (by simp [hx])), List.flatMap_cons]
        unfold claimed
        rw [List.filter_append, List.map_append, List.sum_append]
        congr 1
        by_cases hnil : e.2.1 = []
        · rw [hnil]; simp
        · rw [hl e (by simp) hnil]; simp
    exact key _ (fun e he => (hone e he).2)
  refine backing_fails (fun _ he => Or.inr (Or.inr he)) hok h1 h2 (fun taken rest hv => ?_)
  refine fails_bind (insertCodes_fails (fun e : Hash × (List (Res × Dec) × Nat) => e.1) (fun e => ⟨id, e.2.1, 0, e.2.2⟩) hs.entries g.codes hs.nodup (fun e he hc => Or.inr (Or.inl ⟨rfl, e, he, hc⟩)))
    (fun _ _ => ?_)
  exact fails_bind (hv _) (fun _ _ => fails_pure _)

theorem bucket_mod {tokens : List Bucket} {cfg : VConfig} {u : Unit} (h : checkReferralTokens env s cfg tokens = Except.ok u) :
    ∀ b ∈ tokens, b.amt % (env.gran b.res : Int) = 0 := by
  simp only [checkReferralTokens, bind_ok, require_ok] at h
  obtain ⟨-, h1, -⟩ := h
  intro b hb
  have := List.all_eq_true.mp h1 b hb
  unfold okBucket at this
  rw [decide_eq_true_eq] at this
  exact this.2.1

theorem grantReferrals_fails {id : RefId} {n : Nat} {P : Err → Prop} (har : P .arithmetic)
    (h1 : s.referrals.get id = none → P .invalidReferral)
    (h2 : ∀ d, s.referrals.get id = some d → d.maxReferrals < d.referrals + n → P .referralLimit) :
    Fails P (grantReferrals s id n) := by
  unfold grantReferrals
  refine fails_bind (fails_expect h1) (fun d hd => fails_bind ((errs_uadd (l := arith) (by decide) _ _).arithmetic har) (fun m hm => ?_))
  rw [expect_ok] at hd
  rw [uadd_ok] at hm
  refine fails_bind (fails_require (fun hn => h2 d hd ?_)) (fun _ _ => fails_pure _)
  rw [decide_eq_false_iff_not, not_le] at hn
  omega

theorem addReferralAllocation_fails (id : RefId) (tokens : List Bucket) (claims : List (Res × Dec)) (n : Nat) :
    Fails (AllocationRefused env s id tokens claims n) (addReferralAllocation env s id tokens claims n) := by
  unfold addReferralAllocation
  refine fails_bind (fails_of_ok (VConfig.new_total (by simp))) (fun cfg hcfg => ?_)
  refine fails_bind (Fails.mono (checkReferralTokens_fails hcfg) (fun e he => Or.inl he)) (fun _ ht => ?_)
  refine fails_bind (grantReferrals_fails (Or.inr (Or.inr (Or.inr trivial))) (fun h => Or.inr (Or.inl ⟨rfl, h⟩))
    (fun d hd hlt => Or.inr (Or.inr (Or.inl ⟨rfl, d, hd, hlt⟩)))) (fun _ _ => ?_)
  exact fails_bind (Fails.mono (addAllocation_fails (bucket_mod ht)) (fun e he => Or.inr (Or.inr (Or.inr he)))) (fun _ _ => fails_pure _)

theorem mintReferralWithAllocation_fails (id : RefId) (a b : Dec) (m : Nat) (tokens : List Bucket) (claims : List (Res × Dec))
    (n : Nat) : Fails (MintAllocationRefused env s id a b m tokens claims n)
      (mintReferralWithAllocation env s id a b m tokens claims n) := by
  unfold mintReferralWithAllocation
  refine fails_bind (Fails.mono (mintReferral_fails id a b m) (fun e he => Or.inl he)) (fun s1 hs1 => ?_)
  simp only [mintReferral, bind_ok, pure_ok] at hs1
  obtain ⟨-, -, -, -, -, -, rfl⟩ := hs1
  refine Fails.mono (addReferralAllocation_fails id tokens claims n) (fun e he => ?_)
  rcases he with he | ⟨-, he⟩ | ⟨rfl, d, hd, hlt⟩ | he
  · refine Or.inr (Or.inl ?_)
    cases e <;> exact he
  · simp only at he
    rw [AMap.get_set_self] at he; cases he
  · simp only at hd
    rw [AMap.get_set_self] at hd; cases hd
    refine Or.inr (Or.inr (Or.inl ⟨rfl, ?_⟩))
    simpa using hlt
  · exact Or.inr (Or.inr (Or.inr he))

theorem createReferralCodes_fails (id : RefId) (tokens : List Bucket) (hs : AMap Hash (List (Res × Dec) × Nat)) :
    Fails (CodesRefused env cl s id tokens hs) (createReferralCodes env cl s id tokens hs) := by
  have har : CodesRefused env cl s id tokens hs .arithmetic := Or.inr (Or.inr (Or.inr (Or.inr (Or.inr trivial))))
  unfold createReferralCodes
  refine fails_bind (fails_require (fun hn => Or.inl ⟨rfl, Or.inl hn⟩)) (fun _ _ => ?_)
  refine fails_bind (fails_of_ok (VConfig.new_total (by simp))) (fun cfg hcfg => ?_)
  refine fails_bind (Errs.arithmetic (errs_foldlM' (fun _ _ _ => errs_uadd (by decide) _ _)) har) (fun count hcount => ?_)
  have hc : count = (hs.entries.map (fun x => x.2.2)).sum := by
    have key : ∀ (l : List (Hash × (List (Res × Dec) × Nat))) (a b : Nat), l.foldlM (fun n e => uadd n e.2.2) a = Except.ok b →
        b = a + (l.map (fun x => x.2.2)).sum := by
      intro l
      induction l with
      | nil => intro a b h; simp only [List.foldlM_nil, pure_ok] at h; simp [h]
      | cons e l ih =>
        intro a b h
        simp only [List.foldlM_cons, bind_ok, uadd_ok] at h
        obtain ⟨_, ⟨-, rfl⟩, h⟩ := h
        rw [ih _ _ h, List.map_cons, List.sum_cons]; omega
    have := key _ _ _ hcount
    omega
  refine fails_bind (Fails.mono (checkReferralTokens_fails hcfg) (fun e he => Or.inr (Or.inl he))) (fun _ ht => ?_)
  refine fails_bind (grantReferrals_fails har (fun h => Or.inl ⟨rfl, Or.inr h⟩)
    (fun d hd hlt => Or.inr (Or.inr (Or.inl ⟨rfl, d, hd, ?_⟩)))) (fun s1 hs1 => ?_)
  · rw [← hc]; exact hlt
  have hg : s1.refgen = s.refgen := by
    simp only [grantReferrals, bind_ok, pure_ok] at hs1
    obtain ⟨_, -, _, -, -, -, rfl⟩ := hs1; rfl
  rw [hg]
  exact fails_bind (Fails.mono (createCodes_fails (bucket_mod ht)) (fun e he => Or.inr (Or.inr (Or.inr he)))) (fun _ _ => fails_pure _)

theorem codesFromAllocation_fails (id : RefId) (i : Nat) (hs : List Hash) :
    Fails (AllocCodesRefused cl s id i hs) (createReferralCodesFromAllocation cl s id i hs) := by
  unfold createReferralCodesFromAllocation
  refine fails_bind (fails_require (fun hn => hn)) (fun _ _ => fails_bind ?_ (fun _ _ => fails_pure _))
  unfold RefGen.codesFromAllocation
  refine fails_bind (fails_expect (fun hn => ?_)) (fun l hl => fails_bind (fails_expect (fun hn => ?_)) (fun al hal => ?_))
  · show s.allocation id i = none
    unfold State.allocation; rw [hn]; rfl
  · rw [expect_ok] at hl
    show s.allocation id i = none
    unfold State.allocation; rw [hl]; exact hn
  rw [expect_ok] at hl hal
  have hall : s.allocation id i = some al := by unfold State.allocation; rw [hl]; exact hal
  refine fails_bind ((errs_uadd (l := arith) (by decide) _ _).arithmetic trivial) (fun n hn => ?_)
  rw [uadd_ok] at hn
  refine fails_bind (fails_require (fun hno => ⟨al, hall, ?_⟩)) (fun _ _ => ?_)
  · rw [decide_eq_false_iff_not, not_le, ← hn.2] at hno
    rw [List.card_toFinset]; exact hno
  refine fails_bind (insertCodes_fails (fun h : Hash => h) (fun _ => ⟨id, al.claims, 0, 1⟩) hs.dedup s.refgen.codes ?_
    (fun h hh hc => ⟨h, List.mem_dedup.mp hh, hc⟩)) (fun _ _ => fails_pure _)
  rw [List.map_id']; exact List.nodup_dedup hs

/-! ## Oracle, fee delegator, roles, clock -/

/-- **Specification.** Why pushed prices can be refused. -/
def PushRefused (env : Env) (s : State) (u : PriceUpdate) : Err → Prop
  | .badKey => s.oracle.keys.get u.keyId = none
  | .badSignature => ∃ key, s.oracle.keys.get u.keyId = some key ∧ env.verify u.prices key u.sig = false
  | _ => False

/-- The value of XRD locked as a fee, in USD. -/
def State.lockValue (env : Env) (s : State) (x : Dec) : Dec := mulT (mulT env.usdPrice s.delegator.priceMultiplier) x

/-- **Specification.** Why `lock_fee` can be refused: the delegator does not hold the XRD, its value cannot be minted in fee oaths,
or more would be locked than allowed. -/
def LockRefused (env : Env) (s : State) (x : Dec) : Err → Prop
  | .vault => x < 0 ∨ s.delegator.vault < x ∨ s.lockValue env x < 0 ∨ s.lockValue env x % (env.gran FEE_OATH : Int) ≠ 0
  | .maxLock => s.delegator.maxLock < s.oathSupply + s.lockValue env x
  | .arithmetic => True
  | _ => False

/-- **Specification.** Why a role cannot be assigned. -/
def RoleRefused (cl : Caller) (s : State) (r : Role) : Err → Prop
  | .role => r = .owner ∨ ((s.roles .owner).sat cl.pf = false ∧ (r.userRole = false ∨ (s.roles .userAdmin).sat cl.pf = false))
  | _ => False

theorem push_fails (u : PriceUpdate) : Fails (PushRefused env s u) (s.oracle.push env u) := by
  unfold Oracle.push
  refine fails_bind (fails_expect (fun h => h)) (fun key hk => ?_)
  rw [expect_ok] at hk
  exact fails_bind (fails_require (fun hn => ⟨key, hk, hn⟩)) (fun _ _ => fails_pure _)

theorem lockFee_fails (x : Dec) : Fails (LockRefused env s x) (lockFee env s x) := by
  have har : LockRefused env s x .arithmetic := trivial
  unfold lockFee
  refine fails_bind (fails_require (fun hn => ?_)) (fun _ _ => ?_)
  · rw [decide_eq_false_iff_not, not_and_or, not_le, not_le] at hn
    rcases hn with hn | hn
    · exact Or.inl hn
    · exact Or.inr (Or.inl hn)
  refine fails_bind ((errs_dmul (l := arith) (by decide) _ _).arithmetic har) (fun p hp => ?_)
  refine fails_bind ((errs_dmul (l := arith) (by decide) _ _).arithmetic har) (fun v hv => ?_)
  refine fails_bind ((errs_dadd (l := arith) (by decide) _ _).arithmetic har) (fun vb hvb => ?_)
  rw [dmul_ok] at hp hv
  have e : v = s.lockValue env x := by rw [← hv.2, ← hp.2]; rfl
  refine fails_bind (mintAmount_fails (fun hn => ?_) har) (fun m hm => ?_)
  · rw [e] at hn
    rcases hn with hn | hn
    · exact Or.inr (Or.inr (Or.inl hn))
    · exact Or.inr (Or.inr (Or.inr hn))
  refine fails_bind ((errs_dadd (l := arith) (by decide) _ _).arithmetic har) (fun t ht => ?_)
  refine fails_bind (fails_require (fun hn => ?_)) (fun _ _ => fails_pure _)
  rw [dadd_ok] at ht
  rw [mintAmount_ok] at hm
  rw [decide_eq_false_iff_not, not_le, ← ht.2] at hn
  show s.delegator.maxLock < s.oathSupply + s.lockValue env x
  rw [← e]
  have : m = v := by have := hm.2; tauto
  rw [← this]; exact hn

theorem setRole_fails (r : Role) (rule : Rule) : Fails (RoleRefused cl s r) (setRole cl s r rule) := by
  unfold setRole
  refine fails_bind (fails_require (fun hn => Or.inl ?_)) (fun _ _ => fails_bind (fails_require (fun hn => Or.inr ?_)) (fun _ _ => fails_pure _))
  · simpa using hn
  · rw [Bool.or_eq_false_iff, Bool.and_eq_false_iff] at hn; exact hn

end Perp
