import Verif.Progress

/-!
# The complete list of failures (C53)

For every public method the list of errors it can end in, in any reachable state.  None of the lists contains the errors that
stand for an inconsistency inside the exchange.
-/

namespace Perp

/-- Errors of a fee-oath payment. -/
abbrev oathList : List Err :=
  [.invalidFeeOath, .badBucket, .insufficientMargin, .missingPair, .invalidPrice, .priceTooOld, .arithmetic]

/-- Errors of an optional fee-oath payment; none if there is no oath. -/
def oathErrs : Option Bucket → List Err
  | none => []
  | some _ => oathList

/-- What a permitted call can fail with. -/
def Op.failures : Op → List Err
  | .depositAuthority _ => [.badBucket, .arithmetic]
  | .withdrawAuthority | .signalUpgrade _ | .removeCollateralConfig _ => []
  | .updateExchangeConfig _ | .updatePairConfigs _ | .updateCollateralConfigs _ => [.invalidConfig]
  | .collectTreasury | .collectFeeDelegator => [.insufficientPoolTokens, .arithmetic]
  | .mintReferral .. => [.invalidReferralData, .assertion]
  | .mintReferralWithAllocation .. => [.invalidReferralData, .assertion, .badBucket, .invalidCollateral, .referralLimit,
      .claimAmount, .insufficientToken, .vault, .arithmetic]
  | .updateReferral .. => [.invalidReferral, .invalidReferralData]
  | .addReferralAllocation .. => [.invalidReferral, .badBucket, .invalidCollateral, .referralLimit, .claimAmount,
      .insufficientToken, .vault, .arithmetic]
  | .swapProtocolFee _ => [.invalidProtocolToken, .badBucket, .insufficientPayment, .insufficientPoolTokens, .arithmetic]
  | .addLiquidity _ => [.badBucket, .invalidPaymentToken, .vault, .arithmetic]
  | .removeLiquidity _ => [.badBucket, .invalidLpToken, .insufficientPoolTokens, .vault, .skewTooHigh, .arithmetic]
  | .createReferralCodes .. => [.invalidReferral, .badBucket, .invalidCollateral, .referralLimit, .claimAmount,
      .multiUseWithClaims, .insufficientToken, .codeExists, .vault, .arithmetic]
  | .createReferralCodesFromAllocation .. => [.invalidReferral, .allocNotFound, .allocLimit, .codeExists, .arithmetic]
  | .collectReferralRewards _ => [.invalidReferral, .insufficientPoolTokens, .arithmetic]
  | .createAccount _ oath .. => [.badBucket, .assertion, .codeNotFound, .codeClaimed, .invalidCollateral,
      .collateralsTooMany, .vault, .arithmetic] ++ oathErrs oath
  | .createRecoveryKey oath _ | .setLevelAuth oath .. => [.invalidMarginAccount, .role] ++ oathErrs oath
  | .addAuthRule oath .. => [.invalidMarginAccount, .role, .invalidLevel] ++ oathErrs oath
  | .addCollateral oath .. => [.badBucket, .invalidMarginAccount, .role, .invalidCollateral, .collateralsTooMany, .vault,
      .arithmetic] ++ oathErrs oath
  | .removeCollateralRequest oath .. => [.invalidMarginAccount, .role, .claimsTooMany, .activeTooMany, .arithmetic] ++
      oathErrs oath
  | .marginOrderRequest oath .. => [.invalidMarginAccount, .role, .missingPairConfig, .tradeSizeMin, .effectedTooMany,
      .invalidStatus, .activeTooMany, .arithmetic] ++ oathErrs oath
  | .marginOrderTpSlRequest oath .. => [.invalidMarginAccount, .role, .missingPairConfig, .tradeSizeMin, .activeTooMany,
      .arithmetic] ++ oathErrs oath
  | .cancelRequests oath .. => [.invalidMarginAccount, .role, .missingRequest, .cancelNotActive, .arithmetic] ++ oathErrs oath
  | .processRequest .. => [.invalidMarginAccount, .processBeforeStart, .missingRequest, .processNotActive,
      .processBeforeSubmission] ++ (oracleErrs ++ (orderErrs ++ withdrawalErrs))
  | .swapDebt .. => [.badBucket, .invalidMarginAccount, .invalidPaymentToken, .invalidCollateral, .noDebt,
      .insufficientBalance] ++ oracleErrs
  | .liquidate .. => [.badBucket, .invalidMarginAccount] ++ (oracleErrs ++ liquidationErrs)
  | .autoDeleverage .. => [.invalidMarginAccount, .missingPairConfig] ++ (oracleErrs ++ adlErrs)
  | .updatePairs .. => [.missingPairConfig] ++ oracleErrs
  | .setRole .. => [.role]
  | .oraclePush _ => [.badKey, .badSignature]
  | .oracleAddKey .. => [.keyExists]
  | .oracleRemoveKey _ | .oracleRemovePrice _ | .delegatorContingent _ => []
  | .delegatorMaxLock _ | .delegatorMultiplier _ | .tick _ => [.assertion]
  | .delegatorDeposit _ => [.badBucket, .arithmetic]
  | .delegatorWithdraw _ => [.vault]
  | .lockFee _ => [.vault, .maxLock, .arithmetic]

/-! ## Configuration -/

theorem ofDec_errs (x : Dec) : Errs [.invalidConfig] (DFloat.ofDec x) := by
  intro e he
  unfold DFloat.ofDec DFloat.mk' at he
  simp only at he
  repeat' split at he
  all_goals first | (cases he; done) | (cases he; decide)

theorem updateExchange_errs (c : Config) (x : ExchangeConfig) : Errs [.invalidConfig] (c.updateExchange x) := by
  unfold Config.updateExchange ExchangeConfig.compress
  errs
  all_goals exact ofDec_errs _

theorem updatePair_config_errs (c : Config) (x : PairConfig) : Errs [.invalidConfig] (c.updatePair x) := by
  unfold Config.updatePair PairConfig.compress
  errs
  all_goals exact ofDec_errs _

theorem updateCollateral_errs (c : Config) (x : Res × CollateralConfig) :
    Errs [.invalidConfig] (c.updateCollateral x) := by
  unfold Config.updateCollateral CollateralConfig.compress
  errs
  all_goals exact ofDec_errs _

/-! ## Payouts -/

theorem payout_errs {env : Env} {s : State} {x : Dec} (h0 : 0 ≤ x) :
    Errs [.insufficientPoolTokens, .arithmetic] (payout env s x) := by
  unfold payout
  refine errs_bind (errs_require (by decide)) (fun _ hb => ?_)
  rw [require_ok, decide_eq_true_eq] at hb
  refine errs_bind ((pool_addVb_errs _ _).of_arith (by decide)) (fun p hp => ?_)
  refine errs_bind ?_ (fun _ _ => errs_pure _)
  unfold VPool.withdraw
  have hc : p.comp = s.pool := by
    simp only [VPool.addVb, bind_ok, pure_ok] at hp
    obtain ⟨_, -, rfl⟩ := hp; rfl
  refine errs_bind (errs_of_ok ⟨_, takeAmount_down (env.gran_pos BASE) h0 ?_⟩) (fun _ _ => ?_)
  · rw [hc]; exact hb
  · errs

/-! ## Accounts -/

theorem oathLoad_errs {env : Env} {s : State} {ids : List PairId} {l : List Err}
    (hl : ∀ e ∈ [Err.missingPair, .invalidPrice, .priceTooOld, .arithmetic], e ∈ l)
    (h : ∀ p ∈ ids, ∃ x, s.config.pairs.get p = some x) : Errs l (oathLoad env s ids) := by
  unfold oathLoad
  refine errs_bind (errs_of_ok (VConfig.new_total h)) (fun cfg hcfg => ?_)
  refine errs_bind ?_ (fun _ _ => errs_pure _)
  unfold VOracle.new
  refine errs_bind (errs_pure _) (fun _ _ => errs_bind ?_ (fun _ _ => errs_bind ?_ (fun _ _ => errs_pure _)))
  · exact errs_buildM (fun _ _ => errs_expect (hl _ (by decide)))
  · refine errs_buildM (fun _ _ => ?_)
    unfold checkPrice
    refine errs_bind (errs_expect (hl _ (by decide))) (fun _ _ => errs_bind (errs_expect (hl _ (by decide))) (fun _ _ => ?_))
    refine errs_bind (errs_addSeconds (hl _ (by decide)) _ _) (fun _ _ => errs_bind (errs_require (hl _ (by decide))) (fun _ _ => ?_))
    exact errs_bind (errs_require (hl _ (by decide))) (fun _ _ => errs_pure _)

theorem oathLoad_ready {env : Env} {s : State} {ids : List PairId} {c : Ctx} {pool : VPool}
    (h : oathLoad env s ids = Except.ok (c, pool)) : c.Ready ids ∧ pool.Has ids := by
  obtain ⟨-, -, hcfg, ho, rfl⟩ := oathLoad_ok h
  obtain ⟨hres, hdom, -⟩ := VOracle.new_ok ho
  obtain ⟨-, hcolls, hpairs, -⟩ := VConfig.new_ok hcfg
  refine ⟨⟨fun p hp => ?_, fun p hp => ?_, fun r cc hr => ?_⟩, fun p hp => ?_⟩
  · obtain ⟨x, -, hx⟩ := hpairs p hp; exact ⟨_, hx⟩
  · refine hdom p (Or.inl ?_)
    unfold pairFeedsNoMaxAge
    rw [AMap.get_build, if_pos hp]; exact ⟨_, rfl⟩
  · obtain ⟨x, hx⟩ := hdom cc.pairId (Or.inr ⟨r, cc, hr, rfl⟩)
    refine ⟨x, ?_⟩
    unfold VOracle.priceResource VOracle.price
    rw [hres, AMap.get_mapV, hr]
    simp only [Option.map_some, expect, bind, Except.bind, hx]
  · change ∃ pp, (AMap.build (s.pool.position s.now) ids).get p = some pp
    rw [AMap.get_build, if_pos hp]; exact ⟨_, rfl⟩

theorem settleFeeOath_errs {c : Ctx} {pool : VPool} {v : VAccount} {b : Bucket} {ids : List PairId} {l : List Err}
    (hl : ∀ e ∈ [Err.invalidFeeOath, .insufficientMargin, .arithmetic], e ∈ l) (h : c.Ready ids) (hh : pool.Has ids)
    (hids : ∀ p ∈ v.positions.keys, p ∈ ids) : Errs l (settleFeeOath c pool v b) := by
  unfold settleFeeOath
  refine errs_bind (errs_require (hl _ (by decide))) (fun _ _ => ?_)
  refine errs_bind (errs_dneg (hl _ (by decide)) _) (fun _ _ => ?_)
  refine errs_bind ((addVb_errs _ _).of_arith (hl _ (by decide))) (fun v1 hv1 => ?_)
  refine errs_bind ((assertAccountIntegrity_errs h hh ?_).mono (fun e he => hl e ?_)) (fun _ _ => errs_pure _)
  · simp only [VAccount.addVb, bind_ok, pure_ok] at hv1
    obtain ⟨_, -, rfl⟩ := hv1
    exact hids
  · rcases List.mem_cons.mp he with rfl | he
    · decide
    · rcases List.mem_cons.mp he with rfl | he
      · decide
      · cases he

theorem payOath_errs {env : Env} {s : State} {v : VAccount} {oath : Option Bucket} {ids plain : List PairId} {l : List Err}
    (hl : ∀ e ∈ oathErrs oath, e ∈ l) (hids : ∀ p ∈ v.positions.keys, p ∈ ids)
    (hcfg : Errs l (VConfig.new s.config ids)) (hplain : Errs l (VConfig.new s.config plain)) :
    Errs l (payOath env s v oath ids plain) := by
  unfold payOath
  cases oath with
  | none => exact errs_bind hplain (fun _ _ => errs_pure _)
  | some b =>
    simp only
    refine errs_bind ?_ (fun x hx => ?_)
    · cases hc : VConfig.new s.config ids with
      | error e =>
        intro e' he'
        unfold oathLoad at he'
        rw [hc] at he'
        cases he'
        exact hcfg e hc
      | ok cfg =>
        refine oathLoad_errs (fun e he => hl e ?_) (fun p hp => ?_)
        · exact (by decide : ∀ e ∈ [Err.missingPair, .invalidPrice, .priceTooOld, .arithmetic], e ∈ oathList) e he
        · obtain ⟨x, hx, -⟩ := (VConfig.new_ok hc).2.2.1 p hp; exact ⟨x, hx⟩
    · obtain ⟨hr, hh⟩ := oathLoad_ready (c := x.1) (pool := x.2) hx
      refine errs_bind (settleFeeOath_errs (fun e he => hl e ?_) hr hh hids) (fun _ _ => ?_)
      · exact (by decide : ∀ e ∈ [Err.invalidFeeOath, .insufficientMargin, .arithmetic], e ∈ oathList) e he
      · unfold State.burnOath
        exact errs_bind (errs_bind (errs_require (hl _ (show Err.badBucket ∈ oathList by decide))) (fun _ _ => errs_pure _)) (fun _ _ => errs_pure _)

theorem config_none (c : Config) {l : List Err} : Errs l (VConfig.new c []) :=
  errs_of_ok (VConfig.new_total (by simp))

theorem config_errs (c : Config) (ids : List PairId) {l : List Err} (hl : Err.missingPairConfig ∈ l) :
    Errs l (VConfig.new c ids) := by
  unfold VConfig.new
  refine errs_bind (errs_buildM (fun p _ => ?_)) (fun _ _ => errs_pure _)
  unfold Config.pair
  exact errs_bind (errs_expect hl) (fun _ _ => errs_pure _)

theorem withRule_rinv {v : VAccount} (h : RInv v) (p : AMap Rule Permissions) (l : Level) (r : Rule) :
    RInv (setAuth p v l r).2 := by
  refine rinv_congr ?_ h
  unfold setAuth VAccount.reqPart
  cases l <;> rfl

theorem withRule_refOk {v : VAccount} {refs : AMap RefId ReferralData} (h : RefOk refs v) (p : AMap Rule Permissions) (l : Level)
    (r : Rule) : RefOk refs (setAuth p v l r).2 := by
  unfold setAuth RefOk at *; exact h

/-- The account methods: the state after the optional oath payment, with what is known about it. -/
theorem account_errs {env : Env} {cl : Caller} {s : State} (h : Reach env s) {a : Addr} {oath : Option Bucket} {lv : Level}
    {ids : VAccount → List PairId} {plain : List PairId} {α : Type} {f : State × VAccount × VConfig → R α} {l : List Err}
    (hl : ∀ e ∈ [Err.invalidMarginAccount, .role], e ∈ l) (ho : ∀ e ∈ oathErrs oath, e ∈ l)
    (hids : ∀ v : VAccount, ∀ p ∈ v.positions.keys, p ∈ ids v)
    (hcfg : ∀ v, s.load a = Except.ok v → Errs l (VConfig.new s.config (ids v))) (hplain : Errs l (VConfig.new s.config plain))
    (hf : ∀ s1 v1 cfg v, s.load a = Except.ok v → payOath env s v oath (ids v) plain = Except.ok (s1, v1, cfg) → RInv v1 →
      RefOk s1.referrals v1 → Errs l (f (s1, v1, cfg))) :
    Errs l (s.load a >>= fun v => verifyLevel cl v lv >>= fun _ => payOath env s v oath (ids v) plain >>= f) := by
  refine errs_bind ((load_errs h a).mono (fun e he => hl e ?_)) (fun v hv => ?_)
  · rcases List.mem_cons.mp he with rfl | he
    · decide
    · cases he
  refine errs_bind (errs_require (hl _ (by decide))) (fun _ _ => ?_)
  refine errs_bind (payOath_errs ho (hids v) (hcfg v hv) hplain) (fun x hx => ?_)
  obtain ⟨s1, v1, cfg⟩ := x
  obtain ⟨hs1, hv1, -⟩ := payOath_frame hx
  refine hf s1 v1 cfg v hv hx ?_ ?_
  · refine rinv_congr ?_ (load_rinv hv (reach_requestsOk h)).1
    rw [hv1]; rfl
  · have := load_refOk hv
    rw [hs1, hv1]; exact this

theorem pushRequest_errs {v : VAccount} {now : Int} {r : Request} {d x : Nat} {st : Status} {eff : List Addr}
    (hst : st = STATUS_ACTIVE ∨ st = STATUS_DORMANT) : Errs arith (v.pushRequest now r d x st eff) := by
  unfold VAccount.pushRequest
  refine errs_bind (errs_require_true (by simpa using hst)) (fun _ _ => ?_)
  errs

theorem depositTokens_errs {env : Env} {s : State} {v : VAccount} {oath : Option Bucket} {tokens : List Bucket} {l : List Err}
    (hl : ∀ e ∈ [Err.invalidCollateral, .collateralsTooMany, .vault, .arithmetic], e ∈ l) (ho : ∀ e ∈ oathErrs oath, e ∈ l)
    (hids : ∀ p ∈ v.positionIds, ∃ x, s.config.pairs.get p = some x) : Errs l (depositTokens env s v oath tokens) := by
  have hadd : ∀ (cfg : VConfig) (w : W), Errs l (addCollateral cfg w tokens) := by
    intro cfg w
    unfold addCollateral
    refine errs_bind (errs_foldlM' (fun b _ w => ?_)) (fun _ _ => ?_)
    · unfold addBase
      exact errs_bind ((deposit_errs _ _).of_arith (hl _ (by decide))) (fun _ _ => (settleAccount_errs _ _).of_arith (hl _ (by decide)))
    refine errs_bind (errs_require (hl _ (by decide))) (fun _ _ => ?_)
    refine errs_bind ?_ (fun _ _ => errs_bind (errs_require (hl _ (by decide))) (fun _ _ => errs_pure _))
    unfold VAccount.depositCollateral balanceAddBatch vaultPutBatch
    have hb : ∀ (m : AMap Res Dec) (b : Bucket), Errs l (balanceAdd m b) := by
      intro m b
      unfold balanceAdd
      split
      · exact errs_bind (errs_dadd (hl _ (by decide)) _ _) (fun _ _ => errs_pure _)
      · exact errs_pure _
    refine errs_bind (errs_foldlM' (fun b _ m => hb m b)) (fun _ _ => errs_bind (errs_foldlM' (fun b _ m => hb m b)) (fun _ _ => ?_))
    refine errs_bind (errs_foldlM' (fun b _ m => ?_)) (fun _ _ => errs_pure _)
    unfold vaultPut
    exact errs_bind (errs_require (hl _ (by decide))) (fun _ _ => errs_bind (errs_dadd (hl _ (by decide)) _ _) (fun _ _ => errs_pure _))
  unfold depositTokens
  cases oath with
  | none => exact errs_bind (config_none _) (fun _ _ => errs_bind (hadd _ _) (fun _ _ => errs_pure _))
  | some b =>
    simp only
    refine errs_bind (oathLoad_errs (fun e he => ho e ?_) hids) (fun x hx => ?_)
    · exact (by decide : ∀ e ∈ [Err.missingPair, .invalidPrice, .priceTooOld, .arithmetic], e ∈ oathList) e he
    obtain ⟨hr, hh⟩ := oathLoad_ready (c := x.1) (pool := x.2) hx
    refine errs_bind (hadd _ _) (fun w hw => ?_)
    have hkeep : w.pool.positions = x.2.positions ∧ w.acc.positions = v.positions := by
      obtain ⟨w1, acc, h1, -, hd, -, rfl⟩ := addCollateral_ok hw
      have hc := depositCollateral_collOnly hd
      unfold CollOnly at hc
      have : w1.pool.positions = x.2.positions ∧ w1.acc.positions = v.positions := by
        refine foldlM_rel (P := fun a b : W => b.pool.positions = a.pool.positions ∧ b.acc.positions = a.acc.positions)
          (fun _ => ⟨rfl, rfl⟩) (fun a b c h1 h2 => ⟨h2.1.trans h1.1, h2.2.trans h1.2⟩) ?_ _ h1
        intro w b w' h
        simp only [addBase, bind_ok] at h
        obtain ⟨pool, hp, hs⟩ := h
        obtain ⟨-, -, rfl⟩ := VPool.deposit_ok hp
        obtain ⟨-, -, rfl⟩ := settleAccount_ok hs
        exact ⟨rfl, rfl⟩
      refine ⟨this.1, ?_⟩
      simp only
      rw [hc]; exact this.2
    refine errs_bind (settleFeeOath_errs (ids := v.positionIds) (fun e he => ho e ?_) hr ?_ ?_) (fun _ _ => ?_)
    · exact (by decide : ∀ e ∈ [Err.invalidFeeOath, .insufficientMargin, .arithmetic], e ∈ oathList) e he
    · unfold VPool.Has; rw [hkeep.1]; exact hh
    · rw [hkeep.2]; exact fun p hp => hp
    · unfold State.burnOath
      exact errs_bind (errs_bind (errs_require (ho _ (show Err.badBucket ∈ oathList by decide))) (fun _ _ => errs_pure _))
        (fun _ _ => errs_pure _)

/-! ## Debt swaps -/

theorem takeAmount_up {g : Nat} (hg : 0 < g) {avail x : Dec} (h0 : 0 ≤ x) (h1 : x ≤ avail) (hm : avail % (g : Int) = 0) :
    takeAmount g avail x .toInfinity = Except.ok (amountFor g x .toInfinity) := by
  obtain ⟨h2, h3⟩ := amountFor_up hg x
  have hmod : amountFor g x .toInfinity % (g : Int) = 0 := by
    unfold amountFor; simp only; exact Int.mul_emod_left _ _
  rw [takeAmount_ok]
  refine ⟨rfl, le_trans h0 h2, hmod, ?_⟩
  obtain ⟨k, hk⟩ := Int.dvd_of_emod_eq_zero hmod
  obtain ⟨n, hn⟩ := Int.dvd_of_emod_eq_zero hm
  have hg' : (0 : Int) < g := by exact_mod_cast hg
  rw [hk] at h3 ⊢
  rw [hn] at h1 ⊢
  have : k < n + 1 := by
    by_contra hlt
    have : n + 1 ≤ k := by omega
    have := mul_le_mul_of_nonneg_left this hg'.le
    have e : (g : Int) * (n + 1) = g * n + g := by ring
    omega
  exact mul_le_mul_of_nonneg_left (by omega) hg'.le

theorem swapDebt_errs {c : Ctx} {w : W} {r : Res} {pay : Bucket} {ids : List PairId} (h : c.Ready ids)
    (hcoll : CollInv c.env w.acc.collPart) (hp0 : 0 ≤ pay.amt) (hpm : pay.amt % (c.env.gran pay.res : Int) = 0)
    (hprice : ∀ p x, c.orc.prices.get p = some x → 0 < x) (hdisc : ∀ r cc, c.cfg.colls.get r = some cc → 0 ≤ cc.discount) :
    Errs [.invalidPaymentToken, .invalidCollateral, .noDebt, .insufficientBalance, .arithmetic] (swapDebt c w r pay) := by
  unfold swapDebt
  refine errs_bind (errs_require (by decide)) (fun _ hres => ?_)
  rw [require_ok, decide_eq_true_eq] at hres
  refine errs_bind (errs_require (by decide)) (fun _ _ => ?_)
  refine errs_bind (errs_require (by decide)) (fun _ hdebt => ?_)
  rw [require_ok, decide_eq_true_eq] at hdebt
  refine errs_bind (errs_expect (by decide)) (fun cc hcc => ?_)
  rw [expect_ok] at hcc
  refine errs_bind (errs_dmul (by decide) _ _) (fun d1 hd1 => ?_)
  refine errs_bind (errs_dadd (by decide) _ _) (fun disc hdisc' => ?_)
  refine errs_bind (errs_dneg (by decide) _) (fun debt hdb => ?_)
  refine errs_bind (errs_of_ok (h.coll r cc hcc)) (fun pr hpr => ?_)
  refine errs_bind (errs_dmul (by decide) _ _) (fun priceRes hprr => ?_)
  rw [dmul_ok] at hd1 hprr
  rw [dadd_ok] at hdisc'
  rw [dneg_ok] at hdb
  obtain ⟨-, rfl⟩ := hd1
  obtain ⟨-, rfl⟩ := hdisc'
  obtain ⟨-, rfl⟩ := hdb
  obtain ⟨-, rfl⟩ := hprr
  have hpr0 : 0 < pr := by
    simp only [VOracle.priceResource, VOracle.price, bind_ok, expect_ok] at hpr
    obtain ⟨p, -, hp⟩ := hpr
    exact hprice p pr hp
  have hd0 : 0 ≤ mulT cc.discount (decLit 1 1) + decLit 9 1 :=
    add_nonneg (mulT_nonneg (hdisc r cc hcc) (by decide)) (by decide)
  have hprice0 := mulT_nonneg hpr0.le hd0
  generalize mulT pr (mulT cc.discount (decLit 1 1) + decLit 9 1) = priceRes at hprice0 ⊢
  refine errs_bind ?_ (fun x hx => ?_)
  · unfold swapDebtAmounts; errs
  obtain ⟨amount, value⟩ := x
  obtain ⟨hne, hcase⟩ := swapDebtAmounts_ok hx
  have hppos : 0 < priceRes := lt_of_le_of_ne hprice0 (Ne.symm hne)
  have hmin0 : 0 ≤ min pay.amt (-w.acc.vb) := le_min hp0 (by omega)
  have hbal : ∀ x, w.acc.collateralBalances.get r = some x → 0 ≤ x := by
    intro x hx
    have e : w.acc.collateralBalances = w.acc.comp.collateralBalances := hcoll.same
    exact hcoll.nonneg r x (by rw [e] at hx; exact hx)
  have hav0 : 0 ≤ w.acc.collateralAmount r := by
    unfold VAccount.collateralAmount AMap.getD
    cases hg : w.acc.collateralBalances.get r with
    | none => exact le_refl _
    | some x => exact hbal x hg
  have hval : 0 ≤ value ∧ value ≤ pay.amt ∧ 0 ≤ amount ∧ amount ≤ w.acc.collateralAmount r := by
    rcases hcase with ⟨hgt, rfl, rfl⟩ | ⟨hle, rfl, rfl⟩
    · refine ⟨mulT_nonneg hav0 hprice0, le_trans ?_ (min_le_left _ (-w.acc.vb)), hav0, le_refl _⟩
      have h1 : w.acc.collateralAmount r * priceRes ≤ min pay.amt (-w.acc.vb) * ONE := by
        unfold divT at hgt
        have h2 : w.acc.collateralAmount r * priceRes < (min pay.amt (-w.acc.vb) * ONE).tdiv priceRes * priceRes :=
          mul_lt_mul_of_pos_right hgt hppos
        have h3 : (min pay.amt (-w.acc.vb) * ONE).tdiv priceRes * priceRes ≤ min pay.amt (-w.acc.vb) * ONE := by
          rw [Int.tdiv_eq_ediv_of_nonneg (mul_nonneg hmin0 (by decide))]
          exact Int.ediv_mul_le _ hppos.ne'
        omega
      unfold mulT
      rw [Int.tdiv_eq_ediv_of_nonneg (mul_nonneg hav0 hprice0)]
      calc w.acc.collateralAmount r * priceRes / ONE ≤ min pay.amt (-w.acc.vb) * ONE / ONE := Int.ediv_le_ediv (by decide) h1
        _ = _ := Int.mul_ediv_cancel _ (by decide)
    · refine ⟨hmin0, min_le_left _ _, ?_, hle⟩
      unfold divT
      exact Int.tdiv_nonneg (mul_nonneg hmin0 (by decide)) hprice0
  simp only
  rw [hres] at hpm
  refine errs_bind (errs_of_ok ⟨_, takeAmount_up (c.env.gran_pos BASE) hval.1 hval.2.1 hpm⟩) (fun taken _ => ?_)
  refine errs_bind ((deposit_errs _ _).of_arith (by decide)) (fun pool _ => ?_)
  refine errs_bind ((settleAccount_errs _ _).of_arith (by decide)) (fun w1 hw1 => ?_)
  have hcp : w1.acc.collPart = w.acc.collPart := (settleAccount_collPart hw1 :)
  have hcb : w1.acc.collateralBalances = w.acc.collateralBalances := congrArg (fun x => x.1) hcp
  refine errs_bind ?_ (fun y hy => ?_)
  · cases hg : w.acc.collateralBalances.get r with
    | some x =>
      refine Errs.of_arith (withdrawCollateral_errs (by rw [hcp]; exact hcoll) (by simp) (fun e he => ?_)) (by decide)
      rw [List.mem_singleton] at he
      subst he
      refine ⟨hval.2.2.1, x, by rw [hcb]; exact hg, ?_⟩
      have := hval.2.2.2
      unfold VAccount.collateralAmount AMap.getD at this
      rw [hg] at this; exact this
    | none =>
      have ham : amount = 0 := by
        have h1 := hval.2.2.2; have h2 := hval.2.2.1
        unfold VAccount.collateralAmount AMap.getD at h1
        rw [hg] at h1
        simp only [Option.getD_none] at h1
        omega
      have hv0 : (w1.acc.comp.collateral.get r).getD 0 = 0 := by
        have := hcoll.vault r
        have e1 : w.acc.collateralBalances = w.acc.comp.collateralBalances := hcoll.same
        simp only [VAccount.collPart] at this
        rw [← e1, hg] at this
        have e2 : w1.acc.comp.collateral = w.acc.comp.collateral := congrArg (fun x => x.2.2) hcp
        rw [e2, ← this]; rfl
      obtain ⟨m', bs, hb, hr⟩ := vaultTakeBatch_succeeds (env := c.env) (cs := [(r, amount)]) (m := w1.acc.comp.collateral) (by simp)
        (fun e he => by rw [List.mem_singleton] at he; subst he; simp only; rw [hv0, ham]; exact ⟨le_refl _, le_refl _⟩)
      unfold VAccount.withdrawCollateral
      refine errs_bind (errs_of_ok ⟨_, hb⟩) (fun _ _ => ?_)
      unfold balanceSubBatch balanceSub
      refine errs_bind (errs_foldlM' (fun b _ m => ?_)) (fun _ _ => errs_bind (errs_foldlM' (fun b _ m => ?_)) (fun _ _ => errs_pure _))
      · errs
      · errs
  refine errs_bind (errs_expect_some ?_) (fun _ _ => errs_pure _)
  obtain ⟨acc, bs⟩ := y
  simp only [VAccount.withdrawCollateral, vaultTakeBatch, vaultTake, bind_ok, pure_ok, Prod.mk.injEq] at hy
  obtain ⟨_, ⟨_, ⟨_, -, rfl⟩, _, h2, rfl⟩, _, -, _, -, -, h3⟩ := hy
  subst h3
  cases h2
  exact ⟨_, rfl⟩

/-! ## Referral generator -/

theorem checkReferralTokens_errs {env : Env} {s : State} {cfg : VConfig} {ts : List Bucket} {l : List Err}
    (h1 : Err.badBucket ∈ l) (h2 : Err.invalidCollateral ∈ l) : Errs l (checkReferralTokens env s cfg ts) :=
  errs_bind (errs_require h1) (fun _ _ => errs_require h2)

theorem grantReferrals_errs {s : State} {id : RefId} {n : Nat} {l : List Err}
    (hl : ∀ e ∈ [Err.invalidReferral, .referralLimit, .arithmetic], e ∈ l) : Errs l (grantReferrals s id n) := by
  unfold grantReferrals
  refine errs_bind (errs_expect (hl _ (by decide))) (fun _ _ => errs_bind (errs_uadd (hl _ (by decide)) _ _) (fun _ _ => ?_))
  exact errs_bind (errs_require (hl _ (by decide))) (fun _ _ => errs_pure _)

/-- Errors of setting tokens aside for claims. -/
abbrev backingErrs : List Err := [.claimAmount, .insufficientToken, .vault, .arithmetic]

theorem totalClaim_errs (n : Nat) (m : AMap Res Dec) (e : Res × Dec) : Errs backingErrs (totalClaim n m e) := by
  unfold totalClaim; errs

theorem splitTokens_errs (env : Env) (ts : List Bucket) (m : AMap Res Dec) : Errs backingErrs (splitTokens env ts m) := by
  unfold splitTokens
  refine errs_bind (errs_foldlM' (fun b _ m => ?_)) (fun _ _ => errs_bind (errs_foldlM' (fun b _ m => ?_)) (fun _ _ => errs_pure _))
  · unfold mergeToken addClaim; errs
  · unfold takeClaim; errs

theorem vaultPutBatch_errs (m : AMap Res Dec) (bs : List Bucket) : Errs backingErrs (vaultPutBatch m bs) := by
  unfold vaultPutBatch
  refine errs_foldlM' (fun b _ m => ?_)
  unfold vaultPut; errs

theorem addAllocation_errs (env : Env) (g : RefGen) (ts : List Bucket) (id : RefId) (cs : List (Res × Dec)) (n : Nat) :
    Errs backingErrs (g.addAllocation env ts id cs n) := by
  unfold RefGen.addAllocation
  refine errs_bind (errs_foldlM' (fun _ _ _ => totalClaim_errs _ _ _)) (fun _ _ => errs_bind (splitTokens_errs _ _ _) (fun _ _ => ?_))
  exact errs_bind (vaultPutBatch_errs _ _) (fun _ _ => errs_pure _)

theorem createCodes_errs (env : Env) (g : RefGen) (ts : List Bucket) (id : RefId) (hs : AMap Hash (List (Res × Dec) × Nat)) :
    Errs (.multiUseWithClaims :: .codeExists :: backingErrs) (g.createCodes env ts id hs) := by
  have hm : ∀ e ∈ backingErrs, e ∈ Err.multiUseWithClaims :: .codeExists :: backingErrs := by decide
  unfold RefGen.createCodes
  refine errs_bind (errs_foldlM' (fun x _ m => ?_)) (fun _ _ => errs_bind ((splitTokens_errs _ _ _).mono hm) (fun _ _ => ?_))
  · unfold codeTotals
    split
    · exact errs_foldlM' (fun _ _ _ => (totalClaim_errs _ _ _).mono hm)
    · errs
  · refine errs_bind (errs_foldlM' (fun x _ m => ?_)) (fun _ _ => errs_bind ((vaultPutBatch_errs _ _).mono hm) (fun _ _ => errs_pure _))
    unfold insertCode; errs

theorem codesFromAllocation_errs (g : RefGen) (id : RefId) (i : Nat) (hs : List Hash) :
    Errs [.allocNotFound, .allocLimit, .codeExists, .arithmetic] (g.codesFromAllocation id i hs) := by
  unfold RefGen.codesFromAllocation
  refine errs_bind (errs_expect (by decide)) (fun _ _ => errs_bind (errs_expect (by decide)) (fun _ _ => ?_))
  refine errs_bind (errs_uadd (by decide) _ _) (fun _ _ => errs_bind (errs_require (by decide)) (fun _ _ => ?_))
  refine errs_bind (errs_foldlM' (fun x _ m => ?_)) (fun _ _ => errs_pure _)
  unfold insertCode; errs

theorem addReferralAllocation_errs (env : Env) (s : State) (id : RefId) (ts : List Bucket) (cs : List (Res × Dec)) (n : Nat) :
    Errs (.invalidReferral :: .badBucket :: .invalidCollateral :: .referralLimit :: backingErrs)
      (addReferralAllocation env s id ts cs n) := by
  unfold addReferralAllocation
  refine errs_bind (config_none _) (fun _ _ => errs_bind (checkReferralTokens_errs (by decide) (by decide)) (fun _ _ => ?_))
  refine errs_bind (grantReferrals_errs (by decide)) (fun _ _ => errs_bind ((addAllocation_errs _ _ _ _ _ _).mono (by decide)) (fun _ _ => ?_))
  exact errs_pure _

/-! ## Commits -/

theorem refOk_reqOnly {refs : AMap RefId ReferralData} {v v' : VAccount} (h : ReqOnly v v') (h0 : RefOk refs v) :
    RefOk refs v' := by
  unfold ReqOnly at h; rw [h]; unfold RefOk at *; exact h0

theorem depositTokens_commit {env : Env} {s s1 : State} {v : VAccount} {oath : Option Bucket} {tokens : List Bucket} {w : W}
    (h : depositTokens env s v oath tokens = Except.ok (s1, w)) (h1 : RInv v) (h2 : RefOk s.referrals v) :
    ∃ s', s1.commit w = Except.ok s' := by
  obtain ⟨cfg, ids, w0, -, hadd, hs1, -, -, rfl, -⟩ := depositTokens_ok h
  have hr : RInv w0.acc := rinv_congr (addCollateral_reqPart hadd) h1
  have hf : RefOk s.referrals w0.acc := refOk_path (addCollateral_path (ex := cfg.ex) hadd) h2
  refine commit_total (rinv_congr (a := w0.acc) rfl hr) ?_
  rw [hs1]
  unfold RefOk at *
  exact hf

theorem keeperLoad_any_errs (env : Env) (s : State) (ids : List PairId) (u : Option PriceUpdate) :
    Errs (.missingPairConfig :: oracleErrs) (keeperLoad env s ids u) := by
  cases hc : VConfig.new s.config ids with
  | error e =>
    intro e' he'
    unfold keeperLoad at he'
    rw [hc] at he'
    cases he'
    exact config_errs _ _ (by decide) e hc
  | ok cfg =>
    refine (keeperLoad_errs (fun p hp => ?_)).mono (fun e he => List.mem_cons_of_mem _ he)
    obtain ⟨x, hx, -⟩ := (VConfig.new_ok hc).2.2.1 p hp; exact ⟨x, hx⟩

theorem assertTradeSize_errs {cfg : VConfig} {p : PairId} {x : Dec} {l : List Err}
    (hl : ∀ e ∈ [Err.missingPairConfig, .tradeSizeMin, .arithmetic], e ∈ l) : Errs l (assertTradeSize cfg p x) := by
  unfold assertTradeSize VConfig.pair
  refine errs_bind (errs_expect (hl _ (by decide))) (fun _ _ => errs_bind (errs_dabs (hl _ (by decide)) _) (fun _ _ => ?_))
  exact errs_require (hl _ (by decide))

theorem resolveAll_errs {rs : List RequestIndexRef} {i : Nat} {l : List Err} (hl : Err.arithmetic ∈ l) :
    Errs l (resolveAll rs i) := by
  refine errs_mapM (fun r _ => ?_)
  unfold RequestIndexRef.resolve
  split
  · exact errs_okc _
  · exact errs_bind (errs_addSeconds hl _ _) (fun _ _ => errs_pure _)

theorem pushRequest_any_errs {v : VAccount} {now : Int} {r : Request} {d x : Nat} {st : Status} {eff : List Addr} :
    Errs [.invalidStatus, .arithmetic] (v.pushRequest now r d x st eff) := by
  unfold VAccount.pushRequest; errs

theorem pushExit_errs {v : VAccount} {now : Int} {o : OrderArgs} {l : Option PriceLimit} {c : List Nat} :
    Errs arith (pushExit v now o l c) := by
  unfold pushExit
  split
  · exact errs_bind (errs_dneg (by decide) _) (fun _ _ => pushRequest_errs (Or.inr rfl))
  · exact errs_pure _

theorem pushExit_keeps {v v' : VAccount} {now : Int} {o : OrderArgs} {l : Option PriceLimit} {c : List Nat}
    {refs : AMap RefId ReferralData} (h : pushExit v now o l c = Except.ok v') (h1 : RInv v) (h2 : RefOk refs v) :
    RInv v' ∧ RefOk refs v' := by
  unfold pushExit at h
  split at h
  · simp only [bind_ok] at h
    obtain ⟨_, -, h⟩ := h
    exact ⟨(pushRequest_inv h1 h).1, refOk_reqOnly (pushRequest_reqOnly h) h2⟩
  · rw [pure_ok] at h; rw [← h]; exact ⟨h1, h2⟩

theorem cancelRequests_errs (v : VAccount) (is : List Nat) :
    Errs [.missingRequest, .cancelNotActive, .arithmetic] (v.cancelRequests is) := by
  unfold VAccount.cancelRequests VAccount.keeperRequests
  refine errs_bind (errs_buildM (fun i _ => (keeperRequest_errs v i).mono (by decide))) (fun _ _ => errs_foldlM' (fun x _ v => ?_))
  unfold VAccount.cancelOne
  have hph : ∃ p, statusPhases STATUS_CANCELLED = Except.ok p := ⟨_, by
    simp [statusPhases, STATUS_ACTIVE, STATUS_CANCELLED, STATUS_EXECUTED]; rfl⟩
  refine errs_bind (errs_of_ok hph) (fun _ _ => ?_)
  errs
  all_goals exact (moveActive_errs _ _ _ _).of_arith (by decide)

theorem vaultTakeBatch_errs (env : Env) (st : Strategy) (m : AMap Res Dec) (cs : List (Res × Dec)) :
    Errs [.vault] (vaultTakeBatch env st m cs) := by
  induction cs generalizing m with
  | nil => exact errs_okc _
  | cons c cs ih =>
    unfold vaultTakeBatch vaultTake
    refine errs_bind ?_ (fun x _ => ?_)
    · errs
    · obtain ⟨m1, b⟩ := x
      exact errs_bind (ih m1) (fun _ _ => errs_pure _)

/-! ## The table -/

theorem body_errs {env : Env} {cl : Caller} {s : State} (h : Reach env s) (hw : s.RewardWhole env) (op : Op) :
    Errs op.failures (body env cl s op) := by
  cases op with
  | depositAuthority x => unfold body; dsimp only [Op.failures]; errs
  | withdrawAuthority => exact errs_pure _
  | signalUpgrade => exact errs_pure _
  | updateExchangeConfig c => exact errs_bind (updateExchange_errs _ _) (fun _ _ => errs_pure _)
  | updatePairConfigs cs =>
    refine errs_bind ?_ (fun _ _ => errs_pure _)
    unfold Config.updatePairs
    exact errs_foldlM' (fun _ _ _ => updatePair_config_errs _ _)
  | updateCollateralConfigs cs =>
    refine errs_bind ?_ (fun _ _ => errs_pure _)
    unfold Config.updateCollaterals
    exact errs_foldlM' (fun _ _ _ => updateCollateral_errs _ _)
  | removeCollateralConfig r => exact errs_pure _
  | collectTreasury => exact errs_bind (payout_errs (reach_balOk h).treasury) (fun _ _ => errs_pure _)
  | collectFeeDelegator => exact errs_bind (payout_errs (reach_balOk h).delegator) (fun _ _ => errs_pure _)
  | mintReferral id a b m =>
    refine errs_bind ?_ (fun _ _ => errs_pure _)
    unfold mintReferral; dsimp only [Op.failures]; errs
  | mintReferralWithAllocation id a b m t c n =>
    refine errs_bind ?_ (fun s1 hs1 => ?_)
    · unfold mintReferral; dsimp only [Op.failures]; errs
    · intro e he
      have := addReferralAllocation_errs _ _ _ _ _ _ e he
      rcases List.mem_cons.mp this with rfl | this
      · exfalso
        have hid : ∃ d, s1.referrals.get id = some d := by
          simp only [mintReferral, bind_ok, pure_ok] at hs1
          obtain ⟨-, -, -, -, -, -, rfl⟩ := hs1
          exact ⟨_, AMap.get_set_self _ _ _⟩
        have key : Errs (.badBucket :: .invalidCollateral :: .referralLimit :: backingErrs)
            (addReferralAllocation env s1 id t c n) := by
          unfold addReferralAllocation
          refine errs_bind (config_none _) (fun _ _ => errs_bind (checkReferralTokens_errs (by decide) (by decide)) (fun _ _ => ?_))
          refine errs_bind ?_ (fun _ _ => errs_bind ((addAllocation_errs _ _ _ _ _ _).mono (by decide)) (fun _ _ => errs_pure _))
          unfold grantReferrals
          refine errs_bind (errs_expect_some hid) (fun _ _ => ?_)
          errs
        exact absurd (key _ he) (by decide)
      · exact (by decide : ∀ e ∈ [Err.badBucket, .invalidCollateral, .referralLimit] ++ backingErrs, e ∈ [Err.invalidReferralData, .assertion,
          .badBucket, .invalidCollateral, .referralLimit, .claimAmount, .insufficientToken, .vault, .arithmetic]) e this
  | updateReferral id a b m =>
    refine errs_bind ?_ (fun _ _ => errs_pure _)
    unfold updateReferral checkRate; dsimp only [Op.failures]; errs
  | addReferralAllocation id t c n => exact addReferralAllocation_errs _ _ _ _ _ _
  | swapProtocolFee b =>
    change Errs _ (swapProtocolFee env s b)
    unfold swapProtocolFee; dsimp only [Op.failures]
    refine errs_bind (config_none _) (fun cfg hcfg => errs_bind (errs_require (by decide)) (fun _ hres => ?_))
    refine errs_bind (errs_require (by decide)) (fun _ hok => errs_bind (errs_require (by decide)) (fun _ hge => ?_))
    rw [require_ok, decide_eq_true_eq] at hres hge
    rw [require_ok] at hok
    unfold okBucket at hok
    rw [decide_eq_true_eq, hres] at hok
    refine errs_bind (errs_of_ok ⟨_, takeAmount_up (env.gran_pos PROTOCOL) ?_ hge hok.2.1⟩) (fun _ _ => ?_)
    · rw [(VConfig.new_ok hcfg).1]
      have := (c46_exchange_in_force h).2.2.2.2.2.2.2.2.2.2.2.2.2.2.1
      simp only [ONE] at this; omega
    · exact errs_bind ((payout_errs (reach_balOk h).protocol).mono (by decide)) (fun _ _ => errs_pure _)
  | addLiquidity b =>
    change Errs _ (opAddLiquidity env s b)
    unfold opAddLiquidity; dsimp only [Op.failures]
    refine errs_bind (config_none _) (fun cfg hcfg => errs_bind (errs_require (by decide)) (fun _ _ => ?_))
    refine errs_bind ?_ (fun _ _ => errs_bind (errs_dadd (by decide) _ _) (fun _ _ => errs_pure _))
    unfold addLiquidity lpMint
    errs
    all_goals first
      | exact (poolValue_errs _).of_arith (by decide)
      | exact (deposit_errs _ _).of_arith (by decide)
      | exact (settleFeesBasic_errs _ _ _ _).of_arith (by decide)
  | removeLiquidity b =>
    change Errs _ (opRemoveLiquidity env s b)
    unfold opRemoveLiquidity; dsimp only [Op.failures]
    refine errs_bind (config_none _) (fun cfg hcfg => errs_bind (errs_require (by decide)) (fun _ _ => ?_))
    refine errs_bind ?_ (fun _ _ => errs_pure _)
    unfold removeLiquidity VPool.withdraw
    errs
    all_goals first
      | exact (poolValue_errs _).of_arith (by decide)
      | exact (settleFeesBasic_errs _ _ _ _).of_arith (by decide)
      | exact (assertPoolIntegrity_errs _ _ _).mono (by decide)
  | createReferralCodes id t hs =>
    change Errs _ (createReferralCodes env cl s id t hs)
    unfold createReferralCodes sumCounts; dsimp only [Op.failures]
    refine errs_bind (errs_require (by decide)) (fun _ _ => errs_bind (config_none _) (fun _ _ => ?_))
    refine errs_bind (errs_foldlM' (fun _ _ _ => errs_uadd (by decide) _ _)) (fun _ _ => ?_)
    refine errs_bind (checkReferralTokens_errs (by decide) (by decide)) (fun _ _ => ?_)
    refine errs_bind (grantReferrals_errs (by decide)) (fun _ _ => ?_)
    exact errs_bind ((createCodes_errs _ _ _ _ _).mono (by decide)) (fun _ _ => errs_pure _)
  | createReferralCodesFromAllocation id i hs =>
    refine errs_bind ?_ (fun _ _ => errs_pure _)
    unfold createReferralCodesFromAllocation; dsimp only [Op.failures]
    refine errs_bind (errs_require (by decide)) (fun _ _ => ?_)
    exact errs_bind ((codesFromAllocation_errs _ _ _ _).mono (by decide)) (fun _ _ => errs_pure _)
  | collectReferralRewards id =>
    change Errs _ (collectReferralRewards env cl s id)
    unfold collectReferralRewards; dsimp only [Op.failures]
    refine errs_bind (errs_require (by decide)) (fun _ _ => errs_bind (errs_expect (by decide)) (fun d hd => ?_))
    rw [expect_ok] at hd
    exact errs_bind ((payout_errs ((reach_balOk h).referral id d hd).1).mono (by decide)) (fun _ _ => errs_pure _)
  | createAccount a o r t c =>
    change Errs _ (createAccount env s a o r t c)
    unfold createAccount
    refine errs_bind (errs_require (by simp [Op.failures])) (fun _ _ => errs_bind (errs_require (by simp [Op.failures])) (fun _ _ => ?_))
    refine errs_bind ?_ (fun x hx => ?_)
    · unfold claimCode
      split
      · refine errs_bind ?_ (fun _ _ => errs_pure _)
        unfold RefGen.claim
        refine errs_bind (errs_expect (by simp [Op.failures])) (fun _ _ => errs_bind (errs_require (by simp [Op.failures])) (fun _ _ => ?_))
        exact errs_bind ((vaultTakeBatch_errs _ _ _ _).mono (by simp [Op.failures])) (fun _ _ => errs_pure _)
      · exact errs_pure _
    obtain ⟨s1, rid, extra⟩ := x
    have hcl := hx
    have hs1 : s1.referrals = s.referrals ∧ s1.config = s.config ∧ ∀ id, rid = some id → ∃ d, s.referrals.get id = some d := by
      rcases claimCode_ok hx with ⟨-, rfl, -, rfl⟩ | ⟨cd, g, rf, -, hg, rfl, rfl⟩
      · exact ⟨rfl, rfl, fun id hid => by cases hid⟩
      · refine ⟨rfl, rfl, fun id hid => ?_⟩
        cases hid
        simp only [RefGen.claim, bind_ok, pure_ok, expect_ok, Prod.mk.injEq] at hg
        obtain ⟨code, hcode, -, -, -, -, -, rfl, -⟩ := hg
        exact (reach_genKnown h).code _ _ hcode
    have hload : ∃ v, State.load { s1 with accounts := s1.accounts.set a (Account.fresh r rid)
                                           perms := registerAccount s1.perms a r } a = Except.ok v := by
      simp only [State.load, VAccount.new, AMap.get_set_self, expect, bind, Except.bind]
      cases rid with
      | none => exact ⟨_, rfl⟩
      | some id =>
        obtain ⟨d, hd⟩ := hs1.2.2 id rfl
        rw [hs1.1]
        simp only [Account.fresh, loadReferral, expect, hd, bind, Except.bind, pure, Except.pure]
        exact ⟨_, rfl⟩
    refine errs_bind (errs_of_ok hload) (fun v hv => ?_)
    have hvv := hv
    obtain ⟨acc, rd, ha, -, hv'⟩ := load_ok hv
    change (s1.accounts.set a (Account.fresh r rid)).get a = some acc at ha
    rw [AMap.get_set_self] at ha
    cases ha
    refine errs_bind (depositTokens_errs (by simp [Op.failures]) (by intro e he; simp [Op.failures, he]) (fun p hp => ?_)) (fun x hx => ?_)
    · rw [hv'] at hp
      exact absurd hp (by simp [VAccount.positionIds, Account.fresh, AMap.keys, AMap.empty])
    obtain ⟨s2, w⟩ := x
    refine errs_bind (errs_of_ok (depositTokens_commit hx ?_ (load_refOk hvv))) (fun _ _ => errs_pure _)
    refine (load_rinv hvv (fun b acc hb => ?_)).1
    change (s1.accounts.set a (Account.fresh r rid)).get b = some acc at hb
    rw [AMap.get_set] at hb
    split at hb
    · cases hb
      exact ⟨le_refl _, fun i => by simp [Account.fresh]⟩
    · refine reach_requestsOk h b acc ?_
      rcases claimCode_ok hcl with ⟨-, -, -, rfl⟩ | ⟨cd, g, rf, -, -, -, rfl⟩ <;> exact hb
  | createRecoveryKey o a =>
    refine account_errs h (by simp [Op.failures]) (by intro e he; simp [Op.failures, he]) (fun v p hp => hp)
      (fun v hv => errs_of_ok (VConfig.new_total (loaded_ids h hv))) (config_none _) (fun s1 v1 cfg v hv hp hr hf => ?_)
    exact errs_bind (errs_of_ok (commitAcc_total (withRule_rinv hr s1.perms _ _) (withRule_refOk hf s1.perms _ _))) (fun _ _ => errs_pure _)
  | addAuthRule o a l n =>
    refine account_errs h (by simp [Op.failures]) (by intro e he; simp [Op.failures, he]) (fun v p hp => hp)
      (fun v hv => errs_of_ok (VConfig.new_total (loaded_ids h hv))) (config_none _) (fun s1 v1 cfg v hv hp hr hf => ?_)
    refine errs_bind ?_ (fun lv _ => ?_)
    · unfold levelOf
      split
      · exact errs_okc _
      · exact errs_okc _
      · exact errs_okc _
      · intro e he; cases he; simp [Op.failures]
    exact errs_bind (errs_of_ok (commitAcc_total (withRule_rinv hr s1.perms _ _) (withRule_refOk hf s1.perms _ _))) (fun _ _ => errs_pure _)
  | setLevelAuth o a l r =>
    refine account_errs h (by simp [Op.failures]) (by intro e he; simp [Op.failures, he]) (fun v p hp => hp)
      (fun v hv => errs_of_ok (VConfig.new_total (loaded_ids h hv))) (config_none _) (fun s1 v1 cfg v hv hp hr hf => ?_)
    exact errs_bind (errs_of_ok (commitAcc_total (withRule_rinv hr s1.perms _ _) (withRule_refOk hf s1.perms _ _))) (fun _ _ => errs_pure _)
  | addCollateral o a t =>
    change Errs _ (opAddCollateral env cl s o a t)
    unfold opAddCollateral
    refine errs_bind (errs_require (by simp [Op.failures])) (fun _ _ => ?_)
    refine errs_bind ((load_errs h a).mono (by simp [Op.failures])) (fun v hv => errs_bind (errs_require (by simp [Op.failures])) (fun _ _ => ?_))
    refine errs_bind (depositTokens_errs (by simp [Op.failures]) (by intro e he; simp [Op.failures, he]) (loaded_ids h hv)) (fun x hx => ?_)
    obtain ⟨s1, w⟩ := x
    exact errs_bind (errs_of_ok (depositTokens_commit hx (load_rinv hv (reach_requestsOk h)).1 (load_refOk hv)))
      (fun _ _ => errs_pure _)
  | removeCollateralRequest o e a t cs =>
    refine account_errs h (by simp [Op.failures]) (by intro e he; simp [Op.failures, he]) (fun v p hp => hp)
      (fun v hv => errs_of_ok (VConfig.new_total (loaded_ids h hv))) (config_none _) (fun s1 v1 cfg v hv hp hr hf => ?_)
    refine errs_bind (errs_require (by simp [Op.failures])) (fun _ _ => ?_)
    refine errs_bind ((pushRequest_errs (Or.inl rfl)).of_arith (by simp [Op.failures])) (fun v2 hv2 => ?_)
    refine errs_bind (errs_require (by simp [Op.failures])) (fun _ _ => ?_)
    exact errs_bind (errs_of_ok (commitAcc_total (pushRequest_inv hr hv2).1 (refOk_reqOnly (pushRequest_reqOnly hv2) hf)))
      (fun _ _ => errs_pure _)
  | marginOrderRequest o a args act can st =>
    refine account_errs h (by simp [Op.failures]) (by intro e he; simp [Op.failures, he])
      (fun v p hp => mem_insertId.mpr (Or.inr hp))
      (fun v hv => config_errs _ _ (by simp [Op.failures])) (config_errs _ _ (by simp [Op.failures])) (fun s1 v1 cfg v hv hp hr hf => ?_)
    refine errs_bind (assertTradeSize_errs (by simp [Op.failures])) (fun _ _ => ?_)
    refine errs_bind (errs_require (by simp [Op.failures])) (fun _ _ => errs_bind (errs_require (by simp [Op.failures])) (fun _ _ => ?_))
    refine errs_bind (resolveAll_errs (by simp [Op.failures])) (fun _ _ => errs_bind (resolveAll_errs (by simp [Op.failures])) (fun _ _ => ?_))
    refine errs_bind (pushRequest_any_errs.mono (by simp [Op.failures])) (fun v2 hv2 => ?_)
    refine errs_bind (errs_require (by simp [Op.failures])) (fun _ _ => ?_)
    exact errs_bind (errs_of_ok (commitAcc_total (pushRequest_inv hr hv2).1 (refOk_reqOnly (pushRequest_reqOnly hv2) hf)))
      (fun _ _ => errs_pure _)
  | marginOrderTpSlRequest o a args tp sl =>
    refine account_errs h (by simp [Op.failures]) (by intro e he; simp [Op.failures, he])
      (fun v p hp => mem_insertId.mpr (Or.inr hp))
      (fun v hv => config_errs _ _ (by simp [Op.failures])) (config_errs _ _ (by simp [Op.failures])) (fun s1 v1 cfg v hv hp hr hf => ?_)
    refine errs_bind (assertTradeSize_errs (by simp [Op.failures])) (fun _ _ => ?_)
    refine errs_bind ((pushRequest_errs (Or.inl rfl)).of_arith (by simp [Op.failures])) (fun v2 hv2 => ?_)
    refine errs_bind (pushExit_errs.of_arith (by simp [Op.failures])) (fun v3 hv3 => ?_)
    refine errs_bind (pushExit_errs.of_arith (by simp [Op.failures])) (fun v4 hv4 => ?_)
    refine errs_bind (errs_require (by simp [Op.failures])) (fun _ _ => ?_)
    obtain ⟨hr3, hf3⟩ := pushExit_keeps hv3 (pushRequest_inv hr hv2).1 (refOk_reqOnly (pushRequest_reqOnly hv2) hf)
    obtain ⟨hr4, hf4⟩ := pushExit_keeps hv4 hr3 hf3
    exact errs_bind (errs_of_ok (commitAcc_total hr4 hf4)) (fun _ _ => errs_pure _)
  | cancelRequests o a is =>
    refine account_errs h (by simp [Op.failures]) (by intro e he; simp [Op.failures, he]) (fun v p hp => hp)
      (fun v hv => errs_of_ok (VConfig.new_total (loaded_ids h hv))) (config_none _) (fun s1 v1 cfg v hv hp hr hf => ?_)
    refine errs_bind ((cancelRequests_errs _ _).mono (by simp [Op.failures])) (fun v2 hv2 => ?_)
    exact errs_bind (errs_of_ok (commitAcc_total (cancelRequests_inv hr hv2).1 (refOk_reqOnly (cancelRequests_reqOnly hv2) hf)))
      (fun _ _ => errs_pure _)
  | processRequest a i u =>
    refine process_body_errs (l := [Err.invalidMarginAccount, .processBeforeStart, .missingRequest, .processNotActive,
      .processBeforeSubmission] ++ (oracleErrs ++ (orderErrs ++ withdrawalErrs))) h hw a i u ((load_errs h a).mono (by decide))
      (by decide) (fun v hv => (processRequest_virtual_errs _ _ _).mono (by decide)) (fun v v1 r hv hp => ?_)
      (fun v v1 r hv hp => ⟨fun e he _ => ?_, fun e he _ => ?_⟩)
    · exact (keeperLoad_errs (process_pairs h hv hp)).mono (by decide)
    · exact List.mem_append_right _ (List.mem_append_right _ (List.mem_append_left _ he))
    · exact List.mem_append_right _ (List.mem_append_right _ (List.mem_append_right _ he))
  | swapDebt a r p u =>
    change Errs _ (opSwapDebt env s a r p u)
    unfold opSwapDebt; dsimp only [Op.failures]
    refine errs_bind (errs_require (by decide)) (fun _ hok => errs_bind ((load_errs h a).mono (by decide)) (fun v hv => ?_))
    refine errs_bind ((keeperLoad_errs (by simp)).mono (by decide)) (fun x hk => ?_)
    obtain ⟨s1, c, pool⟩ := x
    obtain ⟨hready, hhas⟩ := keeperLoad_ready hk
    obtain ⟨henv, -, hcfg, -, ⟨feeds, hf, ho⟩, hpool, hs1⟩ := keeperLoad_ok hk
    obtain ⟨hres, -, hval⟩ := VOracle.new_ok ho
    obtain ⟨acc, rd, ha, -, hv'⟩ := load_ok hv
    have hcoll : CollInv c.env v.collPart := by
      rw [henv, hv']
      have := reach_collOk h a acc ha
      exact this
    rw [require_ok] at hok
    unfold okBucket at hok
    rw [decide_eq_true_eq] at hok
    refine errs_bind ((swapDebt_errs hready (w := { pool, acc := v, dist := s1.dist }) hcoll hok.1 (by rw [henv]; exact hok.2.1)
      (fun p x hx => (hval p x hx).1) (fun r cc hr => ?_)).mono (by decide)) (fun x hx => ?_)
    · rw [(VConfig.new_ok hcfg).2.1, AMap.get_mapV] at hr
      cases hg : s.config.collaterals.get r with
      | none => rw [hg] at hr; cases hr
      | some y =>
        rw [hg] at hr; cases hr
        have := (c46_collateral_in_force_partial h hg).1
        change 0 ≤ y.decompress.discount
        simp only [ONE] at this; omega
    obtain ⟨w, token, rest, e⟩ := x
    refine errs_bind (errs_of_ok (keeper_commit hk ?_ (refOk_path (swapDebt_path (ex := c.cfg.ex) hx) (load_refOk hv))))
      (fun _ _ => errs_pure _)
    exact rinv_congr (swapDebt_reqPart hx) (load_rinv hv (reach_requestsOk h)).1
  | liquidate a p u =>
    refine liquidate_body_errs (l := [Err.badBucket, .invalidMarginAccount] ++ (oracleErrs ++ liquidationErrs)) h hw a p u (fun e he => ?_) (errs_require (by decide)) ((load_errs h a).mono (by decide)) (fun v hv => ?_)
    · exact (by decide : ∀ e ∈ liquidationErrs, e ∈ [Err.badBucket, .invalidMarginAccount] ++ (oracleErrs ++ liquidationErrs)) e he
    · exact (keeperLoad_errs (loaded_ids h hv)).mono (m := [Err.badBucket, .invalidMarginAccount] ++ (oracleErrs ++ liquidationErrs)) (by decide)
  | autoDeleverage a p u =>
    refine adl_body_errs (l := [Err.invalidMarginAccount, .missingPairConfig] ++ (oracleErrs ++ adlErrs)) h hw a p u (fun e he => ?_) ((load_errs h a).mono (by decide)) (fun v hv => ?_)
    · exact (by decide : ∀ e ∈ adlErrs, e ∈ [Err.invalidMarginAccount, .missingPairConfig] ++ (oracleErrs ++ adlErrs)) e he
    · exact (keeperLoad_any_errs _ _ _ _).mono (l := .missingPairConfig :: oracleErrs)
        (m := [Err.invalidMarginAccount, .missingPairConfig] ++ (oracleErrs ++ adlErrs)) (by decide)
  | updatePairs ids u =>
    refine updatePairs_body_errs (l := [Err.missingPairConfig] ++ oracleErrs) hw ids u (by decide) ?_
    exact keeperLoad_any_errs _ _ _ _
  | setRole r rule =>
    refine errs_bind ?_ (fun _ _ => errs_pure _)
    unfold setRole; dsimp only [Op.failures]; errs
  | oraclePush u =>
    refine errs_bind ?_ (fun _ _ => errs_pure _)
    unfold Oracle.push; dsimp only [Op.failures]; errs
  | oracleAddKey id k =>
    refine errs_bind ?_ (fun _ _ => errs_pure _)
    unfold Oracle.addKey; dsimp only [Op.failures]; errs
  | oracleRemoveKey => exact errs_pure _
  | oracleRemovePrice => exact errs_pure _
  | delegatorMaxLock x =>
    refine errs_bind ?_ (fun _ _ => errs_pure _)
    unfold Delegator.updateMaxLock; dsimp only [Op.failures]; errs
  | delegatorMultiplier x =>
    refine errs_bind ?_ (fun _ _ => errs_pure _)
    unfold Delegator.updateMultiplier; dsimp only [Op.failures]; errs
  | delegatorContingent => exact errs_pure _
  | delegatorDeposit x =>
    refine errs_bind ?_ (fun _ _ => errs_pure _)
    unfold Delegator.deposit; dsimp only [Op.failures]; errs
  | delegatorWithdraw x =>
    refine errs_bind ?_ (fun _ _ => errs_pure _)
    unfold Delegator.withdraw; dsimp only [Op.failures]; errs
  | lockFee x =>
    change Errs _ (lockFee env s x)
    unfold lockFee; dsimp only [Op.failures]; errs
  | tick t => unfold body; dsimp only [Op.failures]; errs


/-- **C53, the complete table.** In every reachable state — the keeper reward being an amount the reward token can represent — a
call that fails fails because the caller lacks the role, because the exchange lacks the authority token, or with one of the errors
listed for that method in `Op.failures`. -/
theorem c53_failures {env : Env} {cl : Caller} {s : State} {op : Op} {e : Err} (h : Reach env s) (hw : s.RewardWhole env)
    (hs : step env cl s op = Except.error e) : e = .role ∨ e = .authority ∨ e ∈ op.failures := by
  by_cases hp : Permitted cl s op
  · rw [step_permitted hp] at hs
    exact Or.inr (Or.inr (body_errs h hw op e hs))
  · rcases step_not_permitted (env := env) hp with h1 | h1 <;> rw [h1] at hs <;> cases hs
    · exact Or.inl rfl
    · exact Or.inr (Or.inl rfl)

theorem Op.no_internal (op : Op) : Err.missingPoolPosition ∉ op.failures ∧ Err.missingPrice ∉ op.failures ∧
    Err.missingFeed ∉ op.failures ∧ Err.outOfBounds ∉ op.failures := by
  have ho : ∀ o, Err.missingPoolPosition ∉ oathErrs o ∧ Err.missingPrice ∉ oathErrs o ∧
      Err.missingFeed ∉ oathErrs o ∧ Err.outOfBounds ∉ oathErrs o := by
    intro o; cases o <;> simp [oathErrs]
  cases op <;> simp [Op.failures, ho, orderErrs, liquidationErrs, adlErrs]

/-- **C53, no internal failure.** No call in any reachable state runs into a pool position that is not loaded, a price that is not
loaded, a collateral without a feed or an index out of bounds. -/
theorem c53_no_internal {env : Env} {cl : Caller} {s : State} {op : Op} {e : Err} (h : Reach env s) (hw : s.RewardWhole env)
    (hs : step env cl s op = Except.error e) :
    e ≠ .missingPoolPosition ∧ e ≠ .missingPrice ∧ e ≠ .missingFeed ∧ e ≠ .outOfBounds := by
  have key := op.no_internal
  rcases c53_failures h hw hs with rfl | rfl | he
  · decide
  · decide
  · exact ⟨fun x => key.1 (x ▸ he), fun x => key.2.1 (x ▸ he), fun x => key.2.2.1 (x ▸ he), fun x => key.2.2.2 (x ▸ he)⟩

/-! ## The hypotheses are met -/

namespace Scn

/-- Does the call fail with exactly this error? -/
def failsWith (s : State) (op : Op) (e : Err) : Bool :=
  match step env anyone s op with
  | .ok _ => false
  | .error e' => decide (e' = e)

theorem failed {s : State} {op : Op} {e : Err} (h : failsWith s op e = true) : step env anyone s op = Except.error e := by
  unfold failsWith at h
  split at h
  · cases h
  · rename_i e' he'
    rw [he', of_decide_eq_true h]

theorem whole (s : State) (h1 : env.gran KEEPER_REWARD = 1 := by rfl) :
    s.RewardWhole env := ⟨by rw [h1]; exact Int.emod_one _, by rw [h1]; exact Int.emod_one _⟩

/-- The prices of pairs 1 and 2 and of the collateral feed are usable in `open_`. -/
theorem open_ready : open_.PricesReady [1, 2] := by
  have hc : open_.config.collaterals.entries.map (fun e => (e.1, e.2.pairId, e.2.priceAgeMax)) = [(10, 7, 600)] := by decide +kernel
  have hcoll : ∀ r cc, open_.config.collaterals.get r = some cc → cc.pairId = 7 ∧ cc.priceAgeMax = 600 := by
    intro r cc h
    have := List.mem_map_of_mem (f := fun e : Res × CollateralConfigC => (e.1, e.2.pairId, e.2.priceAgeMax)) (AMap.get_eq_some.mp h)
    rw [hc, List.mem_singleton] at this
    simp only [Prod.mk.injEq] at this
    exact this.2
  have h1 : open_.oracle.prices.get 1 = some (d 50000, 1000) ∧ open_.oracle.prices.get 2 = some (d 2000, 1000) ∧
      open_.oracle.prices.get 7 = some (d 5 2, 1000) ∧ open_.now = 1030 ∧
      open_.pairAge 1 = some 600 ∧ open_.pairAge 2 = some 600 := by decide +kernel
  obtain ⟨h1, h2, h7, hn, a1, a2⟩ := h1
  refine ⟨fun p hp => ?_, fun r cc h => ?_⟩
  · simp only [List.mem_cons, List.not_mem_nil, or_false] at hp
    rcases hp with rfl | rfl
    · refine ⟨_, by decide, _, h1, fun a ha => ?_, fun r cc hr hp => ?_⟩
      · rw [a1] at ha; cases ha; rw [hn]; decide
      · rw [(hcoll r cc hr).1] at hp; cases hp
    · refine ⟨_, by decide, _, h2, fun a ha => ?_, fun r cc hr hp => ?_⟩
      · rw [a2] at ha; cases ha; rw [hn]; decide
      · rw [(hcoll r cc hr).1] at hp; cases hp
  · rw [(hcoll r cc h).1]
    refine ⟨_, by decide, _, h7, fun a ha => (by cases ha), fun r2 cc2 hr2 _ => ?_⟩
    rw [hn, (hcoll r2 cc2 hr2).2]; decide

/-- `c53_liquidation`: everything but the account's health is in place, and the attempt fails with "sufficient margin". -/
example : Reach env open_ ∧ open_.RewardWhole env ∧ Permitted anyone open_ (.liquidate 100 ⟨BASE, d 3000⟩ none) ∧
    okBucket env open_ ⟨BASE, d 3000⟩ = true ∧
    (∃ acc, open_.accounts.get 100 = some acc ∧ open_.PricesReady acc.positions.keys) ∧
    step env anyone open_ (.liquidate 100 ⟨BASE, d 3000⟩ none) = Except.error .sufficientMargin := by
  refine ⟨open_reach, whole _, ⟨fun r _ => ?_, fun r h => (by cases h), fun _ => by decide +kernel⟩, by decide +kernel, ?_, failed (by decide +kernel)⟩
  · have : (open_.roles .keeperLiquidate) = .allowAll := by decide +kernel
    rename_i h
    cases h
    rw [this]; rfl
  · obtain ⟨acc, h1, h2⟩ := tested (s := open_) (a := 100) (P := fun acc => acc.positions.keys = [1]) (by decide +kernel)
    refine ⟨acc, h1, ?_⟩
    rw [h2]
    exact ⟨fun p hp => open_ready.pairs p (by simp at hp; simp [hp]), open_ready.colls⟩

/-- `c53_order`: the take-profit order of account 100 is active but its price limit (60000) is not reached. -/
example : step env anyone open_ (.processRequest 100 1 none) = Except.error .priceLimit := failed (by decide +kernel)

/-- `c53_expired`: after its expiry the same order is retired, whatever the price. -/
example : ∃ s' o, step env anyone (after open_ [.tick 3000]) (.processRequest 100 1 none) = Except.ok (s', o) ∧ o.ev = .expired ∧
    (s'.accounts.get 100).map (fun a => a.requests.map KeeperRequest.status) = some [STATUS_EXECUTED, STATUS_EXPIRED, STATUS_ACTIVE] :=
  stepped (P := fun s' o => o.ev = .expired ∧ (s'.accounts.get 100).map (fun a => a.requests.map KeeperRequest.status) =
    some [STATUS_EXECUTED, STATUS_EXPIRED, STATUS_ACTIVE]) (by decide +kernel)

/-- `c53_cancel`: both exit orders of account 100 are cancelled. -/
example : ∃ s' o, step env anyone open_ (.cancelRequests none 100 [1, 2]) = Except.ok (s', o) ∧
    (s'.accounts.get 100).map (fun a => a.requests.map KeeperRequest.status) =
      some [STATUS_EXECUTED, STATUS_CANCELLED, STATUS_CANCELLED] :=
  stepped (P := fun s' _ => (s'.accounts.get 100).map (fun a => a.requests.map KeeperRequest.status) =
    some [STATUS_EXECUTED, STATUS_CANCELLED, STATUS_CANCELLED]) (by decide +kernel)

/-- `open_` after the crash and the liquidation of account 100. -/
def seized : State := after open_ [.tick 1040, .liquidate 100 ⟨BASE, d 3000⟩ (some crash)]

theorem seized_reach : Reach env seized := after_reach open_reach _

/-- **C53, why `c53_cancel` asks for a valid index.** A liquidation invalidates the pending requests but leaves them marked
Active; cancelling such a request when none is valid fails with an arithmetic error (the counter of active requests would drop
below zero) instead of a message. -/
theorem c53_cancel_invalidated : Reach env seized ∧
    (∃ acc, seized.accounts.get 100 = some acc ∧ acc.validStart = 3 ∧
      (acc.requests[1]?).map KeeperRequest.status = some STATUS_ACTIVE) ∧
    step env anyone seized (.cancelRequests none 100 [1]) = Except.error .arithmetic :=
  ⟨seized_reach, tested (P := fun acc => acc.validStart = 3 ∧ (acc.requests[1]?).map KeeperRequest.status = some STATUS_ACTIVE)
    (by decide +kernel), failed (by decide +kernel)⟩

/-- `c53_adl`: the pool is balanced, nobody can be deleveraged. -/
example : step env anyone open_ (.autoDeleverage 100 1 none) = Except.error .adlSkewTooLow := failed (by decide +kernel)

/-- `c53_failures` is about calls that do fail: a fee oath that is not one. -/
example : step env anyone open_ (.addCollateral (some ⟨BASE, d 1⟩) 100 []) = Except.error .invalidFeeOath :=
  failed (by decide +kernel)

end Scn

end Perp
