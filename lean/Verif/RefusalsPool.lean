import Verif.RefusalsDeposit

/-!
# Every refusal has its reason, for the pool, debt swaps and funding updates (C54)
-/

namespace Perp

/-- **Specification.** Why collecting `amount` from the pool can be refused: the pool does not hold that many tokens. -/
def PayoutRefused (s : State) (amount : Dec) : Err → Prop
  | .insufficientPoolTokens => s.pool.baseTokens < amount
  | .arithmetic => True
  | _ => False

/-- **Specification.** Why `collect_referral_rewards` can be refused. -/
def RewardsRefused (cl : Caller) (s : State) (id : RefId) : Err → Prop
  | .invalidReferral => cl.refs id = false ∨ s.referrals.get id = none
  | e => ∃ d, s.referrals.get id = some d ∧ PayoutRefused s d.balance e

/-- **Specification.** Why `swap_protocol_fee` can be refused. -/
def ProtocolSwapRefused (env : Env) (s : State) (b : Bucket) : Err → Prop
  | .invalidProtocolToken => b.res ≠ PROTOCOL
  | .badBucket => okBucket env s b = false
  | .insufficientPayment => b.amt < s.config.exchange.decompress.protocolBurnAmount
  | e => PayoutRefused s s.dist.protocol e

/-- The LP tokens a payment of `x` buys: the payment less the fee, at the published price. -/
def State.lpFor (s : State) (x : Dec) : Dec :=
  divT (x - mulT x s.config.exchange.decompress.feeLiquidityAdd) s.lpPrice

/-- **Specification.** Why `add_liquidity` can be refused. -/
def AddLiquidityRefused (env : Env) (s : State) (b : Bucket) : Err → Prop
  | .badBucket => okBucket env s b = false
  | .invalidPaymentToken => b.res ≠ BASE
  | .vault => s.lpFor b.amt < 0 ∨ s.lpFor b.amt % (env.gran LP : Int) ≠ 0
  | .arithmetic => True
  | _ => False

/-- The price of an LP token at which it is redeemed. -/
def State.lpRedeemPrice (s : State) : Dec := divT (max s.pool.value 0) s.lpSupply

/-- The fee of redeeming `x` LP tokens. -/
def State.lpRedeemFee (s : State) (x : Dec) : Dec :=
  mulT (mulT x s.lpRedeemPrice) s.config.exchange.decompress.feeLiquidityRemove

/-- The base tokens `x` LP tokens are redeemed for, before rounding. -/
def State.lpRedeemed (s : State) (x : Dec) : Dec := mulT x s.lpRedeemPrice - s.lpRedeemFee x

/-- The skew ratio after redeeming `x` LP tokens: the pool loses what is paid and the shares of the fee that leave it. -/
def State.ratioAfterRedeem (env : Env) (s : State) (x : Dec) : Dec :=
  divT s.pool.skewAbsSnap
    (max (s.pool.value - amountFor (env.gran BASE) (s.lpRedeemed x) .toZero
      - mulT (s.lpRedeemFee x) s.config.exchange.decompress.feeShareProtocol
      - mulT (s.lpRedeemFee x) s.config.exchange.decompress.feeShareTreasury) ONE)

/-- **Specification.** Why `remove_liquidity` can be refused. -/
def RemoveLiquidityRefused (env : Env) (s : State) (b : Bucket) : Err → Prop
  | .badBucket => okBucket env s b = false
  | .invalidLpToken => b.res ≠ LP
  | .insufficientPoolTokens => s.pool.baseTokens < s.lpRedeemed b.amt
  | .vault => amountFor (env.gran BASE) (s.lpRedeemed b.amt) .toZero < 0
  | .skewTooHigh => s.config.exchange.decompress.skewRatioCap ≤ s.ratioAfterRedeem env b.amt
  | .arithmetic => True
  | _ => False

/-- **Specification.** Why `swap_debt` can be refused. -/
def SwapDebtRefused (env : Env) (s : State) (a : Addr) (r : Res) (b : Bucket) (u : Option PriceUpdate) : Err → Prop
  | .badBucket => okBucket env s b = false
  | .invalidMarginAccount => s.accounts.get a = none
  | .invalidPaymentToken => b.res ≠ BASE
  | .invalidCollateral => s.config.collaterals.get r = none
  | .noDebt => ∃ acc, s.accounts.get a = some acc ∧ 0 ≤ acc.vb
  | .insufficientBalance => ∃ acc, s.accounts.get a = some acc ∧ acc.collateralBalances.get r = none
  | e => PricesRefused env s [] u e

/-- **Specification.** Why `update_pairs` can be refused. -/
def UpdatePairsRefused (env : Env) (s : State) (ids : List PairId) (u : Option PriceUpdate) : Err → Prop
  | .missingPairConfig => ∃ p ∈ ids, s.config.pairs.get p = none
  | e => PricesRefused env s ids u e

theorem payout_fails {env : Env} {s : State} {x : Dec} (h0 : 0 ≤ x) : Fails (PayoutRefused s x) (payout env s x) := by
  intro e he
  have h1 := payout_errs h0 e he
  simp only [List.mem_cons, List.not_mem_nil, or_false] at h1
  rcases h1 with rfl | rfl
  · refine not_le.mp fun hle => ?_
    have : Errs arith (payout env s x) := by
      unfold payout
      refine errs_bind (errs_require_true (decide_eq_true hle)) (fun _ _ => ?_)
      refine errs_bind (pool_addVb_errs _ _) (fun p hp => ?_)
      refine errs_bind ?_ (fun _ _ => errs_pure _)
      unfold VPool.withdraw
      have hc : p.comp = s.pool := by
        simp only [VPool.addVb, bind_ok, pure_ok] at hp
        obtain ⟨_, -, rfl⟩ := hp; rfl
      refine errs_bind (errs_of_ok ⟨_, takeAmount_down (env.gran_pos BASE) h0 ?_⟩) (fun _ _ => ?_)
      · rw [hc]; exact hle
      · errs
    exact absurd (this _ he) (by decide)
  · trivial

variable {env : Env} {cl : Caller} {s : State}

theorem collectTreasury_fails (h : Reach env s) : Fails (PayoutRefused s s.dist.treasury) (collectTreasury env s) :=
  fails_bind (payout_fails (reach_balOk h).treasury) (fun _ _ => fails_pure _)

theorem collectFeeDelegator_fails (h : Reach env s) : Fails (PayoutRefused s s.delegator.vb) (collectFeeDelegator env s) :=
  fails_bind (payout_fails (reach_balOk h).delegator) (fun _ _ => fails_pure _)

theorem collectReferralRewards_fails (h : Reach env s) (id : RefId) :
    Fails (RewardsRefused cl s id) (collectReferralRewards env cl s id) := by
  unfold collectReferralRewards
  refine fails_bind (fails_require (fun h => Or.inl h)) (fun _ _ => ?_)
  refine fails_bind (fails_expect (fun h => Or.inr h)) (fun d hd => ?_)
  rw [expect_ok] at hd
  refine fails_bind (Fails.mono (payout_fails ((reach_balOk h).referral id d hd).1) (fun e he => ?_)) (fun _ _ => fails_pure _)
  cases e <;> first | exact ⟨d, hd, he⟩ | exact he.elim

theorem swapProtocolFee_fails (h : Reach env s) (b : Bucket) :
    Fails (ProtocolSwapRefused env s b) (swapProtocolFee env s b) := by
  unfold swapProtocolFee
  refine fails_bind (fails_of_ok (VConfig.new_total (by simp))) (fun cfg hcfg => fails_bind (fails_require (fun hn => ?_)) (fun _ hres => ?_))
  · simpa [ProtocolSwapRefused] using hn
  refine fails_bind (fails_require (fun hn => hn)) (fun _ hok => fails_bind (fails_require (fun hn => ?_)) (fun _ hge => ?_))
  · rw [(VConfig.new_ok hcfg).1] at hn
    simpa [ProtocolSwapRefused] using hn
  rw [require_ok, decide_eq_true_eq] at hres hge
  rw [require_ok] at hok
  unfold okBucket at hok
  rw [decide_eq_true_eq, hres] at hok
  refine fails_bind (fails_of_ok ⟨_, takeAmount_up (env.gran_pos PROTOCOL) ?_ hge hok.2.1⟩) (fun _ _ => ?_)
  · rw [(VConfig.new_ok hcfg).1]
    have := (c46_exchange_in_force h).2.2.2.2.2.2.2.2.2.2.2.2.2.2.1
    simp only [ONE] at this; omega
  refine fails_bind (Fails.mono (payout_fails (reach_balOk h).protocol) (fun e he => ?_)) (fun _ _ => fails_pure _)
  cases e <;> first | exact he | exact he.elim

theorem mintAmount_fails {g : Nat} {x : Dec} {P : Err → Prop} (h : x < 0 ∨ x % (g : Int) ≠ 0 → P .vault)
    (har : P .arithmetic) : Fails P (mintAmount g x) := by
  unfold mintAmount
  split
  · split
    · exact fails_pure _
    · intro e he; cases he; exact har
  · rename_i hn
    intro e he
    cases he
    refine h ?_
    rw [not_and_or, not_le] at hn
    exact hn

theorem addLiquidity_fails (b : Bucket) : Fails (AddLiquidityRefused env s b) (opAddLiquidity env s b) := by
  have har : AddLiquidityRefused env s b .arithmetic := trivial
  unfold opAddLiquidity
  refine fails_bind (fails_of_ok (VConfig.new_total (by simp))) (fun cfg hcfg => fails_bind (fails_require (fun hn => hn)) (fun _ _ => ?_))
  refine fails_bind ?_ (fun _ _ => fails_bind ((errs_dadd (l := arith) (by decide) _ _).arithmetic har) (fun _ _ => fails_pure _))
  unfold addLiquidity
  refine fails_bind (fails_require (fun hn => ?_)) (fun _ _ => ?_)
  · simpa [AddLiquidityRefused] using hn
  refine fails_bind ((errs_dmul (l := arith) (by decide) _ _).arithmetic har) (fun fee hfee => ?_)
  refine fails_bind ((poolValue_errs _).arithmetic har) (fun pv hpv => ?_)
  refine fails_bind ((errs_dsub (l := arith) (by decide) _ _).arithmetic har) (fun x hx => ?_)
  refine fails_bind (Errs.arithmetic (by unfold lpMint; errs) har) (fun r hr => ?_)
  refine fails_bind ((deposit_errs _ _).arithmetic har) (fun _ _ => ?_)
  refine fails_bind (mintAmount_fails (fun hn => ?_) har) (fun _ _ => fails_bind ((settleFeesBasic_errs _ _ _ _).arithmetic har) (fun _ _ => fails_pure _))
  obtain ⟨r1, r2⟩ := r
  have e : r1 = s.lpFor b.amt := by
    rw [dmul_ok] at hfee
    rw [dsub_ok] at hx
    have hpv := poolValue_ok hpv
    obtain ⟨-, rfl⟩ := hx
    obtain ⟨-, rfl⟩ := hfee
    unfold State.lpFor State.lpPrice
    rw [(VConfig.new_ok hcfg).1] at hr
    rcases lpMint_ok hr with ⟨a, e, -⟩ | ⟨a, e1, e2, e3⟩
    · rw [if_pos a, divT_one]; exact e
    · rw [if_neg a, e3, e1, hpv]; rfl
  rw [e] at hn
  exact hn

theorem removeLiquidity_fails (h : Reach env s) (b : Bucket) :
    Fails (RemoveLiquidityRefused env s b) (opRemoveLiquidity env s b) := by
  have har : RemoveLiquidityRefused env s b .arithmetic := trivial
  unfold opRemoveLiquidity
  refine fails_bind (fails_of_ok (VConfig.new_total (by simp))) (fun cfg hcfg => fails_bind (fails_require (fun hn => hn)) (fun _ _ => ?_))
  refine fails_bind ?_ (fun _ _ => fails_pure _)
  have hex := (VConfig.new_ok hcfg).1
  unfold removeLiquidity
  refine fails_bind (fails_require (fun hn => ?_)) (fun _ _ => ?_)
  · simpa [RemoveLiquidityRefused] using hn
  refine fails_bind ((poolValue_errs _).arithmetic har) (fun pv hpv => ?_)
  refine fails_bind ((errs_ddiv (l := arith) (by decide) _ _).arithmetic har) (fun price hprice => ?_)
  refine fails_bind ((errs_dmul (l := arith) (by decide) _ _).arithmetic har) (fun value hvalue => ?_)
  refine fails_bind ((errs_dmul (l := arith) (by decide) _ _).arithmetic har) (fun fee hfee => ?_)
  refine fails_bind ((errs_dsub (l := arith) (by decide) _ _).arithmetic har) (fun x hx => ?_)
  have hpv := poolValue_ok hpv
  rw [ddiv_ok] at hprice
  rw [dmul_ok] at hvalue hfee
  rw [dsub_ok] at hx
  obtain ⟨-, -, hprice⟩ := hprice
  have e0 : price = s.lpRedeemPrice := by rw [← hprice, hpv]; rfl
  have e1 : fee = s.lpRedeemFee b.amt := by rw [← hfee.2, ← hvalue.2, e0, hex]; rfl
  have e2 : x = s.lpRedeemed b.amt := by rw [← hx.2, e1, ← hvalue.2, e0]; rfl
  refine fails_bind (fails_require (fun hn => ?_)) (fun _ hle => ?_)
  · rw [decide_eq_false_iff_not, not_le, e2] at hn
    exact hn
  rw [require_ok, decide_eq_true_eq] at hle
  refine fails_bind ?_ (fun r hr => ?_)
  · unfold VPool.withdraw
    refine fails_bind ?_ (fun _ _ => Errs.arithmetic (by errs) har)
    refine takeAmount_negative (env.gran_pos BASE) hle (reach_base h) (fun hlt => ?_)
    change amountFor (env.gran BASE) (s.lpRedeemed b.amt) .toZero < 0
    rw [← e2]; exact hlt
  obtain ⟨p1, tok⟩ := r
  obtain ⟨ht, rfl⟩ := VPool.withdraw_ok hr
  refine fails_bind ((settleFeesBasic_errs _ _ _ _).arithmetic har) (fun r hr2 => ?_)
  obtain ⟨p2, d2, f2⟩ := r
  obtain ⟨rfl, rfl, rfl⟩ := settleFeesBasic_ok hr2
  refine fails_bind ?_ (fun _ _ => ?_)
  · unfold assertPoolIntegrity
    refine fails_bind ((skewRatio_errs _).arithmetic har) (fun ratio hratio => fails_require (fun hn => ?_))
    rw [decide_eq_false_iff_not, not_or, not_lt] at hn
    have hn := hn.1
    rw [skewRatio_ok hratio, hex] at hn
    change _ ≤ s.ratioAfterRedeem env b.amt
    unfold State.ratioAfterRedeem
    rw [takeAmount_ok] at ht
    rw [← e1, ← e2, ht.1]
    refine le_trans hn (le_of_eq ?_)
    congr 2
    simp only [Pool.value, VPool.new]
    ring
  · refine fails_bind ((errs_dneg (l := arith) (by decide) _).arithmetic har) (fun _ _ => ?_)
    exact fails_bind ((errs_dneg (l := arith) (by decide) _).arithmetic har) (fun _ _ => fails_pure _)

theorem Needs.of_mem {s : State} {ids ids' : List PairId} (h : ∀ p ∈ ids, p ∈ ids') {p : PairId} {age : Int}
    (hn : s.Needs ids p age) : s.Needs ids' p age := by
  rcases hn with ⟨h1, h2⟩ | h2
  · exact Or.inl ⟨h p h1, h2⟩
  · exact Or.inr h2

theorem PricesRefused.of_mem {ids ids' : List PairId} {u : Option PriceUpdate} {e : Err} (h : ∀ p ∈ ids, p ∈ ids')
    (he : PricesRefused env s ids u e) : PricesRefused env s ids' u e := by
  cases e <;> first | exact he | skip
  case missingPair => obtain ⟨p, age, h1, h2⟩ := he; exact ⟨p, age, Needs.of_mem h h1, h2⟩
  case invalidPrice => obtain ⟨p, age, x, t, h1, h2⟩ := he; exact ⟨p, age, x, t, Needs.of_mem h h1, h2⟩
  case priceTooOld => obtain ⟨p, age, x, t, h1, h2⟩ := he; exact ⟨p, age, x, t, Needs.of_mem h h1, h2⟩

theorem updatePairs_fails (hw : s.RewardWhole env) (ids : List PairId) (u : Option PriceUpdate) :
    Fails (UpdatePairsRefused env s ids u) (opUpdatePairs env s ids u) := by
  intro e he
  by_cases har : e = .arithmetic
  · subst har; trivial
  cases hk : keeperLoad env s ids.dedup u with
  | ok r =>
    have := updatePairs_body_errs (l := arith) hw ids u (by decide) (errs_of_ok ⟨r, hk⟩) e he
    rw [List.mem_singleton] at this
    exact absurd this har
  | error e' =>
    simp only [opUpdatePairs] at he
    rw [hk] at he
    cases he
    refine keeperLoad_any_fails (P := UpdatePairsRefused env s ids u) (fun p hp hn => ⟨p, List.mem_dedup.mp hp, hn⟩)
      (fun e he => ?_) e hk
    have := he.of_mem (ids' := ids) (fun p hp => List.mem_dedup.mp hp)
    cases e <;> first | exact this | exact this.elim

theorem swapDebt_fails (h : Reach env s) (hw : s.RewardWhole env) (a : Addr) (r : Res) (b : Bucket) (u : Option PriceUpdate) :
    Fails (SwapDebtRefused env s a r b u) (opSwapDebt env s a r b u) := by
  suffices hk : Fails (fun e => e ∈ (Op.swapDebt a r b u).failures → SwapDebtRefused env s a r b u e)
      (opSwapDebt env s a r b u) from
    fun e he => hk e he (body_errs (cl := ⟨fun _ => true, fun _ => true⟩) h hw (.swapDebt a r b u) e he)
  have har : Err.arithmetic ∈ (Op.swapDebt a r b u).failures → SwapDebtRefused env s a r b u .arithmetic := fun _ => trivial
  unfold opSwapDebt
  refine fails_bind (fails_require (fun hn _ => hn)) (fun _ _ => fails_bind (load_fails h a (fun hn _ => hn)) (fun v hv => ?_))
  refine fails_bind (Fails.mono (keeperLoad_fails (by simp)) (fun e he _ => ?_)) (fun x hk => ?_)
  · cases e <;> first | exact he | exact he.elim
  obtain ⟨s1, c, pool⟩ := x
  obtain ⟨hready, hhas⟩ := keeperLoad_ready hk
  obtain ⟨henv, -, hcfg, -, ⟨feeds, hf, ho⟩, hpool, hs1⟩ := keeperLoad_ok hk
  obtain ⟨acc, rd, ha, -, hv'⟩ := load_ok hv
  have hnone : ∀ r, c.cfg.colls.get r = none → s.config.collaterals.get r = none := by
    intro r hr
    rw [(VConfig.new_ok hcfg).2.1, AMap.get_mapV] at hr
    cases hg : s.config.collaterals.get r with
    | none => rfl
    | some y => rw [hg] at hr; cases hr
  refine fails_bind ?_ (fun x hx => ?_)
  · unfold swapDebt
    refine fails_bind (fails_require (fun hn _ => ?_)) (fun _ _ => ?_)
    · simpa [SwapDebtRefused] using hn
    refine fails_bind (fails_require (fun hn _ => ?_)) (fun _ _ => ?_)
    · refine hnone r ?_
      cases hg : c.cfg.colls.get r with
      | none => rfl
      | some y => rw [AMap.has_iff.mpr ⟨y, hg⟩] at hn; cases hn
    refine fails_bind (fails_require (fun hn _ => ?_)) (fun _ _ => ?_)
    · rw [decide_eq_false_iff_not, not_lt] at hn
      refine ⟨acc, ha, ?_⟩
      rw [hv'] at hn; exact hn
    refine fails_bind (fails_expect (fun hn _ => hnone r hn)) (fun cc hcc => ?_)
    rw [expect_ok] at hcc
    refine fails_bind ((errs_dmul (l := arith) (by decide) _ _).arithmetic har) (fun d1 hd1 => ?_)
    refine fails_bind ((errs_dadd (l := arith) (by decide) _ _).arithmetic har) (fun disc hdisc' => ?_)
    refine fails_bind ((errs_dneg (l := arith) (by decide) _).arithmetic har) (fun debt hdb => ?_)
    refine fails_bind (fails_of_ok (hready.coll r cc hcc)) (fun pr hpr => ?_)
    refine fails_bind ((errs_dmul (l := arith) (by decide) _ _).arithmetic har) (fun priceRes hprr => ?_)
    refine fails_bind (Errs.arithmetic (by unfold swapDebtAmounts; errs) har) (fun x hx => ?_)
    obtain ⟨amount, value⟩ := x
    have hvault : ∀ {α : Type} {x : R α}, Errs [.vault] x →
        Fails (fun e => e ∈ (Op.swapDebt a r b u).failures → SwapDebtRefused env s a r b u e) x := by
      intro α x hx e he hm
      have := hx e he
      rw [List.mem_singleton] at this
      subst this
      exact absurd hm (by simp [Op.failures, oracleErrs])
    refine fails_bind (hvault (by errs)) (fun taken _ => ?_)
    refine fails_bind ((deposit_errs _ _).arithmetic har) (fun pool _ => ?_)
    refine fails_bind ((settleAccount_errs _ _).arithmetic har) (fun w1 hw1 => ?_)
    refine fails_bind ?_ (fun y hy => ?_)
    · have hb1 : w1.acc.comp.collateralBalances = acc.collateralBalances ∧ w1.acc.collateralBalances = acc.collateralBalances := by
        rw [settleAccount_ok hw1, hv']; exact ⟨rfl, rfl⟩
      unfold VAccount.withdrawCollateral
      refine fails_bind (hvault (vaultTakeBatch_errs _ _ _ _)) (fun z hz => ?_)
      obtain ⟨vs, bs⟩ := z
      simp only [vaultTakeBatch, vaultTake, bind_ok, pure_ok, Prod.mk.injEq] at hz
      obtain ⟨_, ⟨x, -, rfl⟩, _, h2, rfl, rfl⟩ := hz
      cases h2
      have hsub : ∀ m : AMap Res Dec, m = acc.collateralBalances → Fails (fun e => e ∈ (Op.swapDebt a r b u).failures →
          SwapDebtRefused env s a r b u e) (balanceSubBatch m [⟨r, x⟩]) := by
        rintro m rfl
        unfold balanceSubBatch balanceSub
        rw [List.foldlM_cons]
        refine fails_bind (fails_bind (fails_expect (fun hn _ => ⟨acc, ha, hn⟩)) (fun _ _ => ?_)) (fun _ _ => fails_pure _)
        exact fails_bind ((errs_dsub (l := arith) (by decide) _ _).arithmetic har) (fun _ _ => fails_pure _)
      exact fails_bind (hsub _ hb1.1) (fun _ _ => fails_bind (hsub _ hb1.2) (fun _ _ => fails_pure _))
    · exact fails_bind (hvault (by errs)) (fun _ _ => fails_pure _)
  obtain ⟨w, token, rest, e⟩ := x
  refine fails_bind (fails_of_ok (keeper_commit hk ?_ (refOk_path (swapDebt_path (ex := c.cfg.ex) hx) (load_refOk hv))))
    (fun _ _ => fails_pure _)
  exact rinv_congr (swapDebt_reqPart hx) (load_rinv hv (reach_requestsOk h)).1

end Perp
