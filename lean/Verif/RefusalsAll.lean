import Verif.RefusalsDeposit
import Verif.RefusalsAdmin
import Verif.Executes

/-!
# Every refusal has its reason: the table of all calls (C54)
-/

namespace Perp

/-- **Specification.** Why a call that the caller has the role for can be refused.  `Err.arithmetic` stands for a number outside
the range of the decimal type. -/
def Op.Refused (env : Env) (cl : Caller) (s : State) : Op → Err → Prop
  -- configuration
  | .depositAuthority x, e => (e = .badBucket ∧ x < 0) ∨ (e = .arithmetic ∧ ¬ InRange (s.authority + x))
  | .withdrawAuthority, _ => False
  | .signalUpgrade _, _ => False
  | .updateExchangeConfig c, e => ExchangeConfigRefused c e
  | .updatePairConfigs cs, e => PairConfigRefused cs e
  | .updateCollateralConfigs cs, e => CollateralConfigRefused cs e
  | .removeCollateralConfig _, _ => False
  -- administration
  | .collectTreasury, e => PayoutRefused s s.dist.treasury e
  | .collectFeeDelegator, e => PayoutRefused s s.delegator.vb e
  | .mintReferral id a b _, e => MintReferralRefused s id a b e
  | .mintReferralWithAllocation id a b m t c n, e => MintAllocationRefused env s id a b m t c n e
  | .updateReferral id a b m, e => UpdateReferralRefused s id a b m e
  | .addReferralAllocation id t c n, e => AllocationRefused env s id t c n e
  -- users
  | .swapProtocolFee b, e => ProtocolSwapRefused env s b e
  | .addLiquidity b, e => AddLiquidityRefused env s b e
  | .removeLiquidity b, e => RemoveLiquidityRefused env s b e
  | .createReferralCodes id t hs, e => CodesRefused env cl s id t hs e
  | .createReferralCodesFromAllocation id i hs, e => AllocCodesRefused cl s id i hs e
  | .collectReferralRewards id, e => RewardsRefused cl s id e
  | .createAccount a o r t c, e => CreateRefused env s a o r t c e
  | .createRecoveryKey o a, e => HolderRefused env cl s a o .l1 (fun acc => acc.positions.keys) NoReason e
  | .addAuthRule o a l _, e => HolderRefused env cl s a o .l1 (fun acc => acc.positions.keys) (LevelRefused l) e
  | .setLevelAuth o a _ _, e => HolderRefused env cl s a o .l1 (fun acc => acc.positions.keys) NoReason e
  | .addCollateral o a t, e => AddRefused env cl s a o t e
  | .removeCollateralRequest o x a _ c, e =>
      HolderRefused env cl s a o .l2 (fun acc => acc.positions.keys) (RemovalRefused s c x) e
  | .marginOrderRequest o a args act can st, e =>
      HolderRefused env cl s a o .l3 (fun acc => insertId acc.positions.keys args.pair)
        (OrderRequestRefused s args act can st) e
  | .marginOrderTpSlRequest o a args tp sl, e =>
      HolderRefused env cl s a o .l3 (fun acc => insertId acc.positions.keys args.pair) (TpSlRefused s args tp sl) e
  | .cancelRequests o a is, e => HolderRefused env cl s a o .l3 (fun acc => acc.positions.keys) (CancelRefused is) e
  -- keepers
  | .processRequest a i u, e => RequestRefused env s a i u e
  | .swapDebt a r b u, e => SwapDebtRefused env s a r b u e
  | .liquidate a b u, e => LiquidationRefused env s a b u e
  | .autoDeleverage a p u, e => AdlRefused env s a p u e
  | .updatePairs ids u, e => UpdatePairsRefused env s ids u e
  -- roles, oracle, fee delegator, clock
  | .setRole r _, e => RoleRefused cl s r e
  | .oraclePush u, e => PushRefused env s u e
  | .oracleAddKey id _, e => e = .keyExists ∧ ∃ k, s.oracle.keys.get id = some k
  | .oracleRemoveKey _, _ => False
  | .oracleRemovePrice _, _ => False
  | .delegatorMaxLock x, e => e = .assertion ∧ x < 0
  | .delegatorMultiplier x, e => e = .assertion ∧ x < 0
  | .delegatorContingent _, _ => False
  | .delegatorDeposit x, e => (e = .badBucket ∧ x < 0) ∨ (e = .arithmetic ∧ ¬ InRange (s.delegator.vault + x))
  | .delegatorWithdraw x, e => e = .vault ∧ (x < 0 ∨ s.delegator.vault < x)
  | .lockFee x, e => LockRefused env s x e
  | .tick t, e => e = .assertion ∧ (t < s.now ∨ I64MAX < t)

theorem fails_wrap {α β : Type} {P : Err → Prop} {x : R α} {f : α → β} (h : Fails P x) :
    Fails P (x >>= fun a => pure (f a)) := fails_bind h (fun _ _ => fails_pure _)

theorem dadd_fails {x y : Dec} {P : Err → Prop} (h : ¬ InRange (x + y) → P .arithmetic) : Fails P (dadd x y) := by
  intro e he
  unfold dadd chk at he
  split at he
  · cases he
  · rename_i hn; cases he; exact h hn

/-- **C54, every call.** A call is refused because the caller has no right to it or the exchange has been cut off from its
authority, or else for one of the listed reasons, which then holds. -/
theorem c54_refusals {env : Env} {cl : Caller} {s : State} (h : Reach env s) (hw : s.RewardWhole env) {op : Op} {e : Err}
    (hs : step env cl s op = Except.error e) :
    (¬ Permitted cl s op ∧ (e = .role ∨ e = .authority)) ∨ (Permitted cl s op ∧ op.Refused env cl s e) := by
  by_cases hp : Permitted cl s op
  swap
  · left
    refine ⟨hp, ?_⟩
    rcases step_not_permitted (env := env) hp with h1 | h1 <;> rw [h1] at hs <;> cases hs
    · exact Or.inl rfl
    · exact Or.inr rfl
  right
  refine ⟨hp, ?_⟩
  have hb := hs
  rw [step_permitted hp] at hb
  cases op with
  | depositAuthority x =>
    refine (show Fails _ (body env cl s (.depositAuthority x)) from ?_) e hb
    refine fails_bind (fails_require (fun hn => Or.inl ⟨rfl, ?_⟩)) (fun _ _ => fails_wrap (dadd_fails (fun hn => Or.inr ⟨rfl, hn⟩)))
    simpa using hn
  | withdrawAuthority => cases hb
  | signalUpgrade n => cases hb
  | updateExchangeConfig c => exact fails_wrap (updateExchange_fails s.config c) e hb
  | updatePairConfigs cs => exact fails_wrap (updatePairs_config_fails s.config cs) e hb
  | updateCollateralConfigs cs => exact fails_wrap (updateCollaterals_fails s.config cs) e hb
  | removeCollateralConfig r => cases hb
  | collectTreasury => exact collectTreasury_fails h e hb
  | collectFeeDelegator => exact collectFeeDelegator_fails h e hb
  | mintReferral id a b m => exact fails_wrap (mintReferral_fails id a b m) e hb
  | mintReferralWithAllocation id a b m t c n => exact mintReferralWithAllocation_fails id a b m t c n e hb
  | updateReferral id a b m => exact fails_wrap (updateReferral_fails id a b m) e hb
  | addReferralAllocation id t c n => exact addReferralAllocation_fails id t c n e hb
  | swapProtocolFee b => exact swapProtocolFee_fails h b e hb
  | addLiquidity b => exact addLiquidity_fails b e hb
  | removeLiquidity b => exact removeLiquidity_fails h b e hb
  | createReferralCodes id t hh => exact createReferralCodes_fails id t hh e hb
  | createReferralCodesFromAllocation id i hh => exact fails_wrap (codesFromAllocation_fails id i hh) e hb
  | collectReferralRewards id => exact collectReferralRewards_fails h id e hb
  | createAccount a o r t c => exact createAccount_fails h a o r t c e hb
  | createRecoveryKey o a => exact createRecoveryKey_fails h o a e hb
  | addAuthRule o a l n => exact addAuthRule_fails h o a l n e hb
  | setLevelAuth o a l r => exact setLevelAuth_fails h o a l r e hb
  | addCollateral o a t => exact addCollateral_fails h o a t e hb
  | removeCollateralRequest o x a t c => exact removeCollateralRequest_fails h o x a t c e hb
  | marginOrderRequest o a args act can st => exact marginOrderRequest_fails h o a args act can st e hb
  | marginOrderTpSlRequest o a args tp sl => exact marginOrderTpSl_fails h o a args tp sl e hb
  | cancelRequests o a is => exact cancelRequests_fails h o a is e hb
  | processRequest a i u => exact c54_request h hw hp hs
  | swapDebt a r b u => exact swapDebt_fails h hw a r b u e hb
  | liquidate a b u => exact c54_liquidation h hw hp hs
  | autoDeleverage a p u => exact c54_adl h hw hp hs
  | updatePairs ids u => exact updatePairs_fails hw ids u e hb
  | setRole r rule => exact fails_wrap (setRole_fails r rule) e hb
  | oraclePush u => exact fails_wrap (push_fails u) e hb
  | oracleAddKey id k =>
    refine fails_wrap (P := Op.Refused env cl s (.oracleAddKey id k)) (x := s.oracle.addKey id k) ?_ e hb
    unfold Oracle.addKey
    refine fails_bind (fails_require (fun hn => ⟨rfl, ?_⟩)) (fun _ _ => fails_pure _)
    rw [Bool.not_eq_false'] at hn
    exact AMap.has_iff.mp hn
  | oracleRemoveKey id => cases hb
  | oracleRemovePrice p => cases hb
  | delegatorMaxLock x =>
    refine fails_wrap (P := Op.Refused env cl s (.delegatorMaxLock x)) (x := s.delegator.updateMaxLock x) ?_ e hb
    exact fails_bind (fails_require (fun hn => ⟨rfl, by simpa using hn⟩)) (fun _ _ => fails_pure _)
  | delegatorMultiplier x =>
    refine fails_wrap (P := Op.Refused env cl s (.delegatorMultiplier x)) (x := s.delegator.updateMultiplier x) ?_ e hb
    exact fails_bind (fails_require (fun hn => ⟨rfl, by simpa using hn⟩)) (fun _ _ => fails_pure _)
  | delegatorContingent b => cases hb
  | delegatorDeposit x =>
    refine fails_wrap (P := Op.Refused env cl s (.delegatorDeposit x)) (x := s.delegator.deposit x) ?_ e hb
    exact fails_bind (fails_require (fun hn => Or.inl ⟨rfl, by simpa using hn⟩)) (fun _ _ =>
      fails_wrap (dadd_fails (fun hn => Or.inr ⟨rfl, hn⟩)))
  | delegatorWithdraw x =>
    refine fails_bind (P := Op.Refused env cl s (.delegatorWithdraw x)) (x := s.delegator.withdraw x) ?_
      (fun y _ => fails_pure _) e hb
    refine fails_wrap ?_
    intro e he
    have hx : amountFor 1 x .toZero = x := by simp [amountFor]
    have := mt (fun h => (takeAmount_ok (x := x)).mpr h) (by rw [he]; exact fun hc => by cases hc)
    refine ⟨(show e = Err.vault from ?_), ?_⟩
    · unfold takeAmount at he
      by_cases hc : 0 ≤ amountFor 1 x .toZero ∧ amountFor 1 x .toZero % ((1 : Nat) : Int) = 0 ∧
          amountFor 1 x .toZero ≤ s.delegator.vault
      · simp only [if_pos hc] at he; cases he
      · simp only [if_neg hc] at he; cases he; rfl
    · by_contra hc
      push Not at hc
      exact this ⟨hx, hc.1, by simp, hc.2⟩
  | lockFee x => exact lockFee_fails x e hb
  | tick t =>
    refine fails_bind (P := Op.Refused env cl s (.tick t)) (fails_require (fun hn => ⟨rfl, ?_⟩)) (fun _ _ => fails_pure _) e hb
    rw [decide_eq_false_iff_not] at hn
    by_contra hc
    push Not at hc
    exact hn hc

/-- **C54.** A permitted call for which none of the listed reasons holds goes through. -/
theorem c54_goes_through {env : Env} {cl : Caller} {s : State} (h : Reach env s) (hw : s.RewardWhole env) {op : Op}
    (hp : Permitted cl s op) (hn : ∀ e, ¬ op.Refused env cl s e) : ∃ r, step env cl s op = Except.ok r := by
  cases hs : step env cl s op with
  | ok r => exact ⟨r, rfl⟩
  | error e =>
    rcases c54_refusals h hw hs with ⟨h1, -⟩ | ⟨-, h1⟩
    · exact absurd hp h1
    · exact absurd h1 (hn e)

/-! ## Exactly when a request is accepted -/

section
variable {env : Env} {cl : Caller} {s : State}

theorem timeOk {now : Int} {delay expiry : Nat} {x y : Int} (h1 : addSeconds now (u64AsI64 delay) = Except.ok x)
    (h2 : addSeconds x (u64AsI64 expiry) = Except.ok y) : ¬ TimeOverflow now delay expiry := by
  rw [addSeconds_ok] at h1 h2
  obtain ⟨a1, rfl⟩ := h1
  rintro (h | h)
  · exact h a1
  · exact h h2.1

theorem pushRequest_legal {v v' : VAccount} {now : Int} {r : Request} {delay expiry : Nat} {st : Status} {eff : List Addr}
    (h : v.pushRequest now r delay expiry st eff = Except.ok v') :
    (st = STATUS_ACTIVE ∨ st = STATUS_DORMANT) ∧ ¬ TimeOverflow now delay expiry := by
  simp only [VAccount.pushRequest, bind_ok, require_ok, pure_ok, decide_eq_true_eq] at h
  obtain ⟨⟨⟩, h1, x, h2, y, h3, -⟩ := h
  exact ⟨h1, timeOk h2 h3⟩

theorem resolveAll_legal : ∀ {refs : List RequestIndexRef} {i : Nat} {l : List Nat}, resolveAll refs i = Except.ok l →
    ∀ off, RequestIndexRef.relative off ∈ refs → I64MIN ≤ u64AsI64 i + off ∧ u64AsI64 i + off ≤ I64MAX := by
  intro refs
  unfold resolveAll
  induction refs with
  | nil => intro i l _ off h; cases h
  | cons r rs ih =>
    intro i l h off ho
    rw [List.mapM_cons] at h
    simp only [bind_ok, pure_ok] at h
    obtain ⟨x, h1, xs, h2, -⟩ := h
    rcases List.mem_cons.mp ho with rfl | ho
    · simp only [RequestIndexRef.resolve, bind_ok, addSeconds_ok] at h1
      obtain ⟨y, ⟨h1, -⟩, -⟩ := h1
      exact h1
    · exact ih h2 off ho

theorem assertTradeSize_legal {c : Config} {ids : List PairId} {cfg : VConfig} {p : PairId} {x : Dec}
    (hcfg : VConfig.new c ids = Except.ok cfg) (h : assertTradeSize cfg p x = Except.ok ()) :
    InRange |x| ∧ ∃ y, c.pairs.get p = some y ∧ y.decompress.tradeSizeMin ≤ |x| := by
  simp only [assertTradeSize, bind_ok, dabs_ok, require_ok, decide_eq_true_eq, VConfig.pair, expect_ok] at h
  obtain ⟨pc, h1, y, ⟨h2, rfl⟩, h3⟩ := h
  refine ⟨h2, ?_⟩
  obtain ⟨-, z, hz, he⟩ := (VConfig.new_ok hcfg).2.2.2 p pc h1
  exact ⟨z, hz, he ▸ h3⟩

/-- The account exists, the caller satisfies the rule of the level, and nothing in `Q` speaks against the request. -/
def Accepts (cl : Caller) (s : State) (a : Addr) (lv : Level) (Q : Account → Err → Prop) : Prop :=
  ∃ acc, s.accounts.get a = some acc ∧ (acc.rule lv).sat cl.pf = true ∧ ∀ e, ¬ Q acc e

theorem accepts_iff {op : Op} {a : Addr} {lv : Level} {ids : Account → List PairId} {Q : Account → Err → Prop}
    (hp : Permitted cl s op) (hf : Fails (HolderRefused env cl s a none lv ids Q) (body env cl s op))
    (hok : ∀ r, body env cl s op = Except.ok r → Accepts cl s a lv Q) :
    (∃ r, step env cl s op = Except.ok r) ↔ Accepts cl s a lv Q := by
  rw [step_permitted hp]
  refine ⟨fun ⟨r, hr⟩ => hok r hr, fun ⟨acc, h1, h2, h3⟩ => ?_⟩
  cases hb : body env cl s op with
  | ok r => exact ⟨r, rfl⟩
  | error e =>
    rcases hf e hb with ⟨-, h4⟩ | ⟨acc', h4, h5⟩
    · rw [h1] at h4; cases h4
    · rw [h1] at h4; cases h4
      rcases h5 with ⟨-, h5⟩ | ⟨b, h5, -⟩ | h5
      · rw [h2] at h5; cases h5
      · cases h5
      · exact absurd h5 (h3 e)

/-- **C54.** A withdrawal request is accepted exactly if the account exists, the caller satisfies its level 2 rule, it has at
most ten claims, its expiry time exists, and the account may have one more pending request. -/
theorem c54_withdrawal_request_exact (h : Reach env s) {expiry : Nat} {a target : Addr} {claims : List (Res × Dec)}
    (hp : Permitted cl s (.removeCollateralRequest none expiry a target claims)) :
    (∃ r, step env cl s (.removeCollateralRequest none expiry a target claims) = Except.ok r) ↔
      Accepts cl s a .l2 (RemovalRefused s claims expiry) := by
  refine accepts_iff hp (removeCollateralRequest_fails h none expiry a target claims) (fun r hr => ?_)
  change removeCollateralRequest env cl s none expiry a target claims = _ at hr
  simp only [removeCollateralRequest, bind_ok, verifyLevel, require_ok, decide_eq_true_eq] at hr
  obtain ⟨v, hv, ⟨⟩, h1, ⟨s1, v1, cfg⟩, h2, ⟨⟩, h3, v2, h4, ⟨⟩, h5, -⟩ := hr
  obtain ⟨acc, rd, ha, -, hv'⟩ := load_ok hv
  obtain ⟨f1, -, f3, f4, -⟩ := paid_facts ha hv h2
  have hi : RInv v1 := by
    refine rinv_congr ?_ (load_rinv hv (reach_requestsOk h)).1
    rw [(payOath_frame h2).2.1]; rfl
  have h6 := (pushRequest_exact hi h4).2.2.1
  simp only [assertActiveLimit, require_ok, decide_eq_true_eq, h6, f1, f4] at h5
  have h7 := (pushRequest_legal h4).2
  rw [f3] at h7
  refine ⟨acc, ha, by rw [hv'] at h1; exact h1, fun e he => ?_⟩
  cases e <;> try exact he
  case claimsTooMany => exact absurd h3 (not_le.mpr he)
  case activeTooMany => exact absurd h5 (not_le.mpr he)
  case arithmetic => exact h7 he

/-- **C54.** An order request is accepted exactly if the account exists, the caller satisfies its level 3 rule, and none of the
reasons listed in `OrderRequestRefused` holds. -/
theorem c54_order_request_exact (h : Reach env s) {a : Addr} {o : OrderArgs} {activate cancel : List RequestIndexRef}
    {status : Status} (hp : Permitted cl s (.marginOrderRequest none a o activate cancel status)) :
    (∃ r, step env cl s (.marginOrderRequest none a o activate cancel status) = Except.ok r) ↔
      Accepts cl s a .l3 (OrderRequestRefused s o activate cancel status) := by
  refine accepts_iff hp (marginOrderRequest_fails h none a o activate cancel status) (fun r hr => ?_)
  change marginOrderRequest env cl s none a o activate cancel status = _ at hr
  simp only [marginOrderRequest, bind_ok, verifyLevel, require_ok, decide_eq_true_eq] at hr
  obtain ⟨v, hv, ⟨⟩, h1, ⟨s1, v1, cfg⟩, h2, ⟨⟩, h3, ⟨⟩, g1, ⟨⟩, g2, l1, g3, l2, g4, v2, h4, ⟨⟩, h5, -⟩ := hr
  obtain ⟨acc, rd, ha, -, hv'⟩ := load_ok hv
  obtain ⟨f1, f2, f3, f4, -, -, hcfg⟩ := paid_facts ha hv h2
  have hi : RInv v1 := by
    refine rinv_congr ?_ (load_rinv hv (reach_requestsOk h)).1
    rw [(payOath_frame h2).2.1]; rfl
  have h6 := (pushRequest_exact hi h4).2.2.1
  simp only [assertActiveLimit, require_ok, decide_eq_true_eq, h6, f1, f4] at h5
  obtain ⟨h7, h8⟩ := pushRequest_legal h4
  rw [f3] at h8
  obtain ⟨k1, y, hy, k2⟩ := assertTradeSize_legal hcfg h3
  refine ⟨acc, ha, by rw [hv'] at h1; exact h1, fun e he => ?_⟩
  cases e <;> try exact he
  case missingPairConfig => rw [show s.config.pairs.get o.pair = none from he] at hy; cases hy
  case tradeSizeMin =>
    change |o.amount| < (s.market.pair o.pair).tradeSizeMin at he
    unfold State.market at he
    simp only [hy, Option.map_some, Option.getD_some] at he
    exact absurd k2 (not_le.mpr he)
  case effectedTooMany => exact he.elim (fun he => absurd g1 (not_le.mpr he)) (fun he => absurd g2 (not_le.mpr he))
  case invalidStatus => exact h7.elim he.1 he.2
  case activeTooMany => exact absurd h5 (not_le.mpr he)
  case arithmetic =>
    rcases he with he | he | ⟨off, he | he, hn⟩
    · exact h8 he
    · exact he k1
    · rw [← f2] at hn; exact hn (resolveAll_legal g3 off he)
    · rw [← f2] at hn; exact hn (resolveAll_legal g4 off he)

theorem pushExit_count {v v' : VAccount} {now : Int} {o : OrderArgs} {l : Option PriceLimit} {cs : List Nat} (hi : RInv v)
    (h : pushExit v now o l cs = Except.ok v') : RInv v' ∧ v'.activeLen = v.activeLen + l.toList.length := by
  cases l with
  | none => simp only [pushExit, pure_ok] at h; subst h; exact ⟨hi, rfl⟩
  | some l =>
    simp only [pushExit, bind_ok] at h
    obtain ⟨_, -, h⟩ := h
    exact ⟨(pushRequest_exact hi h).1, (pushRequest_exact hi h).2.2.1⟩

/-- **C54.** An order request with take profit and stop loss is accepted exactly if the account exists, the caller satisfies its
level 3 rule, and none of the reasons listed in `TpSlRefused` holds. -/
theorem c54_tp_sl_request_exact (h : Reach env s) {a : Addr} {o : OrderArgs} {tp sl : Option Dec}
    (hp : Permitted cl s (.marginOrderTpSlRequest none a o tp sl)) :
    (∃ r, step env cl s (.marginOrderTpSlRequest none a o tp sl) = Except.ok r) ↔
      Accepts cl s a .l3 (TpSlRefused s o tp sl) := by
  refine accepts_iff hp (marginOrderTpSl_fails h none a o tp sl) (fun r hr => ?_)
  change marginOrderTpSlRequest env cl s none a o tp sl = _ at hr
  simp only [marginOrderTpSlRequest, bind_ok, verifyLevel, require_ok] at hr
  obtain ⟨v, hv, ⟨⟩, h1, ⟨s1, v1, cfg⟩, h2, ⟨⟩, h3, v2, h4, v3, g1, v4, g2, ⟨⟩, h5, -⟩ := hr
  obtain ⟨acc, rd, ha, -, hv'⟩ := load_ok hv
  obtain ⟨f1, f2, f3, f4, -, -, hcfg⟩ := paid_facts ha hv h2
  have hi : RInv v1 := by
    refine rinv_congr ?_ (load_rinv hv (reach_requestsOk h)).1
    rw [(payOath_frame h2).2.1]; rfl
  have h6 := pushRequest_exact hi h4
  have h6' := pushExit_count h6.1 g1
  have h6'' := pushExit_count h6'.1 g2
  have hm : ∀ (x : Option Dec) (f : Dec → PriceLimit), (x.map f).toList.length = x.toList.length := by
    intro x f; cases x <;> rfl
  simp only [assertActiveLimit, require_ok, decide_eq_true_eq, h6''.2, h6'.2, h6.2.2.1, f1, f4, hm] at h5
  obtain ⟨h7, h8⟩ := pushRequest_legal h4
  rw [f3] at h8
  obtain ⟨k1, y, hy, k2⟩ := assertTradeSize_legal hcfg h3
  refine ⟨acc, ha, by rw [hv'] at h1; exact h1, fun e he => ?_⟩
  cases e <;> try exact he
  case missingPairConfig => rw [show s.config.pairs.get o.pair = none from he] at hy; cases hy
  case tradeSizeMin =>
    change |o.amount| < (s.market.pair o.pair).tradeSizeMin at he
    unfold State.market at he
    simp only [hy, Option.map_some, Option.getD_some] at he
    exact absurd k2 (not_le.mpr he)
  case activeTooMany => exact absurd h5 (not_le.mpr he)
  case arithmetic => exact he.elim h8 (fun he => he k1)

theorem cancelFold_count : ∀ (es : List (Nat × KeeperRequest)) {v v' : VAccount},
    es.foldlM VAccount.cancelOne v = Except.ok v' → v'.activeLen + es.length = v.activeLen := by
  intro es
  induction es with
  | nil => intro v v' h; simp only [List.foldlM_nil, pure_ok] at h; subst h; rfl
  | cons e es ih =>
    intro v v' h
    rw [List.foldlM_cons, bind_ok] at h
    obtain ⟨v1, h1, h2⟩ := h
    have e2 := ih h2
    have hp := (cancelOne_trySet h1).2
    have h0 : 0 < v.activeLen := by
      have hc : pending STATUS_CANCELLED = false := by decide
      simp only [VAccount.cancelOne, bind_ok, VAccount.moveActive, hc, hp] at h1
      obtain ⟨_, -, _, -, w, h1, -⟩ := h1
      change VAccount.removeActive v e.1 = _ at h1
      simp only [VAccount.removeActive, bind_ok, require_ok, decide_eq_true_eq] at h1
      obtain ⟨_, h1, -⟩ := h1
      exact h1
    obtain ⟨v2, h3, h4⟩ := cancelOne_total hp h0
    rw [h1] at h3; cases h3
    rw [List.length_cons]; omega

/-- **C54.** Cancelling requests is accepted exactly if the account exists, the caller satisfies its level 3 rule, all requests named
exist and are pending, and no more are named than the account has pending since its last liquidation. -/
theorem c54_cancel_exact (h : Reach env s) {a : Addr} {is : List Nat} (hp : Permitted cl s (.cancelRequests none a is)) :
    (∃ r, step env cl s (.cancelRequests none a is) = Except.ok r) ↔ Accepts cl s a .l3 (CancelRefused is) := by
  refine accepts_iff hp (cancelRequests_fails h none a is) (fun r hr => ?_)
  change opCancelRequests env cl s none a is = Except.ok (r.1, r.2) at hr
  obtain ⟨v, s1, v1, cfg, v2, acc', refs, hv, h1, h2, h3, -, -, -⟩ := opCancelRequests_ok hr
  obtain ⟨acc, rd, ha, -, hv'⟩ := load_ok hv
  obtain ⟨f1, -, -, -, f5, f6, -⟩ := paid_facts ha hv h2
  have hi : RInv v1 := by
    refine rinv_congr ?_ (load_rinv hv (reach_requestsOk h)).1
    rw [(payOath_frame h2).2.1]; rfl
  have hall := (cancelRequests_inv hi h3).2.2.2
  have hreq : v1.reqs = acc.requests := by
    obtain ⟨-, acc0, hg, hcomp, hreqs, -⟩ := load_rinv hv (reach_requestsOk h)
    rw [ha] at hg; cases hg
    rw [(payOath_frame h2).2.1]; exact hreqs
  simp only [VAccount.cancelRequests, bind_ok] at h3
  obtain ⟨krs, hk, h4⟩ := h3
  have hcnt := cancelFold_count _ h4
  rw [keeperRequests_card hk, f1] at hcnt
  rw [hreq] at hall
  refine ⟨acc, ha, by rw [hv'] at h1; exact h1, fun e he => ?_⟩
  cases e <;> try exact he
  case missingRequest =>
    obtain ⟨i, hi, hl⟩ := he
    obtain ⟨r, hr, -⟩ := hall i hi
    rw [List.getElem?_eq_none_iff.mpr hl] at hr; cases hr
  case cancelNotActive =>
    obtain ⟨i, hi, r, hr, n1, n2⟩ := he
    obtain ⟨r', hr', hpend⟩ := hall i hi
    rw [hr] at hr'; cases hr'
    exact (pending_iff.mp hpend).elim n1 n2
  case arithmetic =>
    change acc.active.card < is.toFinset.card at he
    omega

end

/-! ## Exactly when a configuration is accepted -/

theorem stored_below {x : Dec} (hr : InRange x = true) {f : DFloat} (h : DFloat.ofDec x = Except.ok f) : x < storeLimit :=
  ((c45_storable hr).mp ⟨f, h⟩).2

theorem exchange_accepted {k k' : Config} {c : ExchangeConfig} (hr : ∀ x ∈ c.settings, InRange x = true)
    (h : k.updateExchange c = Except.ok k') : c.WithinBounds ∧ ∀ x ∈ c.settings, x < storeLimit := by
  simp only [Config.updateExchange, bind_ok, require_ok, ExchangeConfig.compress] at h
  obtain ⟨⟨⟩, h0, _, ⟨_, h1, _, h2, _, h3, _, h4, _, h5, _, h6, _, h7, _, h8, _, h9, _, h10, _, h11, _, h12, -⟩, -⟩ := h
  refine ⟨(exchange_within c).mp h0, ?_⟩
  simp only [ExchangeConfig.settings, List.forall_mem_cons, List.not_mem_nil, false_implies, implies_true, and_true] at hr ⊢
  obtain ⟨r1, r2, r3, r4, r5, r6, r7, r8, r9, r10, r11, r12⟩ := hr
  exact ⟨stored_below r1 h1, stored_below r2 h2, stored_below r3 h3, stored_below r4 h4, stored_below r5 h5,
    stored_below r6 h6, stored_below r7 h7, stored_below r8 h8, stored_below r9 h9, stored_below r10 h10,
    stored_below r11 h11, stored_below r12 h12⟩

theorem pair_accepted {k k' : Config} {c : PairConfig} (hr : ∀ x ∈ c.settings, InRange x = true)
    (h : k.updatePair c = Except.ok k') : c.WithinBounds ∧ ∀ x ∈ c.settings, x < storeLimit := by
  simp only [Config.updatePair, bind_ok, require_ok, PairConfig.compress] at h
  obtain ⟨⟨⟩, h0, _, ⟨_, h1, _, h2, _, h3, _, h4, _, h5, _, h6, _, h7, _, h8, _, h9, _, h10, _, h11, _, h12, _, h13, _, h14,
    -⟩, -⟩ := h
  refine ⟨(pair_within c).mp h0, ?_⟩
  simp only [PairConfig.settings, List.forall_mem_cons, List.not_mem_nil, false_implies, implies_true, and_true] at hr ⊢
  obtain ⟨r1, r2, r3, r4, r5, r6, r7, r8, r9, r10, r11, r12, r13, r14⟩ := hr
  exact ⟨stored_below r1 h1, stored_below r2 h2, stored_below r3 h3, stored_below r4 h4, stored_below r5 h5,
    stored_below r6 h6, stored_below r7 h7, stored_below r8 h8, stored_below r9 h9, stored_below r10 h10,
    stored_below r11 h11, stored_below r12 h12, stored_below r13 h13, stored_below r14 h14⟩

theorem foldlM_each {α σ : Type} {f : σ → α → R σ} {P : α → Prop} : ∀ {l : List α} {k k' : σ},
    (∀ x ∈ l, ∀ k k', f k x = Except.ok k' → P x) → l.foldlM f k = Except.ok k' → ∀ x ∈ l, P x := by
  intro l
  induction l with
  | nil => intro k k' _ _ x hx; cases hx
  | cons y l ih =>
    intro k k' hf h x hx
    rw [List.foldlM_cons, bind_ok] at h
    obtain ⟨k1, h1, h2⟩ := h
    rcases List.mem_cons.mp hx with rfl | hx
    · exact hf x (by simp) _ _ h1
    · exact ih (fun x hx => hf x (List.mem_cons_of_mem _ hx)) h2 x hx

section
variable {env : Env} {cl : Caller} {s : State}

/-- **C54, configuration.** Exchange settings are accepted exactly if they respect the documented bounds and every one of them is
below 1.025 * 10^16. -/
theorem c54_exchange_config_exact {c : ExchangeConfig} (hr : ∀ x ∈ c.settings, InRange x = true)
    (hp : Permitted cl s (.updateExchangeConfig c)) :
    (∃ r, step env cl s (.updateExchangeConfig c) = Except.ok r) ↔
      c.WithinBounds ∧ ∀ x ∈ c.settings, x < storeLimit := by
  rw [step_permitted hp]
  change (∃ r, (s.config.updateExchange c >>= fun x => (pure ({ s with config := x }, {}) : R (State × Out))) = Except.ok r) ↔ _
  constructor
  · rintro ⟨r, h⟩
    rw [bind_ok] at h
    obtain ⟨k, h, -⟩ := h
    exact exchange_accepted hr h
  · rintro ⟨h1, h2⟩
    cases h : s.config.updateExchange c with
    | ok k => exact ⟨_, rfl⟩
    | error e =>
      have := updateExchange_fails s.config c e h
      cases e <;> try exact False.elim this
      rcases this with h3 | ⟨x, hx, h3⟩
      · exact absurd h1 h3
      · exact absurd (h2 x hx) (not_lt.mpr h3)

/-- **C54, configuration.** The same for the settings of pairs. -/
theorem c54_pair_config_exact {cs : List PairConfig} (hr : ∀ c ∈ cs, ∀ x ∈ c.settings, InRange x = true)
    (hp : Permitted cl s (.updatePairConfigs cs)) :
    (∃ r, step env cl s (.updatePairConfigs cs) = Except.ok r) ↔
      ∀ c ∈ cs, c.WithinBounds ∧ ∀ x ∈ c.settings, x < storeLimit := by
  rw [step_permitted hp]
  change (∃ r, (s.config.updatePairs cs >>= fun x => (pure ({ s with config := x }, {}) : R (State × Out))) = Except.ok r) ↔ _
  constructor
  · rintro ⟨r, h⟩
    rw [bind_ok] at h
    obtain ⟨k, h, -⟩ := h
    exact foldlM_each (fun c hc k k' hk => pair_accepted (hr c hc) hk) h
  · intro h1
    cases h : s.config.updatePairs cs with
    | ok k => exact ⟨_, rfl⟩
    | error e =>
      have := updatePairs_config_fails s.config cs e h
      cases e <;> try exact False.elim this
      obtain ⟨c, hc, h3 | ⟨x, hx, h3⟩⟩ := this
      · exact absurd (h1 c hc).1 h3
      · exact absurd ((h1 c hc).2 x hx) (not_lt.mpr h3)

/-- **C54, configuration.** The settings of collaterals are accepted exactly if they respect the documented bounds. -/
theorem c54_collateral_config_exact {cs : List (Res × CollateralConfig)}
    (hp : Permitted cl s (.updateCollateralConfigs cs)) :
    (∃ r, step env cl s (.updateCollateralConfigs cs) = Except.ok r) ↔ ∀ c ∈ cs, c.2.WithinBounds := by
  rw [step_permitted hp]
  change (∃ r, (s.config.updateCollaterals cs >>= fun x => (pure ({ s with config := x }, {}) : R (State × Out))) = Except.ok r) ↔ _
  constructor
  · rintro ⟨r, h⟩
    rw [bind_ok] at h
    obtain ⟨k, h, -⟩ := h
    refine foldlM_each (fun c hc k k' hk => ?_) h
    simp only [Config.updateCollateral, bind_ok, require_ok] at hk
    obtain ⟨⟨⟩, h0, -⟩ := hk
    exact (collateral_within _).mp h0
  · intro h1
    cases h : s.config.updateCollaterals cs with
    | ok k => exact ⟨_, rfl⟩
    | error e =>
      have := updateCollaterals_fails s.config cs e h
      cases e <;> try exact False.elim this
      obtain ⟨c, hc, h3⟩ := this
      exact absurd (h1 c hc) h3

end

namespace Scn

/-- `c54_refusals`: an order that is too small, refused for exactly that reason. -/
example : Op.Refused env anyone open_ (.marginOrderRequest none 100 (order 1 1 false) [] [] STATUS_ACTIVE) .tradeSizeMin := by
  rcases c54_refusals (op := .marginOrderRequest none 100 (order 1 1 false) [] [] STATUS_ACTIVE) open_reach (whole _)
    (failed (e := .tradeSizeMin) (by decide +kernel)) with ⟨-, h | h⟩ | ⟨-, h⟩
  · cases h
  · cases h
  · exact h

/-- `c54_refusals`: a withdrawal request of an account that does not exist. -/
example : HolderRefused env anyone open_ 300 none .l2 (fun acc => acc.positions.keys) (RemovalRefused open_ [] 1000)
    .invalidMarginAccount :=
  removeCollateralRequest_fails open_reach none 1000 300 55 [] _
    (show body env anyone open_ (.removeCollateralRequest none 1000 300 55 []) = _ by
      rw [← step_permitted (permitted (by decide +kernel))]; exact failed (by decide +kernel))

/-- `c54_order_request_exact`: an order that is accepted. -/
example : ∃ r, step env anyone open_ (.marginOrderRequest none 100 (order 1 (d 1) false) [] [] STATUS_ACTIVE) = Except.ok r := by
  rw [c54_order_request_exact open_reach (permitted (by decide +kernel))]
  obtain ⟨acc, ha, h1, h2⟩ := tested (s := open_) (a := 100) (P := fun acc => (acc.rule .l3).sat anyone.pf = true ∧
    acc.active.card + 1 ≤ open_.config.exchange.decompress.activeRequestsMax) (by decide +kernel)
  refine ⟨acc, ha, h1, fun e he => ?_⟩
  cases e <;> try exact he
  case missingPairConfig => exact absurd (show open_.config.pairs.get 1 = none from he) (by decide +kernel)
  case tradeSizeMin => exact absurd (show |d 1| < (open_.market.pair 1).tradeSizeMin from he) (by decide +kernel)
  case effectedTooMany => exact he.elim (fun h => absurd h (by decide)) (fun h => absurd h (by decide))
  case invalidStatus => exact he.1 rfl
  case activeTooMany => exact absurd h2 (not_le.mpr he)
  case arithmetic =>
    rcases he with he | he | ⟨off, he | he, -⟩
    · rcases he with he | he <;> exact absurd he (by decide +kernel)
    · exact absurd he (by decide +kernel)
    · cases he
    · cases he

/-- `c54_exchange_config_exact`: the configuration in force in the scenario would be accepted again. -/
example : ∃ r, step env anyone open_ (.updateExchangeConfig open_.config.exchange.decompress) = Except.ok r :=
  (stepped (P := fun _ _ => true) (by decide +kernel)).elim fun s' h => h.elim fun o h => ⟨(s', o), h.1⟩

end Scn

end Perp
