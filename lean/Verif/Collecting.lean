import Verif.Balances
import Verif.Progress
import Verif.Access
import Verif.WitnessB

/-!
# Who can take fees, and that nobody else can (C32, C36)
-/

namespace Perp

/-! ## Calls reserved to the holder of a referral badge (C36) -/

/-- The referral badge a call has to be accompanied by (specification of C36). -/
def Op.badge : Op → Option RefId
  | .collectReferralRewards id => some id
  | .createReferralCodes id _ _ => some id
  | .createReferralCodesFromAllocation id _ _ => some id
  | _ => none

/-- **C36, referral badges.** Collecting the rewards of a referral, creating codes for it or from one of its allocations
succeeds only for a caller that shows that referral's badge. -/
theorem c36_referral_holder {env : Env} {cl : Caller} {s s' : State} {op : Op} {o : Out} {id : RefId}
    (h : step env cl s op = Except.ok (s', o)) (hb : op.badge = some id) : cl.refs id = true := by
  have hbody := step_body h
  cases op with
  | collectReferralRewards id =>
    cases hb
    obtain ⟨d, pool, x, hr, -⟩ := collectReferralRewards_ok hbody
    exact hr
  | createReferralCodes id t hs =>
    cases hb
    obtain ⟨cfg, n, s1, g, rest, hr, -⟩ := createReferralCodes_ok hbody
    exact hr
  | createReferralCodesFromAllocation id i hs =>
    cases hb
    simp only [body, bind_ok, pure_ok, Prod.mk.injEq] at hbody
    obtain ⟨s1, hm, -⟩ := hbody
    obtain ⟨g, hr, -⟩ := createReferralCodesFromAllocation_ok hm
    exact hr
  | _ => cases hb

/-! ## Fee balances only shrink by being collected (C32) -/

/-- No fee balance of the second state is smaller than in the first. -/
structure State.Grows (s s' : State) : Prop where
  protocol : s.dist.protocol ≤ s'.dist.protocol
  treasury : s.dist.treasury ≤ s'.dist.treasury
  delegator : s.delegator.vb ≤ s'.delegator.vb
  referral : ∀ r d, s.referrals.get r = some d → ∃ d', s'.referrals.get r = some d' ∧ d.balance ≤ d'.balance

/-- The same for a working set. -/
structure W.Grows (w w' : W) : Prop where
  protocol : w.dist.protocol ≤ w'.dist.protocol
  treasury : w.dist.treasury ≤ w'.dist.treasury
  referral : ∀ d, w'.acc.referralData = some d → ∃ d0, w.acc.referralData = some d0 ∧ d0.balance ≤ d.balance

theorem grows_step {ex : ExchangeConfig} {w w' : W} {x : Dec} (hv : ex.validate = true) (h : WStep ex w w' x)
    (h0 : w.BalOk) : w.Grows w' := by
  rcases h.referral with ⟨h1, -, h3⟩ | ⟨fee, f, hf0, hf⟩
  · exact ⟨by rw [h3], by rw [h3], fun d hd => ⟨d, by rw [← h1]; exact hd, le_refl _⟩⟩
  · obtain ⟨-, hd, ha, -⟩ := settleFeesReferral_ok hf
    have hv' := hv
    rw [ExchangeConfig.validate, decide_eq_true_eq] at hv'
    obtain ⟨-, -, -, -, -, -, -, ⟨p1, -⟩, ⟨p2, -⟩, -⟩ := hv'
    refine ⟨?_, ?_, ?_⟩
    · rw [hd]; have := mulT_nonneg hf0 p1; simp only; omega
    · rw [hd]; have := mulT_nonneg hf0 p2; simp only; omega
    · intro d hd'
      rw [ha] at hd'
      unfold VAccount.credited at hd'
      cases hr : w.acc.referralData with
      | none => rw [hr] at hd'; simp only at hd'; rw [hr] at hd'; cases hd'
      | some d0 =>
        rw [hr] at hd'
        simp only [Option.some.injEq] at hd'
        obtain ⟨b1, b2, b3⟩ := h0.3 d0 hr
        have hb := (referral_bounds hv hf0 b3).1
        have e : referralPart ex w.acc fee = mulT (mulT fee ex.feeShareReferral) d0.feeReferral := by
          unfold referralPart VAccount.feeShareReferral
          rw [hr]
        rw [← e] at hb
        rw [← hd']
        exact ⟨d0, rfl, by simp only; omega⟩

theorem grows_path {ex : ExchangeConfig} {w w' : W} {x : Dec} (hv : ex.validate = true) (h : WPath ex w w' x)
    (h0 : w.BalOk) : w.Grows w' := by
  induction h with
  | refl => exact ⟨le_refl _, le_refl _, fun d hd => ⟨d, hd, le_refl _⟩⟩
  | tail hp hs ih =>
    have g := grows_step hv hs (balOk_path hv hp h0)
    refine ⟨ih.1.trans g.1, ih.2.trans g.2, ?_⟩
    intro d hd
    obtain ⟨d1, hd1, h1⟩ := g.3 d hd
    obtain ⟨d0, hd0, h2⟩ := ih.3 d1 hd1
    exact ⟨d0, hd0, h2.trans h1⟩

theorem accOp_grows {s s' : State} {a : Addr} {lr : Option (Level × Rule)} (h : AccOp s a lr s')
    (hv : s.config.exchange.decompress.validate = true) (hr : s.RatesOk) (h0 : s.BalOk) : s.Grows s' := by
  cases h with
  | mk o rw_ k hl hp hre =>
    rename_i v ids w x acc refs
    obtain ⟨acc0, rd, hg, hrd, hv'⟩ := load_ok hl
    have hb : W.BalOk { pool := VPool.new s.pool s.now ids, acc := v.withRule lr, dist := s.dist } := by
      refine ⟨h0.1, h0.2, ?_⟩
      intro d hd
      rw [withRule_referralData] at hd
      have : rd = some d := by rw [hv'] at hd; exact hd
      subst this
      rcases loadReferral_ok hrd with ⟨-, hn⟩ | ⟨r, d', -, hget, hd'⟩
      · cases hn
      cases hd'
      exact ⟨(h0.4 r d hget).1, (h0.4 r d hget).2, (hr r d hget).1⟩
    have g := grows_path hv hp hb
    refine ⟨g.1, g.2, le_refl _, ?_⟩
    intro r d hd
    obtain ⟨-, hid0, -⟩ := hp.frame
    have hre := hre.2
    simp only [State.realized]
    unfold VAccount.realizeReferral at hre
    split at hre
    · simp only [bind_ok, expect_ok, pure_ok] at hre
      obtain ⟨id, hid, d1, hd1, old, ho, rfl⟩ := hre
      by_cases hq : id = r
      · subst hq
        obtain ⟨d0, hd0, hle⟩ := g.3 d1 hd1
        refine ⟨_, AMap.get_set_self _ _ _, ?_⟩
        have e2 : w.acc.referralId = acc0.referralId := by rw [hid0, withRule_referralId, hv']
        rw [hid] at e2
        rw [withRule_referralData] at hd0
        have : rd = some d0 := by rw [hv'] at hd0; exact hd0
        subst this
        rcases loadReferral_ok hrd with ⟨-, hn⟩ | ⟨r, d', hr', hget, hd'⟩
        · cases hn
        cases hd'
        rw [← e2] at hr'
        cases hr'
        rw [hd] at hget
        cases hget
        exact hle
      · exact ⟨d, by rw [AMap.get_set_ne _ _ hq]; exact hd, le_refl _⟩
    · simp only [pure_ok] at hre
      subst hre
      exact ⟨d, hd, le_refl _⟩

theorem State.Grows.refl (s : State) : s.Grows s := ⟨le_refl _, le_refl _, le_refl _, fun _ d hd => ⟨d, hd, le_refl _⟩⟩

/-- Whether a call is one of the four collecting calls. -/
def Op.collects : Op → Bool
  | .collectTreasury | .collectFeeDelegator | .swapProtocolFee _ | .collectReferralRewards _ => true
  | _ => false

theorem body_grows {env : Env} {cl : Caller} {s s' : State} {op : Op} {o : Out} (h : body env cl s op = Except.ok (s', o))
    (hc : op.collects = false) (hv : s.config.exchange.decompress.validate = true) (hr : s.RatesOk) (h0 : s.BalOk) :
    s.Grows s' := by
  have quiet : ∀ {s1 : State}, s1.dist = s.dist → s1.delegator.vb = s.delegator.vb → s1.referrals = s.referrals →
      s.Grows s1 := fun e1 e2 e3 => ⟨by rw [e1], by rw [e1], by rw [e2], fun r d hd => ⟨d, by rw [e3]; exact hd, le_refl _⟩⟩
  have setRef : ∀ {s1 : State} {id : RefId} {d0 d1 : ReferralData}, s1.dist = s.dist → s1.delegator = s.delegator →
      s1.referrals = s.referrals.set id d1 → s.referrals.get id = some d0 → d1.balance = d0.balance → s.Grows s1 := by
    intro s1 id d0 d1 e1 e2 e3 hg hb
    refine ⟨by rw [e1], by rw [e1], by rw [e2], fun r d hd => ?_⟩
    rw [e3]
    by_cases hq : id = r
    · subst hq
      rw [hg] at hd; cases hd
      exact ⟨_, AMap.get_set_self _ _ _, hb.ge⟩
    · exact ⟨d, by rw [AMap.get_set_ne _ _ hq]; exact hd, le_refl _⟩
  have newRef : ∀ {s1 : State} {id : RefId} {d1 : ReferralData}, s1.dist = s.dist → s1.delegator = s.delegator →
      s1.referrals = s.referrals.set id d1 → s.referrals.get id = none → s.Grows s1 := by
    intro s1 id d1 e1 e2 e3 hg
    refine ⟨by rw [e1], by rw [e1], by rw [e2], fun r d hd => ?_⟩
    rw [e3]
    by_cases hq : id = r
    · subst hq; rw [hg] at hd; cases hd
    · exact ⟨d, by rw [AMap.get_set_ne _ _ hq]; exact hd, le_refl _⟩
  have acct : ∀ a, op.account = some a → s.Grows s' := by
    intro a ha
    rcases body_account h ha with ⟨lr, hop, -⟩ | ⟨g, rule, rid, -, -, hop⟩
    · exact accOp_grows hop hv hr h0
    · have := accOp_grows hop hv hr ⟨h0.1, h0.2, h0.3, h0.4⟩
      exact ⟨this.1, this.2, this.3, this.4⟩
  have liq : ∀ {y rate fee : Dec} {s1 : State}, 0 ≤ y → rate = s.config.exchange.decompress.feeLiquidityAdd ∨
        rate = s.config.exchange.decompress.feeLiquidityRemove → fee = mulT y rate →
        s1.dist = { protocol := s.dist.protocol + mulT fee s.config.exchange.decompress.feeShareProtocol
                    treasury := s.dist.treasury + mulT fee s.config.exchange.decompress.feeShareTreasury } →
        s1.delegator = s.delegator → s1.referrals = s.referrals → s.Grows s1 := by
    intro y rate fee s1 hy hrate hfee e1 e2 e3
    have hv' := hv
    rw [ExchangeConfig.validate, decide_eq_true_eq] at hv'
    obtain ⟨-, -, -, -, -, ra, rr, ⟨p1, -⟩, ⟨p2, -⟩, -⟩ := hv'
    have hf : 0 ≤ fee := by
      rw [hfee]
      rcases hrate with rfl | rfl
      · exact mulT_nonneg hy ra
      · exact mulT_nonneg hy rr
    have := mulT_nonneg hf p1
    have := mulT_nonneg hf p2
    exact ⟨by rw [e1]; simp only; omega, by rw [e1]; simp only; omega, by rw [e2], fun r d hd => ⟨d, by rw [e3]; exact hd, le_refl _⟩⟩
  cases op with
  | collectTreasury => cases hc
  | collectFeeDelegator => cases hc
  | swapProtocolFee b => cases hc
  | collectReferralRewards id => cases hc
  | mintReferral id a b m =>
    simp only [body, bind_ok, pure_ok, Prod.mk.injEq] at h
    obtain ⟨s1, hm, rfl, -⟩ := h
    obtain ⟨h1, h2, hn, rfl⟩ := mintReferral_ok hm
    exact newRef rfl rfl rfl hn
  | mintReferralWithAllocation id a b m t c n =>
    simp only [body, mintReferralWithAllocation, bind_ok] at h
    obtain ⟨s1, hm, h⟩ := h
    obtain ⟨h1, h2, hn, rfl⟩ := mintReferral_ok hm
    obtain ⟨cfg, s2, g, rest, i, -, hok, hg, ha, rfl, -⟩ := addReferralAllocation_ok h
    obtain ⟨d, hd, hle, -, rfl⟩ := grantReferrals_ok hg
    simp only [AMap.set_set]
    exact newRef rfl rfl rfl hn
  | updateReferral id a b m =>
    simp only [body, bind_ok, pure_ok, Prod.mk.injEq] at h
    obtain ⟨s1, hm, rfl, -⟩ := h
    rcases updateReferral_ok hm with rfl | ⟨d, hd, ha, hb, rfl⟩
    · exact .refl _
    exact setRef rfl rfl rfl hd rfl
  | addReferralAllocation id t c n =>
    obtain ⟨cfg, s2, g, rest, i, -, hok, hg, ha, rfl, -⟩ := addReferralAllocation_ok h
    obtain ⟨d, hd, hle, -, rfl⟩ := grantReferrals_ok hg
    exact setRef rfl rfl rfl hd rfl
  | addLiquidity b =>
    obtain ⟨cfg, fee, lp, price, hc, hb, -, hfee, -, hm, rfl, -⟩ := opAddLiquidity_ok h
    rw [VConfig.new_ex hc] at hfee ⊢
    exact liq (okBucket_nonneg hb) (Or.inl rfl) hfee rfl rfl rfl
  | removeLiquidity b =>
    obtain ⟨cfg, price, value, fee, x, hc, hb, hres, hs0, hpr, hval, hfee, -, ht, rfl, -⟩ := opRemoveLiquidity_ok h
    rw [VConfig.new_ex hc] at hfee ⊢
    have hb0 := okBucket_nonneg hb
    simp only [okBucket, decide_eq_true_eq] at hb
    have := hb.2.2.1 hres
    refine liq ?_ (Or.inr rfl) hfee rfl rfl rfl
    rw [hval, hpr]
    exact mulT_nonneg hb0 (divT_nonneg (le_max_right _ _) (by omega))
  | createReferralCodes id t hs =>
    obtain ⟨cfg, n, s1, g, rest, -, -, hok, hn, hg, ha, rfl, -⟩ := createReferralCodes_ok h
    obtain ⟨d, hd, hle, -, rfl⟩ := grantReferrals_ok hg
    exact setRef rfl rfl rfl hd rfl
  | createReferralCodesFromAllocation id i hs =>
    simp only [body, bind_ok, pure_ok, Prod.mk.injEq] at h
    obtain ⟨s1, hm, rfl, -⟩ := h
    obtain ⟨g, -, hf, rfl⟩ := createReferralCodesFromAllocation_ok hm
    exact quiet rfl rfl rfl
  | updatePairs ids u =>
    obtain ⟨s1, c, pool, flags, n, hk, hx, -, rfl, -⟩ := opUpdatePairs_ok h
    obtain ⟨-, -, -, -, -, -, hs1⟩ := keeperLoad_ok hk
    rw [hs1]
    exact quiet rfl rfl rfl
  | lockFee x =>
    obtain ⟨value, -, -, -, h1, hle, rfl, -⟩ := lockFee_ok h
    exact ⟨le_refl _, le_refl _, by simp only; omega, fun _ d hd => ⟨d, hd, le_refl _⟩⟩
  | setRole r rule =>
    simp only [body, bind_ok, pure_ok, Prod.mk.injEq] at h
    obtain ⟨s1, hm, rfl, -⟩ := h
    obtain ⟨-, -, rfl⟩ := setRole_ok hm
    exact quiet rfl rfl rfl
  | delegatorMaxLock x =>
    simp only [body, bind_ok, pure_ok, Prod.mk.injEq] at h
    obtain ⟨_, hd, rfl, -⟩ := h
    rw [(Delegator.updateMaxLock_ok hd).2]
    exact quiet rfl rfl rfl
  | delegatorMultiplier x =>
    simp only [body, bind_ok, pure_ok, Prod.mk.injEq] at h
    obtain ⟨_, hd, rfl, -⟩ := h
    rw [(Delegator.updateMultiplier_ok hd).2]
    exact quiet rfl rfl rfl
  | delegatorDeposit x =>
    simp only [body, bind_ok, pure_ok, Prod.mk.injEq] at h
    obtain ⟨_, hd, rfl, -⟩ := h
    rw [(Delegator.deposit_ok hd).2]
    exact quiet rfl rfl rfl
  | delegatorWithdraw x =>
    simp only [body, bind_ok, pure_ok, Prod.mk.injEq] at h
    obtain ⟨⟨_, _⟩, hd, rfl, -⟩ := h
    rw [(Delegator.withdraw_ok hd).2]
    exact quiet rfl rfl rfl
  | _ =>
    first
    | exact acct _ rfl
    | (simp only [body, bind_ok, pure_ok, require_ok, Prod.mk.injEq] at h
       first
       | (obtain ⟨rfl, -⟩ := h; exact quiet rfl rfl rfl)
       | (obtain ⟨_, -, rfl, -⟩ := h; exact quiet rfl rfl rfl)
       | (obtain ⟨-, -, _, -, rfl, -⟩ := h; exact quiet rfl rfl rfl))

/-- **C32, only collecting takes.** Whatever call succeeds, the recorded balance of the protocol, the treasury, the fee
delegator or a referral afterwards is at least what it was, unless the call is the one that collects this very balance. -/
theorem c32_only_collected {env : Env} {cl : Caller} {s s' : State} {op col : Op} {o : Out} {x : Dec} (h0 : Reach env s)
    (h : step env cl s op = Except.ok (s', o)) (hx : s.feeBalance col = some x) :
    op.sameBalance col ∨ ∃ y, s'.feeBalance col = some y ∧ x ≤ y := by
  by_cases hc : op.collects = true
  · have hf : ∃ z, s.feeBalance op = some z := by
      cases op with
      | collectReferralRewards id =>
        obtain ⟨d, pool, y, -, hd, -⟩ := collectReferralRewards_ok (step_body h)
        exact ⟨d.balance, by simp only [State.feeBalance, hd, Option.map_some]⟩
      | _ => first | (cases hc; done) | exact ⟨_, rfl⟩
    obtain ⟨z, hz⟩ := hf
    by_cases hsame : op.sameBalance col
    · exact Or.inl hsame
    · exact Or.inr ⟨x, by rw [(c32_paid_once h0 h hz).2.2 col hsame]; exact hx, le_refl _⟩
  · have g := body_grows (step_body h) (by simpa using hc) (reach_inForce h0).exchange (reach_rates h0) (reach_balOk h0)
    right
    cases col with
    | collectTreasury => cases hx; exact ⟨_, rfl, g.treasury⟩
    | collectFeeDelegator => cases hx; exact ⟨_, rfl, g.delegator⟩
    | swapProtocolFee b => cases hx; exact ⟨_, rfl, g.protocol⟩
    | collectReferralRewards id =>
      simp only [State.feeBalance, Option.map_eq_some_iff] at hx
      obtain ⟨d, hd, rfl⟩ := hx
      obtain ⟨d', hd', hle⟩ := g.referral id d hd
      exact ⟨d'.balance, by simp only [State.feeBalance, hd', Option.map_some], hle⟩
    | _ => cases hx

/-- **C32, who takes.** If a call leaves a recorded fee balance smaller, then it is the call that collects it, made by someone
who satisfies the rule of that call's role and, for the rewards of a referral, shows that referral's badge; and the pool still
holds its authority. -/
theorem c32_entitled {env : Env} {cl : Caller} {s s' : State} {op col : Op} {o : Out} {x y : Dec} (h0 : Reach env s)
    (h : step env cl s op = Except.ok (s', o)) (hx : s.feeBalance col = some x) (hy : s'.feeBalance col = some y)
    (hlt : y < x) :
    op.sameBalance col ∧ (∀ r, col.role = some r → (s.roles r).sat cl.pf = true) ∧
    (∀ id, col.badge = some id → cl.refs id = true) ∧ 1 ≤ s.authority := by
  rcases c32_only_collected h0 h hx with hs | ⟨z, hz, hle⟩
  · have hp : Permitted cl s op := by
      by_contra hn
      rcases step_not_permitted (env := env) hn with e | e <;> rw [h] at e <;> cases e
    have hauth : op.authorized = true := by
      cases op <;> cases col <;> first | rfl | exact absurd hs (by simp [Op.sameBalance])
    refine ⟨hs, ?_, ?_, hp.authority hauth⟩
    · intro r hr
      refine hp.role r ?_
      rw [← hr]
      cases op <;> cases col <;> first | rfl | exact absurd hs (by simp [Op.sameBalance])
    · intro id hid
      refine c36_referral_holder h ?_
      rw [← hid]
      cases op <;> cases col <;>
        first
        | rfl
        | exact congrArg some (show _ = _ from hs)
        | exact absurd hs (by simp [Op.sameBalance])
  · rw [hy] at hz; cases hz; omega

/-- What happens to a fee balance over a history: from one state to a later one through calls none of which collects it. -/
inductive Uncollected (env : Env) (col : Op) : State → State → Prop where
  | refl (s : State) : Uncollected env col s s
  | step {s s1 s2 : State} {cl : Caller} {op : Op} {o : Out} : Uncollected env col s s1 →
      step env cl s1 op = Except.ok (s2, o) → ¬ op.sameBalance col → Uncollected env col s s2

/-- **C32, over time.** A recorded balance which nobody collects is there, undiminished, after any number of calls. -/
theorem c32_kept {env : Env} {s s' : State} {col : Op} {x : Dec} (h0 : Reach env s) (h : Uncollected env col s s')
    (hx : s.feeBalance col = some x) : ∃ y, s'.feeBalance col = some y ∧ x ≤ y := by
  have : Reach env s' ∧ ∃ y, s'.feeBalance col = some y ∧ x ≤ y := by
    induction h with
    | refl => exact ⟨h0, x, hx, le_refl _⟩
    | step _ hs hn ih =>
      obtain ⟨hr, y, hy, hle⟩ := ih
      refine ⟨.step hr hs, ?_⟩
      rcases c32_only_collected hr hs hy with h1 | ⟨z, hz, hle'⟩
      · exact absurd h1 hn
      · exact ⟨z, hz, hle.trans hle'⟩
  exact this.2

namespace Scn

/-- `c36_referral_holder`, `c32_entitled`: referral 1 has earned something, and collecting it leaves nothing. -/
example : Reach env earning ∧ ∃ s' o x, step env anyone earning (.collectReferralRewards 1) = Except.ok (s', o) ∧
    earning.feeBalance (.collectReferralRewards 1) = some x ∧ 0 < x ∧ s'.feeBalance (.collectReferralRewards 1) = some 0 ∧
    anyone.refs 1 = true ∧ 1 ≤ earning.authority := by
  obtain ⟨s', o, h, h1, h2⟩ := stepped (s := earning) (op := .collectReferralRewards 1)
    (P := fun s' _ => (earning.feeBalance (.collectReferralRewards 1)).all (fun x => decide (0 < x)) = true ∧
      s'.feeBalance (.collectReferralRewards 1) = some 0) (by decide +kernel)
  cases hx : earning.feeBalance (.collectReferralRewards 1) with
  | none => exact absurd hx (by decide +kernel)
  | some x =>
    rw [hx] at h1
    have h0 : 0 < x := of_decide_eq_true h1
    obtain ⟨-, -, h4, h5⟩ := c32_entitled earning_reach h hx h2 h0
    exact ⟨earning_reach, s', o, x, h, rfl, h0, h2, h4 1 rfl, h5⟩

/-- Without the badge the same call fails. -/
example : ∃ e, step env { anyone with refs := fun _ => false } earning (.collectReferralRewards 1) = Except.error e := by
  cases h : step env { anyone with refs := fun _ => false } earning (.collectReferralRewards 1) with
  | error e => exact ⟨e, rfl⟩
  | ok r => exact absurd (c36_referral_holder (id := 1) h rfl) (by decide)

/-- `c32_only_collected`, `c32_kept`: collecting the treasury leaves the referral's balance. -/
example : ∃ s' o y, step env anyone earning .collectTreasury = Except.ok (s', o) ∧
    s'.feeBalance (.collectReferralRewards 1) = some y ∧ 0 < y := by
  obtain ⟨s', o, h, h1⟩ := stepped (s := earning) (op := .collectTreasury)
    (P := fun _ _ => (earning.feeBalance (.collectReferralRewards 1)).all (fun x => decide (0 < x)) = true) (by decide +kernel)
  cases hx : earning.feeBalance (.collectReferralRewards 1) with
  | none => exact absurd hx (by decide +kernel)
  | some x =>
    rw [hx] at h1
    obtain ⟨y, hy, hle⟩ := c32_kept earning_reach (.step (.refl _) h (by simp [Op.sameBalance])) hx
    exact ⟨s', o, y, h, hy, lt_of_lt_of_le (of_decide_eq_true h1) hle⟩

end Scn

end Perp
