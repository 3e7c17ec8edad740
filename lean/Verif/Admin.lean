import Verif.Book

/-!
# What each call can do to the clock, the authority, the roles, the configuration and the oracle
-/

namespace Perp

/-- The signed price message a call carries. -/
def Op.update : Op → Option PriceUpdate
  | .processRequest _ _ u | .swapDebt _ _ _ u | .liquidate _ _ u | .autoDeleverage _ _ u
  | .updatePairs _ u => u
  | .oraclePush u => some u
  | _ => none

/-- Effects of a call on the administrative part of the state. -/
structure AdminEff (env : Env) (cl : Caller) (s : State) (op : Op) (s' : State) : Prop where
  now : s'.now = s.now ∨ (op = .tick s'.now ∧ s.now ≤ s'.now ∧ s'.now ≤ I64MAX)
  authority : s'.authority = s.authority ∨
    (∃ x, op = .depositAuthority x ∧ 0 ≤ x ∧ s'.authority = s.authority + x) ∨
    (op = .withdrawAuthority ∧ s'.authority = 0)
  roles : s'.roles = s.roles ∨ ∃ r rule, op = .setRole r rule ∧ r ≠ .owner ∧
    ((s.roles .owner).sat cl.pf = true ∨ (r.userRole = true ∧ (s.roles .userAdmin).sat cl.pf = true)) ∧
    s'.roles = fun x => if x = r then rule else s.roles x
  owners : s'.oracleOwner = s.oracleOwner ∧ s'.delegatorOwner = s.delegatorOwner
  config : s'.config = s.config ∨
    (∃ c, op = .updateExchangeConfig c ∧ s.config.updateExchange c = Except.ok s'.config) ∨
    (∃ cs, op = .updatePairConfigs cs ∧ s.config.updatePairs cs = Except.ok s'.config) ∨
    (∃ cs, op = .updateCollateralConfigs cs ∧ s.config.updateCollaterals cs = Except.ok s'.config) ∨
    (∃ r, op = .removeCollateralConfig r ∧ s'.config = s.config.removeCollateral r)
  oracle : s'.oracle = s.oracle ∨
    (∃ u, op.update = some u ∧ s.oracle.push env u = Except.ok s'.oracle) ∨
    (∃ id k, op = .oracleAddKey id k ∧ s.oracle.addKey id k = Except.ok s'.oracle) ∨
    (∃ id, op = .oracleRemoveKey id ∧ s'.oracle = s.oracle.removeKey id) ∨
    (∃ p, op = .oracleRemovePrice p ∧ s'.oracle = s.oracle.removePrice p)

theorem adminEff_same {env : Env} {cl : Caller} {s : State} {op : Op} {s' : State}
    (h1 : s'.now = s.now) (h2 : s'.authority = s.authority) (h3 : s'.roles = s.roles)
    (h4 : s'.oracleOwner = s.oracleOwner) (h5 : s'.delegatorOwner = s.delegatorOwner)
    (h6 : s'.config = s.config) (h7 : s'.oracle = s.oracle) : AdminEff env cl s op s' :=
  ⟨.inl h1, .inl h2, .inl h3, ⟨h4, h5⟩, .inl h6, .inl h7⟩

theorem adminEff_push {env : Env} {cl : Caller} {s : State} {op : Op} {s' : State} {u : Option PriceUpdate}
    (hu : op.update = u) (h7 : s.oracle.maybePush env u = Except.ok s'.oracle)
    (h1 : s'.now = s.now) (h2 : s'.authority = s.authority) (h3 : s'.roles = s.roles)
    (h4 : s'.oracleOwner = s.oracleOwner) (h5 : s'.delegatorOwner = s.delegatorOwner)
    (h6 : s'.config = s.config) : AdminEff env cl s op s' := by
  refine ⟨.inl h1, .inl h2, .inl h3, ⟨h4, h5⟩, .inl h6, ?_⟩
  unfold Oracle.maybePush at h7
  cases u with
  | none => simp only [pure_ok] at h7; exact .inl h7.symm
  | some x => exact .inr (.inl ⟨x, hu, h7⟩)

/-- Keeper calls. -/
theorem adminEff_keeper {env : Env} {cl : Caller} {s s1 : State} {op : Op} {s' : State}
    {u : Option PriceUpdate} {ids : List PairId} {c : Ctx} {pool : VPool}
    (hk : keeperLoad env s ids u = Except.ok (s1, c, pool)) (hu : op.update = u)
    (h0 : s'.oracle = s1.oracle)
    (h1 : s'.now = s1.now) (h2 : s'.authority = s1.authority) (h3 : s'.roles = s1.roles)
    (h4 : s'.oracleOwner = s1.oracleOwner) (h5 : s'.delegatorOwner = s1.delegatorOwner)
    (h6 : s'.config = s1.config) : AdminEff env cl s op s' := by
  obtain ⟨-, -, -, ho, -, -, hs1⟩ := keeperLoad_ok hk
  refine adminEff_push hu (by rw [h0]; exact ho) ?_ ?_ ?_ ?_ ?_ ?_
  · rw [h1, hs1]
  · rw [h2, hs1]
  · rw [h3, hs1]
  · rw [h4, hs1]
  · rw [h5, hs1]
  · rw [h6, hs1]

theorem body_admin {env : Env} {cl : Caller} {s s' : State} {op : Op} {o : Out}
    (h : body env cl s op = Except.ok (s', o)) : AdminEff env cl s op s' := by
  cases op with
  | depositAuthority x =>
    simp only [body, bind_ok, pure_ok, require_ok, decide_eq_true_eq, dadd_ok, Prod.mk.injEq] at h
    obtain ⟨-, h0, _, ⟨-, rfl⟩, rfl, -⟩ := h
    exact ⟨.inl rfl, .inr (.inl ⟨x, rfl, h0, rfl⟩), .inl rfl, ⟨rfl, rfl⟩, .inl rfl, .inl rfl⟩
  | withdrawAuthority =>
    simp only [body, pure_ok, Prod.mk.injEq] at h
    obtain ⟨rfl, -⟩ := h
    exact ⟨.inl rfl, .inr (.inr ⟨rfl, rfl⟩), .inl rfl, ⟨rfl, rfl⟩, .inl rfl, .inl rfl⟩
  | signalUpgrade _ =>
    simp only [body, pure_ok, Prod.mk.injEq] at h
    obtain ⟨rfl, -⟩ := h
    exact adminEff_same rfl rfl rfl rfl rfl rfl rfl
  | updateExchangeConfig c =>
    simp only [body, bind_ok, pure_ok, Prod.mk.injEq] at h
    obtain ⟨_, hc, rfl, -⟩ := h
    exact ⟨.inl rfl, .inl rfl, .inl rfl, ⟨rfl, rfl⟩, .inr (.inl ⟨c, rfl, hc⟩), .inl rfl⟩
  | updatePairConfigs c =>
    simp only [body, bind_ok, pure_ok, Prod.mk.injEq] at h
    obtain ⟨_, hc, rfl, -⟩ := h
    exact ⟨.inl rfl, .inl rfl, .inl rfl, ⟨rfl, rfl⟩, .inr (.inr (.inl ⟨c, rfl, hc⟩)), .inl rfl⟩
  | updateCollateralConfigs c =>
    simp only [body, bind_ok, pure_ok, Prod.mk.injEq] at h
    obtain ⟨_, hc, rfl, -⟩ := h
    exact ⟨.inl rfl, .inl rfl, .inl rfl, ⟨rfl, rfl⟩, .inr (.inr (.inr (.inl ⟨c, rfl, hc⟩))), .inl rfl⟩
  | removeCollateralConfig c =>
    simp only [body, pure_ok, Prod.mk.injEq] at h
    obtain ⟨rfl, -⟩ := h
    exact ⟨.inl rfl, .inl rfl, .inl rfl, ⟨rfl, rfl⟩, .inr (.inr (.inr (.inr ⟨c, rfl, rfl⟩))), .inl rfl⟩
  | collectTreasury =>
    obtain ⟨pool, x, hp, rfl, -⟩ := collectTreasury_ok h
    exact adminEff_same rfl rfl rfl rfl rfl rfl rfl
  | collectFeeDelegator =>
    obtain ⟨pool, x, hp, rfl, -⟩ := collectFeeDelegator_ok h
    exact adminEff_same rfl rfl rfl rfl rfl rfl rfl
  | mintReferral id a b m =>
    simp only [body, bind_ok, pure_ok, Prod.mk.injEq] at h
    obtain ⟨s1, hm, rfl, -⟩ := h
    obtain ⟨h1, h2, hn, rfl⟩ := mintReferral_ok hm
    exact adminEff_same rfl rfl rfl rfl rfl rfl rfl
  | mintReferralWithAllocation id a b m t c n =>
    simp only [body, mintReferralWithAllocation, bind_ok] at h
    obtain ⟨s1, hm, h⟩ := h
    obtain ⟨h1, h2, hn, rfl⟩ := mintReferral_ok hm
    obtain ⟨cfg, s2, g, rest, i, -, -, hg, -, rfl, -⟩ := addReferralAllocation_ok h
    obtain ⟨d, hd, -, -, rfl⟩ := grantReferrals_ok hg
    exact adminEff_same rfl rfl rfl rfl rfl rfl rfl
  | updateReferral id a b m =>
    simp only [body, bind_ok, pure_ok, Prod.mk.injEq] at h
    obtain ⟨s1, hm, rfl, -⟩ := h
    rcases updateReferral_ok hm with rfl | ⟨d, hd, ha, hb, rfl⟩
    · exact adminEff_same rfl rfl rfl rfl rfl rfl rfl
    · exact adminEff_same rfl rfl rfl rfl rfl rfl rfl
  | addReferralAllocation id t c n =>
    obtain ⟨cfg, s2, g, rest, i, -, -, hg, -, rfl, -⟩ := addReferralAllocation_ok h
    obtain ⟨d, hd, -, -, rfl⟩ := grantReferrals_ok hg
    exact adminEff_same rfl rfl rfl rfl rfl rfl rfl
  | swapProtocolFee b =>
    obtain ⟨cfg, pool, x, burn, -, -, -, -, hp, rfl, -⟩ := swapProtocolFee_ok h
    exact adminEff_same rfl rfl rfl rfl rfl rfl rfl
  | addLiquidity b =>
    obtain ⟨cfg, fee, lp, price, hc, hb, -, hfee, -, -, rfl, -⟩ := opAddLiquidity_ok h
    exact adminEff_same rfl rfl rfl rfl rfl rfl rfl
  | removeLiquidity b =>
    obtain ⟨cfg, price, value, fee, x, hc, hb, hres, hs0, hpr, hval, hfee, -, ht, rfl, -⟩ := opRemoveLiquidity_ok h
    exact adminEff_same rfl rfl rfl rfl rfl rfl rfl
  | createReferralCodes id t hs =>
    obtain ⟨cfg, n, s1, g, rest, -, -, -, -, hg, -, rfl, -⟩ := createReferralCodes_ok h
    obtain ⟨d, hd, -, -, rfl⟩ := grantReferrals_ok hg
    exact adminEff_same rfl rfl rfl rfl rfl rfl rfl
  | createReferralCodesFromAllocation id i hs =>
    simp only [body, bind_ok, pure_ok, Prod.mk.injEq] at h
    obtain ⟨s1, hm, rfl, -⟩ := h
    obtain ⟨g, -, -, rfl⟩ := createReferralCodesFromAllocation_ok hm
    exact adminEff_same rfl rfl rfl rfl rfl rfl rfl
  | collectReferralRewards id =>
    obtain ⟨d, pool, x, -, hd, hp, rfl, -⟩ := collectReferralRewards_ok h
    exact adminEff_same rfl rfl rfl rfl rfl rfl rfl
  | createAccount a oath r t c =>
    obtain ⟨s0, rid, extra, s1, v, s2, w, acc, refs, -, hn, hc, rfl, hv, hd, hr, he, -⟩ := createAccount_ok h
    obtain ⟨cfg, ids, w0, -, -, rfl, -, -, -, -⟩ := depositTokens_ok hd
    subst he
    rcases claimCode_ok hc with ⟨-, -, -, hs⟩ | ⟨_, g, r', -, -, -, rfl⟩
    · subst hs; exact adminEff_same rfl rfl rfl rfl rfl rfl rfl
    · exact adminEff_same rfl rfl rfl rfl rfl rfl rfl
  | createRecoveryKey oath a =>
    obtain ⟨v, s1, v1, cfg, hv, -, hp, r, x, rfl, rfl, acc, refs, hr, he, -⟩ := createRecoveryKey_ok h
    obtain ⟨rfl, -⟩ := payOath_frame hp
    subst he
    exact adminEff_same rfl rfl rfl rfl rfl rfl rfl
  | addAuthRule oath a l n =>
    obtain ⟨v, s1, v1, cfg, l', hv, -, hp, -, r, x, rfl, rfl, acc, refs, hr, he, -⟩ := addAuthRule_ok h
    obtain ⟨rfl, -⟩ := payOath_frame hp
    subst he
    exact adminEff_same rfl rfl rfl rfl rfl rfl rfl
  | setLevelAuth oath a l r =>
    obtain ⟨v, s1, v1, cfg, hv, -, hp, x, rfl, acc, refs, hr, he, -⟩ := setLevelAuth_ok h
    obtain ⟨rfl, -⟩ := payOath_frame hp
    subst he
    exact adminEff_same rfl rfl rfl rfl rfl rfl rfl
  | addCollateral oath a t =>
    obtain ⟨v, s1, w, acc, refs, -, hv, -, hd, hr, he, -⟩ := opAddCollateral_ok h
    obtain ⟨cfg, ids, w0, -, -, rfl, -, -, -, -⟩ := depositTokens_ok hd
    subst he
    exact adminEff_same rfl rfl rfl rfl rfl rfl rfl
  | removeCollateralRequest oath e a t c =>
    obtain ⟨v, s1, v1, cfg, v2, acc, refs, hv, -, hp, hpush, -, hr, he, -⟩ := removeCollateralRequest_ok h
    obtain ⟨rfl, -⟩ := payOath_frame hp
    subst he
    exact adminEff_same rfl rfl rfl rfl rfl rfl rfl
  | marginOrderRequest oath a args act can st =>
    obtain ⟨v, s1, v1, cfg, _, _, v2, acc, refs, hv, -, hp, -, -, hpush, -, hr, he, -⟩ :=
      marginOrderRequest_ok h
    obtain ⟨rfl, -⟩ := payOath_frame hp
    subst he
    exact adminEff_same rfl rfl rfl rfl rfl rfl rfl
  | marginOrderTpSlRequest oath a args tp sl =>
    obtain ⟨v, s1, v1, cfg, v2, v3, v4, acc, refs, iTp, iSl, hv, -, hp, -, -, h2, h3, h4, -, hr, he, -⟩ :=
      marginOrderTpSlRequest_ok h
    obtain ⟨rfl, -⟩ := payOath_frame hp
    subst he
    exact adminEff_same rfl rfl rfl rfl rfl rfl rfl
  | cancelRequests oath a is =>
    obtain ⟨v, s1, v1, cfg, v2, acc, refs, hv, -, hp, h2, hr, he, -⟩ := opCancelRequests_ok h
    obtain ⟨rfl, -⟩ := payOath_frame hp
    subst he
    exact adminEff_same rfl rfl rfl rfl rfl rfl rfl
  | processRequest a i u =>
    obtain ⟨v, v1, r, expired, cfg, hv, hpr, -, -, -, h⟩ := processRequest_ok h
    rcases h with ⟨-, acc, refs, hr, rfl, -⟩ | ⟨-, s1, c, w, out, acc, refs, hk, hx, hr, rfl, -⟩
    · exact adminEff_same rfl rfl rfl rfl rfl rfl rfl
    · exact adminEff_keeper hk rfl rfl rfl rfl rfl rfl rfl rfl
  | swapDebt a r p u =>
    obtain ⟨v, s1, c, w, token, rest, e, acc, refs, -, hv, hk, hx, hr, rfl, -⟩ := opSwapDebt_ok h
    exact adminEff_keeper hk rfl rfl rfl rfl rfl rfl rfl rfl
  | liquidate a p u =>
    obtain ⟨v, s1, c, w, tokens, e, acc, refs, -, hv, hk, hx, hr, -, rfl, -⟩ := opLiquidate_ok h
    exact adminEff_keeper hk rfl rfl rfl rfl rfl rfl rfl rfl
  | autoDeleverage a p u =>
    obtain ⟨v, s1, c, w, e, acc, refs, hv, hk, hx, hr, -, rfl, -⟩ := opAutoDeleverage_ok h
    exact adminEff_keeper hk rfl rfl rfl rfl rfl rfl rfl rfl
  | updatePairs ids u =>
    obtain ⟨s1, c, pool, flags, n, hk, hx, -, rfl, -⟩ := opUpdatePairs_ok h
    exact adminEff_keeper hk rfl rfl rfl rfl rfl rfl rfl rfl
  | setRole r rule =>
    simp only [body, bind_ok, pure_ok, Prod.mk.injEq] at h
    obtain ⟨s1, hm, rfl, -⟩ := h
    obtain ⟨h1, h2, rfl⟩ := setRole_ok hm
    exact ⟨.inl rfl, .inl rfl, .inr ⟨r, rule, rfl, h1, h2, rfl⟩, ⟨rfl, rfl⟩, .inl rfl, .inl rfl⟩
  | oraclePush u =>
    simp only [body, bind_ok, pure_ok, Prod.mk.injEq] at h
    obtain ⟨_, hu, rfl, -⟩ := h
    exact ⟨.inl rfl, .inl rfl, .inl rfl, ⟨rfl, rfl⟩, .inl rfl, .inr (.inl ⟨u, rfl, hu⟩)⟩
  | oracleAddKey id k =>
    simp only [body, bind_ok, pure_ok, Prod.mk.injEq] at h
    obtain ⟨_, hk, rfl, -⟩ := h
    exact ⟨.inl rfl, .inl rfl, .inl rfl, ⟨rfl, rfl⟩, .inl rfl, .inr (.inr (.inl ⟨id, k, rfl, hk⟩))⟩
  | oracleRemoveKey id =>
    simp only [body, pure_ok, Prod.mk.injEq] at h
    obtain ⟨rfl, -⟩ := h
    exact ⟨.inl rfl, .inl rfl, .inl rfl, ⟨rfl, rfl⟩, .inl rfl, .inr (.inr (.inr (.inl ⟨id, rfl, rfl⟩)))⟩
  | oracleRemovePrice p =>
    simp only [body, pure_ok, Prod.mk.injEq] at h
    obtain ⟨rfl, -⟩ := h
    exact ⟨.inl rfl, .inl rfl, .inl rfl, ⟨rfl, rfl⟩, .inl rfl, .inr (.inr (.inr (.inr ⟨p, rfl, rfl⟩)))⟩
  | delegatorMaxLock x =>
    simp only [body, bind_ok, pure_ok, Prod.mk.injEq] at h
    obtain ⟨_, hd, rfl, -⟩ := h
    exact adminEff_same rfl rfl rfl rfl rfl rfl rfl
  | delegatorMultiplier x =>
    simp only [body, bind_ok, pure_ok, Prod.mk.injEq] at h
    obtain ⟨_, hd, rfl, -⟩ := h
    exact adminEff_same rfl rfl rfl rfl rfl rfl rfl
  | delegatorContingent b =>
    simp only [body, pure_ok, Prod.mk.injEq] at h
    obtain ⟨rfl, -⟩ := h
    exact adminEff_same rfl rfl rfl rfl rfl rfl rfl
  | delegatorDeposit x =>
    simp only [body, bind_ok, pure_ok, Prod.mk.injEq] at h
    obtain ⟨_, hd, rfl, -⟩ := h
    exact adminEff_same rfl rfl rfl rfl rfl rfl rfl
  | delegatorWithdraw x =>
    simp only [body, bind_ok, pure_ok, Prod.mk.injEq] at h
    obtain ⟨⟨_, _⟩, hd, rfl, -⟩ := h
    exact adminEff_same rfl rfl rfl rfl rfl rfl rfl
  | lockFee x =>
    obtain ⟨value, -, -, -, h0, hle, rfl, -⟩ := lockFee_ok h
    exact adminEff_same rfl rfl rfl rfl rfl rfl rfl
  | tick t =>
    simp only [body, bind_ok, pure_ok, require_ok, decide_eq_true_eq, Prod.mk.injEq] at h
    obtain ⟨-, ⟨h1, h2⟩, rfl, -⟩ := h
    exact ⟨.inr ⟨rfl, h1, h2⟩, .inl rfl, .inl rfl, ⟨rfl, rfl⟩, .inl rfl, .inl rfl⟩

/-! ## C40: roles -/

/-- **C40, roles.** A call of an exchange method succeeds only if the caller's proofs satisfy the rule
currently assigned to the method's role. -/
theorem c40_role_required {env : Env} {cl : Caller} {s s' : State} {op : Op} {o : Out} {r : Role}
    (h : step env cl s op = Except.ok (s', o)) (hr : op.role = some r) : (s.roles r).sat cl.pf = true := by
  have := (step_ok.mp h).1
  unfold checkRole at this
  rw [hr] at this
  simpa [require_ok] using this

/-- **C40, owner-only components.** Oracle administration and fee-delegator administration succeed only
for the owner of the component. -/
theorem c40_owner_required {env : Env} {cl : Caller} {s s' : State} {op : Op} {o : Out} {r : Rule}
    (h : step env cl s op = Except.ok (s', o)) (hr : op.ownerRule s = some r) : r.sat cl.pf = true := by
  have := (step_ok.mp h).2.1
  unfold checkOwner at this
  rw [hr] at this
  simpa [require_ok] using this

/-- **C40, role assignment.** A role's rule changes only in a `set_role` call of the owner, or, for user
roles, of the user admin; the owner role itself and the owners of oracle and delegator never change. -/
theorem c40_roles_change {env : Env} {cl : Caller} {s s' : State} {op : Op} {o : Out} {r : Role}
    (h : step env cl s op = Except.ok (s', o)) (hr : s'.roles r ≠ s.roles r) :
    r ≠ .owner ∧ (∃ rule, op = .setRole r rule) ∧
    ((s.roles .owner).sat cl.pf = true ∨ (r.userRole = true ∧ (s.roles .userAdmin).sat cl.pf = true)) := by
  rcases (body_admin (step_body h)).roles with h1 | ⟨r', rule, h1, h2, h3, h4⟩
  · rw [h1] at hr; exact absurd rfl hr
  · rw [h4] at hr
    simp only [ne_eq, ite_eq_right_iff, Classical.not_imp] at hr
    obtain ⟨rfl, -⟩ := hr
    exact ⟨h2, ⟨rule, h1⟩, h3⟩

/-- **C40, atomicity.** A transaction in which some call fails, or which leaves a fee oath behind,
changes nothing. -/
theorem c40_failed_tx_changes_nothing {env : Env} {cl : Caller} {s : State} {ops : List Op} {e : Err}
    (h : runTx env cl s ops = Except.error e) : applyTx env cl s ops = s := by
  unfold applyTx; rw [h]

theorem runOps_error {env : Env} {cl : Caller} {op : Op} {e : Err} (pre post : List Op) :
    ∀ {s s1 : State} {os : List Out}, runOps env cl s pre = Except.ok (s1, os) →
    step env cl s1 op = Except.error e → runOps env cl s (pre ++ op :: post) = Except.error e := by
  induction pre with
  | nil =>
    intro s s1 os h1 h2
    simp only [runOps, Except.ok.injEq, Prod.mk.injEq] at h1
    obtain ⟨rfl, -⟩ := h1
    simp only [List.nil_append, runOps, h2]
    rfl
  | cons x pre ih =>
    intro s s1 os h1 h2
    simp only [runOps, bind_ok, pure_ok, Prod.mk.injEq] at h1
    obtain ⟨⟨s2, o⟩, h3, ⟨s3, os'⟩, h4, rfl, -⟩ := h1
    simp only [List.cons_append, runOps, h3]
    have := ih h4 h2
    simp only [bind, Except.bind, this]

/-- **C40, one failing call.** A call that fails in the middle of a transaction undoes the calls before
it as well. -/
theorem c40_failed_call_undoes_all {env : Env} {cl : Caller} {s s1 : State} {pre post : List Op} {op : Op}
    {os : List Out} {e : Err} (h1 : runOps env cl s pre = Except.ok (s1, os))
    (h2 : step env cl s1 op = Except.error e) : applyTx env cl s (pre ++ op :: post) = s := by
  apply c40_failed_tx_changes_nothing (e := e)
  unfold runTx
  rw [runOps_error pre post h1 h2]; rfl

/-! ## C39: the authority token -/

/-- **C39, frozen.** Without an authority token every exchange method except depositing or withdrawing the
authority and signalling an upgrade fails. -/
theorem c39_frozen {env : Env} {cl : Caller} {s : State} {op : Op} {r : Role} (h : s.authority ≤ 0)
    (hr : op.role = some r) (h1 : ∀ x, op ≠ .depositAuthority x) (h2 : op ≠ .withdrawAuthority)
    (h3 : ∀ x, op ≠ .signalUpgrade x) : ∀ s' o, step env cl s op ≠ Except.ok (s', o) := by
  intro s' o hs
  have h := (step_ok.mp hs).2.2.1
  unfold checkAuthority at h
  have : op.authorized = true := by
    cases op <;> first | rfl | (simp [Op.role] at hr; done) | skip
    · exact absurd rfl (h1 _)
    · exact absurd rfl h2
    · exact absurd rfl (h3 _)
  rw [this] at h
  simp only [if_true, require_ok, decide_eq_true_eq] at h
  omega

/-- **C39, until re-deposited.** After `withdraw_authority` the authority stays away in every later history
in which nobody deposits it again, whatever else is called. -/
theorem c39_stays_frozen {env : Env} {P : Op → Prop} (hP : ∀ x, ¬ P (.depositAuthority x)) {s s' : State}
    (h : s.authority = 0)
    (hist : Relation.ReflTransGen (fun a b => ∃ cl op o, P op ∧ step env cl a op = Except.ok (b, o)) s s') :
    s'.authority = 0 := by
  induction hist with
  | refl => exact h
  | tail _ hs ih =>
    obtain ⟨cl, op, o, hp, hs⟩ := hs
    rcases (body_admin (step_body hs)).authority with h1 | ⟨x, h1, -, -⟩ | ⟨-, h1⟩
    · rw [h1, ih]
    · subst h1; exact absurd hp (hP x)
    · exact h1

theorem c39_withdraw {env : Env} {cl : Caller} {s s' : State} {o : Out}
    (h : step env cl s .withdrawAuthority = Except.ok (s', o)) : s'.authority = 0 := by
  have := step_body h
  simp only [body, pure_ok, Prod.mk.injEq] at this
  rw [← this.1]

/-- **C39, what still moves.** While the authority is away the only thing a successful call to the exchange
component can change is the authority balance or a role assignment: balances, positions, requests,
liquidity, configuration and prices stay as they are. -/
theorem c39_only_authority_moves {env : Env} {cl : Caller} {s s' : State} {op : Op} {r : Role} {o : Out}
    (h : s.authority ≤ 0) (hr : op.role = some r) (hs : step env cl s op = Except.ok (s', o)) :
    s' = { s with authority := s'.authority } := by
  by_cases h1 : ∃ x, op = .depositAuthority x
  · obtain ⟨x, rfl⟩ := h1
    have := step_body hs
    simp only [body, bind_ok, pure_ok, require_ok, Prod.mk.injEq] at this
    obtain ⟨-, -, _, -, rfl, -⟩ := this
    rfl
  · by_cases h2 : op = .withdrawAuthority
    · subst h2
      have := step_body hs
      simp only [body, pure_ok, Prod.mk.injEq] at this
      obtain ⟨rfl, -⟩ := this
      rfl
    · by_cases h3 : ∃ x, op = .signalUpgrade x
      · obtain ⟨x, rfl⟩ := h3
        have := step_body hs
        simp only [body, pure_ok, Prod.mk.injEq] at this
        obtain ⟨rfl, -⟩ := this
        rfl
      · exact absurd hs (c39_frozen h hr (fun x hx => h1 ⟨x, hx⟩) h2 (fun x hx => h3 ⟨x, hx⟩) s' o)

end Perp
