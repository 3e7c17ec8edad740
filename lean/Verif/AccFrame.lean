import Verif.Requests

/-!
# Which account a call works on
-/

namespace Perp

/-- The account a method call names. -/
def Op.account : Op → Option Addr
  | .createAccount a _ _ _ _ | .createRecoveryKey _ a | .addAuthRule _ a _ _ | .setLevelAuth _ a _ _
  | .addCollateral _ a _ | .removeCollateralRequest _ _ a _ _ | .marginOrderRequest _ a _ _ _ _
  | .marginOrderTpSlRequest _ a _ _ _ | .cancelRequests _ a _ | .processRequest a _ _ | .swapDebt a _ _ _
  | .liquidate a _ _ | .autoDeleverage a _ _ => some a
  | _ => none

/-- Calls that name no account change no account and no permission. -/
theorem body_no_account {env : Env} {cl : Caller} {s s' : State} {op : Op} {o : Out}
    (h : body env cl s op = Except.ok (s', o)) (hn : op.account = none) :
    s'.accounts = s.accounts ∧ s'.perms = s.perms ∧ s'.recoveryKeys = s.recoveryKeys ∧
      (s'.oathSupply = s.oathSupply ∨ ∃ x, op = .lockFee x) ∧
      (s'.delegator.maxLock = s.delegator.maxLock ∨ ∃ x, op = .delegatorMaxLock x ∧ s'.delegator.maxLock = x) := by
  cases op with
  | depositAuthority x =>
    simp only [body, bind_ok, pure_ok, Prod.mk.injEq] at h
    obtain ⟨-, -, _, -, rfl, -⟩ := h
    exact ⟨rfl, rfl, rfl, Or.inl rfl, Or.inl rfl⟩
  | withdrawAuthority =>
    simp only [body, pure_ok, Prod.mk.injEq] at h
    obtain ⟨rfl, -⟩ := h
    exact ⟨rfl, rfl, rfl, Or.inl rfl, Or.inl rfl⟩
  | signalUpgrade _ =>
    simp only [body, pure_ok, Prod.mk.injEq] at h
    obtain ⟨rfl, -⟩ := h
    exact ⟨rfl, rfl, rfl, Or.inl rfl, Or.inl rfl⟩
  | updateExchangeConfig c =>
    simp only [body, bind_ok, pure_ok, Prod.mk.injEq] at h
    obtain ⟨_, -, rfl, -⟩ := h
    exact ⟨rfl, rfl, rfl, Or.inl rfl, Or.inl rfl⟩
  | updatePairConfigs c =>
    simp only [body, bind_ok, pure_ok, Prod.mk.injEq] at h
    obtain ⟨_, -, rfl, -⟩ := h
    exact ⟨rfl, rfl, rfl, Or.inl rfl, Or.inl rfl⟩
  | updateCollateralConfigs c =>
    simp only [body, bind_ok, pure_ok, Prod.mk.injEq] at h
    obtain ⟨_, -, rfl, -⟩ := h
    exact ⟨rfl, rfl, rfl, Or.inl rfl, Or.inl rfl⟩
  | removeCollateralConfig c =>
    simp only [body, pure_ok, Prod.mk.injEq] at h
    obtain ⟨rfl, -⟩ := h
    exact ⟨rfl, rfl, rfl, Or.inl rfl, Or.inl rfl⟩
  | collectTreasury =>
    obtain ⟨pool, x, hp, rfl, -⟩ := collectTreasury_ok h
    exact ⟨rfl, rfl, rfl, Or.inl rfl, Or.inl rfl⟩
  | collectFeeDelegator =>
    obtain ⟨pool, x, hp, rfl, -⟩ := collectFeeDelegator_ok h
    exact ⟨rfl, rfl, rfl, Or.inl rfl, Or.inl rfl⟩
  | mintReferral id a b m =>
    simp only [body, bind_ok, pure_ok, Prod.mk.injEq] at h
    obtain ⟨s1, hm, rfl, -⟩ := h
    obtain ⟨h1, h2, hn, rfl⟩ := mintReferral_ok hm
    exact ⟨rfl, rfl, rfl, Or.inl rfl, Or.inl rfl⟩
  | mintReferralWithAllocation id a b m t c n =>
    simp only [body, mintReferralWithAllocation, bind_ok] at h
    obtain ⟨s1, hm, h⟩ := h
    obtain ⟨h1, h2, hn, rfl⟩ := mintReferral_ok hm
    obtain ⟨cfg, s2, g, rest, i, -, -, hg, -, rfl, -⟩ := addReferralAllocation_ok h
    obtain ⟨d, hd, -, -, rfl⟩ := grantReferrals_ok hg
    exact ⟨rfl, rfl, rfl, Or.inl rfl, Or.inl rfl⟩
  | updateReferral id a b m =>
    simp only [body, bind_ok, pure_ok, Prod.mk.injEq] at h
    obtain ⟨s1, hm, rfl, -⟩ := h
    rcases updateReferral_ok hm with rfl | ⟨d, hd, ha, hb, rfl⟩
    · exact ⟨rfl, rfl, rfl, Or.inl rfl, Or.inl rfl⟩
    · exact ⟨rfl, rfl, rfl, Or.inl rfl, Or.inl rfl⟩
  | addReferralAllocation id t c n =>
    obtain ⟨cfg, s2, g, rest, i, -, -, hg, -, rfl, -⟩ := addReferralAllocation_ok h
    obtain ⟨d, hd, -, -, rfl⟩ := grantReferrals_ok hg
    exact ⟨rfl, rfl, rfl, Or.inl rfl, Or.inl rfl⟩
  | swapProtocolFee b =>
    obtain ⟨cfg, pool, x, burn, -, -, -, -, hp, rfl, -⟩ := swapProtocolFee_ok h
    exact ⟨rfl, rfl, rfl, Or.inl rfl, Or.inl rfl⟩
  | addLiquidity b =>
    obtain ⟨cfg, fee, lp, price, hc, hb, -, hfee, -, -, rfl, -⟩ := opAddLiquidity_ok h
    exact ⟨rfl, rfl, rfl, Or.inl rfl, Or.inl rfl⟩
  | removeLiquidity b =>
    obtain ⟨cfg, price, value, fee, x, hc, hb, hres, hs0, hpr, hval, hfee, -, ht, rfl, -⟩ := opRemoveLiquidity_ok h
    exact ⟨rfl, rfl, rfl, Or.inl rfl, Or.inl rfl⟩
  | createReferralCodes id t hs =>
    obtain ⟨cfg, n, s1, g, rest, -, -, -, -, hg, -, rfl, -⟩ := createReferralCodes_ok h
    obtain ⟨d, hd, -, -, rfl⟩ := grantReferrals_ok hg
    exact ⟨rfl, rfl, rfl, Or.inl rfl, Or.inl rfl⟩
  | createReferralCodesFromAllocation id i hs =>
    simp only [body, bind_ok, pure_ok, Prod.mk.injEq] at h
    obtain ⟨s1, hm, rfl, -⟩ := h
    obtain ⟨g, -, -, rfl⟩ := createReferralCodesFromAllocation_ok hm
    exact ⟨rfl, rfl, rfl, Or.inl rfl, Or.inl rfl⟩
  | collectReferralRewards id =>
    obtain ⟨d, pool, x, -, hd, hp, rfl, -⟩ := collectReferralRewards_ok h
    exact ⟨rfl, rfl, rfl, Or.inl rfl, Or.inl rfl⟩
  | createAccount a oath r t c => cases hn
  | createRecoveryKey oath a => cases hn
  | addAuthRule oath a l n => cases hn
  | setLevelAuth oath a l r => cases hn
  | addCollateral oath a t => cases hn
  | removeCollateralRequest oath e a t c => cases hn
  | marginOrderRequest oath a args act can st => cases hn
  | marginOrderTpSlRequest oath a args tp sl => cases hn
  | cancelRequests oath a is => cases hn
  | processRequest a i u => cases hn
  | swapDebt a r p u => cases hn
  | liquidate a p u => cases hn
  | autoDeleverage a p u => cases hn
  | updatePairs ids u =>
    obtain ⟨s1, c, pool, flags, n, hk, hx, -, rfl, -⟩ := opUpdatePairs_ok h
    obtain ⟨-, -, -, -, -, -, hs1⟩ := keeperLoad_ok hk
    rw [hs1]
    exact ⟨rfl, rfl, rfl, Or.inl rfl, Or.inl rfl⟩
  | setRole r rule =>
    simp only [body, bind_ok, pure_ok, Prod.mk.injEq] at h
    obtain ⟨s1, hm, rfl, -⟩ := h
    obtain ⟨-, -, rfl⟩ := setRole_ok hm
    exact ⟨rfl, rfl, rfl, Or.inl rfl, Or.inl rfl⟩
  | oraclePush u =>
    simp only [body, bind_ok, pure_ok, Prod.mk.injEq] at h
    obtain ⟨_, -, rfl, -⟩ := h
    exact ⟨rfl, rfl, rfl, Or.inl rfl, Or.inl rfl⟩
  | oracleAddKey id k =>
    simp only [body, bind_ok, pure_ok, Prod.mk.injEq] at h
    obtain ⟨_, -, rfl, -⟩ := h
    exact ⟨rfl, rfl, rfl, Or.inl rfl, Or.inl rfl⟩
  | oracleRemoveKey id =>
    simp only [body, pure_ok, Prod.mk.injEq] at h
    obtain ⟨rfl, -⟩ := h
    exact ⟨rfl, rfl, rfl, Or.inl rfl, Or.inl rfl⟩
  | oracleRemovePrice p =>
    simp only [body, pure_ok, Prod.mk.injEq] at h
    obtain ⟨rfl, -⟩ := h
    exact ⟨rfl, rfl, rfl, Or.inl rfl, Or.inl rfl⟩
  | delegatorMaxLock x =>
    simp only [body, Delegator.updateMaxLock, bind_ok, pure_ok, require_ok, dadd_ok, Prod.mk.injEq] at h
    obtain ⟨_, ⟨-, -, rfl⟩, rfl, -⟩ := h
    exact ⟨rfl, rfl, rfl, Or.inl rfl, Or.inr ⟨_, rfl, rfl⟩⟩
  | delegatorMultiplier x =>
    simp only [body, Delegator.updateMultiplier, bind_ok, pure_ok, require_ok, dadd_ok, Prod.mk.injEq] at h
    obtain ⟨_, ⟨-, -, rfl⟩, rfl, -⟩ := h
    exact ⟨rfl, rfl, rfl, Or.inl rfl, Or.inl rfl⟩
  | delegatorContingent b =>
    simp only [body, pure_ok, Prod.mk.injEq] at h
    obtain ⟨rfl, -⟩ := h
    exact ⟨rfl, rfl, rfl, Or.inl rfl, Or.inl rfl⟩
  | delegatorDeposit x =>
    simp only [body, Delegator.deposit, bind_ok, pure_ok, require_ok, dadd_ok, Prod.mk.injEq] at h
    obtain ⟨_, ⟨-, -, _, -, rfl⟩, rfl, -⟩ := h
    exact ⟨rfl, rfl, rfl, Or.inl rfl, Or.inl rfl⟩
  | delegatorWithdraw x =>
    simp only [body, Delegator.withdraw, bind_ok, pure_ok, require_ok, dadd_ok, Prod.mk.injEq] at h
    obtain ⟨⟨_, _⟩, ⟨_, -, rfl, -⟩, rfl, -⟩ := h
    exact ⟨rfl, rfl, rfl, Or.inl rfl, Or.inl rfl⟩
  | lockFee x =>
    obtain ⟨value, -, -, -, h0, hle, rfl, -⟩ := lockFee_ok h
    exact ⟨rfl, rfl, rfl, Or.inr ⟨_, rfl⟩, Or.inl rfl⟩
  | tick t =>
    simp only [body, bind_ok, pure_ok, require_ok, Prod.mk.injEq] at h
    obtain ⟨-, -, rfl, -⟩ := h
    exact ⟨rfl, rfl, rfl, Or.inl rfl, Or.inl rfl⟩

/-- The state right after a new account has been registered, before its first deposit. -/
def State.withNew (s : State) (g : RefGen) (a : Addr) (rule : Rule) (rid : Option RefId) : State :=
  { s with refgen := g
           accounts := s.accounts.set a (Account.fresh rule rid)
           perms := registerAccount s.perms a rule }

/-- A call that names an account loads it, runs elementary effects on it and writes it back. -/
theorem body_account {env : Env} {cl : Caller} {s s' : State} {op : Op} {o : Out} {a : Addr}
    (h : body env cl s op = Except.ok (s', o)) (ha : op.account = some a) :
    (∃ lr, AccOp s a lr s' ∧ ∃ acc, s.accounts.get a = some acc) ∨
    (∃ g rule rid, (∃ oath t c, op = .createAccount a oath rule t c) ∧ s.accounts.get a = none ∧
      AccOp (s.withNew g a rule rid) a none s') := by
  have got : ∀ {v}, s.load a = Except.ok v → ∃ acc, s.accounts.get a = some acc := by
    intro v hv
    obtain ⟨acc, -, h, -⟩ := load_ok hv
    exact ⟨acc, h⟩
  cases op with
  | createAccount a' oath r t c =>
    cases ha
    obtain ⟨s0, rid, extra, s1, v, s2, w, acc, refs, -, hn, hc, rfl, hv, hd, hr, he, -⟩ := createAccount_ok h
    have hacc := accOp_of_deposit hv hd hr he
    rcases claimCode_ok hc with ⟨-, -, -, hs⟩ | ⟨_, g, r', -, -, -, rfl⟩
    · subst hs; exact Or.inr ⟨_, r, rid, ⟨_, _, _, rfl⟩, hn, hacc⟩
    · exact Or.inr ⟨g, r, rid, ⟨_, _, _, rfl⟩, hn, hacc⟩
  | createRecoveryKey oath a' =>
    cases ha
    obtain ⟨v, s1, v1, cfg, hv, -, hp, r, x, rfl, rfl, acc, refs, hr, he, -⟩ := createRecoveryKey_ok h
    exact Or.inl ⟨_, accOp_of_auth hv hp hr he, got hv⟩
  | addAuthRule oath a' l n =>
    cases ha
    obtain ⟨v, s1, v1, cfg, l', hv, -, hp, -, r, x, rfl, rfl, acc, refs, hr, he, -⟩ := addAuthRule_ok h
    exact Or.inl ⟨_, accOp_of_auth (k := s1.recoveryKeys) hv hp hr he, got hv⟩
  | setLevelAuth oath a' l r =>
    cases ha
    obtain ⟨v, s1, v1, cfg, hv, -, hp, x, rfl, acc, refs, hr, he, -⟩ := setLevelAuth_ok h
    exact Or.inl ⟨_, accOp_of_auth (k := s1.recoveryKeys) hv hp hr he, got hv⟩
  | addCollateral oath a' t =>
    cases ha
    obtain ⟨v, s1, w, acc, refs, -, hv, -, hd, hr, he, -⟩ := opAddCollateral_ok h
    exact Or.inl ⟨_, accOp_of_deposit hv hd hr he, got hv⟩
  | removeCollateralRequest oath e a' t c =>
    cases ha
    obtain ⟨v, s1, v1, cfg, v2, acc, refs, hv, -, hp, hpush, -, hr, he, -⟩ := removeCollateralRequest_ok h
    exact Or.inl ⟨_, accOp_of_acc hv hp
      (fun pool d => (WStep.push (w := { pool, acc := v1, dist := d }) hpush).path) hr he, got hv⟩
  | marginOrderRequest oath a' args act can st =>
    cases ha
    obtain ⟨v, s1, v1, cfg, _, _, v2, acc, refs, hv, -, hp, -, -, hpush, -, hr, he, -⟩ :=
      marginOrderRequest_ok h
    exact Or.inl ⟨_, accOp_of_acc hv hp
      (fun pool d => (WStep.push (w := { pool, acc := v1, dist := d }) hpush).path) hr he, got hv⟩
  | marginOrderTpSlRequest oath a' args tp sl =>
    cases ha
    obtain ⟨v, s1, v1, cfg, v2, v3, v4, acc, refs, iTp, iSl, hv, -, hp, -, -, h2, h3, h4, -, hr, he, -⟩ :=
      marginOrderTpSlRequest_ok h
    exact Or.inl ⟨_, accOp_of_acc hv hp
      (fun pool d => ((WStep.push (w := { pool, acc := v1, dist := d }) h2).path.trans0
        (pushExit_path h3 pool d)).trans0 (pushExit_path h4 pool d)) hr he, got hv⟩
  | cancelRequests oath a' is =>
    cases ha
    obtain ⟨v, s1, v1, cfg, v2, acc, refs, hv, -, hp, h2, hr, he, -⟩ := opCancelRequests_ok h
    exact Or.inl ⟨_, accOp_of_acc hv hp
      (fun pool d => (WStep.cancel (w := { pool, acc := v1, dist := d }) h2).path) hr he, got hv⟩
  | processRequest a' i u =>
    cases ha
    obtain ⟨v, v1, r, expired, cfg, hv, hpr, -, -, -, h⟩ := processRequest_ok h
    have p0 := fun pool d => (WStep.process (ex := s.config.exchange.decompress)
      (w := { pool, acc := v, dist := d }) hpr).path
    rcases h with ⟨-, acc, refs, hr, rfl, -⟩ | ⟨-, s1, c, w, out, acc, refs, hk, hx, hr, he, -⟩
    · refine Or.inl ⟨none, ?_, got hv⟩
      have := AccOp.mk (s := s) (a := a) (lr := none) s.oracle (s.rewardSupply + cfg.ex.rewardKeeper)
        s.recoveryKeys hv (p0 (VPool.new s.pool s.now []) s.dist) hr
      convert this using 1
      simp [State.realizedAcc, State.realized, VPool.realize_new, authPerms]
    · exact Or.inl ⟨_, accOp_of_keeper hv p0 hk (executeRequest_path hx) hr he, got hv⟩
  | swapDebt a' r p u =>
    cases ha
    obtain ⟨v, s1, c, w, token, rest, e, acc, refs, -, hv, hk, hx, hr, he, -⟩ := opSwapDebt_ok h
    exact Or.inl ⟨_, accOp_of_keeper hv (fun _ _ => .refl _) hk (swapDebt_path hx) hr
      (rw := s1.rewardSupply) (by rw [he]; rfl), got hv⟩
  | liquidate a' p u =>
    cases ha
    obtain ⟨v, s1, c, w, tokens, e, acc, refs, -, hv, hk, hx, hr, -, he, -⟩ := opLiquidate_ok h
    exact Or.inl ⟨_, accOp_of_keeper hv (fun _ _ => .refl _) hk (liquidate_path hx) hr he, got hv⟩
  | autoDeleverage a' p u =>
    cases ha
    obtain ⟨v, s1, c, w, e, acc, refs, hv, hk, hx, hr, -, he, -⟩ := opAutoDeleverage_ok h
    exact Or.inl ⟨_, accOp_of_keeper hv (fun _ _ => .refl _) hk (autoDeleverage_path hx) hr he, got hv⟩
  | _ => cases ha

theorem AccOp.accounts {s s' : State} {a : Addr} {lr : Option (Level × Rule)} (h : AccOp s a lr s') :
    ∃ acc', s'.accounts = s.accounts.set a acc' := by
  cases h with
  | mk o rw k hl hp hr =>
    rename_i v ids w x acc refs
    obtain ⟨haddr, -⟩ := hp.frame
    obtain ⟨acc0, rd, hg, -, hv⟩ := load_ok hl
    have haddr' : w.acc.addr = a := by rw [haddr, withRule_addr, hv]
    exact ⟨acc, by simp only [State.realized, haddr']⟩

/-- A call changes at most the account it names. -/
theorem body_accounts {env : Env} {cl : Caller} {s s' : State} {op : Op} {o : Out}
    (h : body env cl s op = Except.ok (s', o)) (b : Addr) (hb : op.account ≠ some b) :
    s'.accounts.get b = s.accounts.get b := by
  cases ho : op.account with
  | none => rw [(body_no_account h ho).1]
  | some a =>
    have hne : a ≠ b := by rintro rfl; exact hb ho
    rcases body_account h ho with ⟨lr, hx, -⟩ | ⟨g, rule, rid, -, -, hx⟩
    · obtain ⟨acc', e⟩ := hx.accounts
      rw [e, AMap.get_set_ne _ _ hne]
    · obtain ⟨acc', e⟩ := hx.accounts
      rw [e, AMap.get_set_ne _ _ hne]
      exact AMap.get_set_ne _ _ hne

/-- Accounts are never removed. -/
theorem body_accounts_grow {env : Env} {cl : Caller} {s s' : State} {op : Op} {o : Out}
    (h : body env cl s op = Except.ok (s', o)) (b : Addr) {acc : Account} (hb : s.accounts.get b = some acc) :
    ∃ acc', s'.accounts.get b = some acc' := by
  by_cases ho : op.account = some b
  · rcases body_account h ho with ⟨lr, hx, -⟩ | ⟨g, rule, rid, -, hn, hx⟩
    · obtain ⟨acc', e⟩ := hx.accounts
      exact ⟨acc', by rw [e, AMap.get_set_self]⟩
    · rw [hb] at hn; cases hn
  · exact ⟨acc, by rw [body_accounts h b ho, hb]⟩

end Perp
