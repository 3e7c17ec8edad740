import Verif.SpecW

/-!
# Exact results of the public methods

What each successful call does to the ledger state, as an explicit record update.
-/

namespace Perp

theorem load_ok {s : State} {a : Addr} {v : VAccount} (h : s.load a = Except.ok v) :
    ∃ acc rd, s.accounts.get a = some acc ∧ loadReferral s.referrals acc.referralId = Except.ok rd ∧
      v = { addr := a, comp := acc, positions := acc.positions,
            collateralBalances := acc.collateralBalances, vb := acc.vb, validStart := acc.validStart,
            requestsLen := acc.requests.length, activeLen := acc.active.card, positionsUpdated := [],
            requestAdditions := [], requestUpdates := AMap.empty, activeAdditions := [],
            activeRemovals := [], referralId := acc.referralId, referralData := rd,
            referralRewarded := false } := by
  simp only [State.load, VAccount.new, bind_ok, expect_ok, pure_ok] at h
  obtain ⟨acc, ha, rd, hr, rfl⟩ := h
  exact ⟨acc, rd, ha, hr, rfl⟩

theorem loadReferral_ok {refs : AMap RefId ReferralData} {rid : Option RefId}
    {rd : Option ReferralData} (h : loadReferral refs rid = Except.ok rd) :
    (rid = none ∧ rd = none) ∨ ∃ r d, rid = some r ∧ refs.get r = some d ∧ rd = some d := by
  unfold loadReferral at h
  cases rid with
  | none => simp only [pure_ok] at h; exact Or.inl ⟨rfl, h.symm⟩
  | some r =>
    simp only [bind_ok, expect_ok, pure_ok] at h
    obtain ⟨d, hd, rfl⟩ := h
    exact Or.inr ⟨r, d, rfl, hd, rfl⟩

/-- The result of realising a working state. -/
def State.realized (s : State) (w : W) (acc : Account) (refs : AMap RefId ReferralData) : State :=
  { s with pool := w.pool.realize, accounts := s.accounts.set w.acc.addr acc, referrals := refs,
           dist := w.dist }

/-- The result of realising an account alone. -/
def State.realizedAcc (s : State) (v : VAccount) (acc : Account) (refs : AMap RefId ReferralData) :
    State := { s with accounts := s.accounts.set v.addr acc, referrals := refs }

/-- Realising: both parts succeeded. -/
def Realizes (s : State) (v : VAccount) (acc : Account) (refs : AMap RefId ReferralData) : Prop :=
  v.realize = Except.ok acc ∧ v.realizeReferral s.referrals = Except.ok refs

theorem commit_spec {s s' : State} {w : W} (h : s.commit w = Except.ok s') :
    ∃ acc refs, Realizes s w.acc acc refs ∧ s' = s.realized w acc refs := by
  obtain ⟨acc, refs, h1, h2, rfl⟩ := commit_ok.mp h
  exact ⟨acc, refs, ⟨h1, h2⟩, rfl⟩

theorem commitAcc_spec {s s' : State} {v : VAccount} (h : s.commitAcc v = Except.ok s') :
    ∃ acc refs, Realizes s v acc refs ∧ s' = s.realizedAcc v acc refs := by
  obtain ⟨acc, refs, h1, h2, rfl⟩ := commitAcc_ok.mp h
  exact ⟨acc, refs, ⟨h1, h2⟩, rfl⟩

/-- Burning an oath of a given amount (zero if there is none). -/
def State.burnt (s : State) (x : Dec) : State := { s with oathSupply := s.oathSupply - x }

/-- The oath amount charged. -/
def oathAmt (o : Option Bucket) : Dec := o.elim 0 Bucket.amt

theorem payOath_frame {env : Env} {s s' : State} {v v' : VAccount} {oath : Option Bucket}
    {ids plain : List PairId} {cfg : VConfig}
    (h : payOath env s v oath ids plain = Except.ok (s', v', cfg)) :
    s' = s.burnt (oathAmt oath) ∧ v' = { v with vb := v.vb - oathAmt oath } ∧ 0 ≤ oathAmt oath ∧
    oathAmt oath ≤ max s.oathSupply 0 ∧
    VConfig.new s.config (if oath.isSome then ids else plain) = Except.ok cfg := by
  rcases payOath_ok h with ⟨b, c, pool, rfl, hl, hres, hb, hv, -, rfl, rfl⟩ | ⟨rfl, rfl, rfl, hc⟩
  · simp only [okBucket, decide_eq_true_eq] at hb
    refine ⟨rfl, hv, hb.1, ?_, ?_⟩
    · exact le_trans (hb.2.2.2 hres) (le_max_left _ _)
    · simpa using (oathLoad_ok hl).2.2.1
  · refine ⟨by simp [State.burnt, oathAmt], by simp [oathAmt], by simp [oathAmt], by simp [oathAmt], ?_⟩
    simpa using hc

theorem payout_ok {env : Env} {s : State} {amount x : Dec} {pool : Pool}
    (h : payout env s amount = Except.ok (pool, x)) :
    takeAmount (env.gran BASE) s.pool.baseTokens amount .toZero = Except.ok x ∧
    amount ≤ s.pool.baseTokens ∧
    pool = { s.pool with vb := s.pool.vb + amount, baseTokens := s.pool.baseTokens - x } := by
  simp only [payout, bind_ok, pure_ok, require_ok, decide_eq_true_eq, Prod.mk.injEq] at h
  obtain ⟨-, hle, p1, h1, ⟨p2, y⟩, h2, rfl, rfl⟩ := h
  have h1 := VPool.addVb_ok h1
  subst h1
  obtain ⟨ht, rfl⟩ := VPool.withdraw_ok h2
  exact ⟨ht, hle, rfl⟩

theorem collectTreasury_ok {env : Env} {s s' : State} {o : Out}
    (h : collectTreasury env s = Except.ok (s', o)) :
    ∃ pool x, payout env s s.dist.treasury = Except.ok (pool, x) ∧
      s' = { s with pool, dist := { s.dist with treasury := 0 } } ∧ o = { buckets := [⟨BASE, x⟩] } := by
  simp only [collectTreasury, bind_ok, pure_ok, Prod.mk.injEq] at h
  obtain ⟨⟨pool, x⟩, hp, rfl, rfl⟩ := h
  exact ⟨pool, x, hp, rfl, rfl⟩

theorem collectFeeDelegator_ok {env : Env} {s s' : State} {o : Out}
    (h : collectFeeDelegator env s = Except.ok (s', o)) :
    ∃ pool x, payout env s s.delegator.vb = Except.ok (pool, x) ∧
      s' = { s with pool, delegator := { s.delegator with vb := 0 } } ∧
      o = { buckets := [⟨BASE, x⟩] } := by
  simp only [collectFeeDelegator, bind_ok, pure_ok, Prod.mk.injEq] at h
  obtain ⟨⟨pool, x⟩, hp, rfl, rfl⟩ := h
  exact ⟨pool, x, hp, rfl, rfl⟩

theorem swapProtocolFee_ok {env : Env} {s s' : State} {b : Bucket} {o : Out}
    (h : swapProtocolFee env s b = Except.ok (s', o)) :
    ∃ cfg pool x burn, VConfig.new s.config [] = Except.ok cfg ∧ b.res = PROTOCOL ∧
      okBucket env s b = true ∧
      takeAmount (env.gran PROTOCOL) b.amt cfg.ex.protocolBurnAmount .toInfinity = Except.ok burn ∧
      payout env s s.dist.protocol = Except.ok (pool, x) ∧
      s' = { s with pool, dist := { s.dist with protocol := 0 } } ∧
      o = { buckets := [⟨BASE, x⟩, ⟨PROTOCOL, b.amt - burn⟩], burnt := [⟨PROTOCOL, burn⟩] } := by
  simp only [swapProtocolFee, bind_ok, pure_ok, require_ok, decide_eq_true_eq, Prod.mk.injEq] at h
  obtain ⟨cfg, hc, -, hr, -, hb, -, -, burn, hburn, ⟨pool, x⟩, hp, rfl, rfl⟩ := h
  exact ⟨cfg, pool, x, burn, hc, hr, hb, hburn, hp, rfl, rfl⟩

theorem collectReferralRewards_ok {env : Env} {cl : Caller} {s s' : State} {id : RefId} {o : Out}
    (h : collectReferralRewards env cl s id = Except.ok (s', o)) :
    ∃ d pool x, cl.refs id = true ∧ s.referrals.get id = some d ∧
      payout env s d.balance = Except.ok (pool, x) ∧
      s' = { s with pool, referrals := s.referrals.set id { d with balance := 0 } } ∧
      o = { buckets := [⟨BASE, x⟩] } := by
  simp only [collectReferralRewards, bind_ok, pure_ok, require_ok, expect_ok, Prod.mk.injEq] at h
  obtain ⟨-, hr, d, hd, ⟨pool, x⟩, hp, rfl, rfl⟩ := h
  exact ⟨d, pool, x, hr, hd, hp, rfl, rfl⟩

theorem lpMint_ok {supply pv x am pr : Dec} (h : lpMint supply pv x = Except.ok (am, pr)) :
    (supply = 0 ∧ am = x ∧ pr = ONE) ∨
    (supply ≠ 0 ∧ pr = divT pv supply ∧ pr ≠ 0 ∧ am = divT x pr) := by
  unfold lpMint at h
  split at h
  · rename_i h0
    simp only [pure_ok, Prod.mk.injEq] at h
    exact Or.inl ⟨h0, h.1.symm, h.2.symm⟩
  · rename_i h0
    simp only [bind_ok, pure_ok, ddiv_ok, Prod.mk.injEq] at h
    obtain ⟨_, ⟨-, -, rfl⟩, _, ⟨hne, -, rfl⟩, rfl, rfl⟩ := h
    exact Or.inr ⟨h0, rfl, hne, rfl⟩

theorem poolValue_ok {v : VPool} {x : Dec} (h : poolValue v = Except.ok x) :
    x = v.base + v.vb + v.unreal + v.pnlSnap := by
  simp only [poolValue, bind_ok, dadd_ok] at h
  obtain ⟨_, ⟨-, rfl⟩, _, ⟨-, rfl⟩, -, rfl⟩ := h
  rfl

/-- The value of the pool component. -/
def Pool.value (p : Pool) : Dec := p.baseTokens + p.vb + p.unrealizedFunding + p.pnlSnap

theorem opAddLiquidity_ok {env : Env} {s s' : State} {b : Bucket} {o : Out}
    (h : opAddLiquidity env s b = Except.ok (s', o)) :
    ∃ cfg fee lp price, VConfig.new s.config [] = Except.ok cfg ∧ okBucket env s b = true ∧
      b.res = BASE ∧ fee = mulT b.amt cfg.ex.feeLiquidityAdd ∧
      lpMint s.lpSupply (max s.pool.value ONE) (b.amt - fee) = Except.ok (lp, price) ∧
      mintAmount (env.gran LP) lp = Except.ok lp ∧
      s' = { s with
        pool := { s.pool with
          baseTokens := s.pool.baseTokens + b.amt
          vb := s.pool.vb - mulT fee cfg.ex.feeShareProtocol - mulT fee cfg.ex.feeShareTreasury }
        dist := { protocol := s.dist.protocol + mulT fee cfg.ex.feeShareProtocol
                  treasury := s.dist.treasury + mulT fee cfg.ex.feeShareTreasury }
        lpSupply := s.lpSupply + lp } ∧
      o.buckets = [⟨LP, lp⟩] ∧ o.paid = [] ∧
      ∃ ev, o.ev = .liquidity ev ∧ ev.lpPrice = price ∧ ev.lpAmount = lp ∧ ev.amount = b.amt := by
  simp only [opAddLiquidity, addLiquidity, bind_ok, pure_ok, require_ok, decide_eq_true_eq,
    Prod.mk.injEq, dmul_ok, dsub_ok, dadd_ok] at h
  obtain ⟨cfg, hc, -, hb, ⟨pool, dist, minted, ev⟩, ⟨-, hres, _, ⟨-, rfl⟩, pv, hpv, _, ⟨-, rfl⟩,
    ⟨am, pr⟩, hlp, p1, hdep, mi, hmint, ⟨p2, d2, f2⟩, hfee, rfl, rfl, rfl, rfl⟩, _, ⟨-, rfl⟩, rfl, rfl⟩ := h
  have hpv := poolValue_ok hpv
  subst hpv
  have hdep := VPool.deposit_ok hdep
  subst hdep
  obtain ⟨rfl, rfl, rfl⟩ := settleFeesBasic_ok hfee
  have hm := (mintAmount_ok.mp hmint).2.2.2
  simp only at hm
  subst hm
  exact ⟨cfg, _, am, pr, hc, hb, hres, rfl, hlp, hmint, rfl, rfl, rfl, _, rfl, rfl, rfl, rfl⟩

theorem skewRatio_ok {v : VPool} {x : Dec} (h : skewRatio v = Except.ok x) :
    x = divT v.skewSnap (max (v.base + v.vb + v.unreal + v.pnlSnap) ONE) := by
  simp only [skewRatio, bind_ok, ddiv_ok] at h
  obtain ⟨pv, hpv, -, -, rfl⟩ := h
  rw [poolValue_ok hpv]

/-- Skew ratio of the pool component. -/
def Pool.skewRatio (p : Pool) : Dec := divT p.skewAbsSnap (max p.value ONE)

theorem assertPoolIntegrity_ok {cfg : VConfig} {v : VPool} {d : Dec} {u : Unit}
    (h : assertPoolIntegrity cfg v d = Except.ok u) :
    divT v.skewSnap (max (v.base + v.vb + v.unreal + v.pnlSnap) ONE) < cfg.ex.skewRatioCap ∨ d < 0 := by
  simp only [assertPoolIntegrity, bind_ok, require_ok, decide_eq_true_eq] at h
  obtain ⟨r, hr, h⟩ := h
  rwa [skewRatio_ok hr] at h

theorem opRemoveLiquidity_ok {env : Env} {s s' : State} {b : Bucket} {o : Out}
    (h : opRemoveLiquidity env s b = Except.ok (s', o)) :
    ∃ cfg price value fee x, VConfig.new s.config [] = Except.ok cfg ∧ okBucket env s b = true ∧
      b.res = LP ∧ s.lpSupply ≠ 0 ∧ price = divT (max s.pool.value 0) s.lpSupply ∧
      value = mulT b.amt price ∧ fee = mulT value cfg.ex.feeLiquidityRemove ∧
      value - fee ≤ s.pool.baseTokens ∧
      takeAmount (env.gran BASE) s.pool.baseTokens (value - fee) .toZero = Except.ok x ∧
      s' = { s with
        pool := { s.pool with
          baseTokens := s.pool.baseTokens - x
          vb := s.pool.vb - mulT fee cfg.ex.feeShareProtocol - mulT fee cfg.ex.feeShareTreasury }
        dist := { protocol := s.dist.protocol + mulT fee cfg.ex.feeShareProtocol
                  treasury := s.dist.treasury + mulT fee cfg.ex.feeShareTreasury }
        lpSupply := s.lpSupply - b.amt } ∧
      s'.pool.skewRatio < cfg.ex.skewRatioCap ∧
      o.buckets = [⟨BASE, x⟩] ∧ o.burnt = [b] ∧ o.paid = [] ∧
      ∃ ev, o.ev = .liquidity ev ∧ ev.lpPrice = price ∧ ev.lpAmount = -b.amt ∧ ev.amount = -x := by
  simp only [opRemoveLiquidity, removeLiquidity, bind_ok, pure_ok, require_ok, decide_eq_true_eq,
    Prod.mk.injEq, dmul_ok, dsub_ok, ddiv_ok, dneg_ok] at h
  obtain ⟨cfg, hc, -, hb, ⟨pool, dist, y, ev⟩, ⟨-, hres, pv, hpv, _, ⟨hne, -, rfl⟩, _, ⟨-, rfl⟩,
    _, ⟨-, rfl⟩, _, ⟨-, rfl⟩, -, hle, ⟨p1, x⟩, hw, ⟨p2, d2, f2⟩, hfee, ⟨⟩, hint, _, ⟨-, rfl⟩, _, ⟨-, rfl⟩,
    rfl, rfl, rfl, rfl⟩, rfl, rfl⟩ := h
  have hpv := poolValue_ok hpv
  subst hpv
  obtain ⟨ht, rfl⟩ := VPool.withdraw_ok hw
  obtain ⟨rfl, rfl, rfl⟩ := settleFeesBasic_ok hfee
  have hint := assertPoolIntegrity_ok hint
  refine ⟨cfg, _, _, _, x, hc, hb, hres, hne, rfl, rfl, rfl, hle, ht, rfl, ?_, rfl, rfl, rfl, _, rfl, rfl,
    rfl, rfl⟩
  rcases hint with hint | hint
  · exact hint
  · exact absurd hint (lt_irrefl _)

/-! ## Account methods without pool access -/

theorem createRecoveryKey_ok {env : Env} {cl : Caller} {s s' : State} {oath : Option Bucket}
    {a : Addr} {o : Out} (h : createRecoveryKey env cl s oath a = Except.ok (s', o)) :
    ∃ v s1 v1 cfg, s.load a = Except.ok v ∧ (v.comp.level1).sat cl.pf = true ∧
      payOath env s v oath v.positionIds [] = Except.ok (s1, v1, cfg) ∧
      ∃ r x, x = setAuth s1.perms v1 .l1 r ∧
        r = extendRule (v1.comp.rule .l1) (.proof (env.recoveryProof s1.recoveryKeys)) ∧
        ∃ acc refs, Realizes s1 x.2 acc refs ∧
        s' = ({ s1 with perms := x.1, recoveryKeys := s1.recoveryKeys + 1 } : State).realizedAcc
          x.2 acc refs ∧ o = {} := by
  simp only [createRecoveryKey, verifyLevel, bind_ok, pure_ok, require_ok, Prod.mk.injEq] at h
  obtain ⟨v, hv, -, hl, ⟨s1, v1, cfg⟩, hp, s2, hc, rfl, rfl⟩ := h
  obtain ⟨acc, refs, hr, rfl⟩ := commitAcc_spec hc
  exact ⟨v, s1, v1, cfg, hv, hl, hp, _, _, rfl, rfl, acc, refs, hr, rfl, rfl⟩

theorem levelOf_ok {n : Nat} {l : Level} (h : levelOf n = Except.ok l) :
    (n = 1 ∧ l = .l1) ∨ (n = 2 ∧ l = .l2) ∨ (n = 3 ∧ l = .l3) := by
  unfold levelOf at h
  split at h <;> simp_all

theorem addAuthRule_ok {env : Env} {cl : Caller} {s s' : State} {oath : Option Bucket}
    {a : Addr} {level : Nat} {n : Node} {o : Out}
    (h : addAuthRule env cl s oath a level n = Except.ok (s', o)) :
    ∃ v s1 v1 cfg l, s.load a = Except.ok v ∧ (v.comp.level1).sat cl.pf = true ∧
      payOath env s v oath v.positionIds [] = Except.ok (s1, v1, cfg) ∧ levelOf level = Except.ok l ∧
      ∃ r x, x = setAuth s1.perms v1 l r ∧ r = extendRule (v1.comp.rule l) n ∧
        ∃ acc refs, Realizes s1 x.2 acc refs ∧
        s' = ({ s1 with perms := x.1 } : State).realizedAcc x.2 acc refs ∧ o = {} := by
  simp only [addAuthRule, verifyLevel, bind_ok, pure_ok, require_ok, Prod.mk.injEq] at h
  obtain ⟨v, hv, -, hl, ⟨s1, v1, cfg⟩, hp, l, hlv, s2, hc, rfl, rfl⟩ := h
  obtain ⟨acc, refs, hr, rfl⟩ := commitAcc_spec hc
  exact ⟨v, s1, v1, cfg, l, hv, hl, hp, hlv, _, _, rfl, rfl, acc, refs, hr, rfl, rfl⟩

theorem setLevelAuth_ok {env : Env} {cl : Caller} {s s' : State} {oath : Option Bucket}
    {a : Addr} {l : Level} {r : Rule} {o : Out}
    (h : setLevelAuth env cl s oath a l r = Except.ok (s', o)) :
    ∃ v s1 v1 cfg, s.load a = Except.ok v ∧ (v.comp.level1).sat cl.pf = true ∧
      payOath env s v oath v.positionIds [] = Except.ok (s1, v1, cfg) ∧
      ∃ x, x = setAuth s1.perms v1 l r ∧
        ∃ acc refs, Realizes s1 x.2 acc refs ∧
        s' = ({ s1 with perms := x.1 } : State).realizedAcc x.2 acc refs ∧ o = {} := by
  simp only [setLevelAuth, verifyLevel, bind_ok, pure_ok, require_ok, Prod.mk.injEq] at h
  obtain ⟨v, hv, -, hl, ⟨s1, v1, cfg⟩, hp, s2, hc, rfl, rfl⟩ := h
  obtain ⟨acc, refs, hr, rfl⟩ := commitAcc_spec hc
  exact ⟨v, s1, v1, cfg, hv, hl, hp, _, rfl, acc, refs, hr, rfl, rfl⟩

theorem removeCollateralRequest_ok {env : Env} {cl : Caller} {s s' : State} {oath : Option Bucket}
    {expiry : Nat} {a target : Addr} {claims : List (Res × Dec)} {o : Out}
    (h : removeCollateralRequest env cl s oath expiry a target claims = Except.ok (s', o)) :
    ∃ v s1 v1 cfg v2 acc refs, s.load a = Except.ok v ∧ (v.comp.level2).sat cl.pf = true ∧
      payOath env s v oath v.positionIds [] = Except.ok (s1, v1, cfg) ∧
      v1.pushRequest s1.now (.removeCollateral { target, claims }) 0 expiry STATUS_ACTIVE [target]
        = Except.ok v2 ∧
      v2.activeLen ≤ cfg.ex.activeRequestsMax ∧
      Realizes s1 v2 acc refs ∧ s' = s1.realizedAcc v2 acc refs ∧
      o = { indexes := [some v1.requestsLen] } := by
  simp only [removeCollateralRequest, verifyLevel, bind_ok, pure_ok, require_ok, Prod.mk.injEq,
    assertActiveLimit, decide_eq_true_eq] at h
  obtain ⟨v, hv, -, hl, ⟨s1, v1, cfg⟩, hp, -, -, v2, hpush, -, hlim, s2, hc, rfl, rfl⟩ := h
  obtain ⟨acc, refs, hr, rfl⟩ := commitAcc_spec hc
  exact ⟨v, s1, v1, cfg, v2, acc, refs, hv, hl, hp, hpush, hlim, hr, rfl, rfl⟩

theorem marginOrderRequest_ok {env : Env} {cl : Caller} {s s' : State} {oath : Option Bucket}
    {a : Addr} {q : OrderArgs} {activate cancel : List RequestIndexRef} {status : Status} {o : Out}
    (h : marginOrderRequest env cl s oath a q activate cancel status = Except.ok (s', o)) :
    ∃ v s1 v1 cfg act can v2 acc refs, s.load a = Except.ok v ∧ (v.comp.level3).sat cl.pf = true ∧
      payOath env s v oath (insertId v.positionIds q.pair) [q.pair] = Except.ok (s1, v1, cfg) ∧
      resolveAll activate v1.requestsLen = Except.ok act ∧
      resolveAll cancel v1.requestsLen = Except.ok can ∧
      v1.pushRequest s1.now
        (.marginOrder { pair := q.pair, amount := q.amount, reduceOnly := q.reduceOnly,
                        priceLimit := q.priceLimit, slippageLimit := q.slippageLimit,
                        activate := act, cancel := can })
        q.delay q.expiry status [] = Except.ok v2 ∧
      v2.activeLen ≤ cfg.ex.activeRequestsMax ∧
      Realizes s1 v2 acc refs ∧ s' = s1.realizedAcc v2 acc refs ∧
      o = { indexes := [some v1.requestsLen] } := by
  simp only [marginOrderRequest, verifyLevel, bind_ok, pure_ok, require_ok, Prod.mk.injEq,
    assertActiveLimit, decide_eq_true_eq] at h
  obtain ⟨v, hv, -, hl, ⟨s1, v1, cfg⟩, hp, -, -, -, -, -, -, act, hact, can, hcan, v2, hpush, -, hlim,
    s2, hc, rfl, rfl⟩ := h
  obtain ⟨acc, refs, hr, rfl⟩ := commitAcc_spec hc
  exact ⟨v, s1, v1, cfg, act, can, v2, acc, refs, hv, hl, hp, hact, hcan, hpush, hlim, hr, rfl, rfl⟩

theorem marginOrderTpSlRequest_ok {env : Env} {cl : Caller} {s s' : State} {oath : Option Bucket}
    {a : Addr} {q : OrderArgs} {priceTp priceSl : Option Dec} {o : Out}
    (h : marginOrderTpSlRequest env cl s oath a q priceTp priceSl = Except.ok (s', o)) :
    ∃ v s1 v1 cfg v2 v3 v4 acc refs, ∃ iTp iSl : Option Nat,
      s.load a = Except.ok v ∧ (v.comp.level3).sat cl.pf = true ∧
      payOath env s v oath (insertId v.positionIds q.pair) [q.pair] = Except.ok (s1, v1, cfg) ∧
      iTp = priceTp.map (fun _ => v1.requestsLen + 1) ∧
      iSl = priceSl.map (fun _ =>
        (if priceTp.isSome then v1.requestsLen + 1 else v1.requestsLen) + 1) ∧
      v1.pushRequest s1.now
        (.marginOrder { pair := q.pair, amount := q.amount, reduceOnly := q.reduceOnly,
                        priceLimit := q.priceLimit, slippageLimit := q.slippageLimit,
                        activate := iTp.toList ++ iSl.toList, cancel := [] })
        q.delay q.expiry STATUS_ACTIVE [] = Except.ok v2 ∧
      pushExit v2 s1.now q (priceTp.map (exitLimit true q.amount)) iSl.toList = Except.ok v3 ∧
      pushExit v3 s1.now q (priceSl.map (exitLimit false q.amount)) iTp.toList = Except.ok v4 ∧
      v4.activeLen ≤ cfg.ex.activeRequestsMax ∧
      Realizes s1 v4 acc refs ∧ s' = s1.realizedAcc v4 acc refs ∧
      o = { indexes := [some v1.requestsLen, iTp, iSl] } := by
  simp only [marginOrderTpSlRequest, verifyLevel, bind_ok, pure_ok, require_ok, Prod.mk.injEq,
    assertActiveLimit, decide_eq_true_eq] at h
  obtain ⟨v, hv, -, hl, ⟨s1, v1, cfg⟩, hp, -, -, v2, h2, v3, h3, v4, h4, -, hlim,
    s2, hc, rfl, rfl⟩ := h
  obtain ⟨acc, refs, hr, rfl⟩ := commitAcc_spec hc
  exact ⟨v, s1, v1, cfg, v2, v3, v4, acc, refs, _, _, hv, hl, hp, rfl, rfl, h2, h3, h4, hlim, hr, rfl, rfl⟩

theorem opCancelRequests_ok {env : Env} {cl : Caller} {s s' : State} {oath : Option Bucket}
    {a : Addr} {is : List Nat} {o : Out}
    (h : opCancelRequests env cl s oath a is = Except.ok (s', o)) :
    ∃ v s1 v1 cfg v2 acc refs, s.load a = Except.ok v ∧ (v.comp.level3).sat cl.pf = true ∧
      payOath env s v oath v.positionIds [] = Except.ok (s1, v1, cfg) ∧
      v1.cancelRequests is = Except.ok v2 ∧
      Realizes s1 v2 acc refs ∧ s' = s1.realizedAcc v2 acc refs ∧ o = {} := by
  simp only [opCancelRequests, verifyLevel, bind_ok, pure_ok, require_ok, Prod.mk.injEq] at h
  obtain ⟨v, hv, -, hl, ⟨s1, v1, cfg⟩, hp, v2, h2, s2, hc, rfl, rfl⟩ := h
  obtain ⟨acc, refs, hr, rfl⟩ := commitAcc_spec hc
  exact ⟨v, s1, v1, cfg, v2, acc, refs, hv, hl, hp, h2, hr, rfl, rfl⟩

/-! ## Deposits -/

theorem depositTokens_ok {env : Env} {s s1 : State} {v : VAccount} {oath : Option Bucket}
    {tokens : List Bucket} {w : W} (h : depositTokens env s v oath tokens = Except.ok (s1, w)) :
    ∃ cfg ids w0, VConfig.new s.config ids = Except.ok cfg ∧
      addCollateral cfg { pool := VPool.new s.pool s.now ids, acc := v, dist := s.dist } tokens
        = Except.ok w0 ∧
      s1 = s.burnt (oathAmt oath) ∧ 0 ≤ oathAmt oath ∧ oathAmt oath ≤ max s.oathSupply 0 ∧
      w = { w0 with acc := { w0.acc with vb := w0.acc.vb - oathAmt oath } } ∧
      (∀ b, oath = some b → ∃ c, b.res = FEE_OATH ∧ oathLoad env s v.positionIds = Except.ok (c, VPool.new s.pool s.now v.positionIds) ∧
        assertAccountIntegrity c w.pool w.acc = Except.ok ()) := by
  unfold depositTokens at h
  cases oath with
  | none =>
    simp only [bind_ok, pure_ok, Prod.mk.injEq] at h
    obtain ⟨cfg, hc, w0, hw, rfl, rfl⟩ := h
    exact ⟨cfg, [], w0, hc, hw, by simp [State.burnt, oathAmt], by simp [oathAmt], by simp [oathAmt],
      by simp [oathAmt], by simp⟩
  | some b =>
    simp only [bind_ok, pure_ok, Prod.mk.injEq, burnOath_ok, settleFeeOath, require_ok,
      decide_eq_true_eq, dneg_ok] at h
    obtain ⟨⟨c, pool⟩, hl, w0, hw, acc, ⟨-, hres, _, ⟨-, rfl⟩, v2, hvb, ⟨⟩, hi, rfl⟩, s2,
      ⟨hb, rfl⟩, rfl, rfl⟩ := h
    have hvb := VAccount.addVb_ok hvb
    subst hvb
    have hl' := oathLoad_ok hl
    obtain ⟨-, -, hcfg, -, rfl⟩ := hl'
    simp only [okBucket, decide_eq_true_eq] at hb
    refine ⟨c.cfg, v.positionIds, w0, hcfg, hw, rfl, hb.1,
      le_trans (hb.2.2.2 hres) (le_max_left _ _), by simp [oathAmt, sub_eq_add_neg], ?_⟩
    intro b' hb'
    cases hb'
    exact ⟨c, hres, hl, hi⟩

theorem claimCode_ok {env : Env} {s s' : State} {code : Option Nat} {rid : Option RefId}
    {bs : List Bucket} (h : claimCode env s code = Except.ok (s', rid, bs)) :
    (code = none ∧ rid = none ∧ bs = [] ∧ s' = s) ∨
    ∃ c g r, code = some c ∧ s.refgen.claim env (env.hash c) = Except.ok (g, r, bs) ∧ rid = some r ∧
      s' = { s with refgen := g } := by
  unfold claimCode at h
  cases code with
  | none =>
    simp only [pure_ok, Prod.mk.injEq] at h
    obtain ⟨rfl, rfl, rfl⟩ := h
    exact Or.inl ⟨rfl, rfl, rfl, rfl⟩
  | some c =>
    simp only [bind_ok, pure_ok, Prod.mk.injEq] at h
    obtain ⟨⟨g, r, bs'⟩, hg, rfl, rfl, rfl⟩ := h
    exact Or.inr ⟨c, g, r, rfl, hg, rfl, rfl⟩

theorem createAccount_ok {env : Env} {s s' : State} {a : Addr} {oath : Option Bucket} {rule : Rule}
    {tokens : List Bucket} {code : Option Nat} {o : Out}
    (h : createAccount env s a oath rule tokens code = Except.ok (s', o)) :
    ∃ s0 rid extra s1 v s2 w acc refs,
      tokens.all (okBucket env s) = true ∧ s.accounts.get a = none ∧
      claimCode env s code = Except.ok (s0, rid, extra) ∧
      s1 = { s0 with accounts := s0.accounts.set a (Account.fresh rule rid)
                     perms := registerAccount s0.perms a rule } ∧
      s1.load a = Except.ok v ∧
      depositTokens env s1 v oath (tokens ++ extra) = Except.ok (s2, w) ∧
      Realizes s2 w.acc acc refs ∧ s' = s2.realized w acc refs ∧ o = { ev := .created a rid } := by
  simp only [createAccount, bind_ok, pure_ok, require_ok, Prod.mk.injEq] at h
  obtain ⟨-, hb, -, hn, ⟨s0, rid, extra⟩, hc, v, hv, ⟨s2, w⟩, hd, s3, hcom, rfl, rfl⟩ := h
  obtain ⟨acc, refs, hr, rfl⟩ := commit_spec hcom
  refine ⟨s0, rid, extra, _, v, s2, w, acc, refs, hb, ?_, hc, rfl, hv, hd, hr, rfl, rfl⟩
  cases hg : s.accounts.get a with
  | none => rfl
  | some x => simp [AMap.has, hg] at hn

theorem opAddCollateral_ok {env : Env} {cl : Caller} {s s' : State} {oath : Option Bucket}
    {a : Addr} {tokens : List Bucket} {o : Out}
    (h : opAddCollateral env cl s oath a tokens = Except.ok (s', o)) :
    ∃ v s1 w acc refs, tokens.all (okBucket env s) = true ∧ s.load a = Except.ok v ∧
      (v.comp.level3).sat cl.pf = true ∧ depositTokens env s v oath tokens = Except.ok (s1, w) ∧
      Realizes s1 w.acc acc refs ∧ s' = s1.realized w acc refs ∧ o = {} := by
  simp only [opAddCollateral, verifyLevel, bind_ok, pure_ok, require_ok, Prod.mk.injEq] at h
  obtain ⟨-, hb, v, hv, -, hl, ⟨s1, w⟩, hd, s3, hcom, rfl, rfl⟩ := h
  obtain ⟨acc, refs, hr, rfl⟩ := commit_spec hcom
  exact ⟨v, s1, w, acc, refs, hb, hv, hl, hd, hr, rfl, rfl⟩

/-! ## Keeper methods -/

theorem executeRequest_ok {c : Ctx} {w w' : W} {r : Request} {o : Out}
    (h : executeRequest c w r = Except.ok (w', o)) :
    (∃ q tokens, r = .removeCollateral q ∧ removeCollateral c w q = Except.ok (w', tokens) ∧
      o = { paid := tokens.map (fun b => (q.target, b)), ev := .removeCollateral q.target tokens }) ∨
    ∃ q e, r = .marginOrder q ∧ marginOrder c w q = Except.ok (w', e) ∧ o = { ev := .order e } := by
  unfold executeRequest at h
  cases r with
  | removeCollateral q =>
    simp only [bind_ok, pure_ok, Prod.mk.injEq] at h
    obtain ⟨⟨w1, tokens⟩, hw, rfl, rfl⟩ := h
    exact Or.inl ⟨q, tokens, rfl, hw, rfl⟩
  | marginOrder q =>
    simp only [bind_ok, pure_ok, Prod.mk.injEq] at h
    obtain ⟨⟨w1, e⟩, hw, rfl, rfl⟩ := h
    exact Or.inr ⟨q, e, rfl, hw, rfl⟩

theorem processRequest_ok {env : Env} {s s' : State} {a : Addr} {i : Nat} {u : Option PriceUpdate}
    {o : Out} (h : processRequest env s a i u = Except.ok (s', o)) :
    ∃ v v1 r expired cfg, s.load a = Except.ok v ∧
      v.processRequest s.now i = Except.ok (v1, r, expired) ∧
      VConfig.new s.config (requestPairs v1 r) = Except.ok cfg ∧
      o.reward = cfg.ex.rewardKeeper ∧ 0 ≤ cfg.ex.rewardKeeper ∧
      ((expired = true ∧ ∃ acc refs, Realizes s v1 acc refs ∧
          s' = { s.realizedAcc v1 acc refs with rewardSupply := s.rewardSupply + cfg.ex.rewardKeeper } ∧
          o = { ev := .expired, reward := cfg.ex.rewardKeeper }) ∨
       (expired = false ∧ ∃ s1 c w out acc refs,
          keeperLoad env s (requestPairs v1 r) u
            = Except.ok (s1, c, VPool.new s.pool s.now (requestPairs v1 r)) ∧
          executeRequest c
            { pool := VPool.new s.pool s.now (requestPairs v1 r), acc := v1, dist := s.dist } r
            = Except.ok (w, out) ∧
          Realizes s w.acc acc refs ∧
          s' = { s1.realized w acc refs with rewardSupply := s.rewardSupply + cfg.ex.rewardKeeper } ∧
          o = { out with reward := cfg.ex.rewardKeeper })) := by
  simp only [processRequest, bind_ok, pure_ok, Prod.mk.injEq] at h
  obtain ⟨v, hv, ⟨v1, r, expired⟩, hp, cfg, hcfg, ⟨s2, out⟩, hbody, s3, hm, rfl, rfl⟩ := h
  obtain ⟨h0, rfl⟩ := mintReward_ok hm
  refine ⟨v, v1, r, expired, cfg, hv, hp, hcfg, rfl, h0, ?_⟩
  unfold processBody at hbody
  simp only at hbody hp hcfg
  cases expired with
  | true =>
    left
    simp only [if_true, bind_ok, pure_ok, Prod.mk.injEq] at hbody
    obtain ⟨s4, hc, rfl, rfl⟩ := hbody
    obtain ⟨acc, refs, hr, rfl⟩ := commitAcc_spec hc
    exact ⟨rfl, acc, refs, hr, rfl, rfl⟩
  | false =>
    right
    simp only [Bool.false_eq_true, if_false, bind_ok, pure_ok, Prod.mk.injEq] at hbody
    obtain ⟨⟨s1, c, pool⟩, hk, ⟨w, out'⟩, hx, s4, hc, rfl, rfl⟩ := hbody
    obtain ⟨acc, refs, hr, rfl⟩ := commit_spec hc
    obtain ⟨-, -, -, -, -, rfl, hs1⟩ := keeperLoad_ok hk
    have e1 : s1.dist = s.dist := by rw [hs1]
    have e2 : s1.referrals = s.referrals := by rw [hs1]
    have e3 : s1.rewardSupply = s.rewardSupply := by rw [hs1]
    simp only [e1] at hx
    refine ⟨rfl, s1, c, w, out', acc, refs, hk, hx, ?_, ?_, rfl⟩
    · unfold Realizes at hr ⊢; rwa [e2] at hr
    · simp [State.realized, e3]

theorem opSwapDebt_ok {env : Env} {s s' : State} {a : Addr} {r : Res} {b : Bucket}
    {u : Option PriceUpdate} {o : Out} (h : opSwapDebt env s a r b u = Except.ok (s', o)) :
    ∃ v s1 c w token rest e acc refs, okBucket env s b = true ∧ s.load a = Except.ok v ∧
      keeperLoad env s [] u = Except.ok (s1, c, VPool.new s.pool s.now []) ∧
      swapDebt c { pool := VPool.new s.pool s.now [], acc := v, dist := s.dist } r b
        = Except.ok (w, token, rest, e) ∧
      Realizes s w.acc acc refs ∧ s' = s1.realized w acc refs ∧
      o = { buckets := [token, rest], ev := .swapDebt e } := by
  simp only [opSwapDebt, bind_ok, pure_ok, require_ok, Prod.mk.injEq] at h
  obtain ⟨-, hb, v, hv, ⟨s1, c, pool⟩, hk, ⟨w, token, rest, e⟩, hx, s2, hc, rfl, rfl⟩ := h
  obtain ⟨acc, refs, hr, rfl⟩ := commit_spec hc
  obtain ⟨-, -, -, -, -, rfl, hs1⟩ := keeperLoad_ok hk
  have e1 : s1.dist = s.dist := by rw [hs1]
  have e2 : s1.referrals = s.referrals := by rw [hs1]
  simp only [e1] at hx
  refine ⟨v, s1, c, w, token, rest, e, acc, refs, hb, hv, hk, hx, ?_, rfl, rfl⟩
  unfold Realizes at hr ⊢; rwa [e2] at hr

theorem opLiquidate_ok {env : Env} {s s' : State} {a : Addr} {b : Bucket}
    {u : Option PriceUpdate} {o : Out} (h : opLiquidate env s a b u = Except.ok (s', o)) :
    ∃ v s1 c w tokens e acc refs, okBucket env s b = true ∧ s.load a = Except.ok v ∧
      keeperLoad env s v.positionIds u = Except.ok (s1, c, VPool.new s.pool s.now v.positionIds) ∧
      liquidate c { pool := VPool.new s.pool s.now v.positionIds, acc := v, dist := s.dist } b
        = Except.ok (w, tokens, e) ∧
      Realizes s w.acc acc refs ∧ 0 ≤ c.cfg.ex.rewardKeeper ∧
      s' = { s1.realized w acc refs with rewardSupply := s.rewardSupply + c.cfg.ex.rewardKeeper } ∧
      o = { buckets := tokens, reward := c.cfg.ex.rewardKeeper, ev := .liquidate e } := by
  simp only [opLiquidate, bind_ok, pure_ok, require_ok, Prod.mk.injEq] at h
  obtain ⟨-, hb, v, hv, ⟨s1, c, pool⟩, hk, ⟨w, tokens, e⟩, hx, s2, hc, s3, hm, rfl, rfl⟩ := h
  obtain ⟨h0, rfl⟩ := mintReward_ok hm
  obtain ⟨acc, refs, hr, rfl⟩ := commit_spec hc
  obtain ⟨-, -, -, -, -, rfl, hs1⟩ := keeperLoad_ok hk
  have e1 : s1.dist = s.dist := by rw [hs1]
  have e2 : s1.referrals = s.referrals := by rw [hs1]
  have e3 : s1.rewardSupply = s.rewardSupply := by rw [hs1]
  simp only [e1] at hx
  refine ⟨v, s1, c, w, tokens, e, acc, refs, hb, hv, hk, hx, ?_, h0, ?_, rfl⟩
  · unfold Realizes at hr ⊢; rwa [e2] at hr
  · simp [State.realized, e3]

theorem opAutoDeleverage_ok {env : Env} {s s' : State} {a : Addr} {p : PairId}
    {u : Option PriceUpdate} {o : Out} (h : opAutoDeleverage env s a p u = Except.ok (s', o)) :
    ∃ v s1 c w e acc refs, s.load a = Except.ok v ∧
      keeperLoad env s (insertId v.positionIds p) u
        = Except.ok (s1, c, VPool.new s.pool s.now (insertId v.positionIds p)) ∧
      autoDeleverage c
        { pool := VPool.new s.pool s.now (insertId v.positionIds p), acc := v, dist := s.dist } p
        = Except.ok (w, e) ∧
      Realizes s w.acc acc refs ∧ 0 ≤ c.cfg.ex.rewardKeeper ∧
      s' = { s1.realized w acc refs with rewardSupply := s.rewardSupply + c.cfg.ex.rewardKeeper } ∧
      o = { reward := c.cfg.ex.rewardKeeper, ev := .adl e } := by
  simp only [opAutoDeleverage, bind_ok, pure_ok, Prod.mk.injEq] at h
  obtain ⟨v, hv, ⟨s1, c, pool⟩, hk, ⟨w, e⟩, hx, s2, hc, s3, hm, rfl, rfl⟩ := h
  obtain ⟨h0, rfl⟩ := mintReward_ok hm
  obtain ⟨acc, refs, hr, rfl⟩ := commit_spec hc
  obtain ⟨-, -, -, -, -, rfl, hs1⟩ := keeperLoad_ok hk
  have e1 : s1.dist = s.dist := by rw [hs1]
  have e2 : s1.referrals = s.referrals := by rw [hs1]
  have e3 : s1.rewardSupply = s.rewardSupply := by rw [hs1]
  simp only [e1] at hx
  refine ⟨v, s1, c, w, e, acc, refs, hv, hk, hx, ?_, h0, ?_, rfl⟩
  · unfold Realizes at hr ⊢; rwa [e2] at hr
  · simp [State.realized, e3]

theorem opUpdatePairs_ok {env : Env} {s s' : State} {ids : List PairId}
    {u : Option PriceUpdate} {o : Out} (h : opUpdatePairs env s ids u = Except.ok (s', o)) :
    ∃ s1 c pool flags n,
      keeperLoad env s ids.dedup u = Except.ok (s1, c, VPool.new s.pool s.now ids.dedup) ∧
      updatePairsLoop c (VPool.new s.pool s.now ids.dedup) ids.dedup = Except.ok (pool, flags) ∧
      n = ofInt (flags.filter (fun b => b)).length ∧
      s' = { s1 with pool := pool.realize, rewardSupply := s.rewardSupply + n } ∧
      o = { reward := n, flags } := by
  simp only [opUpdatePairs, bind_ok, pure_ok, Prod.mk.injEq] at h
  obtain ⟨⟨s1, c, pool⟩, hk, ⟨pool', flags⟩, hx, s3, hm, rfl, rfl⟩ := h
  obtain ⟨h0, rfl⟩ := mintReward_ok hm
  obtain ⟨-, -, -, -, -, rfl, hs1⟩ := keeperLoad_ok hk
  have e3 : s1.rewardSupply = s.rewardSupply := by rw [hs1]
  exact ⟨s1, c, pool', flags, _, hk, hx, rfl, by simp [e3], rfl⟩

/-! ## Referral administration -/

theorem mintReferral_ok {s s' : State} {id : RefId} {a b : Dec} {m : Nat}
    (h : mintReferral s id a b m = Except.ok s') :
    referralRateOk a = true ∧ referralRateOk b = true ∧ s.referrals.get id = none ∧
    s' = { s with referrals := s.referrals.set id ⟨a, b, 0, m, 0, 0⟩ } := by
  simp only [mintReferral, bind_ok, pure_ok, require_ok] at h
  obtain ⟨-, h1, -, h2, -, h3, rfl⟩ := h
  refine ⟨h1, h2, ?_, rfl⟩
  cases hg : s.referrals.get id with
  | none => rfl
  | some x => simp [AMap.has, hg] at h3

theorem updateReferral_ok {s s' : State} {id : RefId} {a b : Option Dec} {m : Option Nat}
    (h : updateReferral s id a b m = Except.ok s') :
    s' = s ∨ ∃ d, s.referrals.get id = some d ∧ (∀ x, a = some x → referralRateOk x = true) ∧
      (∀ x, b = some x → referralRateOk x = true) ∧
      s' = { s with
        referrals := s.referrals.set id
          { d with feeReferral := a.getD d.feeReferral, feeRebate := b.getD d.feeRebate,
                   maxReferrals := m.getD d.maxReferrals } } := by
  unfold updateReferral at h
  split at h
  · exact Or.inl (pure_ok.mp h).symm
  refine Or.inr ?_
  simp only [bind_ok, pure_ok, expect_ok] at h
  obtain ⟨d, hd, u1, h1, u2, h2, rfl⟩ := h
  refine ⟨d, hd, ?_, ?_, rfl⟩
  · rintro x rfl; simpa [checkRate, require_ok] using h1
  · rintro x rfl; simpa [checkRate, require_ok] using h2

theorem grantReferrals_ok {s s' : State} {id : RefId} {n : Nat}
    (h : grantReferrals s id n = Except.ok s') :
    ∃ d, s.referrals.get id = some d ∧ d.referrals + n ≤ d.maxReferrals ∧ d.referrals + n < 2 ^ 64 ∧
      s' = { s with referrals := s.referrals.set id { d with referrals := d.referrals + n } } := by
  simp only [grantReferrals, bind_ok, pure_ok, expect_ok, require_ok, uadd_ok, decide_eq_true_eq] at h
  obtain ⟨d, hd, _, ⟨hlt, rfl⟩, -, hle, rfl⟩ := h
  exact ⟨d, hd, hle, hlt, rfl⟩

theorem addReferralAllocation_ok {env : Env} {s s' : State} {id : RefId} {tokens : List Bucket}
    {claims : List (Res × Dec)} {n : Nat} {o : Out}
    (h : addReferralAllocation env s id tokens claims n = Except.ok (s', o)) :
    ∃ cfg s1 g rest i, VConfig.new s.config [] = Except.ok cfg ∧
      tokens.all (okBucket env s) = true ∧
      grantReferrals s id n = Except.ok s1 ∧
      s.refgen.addAllocation env tokens id claims n = Except.ok (g, rest, i) ∧
      s' = { s1 with refgen := g } ∧ o = { buckets := rest, indexes := [some i] } := by
  simp only [addReferralAllocation, checkReferralTokens, bind_ok, pure_ok, require_ok,
    Prod.mk.injEq] at h
  obtain ⟨cfg, hc, -, ⟨-, hb, -⟩, s1, hg, ⟨g, rest, i⟩, ha, rfl, rfl⟩ := h
  obtain ⟨d, hd, -, -, rfl⟩ := grantReferrals_ok hg
  exact ⟨cfg, _, g, rest, i, hc, hb, hg, ha, rfl, rfl⟩

theorem createReferralCodes_ok {env : Env} {cl : Caller} {s s' : State} {id : RefId}
    {tokens : List Bucket} {hashes : AMap Hash (List (Res × Dec) × Nat)} {o : Out}
    (h : createReferralCodes env cl s id tokens hashes = Except.ok (s', o)) :
    ∃ cfg n s1 g rest, cl.refs id = true ∧ VConfig.new s.config [] = Except.ok cfg ∧
      tokens.all (okBucket env s) = true ∧ sumCounts hashes = Except.ok n ∧
      grantReferrals s id n = Except.ok s1 ∧
      s.refgen.createCodes env tokens id hashes = Except.ok (g, rest) ∧
      s' = { s1 with refgen := g } ∧ o = { buckets := rest } := by
  simp only [createReferralCodes, checkReferralTokens, bind_ok, pure_ok, require_ok,
    Prod.mk.injEq] at h
  obtain ⟨-, hr, cfg, hc, n, hn, -, ⟨-, hb, -⟩, s1, hg, ⟨g, rest⟩, ha, rfl, rfl⟩ := h
  obtain ⟨d, hd, -, -, rfl⟩ := grantReferrals_ok hg
  exact ⟨cfg, n, _, g, rest, hr, hc, hb, hn, hg, ha, rfl, rfl⟩

theorem createReferralCodesFromAllocation_ok {cl : Caller} {s s' : State} {id : RefId} {i : Nat}
    {hashes : List Hash}
    (h : createReferralCodesFromAllocation cl s id i hashes = Except.ok s') :
    ∃ g, cl.refs id = true ∧ s.refgen.codesFromAllocation id i hashes = Except.ok g ∧
      s' = { s with refgen := g } := by
  simp only [createReferralCodesFromAllocation, bind_ok, pure_ok, require_ok] at h
  obtain ⟨-, hr, g, hg, rfl⟩ := h
  exact ⟨g, hr, hg, rfl⟩

theorem lockFee_ok {env : Env} {s s' : State} {amount : Dec} {o : Out}
    (h : lockFee env s amount = Except.ok (s', o)) :
    ∃ value, value = mulT (mulT env.usdPrice s.delegator.priceMultiplier) amount ∧
      0 ≤ amount ∧ amount ≤ s.delegator.vault ∧ 0 ≤ value ∧
      s.oathSupply + value ≤ s.delegator.maxLock ∧
      s' = { s with
        delegator := { s.delegator with vault := s.delegator.vault - amount, vb := s.delegator.vb + value }
        oathSupply := s.oathSupply + value } ∧
      o = { buckets := [⟨FEE_OATH, value⟩] } := by
  simp only [lockFee, bind_ok, pure_ok, require_ok, decide_eq_true_eq, dmul_ok, dadd_ok, mintAmount_ok,
    Prod.mk.injEq] at h
  obtain ⟨-, ⟨h1, h2⟩, _, ⟨-, rfl⟩, _, ⟨-, rfl⟩, _, ⟨-, rfl⟩, _, ⟨h3, -, -, rfl⟩, _, ⟨-, rfl⟩, -, h4,
    rfl, rfl⟩ := h
  exact ⟨_, rfl, h1, h2, h3, h4, rfl, rfl⟩

theorem setRole_ok {cl : Caller} {s s' : State} {r : Role} {rule : Rule}
    (h : setRole cl s r rule = Except.ok s') :
    r ≠ .owner ∧
    ((s.roles .owner).sat cl.pf = true ∨ (r.userRole = true ∧ (s.roles .userAdmin).sat cl.pf = true)) ∧
    s' = { s with roles := fun x => if x = r then rule else s.roles x } := by
  simp only [setRole, bind_ok, pure_ok, require_ok, decide_eq_true_eq, Bool.or_eq_true,
    Bool.and_eq_true] at h
  obtain ⟨-, h1, -, h2, rfl⟩ := h
  exact ⟨h1, h2, rfl⟩

/-! ## Calls -/

theorem step_ok {env : Env} {cl : Caller} {s : State} {op : Op} {r : State × Out} :
    step env cl s op = Except.ok r ↔
      checkRole cl s op = Except.ok () ∧ checkOwner cl s op = Except.ok () ∧
      checkAuthority s op = Except.ok () ∧ body env cl s op = Except.ok r := by
  simp only [step, bind_ok]
  constructor
  · rintro ⟨⟨⟩, h1, ⟨⟩, h2, ⟨⟩, h3, h4⟩; exact ⟨h1, h2, h3, h4⟩
  · rintro ⟨h1, h2, h3, h4⟩; exact ⟨(), h1, (), h2, (), h3, h4⟩

theorem step_body {env : Env} {cl : Caller} {s : State} {op : Op} {r : State × Out}
    (h : step env cl s op = Except.ok r) : body env cl s op = Except.ok r := (step_ok.mp h).2.2.2

/-- Anything preserved by every call holds in every reachable state if it holds initially. -/
theorem Reach.induct {env : Env} {P : State → Prop} (h0 : ∀ s, Genesis s → P s)
    (h1 : ∀ s s' cl op o, P s → body env cl s op = Except.ok (s', o) → P s') {s : State}
    (h : Reach env s) : P s := by
  induction h with
  | init hg => exact h0 _ hg
  | step _ hs ih => exact h1 _ _ _ _ _ ih (step_body hs)

end Perp
