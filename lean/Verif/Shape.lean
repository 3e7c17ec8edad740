import Verif.Path

/-!
# The shape of every call

Every successful call is one of a few shapes: it pays out a recorded fee balance, moves liquidity,
locks a fee, edits referral data, updates pairs, or loads one account, runs a path of elementary
effects on it and writes it back.  Invariants are proved once per shape.
-/

namespace Perp

/-- Replacing the rule of one level in a loaded account. -/
def VAccount.withRule (v : VAccount) (lr : Option (Level × Rule)) : VAccount :=
  match lr with
  | some (l, r) => { v with comp := v.comp.setRule l r }
  | none => v

/-- The permission registry after such a change. -/
def authPerms (perms : AMap Rule Permissions) (v : VAccount) (lr : Option (Level × Rule)) :
    AMap Rule Permissions :=
  match lr with
  | some (l, r) => (setAuth perms v l r).1
  | none => perms

/-- A call that loads account `a` of state `s`, works on it and writes it back. -/
inductive AccOp (s : State) (a : Addr) (lr : Option (Level × Rule)) : State → Prop where
  | mk {v : VAccount} {ids : List PairId} {w : W} {x : Dec} {acc : Account}
      {refs : AMap RefId ReferralData} (o : Oracle) (rw : Dec) (k : Nat) :
      s.load a = Except.ok v →
      WPath s.config.exchange.decompress
        { pool := VPool.new s.pool s.now ids, acc := v.withRule lr, dist := s.dist } w x →
      Realizes s w.acc acc refs →
      AccOp s a lr { s.realized w acc refs with
        oathSupply := s.oathSupply - x
        perms := authPerms s.perms v lr
        oracle := o
        rewardSupply := rw
        recoveryKeys := k }

/-- What one call does to the referral generator on behalf of referral `id`, granting `n` more referrals. -/
inductive GenStep (env : Env) (s : State) (id : RefId) : Nat → RefGen → RefGen → Prop where
  | same : GenStep env s id 0 g g
  | alloc {g g' : RefGen} {tokens rest : List Bucket} {claims : List (Res × Dec)} {n i : Nat} :
      tokens.all (okBucket env s) = true → g.addAllocation env tokens id claims n = Except.ok (g', rest, i) →
      GenStep env s id n g g'
  | codes {g g' : RefGen} {tokens rest : List Bucket} {hashes : AMap Hash (List (Res × Dec) × Nat)} {n : Nat} :
      tokens.all (okBucket env s) = true → sumCounts hashes = Except.ok n →
      g.createCodes env tokens id hashes = Except.ok (g', rest) → GenStep env s id n g g'
  | fromAllocation {g g' : RefGen} {index : Nat} {hashes : List Hash} :
      g.codesFromAllocation id index hashes = Except.ok g' → GenStep env s id 0 g g'

/-- The referral code claimed with a new account. -/
def Claimed (env : Env) (g : RefGen) (rid : Option RefId) (g' : RefGen) : Prop :=
  (rid = none ∧ g' = g) ∨ ∃ c r bs, rid = some r ∧ g.claim env (env.hash c) = Except.ok (g', r, bs)

/-- The shapes of successful calls. -/
inductive Shape (env : Env) (s : State) : State → Prop where
  | quiet (now : Int) (authority : Dec) (roles : Role → Rule) (oracle : Oracle) (config : Config)
      (vault maxLock mult : Dec) (cont : Bool) :
      Shape env s { s with
        now, authority, roles, oracle, config
        delegator := { s.delegator with vault, maxLock, priceMultiplier := mult, isContingent := cont } }
  | treasury {pool : Pool} {x : Dec} : payout env s s.dist.treasury = Except.ok (pool, x) →
      Shape env s { s with pool, dist := { s.dist with treasury := 0 } }
  | protocol {pool : Pool} {x : Dec} : payout env s s.dist.protocol = Except.ok (pool, x) →
      Shape env s { s with pool, dist := { s.dist with protocol := 0 } }
  | delegator {pool : Pool} {x : Dec} : payout env s s.delegator.vb = Except.ok (pool, x) →
      Shape env s { s with pool, delegator := { s.delegator with vb := 0 } }
  | referral {pool : Pool} {x : Dec} {id : RefId} {d : ReferralData} :
      s.referrals.get id = some d → payout env s d.balance = Except.ok (pool, x) →
      Shape env s { s with pool, referrals := s.referrals.set id { d with balance := 0 } }
  | liquidity {y rate fee : Dec} (b l : Dec) : 0 ≤ y →
      rate = s.config.exchange.decompress.feeLiquidityAdd ∨
        rate = s.config.exchange.decompress.feeLiquidityRemove →
      fee = mulT y rate → (0 ≤ s.lpSupply → 0 ≤ l) →
      Shape env s { s with
        pool := { s.pool with
          baseTokens := b
          vb := s.pool.vb - mulT fee s.config.exchange.decompress.feeShareProtocol
                  - mulT fee s.config.exchange.decompress.feeShareTreasury }
        dist :=
          { protocol := s.dist.protocol + mulT fee s.config.exchange.decompress.feeShareProtocol
            treasury := s.dist.treasury + mulT fee s.config.exchange.decompress.feeShareTreasury }
        lpSupply := l }
  | lock {value : Dec} (vault : Dec) : 0 ≤ value → s.oathSupply + value ≤ s.delegator.maxLock →
      Shape env s { s with
        delegator := { s.delegator with vault, vb := s.delegator.vb + value }
        oathSupply := s.oathSupply + value }
  | newReferral {id : RefId} {d : ReferralData} (g : RefGen) :
      (GenStep env s id d.referrals s.refgen g ∧ (0 < d.referrals → d.referrals ≤ d.maxReferrals)) →
      s.referrals.get id = none → d.balance = 0 → d.totalRewarded = 0 →
      referralRateOk d.feeReferral = true → referralRateOk d.feeRebate = true →
      Shape env s { s with referrals := s.referrals.set id d, refgen := g }
  | editReferral {id : RefId} {d d' : ReferralData} (g : RefGen) :
      (∃ n, GenStep env s id n s.refgen g ∧ d'.referrals = d.referrals + n ∧
        (0 < n → d'.referrals ≤ d'.maxReferrals)) →
      s.referrals.get id = some d → d'.balance = d.balance → d'.totalRewarded = d.totalRewarded →
      (d'.feeReferral = d.feeReferral ∨ referralRateOk d'.feeReferral = true) →
      (d'.feeRebate = d.feeRebate ∨ referralRateOk d'.feeRebate = true) →
      Shape env s { s with referrals := s.referrals.set id d', refgen := g }
  | codes (g : RefGen) : (∃ id i hs, s.refgen.codesFromAllocation id i hs = Except.ok g) → Shape env s { s with refgen := g }
  | pairs {ids : List PairId} {pool : VPool} (o : Oracle) (rw : Dec) :
      (∀ acc d, WPath s.config.exchange.decompress { pool := VPool.new s.pool s.now ids, acc, dist := d }
        { pool, acc, dist := d } 0) →
      Shape env s { s with pool := pool.realize, oracle := o, rewardSupply := rw }
  | account {s' : State} {a : Addr} {lr : Option (Level × Rule)} : AccOp s a lr s' → Shape env s s'
  | create {s' : State} {a : Addr} {rule : Rule} {rid : Option RefId} (g : RefGen) : Claimed env s.refgen rid g →
      s.accounts.get a = none →
      AccOp { s with refgen := g
                     accounts := s.accounts.set a (Account.fresh rule rid)
                     perms := registerAccount s.perms a rule } a none s' →
      Shape env s s'

theorem VPool.realize_new (pl : Pool) (now : Int) (ids : List PairId) :
    (VPool.new pl now ids).realize = pl := by
  have : ∀ l : List (PairId × PoolPosition),
      l.foldl (fun m e => if e.1 ∈ ([] : List PairId) then m.set e.1 e.2 else m) pl.positions
        = pl.positions := by
    intro l; induction l with
    | nil => rfl
    | cons e l ih => simpa using ih
  cases pl
  simp only [VPool.realize, VPool.realPositions, VPool.new, Pool.mk.injEq, and_true]
  exact this _

theorem VConfig.new_ex {c : Config} {ids : List PairId} {v : VConfig}
    (h : VConfig.new c ids = Except.ok v) : v.ex = c.exchange.decompress := by
  simp only [VConfig.new, bind_ok, pure_ok] at h
  obtain ⟨_, -, rfl⟩ := h; rfl

/-- Account methods that do not touch the pool. -/
theorem accOp_of_acc {env : Env} {s s1 s' : State} {a : Addr} {v v1 w2 : VAccount} {oath : Option Bucket}
    {ids plain : List PairId} {cfg : VConfig} {acc : Account} {refs : AMap RefId ReferralData}
    (hv : s.load a = Except.ok v)
    (hp : payOath env s v oath ids plain = Except.ok (s1, v1, cfg))
    (hpath : ∀ pool d, WPath s.config.exchange.decompress { pool, acc := v1, dist := d }
      { pool, acc := w2, dist := d } 0)
    (hr : Realizes s1 w2 acc refs) (he : s' = s1.realizedAcc w2 acc refs) : AccOp s a none s' := by
  obtain ⟨rfl, rfl, h0, -, -⟩ := payOath_frame hp
  have p1 := (WStep.oath (ex := s.config.exchange.decompress)
    { pool := VPool.new s.pool s.now [], acc := v, dist := s.dist } _ h0).path
  have p2 := p1.trans (hpath _ _)
  rw [add_zero] at p2
  have := AccOp.mk (s := s) (a := a) (lr := none) (ids := []) s.oracle s.rewardSupply s.recoveryKeys hv p2 hr
  rw [he]
  convert this using 1
  simp [State.realizedAcc, State.realized, VPool.realize_new, State.burnt, authPerms]

/-- Account methods that change a rule. -/
theorem accOp_of_auth {env : Env} {s s1 s' : State} {a : Addr} {v v1 : VAccount} {oath : Option Bucket}
    {ids plain : List PairId} {cfg : VConfig} {acc : Account} {refs : AMap RefId ReferralData}
    {l : Level} {r : Rule} {k : Nat}
    (hv : s.load a = Except.ok v)
    (hp : payOath env s v oath ids plain = Except.ok (s1, v1, cfg))
    (hr : Realizes s1 (setAuth s1.perms v1 l r).2 acc refs)
    (he : s' = ({ s1 with perms := (setAuth s1.perms v1 l r).1, recoveryKeys := k } : State).realizedAcc
      (setAuth s1.perms v1 l r).2 acc refs) : AccOp s a (some (l, r)) s' := by
  obtain ⟨rfl, rfl, h0, -, -⟩ := payOath_frame hp
  have p1 := (WStep.oath (ex := s.config.exchange.decompress)
    { pool := VPool.new s.pool s.now [], acc := v.withRule (some (l, r)), dist := s.dist } _ h0).path
  have := AccOp.mk (s := s) (a := a) (lr := some (l, r)) (ids := []) s.oracle s.rewardSupply k hv p1 hr
  rw [he]
  convert this using 1
  simp [State.realizedAcc, State.realized, VPool.realize_new, State.burnt, authPerms, setAuth,
    VAccount.withRule]

/-- Deposits. -/
theorem accOp_of_deposit {env : Env} {s s1 s' : State} {a : Addr} {v : VAccount} {oath : Option Bucket}
    {tokens : List Bucket} {w : W} {acc : Account} {refs : AMap RefId ReferralData}
    (hv : s.load a = Except.ok v)
    (hd : depositTokens env s v oath tokens = Except.ok (s1, w))
    (hr : Realizes s1 w.acc acc refs) (he : s' = s1.realized w acc refs) : AccOp s a none s' := by
  obtain ⟨cfg, ids, w0, -, hw0, rfl, h0, -, rfl, -⟩ := depositTokens_ok hd
  have p1 := addCollateral_path (ex := s.config.exchange.decompress) hw0
  have p2 := p1.trans (WStep.oath (ex := s.config.exchange.decompress) w0 _ h0).path
  rw [zero_add] at p2
  have := AccOp.mk (s := s) (a := a) (lr := none) s.oracle s.rewardSupply s.recoveryKeys hv p2 hr
  rw [he]
  exact this

/-- Keeper methods. -/
theorem accOp_of_keeper {env : Env} {s s1 s' : State} {a : Addr} {v v1 : VAccount}
    {ids : List PairId} {u : Option PriceUpdate} {c : Ctx} {pool : VPool} {w : W} {acc : Account}
    {refs : AMap RefId ReferralData} {rw : Dec}
    (hv : s.load a = Except.ok v)
    (h0 : ∀ pool d, WPath s.config.exchange.decompress { pool, acc := v, dist := d }
      { pool, acc := v1, dist := d } 0)
    (hk : keeperLoad env s ids u = Except.ok (s1, c, pool))
    (hp : WPath c.cfg.ex { pool := VPool.new s.pool s.now ids, acc := v1, dist := s.dist } w 0)
    (hr : Realizes s w.acc acc refs)
    (he : s' = { s1.realized w acc refs with rewardSupply := rw }) : AccOp s a none s' := by
  obtain ⟨-, -, hcfg, -, -, -, hs1⟩ := keeperLoad_ok hk
  rw [VConfig.new_ex hcfg] at hp
  have p2 := (h0 _ _).trans0 hp
  have := AccOp.mk (s := s) (a := a) (lr := none) s1.oracle rw s.recoveryKeys hv p2 hr
  rw [he]
  convert this using 1
  rw [hs1]
  simp [State.realized, authPerms]

theorem pushExit_path {ex : ExchangeConfig} {v v' : VAccount} {now : Int} {o : OrderArgs}
    {l : Option PriceLimit} {cancel : List Nat} (h : pushExit v now o l cancel = Except.ok v')
    (pool : VPool) (d : FeeDist) :
    WPath ex { pool, acc := v, dist := d } { pool, acc := v', dist := d } 0 := by
  unfold pushExit at h
  cases l with
  | none => simp only [pure_ok] at h; subst h; exact .refl _
  | some l =>
    simp only [bind_ok, dneg_ok] at h
    obtain ⟨_, ⟨-, rfl⟩, h⟩ := h
    exact (WStep.push (w := { pool, acc := v, dist := d }) h).path

theorem updatePairsLoop_path {ex : ExchangeConfig} {c : Ctx} {acc : VAccount} {d : FeeDist}
    (l : List PairId) : ∀ {pool pool' : VPool} {flags : List Bool},
    updatePairsLoop c pool l = Except.ok (pool', flags) →
    WPath ex { pool, acc, dist := d } { pool := pool', acc, dist := d } 0 := by
  induction l with
  | nil =>
    intro pool pool' flags h
    simp only [updatePairsLoop, Except.ok.injEq, Prod.mk.injEq] at h
    rw [h.1]; exact .refl _
  | cons p l ih =>
    intro pool pool' flags h
    simp only [updatePairsLoop, bind_ok, pure_ok, Prod.mk.injEq] at h
    obtain ⟨⟨p1, b⟩, h1, ⟨p2, bs⟩, h2, rfl, -⟩ := h
    exact (updatePair_path (w := { pool, acc, dist := d }) h1).trans0 (ih h2)

theorem okBucket_nonneg {env : Env} {s : State} {b : Bucket} (h : okBucket env s b = true) : 0 ≤ b.amt := by
  simp only [okBucket, decide_eq_true_eq] at h; exact h.1

theorem Delegator.updateMaxLock_ok {d d' : Delegator} {x : Dec} (h : d.updateMaxLock x = Except.ok d') :
    0 ≤ x ∧ d' = { d with maxLock := x } := by
  simp only [Delegator.updateMaxLock, bind_ok, pure_ok, require_ok, decide_eq_true_eq] at h
  obtain ⟨-, h, rfl⟩ := h; exact ⟨h, rfl⟩

theorem Delegator.updateMultiplier_ok {d d' : Delegator} {x : Dec}
    (h : d.updateMultiplier x = Except.ok d') : 0 ≤ x ∧ d' = { d with priceMultiplier := x } := by
  simp only [Delegator.updateMultiplier, bind_ok, pure_ok, require_ok, decide_eq_true_eq] at h
  obtain ⟨-, h, rfl⟩ := h; exact ⟨h, rfl⟩

theorem Delegator.deposit_ok {d d' : Delegator} {x : Dec}
    (h : d.deposit x = Except.ok d') : 0 ≤ x ∧ d' = { d with vault := d.vault + x } := by
  simp only [Delegator.deposit, bind_ok, pure_ok, require_ok, decide_eq_true_eq, dadd_ok] at h
  obtain ⟨-, h, _, ⟨-, rfl⟩, rfl⟩ := h; exact ⟨h, rfl⟩

theorem Delegator.withdraw_ok {d d' : Delegator} {a x : Dec}
    (h : d.withdraw a = Except.ok (d', x)) :
    takeAmount 1 d.vault a .toZero = Except.ok x ∧ d' = { d with vault := d.vault - x } := by
  simp only [Delegator.withdraw, bind_ok, pure_ok, Prod.mk.injEq] at h
  obtain ⟨_, h, rfl, rfl⟩ := h; exact ⟨h, rfl⟩

/-- Every successful call has one of the shapes. -/
theorem body_shape {env : Env} {cl : Caller} {s s' : State} {op : Op} {o : Out}
    (h : body env cl s op = Except.ok (s', o)) : Shape env s s' := by
  have quiet := Shape.quiet (env := env) (s := s)
  cases op with
  | depositAuthority x =>
    simp only [body, bind_ok, pure_ok, Prod.mk.injEq] at h
    obtain ⟨-, -, _, -, rfl, -⟩ := h
    exact quiet s.now _ s.roles s.oracle s.config _ _ _ _
  | withdrawAuthority =>
    simp only [body, pure_ok, Prod.mk.injEq] at h
    obtain ⟨rfl, -⟩ := h
    exact quiet s.now 0 s.roles s.oracle s.config _ _ _ _
  | signalUpgrade _ =>
    simp only [body, pure_ok, Prod.mk.injEq] at h
    obtain ⟨rfl, -⟩ := h
    exact quiet s.now s.authority s.roles s.oracle s.config _ _ _ _
  | updateExchangeConfig c =>
    simp only [body, bind_ok, pure_ok, Prod.mk.injEq] at h
    obtain ⟨_, -, rfl, -⟩ := h
    exact quiet s.now s.authority s.roles s.oracle _ _ _ _ _
  | updatePairConfigs c =>
    simp only [body, bind_ok, pure_ok, Prod.mk.injEq] at h
    obtain ⟨_, -, rfl, -⟩ := h
    exact quiet s.now s.authority s.roles s.oracle _ _ _ _ _
  | updateCollateralConfigs c =>
    simp only [body, bind_ok, pure_ok, Prod.mk.injEq] at h
    obtain ⟨_, -, rfl, -⟩ := h
    exact quiet s.now s.authority s.roles s.oracle _ _ _ _ _
  | removeCollateralConfig c =>
    simp only [body, pure_ok, Prod.mk.injEq] at h
    obtain ⟨rfl, -⟩ := h
    exact quiet s.now s.authority s.roles s.oracle _ _ _ _ _
  | collectTreasury =>
    obtain ⟨pool, x, hp, rfl, -⟩ := collectTreasury_ok h
    exact .treasury hp
  | collectFeeDelegator =>
    obtain ⟨pool, x, hp, rfl, -⟩ := collectFeeDelegator_ok h
    exact .delegator hp
  | mintReferral id a b m =>
    simp only [body, bind_ok, pure_ok, Prod.mk.injEq] at h
    obtain ⟨s1, hm, rfl, -⟩ := h
    obtain ⟨h1, h2, hn, rfl⟩ := mintReferral_ok hm
    exact .newReferral s.refgen ⟨.same, fun h => absurd h (by simp)⟩ hn rfl rfl h1 h2
  | mintReferralWithAllocation id a b m t c n =>
    simp only [body, mintReferralWithAllocation, bind_ok] at h
    obtain ⟨s1, hm, h⟩ := h
    obtain ⟨h1, h2, hn, rfl⟩ := mintReferral_ok hm
    obtain ⟨cfg, s2, g, rest, i, -, hok, hg, ha, rfl, -⟩ := addReferralAllocation_ok h
    obtain ⟨d, hd, hle, -, rfl⟩ := grantReferrals_ok hg
    simp only [AMap.get_set_self, Option.some.injEq] at hd
    subst hd
    simp only [AMap.set_set]
    exact .newReferral g ⟨by simpa using GenStep.alloc (s := s) hok ha, fun _ => hle⟩ hn rfl rfl h1 h2
  | updateReferral id a b m =>
    simp only [body, bind_ok, pure_ok, Prod.mk.injEq] at h
    obtain ⟨s1, hm, rfl, -⟩ := h
    rcases updateReferral_ok hm with rfl | ⟨d, hd, ha, hb, rfl⟩
    · exact quiet s1.now s1.authority s1.roles s1.oracle s1.config _ _ _ _
    refine .editReferral s.refgen ⟨0, .same, rfl, fun h => absurd h (by simp)⟩ hd rfl rfl ?_ ?_
    · cases a with
      | none => exact Or.inl rfl
      | some x => exact Or.inr (ha x rfl)
    · cases b with
      | none => exact Or.inl rfl
      | some x => exact Or.inr (hb x rfl)
  | addReferralAllocation id t c n =>
    obtain ⟨cfg, s2, g, rest, i, -, hok, hg, ha, rfl, -⟩ := addReferralAllocation_ok h
    obtain ⟨d, hd, hle, -, rfl⟩ := grantReferrals_ok hg
    exact .editReferral g ⟨n, .alloc hok ha, rfl, fun _ => hle⟩ hd rfl rfl (Or.inl rfl) (Or.inl rfl)
  | swapProtocolFee b =>
    obtain ⟨cfg, pool, x, burn, -, -, -, -, hp, rfl, -⟩ := swapProtocolFee_ok h
    exact .protocol hp
  | addLiquidity b =>
    obtain ⟨cfg, fee, lp, price, hc, hb, -, hfee, -, hm, rfl, -⟩ := opAddLiquidity_ok h
    rw [VConfig.new_ex hc] at hfee ⊢
    exact .liquidity _ _ (okBucket_nonneg hb) (Or.inl rfl) hfee (fun h => by have := (mintAmount_ok.mp hm).1; omega)
  | removeLiquidity b =>
    obtain ⟨cfg, price, value, fee, x, hc, hb, hres, hs0, hpr, hval, hfee, -, ht, rfl, -⟩ := opRemoveLiquidity_ok h
    rw [VConfig.new_ex hc] at hfee ⊢
    have hb0 := okBucket_nonneg hb
    simp only [okBucket, decide_eq_true_eq] at hb
    have := hb.2.2.1 hres
    refine .liquidity _ _ ?_ (Or.inr rfl) hfee (fun h => by omega)
    rw [hval, hpr]
    exact mulT_nonneg hb0 (divT_nonneg (le_max_right _ _) (by omega))
  | createReferralCodes id t hs =>
    obtain ⟨cfg, n, s1, g, rest, -, -, hok, hn, hg, ha, rfl, -⟩ := createReferralCodes_ok h
    obtain ⟨d, hd, hle, -, rfl⟩ := grantReferrals_ok hg
    exact .editReferral g ⟨n, .codes hok hn ha, rfl, fun _ => hle⟩ hd rfl rfl (Or.inl rfl) (Or.inl rfl)
  | createReferralCodesFromAllocation id i hs =>
    simp only [body, bind_ok, pure_ok, Prod.mk.injEq] at h
    obtain ⟨s1, hm, rfl, -⟩ := h
    obtain ⟨g, -, hf, rfl⟩ := createReferralCodesFromAllocation_ok hm
    exact .codes g ⟨id, i, hs, hf⟩
  | collectReferralRewards id =>
    obtain ⟨d, pool, x, -, hd, hp, rfl, -⟩ := collectReferralRewards_ok h
    exact .referral hd hp
  | createAccount a oath r t c =>
    obtain ⟨s0, rid, extra, s1, v, s2, w, acc, refs, -, hn, hc, rfl, hv, hd, hr, he, -⟩ := createAccount_ok h
    have hacc := accOp_of_deposit hv hd hr he
    rcases claimCode_ok hc with ⟨-, hrid, -, hs⟩ | ⟨code, g, r', -, hcl, hrid, rfl⟩
    · subst hs; exact .create _ (Or.inl ⟨hrid, rfl⟩) hn hacc
    · exact .create g (Or.inr ⟨code, r', _, hrid, hcl⟩) hn hacc
  | createRecoveryKey oath a =>
    obtain ⟨v, s1, v1, cfg, hv, -, hp, r, x, rfl, rfl, acc, refs, hr, he, -⟩ := createRecoveryKey_ok h
    exact .account (accOp_of_auth hv hp hr he)
  | addAuthRule oath a l n =>
    obtain ⟨v, s1, v1, cfg, l', hv, -, hp, -, r, x, rfl, rfl, acc, refs, hr, he, -⟩ := addAuthRule_ok h
    exact .account (accOp_of_auth (k := s1.recoveryKeys) hv hp hr he)
  | setLevelAuth oath a l r =>
    obtain ⟨v, s1, v1, cfg, hv, -, hp, x, rfl, acc, refs, hr, he, -⟩ := setLevelAuth_ok h
    exact .account (accOp_of_auth (k := s1.recoveryKeys) hv hp hr he)
  | addCollateral oath a t =>
    obtain ⟨v, s1, w, acc, refs, -, hv, -, hd, hr, he, -⟩ := opAddCollateral_ok h
    exact .account (accOp_of_deposit hv hd hr he)
  | removeCollateralRequest oath e a t c =>
    obtain ⟨v, s1, v1, cfg, v2, acc, refs, hv, -, hp, hpush, -, hr, he, -⟩ := removeCollateralRequest_ok h
    exact .account (accOp_of_acc hv hp
      (fun pool d => (WStep.push (w := { pool, acc := v1, dist := d }) hpush).path) hr he)
  | marginOrderRequest oath a args act can st =>
    obtain ⟨v, s1, v1, cfg, _, _, v2, acc, refs, hv, -, hp, -, -, hpush, -, hr, he, -⟩ :=
      marginOrderRequest_ok h
    exact .account (accOp_of_acc hv hp
      (fun pool d => (WStep.push (w := { pool, acc := v1, dist := d }) hpush).path) hr he)
  | marginOrderTpSlRequest oath a args tp sl =>
    obtain ⟨v, s1, v1, cfg, v2, v3, v4, acc, refs, iTp, iSl, hv, -, hp, -, -, h2, h3, h4, -, hr, he, -⟩ :=
      marginOrderTpSlRequest_ok h
    exact .account (accOp_of_acc hv hp
      (fun pool d => ((WStep.push (w := { pool, acc := v1, dist := d }) h2).path.trans0
        (pushExit_path h3 pool d)).trans0 (pushExit_path h4 pool d)) hr he)
  | cancelRequests oath a is =>
    obtain ⟨v, s1, v1, cfg, v2, acc, refs, hv, -, hp, h2, hr, he, -⟩ := opCancelRequests_ok h
    exact .account (accOp_of_acc hv hp
      (fun pool d => (WStep.cancel (w := { pool, acc := v1, dist := d }) h2).path) hr he)
  | processRequest a i u =>
    obtain ⟨v, v1, r, expired, cfg, hv, hpr, -, -, -, h⟩ := processRequest_ok h
    have p0 := fun pool d => (WStep.process (ex := s.config.exchange.decompress)
      (w := { pool, acc := v, dist := d }) hpr).path
    rcases h with ⟨-, acc, refs, hr, rfl, -⟩ | ⟨-, s1, c, w, out, acc, refs, hk, hx, hr, he, -⟩
    · refine .account (a := a) (lr := none) ?_
      have := AccOp.mk (s := s) (a := a) (lr := none) s.oracle (s.rewardSupply + cfg.ex.rewardKeeper)
        s.recoveryKeys hv (p0 (VPool.new s.pool s.now []) s.dist) hr
      convert this using 1
      simp [State.realizedAcc, State.realized, VPool.realize_new, authPerms]
    · exact .account (accOp_of_keeper hv p0 hk (executeRequest_path hx) hr he)
  | swapDebt a r p u =>
    obtain ⟨v, s1, c, w, token, rest, e, acc, refs, -, hv, hk, hx, hr, he, -⟩ := opSwapDebt_ok h
    exact .account (accOp_of_keeper hv (fun _ _ => .refl _) hk (swapDebt_path hx) hr
      (rw := s1.rewardSupply) (by rw [he]; rfl))
  | liquidate a p u =>
    obtain ⟨v, s1, c, w, tokens, e, acc, refs, -, hv, hk, hx, hr, -, he, -⟩ := opLiquidate_ok h
    exact .account (accOp_of_keeper hv (fun _ _ => .refl _) hk (liquidate_path hx) hr he)
  | autoDeleverage a p u =>
    obtain ⟨v, s1, c, w, e, acc, refs, hv, hk, hx, hr, -, he, -⟩ := opAutoDeleverage_ok h
    exact .account (accOp_of_keeper hv (fun _ _ => .refl _) hk (autoDeleverage_path hx) hr he)
  | updatePairs ids u =>
    obtain ⟨s1, c, pool, flags, n, hk, hx, -, rfl, -⟩ := opUpdatePairs_ok h
    obtain ⟨-, -, -, -, -, -, hs1⟩ := keeperLoad_ok hk
    have := Shape.pairs (env := env) (s := s) s1.oracle (s.rewardSupply + n)
      (fun acc d => updatePairsLoop_path (ex := s.config.exchange.decompress) (acc := acc) (d := d) _ hx)
    convert this using 1
    rw [hs1]
  | setRole r rule =>
    simp only [body, bind_ok, pure_ok, Prod.mk.injEq] at h
    obtain ⟨s1, hm, rfl, -⟩ := h
    obtain ⟨-, -, rfl⟩ := setRole_ok hm
    exact quiet s.now s.authority _ s.oracle s.config _ _ _ _
  | oraclePush u =>
    simp only [body, bind_ok, pure_ok, Prod.mk.injEq] at h
    obtain ⟨_, -, rfl, -⟩ := h
    exact quiet s.now s.authority s.roles _ s.config _ _ _ _
  | oracleAddKey id k =>
    simp only [body, bind_ok, pure_ok, Prod.mk.injEq] at h
    obtain ⟨_, -, rfl, -⟩ := h
    exact quiet s.now s.authority s.roles _ s.config _ _ _ _
  | oracleRemoveKey id =>
    simp only [body, pure_ok, Prod.mk.injEq] at h
    obtain ⟨rfl, -⟩ := h
    exact quiet s.now s.authority s.roles _ s.config _ _ _ _
  | oracleRemovePrice p =>
    simp only [body, pure_ok, Prod.mk.injEq] at h
    obtain ⟨rfl, -⟩ := h
    exact quiet s.now s.authority s.roles _ s.config _ _ _ _
  | delegatorMaxLock x =>
    simp only [body, bind_ok, pure_ok, Prod.mk.injEq] at h
    obtain ⟨_, hd, rfl, -⟩ := h
    rw [(Delegator.updateMaxLock_ok hd).2]
    exact quiet s.now s.authority s.roles s.oracle s.config _ _ _ _
  | delegatorMultiplier x =>
    simp only [body, bind_ok, pure_ok, Prod.mk.injEq] at h
    obtain ⟨_, hd, rfl, -⟩ := h
    rw [(Delegator.updateMultiplier_ok hd).2]
    exact quiet s.now s.authority s.roles s.oracle s.config _ _ _ _
  | delegatorContingent b =>
    simp only [body, pure_ok, Prod.mk.injEq] at h
    obtain ⟨rfl, -⟩ := h
    exact quiet s.now s.authority s.roles s.oracle s.config _ _ _ _
  | delegatorDeposit x =>
    simp only [body, bind_ok, pure_ok, Prod.mk.injEq] at h
    obtain ⟨_, hd, rfl, -⟩ := h
    rw [(Delegator.deposit_ok hd).2]
    exact quiet s.now s.authority s.roles s.oracle s.config _ _ _ _
  | delegatorWithdraw x =>
    simp only [body, bind_ok, pure_ok, Prod.mk.injEq] at h
    obtain ⟨⟨_, _⟩, hd, rfl, -⟩ := h
    rw [(Delegator.withdraw_ok hd).2]
    exact quiet s.now s.authority s.roles s.oracle s.config _ _ _ _
  | lockFee x =>
    obtain ⟨value, -, -, -, h0, hle, rfl, -⟩ := lockFee_ok h
    exact .lock _ h0 hle
  | tick t =>
    simp only [body, bind_ok, pure_ok, require_ok, Prod.mk.injEq] at h
    obtain ⟨-, -, rfl, -⟩ := h
    exact quiet t s.authority s.roles s.oracle s.config _ _ _ _

end Perp
