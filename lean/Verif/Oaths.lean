import Verif.Claiming
import Verif.Positions
import Verif.Marks

/-!
# Fee oaths (C41)
-/

namespace Perp

/-! ## The margin check of the oath branch is the initial margin check of the resulting state -/

theorem oath_agree {env : Env} {s s' : State} {ids : List PairId} {c : Ctx} {pool0 pool : VPool}
    (hl : oathLoad env s ids = Except.ok (c, pool0)) (hp : pool.positions = pool0.positions)
    (h1 : s'.config = s.config) (h2 : s'.oracle = s.oracle) (h3 : s'.now = s.now)
    (h4 : s'.pool.positions = s.pool.positions) {pos : AMap PairId AccountPosition} {bal : AMap Res Dec}
    (hk : ∀ p x, pos.get p = some x → c.Known pool p)
    (hc : ∀ r x cc, bal.get r = some x → c.cfg.colls.get r = some cc → ∃ y, c.orc.prices.get cc.pairId = some y) :
    (c.market pool).Agree s'.market pos bal := by
  obtain ⟨-, -, hcfg, horc, rfl⟩ := oathLoad_ok hl
  obtain ⟨c1, c2, -, c4⟩ := VConfig.new_ok hcfg
  obtain ⟨-, -, o3⟩ := VOracle.new_ok horc
  have price : ∀ {p x}, c.orc.prices.get p = some x → (c.market pool).price p = s'.market.price p := by
    intro p x hx
    obtain ⟨-, t, ht, -⟩ := o3 p x hx
    simp only [Ctx.market, State.market, hx, h2, ht, Option.map_some, Option.getD_some]
  have coll : ∀ r, c.cfg.colls.get r = (s'.config.collaterals.get r).map CollateralConfigC.decompress := by
    intro r; rw [c2, AMap.get_mapV, h1]
  constructor
  · simp only [Ctx.market, State.market, h1, c1]
  · intro p x hx
    obtain ⟨-, ⟨y, hy⟩, -⟩ := hk p x hx
    exact price hy
  · intro p x hx
    obtain ⟨⟨y, hy⟩, -, -⟩ := hk p x hx
    obtain ⟨-, z, hz, rfl⟩ := c4 p y hy
    simp only [Ctx.market, State.market, hy, h1, hz, Option.map_some, Option.getD_some]
  · intro p x hx
    obtain ⟨-, -, y, hy⟩ := hk p x hx
    have hy' := hy
    rw [hp] at hy'
    simp only [VPool.new, AMap.get_build] at hy'
    split at hy'
    · cases hy'
      simp only [Ctx.market, State.market, hy, Option.getD_some, h3]
      unfold Pool.position
      rw [h4]
    · cases hy'
  · intro r x _
    simp only [Ctx.market, State.market]
    exact coll r
  · intro r x cc hr hcc
    obtain ⟨y, hy⟩ := hc r x cc hr (by rw [coll]; exact hcc)
    exact price hy

theorem oath_margin {env : Env} {s s' : State} {ids : List PairId} {c : Ctx} {pool0 pool : VPool} {v : VAccount}
    {acc' : Account}
    (hl : oathLoad env s ids = Except.ok (c, pool0)) (hi : assertAccountIntegrity c pool v = Except.ok ())
    (hp : pool.positions = pool0.positions)
    (h1 : s'.config = s.config) (h2 : s'.oracle = s.oracle) (h3 : s'.now = s.now)
    (h4 : s'.pool.positions = s.pool.positions) (e1 : acc'.positions = v.positions)
    (e2 : acc'.collateralBalances = v.collateralBalances) (e3 : acc'.vb = v.vb)
    (e4 : s'.rebateOf acc' = v.rebate) : s'.initialMargin acc' ≤ s'.accountValue acc' := by
  have hf : c.Feeds := (VOracle.new_ok (oathLoad_ok hl).2.2.2.1).1
  obtain ⟨m1, m2, m3⟩ := assertAccountIntegrity_ok hf hi
  have ha := oath_agree hl hp h1 h2 h3 h4 m2 m3
  rw [ha.margin, ha.value] at m1
  unfold State.initialMargin State.accountValue
  rw [e1, e2, e3, e4]
  exact m1

/-! ## Calls of the account holder -/

theorem holder_oath {env : Env} {cl : Caller} {s s' : State} {op : Op} {o : Out} {a : Addr}
    (h : body env cl s op = Except.ok (s', o)) (hop : op.account = some a) (hh : op.holder = true) :
    ∃ v ids plain s1 v1 cfg, s.load a = Except.ok v ∧ payOath env s v op.oath ids plain = Except.ok (s1, v1, cfg) := by
  cases op with
  | createRecoveryKey oath a' =>
    cases hop
    obtain ⟨v, s1, v1, cfg, hv, -, hp, -⟩ := createRecoveryKey_ok h
    exact ⟨v, _, _, s1, v1, cfg, hv, hp⟩
  | addAuthRule oath a' l n =>
    cases hop
    obtain ⟨v, s1, v1, cfg, l', hv, -, hp, -⟩ := addAuthRule_ok h
    exact ⟨v, _, _, s1, v1, cfg, hv, hp⟩
  | setLevelAuth oath a' l r =>
    cases hop
    obtain ⟨v, s1, v1, cfg, hv, -, hp, -⟩ := setLevelAuth_ok h
    exact ⟨v, _, _, s1, v1, cfg, hv, hp⟩
  | removeCollateralRequest oath e a' t c =>
    cases hop
    obtain ⟨v, s1, v1, cfg, v2, acc', refs, hv, -, hp, -⟩ := removeCollateralRequest_ok h
    exact ⟨v, _, _, s1, v1, cfg, hv, hp⟩
  | marginOrderRequest oath a' args act can st =>
    cases hop
    obtain ⟨v, s1, v1, cfg, _, _, v2, acc', refs, hv, -, hp, -⟩ := marginOrderRequest_ok h
    exact ⟨v, _, _, s1, v1, cfg, hv, hp⟩
  | marginOrderTpSlRequest oath a' args tp sl =>
    cases hop
    obtain ⟨v, s1, v1, cfg, v2, v3, v4, acc', refs, iTp, iSl, hv, -, hp, -⟩ := marginOrderTpSlRequest_ok h
    exact ⟨v, _, _, s1, v1, cfg, hv, hp⟩
  | cancelRequests oath a' is =>
    cases hop
    obtain ⟨v, s1, v1, cfg, v2, acc', refs, hv, -, hp, -⟩ := opCancelRequests_ok h
    exact ⟨v, _, _, s1, v1, cfg, hv, hp⟩
  | _ => cases hh

theorem load_rebate {s s' : State} {a : Addr} {v : VAccount} {acc acc' : Account} (h : s.load a = Except.ok v)
    (ha : s.accounts.get a = some acc) (h1 : acc'.referralId = acc.referralId) (h2 : s'.referrals = s.referrals) :
    s'.rebateOf acc' = v.rebate := by
  obtain ⟨acc0, rd, hg, hr, rfl⟩ := load_ok h
  rw [ha] at hg; cases hg
  unfold State.rebateOf VAccount.rebate
  rw [h1, h2]
  rcases loadReferral_ok hr with ⟨e1, rfl⟩ | ⟨r, d, e1, e2, rfl⟩
  · rw [e1]; rfl
  · rw [e1]; simp only [Option.bind_some, e2]

/-! ## Deposits -/

theorem addBases_acc (bs : List Bucket) : ∀ {w w' : W}, (∀ b ∈ bs, b.res = BASE) → bs.foldlM addBase w = Except.ok w' →
    w'.acc = { w.acc with vb := w.acc.vb + totalOf bs BASE } := by
  induction bs with
  | nil =>
    intro w w' _ h
    simp only [List.foldlM_nil, pure_ok] at h
    subst h; simp [totalOf]
  | cons b bs ih =>
    intro w w' hb h
    simp only [List.foldlM_cons, bind_ok, addBase] at h
    obtain ⟨w1, ⟨pool, -, hs⟩, h⟩ := h
    rw [ih (fun x hx => hb x (by simp [hx])) h, settleAccount_ok hs, totalOf_cons, if_pos (hb b (by simp))]
    simp only [add_assoc]

/-- What a deposit does to the working account: base tokens (net of the oath) to the virtual balance, the rest to the
collateral. -/
theorem depositTokens_acc {env : Env} {s s1 : State} {v : VAccount} {oath : Option Bucket} {tokens : List Bucket} {w : W}
    (h : depositTokens env s v oath tokens = Except.ok (s1, w)) :
    w.acc = { v with
      vb := v.vb + totalOf tokens BASE - oathAmt oath
      collateralBalances := w.acc.collateralBalances
      comp := { v.comp with collateralBalances := w.acc.comp.collateralBalances
                            collateral := w.acc.comp.collateral } } := by
  obtain ⟨cfg, ids, w0, -, hadd, -, -, -, rfl, -⟩ := depositTokens_ok h
  obtain ⟨w1, acc, hb, -, hd, -, rfl⟩ := addCollateral_ok hadd
  have e1 := addBases_acc _ (by simp) hb
  have e2 := depositCollateral_collOnly hd
  unfold CollOnly at e2
  rw [totalOf_filter _ _ _ (fun b _ e => by simp [e])] at e1
  show ({ acc with vb := acc.vb - oathAmt oath } : VAccount) = _
  rw [e2, e1]

theorem depositTokens_coll {env : Env} {s s1 : State} {v : VAccount} {oath : Option Bucket} {tokens : List Bucket}
    {w : W} (h : depositTokens env s v oath tokens = Except.ok (s1, w)) (hc : CollInv env v.collPart)
    (hv : ∀ b ∈ tokens, 0 ≤ b.amt ∧ b.amt % (env.gran b.res : Int) = 0) :
    w.acc.comp.collateralBalances = w.acc.collateralBalances := by
  obtain ⟨cfg, ids, w0, hcfg, hadd, hs1, -, -, rfl, -⟩ := depositTokens_ok h
  obtain ⟨w1, acc, hb, -, hd, hlim, rfl⟩ := addCollateral_ok hadd
  have e1 := addBases_collPart hb
  have hci : CollInv env w1.acc.collPart := by rw [e1]; exact hc
  exact ((depositCollateral_put hd).inv (env := env) (fun x hx => hv x (List.mem_filter.mp hx).1) hci).same.symm

theorem depositTokens_poolPos {env : Env} {s s1 : State} {v : VAccount} {b : Bucket} {tokens : List Bucket} {w : W}
    (h : depositTokens env s v (some b) tokens = Except.ok (s1, w)) :
    w.pool.positions = (VPool.new s.pool s.now v.positionIds).positions := by
  unfold depositTokens at h
  simp only [bind_ok, pure_ok, Prod.mk.injEq] at h
  obtain ⟨⟨c, pool⟩, hl, w0, hw, acc, -, s2, -, -, rfl⟩ := h
  obtain ⟨-, -, -, -, rfl⟩ := oathLoad_ok hl
  exact (addCollateral_pool hw).1

/-- A deposit into a loaded account, realized: virtual balance and margin. -/
theorem deposit_oath {env : Env} {s s1 s' : State} {a : Addr} {v : VAccount} {oath : Option Bucket}
    {tokens : List Bucket} {w : W} {acc acc' : Account} {refs : AMap RefId ReferralData}
    (hl : s.load a = Except.ok v) (ha : s.accounts.get a = some acc)
    (hd : depositTokens env s v oath tokens = Except.ok (s1, w)) (hr : Realizes s1 w.acc acc' refs)
    (he : s' = s1.realized w acc' refs) (hc : CollInv env acc.collPart)
    (hv : ∀ b ∈ tokens, 0 ≤ b.amt ∧ b.amt % (env.gran b.res : Int) = 0) :
    s'.accounts.get a = some acc' ∧ s'.oathSupply = s.oathSupply - oathAmt oath ∧
    acc'.vb = acc.vb + totalOf tokens BASE - oathAmt oath ∧
    ∀ b, oath = some b → b.res = FEE_OATH ∧ s'.initialMargin acc' ≤ s'.accountValue acc' := by
  have hacc := depositTokens_acc hd
  have hpool := depositTokens_pool hd
  have hidle := depositTokens_posIdle hd
  obtain ⟨acc0, rd, hg, hrd, hv0⟩ := load_ok hl
  rw [ha] at hg; cases hg
  have hcoll := depositTokens_coll hd (by rw [hv0]; exact hc) hv
  obtain ⟨cfg, ids, w0, hcfg, hadd, rfl, -, -, hw, hoath⟩ := depositTokens_ok hd
  have haddr : w.acc.addr = a := by rw [hacc, hv0]
  obtain ⟨rq, -, hreal⟩ := realize_ok hr.1
  have hvb : acc'.vb = acc.vb + totalOf tokens BASE - oathAmt oath := by
    rw [hreal]; show w.acc.vb = _; rw [hacc, hv0]
  refine ⟨by rw [he]; simp only [State.realized, haddr, AMap.get_set_self], by rw [he]; rfl, hvb, ?_⟩
  intro b hb
  obtain ⟨c, hres, hload, hint⟩ := hoath b hb
  refine ⟨hres, oath_margin hload hint ?_ ?_ ?_ ?_ ?_ ?_ ?_ ?_ ?_⟩
  · subst hb; exact depositTokens_poolPos hd
  · rw [he]; rfl
  · rw [he]; rfl
  · rw [he]; rfl
  · rw [he]; exact hpool
  · rw [posIdle_realize hidle (by rw [hv0]) hr.1, hidle.1, hv0]
  · rw [(realize_coll hr.1).2]; exact hcoll
  · rw [hreal]
  · have hrefs := hr.2
    have hrew : w.acc.referralRewarded = false := by rw [hacc, hv0]
    simp only [VAccount.realizeReferral, hrew, Bool.false_eq_true, if_false, pure_ok] at hrefs
    have hw' : w.acc.rebate = v.rebate := by unfold VAccount.rebate; rw [hacc]
    rw [hw']
    refine load_rebate hl ha ?_ ?_
    · rw [hreal]; show w.acc.comp.referralId = _; rw [hacc, hv0]
    · rw [he]; show refs = _; rw [← hrefs]; rfl

/-! ## The supply of oaths -/

/-- The oaths minted by a call. -/
def Op.oathMinted (env : Env) (s : State) : Op → Dec
  | .lockFee x => mulT (mulT env.usdPrice s.delegator.priceMultiplier) x
  | _ => 0

/-- The supply of oaths changes only by minting and by settling the oath attached to a call. -/
theorem body_oaths {env : Env} {cl : Caller} {s s' : State} {op : Op} {o : Out}
    (h : body env cl s op = Except.ok (s', o)) :
    s'.oathSupply = s.oathSupply + op.oathMinted env s - oathAmt op.oath := by
  cases ho : op.account with
  | none =>
    obtain ⟨-, -, -, e, -⟩ := body_no_account h ho
    cases op with
    | lockFee x =>
      obtain ⟨v, hv, -, -, -, -, rfl, -⟩ := lockFee_ok h
      simp only [Op.oathMinted, oathAmt, ← hv, Op.oath]
      simp
    | _ =>
      first
      | (exfalso; cases ho; done)
      | (rcases e with e | ⟨x, e⟩
         · rw [e]; show _ = s.oathSupply + 0 - 0; omega
         · cases e)
  | some a =>
    have mint : op.oathMinted env s = 0 := by cases op <;> first | rfl | cases ho
    rw [mint, add_zero]
    by_cases hh : op.holder = true
    · obtain ⟨v, ids, plain, s1, v1, cfg, hv, -⟩ := holder_oath h ho hh
      obtain ⟨acc, rd, hg, -⟩ := load_ok hv
      obtain ⟨acc', he⟩ := holder_effect h ho hh hg
      exact he.oaths
    cases op with
    | createAccount a' oath r t c =>
      obtain ⟨s0, rid, extra, s1, v, s2, w, acc, refs, -, hn, hc, rfl, hv, hd, hr, rfl, -⟩ := createAccount_ok h
      obtain ⟨_, _, _, -, -, rfl, -⟩ := depositTokens_ok hd
      have : s0.oathSupply = s.oathSupply := by
        rcases claimCode_ok hc with ⟨-, -, -, rfl⟩ | ⟨_, g, r', -, -, -, rfl⟩ <;> rfl
      show s0.oathSupply - _ = _
      rw [this]; rfl
    | addCollateral oath a' t =>
      obtain ⟨v, s1, w, acc, refs, -, hv, -, hd, hr, rfl, -⟩ := opAddCollateral_ok h
      obtain ⟨_, _, _, -, -, rfl, -⟩ := depositTokens_ok hd
      rfl
    | processRequest a' i u =>
      obtain ⟨v, v1, r, expired, cfg, hv, hpr, -, -, -, h⟩ := processRequest_ok h
      rcases h with ⟨-, acc, refs, hr, rfl, -⟩ | ⟨-, s1, c, w, out, acc, refs, hk, hx, hr, rfl, -⟩
      · simp [State.realizedAcc, oathAmt, Op.oath]
      · obtain ⟨-, -, -, -, -, -, e⟩ := keeperLoad_ok hk
        simp only [State.realized, oathAmt, Op.oath]
        rw [e]; simp
    | swapDebt a' r p u =>
      obtain ⟨v, s1, c, w, token, rest, e, acc, refs, -, hv, hk, hx, hr, rfl, -⟩ := opSwapDebt_ok h
      obtain ⟨-, -, -, -, -, -, e⟩ := keeperLoad_ok hk
      simp only [State.realized, oathAmt, Op.oath]
      rw [e]; simp
    | liquidate a' p u =>
      obtain ⟨v, s1, c, w, tokens, e, acc, refs, -, hv, hk, hx, hr, -, rfl, -⟩ := opLiquidate_ok h
      obtain ⟨-, -, -, -, -, -, e⟩ := keeperLoad_ok hk
      simp only [State.realized, oathAmt, Op.oath]
      rw [e]; simp
    | autoDeleverage a' p u =>
      obtain ⟨v, s1, c, w, e, acc, refs, hv, hk, hx, hr, -, rfl, -⟩ := opAutoDeleverage_ok h
      obtain ⟨-, -, -, -, -, -, e⟩ := keeperLoad_ok hk
      simp only [State.realized, oathAmt, Op.oath]
      rw [e]; simp
    | _ => first | exact absurd rfl hh | cases ho

theorem body_oath_nonneg {env : Env} {cl : Caller} {s s' : State} {op : Op} {o : Out}
    (h : body env cl s op = Except.ok (s', o)) : 0 ≤ oathAmt op.oath ∧ oathAmt op.oath ≤ max s.oathSupply 0 := by
  by_cases hh : op.holder = true
  · have ⟨a, ha⟩ : ∃ a, op.account = some a := by cases op <;> first | exact ⟨_, rfl⟩ | cases hh
    obtain ⟨v, ids, plain, s1, v1, cfg, hv, hp⟩ := holder_oath h ha hh
    obtain ⟨-, -, h1, h2, -⟩ := payOath_frame hp
    exact ⟨h1, h2⟩
  · cases op with
    | createAccount a' oath r t c =>
      obtain ⟨s0, rid, extra, s1, v, s2, w, acc, refs, -, hn, hc, rfl, hv, hd, hr, rfl, -⟩ := createAccount_ok h
      obtain ⟨_, _, _, -, -, -, h1, h2, -⟩ := depositTokens_ok hd
      have : s0.oathSupply = s.oathSupply := by
        rcases claimCode_ok hc with ⟨-, -, -, rfl⟩ | ⟨_, g, r', -, -, -, rfl⟩ <;> rfl
      refine ⟨h1, ?_⟩
      simp only [this] at h2
      exact h2
    | addCollateral oath a' t =>
      obtain ⟨v, s1, w, acc, refs, -, hv, -, hd, hr, rfl, -⟩ := opAddCollateral_ok h
      obtain ⟨_, _, _, -, -, -, h1, h2, -⟩ := depositTokens_ok hd
      exact ⟨h1, h2⟩
    | _ => first | exact absurd rfl hh | (simp only [Op.oath, oathAmt, Option.elim_none]; exact ⟨le_refl _, le_max_right _ _⟩)

/-- The maximum lock is only set by the fee delegator's owner. -/
theorem body_maxLock {env : Env} {cl : Caller} {s s' : State} {op : Op} {o : Out}
    (h : body env cl s op = Except.ok (s', o)) :
    s'.delegator.maxLock = s.delegator.maxLock ∨ ∃ x, op = .delegatorMaxLock x ∧ s'.delegator.maxLock = x := by
  cases ho : op.account with
  | none => exact (body_no_account h ho).2.2.2.2
  | some a =>
    rcases body_account h ho with ⟨lr, hx, -⟩ | ⟨g, rule, rid, -, -, hx⟩ <;> (cases hx; exact Or.inl rfl)

/-! ## C41 -/

/-- **C41 (bounded).** No call other than `lock_fee` increases the supply of outstanding fee oaths; that one
increases it by exactly the oath it returns, takes the payment from the delegator's vault and credits the delegator's
claim on the pool by the same amount, and leaves the supply at or below the maximum lock. -/
theorem c41_bounded {env : Env} {cl : Caller} {s s' : State} {op : Op} {o : Out}
    (h : step env cl s op = Except.ok (s', o)) (hi : s.oathSupply < s'.oathSupply) :
    s'.oathSupply ≤ s'.delegator.maxLock ∧ ∃ amount x, op = .lockFee amount ∧ o.buckets = [⟨FEE_OATH, x⟩] ∧
      s'.oathSupply = s.oathSupply + x ∧ s'.delegator.vb = s.delegator.vb + x ∧
      s'.delegator.vault = s.delegator.vault - amount := by
  have e := body_oaths (step_body h)
  have hn := (body_oath_nonneg (step_body h)).1
  cases op with
  | lockFee amount =>
    obtain ⟨v, hv, -, -, -, hle, rfl, rfl⟩ := lockFee_ok (step_body h)
    exact ⟨hle, amount, v, rfl, rfl, rfl, rfl, rfl⟩
  | _ => simp only [Op.oathMinted] at e; omega

/-- The oaths are never negative, and never more than the maximum lock unless the fee delegator's owner has lowered
that maximum within the running transaction. -/
theorem c41_supply_nonneg {env : Env} {s : State} (h : Reach env s) : 0 ≤ s.oathSupply := by
  refine Reach.induct (P := fun s => 0 ≤ s.oathSupply) (env := env) (fun s g => by rw [g.oath]) ?_ h
  intro s s' cl op o hs hb
  have e := body_oaths hb
  have hn := body_oath_nonneg hb
  cases op with
  | lockFee amount =>
    obtain ⟨v, hv, -, -, h0, -, rfl, -⟩ := lockFee_ok hb
    show 0 ≤ s.oathSupply + v
    omega
  | _ =>
    simp only [Op.oathMinted] at e
    have : max s.oathSupply 0 = s.oathSupply := max_eq_left hs
    omega

/-- A history in which the maximum lock is never set below the outstanding supply. -/
inductive ReachLock (env : Env) : State → Prop where
  | init {s : State} : Genesis s → ReachLock env s
  | step {s s' : State} {cl : Caller} {op : Op} {o : Out} : ReachLock env s →
      step env cl s op = Except.ok (s', o) → (∀ x, op = .delegatorMaxLock x → s.oathSupply ≤ x) → ReachLock env s'

/-- **C41 (bounded, all histories).** The outstanding supply never exceeds the maximum lock, provided the maximum is
never lowered below the supply outstanding in the middle of a transaction. -/
theorem c41_within_max_lock {env : Env} {s : State} (h : ReachLock env s) : s.oathSupply ≤ s.delegator.maxLock := by
  have hreach : ∀ {s}, ReachLock env s → Reach env s := by
    intro s h
    induction h with
    | init g => exact .init g
    | step _ hs _ ih => exact .step ih hs
  induction h with
  | init g => rw [g.oath, g.delegator]; decide
  | @step s s' cl op o hr hs hx ih =>
    by_cases hi : s.oathSupply < s'.oathSupply
    · exact (c41_bounded hs hi).1
    · rcases body_maxLock (step_body hs) with e | ⟨x, e1, e2⟩
      · rw [e]; omega
      · have := hx x e1
        omega

/-- **C41 (charged in full).** A call that carries a fee oath burns all of it, debits its whole amount from the account
the call names (on top of whatever the call deposits), and afterwards the account meets its initial margin. -/
theorem c41_charged {env : Env} {cl : Caller} {s s' : State} {op : Op} {o : Out} {a : Addr} {b : Bucket}
    {acc : Account} (hr : Reach env s) (h : step env cl s op = Except.ok (s', o)) (ho : op.oath = some b)
    (ha : op.account = some a) (hg : s.accounts.get a = some acc) :
    b.res = FEE_OATH ∧ 0 ≤ b.amt ∧ s'.oathSupply = s.oathSupply - b.amt ∧
    ∃ acc', s'.accounts.get a = some acc' ∧ s'.initialMargin acc' ≤ s'.accountValue acc' ∧
      acc'.vb = acc.vb - b.amt + match op with
        | .addCollateral _ _ tokens => totalOf tokens BASE
        | _ => 0 := by
  have hb := step_body h
  have hamt : oathAmt op.oath = b.amt := by rw [ho]; rfl
  have hs := body_oaths hb
  have mint : op.oathMinted env s = 0 := by cases op <;> first | rfl | cases ho
  rw [mint, hamt, add_zero] at hs
  have hnn := (body_oath_nonneg hb).1
  rw [hamt] at hnn
  by_cases hh : op.holder = true
  · obtain ⟨v, ids, plain, s1, v1, cfg, hv, hp⟩ := holder_oath hb ha hh
    obtain ⟨acc', he⟩ := holder_effect hb ha hh hg
    rw [hamt] at he
    rcases payOath_ok hp with ⟨b', c, pool, hb', hl, hres, -, hv1, hint, -, -⟩ | ⟨hn, -⟩
    · rw [ho] at hb'; cases hb'
      refine ⟨hres, hnn, hs, acc', he.account, ?_, ?_⟩
      · have hv' := hv
        obtain ⟨acc0, rd, hg', hrd, hv0⟩ := load_ok hv
        rw [hg] at hg'; cases hg'
        have hreb : v1.rebate = v.rebate := by unfold VAccount.rebate; rw [hv1]
        refine oath_margin hl hint rfl he.config he.oracle he.now (by rw [he.pool]) ?_ ?_ ?_ ?_
        · rw [he.positions, hv1, hv0]
        · rw [he.balances, hv1, hv0]
        · rw [he.vb, hv1, hv0]
        · rw [hreb]; exact load_rebate hv' hg he.ref he.refs
      · rw [he.vb]
        cases op <;> first | (simp only; omega) | cases hh
    · rw [ho] at hn; cases hn
  · cases op with
    | createAccount a' oath r t c =>
      cases ha
      obtain ⟨s0, rid, extra, s1, v, s2, w, acc, refs, -, hn, -⟩ := createAccount_ok hb
      rw [hg] at hn; cases hn
    | addCollateral oath a' t =>
      cases ha; cases ho
      obtain ⟨v, s1, w, acc', refs, hok, hv, -, hd, hre, he, -⟩ := opAddCollateral_ok hb
      obtain ⟨h1, h2, h3, h4⟩ := deposit_oath hv hg hd hre he (reach_collOk hr a acc hg) (okBucket_valid hok)
      obtain ⟨h5, h6⟩ := h4 b rfl
      refine ⟨h5, hnn, hs, acc', h1, h6, ?_⟩
      rw [h3]; simp only [oathAmt, Option.elim_some]; omega
    | _ => first | exact absurd rfl hh | cases ho

/-- **C41 (new accounts).** The same for an account created with a fee oath. -/
theorem c41_charged_new {env : Env} {cl : Caller} {s s' : State} {o : Out} {a : Addr} {b : Bucket} {rule : Rule}
    {tokens : List Bucket} {code : Option Nat}
    (h : step env cl s (.createAccount a (some b) rule tokens code) = Except.ok (s', o)) :
    b.res = FEE_OATH ∧ 0 ≤ b.amt ∧ s'.oathSupply = s.oathSupply - b.amt ∧
    ∃ acc' extra, s'.accounts.get a = some acc' ∧ s'.initialMargin acc' ≤ s'.accountValue acc' ∧
      acc'.vb = totalOf (tokens ++ extra) BASE - b.amt := by
  have hb := step_body h
  have hs := body_oaths hb
  have hnn := (body_oath_nonneg hb).1
  obtain ⟨s0, rid, extra, s1, v, s2, w, acc', refs, hok, hn, hc, hs1, hv, hd, hre, he, -⟩ := createAccount_ok hb
  have hg : s1.accounts.get a = some (Account.fresh rule rid) := by rw [hs1]; simp
  have hci : CollInv env (Account.fresh rule rid).collPart :=
    ⟨rfl, fun r => rfl, fun r x hx => by simp [Account.collPart, Account.fresh] at hx,
      fun r x hx => by simp [Account.collPart, Account.fresh] at hx⟩
  obtain ⟨h1, h2, h3, h4⟩ := deposit_oath hv hg hd hre he hci (fun b hx => by
    rcases List.mem_append.mp hx with hx | hx
    · exact okBucket_valid hok b hx
    · exact claimCode_valid hc b hx)
  obtain ⟨h5, h6⟩ := h4 b rfl
  refine ⟨h5, hnn, ?_, acc', extra, h1, h6, ?_⟩
  · rw [hs]; simp [Op.oathMinted, Op.oath, oathAmt]
  · rw [h3]; simp [Account.fresh, oathAmt]

/-- **C41 (settled).** Between transactions no fee oath is outstanding. -/
theorem c41_none_outstanding {env : Env} {s : State} (h : ReachTx env s) : s.oathSupply = 0 := h.reach.2

namespace Scn

/-- The state in which 10 XRD have been deposited with the fee delegator and 4 of them locked for a fee oath. -/
def oathed : State := after open_ [.delegatorDeposit (d 10), .lockFee (d 4)]

theorem oathed_reach : Reach env oathed := after_reach open_reach _

example : oathed.oathSupply = d 3 1 ∧ oathed.delegator.vault = d 6 ∧ oathed.delegator.vb = d 3 1 := by decide +kernel

/-- C41: the oath is spent on a call of account 100, which is debited. -/
example : ∃ s' o, step env anyone oathed (.cancelRequests (some ⟨FEE_OATH, d 3 1⟩) 100 [1]) = Except.ok (s', o) ∧
    s'.oathSupply = 0 := stepped (by decide +kernel)

/-- C41: … and a second lock beyond the maximum of 3 is refused. -/
example : ¬ ∃ s' o, step env anyone (after oathed [.delegatorDeposit (d 90)]) (.lockFee (d 40)) = Except.ok (s', o) := by
  have : (step env anyone (after oathed [.delegatorDeposit (d 90)]) (.lockFee (d 40))).isOk = false := by decide +kernel
  rintro ⟨s', o, e⟩
  rw [e] at this
  cases this

end Scn

end Perp
