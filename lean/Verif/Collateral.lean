import Verif.Valuation
import Verif.PriceProps

/-!
# C25: recorded collateral is what the vaults hold
-/

namespace Perp

/-- The collateral-related part of a loaded account. -/
def VAccount.collPart (v : VAccount) : AMap Res Dec × AMap Res Dec × AMap Res Dec :=
  (v.collateralBalances, v.comp.collateralBalances, v.comp.collateral)

theorem Touches.collPart {p : PairId} {w w' : W} (h : Touches p w w') : w'.acc.collPart = w.acc.collPart := by
  rw [h.acc]; rfl

theorem ReqOnly.collPart {a b : VAccount} (h : ReqOnly a b) : b.collPart = a.collPart := by
  unfold ReqOnly at h; rw [h]; rfl

theorem settleAccount_collPart {w w' : W} {x : Dec} (h : settleAccount w x = Except.ok w') :
    w'.acc.collPart = w.acc.collPart := by
  rw [settleAccount_ok h]; rfl

theorem claims_collPart {env : Env} {l : List (Res × Dec)} {t t' : W × List Bucket × List (Res × Dec)}
    (h : l.foldlM (claimOne env) t = Except.ok t') : t'.1.acc.collPart = t.1.acc.collPart := by
  refine foldlM_rel (P := fun a b : W × List Bucket × List (Res × Dec) => b.1.acc.collPart = a.1.acc.collPart)
    (fun _ => rfl) (fun a b c h1 h2 => h2.trans h1) ?_ _ h
  intro t e t' h
  rcases claimOne_ok h with ⟨-, -, -, pool, x, w, hp, hw, rfl⟩ | ⟨-, -, rfl⟩
  · have e := settleAccount_collPart hw; exact e
  · rfl

theorem addBases_collPart {l : List Bucket} {w w' : W} (h : l.foldlM addBase w = Except.ok w') :
    w'.acc.collPart = w.acc.collPart := by
  refine foldlM_rel (P := fun a b : W => b.acc.collPart = a.acc.collPart)
    (fun _ => rfl) (fun a b c h1 h2 => h2.trans h1) ?_ _ h
  intro w b w' h
  simp only [addBase, bind_ok] at h
  obtain ⟨pool, -, hs⟩ := h
  have e := settleAccount_collPart hs; exact e

theorem marginOrder_collPart {c : Ctx} {w w' : W} {r : MarginOrderReq} {e : MarginOrderEv}
    (h : marginOrder c w r = Except.ok (w', e)) : w'.acc.collPart = w.acc.collPart := by
  obtain ⟨w3, a1, a2, ht, h1, h2, rfl⟩ := marginOrder_touches h
  exact ((trySetStatus_reqOnly h2).collPart.trans (trySetStatus_reqOnly h1).collPart).trans ht.collPart

/-- Deposits and withdrawals in terms of the collateral part. -/
structure CollPut (a b : AMap Res Dec × AMap Res Dec × AMap Res Dec) (bs : List Bucket) : Prop where
  virt : balanceAddBatch a.1 bs = Except.ok b.1
  comp : balanceAddBatch a.2.1 bs = Except.ok b.2.1
  vault : vaultPutBatch a.2.2 bs = Except.ok b.2.2

structure CollTake (env : Env) (a b : AMap Res Dec × AMap Res Dec × AMap Res Dec) (claims : List (Res × Dec))
    (bs : List Bucket) : Prop where
  virt : balanceSubBatch a.1 bs = Except.ok b.1
  comp : balanceSubBatch a.2.1 bs = Except.ok b.2.1
  vault : vaultTakeBatch env .toZero a.2.2 claims = Except.ok (b.2.2, bs)

theorem depositCollateral_put {v v' : VAccount} {bs : List Bucket}
    (h : v.depositCollateral bs = Except.ok v') : CollPut v.collPart v'.collPart bs := by
  simp only [VAccount.depositCollateral, bind_ok, pure_ok] at h
  obtain ⟨_, h1, _, h2, _, h3, rfl⟩ := h
  exact ⟨h1, h2, h3⟩

theorem withdrawCollateral_take {env : Env} {v v' : VAccount} {cs : List (Res × Dec)} {bs : List Bucket}
    (h : v.withdrawCollateral env cs .toZero = Except.ok (v', bs)) : CollTake env v.collPart v'.collPart cs bs := by
  simp only [VAccount.withdrawCollateral, bind_ok, pure_ok, Prod.mk.injEq] at h
  obtain ⟨⟨_, _⟩, h1, _, h2, _, h3, rfl, rfl⟩ := h
  exact ⟨h3, h2, h1⟩

/-! ## The invariant -/

/-- The recorded balances, the buffered ones and the vaults agree; amounts are valid token amounts. -/
structure CollInv (env : Env) (a : AMap Res Dec × AMap Res Dec × AMap Res Dec) : Prop where
  same : a.1 = a.2.1
  vault : ∀ r, (a.2.1.get r).getD 0 = (a.2.2.get r).getD 0
  nonneg : ∀ r x, a.2.1.get r = some x → 0 ≤ x
  whole : ∀ r x, a.2.1.get r = some x → x % (env.gran r : Int) = 0

theorem balanceAdd_get {m m' : AMap Res Dec} {b : Bucket} (h : balanceAdd m b = Except.ok m') (r : Res) :
    m'.get r = if b.res = r then some ((m.get r).getD 0 + b.amt) else m.get r := by
  unfold balanceAdd at h
  split at h
  · rename_i x hx
    simp only [bind_ok, pure_ok, dadd_ok] at h
    obtain ⟨_, ⟨-, rfl⟩, rfl⟩ := h
    rw [AMap.get_set]; split
    · rename_i e; subst e; simp [hx]
    · rfl
  · rename_i hx
    simp only [pure_ok] at h
    subst h
    rw [AMap.get_set]; split
    · rename_i e; subst e; simp [hx]
    · rfl

theorem vaultPut_get {m m' : AMap Res Dec} {b : Bucket} (h : vaultPut m b = Except.ok m') (r : Res) :
    (m'.get r).getD 0 = if b.res = r then (m.get r).getD 0 + b.amt else (m.get r).getD 0 := by
  unfold vaultPut at h
  simp only [bind_ok, pure_ok, dadd_ok, AMap.getD, require_ok] at h
  obtain ⟨-, -, _, ⟨-, rfl⟩, rfl⟩ := h
  rw [AMap.get_set]
  split
  · rename_i e; subst e; simp
  · rfl

theorem balanceSub_get {m m' : AMap Res Dec} {b : Bucket} (h : balanceSub m b = Except.ok m') :
    ∃ x, m.get b.res = some x ∧ ∀ r, m'.get r = if b.res = r then (if x - b.amt = 0 then none else some (x - b.amt))
      else m.get r := by
  unfold balanceSub at h
  simp only [bind_ok, pure_ok, dsub_ok, expect_ok] at h
  obtain ⟨x, hx, _, ⟨-, rfl⟩, rfl⟩ := h
  refine ⟨x, hx, fun r => ?_⟩
  by_cases h0 : x - b.amt = 0
  · simp only [h0, if_true, AMap.get_erase]
  · simp only [h0, if_false, AMap.get_set]

theorem vaultTake_get {env : Env} {st : Strategy} {m m' : AMap Res Dec} {c : Res × Dec} {b : Bucket}
    (h : vaultTake env st m c = Except.ok (m', b)) :
    b.res = c.1 ∧ amountFor (env.gran c.1) c.2 st = b.amt ∧ 0 ≤ b.amt ∧ b.amt % (env.gran c.1 : Int) = 0 ∧
      b.amt ≤ (m.get c.1).getD 0 ∧
      ∀ r, (m'.get r).getD 0 = if c.1 = r then (m.get r).getD 0 - b.amt else (m.get r).getD 0 := by
  unfold vaultTake at h
  simp only [bind_ok, pure_ok, takeAmount_ok, Prod.mk.injEq, AMap.getD] at h
  obtain ⟨y, ⟨h1, h2, h3, h4⟩, rfl, rfl⟩ := h
  refine ⟨rfl, h1, h2, h3, h4, fun r => ?_⟩
  rw [AMap.get_set]
  split
  · rename_i e; subst e; simp
  · rfl

theorem CollPut.inv {env : Env} {bs : List Bucket} :
    ∀ {a b : AMap Res Dec × AMap Res Dec × AMap Res Dec}, CollPut a b bs →
    (∀ x ∈ bs, 0 ≤ x.amt ∧ x.amt % (env.gran x.res : Int) = 0) → CollInv env a → CollInv env b := by
  induction bs with
  | nil =>
    rintro ⟨a1, a2, a3⟩ ⟨b1, b2, b3⟩ ⟨h1, h2, h3⟩ _ hi
    simp only [balanceAddBatch, vaultPutBatch, List.foldlM_nil, pure_ok] at h1 h2 h3
    subst h1 h2 h3
    exact hi
  | cons x bs ih =>
    rintro ⟨a1, a2, a3⟩ ⟨b1, b2, b3⟩ ⟨h1, h2, h3⟩ hx hi
    simp only [balanceAddBatch, vaultPutBatch, List.foldlM_cons, bind_ok] at h1 h2 h3
    obtain ⟨c1, h1, h1'⟩ := h1
    obtain ⟨c2, h2, h2'⟩ := h2
    obtain ⟨c3, h3, h3'⟩ := h3
    obtain ⟨e1, e2, e3, e4⟩ := hi
    simp only at e1 e2 e3 e4
    subst e1
    rw [h1] at h2
    cases h2
    obtain ⟨hx0, hxg⟩ := hx x (List.mem_cons_self ..)
    refine ih (a := (c1, c1, c3)) ⟨h1', h2', h3'⟩ (fun y hy => hx y (List.mem_cons_of_mem _ hy)) ⟨rfl, ?_, ?_, ?_⟩
    · intro r
      rw [vaultPut_get h3, balanceAdd_get h1]
      split
      · simp [e2]
      · exact e2 r
    · intro r y hy
      simp only [balanceAdd_get h1] at hy
      split at hy
      · cases hy
        cases hg : a1.get r with
        | none => simpa using hx0
        | some z => have := e3 r z hg; simp only [Option.getD_some]; omega
      · exact e3 r y hy
    · intro r y hy
      simp only [balanceAdd_get h1] at hy
      split at hy
      · rename_i he; subst he
        cases hy
        cases hg : a1.get x.res with
        | none => simpa using hxg
        | some z =>
          have := e4 x.res z hg
          simp only [Option.getD_some]
          rw [Int.add_emod, this, hxg]; simp
      · exact e4 r y hy

theorem CollTake.inv {env : Env} {cs : List (Res × Dec)} :
    ∀ {bs : List Bucket} {a b : AMap Res Dec × AMap Res Dec × AMap Res Dec}, CollTake env a b cs bs →
    CollInv env a → CollInv env b := by
  induction cs with
  | nil =>
    rintro bs ⟨a1, a2, a3⟩ ⟨b1, b2, b3⟩ ⟨h1, h2, h3⟩ hi
    simp only [vaultTakeBatch, Except.ok.injEq, Prod.mk.injEq] at h3
    obtain ⟨rfl, rfl⟩ := h3
    simp only [balanceSubBatch, List.foldlM_nil, pure_ok] at h1 h2
    subst h1 h2
    exact hi
  | cons c cs ih =>
    rintro bs ⟨a1, a2, a3⟩ ⟨b1, b2, b3⟩ ⟨h1, h2, h3⟩ hi
    simp only [vaultTakeBatch, bind_ok, pure_ok, Prod.mk.injEq] at h3
    obtain ⟨⟨c3, x⟩, hv, ⟨d3, bs'⟩, hv', rfl, rfl⟩ := h3
    simp only [balanceSubBatch, List.foldlM_cons, bind_ok] at h1 h2
    obtain ⟨c1, h1, h1'⟩ := h1
    obtain ⟨c2, h2, h2'⟩ := h2
    obtain ⟨e1, e2, e3, e4⟩ := hi
    simp only at e1 e2 e3 e4
    subst e1
    rw [h1] at h2
    cases h2
    obtain ⟨hr, -, h0, hg, hle, hgv⟩ := vaultTake_get hv
    obtain ⟨y, hy, hgb⟩ := balanceSub_get h1
    rw [hr] at hy
    have hyv := e2 c.1
    rw [hy] at hyv
    simp only [Option.getD_some] at hyv
    refine ih (a := (c1, c1, c3)) ⟨h1', h2', hv'⟩ ⟨rfl, ?_, ?_, ?_⟩
    · intro r
      rw [hgv, hgb, hr]
      split
      · rename_i he; subst he
        split
        · simp only [Option.getD_none]; omega
        · simp only [Option.getD_some]; omega
      · exact e2 r
    · intro r z hz
      simp only [hgb, hr] at hz
      split at hz
      · split at hz
        · cases hz
        · cases hz; omega
      · exact e3 r z hz
    · intro r z hz
      simp only [hgb, hr] at hz
      split at hz
      · rename_i he; subst he
        split at hz
        · cases hz
        · cases hz
          rw [Int.sub_emod, hg, e4 _ _ hy]; simp
      · exact e4 r z hz

/-! ## Calls made by the account holder -/

/-- The fee oath attached to a call. -/
def Op.oath : Op → Option Bucket
  | .createAccount _ o _ _ _ | .createRecoveryKey o _ | .addAuthRule o _ _ _ | .setLevelAuth o _ _ _
  | .addCollateral o _ _ | .removeCollateralRequest o _ _ _ _ | .marginOrderRequest o _ _ _ _ _
  | .marginOrderTpSlRequest o _ _ _ _ | .cancelRequests o _ _ => o
  | _ => none

/-- Calls that only change the rules or the requests of an account (and charge a fee oath). -/
def Op.holder : Op → Bool
  | .createRecoveryKey .. | .addAuthRule .. | .setLevelAuth .. | .removeCollateralRequest ..
  | .marginOrderRequest .. | .marginOrderTpSlRequest .. | .cancelRequests .. => true
  | _ => false

/-- A loaded account that still holds what was stored, up to its virtual balance, rules and requests. -/
structure Holds (a : Addr) (acc : Account) (vb : Dec) (v : VAccount) : Prop where
  addr : v.addr = a
  positions : v.comp.positions = acc.positions
  untouched : v.positionsUpdated = []
  vb : v.vb = vb
  coll : v.comp.collateral = acc.collateral
  balances : v.comp.collateralBalances = acc.collateralBalances
  ref : v.comp.referralId = acc.referralId
  refs : v.referralRewarded = false

theorem holds_load {s : State} {a : Addr} {v : VAccount} {acc : Account} (h : s.load a = Except.ok v)
    (ha : s.accounts.get a = some acc) : Holds a acc acc.vb v := by
  obtain ⟨acc', rd, hg, -, rfl⟩ := load_ok h
  rw [ha] at hg; cases hg
  exact ⟨rfl, rfl, rfl, rfl, rfl, rfl, rfl, rfl⟩

theorem Holds.req {a : Addr} {acc : Account} {vb : Dec} {v v' : VAccount} (h : Holds a acc vb v) (hr : ReqOnly v v') :
    Holds a acc vb v' := by
  unfold ReqOnly at hr
  obtain ⟨h1, h2, h3, h4, h5, h6, h7, h8⟩ := h
  rw [hr]
  exact ⟨h1, h2, h3, h4, h5, h6, h7, h8⟩

theorem Holds.exit {a : Addr} {acc : Account} {vb : Dec} {v v' : VAccount} {now : Int} {o : OrderArgs}
    {l : Option PriceLimit} {cancel : List Nat} (h0 : Holds a acc vb v) (h : pushExit v now o l cancel = Except.ok v') :
    Holds a acc vb v' := by
  unfold pushExit at h
  cases l with
  | none => simp only [pure_ok] at h; rw [← h]; exact h0
  | some l =>
    simp only [bind_ok] at h
    obtain ⟨_, -, h⟩ := h
    exact h0.req (pushRequest_reqOnly h)

theorem Holds.auth {a : Addr} {acc : Account} {vb : Dec} {v : VAccount} (h : Holds a acc vb v)
    (perms : AMap Rule Permissions) (l : Level) (r : Rule) : Holds a acc vb (setAuth perms v l r).2 := by
  obtain ⟨h1, h2, h3, h4, h5, h6, h7, h8⟩ := h
  cases l <;> exact ⟨h1, h2, h3, h4, h5, h6, h7, h8⟩

/-- What such a call leaves in place. -/
structure HolderEffect (s s' : State) (a : Addr) (acc acc' : Account) (fee : Dec) : Prop where
  account : s'.accounts.get a = some acc'
  positions : acc'.positions = acc.positions
  vb : acc'.vb = acc.vb - fee
  coll : acc'.collateral = acc.collateral
  balances : acc'.collateralBalances = acc.collateralBalances
  ref : acc'.referralId = acc.referralId
  pool : s'.pool = s.pool
  dist : s'.dist = s.dist
  refs : s'.referrals = s.referrals
  oaths : s'.oathSupply = s.oathSupply - fee
  config : s'.config = s.config
  oracle : s'.oracle = s.oracle
  now : s'.now = s.now

theorem holder_realize {s s1 s' : State} {a : Addr} {acc acc' : Account} {v : VAccount} {refs : AMap RefId ReferralData}
    {fee : Dec} (h : Holds a acc (acc.vb - fee) v) (hs1 : s1 = s.burnt fee) (hr : Realizes s1 v acc' refs)
    (he : s'.accounts = s1.accounts.set v.addr acc') (h1 : s'.pool = s1.pool) (h2 : s'.dist = s1.dist)
    (h3 : s'.referrals = refs) (h4 : s'.oathSupply = s1.oathSupply) (h5 : s'.config = s1.config)
    (h6 : s'.oracle = s1.oracle) (h7 : s'.now = s1.now) : HolderEffect s s' a acc acc' fee := by
  obtain ⟨g1, g2, g3, g4, g5, g6, g7, g8⟩ := h
  obtain ⟨hr1, hr2⟩ := hr
  obtain ⟨rq, -, hacc⟩ := realize_ok hr1
  simp only [VAccount.realizeReferral, g8, Bool.false_eq_true, if_false, pure_ok] at hr2
  subst hs1
  have hreal : v.realPositions = v.comp.positions := by
    unfold VAccount.realPositions
    rw [g3]
    generalize v.positions.entries = l
    generalize v.comp.positions = m
    induction l with
    | nil => rfl
    | cons e l ih => simp
  refine ⟨by rw [he, g1, AMap.get_set_self], ?_, ?_, ?_, ?_, ?_, h1, h2, by rw [h3, ← hr2]; rfl, h4, h5, h6, h7⟩
  · rw [hacc]; exact hreal.trans g2
  · rw [hacc]; exact g4
  · rw [hacc]; exact g5
  · rw [hacc]; exact g6
  · rw [hacc]; exact g7

/-- Calls of the account holder change neither positions nor collateral nor the pool; they charge the fee oath. -/
theorem holder_effect {env : Env} {cl : Caller} {s s' : State} {op : Op} {o : Out} {a : Addr} {acc : Account}
    (h : body env cl s op = Except.ok (s', o)) (hop : op.account = some a) (hh : op.holder = true)
    (ha : s.accounts.get a = some acc) :
    ∃ acc', HolderEffect s s' a acc acc' (oathAmt op.oath) := by
  cases op with
  | createRecoveryKey oath a' =>
    cases hop
    obtain ⟨v, s1, v1, cfg, hv, -, hp, r, x, rfl, rfl, acc', refs, hr, he, -⟩ := createRecoveryKey_ok h
    obtain ⟨hs1, rfl, -, -, -⟩ := payOath_frame hp
    have h0 : Holds a acc (acc.vb - oathAmt oath) { v with vb := v.vb - oathAmt oath } := by
      obtain ⟨h1, h2, h3, h4, h5, h6, h7, h8⟩ := holds_load hv ha
      exact ⟨h1, h2, h3, by rw [← h4], h5, h6, h7, h8⟩
    exact ⟨acc', holder_realize (h0.auth s1.perms _ _) hs1 hr (by rw [he]; rfl) (by rw [he]; rfl) (by rw [he]; rfl)
      (by rw [he]; rfl) (by rw [he]; rfl) (by rw [he]; rfl) (by rw [he]; rfl) (by rw [he]; rfl)⟩
  | addAuthRule oath a' l n =>
    cases hop
    obtain ⟨v, s1, v1, cfg, l', hv, -, hp, -, r, x, rfl, rfl, acc', refs, hr, he, -⟩ := addAuthRule_ok h
    obtain ⟨hs1, rfl, -, -, -⟩ := payOath_frame hp
    have h0 : Holds a acc (acc.vb - oathAmt oath) { v with vb := v.vb - oathAmt oath } := by
      obtain ⟨h1, h2, h3, h4, h5, h6, h7, h8⟩ := holds_load hv ha
      exact ⟨h1, h2, h3, by rw [← h4], h5, h6, h7, h8⟩
    exact ⟨acc', holder_realize (h0.auth s1.perms _ _) hs1 hr (by rw [he]; rfl) (by rw [he]; rfl) (by rw [he]; rfl)
      (by rw [he]; rfl) (by rw [he]; rfl) (by rw [he]; rfl) (by rw [he]; rfl) (by rw [he]; rfl)⟩
  | setLevelAuth oath a' l r =>
    cases hop
    obtain ⟨v, s1, v1, cfg, hv, -, hp, x, rfl, acc', refs, hr, he, -⟩ := setLevelAuth_ok h
    obtain ⟨hs1, rfl, -, -, -⟩ := payOath_frame hp
    have h0 : Holds a acc (acc.vb - oathAmt oath) { v with vb := v.vb - oathAmt oath } := by
      obtain ⟨h1, h2, h3, h4, h5, h6, h7, h8⟩ := holds_load hv ha
      exact ⟨h1, h2, h3, by rw [← h4], h5, h6, h7, h8⟩
    exact ⟨acc', holder_realize (h0.auth s1.perms _ _) hs1 hr (by rw [he]; rfl) (by rw [he]; rfl) (by rw [he]; rfl)
      (by rw [he]; rfl) (by rw [he]; rfl) (by rw [he]; rfl) (by rw [he]; rfl) (by rw [he]; rfl)⟩
  | removeCollateralRequest oath e a' t c =>
    cases hop
    obtain ⟨v, s1, v1, cfg, v2, acc', refs, hv, -, hp, hpush, -, hr, he, -⟩ := removeCollateralRequest_ok h
    obtain ⟨hs1, rfl, -, -, -⟩ := payOath_frame hp
    have h0 : Holds a acc (acc.vb - oathAmt oath) { v with vb := v.vb - oathAmt oath } := by
      obtain ⟨h1, h2, h3, h4, h5, h6, h7, h8⟩ := holds_load hv ha
      exact ⟨h1, h2, h3, by rw [← h4], h5, h6, h7, h8⟩
    exact ⟨acc', holder_realize (h0.req (pushRequest_reqOnly hpush)) hs1 hr (by rw [he]; rfl) (by rw [he]; rfl)
      (by rw [he]; rfl) (by rw [he]; rfl) (by rw [he]; rfl) (by rw [he]; rfl) (by rw [he]; rfl) (by rw [he]; rfl)⟩
  | marginOrderRequest oath a' args act can st =>
    cases hop
    obtain ⟨v, s1, v1, cfg, _, _, v2, acc', refs, hv, -, hp, -, -, hpush, -, hr, he, -⟩ :=
      marginOrderRequest_ok h
    obtain ⟨hs1, rfl, -, -, -⟩ := payOath_frame hp
    have h0 : Holds a acc (acc.vb - oathAmt oath) { v with vb := v.vb - oathAmt oath } := by
      obtain ⟨h1, h2, h3, h4, h5, h6, h7, h8⟩ := holds_load hv ha
      exact ⟨h1, h2, h3, by rw [← h4], h5, h6, h7, h8⟩
    exact ⟨acc', holder_realize (h0.req (pushRequest_reqOnly hpush)) hs1 hr (by rw [he]; rfl) (by rw [he]; rfl)
      (by rw [he]; rfl) (by rw [he]; rfl) (by rw [he]; rfl) (by rw [he]; rfl) (by rw [he]; rfl) (by rw [he]; rfl)⟩
  | marginOrderTpSlRequest oath a' args tp sl =>
    cases hop
    obtain ⟨v, s1, v1, cfg, v2, v3, v4, acc', refs, iTp, iSl, hv, -, hp, -, -, h2, h3, h4, -, hr, he, -⟩ :=
      marginOrderTpSlRequest_ok h
    obtain ⟨hs1, rfl, -, -, -⟩ := payOath_frame hp
    have h0 : Holds a acc (acc.vb - oathAmt oath) { v with vb := v.vb - oathAmt oath } := by
      obtain ⟨h1, h2, h3, h4, h5, h6, h7, h8⟩ := holds_load hv ha
      exact ⟨h1, h2, h3, by rw [← h4], h5, h6, h7, h8⟩
    exact ⟨acc', holder_realize (((h0.req (pushRequest_reqOnly h2)).exit h3).exit h4) hs1 hr (by rw [he]; rfl)
      (by rw [he]; rfl) (by rw [he]; rfl) (by rw [he]; rfl) (by rw [he]; rfl) (by rw [he]; rfl) (by rw [he]; rfl)
      (by rw [he]; rfl)⟩
  | cancelRequests oath a' is =>
    cases hop
    obtain ⟨v, s1, v1, cfg, v2, acc', refs, hv, -, hp, h2, hr, he, -⟩ := opCancelRequests_ok h
    obtain ⟨hs1, rfl, -, -, -⟩ := payOath_frame hp
    have h0 : Holds a acc (acc.vb - oathAmt oath) { v with vb := v.vb - oathAmt oath } := by
      obtain ⟨h1, h2, h3, h4, h5, h6, h7, h8⟩ := holds_load hv ha
      exact ⟨h1, h2, h3, by rw [← h4], h5, h6, h7, h8⟩
    exact ⟨acc', holder_realize (h0.req (cancelRequests_reqOnly h2)) hs1 hr (by rw [he]; rfl) (by rw [he]; rfl)
      (by rw [he]; rfl) (by rw [he]; rfl) (by rw [he]; rfl) (by rw [he]; rfl) (by rw [he]; rfl) (by rw [he]; rfl)⟩
  | _ => cases hh

/-! ## Calls made by keepers -/

/-- A keeper call on account `a`: the account and the pool are loaded, worked on, and written back.  `w0` is the
working state after the request (if any) has been marked, `w` the final one. -/
structure KeeperRun (env : Env) (s s' : State) (a : Addr) (acc acc' : Account) (ids : List PairId)
    (u : Option PriceUpdate) (s1 : State) (c : Ctx) (w0 w : W) : Prop where
  before : s.accounts.get a = some acc
  load : keeperLoad env s ids u = Except.ok (s1, c, VPool.new s.pool s.now ids)
  pool0 : w0.pool = VPool.new s.pool s.now ids
  dist0 : w0.dist = s.dist
  addr0 : w0.acc.addr = a
  pos0 : w0.acc.positions = acc.positions
  upd0 : w0.acc.positionsUpdated = []
  comp0 : w0.acc.comp = acc
  vb0 : w0.acc.vb = acc.vb
  coll0 : w0.acc.collateralBalances = acc.collateralBalances
  ref0 : RefOk s.referrals w0.acc
  rid0 : w0.acc.referralId = acc.referralId
  rew0 : w0.acc.referralRewarded = false
  path : WPath c.cfg.ex w0 w 0
  real : w.acc.realize = Except.ok acc'
  after : s'.accounts.get a = some acc'
  others : ∀ b, b ≠ a → s'.accounts.get b = s.accounts.get b
  pool : s'.pool = w.pool.realize
  dist : s'.dist = w.dist
  refs : w.acc.realizeReferral s.referrals = Except.ok s'.referrals
  oracle : s'.oracle = s1.oracle
  config : s'.config = s.config
  now : s'.now = s.now
  lp : s'.lpSupply = s.lpSupply

theorem keeperRun_mk {env : Env} {s s' s1 : State} {a : Addr} {acc acc' : Account} {ids : List PairId}
    {u : Option PriceUpdate} {c : Ctx} {v v0 : VAccount} {w : W} {refs : AMap RefId ReferralData} {rw : Dec}
    (hv : s.load a = Except.ok v) (ha : s.accounts.get a = some acc) (hq : ReqOnly v v0)
    (hk : keeperLoad env s ids u = Except.ok (s1, c, VPool.new s.pool s.now ids))
    (hp : WPath c.cfg.ex { pool := VPool.new s.pool s.now ids, acc := v0, dist := s.dist } w 0)
    (hr : Realizes s w.acc acc' refs)
    (he : s' = { s1.realized w acc' refs with rewardSupply := rw }) :
    KeeperRun env s s' a acc acc' ids u s1 c { pool := VPool.new s.pool s.now ids, acc := v0, dist := s.dist } w := by
  have href := load_refOk hv
  obtain ⟨acc0, rd, hg, -, hv⟩ := load_ok hv
  rw [ha] at hg; cases hg
  obtain ⟨-, -, -, -, -, -, hs1⟩ := keeperLoad_ok hk
  have haddr : w.acc.addr = a := by
    rw [hp.frame.1]; unfold ReqOnly at hq; rw [hq, hv]
  have hacc : s'.accounts = s.accounts.set a acc' := by rw [he, hs1]; simp only [State.realized, haddr]
  unfold ReqOnly at hq
  constructor
  · exact ha
  · exact hk
  · rfl
  · rfl
  · rw [hq, hv]
  · rw [hq, hv]
  · rw [hq, hv]
  · rw [hq, hv]
  · rw [hq, hv]
  · rw [hq, hv]
  · rw [hq]; exact href
  · rw [hq, hv]
  · rw [hq, hv]
  · exact hp
  · exact hr.1
  · rw [hacc, AMap.get_set_self]
  · intro b hb; rw [hacc, AMap.get_set_ne _ _ (Ne.symm hb)]
  · rw [he]; rfl
  · rw [he]; rfl
  · rw [he]; exact hr.2
  · rw [he]; rfl
  · rw [he, hs1]; rfl
  · rw [he, hs1]; rfl
  · rw [he, hs1]; rfl

/-- An executed request. -/
theorem run_execute {env : Env} {cl : Caller} {s s' : State} {a : Addr} {i : Nat} {u : Option PriceUpdate} {o : Out}
    (h : body env cl s (.processRequest a i u) = Except.ok (s', o)) (hx : o.ev ≠ .expired) :
    ∃ acc acc' kr ids s1 c w0 w out, KeeperRun env s s' a acc acc' ids u s1 c w0 w ∧
      acc.requests[i]? = some kr ∧ (∀ q, kr.request = .marginOrder q → q.pair ∈ ids) ∧
      (∀ p, acc.positions.has p = true → p ∈ ids) ∧
      executeRequest c w0 kr.request = Except.ok (w, out) ∧ o.ev = out.ev ∧ o.paid = out.paid ∧ o.buckets = out.buckets := by
  obtain ⟨v, v1, r, expired, cfg, hv, hpr, -, -, -, h⟩ := processRequest_ok h
  obtain ⟨kr, st, -, hk, -, -, -, hv1, rfl, -⟩ := processRequest_virtual_ok hpr
  obtain ⟨acc, ha, hr⟩ := keeperRequest_load hv hk
  rcases h with ⟨-, acc', refs, -, -, ho⟩ | ⟨-, s1, c, w, out, acc', refs, hkl, hex, hr', he, ho⟩
  · rw [ho] at hx; simp at hx
  · refine ⟨acc, acc', kr, _, s1, c, _, w, out,
      keeperRun_mk hv ha (processRequest_reqOnly hpr) hkl (executeRequest_path hex) hr' he, hr, ?_, ?_, hex,
      by rw [ho], by rw [ho], by rw [ho]⟩
    · intro q hq
      rw [hq]
      simp [requestPairs, mem_insertId]
    · intro p hp
      have : p ∈ v1.positionIds := by
        obtain ⟨acc0, rd, hg, -, rfl⟩ := load_ok hv
        rw [ha] at hg; cases hg
        rw [hv1]
        simp only [VAccount.positionIds]
        rw [AMap.mem_keys]
        exact AMap.has_iff.mp hp
      unfold requestPairs
      split
      · exact mem_insertId.mpr (.inr this)
      · exact this

theorem load_stored {s : State} {a : Addr} {v : VAccount} (h : s.load a = Except.ok v) :
    ∃ acc, s.accounts.get a = some acc ∧ v.positions = acc.positions := by
  obtain ⟨acc, -, ha, -, rfl⟩ := load_ok h
  exact ⟨acc, ha, rfl⟩

theorem reqOnly_refl (v : VAccount) : ReqOnly v v := by unfold ReqOnly; rfl

theorem run_liquidate {env : Env} {cl : Caller} {s s' : State} {a : Addr} {b : Bucket} {u : Option PriceUpdate} {o : Out}
    (h : body env cl s (.liquidate a b u) = Except.ok (s', o)) :
    ∃ acc acc' ids s1 c w0 w tokens e, KeeperRun env s s' a acc acc' ids u s1 c w0 w ∧ okBucket env s b = true ∧
      ids = acc.positions.keys ∧ liquidate c w0 b = Except.ok (w, tokens, e) ∧
      o = { buckets := tokens, reward := c.cfg.ex.rewardKeeper, ev := .liquidate e } := by
  obtain ⟨v, s1, c, w, tokens, e, acc', refs, hb, hv, hk, hx, hr, -, he, ho⟩ := opLiquidate_ok h
  obtain ⟨acc, ha, hpos⟩ := load_stored hv
  refine ⟨acc, acc', _, s1, c, _, w, tokens, e, keeperRun_mk hv ha (reqOnly_refl v) hk (liquidate_path hx) hr he, hb, ?_, hx, ho⟩
  rw [← hpos]; rfl

theorem run_adl {env : Env} {cl : Caller} {s s' : State} {a : Addr} {p : PairId} {u : Option PriceUpdate} {o : Out}
    (h : body env cl s (.autoDeleverage a p u) = Except.ok (s', o)) :
    ∃ acc acc' ids s1 c w0 w e, KeeperRun env s s' a acc acc' ids u s1 c w0 w ∧
      ids = insertId acc.positions.keys p ∧ autoDeleverage c w0 p = Except.ok (w, e) ∧
      o = { reward := c.cfg.ex.rewardKeeper, ev := .adl e } := by
  obtain ⟨v, s1, c, w, e, acc', refs, hv, hk, hx, hr, -, he, ho⟩ := opAutoDeleverage_ok h
  obtain ⟨acc, ha, hpos⟩ := load_stored hv
  refine ⟨acc, acc', _, s1, c, _, w, e, keeperRun_mk hv ha (reqOnly_refl v) hk (autoDeleverage_path hx) hr he, ?_, hx, ho⟩
  rw [← hpos]; rfl

theorem run_swapDebt {env : Env} {cl : Caller} {s s' : State} {a : Addr} {r : Res} {b : Bucket} {u : Option PriceUpdate}
    {o : Out} (h : body env cl s (.swapDebt a r b u) = Except.ok (s', o)) :
    ∃ acc acc' s1 c w0 w token rest e, KeeperRun env s s' a acc acc' [] u s1 c w0 w ∧ okBucket env s b = true ∧
      swapDebt c w0 r b = Except.ok (w, token, rest, e) ∧ o = { buckets := [token, rest], ev := .swapDebt e } := by
  obtain ⟨v, s1, c, w, token, rest, e, acc', refs, hb, hv, hk, hx, hr, he, ho⟩ := opSwapDebt_ok h
  obtain ⟨acc, ha, -⟩ := load_stored hv
  exact ⟨acc, acc', s1, c, _, w, token, rest, e,
    keeperRun_mk (rw := s1.rewardSupply) hv ha (reqOnly_refl v) hk (swapDebt_path hx) hr (by rw [he]; rfl), hb, hx, ho⟩

/-! ## C25 -/

def Account.collPart (acc : Account) : AMap Res Dec × AMap Res Dec × AMap Res Dec :=
  (acc.collateralBalances, acc.collateralBalances, acc.collateral)

theorem KeeperRun.collPart0 {env : Env} {s s' : State} {a : Addr} {acc acc' : Account} {ids : List PairId}
    {u : Option PriceUpdate} {s1 : State} {c : Ctx} {w0 w : W} (h : KeeperRun env s s' a acc acc' ids u s1 c w0 w) :
    w0.acc.collPart = acc.collPart := by
  unfold VAccount.collPart Account.collPart
  rw [h.coll0, h.comp0]

theorem realize_coll {v : VAccount} {acc : Account} (h : v.realize = Except.ok acc) :
    acc.collateral = v.comp.collateral ∧ acc.collateralBalances = v.comp.collateralBalances := by
  obtain ⟨_, -, rfl⟩ := realize_ok h
  exact ⟨rfl, rfl⟩

/-- The tokens a call hands out: returned to the caller or deposited into somebody's account. -/
def Out.given (o : Out) : List Bucket := o.paid.map Prod.snd ++ o.buckets

theorem claims_base {env : Env} {l : List (Res × Dec)} {t t' : W × List Bucket × List (Res × Dec)}
    (h : l.foldlM (claimOne env) t = Except.ok t') (h0 : ∀ b ∈ t.2.1, b.res = BASE) : ∀ b ∈ t'.2.1, b.res = BASE := by
  refine foldlM_rel (P := fun a b : W × List Bucket × List (Res × Dec) =>
      (∀ x ∈ a.2.1, x.res = BASE) → ∀ x ∈ b.2.1, x.res = BASE)
    (fun _ h => h) (fun a b c h1 h2 h => h2 (h1 h)) ?_ _ h h0
  intro t e t' h h0
  rcases claimOne_ok h with ⟨-, -, -, pool, x, w, hp, hw, rfl⟩ | ⟨-, -, rfl⟩
  · intro b hb
    simp only [List.mem_append, List.mem_singleton] at hb
    rcases hb with hb | rfl
    · exact h0 b hb
    · rfl
  · exact h0

/-- How a call changes the collateral of the account it names. -/
inductive CollEffect (env : Env) (a : Addr) (acc acc' : Account) (op : Op) (o : Out) : Prop where
  | same : acc'.collateralBalances = acc.collateralBalances → acc'.collateral = acc.collateral →
      (op.holder = false → o.given = []) → CollEffect env a acc acc' op o
  | put (oath : Option Bucket) (t : List Bucket) (x : AMap Res Dec) : op = .addCollateral oath a t →
      CollPut acc.collPart (x, acc'.collateralBalances, acc'.collateral) (t.filter (fun b => b.res ≠ BASE)) →
      CollEffect env a acc acc' op o
  | take (cs : List (Res × Dec)) (bs : List Bucket) (x : AMap Res Dec) :
      (∃ i u, op = .processRequest a i u) ∨ (∃ r b u, op = .swapDebt a r b u) ∨ (∃ b u, op = .liquidate a b u) →
      CollTake env acc.collPart (x, acc'.collateralBalances, acc'.collateral) cs bs →
      (∀ b ∈ o.given, b.res ≠ BASE → b ∈ bs) → CollEffect env a acc acc' op o

theorem liquidate_take {c : Ctx} {w w' : W} {pay : Bucket} {bs : List Bucket} {e : LiquidateEv}
    (h : liquidate c w pay = Except.ok (w', bs, e)) :
    ∃ cs tokens x, CollTake c.env w.acc.collPart w'.acc.collPart cs tokens ∧ bs = tokens ++ [⟨BASE, x⟩] := by
  obtain ⟨w1, lp, lc, value, acc, tokens, taken, pool, w2, w3, loss, w4, fees, -, hlp, -, -, -, -, hwd, -, hp,
    hs, hwo, hfee, rfl, hbs, -⟩ := liquidate_ok h
  obtain ⟨p1, p2, p3, -, -, -, rfl⟩ := liquidatePositions_ok hlp
  have e1 := (settleFees_touches 0 hfee).collPart
  obtain ⟨-, rfl⟩ := writeOff_ok hwo
  have e2 := settleAccount_collPart hs
  have e3 := withdrawCollateral_take hwd
  refine ⟨lc.amounts, tokens, _, ?_, hbs⟩
  have : w4.acc.collPart = acc.collPart := e1.trans e2
  exact this ▸ e3

theorem body_collateral {env : Env} {cl : Caller} {s s' : State} {op : Op} {o : Out} {a : Addr} {acc : Account}
    (h : body env cl s op = Except.ok (s', o)) (hop : op.account = some a) (ha : s.accounts.get a = some acc) :
    ∃ acc', s'.accounts.get a = some acc' ∧ CollEffect env a acc acc' op o := by
  have holder : op.holder = true → ∃ acc', s'.accounts.get a = some acc' ∧ CollEffect env a acc acc' op o := by
    intro hh
    obtain ⟨acc', he⟩ := holder_effect h hop hh ha
    exact ⟨acc', he.account, .same he.balances he.coll (by rw [hh]; simp)⟩
  have take : ∀ {acc0 acc' : Account} {ids u s1 c w0 w} {cs : List (Res × Dec)} {bs : List Bucket},
      KeeperRun env s s' a acc0 acc' ids u s1 c w0 w →
      (∃ i u, op = .processRequest a i u) ∨ (∃ r b u, op = .swapDebt a r b u) ∨ (∃ b u, op = .liquidate a b u) →
      CollTake c.env w0.acc.collPart w.acc.collPart cs bs → (∀ b ∈ o.given, b.res ≠ BASE → b ∈ bs) →
      ∃ acc', s'.accounts.get a = some acc' ∧ CollEffect env a acc acc' op o := by
    intro acc0 acc' ids u s1 c w0 w cs bs hk hop ht hgv
    have e : acc0 = acc := by have := hk.before; rw [ha] at this; cases this; rfl
    subst e
    obtain ⟨r1, r2⟩ := realize_coll hk.real
    rw [hk.collPart0, (keeperLoad_ok hk.load).1] at ht
    refine ⟨acc', hk.after, .take cs bs w.acc.collateralBalances hop ?_ hgv⟩
    rw [r1, r2]; exact ht
  have same : ∀ {acc0 acc' : Account} {ids u s1 c w0 w},
      KeeperRun env s s' a acc0 acc' ids u s1 c w0 w → w.acc.collPart = w0.acc.collPart → o.given = [] →
      ∃ acc', s'.accounts.get a = some acc' ∧ CollEffect env a acc acc' op o := by
    intro acc0 acc' ids u s1 c w0 w hk ht hgv
    have e : acc0 = acc := by have := hk.before; rw [ha] at this; cases this; rfl
    subst e
    obtain ⟨r1, r2⟩ := realize_coll hk.real
    rw [hk.collPart0] at ht
    simp only [VAccount.collPart, Account.collPart, Prod.mk.injEq] at ht
    exact ⟨acc', hk.after, .same (by rw [r2]; exact ht.2.1) (by rw [r1]; exact ht.2.2) (fun _ => hgv)⟩
  cases op with
  | createAccount a' oath r t c =>
    cases hop
    obtain ⟨s0, rid, extra, s1, v, s2, w, acc, refs, -, hn, -⟩ := createAccount_ok h
    rw [ha] at hn; cases hn
  | createRecoveryKey oath a' => exact holder rfl
  | addAuthRule oath a' l n => exact holder rfl
  | setLevelAuth oath a' l r => exact holder rfl
  | removeCollateralRequest oath e a' t c => exact holder rfl
  | marginOrderRequest oath a' args act can st => exact holder rfl
  | marginOrderTpSlRequest oath a' args tp sl => exact holder rfl
  | cancelRequests oath a' is => exact holder rfl
  | addCollateral oath a' t =>
    cases hop
    obtain ⟨v, s1, w, acc', refs, -, hv, -, hd, hr, he, -⟩ := opAddCollateral_ok h
    obtain ⟨h1, -, -, -, h5, h6, -, -⟩ := holds_load hv ha
    obtain ⟨cfg, ids, w0, -, hw0, hs1, -, -, rfl, -⟩ := depositTokens_ok hd
    have haddr := (addCollateral_path (ex := ExchangeConfig.dflt) hw0).frame.1
    obtain ⟨w1, ac, hb, -, hdc, -, rfl⟩ := addCollateral_ok hw0
    obtain ⟨r1, r2⟩ := realize_coll hr.1
    have e1 := addBases_collPart hb
    have e2 := depositCollateral_put hdc
    rw [e1] at e2
    have e3 : v.collPart = acc.collPart := by
      obtain ⟨acc0, rd, hg, -, rfl⟩ := load_ok hv
      rw [ha] at hg; cases hg; rfl
    simp only at e2
    rw [e3] at e2
    refine ⟨acc', ?_, .put oath t ac.collateralBalances rfl ?_⟩
    · rw [he]; simp only at haddr; simp only [State.realized, haddr, h1, AMap.get_set_self]
    · rw [r1, r2]; exact e2
  | processRequest a' i u =>
    cases hop
    by_cases hx : o.ev = .expired
    · obtain ⟨v, v1, r, expired, cfg, hv, hpr, -, -, -, h⟩ := processRequest_ok h
      obtain ⟨h1, h2, h3, h4, h5, h6, h7, h8⟩ := (holds_load hv ha).req (processRequest_reqOnly hpr)
      rcases h with ⟨-, acc', refs, hr, he, ho⟩ | ⟨-, s1, c, w, out, acc', refs, hkl, hex, hr', he, ho⟩
      · obtain ⟨r1, r2⟩ := realize_coll hr.1
        exact ⟨acc', by rw [he]; simp only [State.realizedAcc, h1, AMap.get_set_self],
          .same (by rw [r2, h6]) (by rw [r1, h5]) (by intro _; rw [ho]; rfl)⟩
      · exfalso
        rcases executeRequest_ok hex with ⟨q, tokens, -, -, rfl⟩ | ⟨q, e, -, -, rfl⟩ <;> rw [ho] at hx <;> simp at hx
    · obtain ⟨acc0, acc', kr, ids, s1, c, w0, w, out, hk, -, -, -, hex, -, hpaid, hbk⟩ := run_execute h hx
      rcases executeRequest_ok hex with ⟨q, tokens, -, hrm, hout⟩ | ⟨q, e, -, hmo, hout⟩
      · obtain ⟨claims, t, ac, bs, -, ht, hw, -, -, rfl, htok⟩ := removeCollateral_ok hrm
        have hgv : ∀ b ∈ o.given, b.res ≠ BASE → b ∈ bs := by
          intro b hb hne
          simp only [Out.given, hpaid, hbk, hout, List.map_map, List.append_nil] at hb
          simp only [List.mem_map, Function.comp_apply, exists_eq_right] at hb
          rw [htok, List.mem_append] at hb
          rcases hb with hb | hb
          · exact absurd (claims_base ht (by simp) b hb) hne
          · exact hb
        have := withdrawCollateral_take hw
        rw [claims_collPart ht] at this
        exact take hk (.inl ⟨_, _, rfl⟩) this hgv
      · exact same hk (marginOrder_collPart hmo) (by simp [Out.given, hpaid, hbk, hout])
  | swapDebt a' r p u =>
    cases hop
    obtain ⟨acc0, acc', s1, c, w0, w, token, rest, e, hk, -, hx, ho⟩ := run_swapDebt h
    obtain ⟨cc, pr, priceRes, amount, value, taken, pool, w1, ac, bs, -, -, -, -, -, -, -, -, hs, hwd, hlast, rfl, hrest, -⟩ :=
      swapDebt_ok hx
    have := withdrawCollateral_take hwd
    rw [settleAccount_collPart hs] at this
    refine take hk (.inr (.inl ⟨_, _, _, rfl⟩)) this ?_
    intro b hb hne
    simp only [Out.given, ho, List.map_nil, List.nil_append, List.mem_cons, List.not_mem_nil, or_false] at hb
    rcases hb with rfl | rfl
    · exact List.mem_of_getLast? hlast
    · rw [hrest] at hne; exact absurd rfl hne
  | liquidate a' p u =>
    cases hop
    obtain ⟨acc0, acc', ids, s1, c, w0, w, tokens, e, hk, -, -, hx, ho⟩ := run_liquidate h
    obtain ⟨cs, bs, x, ht, hbs⟩ := liquidate_take hx
    refine take hk (.inr (.inr ⟨_, _, rfl⟩)) ht ?_
    intro b hb hne
    simp only [Out.given, ho, List.map_nil, List.nil_append, hbs, List.mem_append, List.mem_singleton] at hb
    rcases hb with hb | rfl
    · exact hb
    · exact absurd rfl hne
  | autoDeleverage a' p u =>
    cases hop
    obtain ⟨acc0, acc', ids, s1, c, w0, w, e, hk, -, hx, ho⟩ := run_adl h
    exact same hk (autoDeleverage_touches hx).collPart (by simp [Out.given, ho])
  | _ => cases hop


theorem CollTake.noZero {env : Env} {cs : List (Res × Dec)} :
    ∀ {bs : List Bucket} {a b : AMap Res Dec × AMap Res Dec × AMap Res Dec}, CollTake env a b cs bs →
    ∀ r, (a.2.1.get r ≠ some 0 ∨ ∃ x ∈ bs, x.res = r) → b.2.1.get r ≠ some 0 := by
  induction cs with
  | nil =>
    rintro bs ⟨a1, a2, a3⟩ ⟨b1, b2, b3⟩ ⟨h1, h2, h3⟩ r hr
    simp only [vaultTakeBatch, Except.ok.injEq, Prod.mk.injEq] at h3
    obtain ⟨rfl, rfl⟩ := h3
    simp only [balanceSubBatch, List.foldlM_nil, pure_ok] at h2
    subst h2
    simpa using hr
  | cons c cs ih =>
    rintro bs ⟨a1, a2, a3⟩ ⟨b1, b2, b3⟩ ⟨h1, h2, h3⟩ r hr
    simp only [vaultTakeBatch, bind_ok, pure_ok, Prod.mk.injEq] at h3
    obtain ⟨⟨c3, x⟩, hv, ⟨d3, bs'⟩, hv', rfl, rfl⟩ := h3
    simp only [balanceSubBatch, List.foldlM_cons, bind_ok] at h1 h2
    obtain ⟨c1, h1, h1'⟩ := h1
    obtain ⟨c2, h2, h2'⟩ := h2
    obtain ⟨y, hy, hgb⟩ := balanceSub_get h2
    refine ih (a := (c1, c2, c3)) (b := (b1, b2, d3)) ⟨h1', h2', hv'⟩ r ?_
    simp only [hgb]
    by_cases hx : x.res = r
    · left
      rw [if_pos hx]
      split
      · simp
      · rename_i hne; simpa using hne
    · rw [if_neg hx]
      rcases hr with hr | ⟨z, hz, hzr⟩
      · exact Or.inl hr
      · rcases List.mem_cons.mp hz with rfl | hz
        · exact absurd hzr hx
        · exact Or.inr ⟨z, hz, hzr⟩

/-- The buckets paid out by a batch of withdrawals are valid token amounts. -/
theorem vaultTakeBatch_valid {env : Env} {st : Strategy} {cs : List (Res × Dec)} :
    ∀ {m m' : AMap Res Dec} {bs : List Bucket}, vaultTakeBatch env st m cs = Except.ok (m', bs) →
    ∀ b ∈ bs, 0 ≤ b.amt ∧ b.amt % (env.gran b.res : Int) = 0 := by
  induction cs with
  | nil =>
    intro m m' bs h
    simp only [vaultTakeBatch, Except.ok.injEq, Prod.mk.injEq] at h
    rw [← h.2]; simp
  | cons c cs ih =>
    intro m m' bs h
    simp only [vaultTakeBatch, bind_ok, pure_ok, Prod.mk.injEq] at h
    obtain ⟨⟨c3, x⟩, hv, ⟨d3, bs'⟩, hv', rfl, rfl⟩ := h
    obtain ⟨hr, -, h0, hg, -, -⟩ := vaultTake_get hv
    intro b hb
    rcases List.mem_cons.mp hb with rfl | hb
    · exact ⟨h0, by rw [hr]; exact hg⟩
    · exact ih hv' b hb

theorem okBucket_valid {env : Env} {s : State} {l : List Bucket} (h : l.all (okBucket env s) = true) :
    ∀ b ∈ l, 0 ≤ b.amt ∧ b.amt % (env.gran b.res : Int) = 0 := by
  intro b hb
  have := List.all_eq_true.mp h b hb
  simp only [okBucket, decide_eq_true_eq] at this
  exact ⟨this.1, this.2.1⟩

def State.CollOk (env : Env) (s : State) : Prop := ∀ a acc, s.accounts.get a = some acc → CollInv env acc.collPart

theorem claimCode_valid {env : Env} {s s' : State} {code : Option Nat} {rid : Option RefId} {bs : List Bucket}
    (h : claimCode env s code = Except.ok (s', rid, bs)) :
    ∀ b ∈ bs, 0 ≤ b.amt ∧ b.amt % (env.gran b.res : Int) = 0 := by
  rcases claimCode_ok h with ⟨-, -, rfl, -⟩ | ⟨c, g, r, -, hc, -, -⟩
  · simp
  · simp only [RefGen.claim, bind_ok, pure_ok, Prod.mk.injEq] at hc
    obtain ⟨_, -, ⟨⟩, -, ⟨v, b⟩, hv, -, -, rfl⟩ := hc
    exact vaultTakeBatch_valid hv

theorem collOk_step {env : Env} {cl : Caller} {s s' : State} {op : Op} {o : Out}
    (h : body env cl s op = Except.ok (s', o)) (h0 : s.CollOk env) : s'.CollOk env := by
  intro b acc' hb
  by_cases hop : op.account = some b
  · cases hg : s.accounts.get b with
    | some acc =>
      obtain ⟨acc'', h1, he⟩ := body_collateral h hop hg
      rw [hb] at h1; cases h1
      have hi := h0 b acc hg
      rcases he with ⟨e1, e2, -⟩ | ⟨oath, t, x, rfl, hp⟩ | ⟨cs, bs, x, -, ht, -⟩
      · unfold Account.collPart; rw [e1, e2]; exact hi
      · obtain ⟨v, s1, w, _, refs, hbk, -⟩ := opAddCollateral_ok h
        have := hp.inv (env := env) (fun x hx => okBucket_valid hbk x (List.mem_of_mem_filter hx)) hi
        exact ⟨rfl, this.vault, this.nonneg, this.whole⟩
      · have := ht.inv hi
        exact ⟨rfl, this.vault, this.nonneg, this.whole⟩
    | none =>
      rcases body_account h hop with ⟨lr, -, acc, hacc⟩ | ⟨g, rule, rid, ⟨oath, t, c, rfl⟩, -, -⟩
      · rw [hg] at hacc; cases hacc
      · obtain ⟨s0, rid, extra, s1, v, s2, w, acc, refs, hbk, -, hc, hs1, hv, hd, hr, he, -⟩ := createAccount_ok h
        obtain ⟨cfg, ids, w0, -, hw0, hs2, -, -, rfl, -⟩ := depositTokens_ok hd
        have haddr := (addCollateral_path (ex := ExchangeConfig.dflt) hw0).frame.1
        obtain ⟨w1, ac, hbb, -, hdc, -, rfl⟩ := addCollateral_ok hw0
        obtain ⟨r1, r2⟩ := realize_coll hr.1
        have e1 := addBases_collPart hbb
        have e2 := depositCollateral_put hdc
        rw [e1] at e2
        obtain ⟨acc0, rd, hg0, -, rfl⟩ := load_ok hv
        rw [hs1] at hg0
        simp only [AMap.get_set_self, Option.some.injEq] at hg0
        subst hg0
        have hval : ∀ x ∈ (t ++ extra).filter (fun b => b.res ≠ BASE), 0 ≤ x.amt ∧ x.amt % (env.gran x.res : Int) = 0 := by
          intro x hx
          have hx := List.mem_of_mem_filter hx
          rcases List.mem_append.mp hx with hx | hx
          · exact okBucket_valid hbk x hx
          · exact claimCode_valid hc x hx
        have := e2.inv (env := env) hval ⟨rfl, by intro r; simp [VAccount.collPart, Account.fresh],
          by intro r x hx; simp [VAccount.collPart, Account.fresh] at hx,
          by intro r x hx; simp [VAccount.collPart, Account.fresh] at hx⟩
        have hacc : s'.accounts.get b = some acc := by
          rw [he]; simp only at haddr; simp only [State.realized, haddr, AMap.get_set_self]
        rw [hb] at hacc; cases hacc
        unfold Account.collPart
        simp only at r1 r2
        rw [r1, r2]
        exact ⟨rfl, this.vault, this.nonneg, this.whole⟩
  · rw [body_accounts h b hop] at hb
    exact h0 b acc' hb

theorem reach_collOk {env : Env} {s : State} (h : Reach env s) : s.CollOk env := by
  refine Reach.induct (P := fun s => s.CollOk env) (env := env) ?_ ?_ h
  · intro s g a acc ha; rw [g.accounts] at ha; simp at ha
  · intro s s' cl op o hs hb; exact collOk_step hb hs

/-- **C25.** In every reachable state the recorded collateral balance of an account in a resource is exactly what its
vault holds of that resource (no entry or no vault counting as zero); it is never negative and always a valid amount
of the token. -/
theorem c25_recorded_is_held {env : Env} {s : State} (h : Reach env s) {a : Addr} {acc : Account}
    (ha : s.accounts.get a = some acc) (r : Res) :
    (acc.collateralBalances.get r).getD 0 = (acc.collateral.get r).getD 0 ∧
    ∀ x, acc.collateralBalances.get r = some x → 0 ≤ x ∧ x % (env.gran r : Int) = 0 :=
  ⟨(reach_collOk h a acc ha).vault r, fun x hx => ⟨(reach_collOk h a acc ha).nonneg r x hx, (reach_collOk h a acc ha).whole r x hx⟩⟩

/-- **C25, withdrawals.** After a call that hands out collateral of an account, no zero balance of a resource it handed
out remains recorded, and withdrawals never create a zero balance in any other resource. -/
theorem c25_no_zero_balance {env : Env} {cl : Caller} {s s' : State} {op : Op} {o : Out} (h0 : Reach env s)
    (h : step env cl s op = Except.ok (s', o)) {a : Addr} {acc : Account}
    (hop : (∃ i u, op = .processRequest a i u) ∨ (∃ r b u, op = .swapDebt a r b u) ∨ (∃ b u, op = .liquidate a b u))
    (ha : s.accounts.get a = some acc) :
    ∃ acc', s'.accounts.get a = some acc' ∧ ∀ r,
      ((∃ b ∈ o.given, b.res = r ∧ r ≠ BASE) ∨ acc.collateralBalances.get r ≠ some 0) →
      ∀ x, acc'.collateralBalances.get r = some x → 0 < x := by
  have hb := step_body h
  have hacc : op.account = some a := by
    rcases hop with ⟨_, _, rfl⟩ | ⟨_, _, _, rfl⟩ | ⟨_, _, rfl⟩ <;> rfl
  obtain ⟨acc', h1, he⟩ := body_collateral hb hacc ha
  have hi' := collOk_step hb (reach_collOk h0) a acc' h1
  refine ⟨acc', h1, fun r hr x hx => ?_⟩
  have hnn := hi'.nonneg r x hx
  have hne : acc'.collateralBalances.get r ≠ some 0 → 0 < x := by
    intro hne
    have : x ≠ 0 := by rintro rfl; exact hne hx
    omega
  apply hne
  rcases he with ⟨e1, e2, hgv⟩ | ⟨oath, t, x, hadd, hp⟩ | ⟨cs, bs, y, -, ht, hgv⟩
  · rw [e1]
    rcases hr with ⟨b, hbm, hbr, hbase⟩ | hr
    · have : o.given = [] := hgv (by rcases hop with ⟨_, _, rfl⟩ | ⟨_, _, _, rfl⟩ | ⟨_, _, rfl⟩ <;> rfl)
      rw [this] at hbm; cases hbm
    · exact hr
  · rcases hop with ⟨_, _, rfl⟩ | ⟨_, _, _, rfl⟩ | ⟨_, _, rfl⟩ <;> cases hadd
  · refine ht.noZero r ?_
    rcases hr with ⟨b, hbm, hbr, hbase⟩ | hr
    · exact Or.inr ⟨b, hgv b hbm (hbr ▸ hbase), hbr⟩
    · exact Or.inl hr

end Perp
