import Verif.ReasonsOrder
import Verif.Tokens

/-!
# C54 for withdrawals, and for executing a request as a whole
-/

namespace Perp

/-! ## What a withdrawal pays, exactly -/

/-- Exactly what a batch of claims takes from the vaults: every claim rounded towards zero. -/
theorem takeBatch_exact {env : Env} {cs : List (Res × Dec)} :
    ∀ {m m' : AMap Res Dec} {bs : List Bucket}, vaultTakeBatch env .toZero m cs = Except.ok (m', bs) →
    bs = cs.map (fun e => ⟨e.1, amountFor (env.gran e.1) e.2 .toZero⟩) := by
  induction cs with
  | nil =>
    intro m m' bs h
    simp only [vaultTakeBatch, Except.ok.injEq, Prod.mk.injEq] at h
    obtain ⟨-, rfl⟩ := h; rfl
  | cons c cs ih =>
    intro m m' bs h
    simp only [vaultTakeBatch, bind_ok, pure_ok, Prod.mk.injEq] at h
    obtain ⟨⟨m1, b⟩, h1, ⟨m2, bs'⟩, h2, -, rfl⟩ := h
    obtain ⟨e1, e2, -⟩ := vaultTake_get h1
    rw [ih h2, List.map_cons]
    congr 1
    cases b; simp only at e1 e2; rw [e1, e2]

theorem amountFor_zero (g : Nat) : amountFor g 0 .toZero = 0 := by unfold amountFor; simp

theorem totalOf_takes {env : Env} {cs : List (Res × Dec)} (hn : (cs.map Prod.fst).Nodup) (r : Res) :
    totalOf (cs.map (fun e => (⟨e.1, amountFor (env.gran e.1) e.2 .toZero⟩ : Bucket))) r =
      amountFor (env.gran r) (claimed cs r) .toZero := by
  induction cs with
  | nil => exact (amountFor_zero _).symm
  | cons c cs ih =>
    simp only [List.map_cons, List.nodup_cons] at hn
    rw [List.map_cons, totalOf_cons, claimed_cons, ih hn.2]
    by_cases he : c.1 = r
    · have hz : claimed cs r = 0 := by
        unfold claimed
        rw [List.filter_eq_nil_iff.mpr]; · rfl
        intro b hb
        have : b.1 ∈ cs.map Prod.fst := List.mem_map_of_mem hb
        simp only [decide_eq_true_eq]
        rintro rfl
        exact hn.1 (he ▸ this)
      simp [he, hz, amountFor_zero]
    · simp [he]

theorem claims_exact {env : Env} {l : List (Res × Dec)} :
    ∀ {t t' : W × List Bucket × List (Res × Dec)}, l.foldlM (claimOne env) t = Except.ok t' → (l.map Prod.fst).Nodup →
    t'.1.acc.vb = t.1.acc.vb - amountFor (env.gran BASE) (claimed l BASE) .toZero ∧
    totalOf t'.2.1 BASE = totalOf t.2.1 BASE + amountFor (env.gran BASE) (claimed l BASE) .toZero := by
  induction l with
  | nil =>
    intro t t' h _
    simp only [List.foldlM_nil, pure_ok] at h
    subst h
    rw [show claimed [] BASE = 0 from rfl, amountFor_zero]; simp
  | cons e l ih =>
    intro t t' h hn
    simp only [List.foldlM_cons, bind_ok] at h
    obtain ⟨t1, h1, h2⟩ := h
    simp only [List.map_cons, List.nodup_cons] at hn
    obtain ⟨i1, i2⟩ := ih h2 hn.2
    rw [i1, i2, claimed_cons]
    rcases claimOne_ok h1 with ⟨he, hvb, -, pool, x, w, hp, hw, rfl⟩ | ⟨he, -, rfl⟩
    · obtain ⟨ht, rfl⟩ := VPool.withdraw_ok hp
      rw [takeAmount_ok] at ht
      have hc0 : claimed l BASE = 0 := by
        unfold claimed
        rw [List.filter_eq_nil_iff.mpr]; · rfl
        intro b hb
        have : b.1 ∈ l.map Prod.fst := List.mem_map_of_mem hb
        simp only [decide_eq_true_eq]
        intro hbb
        exact hn.1 (by rw [he, ← hbb]; exact this)
      rw [hc0, amountFor_zero, he, if_pos rfl, add_zero, ht.1, settleAccount_ok hw]
      refine ⟨?_, ?_⟩
      · simp [sub_eq_add_neg]
      · simp [totalOf_append, totalOf_cons, totalOf_nil]
    · rw [if_neg he, zero_add]; exact ⟨rfl, rfl⟩

/-! ## Specification -/

/-- A withdrawal from an account: every claim, rounded towards zero to the divisibility of its token, leaves the balance it is
taken from. -/
structure Withdrawn (env : Env) (acc acc' : Account) (claims : List (Res × Dec)) : Prop where
  same : acc' = { acc with vb := acc'.vb, collateralBalances := acc'.collateralBalances }
  vb : acc'.vb = acc.vb - amountFor (env.gran BASE) (claimed claims BASE) .toZero
  balances : ∀ r, (acc'.collateralBalances.get r).getD 0 = (acc.collateralBalances.get r).getD 0 -
    (if r = BASE then 0 else amountFor (env.gran r) (claimed claims r) .toZero)

/-- The state with the prices of an update. -/
def State.priced (s : State) (u : Option PriceUpdate) : State :=
  { s with oracle := { s.oracle with prices := s.pricesWith u } }

/-- **Specification.** Why a withdrawal can be refused when it is executed. -/
def WithdrawalRefused (env : Env) (s : State) (acc : Account) (q : RemoveCollateralReq) (u : Option PriceUpdate) : Err → Prop
  | .insufficientBalance => ∃ r ∈ q.claims.map Prod.fst, (r = BASE ∧ acc.vb < claimed q.claims BASE) ∨
      (r ≠ BASE ∧ ((acc.collateralBalances.get r).getD 0 < claimed q.claims r ∨ acc.collateralBalances.get r = none))
  | .insufficientPoolTokens => s.pool.baseTokens < claimed q.claims BASE
  | .vault => ∃ r ∈ q.claims.map Prod.fst, amountFor (env.gran r) (claimed q.claims r) .toZero < 0
  | .invalidAccount => env.isWallet q.target = false
  | .insufficientMargin => ∃ acc', Withdrawn env acc acc' q.claims ∧
      (s.priced u).accountValue acc' < (s.priced u).initialMargin acc'
  | e => PricesRefused env s acc.positions.keys u e

/-! ## Proof -/

theorem addClaims_keys {l : List (Res × Dec)} : ∀ {m m' : AMap Res Dec}, l.foldlM addClaim m = Except.ok m' →
    ∀ r ∈ m'.keys, r ∈ m.keys ∨ r ∈ l.map Prod.fst := by
  induction l with
  | nil => intro m m' h r hr; simp only [List.foldlM_nil, pure_ok] at h; subst h; exact Or.inl hr
  | cons e l ih =>
    intro m m' h r hr
    simp only [List.foldlM_cons, bind_ok] at h
    obtain ⟨m1, h1, h2⟩ := h
    rcases ih h2 r hr with hr | hr
    · have : ∃ y, m1 = m.set e.1 y := by
        unfold addClaim at h1
        split at h1
        · simp only [bind_ok, pure_ok] at h1
          obtain ⟨y, -, rfl⟩ := h1
          exact ⟨y, rfl⟩
        · cases h1; exact ⟨_, rfl⟩
      obtain ⟨y, rfl⟩ := this
      obtain ⟨z, hz⟩ := AMap.mem_keys.mp hr
      rw [AMap.get_set] at hz
      split at hz
      · rename_i he; right; simp [he]
      · left; exact AMap.mem_keys.mpr ⟨z, hz⟩
    · right; simp only [List.map_cons, List.mem_cons]; exact Or.inr hr

theorem takeAmount_negative {g : Nat} (hg : 0 < g) {avail x : Dec} (h1 : x ≤ avail) (ha : 0 ≤ avail) {P : Err → Prop}
    (h : amountFor g x .toZero < 0 → P .vault) : Fails P (takeAmount g avail x .toZero) := by
  by_cases h0 : 0 ≤ x
  · exact fails_of_ok ⟨_, takeAmount_down hg h0 h1⟩
  by_cases hn : amountFor g x .toZero < 0
  · intro e he
    unfold takeAmount at he
    simp only at he
    split at he
    · cases he
    · cases he; exact h hn
  refine fails_of_ok ⟨amountFor g x .toZero, takeAmount_ok.mpr ⟨rfl, not_lt.mp hn, ?_, ?_⟩⟩
  · unfold amountFor; exact Int.mul_emod_left _ _
  · have hle : amountFor g x .toZero ≤ 0 := by
      unfold amountFor
      have : x.tdiv g ≤ 0 := by
        have := Int.tdiv_nonneg (a := -x) (b := (g : Int)) (by omega) (by omega)
        rw [Int.neg_tdiv] at this; omega
      exact mul_nonpos_of_nonpos_of_nonneg this (by omega)
    exact le_trans hle ha

theorem vaultTakeBatch_fails {env : Env} {P : Err → Prop} : ∀ {cs : List (Res × Dec)} {m : AMap Res Dec},
    (cs.map Prod.fst).Nodup → (∀ e ∈ cs, e.2 ≤ (m.get e.1).getD 0) → (∀ e ∈ cs, 0 ≤ (m.get e.1).getD 0) → (∀ e ∈ cs, amountFor (env.gran e.1) e.2 .toZero < 0 → P .vault) →
    Fails P (vaultTakeBatch env .toZero m cs) := by
  intro cs
  induction cs with
  | nil => intro m _ _ _ _; exact fails_of_ok ⟨_, rfl⟩
  | cons e cs ih =>
    intro m hn h h0 hP
    rw [List.map_cons, List.nodup_cons] at hn
    unfold vaultTakeBatch
    refine fails_bind ?_ (fun x hx => fails_bind (ih hn.2 (fun e' he' => ?_) (fun e' he' => ?_) (fun e' he' => hP e' (by simp [he'])))
      (fun _ _ => fails_pure _))
    · unfold vaultTake
      exact fails_bind (takeAmount_negative (env.gran_pos _) (h e (by simp)) (h0 e (by simp)) (hP e (by simp))) (fun _ _ => fails_pure _)
    · obtain ⟨m1, b⟩ := x
      obtain ⟨-, -, -, -, -, hg⟩ := vaultTake_get hx
      rw [hg, if_neg]
      · exact h e' (by simp [he'])
      · intro heq
        exact hn.1 (heq ▸ List.mem_map_of_mem he')
    · obtain ⟨m1, b⟩ := x
      obtain ⟨-, -, -, -, -, hg⟩ := vaultTake_get hx
      rw [hg, if_neg]
      · exact h0 e' (by simp [he'])
      · intro heq
        exact hn.1 (heq ▸ List.mem_map_of_mem he')

theorem balanceSubBatch_fails {P : Err → Prop} (hP : P .arithmetic) : ∀ {bs : List Bucket} {m : AMap Res Dec},
    (bs.map Bucket.res).Nodup → (∀ b ∈ bs, m.get b.res = none → P .insufficientBalance) →
    Fails P (balanceSubBatch m bs) := by
  intro bs
  induction bs with
  | nil => intro m _ _; exact fails_pure _
  | cons b bs ih =>
    intro m hn h
    rw [List.map_cons, List.nodup_cons] at hn
    unfold balanceSubBatch
    rw [List.foldlM_cons]
    refine fails_bind ?_ (fun m1 hm1 => ih hn.2 (fun b' hb' hnone => ?_))
    · unfold balanceSub
      refine fails_bind (fails_expect (h b (by simp))) (fun _ _ => fails_bind ((errs_dsub (l := arith) (by decide) _ _).arithmetic hP) (fun _ _ => fails_pure _))
    · obtain ⟨x, -, hg⟩ := balanceSub_get hm1
      rw [hg, if_neg] at hnone
      · exact h b' (by simp [hb']) hnone
      · intro heq
        exact hn.1 (heq ▸ List.mem_map_of_mem hb')

theorem claims_fails {env : Env} {w : W} {P : Err → Prop} (hP : P .arithmetic) (hbase : w.pool.base = w.pool.comp.baseTokens)
    (hbase0 : 0 ≤ w.pool.comp.baseTokens) :
    ∀ {l : List (Res × Dec)} {t : W × List Bucket × List (Res × Dec)}, (l.map Prod.fst).Nodup →
    (BASE ∈ l.map Prod.fst → t.1 = w) → t.1.acc.collateralBalances = w.acc.collateralBalances →
    (∀ e ∈ l, e.1 = BASE → w.acc.vb < e.2 → P .insufficientBalance) →
    (∀ e ∈ l, e.1 = BASE → w.pool.base < e.2 → P .insufficientPoolTokens) →
    (∀ e ∈ l, e.1 = BASE → amountFor (env.gran e.1) e.2 .toZero < 0 → P .vault) →
    (∀ e ∈ l, e.1 ≠ BASE → (w.acc.collateralBalances.get e.1).getD 0 < e.2 → P .insufficientBalance) →
    Fails P (l.foldlM (claimOne env) t) := by
  intro l
  induction l with
  | nil => intro t _ _ _ _ _ _ _; exact fails_pure _
  | cons e l ih =>
    intro t hn ht hcb h1 h2 h3 h4
    rw [List.map_cons, List.nodup_cons] at hn
    rw [List.foldlM_cons]
    refine fails_bind ?_ (fun t1 ht1 => ih hn.2 ?_ ?_ (fun e' he' => h1 e' (by simp [he'])) (fun e' he' => h2 e' (by simp [he']))
      (fun e' he' => h3 e' (by simp [he'])) (fun e' he' => h4 e' (by simp [he'])))
    · unfold claimOne
      split
      · rename_i he
        have hw := ht (by simp [he])
        rw [hw]
        refine fails_bind (fails_check (fun hn => h1 e (by simp) he (not_le.mp hn))) (fun _ _ => ?_)
        refine fails_bind (fails_check (fun hn => h2 e (by simp) he (not_le.mp hn))) (fun _ hle => ?_)
        rw [require_ok, decide_eq_true_eq] at hle
        refine fails_bind ?_ (fun _ _ => ?_)
        · unfold VPool.withdraw
          refine fails_bind (takeAmount_negative (env.gran_pos _) (by rw [← hbase]; exact hle) hbase0
            (fun hlt => h3 e (by simp) he (by rw [he]; exact hlt))) (fun _ _ => ?_)
          refine fails_bind ((errs_dsub (l := arith) (by decide) _ _).arithmetic hP) (fun _ _ => ?_)
          exact fails_bind ((errs_dsub (l := arith) (by decide) _ _).arithmetic hP) (fun _ _ => fails_pure _)
        · refine fails_bind ((errs_dneg (l := arith) (by decide) _).arithmetic hP) (fun _ _ => ?_)
          exact fails_bind ((settleAccount_errs _ _).arithmetic hP) (fun _ _ => fails_pure _)
      · rename_i he
        refine fails_bind (fails_check (fun hn => h4 e (by simp) he ?_)) (fun _ _ => fails_pure _)
        rw [← hcb]
        exact not_le.mp hn
    · intro hb
      rcases claimOne_ok ht1 with ⟨he, -⟩ | ⟨-, -, rfl⟩
      · exact absurd (he ▸ hb) hn.1
      · exact ht (by simp [hb])
    · rcases claimOne_ok ht1 with ⟨-, -, -, pool, x, w', hp, hw, rfl⟩ | ⟨-, -, rfl⟩
      · rw [settleAccount_ok hw]; exact hcb
      · exact hcb

theorem claims_kept {env : Env} {l : List (Res × Dec)} {t t' : W × List Bucket × List (Res × Dec)}
    (h : l.foldlM (claimOne env) t = Except.ok t') :
    t'.1.pool.positions = t.1.pool.positions ∧ t'.1.acc = { t.1.acc with vb := t'.1.acc.vb } := by
  refine foldlM_rel (P := fun a b : W × List Bucket × List (Res × Dec) =>
    b.1.pool.positions = a.1.pool.positions ∧ b.1.acc = { a.1.acc with vb := b.1.acc.vb })
    (fun _ => ⟨rfl, rfl⟩) (fun a b c h1 h2 => ⟨h2.1.trans h1.1, by rw [h2.2, h1.2]⟩) ?_ _ h
  intro t e t' h
  rcases claimOne_ok h with ⟨-, -, -, pool, x, w, hp, hw, rfl⟩ | ⟨-, -, rfl⟩
  · obtain ⟨-, -, rfl⟩ := VPool.withdraw_ok hp
    rw [settleAccount_ok hw]
    exact ⟨rfl, rfl⟩
  · exact ⟨rfl, rfl⟩

/-- A successful withdrawal takes exactly the claims, rounded. -/
theorem removeCollateral_exact {c : Ctx} {w w' : W} {q : RemoveCollateralReq} {tokens : List Bucket}
    (h : removeCollateral c w q = Except.ok (w', tokens)) (r : Res) :
    totalOf tokens r = amountFor (c.env.gran r) (claimed q.claims r) .toZero := by
  obtain ⟨claims, t, acc, bs, hcl, ht, hw, -, hint, rfl, rfl⟩ := removeCollateral_ok h
  obtain ⟨bb, e1, e2, -, -, -, -, e7⟩ := claims_ok ht claims.nodup
  simp only [List.nil_append] at e1 e7
  obtain ⟨-, x2⟩ := claims_exact ht claims.nodup
  have hget := addClaims_get hcl
  have hcl' : ∀ r, claimed claims.entries r = claimed q.claims r := by
    intro r; rw [claimed_entries, hget r]; simp
  have htake := withdrawCollateral_take hw
  have hbs := takeBatch_exact htake.vault
  have hsub : (t.2.2.map Prod.fst).Nodup := by
    rw [e7]
    exact List.Nodup.sublist (List.Sublist.map _ List.filter_sublist) claims.nodup
  have htb : totalOf bs r = amountFor (c.env.gran r) (claimed t.2.2 r) .toZero := by rw [hbs]; exact totalOf_takes hsub r
  rw [totalOf_append]
  by_cases hr : r = BASE
  · subst hr
    rw [x2, hcl', htb]
    have : claimed t.2.2 BASE = 0 := by
      unfold claimed
      rw [e7, List.filter_filter, List.filter_eq_nil_iff.mpr]; · rfl
      intro b _; simp
    rw [this, amountFor_zero, totalOf_nil]; simp
  · have h0 : totalOf t.2.1 r = 0 := by
      rw [e1]
      unfold totalOf
      rw [List.filter_eq_nil_iff.mpr]; · rfl
      intro b hb
      simp only [decide_eq_true_eq]
      rintro rfl
      exact hr (e2 b hb).1
    rw [h0, htb, zero_add, ← hcl']
    congr 1
    unfold claimed
    rw [e7, List.filter_filter]
    congr 2
    refine List.filter_congr (fun e _ => ?_)
    by_cases he : e.1 = r
    · simp [he, hr]
    · simp [he]

section
variable {env : Env} {s s1 : State} {ids : List PairId} {u : Option PriceUpdate} {c : Ctx} {pool : VPool}

theorem removeCollateral_fails {a : Addr} {va v1 : VAccount} {acc : Account} {q : RemoveCollateralReq} {d : FeeDist}
    (hr : Reach env s) (hk : keeperLoad env s ids u = Except.ok (s1, c, pool)) (hv : s.load a = Except.ok va)
    (ha : s.accounts.get a = some acc) (hro : ReqOnly va v1) (hids : ∀ p ∈ acc.positions.keys, p ∈ ids) :
    Fails (WithdrawalRefused env s acc q u) (removeCollateral c { pool, acc := v1, dist := d } q) := by
  obtain ⟨h, hh⟩ := keeperLoad_ready hk
  have hf := keeperLoad_feeds hk
  obtain ⟨henv, hnow, hcfg, hpush, -, hpool, hs1⟩ := keeperLoad_ok hk
  obtain ⟨k1, k2, -, k4, k5, -⟩ := keeperLoad_state hk
  have hP : WithdrawalRefused env s acc q u .arithmetic := trivial
  have hstored : va.positions = acc.positions ∧ va.collateralBalances = acc.collateralBalances ∧ va.vb = acc.vb ∧
      va.comp = acc := by
    obtain ⟨acc', rd, ha', -, hv'⟩ := load_ok hv
    rw [ha] at ha'; cases ha'
    rw [hv']; exact ⟨rfl, rfl, rfl, rfl⟩
  have hv1 : v1.positions = acc.positions ∧ v1.collateralBalances = acc.collateralBalances ∧ v1.vb = acc.vb ∧ v1.comp = acc := by
    unfold ReqOnly at hro; rw [hro]; exact hstored
  have hreb : v1.rebate = va.rebate := by unfold ReqOnly at hro; rw [hro]; rfl
  have hinv := reach_collOk hr a acc ha
  unfold removeCollateral
  refine fails_bind (Errs.arithmetic (errs_foldlM' (fun e _ m => ?_)) hP) (fun claims hcl => ?_)
  · unfold addClaim; errs
  have hget : ∀ r, (claims.get r).getD 0 = claimed q.claims r := by
    intro r; rw [addClaims_get hcl r]; simp
  have hkeys : ∀ e ∈ claims.entries, e.1 ∈ q.claims.map Prod.fst ∧ e.2 = claimed q.claims e.1 := by
    intro e he
    have hg := AMap.get_mem he
    refine ⟨?_, by rw [← hget, hg]; rfl⟩
    rcases addClaims_keys hcl e.1 (AMap.mem_keys.mpr ⟨_, hg⟩) with hh | hh
    · obtain ⟨_, hz⟩ := AMap.mem_keys.mp hh; simp at hz
    · exact hh
  refine fails_bind (claims_fails (w := { pool, acc := v1, dist := d }) hP (by rw [hpool]; rfl)
    (by rw [hpool]; exact reach_base hr) claims.nodup (fun _ => rfl) rfl
    (fun e he hb hlt => ?_) (fun e he hb hlt => ?_) (fun e he hb hlt => ?_) (fun e he hb hlt => ?_)) (fun t ht => ?_)
  · obtain ⟨j1, j2⟩ := hkeys e he
    refine ⟨e.1, j1, Or.inl ⟨hb, ?_⟩⟩
    rw [← hb, ← j2, ← hv1.2.2.1]; exact hlt
  · obtain ⟨j1, j2⟩ := hkeys e he
    change s.pool.baseTokens < _
    rw [← hb, ← j2]
    rw [hpool] at hlt; exact hlt
  · obtain ⟨j1, j2⟩ := hkeys e he
    exact ⟨e.1, j1, by rw [← j2, ← henv]; exact hlt⟩
  · obtain ⟨j1, j2⟩ := hkeys e he
    refine ⟨e.1, j1, Or.inr ⟨hb, Or.inl ?_⟩⟩
    rw [← j2, ← hv1.2.1]; exact hlt
  obtain ⟨bb, -, -, -, -, -, -, e7⟩ := claims_ok ht claims.nodup
  obtain ⟨x1, -⟩ := claims_exact ht claims.nodup
  obtain ⟨y1, y2⟩ := claims_kept ht
  simp only [List.nil_append] at e7
  simp only at x1 y1 y2
  have hcoll : t.1.acc.collPart = acc.collPart := by
    rw [claims_collPart ht]
    unfold VAccount.collPart Account.collPart
    simp only
    rw [hv1.2.1, hv1.2.2.2]
  have hsub : (t.2.2.map Prod.fst).Nodup := by
    rw [e7]
    exact List.Nodup.sublist (List.Sublist.map _ List.filter_sublist) claims.nodup
  have hmem : ∀ e ∈ t.2.2, e ∈ claims.entries ∧ e.1 ≠ BASE := by
    intro e he
    rw [e7, List.mem_filter] at he
    exact ⟨he.1, by simpa using he.2⟩
  have hle' : ∀ e ∈ t.2.2, e.2 ≤ (t.1.acc.comp.collateral.get e.1).getD 0 := by
    -- every claim kept was within the balance when it was checked
    intro e he
    have hch : ∀ (l : List (Res × Dec)) (t t' : W × List Bucket × List (Res × Dec)), l.foldlM (claimOne c.env) t = Except.ok t' →
        ∀ e ∈ l, e.1 ≠ BASE → e.2 ≤ (t.1.acc.collateralBalances.get e.1).getD 0 := by
      intro l
      induction l with
      | nil => intro _ _ _ e he; cases he
      | cons e0 l ih =>
        intro t t' h e he hb
        simp only [List.foldlM_cons, bind_ok] at h
        obtain ⟨t1, h1, h2⟩ := h
        have hc1 : t1.1.acc.collateralBalances = t.1.acc.collateralBalances := by
          rcases claimOne_ok h1 with ⟨-, -, -, pool, x, w', hp, hw, rfl⟩ | ⟨-, -, rfl⟩
          · rw [settleAccount_ok hw]
          · rfl
        rcases List.mem_cons.mp he with rfl | he
        · rcases claimOne_ok h1 with ⟨hb', -⟩ | ⟨-, hle, -⟩
          · exact absurd hb' hb
          · exact hle
        · rw [← hc1]; exact ih t1 t' h2 e he hb
    have := hch _ _ _ ht e (hmem e he).1 (hmem e he).2
    simp only at this
    rw [hv1.2.1] at this
    have hvault := hinv.vault e.1
    have hc2 : t.1.acc.comp.collateral = acc.collateral := by
      have := congrArg (fun z => z.2.2) hcoll; exact this
    rw [hc2, ← show (acc.collateralBalances.get e.1).getD 0 = (acc.collateral.get e.1).getD 0 from hvault]
    exact this
  have hcb : t.1.acc.collateralBalances = acc.collateralBalances := congrArg (fun z => z.1) hcoll
  have hccb : t.1.acc.comp.collateralBalances = acc.collateralBalances := congrArg (fun z => z.2.1) hcoll
  simp only
  refine fails_bind ?_ (fun y hy => ?_)
  · unfold VAccount.withdrawCollateral
    refine fails_bind (vaultTakeBatch_fails hsub hle' (fun e he => ?_) (fun e he hlt => ?_)) (fun y hy => ?_)
    · have hc2 : t.1.acc.comp.collateral = acc.collateral := by
        have := congrArg (fun z => z.2.2) hcoll; exact this
      rw [hc2, ← show (acc.collateralBalances.get e.1).getD 0 = (acc.collateral.get e.1).getD 0 from hinv.vault e.1]
      cases hg : acc.collateralBalances.get e.1 with
      | none => exact le_refl _
      | some x => exact hinv.nonneg e.1 x hg
    · obtain ⟨j1, j2⟩ := hkeys e (hmem e he).1
      exact ⟨e.1, j1, by rw [← j2, ← henv]; exact hlt⟩
    obtain ⟨vs, bs⟩ := y
    obtain ⟨-, hres, -⟩ := takeBatch_total hy
    have hnone : ∀ b ∈ bs, acc.collateralBalances.get b.res = none →
        WithdrawalRefused env s acc q u .insufficientBalance := by
      intro b hb hn
      have : b.res ∈ t.2.2.map Prod.fst := by rw [← hres]; exact List.mem_map_of_mem hb
      obtain ⟨e, he, heq⟩ := List.mem_map.mp this
      obtain ⟨j1, -⟩ := hkeys e (hmem e he).1
      refine ⟨e.1, j1, Or.inr ⟨(hmem e he).2, Or.inr ?_⟩⟩
      rw [heq]; exact hn
    refine fails_bind (balanceSubBatch_fails hP (by rw [hres]; exact hsub) (by rw [hccb]; exact hnone)) (fun _ _ => ?_)
    refine fails_bind (balanceSubBatch_fails hP (by rw [hres]; exact hsub) (by rw [hcb]; exact hnone)) (fun _ _ => fails_pure _)
  obtain ⟨acc2, bs⟩ := y
  have htake := withdrawCollateral_take hy
  have honly := withdrawCollateral_collOnly hy
  unfold CollOnly at honly
  have hpos2 : acc2.positions = acc.positions := by rw [honly, y2]; exact hv1.1
  have hreb2 : acc2.rebate = va.rebate := by rw [← hreb, honly, y2]; rfl
  have hvb2 : acc2.vb = acc.vb - amountFor (env.gran BASE) (claimed q.claims BASE) .toZero := by
    have : acc2.vb = t.1.acc.vb := by rw [honly]
    rw [this, x1, hv1.2.2.1, henv, claimed_entries, hget]
  refine fails_bind (fails_require (fun hn => ?_)) (fun _ _ => ?_)
  · rw [henv] at hn; exact hn
  refine fails_bind (assertAccountIntegrity_fails h hf ?_ ?_ hP ?_) (fun _ _ => fails_pure _)
  · intro p hp; rw [y1]; exact hh p hp
  · rw [hpos2]; exact hids
  intro hkn hcc hbad
  have hkn' : ∀ p x, acc2.positions.get p = some x → c.Known pool p := by
    intro p x hp
    obtain ⟨z1, z2, z3⟩ := hkn p x hp
    rw [y1] at z3
    exact ⟨z1, z2, z3⟩
  have hm : c.market t.1.pool = c.market pool := by unfold Ctx.market; rw [y1]
  rw [hm] at hbad
  have hag := midway_agree (v := pool) hk (by rw [hpool]; exact poolCoh_new _ _ _) hkn' hcc
  rw [hag.value, hag.margin] at hbad
  have hmk : (s1.midway pool).market = (s.priced u).market := by
    have hp1 : s1.oracle.prices = s.pricesWith u := (maybePush_prices hpush).1
    have hp2 : (s1.midway pool).pool = s.pool := by rw [hpool]; exact VPool.realize_new _ _ _
    unfold State.market
    rw [hp2]
    unfold State.midway State.priced
    simp only [hp1, k1, k2]
  rw [hmk] at hbad
  refine ⟨{ acc with vb := acc2.vb, collateralBalances := acc2.collateralBalances }, ⟨rfl, hvb2, fun r => ?_⟩, ?_⟩
  · have hsb := subBatch_get htake.virt r
    rw [hcoll] at hsb
    have hbs := takeBatch_exact htake.vault
    have htb : totalOf bs r = amountFor (c.env.gran r) (claimed t.2.2 r) .toZero := by rw [hbs]; exact totalOf_takes hsub r
    have hcl2 : claimed t.2.2 r = if r = BASE then 0 else claimed q.claims r := by
      split
      · rename_i hrb
        unfold claimed
        rw [e7, List.filter_filter, List.filter_eq_nil_iff.mpr]; · rfl
        intro b _; rw [hrb]; simp
      · rename_i hrb
        rw [← hget, ← claimed_entries]
        unfold claimed
        rw [e7, List.filter_filter]
        congr 2
        refine List.filter_congr (fun e _ => ?_)
        by_cases he : e.1 = r
        · simp [he, hrb]
        · simp [he]
    change (acc2.collateralBalances.get r).getD 0 = _
    have hsb' : (acc2.collateralBalances.get r).getD 0 = (acc.collateralBalances.get r).getD 0 - totalOf bs r := hsb
    rw [hsb', htb, hcl2, henv]
    split
    · rw [amountFor_zero]
    · rfl
  · have hrb : (s.priced u).rebateOf { acc with vb := acc2.vb, collateralBalances := acc2.collateralBalances } = acc2.rebate := by
      rw [hreb2, ← load_rebateOf hv ha]; rfl
    unfold State.accountValue State.initialMargin
    rw [hrb]
    simp only
    rw [← hpos2]
    exact hbad

end

/-! ## Executing a request -/

/-- **Specification.** Why processing a request can be refused: the account or the request does not exist, the request was
invalidated, is not due or not pending any more, or — when it is due — the order or the withdrawal it contains is refused. -/
def RequestRefused (env : Env) (s : State) (a : Addr) (i : Nat) (u : Option PriceUpdate) : Err → Prop
  | .invalidMarginAccount => s.accounts.get a = none
  | .arithmetic => True
  | .processBeforeStart => ∃ acc, s.accounts.get a = some acc ∧ i < acc.validStart
  | .processNotActive => ∃ (acc : Account) (kr : KeeperRequest), s.accounts.get a = some acc ∧ acc.requests[i]? = some kr ∧
      ((s.now < kr.expiry ∧ kr.status ≠ STATUS_ACTIVE) ∨
        (kr.expiry ≤ s.now ∧ kr.status ≠ STATUS_ACTIVE ∧ kr.status ≠ STATUS_DORMANT))
  | .processBeforeSubmission => ∃ (acc : Account) (kr : KeeperRequest), s.accounts.get a = some acc ∧
      acc.requests[i]? = some kr ∧ s.now ≤ kr.submission
  | e => ∃ acc : Account, s.accounts.get a = some acc ∧
      ((e = .missingRequest ∧ acc.requests.length ≤ i) ∨
       ∃ kr : KeeperRequest, acc.requests[i]? = some kr ∧ acc.validStart ≤ i ∧ kr.submission < s.now ∧ s.now < kr.expiry ∧
        kr.status = STATUS_ACTIVE ∧
        match kr.request with
        | .marginOrder q => OrderRefused env s acc q u e
        | .removeCollateral q => WithdrawalRefused env s acc q u e)

theorem requestRefused_of {env : Env} {s : State} {a : Addr} {i : Nat} {u : Option PriceUpdate} {acc : Account}
    {kr : KeeperRequest} (ha : s.accounts.get a = some acc) (hr : acc.requests[i]? = some kr) (h0 : acc.validStart ≤ i)
    (h1 : kr.submission < s.now) (h2 : s.now < kr.expiry) (h3 : kr.status = STATUS_ACTIVE) {e : Err}
    (he : match kr.request with
        | .marginOrder q => OrderRefused env s acc q u e
        | .removeCollateral q => WithdrawalRefused env s acc q u e) : RequestRefused env s a i u e := by
  have hno : e = .invalidMarginAccount ∨ e = .processBeforeStart ∨ e = .processNotActive ∨ e = .processBeforeSubmission → False := by
    intro h
    split at he <;> rcases h with rfl | rfl | rfl | rfl <;> exact he
  have key : ∃ acc : Account, s.accounts.get a = some acc ∧
      ((e = .missingRequest ∧ acc.requests.length ≤ i) ∨
       ∃ kr : KeeperRequest, acc.requests[i]? = some kr ∧ acc.validStart ≤ i ∧ kr.submission < s.now ∧ s.now < kr.expiry ∧
        kr.status = STATUS_ACTIVE ∧
        match kr.request with
        | .marginOrder q => OrderRefused env s acc q u e
        | .removeCollateral q => WithdrawalRefused env s acc q u e) :=
    ⟨acc, ha, Or.inr ⟨kr, hr, h0, h1, h2, h3, he⟩⟩
  cases e <;> first
    | exact key
    | exact trivial
    | exact (hno (by simp)).elim

/-- **C54, requests.** Every refusal to process a request has the reason of the specification. -/
theorem c54_request {env : Env} {cl : Caller} {s : State} (h : Reach env s) (hw : s.RewardWhole env) {a : Addr}
    {i : Nat} {u : Option PriceUpdate} {e : Err} (hp : Permitted cl s (.processRequest a i u))
    (hs : step env cl s (.processRequest a i u) = Except.error e) : RequestRefused env s a i u e := by
  rw [step_permitted hp] at hs
  revert hs e
  change Fails _ (processRequest env s a i u)
  have har : RequestRefused env s a i u .arithmetic := trivial
  unfold processRequest
  refine fails_bind (load_fails h a (fun h => h)) (fun v hv => ?_)
  obtain ⟨acc, rd, ha, -, hv'⟩ := load_ok hv
  have hkr : ∀ kr, v.keeperRequest i = Except.ok kr → acc.requests[i]? = some kr := by
    intro kr hk
    obtain ⟨acc', ha', hr⟩ := keeperRequest_load hv hk
    rw [ha] at ha'; cases ha'; exact hr
  have hstart : v.validStart = acc.validStart := by rw [hv']
  refine fails_bind ?_ (fun x hpr => ?_)
  · unfold VAccount.processRequest
    refine fails_bind (fails_check (fun hn => ⟨acc, ha, by rw [hstart] at hn; exact not_le.mp hn⟩)) (fun _ _ => ?_)
    refine fails_bind ?_ (fun kr hk => ?_)
    · have : v.requestUpdates.get i = none := by rw [hv']; rfl
      unfold VAccount.keeperRequest
      rw [this]
      refine fails_expect (fun hn => ⟨acc, ha, Or.inl ⟨rfl, ?_⟩⟩)
      have : v.comp.requests = acc.requests := by rw [hv']
      rw [this] at hn
      exact List.getElem?_eq_none_iff.mp hn
    have hreq := hkr kr hk
    refine fails_bind ?_ (fun st _ => ?_)
    · unfold processStatus
      split
      · rename_i hexp
        refine fails_bind (fails_require (fun hn => ⟨acc, kr, ha, hreq, Or.inr ⟨hexp, ?_⟩⟩)) (fun _ _ => fails_pure _)
        have := mt (pending_iff (s := kr.status)).mpr (by rw [hn]; simp)
        push Not at this
        exact ⟨this.1, this.2⟩
      · rename_i hexp
        exact fails_bind (fails_check (fun hn => ⟨acc, kr, ha, hreq, Or.inl ⟨not_le.mp hexp, hn⟩⟩)) (fun _ _ => fails_pure _)
    refine fails_bind (fails_check (fun hn => ⟨acc, kr, ha, hreq, not_lt.mp hn⟩)) (fun _ _ => ?_)
    refine fails_bind (Errs.arithmetic (by unfold VAccount.removeActive; errs) har) (fun _ _ => fails_pure _)
  obtain ⟨v1, r, expired⟩ := x
  have hids := process_pairs h hv hpr
  have hro := processRequest_reqOnly hpr
  obtain ⟨kr, st, g1, hk, g3, g4, -, -, hrk, hexp⟩ := processRequest_virtual_ok hpr
  have hreq := hkr kr hk
  rw [hstart] at g1
  refine fails_bind (fails_of_ok (VConfig.new_total hids)) (fun cfg hcfg => ?_)
  have hi := (load_rinv hv (reach_requestsOk h)).1
  obtain ⟨hi1, honly, -⟩ := processRequest_inv hi hpr
  have href : RefOk s.referrals v1 := by
    have := load_refOk hv
    unfold ReqOnly at honly; rw [honly]; exact this
  refine fails_bind ?_ (fun y _ => fails_bind ((keeper_mint h hw hcfg y.1).arithmetic har) (fun _ _ => fails_pure _))
  unfold processBody
  cases expired with
  | true =>
    rw [if_pos rfl]
    exact fails_bind (fails_of_ok (commitAcc_total hi1 href)) (fun _ _ => fails_pure _)
  | false =>
    rw [if_neg (by simp)]
    have hlt : s.now < kr.expiry := by
      rw [eq_comm, decide_eq_false_iff_not] at hexp
      exact not_le.mp hexp
    have hst : kr.status = STATUS_ACTIVE := by
      unfold processStatus at g3
      rw [if_neg (not_le.mpr hlt)] at g3
      simp only [bind_ok, require_ok, decide_eq_true_eq] at g3
      exact g3.choose_spec.1
    have hpid : v1.positionIds = acc.positions.keys := by
      unfold ReqOnly at hro; rw [hro, hv']; rfl
    have hgo : ∀ {e}, (match kr.request with
        | .marginOrder q => OrderRefused env s acc q u e
        | .removeCollateral q => WithdrawalRefused env s acc q u e) → RequestRefused env s a i u e :=
      fun he => requestRefused_of ha hreq g1 g4 hlt hst he
    cases hrq : kr.request with
    | marginOrder q =>
      rw [hrq] at hrk hgo
      subst hrk
      refine fails_bind ((keeperLoad_fails hids).mono (fun e he => hgo ?_)) (fun z hz => ?_)
      · simp only [requestPairs, hpid] at he
        cases e <;> first | exact False.elim he | exact he
      obtain ⟨s1, c, pool⟩ := z
      refine fails_bind ?_ (fun t ht => ?_)
      · refine fails_bind (Fails.mono (marginOrder_fails h hz hv ha hro ?_ ?_) (fun e he => hgo he)) (fun _ _ => fails_pure _)
        · intro p hp; simp only [requestPairs, hpid]; exact mem_insertId.mpr (Or.inr hp)
        · simp only [requestPairs]; exact mem_insertId.mpr (Or.inl rfl)
      obtain ⟨w, out⟩ := t
      exact fails_bind (fails_of_ok (keeper_commit hz (executeRequest_rinv ht hi1)
        (refOk_path (executeRequest_path ht) href))) (fun _ _ => fails_pure _)
    | removeCollateral q =>
      rw [hrq] at hrk hgo
      subst hrk
      refine fails_bind ((keeperLoad_fails hids).mono (fun e he => hgo ?_)) (fun z hz => ?_)
      · simp only [requestPairs, hpid] at he
        cases e <;> first | exact False.elim he | exact he
      obtain ⟨s1, c, pool⟩ := z
      refine fails_bind ?_ (fun t ht => ?_)
      · refine fails_bind (Fails.mono (removeCollateral_fails h hz hv ha hro ?_) (fun e he => hgo he)) (fun _ _ => fails_pure _)
        intro p hp; simp only [requestPairs, hpid]; exact hp
      obtain ⟨w, out⟩ := t
      exact fails_bind (fails_of_ok (keeper_commit hz (executeRequest_rinv ht hi1)
        (refOk_path (executeRequest_path ht) href))) (fun _ _ => fails_pure _)

end Perp
