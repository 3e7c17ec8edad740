import Verif.OrderX

/-!
# Iteration order (C62): withdrawals
-/

namespace Perp

/-- A loop that only touches a part of its state. -/
theorem foldlM_emb {A B E : Type} (emb : B → A) {f : A → E → R A} {g : B → E → R B}
    (h : ∀ b e, f (emb b) e = g b e >>= fun x => pure (emb x)) :
    ∀ (l : List E) (b : B), l.foldlM f (emb b) = (l.foldlM g b >>= fun x => pure (emb x) : R A) := by
  intro l
  induction l with
  | nil => intro b; rfl
  | cons e l ih =>
    intro b
    simp only [List.foldlM_cons, h, bind_assoc, pure_bind]
    exact bind_congr fun x => ih x

theorem addClaim_agree {m m' : AMap Res Dec} (hm : m.Same m') {l l' : List (Res × Dec)} (hl : l.Perm l') :
    Agree AMap.Same (l.foldlM addClaim m) (l'.foldlM addClaim m') := by
  let ψ : (Res → Option Dec) → Res × Dec → Res → Option Dec := fun b e =>
    Function.update b e.1 (some ((b e.1).getD 0 + e.2))
  have ok : ∀ (e : Res × Dec) (m m1 : AMap Res Dec), addClaim m e = Except.ok m1 → m1.get = ψ m.get e := by
    intro e m m1 h
    unfold addClaim at h
    simp only [ψ]
    cases hg : m.get e.1 with
    | none =>
      rw [hg] at h
      cases h
      rw [get_set_update]
      simp
    | some x =>
      rw [hg] at h
      simp only [bind_ok, pure_ok, dadd_ok] at h
      obtain ⟨_, ⟨-, rfl⟩, rfl⟩ := h
      rw [get_set_update]
      simp
  have err : ∀ (e : Res × Dec) (m : AMap Res Dec) x, addClaim m e = Except.error x → x = .arithmetic := by
    intro e m x h
    have : Errs arith (addClaim m e) := by unfold addClaim; errs
    simpa [arith] using this x h
  refine (foldlM_agree (φ := fun m : AMap Res Dec => m.get) (φ' := fun m : AMap Res Dec => m.get) (η := id) (η' := id)
    ψ (fun _ _ => True) (fun _ => True) (by simpa using hl) (fun e _ m m1 _ h => ⟨ok e m m1 h, trivial⟩)
    (fun e _ m x _ h => .inl (err e m x h)) (fun e _ m m1 _ h => ⟨ok e m m1 h, trivial⟩)
    (fun e _ m x _ h => .inl (err e m x h)) (fun _ _ _ _ _ => trivial) ?_
    (List.pairwise_of_forall fun _ _ _ => ⟨Iff.rfl, Iff.rfl⟩) (funext hm) trivial).mono fun a b h => congrFun h
  intro x _ y _ b
  funext q
  simp only [ψ, Function.update_apply]
  by_cases h1 : q = x.1 <;> by_cases h2 : q = y.1
  · have h3 : y.1 = x.1 := h2.symm.trans h1
    simp [h1, h3, Int.add_right_comm]
  · have h3 : x.1 ≠ y.1 := fun e => h2 (h1.trans e)
    simp [h1, h3]
  · have h3 : y.1 ≠ x.1 := fun e => h1 (h2.trans e)
    simp [h2, h3]
  · simp [h1, h2]

/-- The part of the state a withdrawal changes before the vaults are opened. -/
structure Till where
  base : Dec
  tok : Dec
  pvb : Dec
  avb : Dec
  paid : List Bucket
  kept : List (Res × Dec)

def Till.emb (w : W) (t : Till) : W × List Bucket × List (Res × Dec) :=
  let comp : Pool := { w.pool.comp with baseTokens := t.tok }
  let pool : VPool := { w.pool with base := t.base, comp, vb := t.pvb }
  ({ w with pool, acc := { w.acc with vb := t.avb } }, t.paid, t.kept)

/-- `claimOne` on that part: exchange.rs:2076-2100 -/
def Till.claim (env : Env) (cb : AMap Res Dec) (t : Till) (e : Res × Dec) : R Till :=
  if e.1 = BASE then do
    require (decide (e.2 ≤ t.avb)) .insufficientBalance
    require (decide (e.2 ≤ t.base)) .insufficientPoolTokens
    let x ← takeAmount (env.gran BASE) t.tok e.2 .toZero
    let base ← dsub t.base x
    let tok ← dsub t.tok x
    let n ← dneg x
    let m ← dneg n
    let pvb ← dadd t.pvb m
    let avb ← dadd t.avb n
    pure { t with base, tok, pvb, avb, paid := t.paid ++ [⟨BASE, x⟩] }
  else do
    require (decide (e.2 ≤ cb.getD e.1 0)) .insufficientBalance
    pure { t with kept := t.kept ++ [e] }

theorem claimOne_till (env : Env) (w : W) (t : Till) (e : Res × Dec) :
    claimOne env (t.emb w) e = t.claim env w.acc.collateralBalances e >>= fun x => pure (x.emb w) := by
  unfold claimOne Till.claim
  by_cases h : e.1 = BASE
  · simp only [h, if_true, Till.emb, VPool.withdraw, settleAccount, VPool.addVb, VAccount.addVb, bind_assoc, pure_bind]
    rfl
  · simp only [h, if_false, Till.emb, VAccount.collateralAmount, bind_assoc, pure_bind]
    rfl

/-- The part without order. -/
def Till.obs (t : Till) :=
  (t.base, t.tok, t.pvb, t.avb, (t.paid : Multiset Bucket), (t.kept : Multiset (Res × Dec)))

theorem till_agree (env : Env) {cb cb' : AMap Res Dec} (hcb : cb.Same cb') {l l' : List (Res × Dec)} (hl : l.Perm l')
    (hn : (l.map Prod.fst).Nodup) (t : Till) :
    Agree (fun t t' => t.obs = t'.obs) (l.foldlM (Till.claim env cb) t) (l'.foldlM (Till.claim env cb') t) := by
  let B := Dec × Dec × Dec × Dec × Multiset Bucket × Multiset (Res × Dec)
  let am : Dec → Dec := fun a => amountFor (env.gran BASE) a .toZero
  let ψ : B → Res × Dec → B := fun b e =>
    if e.1 = BASE then
      (b.1 - am e.2, b.2.1 - am e.2, b.2.2.1 + am e.2, b.2.2.2.1 - am e.2, b.2.2.2.2.1 + {⟨BASE, am e.2⟩}, b.2.2.2.2.2)
    else (b.1, b.2.1, b.2.2.1, b.2.2.2.1, b.2.2.2.2.1, b.2.2.2.2.2 + {e})
  let P : B → Res × Dec → Prop := fun b e =>
    if e.1 = BASE then e.2 ≤ b.2.2.2.1 ∧ e.2 ≤ b.1 ∧ ∃ x, takeAmount (env.gran BASE) b.2.1 e.2 .toZero = Except.ok x
    else e.2 ≤ cb'.getD e.1 0
  have ok : ∀ (cb : AMap Res Dec), cb.Same cb' → ∀ (e : Res × Dec) (t t1 : Till), t.claim env cb e = Except.ok t1 →
      t1.obs = ψ t.obs e ∧ P t.obs e := by
    intro cb hcb e t t1 h
    unfold Till.claim at h
    simp only [ψ, P]
    by_cases hb : e.1 = BASE
    · simp only [hb, if_true, bind_ok, pure_ok, require_ok, decide_eq_true_eq, dsub_ok, dneg_ok, dadd_ok] at h
      obtain ⟨-, h1, -, h2, x, h3, _, ⟨-, rfl⟩, _, ⟨-, rfl⟩, _, ⟨-, rfl⟩, _, ⟨-, rfl⟩, _, ⟨-, rfl⟩, _, ⟨-, rfl⟩, rfl⟩ := h
      have hx : x = am e.2 := ((takeAmount_ok.mp h3).1).symm
      subst hx
      rw [if_pos hb, if_pos hb]
      refine ⟨?_, h1, h2, _, h3⟩
      simp only [Till.obs, ← Multiset.coe_add, Multiset.coe_singleton, Int.neg_neg, Int.sub_eq_add_neg]
    · simp only [hb, if_false, bind_ok, pure_ok, require_ok, decide_eq_true_eq] at h
      obtain ⟨-, h1, rfl⟩ := h
      rw [if_neg hb, if_neg hb]
      refine ⟨?_, by rwa [hcb.getD] at h1⟩
      simp only [Till.obs, ← Multiset.coe_add, Multiset.coe_singleton]
  have err : ∀ (cb : AMap Res Dec), cb.Same cb' → ∀ (e : Res × Dec) (t : Till) x, t.claim env cb e = Except.error x →
      x = .arithmetic ∨ ¬ P t.obs e := by
    intro cb hcb e t x h
    by_cases hp : P t.obs e
    · left
      have : Errs arith (t.claim env cb e) := by
        unfold Till.claim
        simp only [P] at hp
        by_cases hb : e.1 = BASE
        · rw [if_pos hb] at hp ⊢
          obtain ⟨h1, h2, h3⟩ := hp
          refine errs_bind (errs_require_true (decide_eq_true h1)) fun _ _ => ?_
          refine errs_bind (errs_require_true (decide_eq_true h2)) fun _ _ => ?_
          refine errs_bind (errs_of_ok h3) fun _ _ => ?_
          errs
        · rw [if_neg hb] at hp ⊢
          refine errs_bind (errs_require_true (decide_eq_true (by rwa [hcb.getD]))) fun _ _ => ?_
          errs
      simpa [arith] using this x h
    · exact .inr hp
  refine foldlM_agree (φ := Till.obs) (φ' := Till.obs) (η := id) (η' := id) ψ P (fun _ => True) (by simpa using hl)
    (fun e _ t t1 _ h => ok cb hcb e t t1 h) (fun e _ t x _ h => err cb hcb e t x h)
    (fun e _ t t1 _ h => ok cb' (AMap.Same.refl _) e t t1 h) (fun e _ t x _ h => err cb' (AMap.Same.refl _) e t x h)
    (fun _ _ _ _ _ => trivial) ?_ ?_ rfl trivial
  · intro x hx y hy b
    simp only [List.map_id] at hx hy
    by_cases h1 : x.1 = BASE <;> by_cases h2 : y.1 = BASE
    · have : x = y := List.inj_on_of_nodup_map hn hx hy (h1.trans h2.symm)
      rw [this]
    · simp only [ψ, h1, h2, if_true, if_false]
    · simp only [ψ, h1, h2, if_true, if_false]
    · simp only [ψ, h1, h2, if_false, Multiset.add_assoc, Multiset.add_comm {x} {y}]
  · rw [List.Nodup, List.pairwise_map] at hn
    rw [List.map_id]
    refine hn.imp fun {x y} hk b => ?_
    by_cases h1 : x.1 = BASE <;> by_cases h2 : y.1 = BASE
    · exact absurd (h1.trans h2.symm) hk
    · simp only [ψ, P, h1, h2, if_true, if_false, and_self]
    · simp only [ψ, P, h1, h2, if_true, if_false, and_self]
    · simp only [ψ, P, h1, h2, if_false, and_self]

theorem till_kept {env : Env} {cb : AMap Res Dec} : ∀ {l : List (Res × Dec)} {t t1 : Till},
    l.foldlM (Till.claim env cb) t = Except.ok t1 → t1.kept.Sublist (t.kept ++ l) := by
  intro l
  induction l with
  | nil => intro t t1 h; cases h; simp
  | cons e l ih =>
    intro t t1 h
    rw [List.foldlM_cons] at h
    obtain ⟨t2, h1, h2⟩ := bind_ok.mp h
    have := ih h2
    unfold Till.claim at h1
    split at h1
    · simp only [bind_ok, pure_ok] at h1
      obtain ⟨-, -, -, -, _, -, _, -, _, -, _, -, _, -, _, -, _, -, rfl⟩ := h1
      exact this.trans (List.Sublist.append_left (List.sublist_cons_self e l) _)
    · simp only [bind_ok, pure_ok] at h1
      obtain ⟨-, -, rfl⟩ := h1
      simpa using this

theorem removeCollateral_agree {c c' : Ctx} {w w' : W} (hc : c.Same c') (hw : w.Same w') {r r' : RemoveCollateralReq}
    (ht : r.target = r'.target) (hr : r.claims.Perm r'.claims) :
    Agree (fun x x' => x.1.Same x'.1 ∧ x.2.Perm x'.2) (removeCollateral c w r) (removeCollateral c' w' r') := by
  unfold removeCollateral
  rw [hc.env, ht]
  refine Agree.bind (addClaim_agree (AMap.Same.refl _) hr) fun m m' _ _ hm => ?_
  let t0 : Till := ⟨w.pool.base, w.pool.comp.baseTokens, w.pool.vb, w.acc.vb, [], []⟩
  have e1 : (w, ([] : List Bucket), ([] : List (Res × Dec))) = t0.emb w := rfl
  have e2 : (w', ([] : List Bucket), ([] : List (Res × Dec))) = t0.emb w' := by
    simp only [t0, Till.emb, hw.pool.base, hw.pool.comp, hw.pool.vb, hw.acc.vb]
  rw [e1, e2, foldlM_emb (Till.emb w) (claimOne_till c'.env w), foldlM_emb (Till.emb w') (claimOne_till c'.env w')]
  simp only [bind_assoc, pure_bind]
  refine Agree.bind (till_agree c'.env hw.acc.collateralBalances hm.perm m.nodup t0) fun t t' k1 _ kt => ?_
  simp only [Till.obs, Prod.mk.injEq, Multiset.coe_eq_coe] at kt
  obtain ⟨q1, q2, q3, q4, q5, q6⟩ := kt
  have hW : (t.emb w).1.Same (t'.emb w').1 :=
    ⟨{ hw.pool with base := q1, comp := q2, vb := q3 },
     { hw.acc with vb := q4 }, hw.dist⟩
  have hn : (t.kept.map Prod.fst).Nodup :=
    ((till_kept k1 : t.kept.Sublist m.entries).map Prod.fst).nodup m.nodup
  refine Agree.bind (hW.acc.withdrawCollateral c'.env q6 hn .toZero) fun x x' _ _ hx => ?_
  refine Agree.require rfl fun _ => ?_
  refine Agree.unit (assertAccountIntegrity_agree hc hW.pool hx.1) ?_
  exact Agree.pure ⟨⟨hW.pool, hx.1, hw.dist⟩, q5.append hx.2⟩

end Perp
