import Verif.OrderM

/-!
# Iteration order (C62): referral codes and allocations
-/

namespace Perp

/-- Two referral stores with the same content. -/
structure RefGen.Same (g g' : RefGen) : Prop where
  vaults : g.vaults.Same g'.vaults
  allocations : g.allocations.Same g'.allocations
  codes : g.codes.Same g'.codes

/-! ## Totals of the claims -/

/-- What one claim adds to a total. -/
def bump (x : Res → Option Dec) (r : Res) (d : Dec) : Res → Option Dec :=
  Function.update x r (some ((x r).getD 0 + d))

/-- Adding totals. -/
def addAll (c x : Res → Option Dec) : Res → Option Dec := fun r =>
  match x r with
  | none => c r
  | some d => some ((c r).getD 0 + d)

theorem addAll_none (c : Res → Option Dec) : addAll c (fun _ => none) = c := rfl

theorem addAll_bump (c x : Res → Option Dec) (r : Res) (d : Dec) : addAll c (bump x r d) = bump (addAll c x) r d := by
  funext q
  unfold addAll bump
  by_cases hq : q = r
  · subst hq
    simp only [Function.update_self]
    cases x q <;> simp [Int.add_assoc]
  · simp only [Function.update_of_ne hq]

theorem addAll_comm (c x y : Res → Option Dec) : addAll (addAll c x) y = addAll (addAll c y) x := by
  funext r
  unfold addAll
  cases x r <;> cases y r <;> simp [Int.add_right_comm]

/-- The totals of a list of claims, without overflow. -/
def claimsGot (n : Nat) (cs : List (Res × Dec)) (x : Res → Option Dec) : R (Res → Option Dec) :=
  cs.foldlM (fun x e => do
    require (decide (0 < e.2)) .claimAmount
    pure (bump x e.1 (mulT e.2 (ofInt n)))) x

theorem totalClaim_bump {n : Nat} {m m1 : AMap Res Dec} {e : Res × Dec} (h : totalClaim n m e = Except.ok m1) :
    0 < e.2 ∧ m1.get = bump m.get e.1 (mulT e.2 (ofInt n)) := by
  simp only [totalClaim, bind_ok, require_ok, pure_ok, dmul_ok, dadd_ok, decide_eq_true_eq] at h
  obtain ⟨-, h0, x, ⟨-, rfl⟩, y, ⟨-, rfl⟩, rfl⟩ := h
  exact ⟨h0, by rw [get_set_update]; rfl⟩

theorem claims_total {n : Nat} : ∀ (cs : List (Res × Dec)) {m m1 : AMap Res Dec} {m0 x : Res → Option Dec},
    m.get = addAll m0 x → cs.foldlM (totalClaim n) m = Except.ok m1 →
    ∃ k, claimsGot n cs x = Except.ok k ∧ m1.get = addAll m0 k := by
  intro cs
  induction cs with
  | nil => intro m m1 m0 x hm h; cases h; exact ⟨x, rfl, hm⟩
  | cons e cs ih =>
    intro m m1 m0 x hm h
    rw [List.foldlM_cons] at h
    obtain ⟨m2, h1, h2⟩ := bind_ok.mp h
    obtain ⟨h3, h4⟩ := totalClaim_bump h1
    obtain ⟨k, h5, h6⟩ := ih (x := bump x e.1 (mulT e.2 (ofInt n))) (by rw [addAll_bump, ← hm, h4]) h2
    refine ⟨k, ?_, h6⟩
    unfold claimsGot at h5 ⊢
    rw [List.foldlM_cons]
    have : require (decide (0 < e.2)) Err.claimAmount = Except.ok () := by rw [require_ok]; simpa using h3
    rw [this]
    exact h5

theorem claims_fail {n : Nat} : ∀ (cs : List (Res × Dec)) {m : AMap Res Dec} {x : Res → Option Dec} {err : Err},
    cs.foldlM (totalClaim n) m = Except.error err →
    err = .arithmetic ∨ ∃ y, y ≠ Err.arithmetic ∧ claimsGot n cs x = Except.error y := by
  intro cs
  induction cs with
  | nil => intro m x err h; cases h
  | cons e cs ih =>
    intro m x err h
    rw [List.foldlM_cons] at h
    unfold claimsGot
    rw [List.foldlM_cons]
    by_cases h0 : 0 < e.2
    · have hr : require (decide (0 < e.2)) Err.claimAmount = Except.ok () := by rw [require_ok]; simpa using h0
      rw [hr]
      cases h1 : totalClaim n m e with
      | error y =>
        rw [h1] at h
        left
        have h : y = err := by cases h; rfl
        subst h
        unfold totalClaim at h1
        rw [hr] at h1
        have : Errs arith (do
          let x ← dmul e.2 (ofInt n)
          let y ← dadd (m.getD e.1 0) x
          pure (m.set e.1 y)) := by errs
        simpa [arith] using this y h1
      | ok m2 =>
        rw [h1] at h
        exact ih h
    · right
      refine ⟨.claimAmount, by decide, ?_⟩
      have hr : require (decide (0 < e.2)) Err.claimAmount = Except.error .claimAmount := by simp [require, h0]
      rw [hr]; rfl

theorem totals_agree {n : Nat} {m m' : AMap Res Dec} (h : m.Same m') (cs : List (Res × Dec)) :
    Agree AMap.Same (cs.foldlM (totalClaim n) m) (cs.foldlM (totalClaim n) m') := by
  refine foldlM_same_list (fun e _ m m' h => ?_) h
  unfold totalClaim
  rw [h.getD]
  exact Agree.require rfl fun _ => Agree.bind_same fun _ _ => Agree.bind_same fun _ _ => Agree.pure (h.set _ _)

/-- The totals over codes in another order. -/
theorem codeTotals_agree {hs hs' : AMap Hash (List (Res × Dec) × Nat)} (hh : hs.Same hs') :
    Agree AMap.Same (hs.entries.foldlM codeTotals AMap.empty) (hs'.entries.foldlM codeTotals AMap.empty) := by
  let g : Hash × (List (Res × Dec) × Nat) → R (Res → Option Dec) := fun e =>
    if e.2.2 = 1 then claimsGot 1 e.2.1 (fun _ => none)
    else do
      require (decide (e.2.1.length = 0)) .multiUseWithClaims
      pure (fun _ => none)
  have ok : ∀ (e : Hash × (List (Res × Dec) × Nat)) (m m1 : AMap Res Dec), codeTotals m e = Except.ok m1 →
      ∃ k, g e = Except.ok k ∧ m1.get = addAll m.get k := by
    intro e m m1 h
    unfold codeTotals at h
    simp only [g]
    split at h
    · next h1 => rw [if_pos h1]; exact claims_total _ rfl h
    · next h1 =>
      rw [if_neg h1]
      simp only [bind_ok, require_ok, pure_ok] at h
      obtain ⟨-, h2, rfl⟩ := h
      exact ⟨_, by rw [(require_ok (u := ())).mpr h2]; rfl, rfl⟩
  have bad : ∀ (e : Hash × (List (Res × Dec) × Nat)) (m : AMap Res Dec) x, codeTotals m e = Except.error x →
      x = .arithmetic ∨ ∃ y, y ≠ Err.arithmetic ∧ g e = Except.error y := by
    intro e m x h
    unfold codeTotals at h
    simp only [g]
    split at h
    · next h1 => rw [if_pos h1]; exact claims_fail _ h
    · next h1 =>
      rw [if_neg h1]
      right
      refine ⟨.multiUseWithClaims, by decide, ?_⟩
      cases hl : decide (e.2.1.length = 0) with
      | true => rw [hl] at h; cases h
      | false => rfl
  refine (accum_agree (η := id) (η' := id) g addAll addAll_comm (fun m : AMap Res Dec => m.get) (fun m => m.get)
    (by simpa using hh.perm) (fun e _ => ok e) (fun e _ => bad e) (fun e _ => ok e) (fun e _ => bad e) rfl).mono ?_
  exact fun a b h => congrFun h

/-! ## Splitting tokens -/

theorem takeClaims_kept {env : Env} : ∀ {l : List (Res × Dec)} {t t1 : AMap Res Dec × List Bucket},
    l.foldlM (takeClaim env) t = Except.ok t1 → (t1.2.map Bucket.res).Sublist (t.2.map Bucket.res ++ l.map Prod.fst) := by
  intro l
  induction l with
  | nil => intro t t1 h; cases h; simp
  | cons e l ih =>
    intro t t1 h
    rw [List.foldlM_cons] at h
    obtain ⟨t2, h1, h2⟩ := bind_ok.mp h
    have := ih h2
    unfold takeClaim at h1
    split at h1
    · simp only [bind_ok, pure_ok, require_ok] at h1
      obtain ⟨-, -, x, -, rfl⟩ := h1
      simpa using this
    · simp only [bind_ok, pure_ok, require_ok] at h1
      obtain ⟨-, -, rfl⟩ := h1
      exact this.trans (by simp)

theorem takeClaims_agree (env : Env) {m m' : AMap Res Dec} (hm : m.Same m') {ts ts' : AMap Res Dec} (ht : ts.Same ts') :
    Agree (fun t t' => t.1.Same t'.1 ∧ t.2.Perm t'.2 ∧ (t.2.map Bucket.res).Nodup)
      (ts.entries.foldlM (takeClaim env) (m, [])) (ts'.entries.foldlM (takeClaim env) (m', [])) := by
  let g : Res × Dec → Option Dec → R (Option Dec × Multiset Bucket) := fun e slot =>
    match slot with
    | some avail => do
        require (decide (e.2 ≤ avail)) .insufficientToken
        let x ← takeAmount (env.gran e.1) avail e.2 .toInfinity
        pure (some (avail - x), {⟨e.1, x⟩})
    | none => do
        require (decide (e.2 = 0)) .insufficientToken
        pure (none, 0)
  have pass : ∀ e : Res × Dec, Pass Prod.fst g (fun c x => c + x) (fun t : AMap Res Dec × List Bucket => t.1.get)
      (fun t => (t.2 : Multiset Bucket)) (fun t => takeClaim env t e) e := by
    intro e
    refine ⟨fun t t1 h => ?_, fun t x h => ?_⟩
    · unfold takeClaim at h
      simp only [g]
      cases hs : t.1.get e.1 with
      | some avail =>
        simp only [hs, bind_ok, pure_ok, require_ok] at h
        obtain ⟨-, h1, x, h2, rfl⟩ := h
        refine ⟨_, _, by simp only [(require_ok (u := ())).mpr h1, h2]; rfl, get_set_update _ _ _, ?_⟩
        simp only [← Multiset.coe_add, Multiset.coe_singleton]
      | none =>
        simp only [hs, bind_ok, pure_ok, require_ok] at h
        obtain ⟨-, h1, rfl⟩ := h
        refine ⟨_, _, by simp only [(require_ok (u := ())).mpr h1]; rfl, ?_, by simp⟩
        rw [← hs]; exact (Function.update_eq_self _ _).symm
    · by_cases hx : x = .arithmetic
      · exact .inl hx
      · refine .inr ⟨x, hx, ?_⟩
        unfold takeClaim at h
        simp only [g]
        cases hs : t.1.get e.1 with
        | some avail =>
          simp only [hs] at h ⊢
          cases h1 : require (decide (e.2 ≤ avail)) Err.insufficientToken with
          | error y => rw [h1] at h; cases h; rfl
          | ok u =>
            rw [h1] at h
            cases h2 : takeAmount (env.gran e.1) avail e.2 .toInfinity with
            | error y => rw [h2] at h; cases h; rfl
            | ok u => rw [h2] at h; cases h
        | none =>
          simp only [hs] at h ⊢
          cases h1 : require (decide (e.2 = 0)) Err.insufficientToken with
          | error y => rw [h1] at h; cases h; rfl
          | ok u => rw [h1] at h; cases h
  have main := keyed_agree (η := id) (η' := id) Prod.fst g (fun c x => c + x) (fun c x y => add_right_comm c x y)
    (fun t : AMap Res Dec × List Bucket => t.1.get) (fun t => (t.2 : Multiset Bucket))
    (fun t : AMap Res Dec × List Bucket => t.1.get) (fun t => (t.2 : Multiset Bucket))
    (l := ts.entries) (l' := ts'.entries) (by simpa using ht.perm) (by simpa using ts.nodup) (fun b _ => pass b)
    (fun b _ => pass b) (a := (m, [])) (a' := (m', [])) (funext hm) rfl
  refine ⟨fun a b h1 h2 => ?_, main.left, main.right⟩
  have hab := main.both a b h1 h2
  refine ⟨congrFun hab.1, Multiset.coe_eq_coe.mp hab.2, ?_⟩
  exact (takeClaims_kept h1).nodup (by simpa using ts.nodup)

theorem splitTokens_agree (env : Env) (tokens : List Bucket) {ts ts' : AMap Res Dec} (ht : ts.Same ts') :
    Agree (fun t t' => t.1.Perm t'.1 ∧ (t.1.map Bucket.res).Nodup ∧ t.2.Perm t'.2) (splitTokens env tokens ts)
      (splitTokens env tokens ts') := by
  unfold splitTokens
  refine Agree.bind_same fun m _ => Agree.bind (takeClaims_agree env (AMap.Same.refl m) ht) fun t t' _ _ h => ?_
  exact Agree.pure ⟨h.2.1, h.2.2, h.1.perm.map _⟩

/-! ## The methods -/

theorem RefGen.Same.allocs {g g' : RefGen} (h : g.Same g') (r : RefId) : g.allocs r = g'.allocs r := by
  unfold RefGen.allocs; exact h.allocations.getD r _

theorem RefGen.Same.addAllocation {g g' : RefGen} (h : g.Same g') (env : Env) (tokens : List Bucket) (rid : RefId)
    (claims : List (Res × Dec)) (count : Nat) :
    Agree (fun x x' => x.1.Same x'.1 ∧ x.2.1.Perm x'.2.1 ∧ x.2.2 = x'.2.2) (g.addAllocation env tokens rid claims count)
      (g'.addAllocation env tokens rid claims count) := by
  unfold RefGen.addAllocation
  rw [h.allocs]
  refine Agree.bind_same fun ts _ => Agree.bind (splitTokens_agree env tokens (AMap.Same.refl ts)) fun t t' _ _ ht => ?_
  refine Agree.bind (vaultPutBatch_perm h.vaults ht.1 ht.2.1) fun v v' _ _ hv => ?_
  exact Agree.pure ⟨⟨hv, h.allocations.set _ _, h.codes⟩, ht.2.2, rfl⟩

theorem insertCodes_agree {E : Type} (key : E → Hash) (code : E → ReferralCode) {m m' : AMap Hash ReferralCode}
    (hm : m.Same m') {l l' : List E} (hl : l.Perm l') (hn : (l.map key).Nodup) :
    Agree AMap.Same (l.foldlM (fun m e => insertCode m (key e) (code e)) m)
      (l'.foldlM (fun m e => insertCode m (key e) (code e)) m') := by
  let g : E → Option ReferralCode → R (Option ReferralCode × Unit) := fun e slot => do
    require (!slot.isSome) .codeExists
    pure (some (code e), ())
  have pass : ∀ e : E, Pass key g (fun (_ : Unit) _ => ()) (fun m : AMap Hash ReferralCode => m.get) (fun _ => ())
      (fun m => insertCode m (key e) (code e)) e := by
    intro e
    refine Pass.of (fun m r => pure (m.set (key e) (code e))) (fun m => ?_) (fun m r m1 hg h => ?_) (fun _ _ => errs_pure _)
    · simp only [insertCode, g, bind_assoc, pure_bind]
      rfl
    · simp only [g, bind_ok, pure_ok] at hg
      obtain ⟨-, -, rfl⟩ := hg
      cases h
      exact ⟨get_set_update _ _ _, rfl⟩
  refine (keyed_agree (η := id) (η' := id) key g (fun (_ : Unit) _ => ()) (fun _ _ _ => rfl)
    (fun m : AMap Hash ReferralCode => m.get) (fun _ => ()) (fun m : AMap Hash ReferralCode => m.get) (fun _ => ())
    (by simpa using hl) (by simpa using hn) (fun b _ => pass b) (fun b _ => pass b) (funext hm) rfl).mono ?_
  exact fun a b hh => congrFun hh.1

theorem RefGen.Same.createCodes {g g' : RefGen} (h : g.Same g') (env : Env) (tokens : List Bucket) (rid : RefId)
    {hs hs' : AMap Hash (List (Res × Dec) × Nat)} (hh : hs.Same hs') :
    Agree (fun x x' => x.1.Same x'.1 ∧ x.2.Perm x'.2) (g.createCodes env tokens rid hs)
      (g'.createCodes env tokens rid hs') := by
  unfold RefGen.createCodes
  refine Agree.bind (codeTotals_agree hh) fun ts ts' _ _ hts => ?_
  refine Agree.bind (splitTokens_agree env tokens hts) fun t t' _ _ ht => ?_
  refine Agree.bind (insertCodes_agree (fun e : Hash × (List (Res × Dec) × Nat) => e.1)
    (fun e => ⟨rid, e.2.1, 0, e.2.2⟩) h.codes hh.perm hs.nodup) fun cs cs' _ _ hcs => ?_
  refine Agree.bind (vaultPutBatch_perm h.vaults ht.1 ht.2.1) fun v v' _ _ hv => ?_
  exact Agree.pure ⟨⟨hv, h.allocations, hcs⟩, ht.2.2⟩

theorem RefGen.Same.codesFromAllocation {g g' : RefGen} (h : g.Same g') (rid : RefId) (i : Nat) {hs hs' : List Hash}
    (hh : ∀ x, x ∈ hs ↔ x ∈ hs') :
    Agree RefGen.Same (g.codesFromAllocation rid i hs) (g'.codesFromAllocation rid i hs') := by
  have hp : hs.dedup.Perm hs'.dedup := by
    rw [List.perm_ext_iff_of_nodup hs.nodup_dedup hs'.nodup_dedup]; simpa using hh
  unfold RefGen.codesFromAllocation
  rw [h.allocations rid, hp.length_eq]
  refine Agree.bind_same fun l _ => Agree.bind_same fun al _ => Agree.bind_same fun n _ => Agree.require rfl fun _ => ?_
  refine Agree.bind (insertCodes_agree id (fun _ => ⟨rid, al.claims, 0, 1⟩) h.codes hp (by simpa using hs.nodup_dedup))
    fun cs cs' _ _ hcs => ?_
  exact Agree.pure ⟨h.vaults, h.allocations.set _ _, hcs⟩

theorem vaultTakeBatch_agree (env : Env) (st : Strategy) {m m' : AMap Res Dec} (h : m.Same m') :
    ∀ cs : List (Res × Dec), Agree (fun x x' => x.1.Same x'.1 ∧ x.2 = x'.2) (vaultTakeBatch env st m cs)
      (vaultTakeBatch env st m' cs) := by
  intro cs
  induction cs generalizing m m' with
  | nil => exact Agree.pure ⟨h, rfl⟩
  | cons c cs ih =>
    unfold vaultTakeBatch vaultTake
    rw [h.getD]
    simp only [bind_assoc, pure_bind]
    refine Agree.bind_same fun x _ => Agree.bind (ih (h.set _ _)) fun y y' _ _ hy => ?_
    obtain ⟨y, l⟩ := y
    obtain ⟨y', l'⟩ := y'
    obtain ⟨hy, rfl⟩ := hy
    exact Agree.pure ⟨hy, rfl⟩

theorem RefGen.Same.claim {g g' : RefGen} (h : g.Same g') (env : Env) (x : Hash) :
    Agree (fun x x' => x.1.Same x'.1 ∧ x.2 = x'.2) (g.claim env x) (g'.claim env x) := by
  unfold RefGen.claim
  rw [h.codes x]
  refine Agree.bind_same fun c _ => Agree.require rfl fun _ => ?_
  refine Agree.bind (vaultTakeBatch_agree env .toZero h.vaults c.claims) fun y y' _ _ hy => ?_
  obtain ⟨y, l⟩ := y
  obtain ⟨y', l'⟩ := y'
  obtain ⟨hy, rfl⟩ := hy
  exact Agree.pure ⟨⟨hy, h.allocations, h.codes.set _ _⟩, rfl⟩

theorem sumCounts_agree {hs hs' : AMap Hash (List (Res × Dec) × Nat)} (hh : hs.Same hs') :
    Agree (fun a b => a = b) (sumCounts hs) (sumCounts hs') := by
  unfold sumCounts
  refine accum_perm (g := fun e => pure e.2.2) (g' := fun e => pure e.2.2) (put := uadd) (rest := fun n => n)
    (add := fun a b => a + b) (fun a b c => Nat.add_right_comm _ _ _) (fun a k a1 h => (uadd_ok.mp h).2.symm) (fun a k => ?_)
    hh.perm (fun a e => rfl) (fun a e => rfl) (fun _ _ => rfl) rfl
  unfold uadd
  split
  · exact errs_pure _
  · intro e h; cases h; simp [arith]

end Perp
