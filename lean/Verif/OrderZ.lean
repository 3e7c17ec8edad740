import Verif.OrderY

/-!
# Iteration order (C62): requests, writing back, and the bodies of the methods
-/

namespace Perp

/-! ## Requests -/

/-- Equal content: equal time, status, effects. -/
theorem KeeperRequest.canon_parts {k k' : KeeperRequest} (h : k.canon = k'.canon) :
    k.request.canon = k'.request.canon ∧ k.submission = k'.submission ∧ k.expiry = k'.expiry ∧ k.status = k'.status ∧
      k.effected = k'.effected := by
  simpa only [KeeperRequest.canon, Prod.mk.injEq] using h

theorem VAccount.get_changes (v : VAccount) (i : Nat) : v.changes.get i = (v.requestUpdates.get i).map KeeperRequest.canon := by
  unfold VAccount.changes; rw [AMap.get_mapV]

theorem VAccount.Same.setUpdate {v v' : VAccount} (h : v.Same v') (i : Nat) {k k' : KeeperRequest} (hk : k.canon = k'.canon) :
    ({ v with requestUpdates := v.requestUpdates.set i k } : VAccount).Same
      { v' with requestUpdates := v'.requestUpdates.set i k' } := by
  refine { h with requestUpdates := fun q => ?_ }
  have := h.requestUpdates q
  rw [VAccount.get_changes, VAccount.get_changes] at this ⊢
  show ((v.requestUpdates.set i k).get q).map _ = ((v'.requestUpdates.set i k').get q).map _
  rw [AMap.get_set, AMap.get_set]
  split
  · simp [hk]
  · exact this

theorem VAccount.Same.keeperRequest {v v' : VAccount} (h : v.Same v') (i : Nat) :
    Agree (fun k k' => k.canon = k'.canon) (v.keeperRequest i) (v'.keeperRequest i) ∧
      ((∃ k, v.keeperRequest i = Except.ok k) ↔ ∃ k, v'.keeperRequest i = Except.ok k) := by
  have hu := h.requestUpdates i
  rw [VAccount.get_changes, VAccount.get_changes] at hu
  have hr : (v.comp.requests[i]?).map KeeperRequest.canon = (v'.comp.requests[i]?).map KeeperRequest.canon := by
    rw [← List.getElem?_map, ← List.getElem?_map, h.comp.requests]
  unfold VAccount.keeperRequest
  cases h1 : v.requestUpdates.get i with
  | some k =>
    cases h2 : v'.requestUpdates.get i with
    | none => rw [h1, h2] at hu; cases hu
    | some k' =>
      rw [h1, h2] at hu
      simp only [Option.map_some, Option.some.injEq] at hu
      exact ⟨Agree.pure hu, ⟨fun _ => ⟨_, rfl⟩, fun _ => ⟨_, rfl⟩⟩⟩
  | none =>
    cases h2 : v'.requestUpdates.get i with
    | some k' => rw [h1, h2] at hu; cases hu
    | none =>
      simp only []
      cases h3 : v.comp.requests[i]? with
      | none =>
        cases h4 : v'.comp.requests[i]? with
        | some k' => rw [h3, h4] at hr; cases hr
        | none => exact ⟨Agree.error, Iff.rfl⟩
      | some k =>
        cases h4 : v'.comp.requests[i]? with
        | none => rw [h3, h4] at hr; cases hr
        | some k' =>
          rw [h3, h4] at hr
          simp only [Option.map_some, Option.some.injEq] at hr
          exact ⟨Agree.pure hr, ⟨fun _ => ⟨_, rfl⟩, fun _ => ⟨_, rfl⟩⟩⟩

/-- The requests at permuted indices. -/
theorem VAccount.Same.keeperRequests {v v' : VAccount} (h : v.Same v') {is is' : List Nat} (hi : is.Perm is') :
    Agree (fun m m' => (m.mapV fun _ k => KeeperRequest.canon k).Same (m'.mapV fun _ k => KeeperRequest.canon k))
      (v.keeperRequests is) (v'.keeperRequests is') := by
  unfold VAccount.keeperRequests
  have err : ∀ {f : Nat → R KeeperRequest} {ks : List Nat} {e : Err}, AMap.buildM f ks = Except.error e →
      ∃ k ∈ ks, ¬ ∃ r, f k = Except.ok r := by
    intro f ks
    induction ks with
    | nil => intro e h; cases h
    | cons k ks ih =>
      intro e h
      cases hk : f k with
      | error e' => exact ⟨k, List.mem_cons_self, fun ⟨r, hr⟩ => by rw [hk] at hr; cases hr⟩
      | ok v =>
        cases hb : AMap.buildM f ks with
        | error e' =>
          obtain ⟨k', h1, h2⟩ := ih hb
          exact ⟨k', List.mem_cons_of_mem _ h1, h2⟩
        | ok m =>
          simp only [AMap.buildM, hk, hb, Bind.bind, Except.bind] at h
          cases h
  refine ⟨fun m m' h1 h1' k => ?_, fun m e h1 h1' => ?_, fun e m h1 h1' => ?_⟩
  · obtain ⟨q1, q2⟩ := AMap.buildM_ok h1
    obtain ⟨q3, q4⟩ := AMap.buildM_ok h1'
    rw [AMap.get_mapV, AMap.get_mapV]
    by_cases hin : k ∈ is
    · obtain ⟨x, hx, hg⟩ := q1 k hin
      obtain ⟨x', hx', hg'⟩ := q3 k (hi.mem_iff.mp hin)
      rw [hg, hg', Option.map_some, Option.map_some, (h.keeperRequest k).1.both x x' hx hx']
    · rw [q2 k hin, q4 k (fun hh => hin (hi.mem_iff.mpr hh))]
  · obtain ⟨k, hin, hk⟩ := err h1'
    obtain ⟨x, hx, -⟩ := (AMap.buildM_ok h1).1 k (hi.mem_iff.mpr hin)
    exact absurd ((h.keeperRequest k).2.mp ⟨x, hx⟩) hk
  · obtain ⟨k, hin, hk⟩ := err h1
    obtain ⟨x, hx, -⟩ := (AMap.buildM_ok h1').1 k (hi.mem_iff.mp hin)
    exact absurd ((h.keeperRequest k).2.mpr ⟨x, hx⟩) hk

/-- The part of an account that a change of status touches. -/
structure Sheet where
  len : Nat
  adds : List Nat
  rems : List Nat
  upd : AMap Nat KeeperRequest

def Sheet.emb (v : VAccount) (t : Sheet) : VAccount :=
  { v with activeLen := t.len, activeAdditions := t.adds, activeRemovals := t.rems, requestUpdates := t.upd }

/-- `moveActive` on that part -/
def Sheet.move (t : Sheet) (i : Nat) (old new : Status) : R Sheet :=
  if pending new then
    (if pending old then pure t else pure { t with len := t.len + 1, adds := t.adds ++ [i] })
  else
    (if pending old then do
        require (decide (0 < t.len)) .arithmetic
        pure { t with len := t.len - 1, rems := t.rems ++ [i] }
      else pure t)

/-- Setting a status on that part. -/
def Sheet.mark (t : Sheet) (new : Status) (e : Nat × KeeperRequest) : R Sheet := do
  let t ← t.move e.1 e.2.status new
  pure { t with upd := t.upd.set e.1 { e.2 with status := new } }

theorem moveActive_sheet (v : VAccount) (t : Sheet) (i : Nat) (old new : Status) :
    (t.emb v).moveActive i old new = t.move i old new >>= fun x => pure (x.emb v) := by
  unfold VAccount.moveActive Sheet.move
  split <;> split
  · rfl
  · rfl
  · simp only [VAccount.removeActive, bind_assoc, pure_bind]; rfl
  · rfl

theorem trySetOne_sheet (st : Status) (ph : List Status) (v : VAccount) (t : Sheet) (e : Nat × KeeperRequest) :
    VAccount.trySetOne st ph (t.emb v) e =
      (if e.2.status ∉ ph then pure t else t.mark st e) >>= fun x => pure (x.emb v) := by
  unfold VAccount.trySetOne Sheet.mark
  split
  · rfl
  · simp only [moveActive_sheet, bind_assoc, pure_bind]; rfl

theorem cancelOne_sheet (v : VAccount) (t : Sheet) (e : Nat × KeeperRequest) :
    VAccount.cancelOne (t.emb v) e =
      (do let ph ← statusPhases STATUS_CANCELLED
          require (decide (e.2.status ∈ ph)) .cancelNotActive
          t.mark STATUS_CANCELLED e) >>= fun x => pure (x.emb v) := by
  unfold VAccount.cancelOne Sheet.mark
  simp only [moveActive_sheet, bind_assoc, pure_bind]; rfl

/-- Content of a stored request. -/
abbrev KCanon := ((Addr × Multiset (Res × Dec)) ⊕
  (PairId × Dec × Bool × PriceLimit × SlippageLimit × Multiset Nat × Multiset Nat)) × Int × Int × Status × List Addr

/-- The change of the active set for a change of status. -/
def moved (i : Nat) (old new : Status) : Int × Finset Nat × Finset Nat :=
  if pending new then (if pending old then (0, ∅, ∅) else (1, {i}, ∅))
  else (if pending old then (-1, ∅, {i}) else (0, ∅, ∅))

def Sheet.rest (t : Sheet) : Int × Finset Nat × Finset Nat := ((t.len : Int), t.adds.toFinset, t.rems.toFinset)

theorem Sheet.move_ok {t t1 : Sheet} {i : Nat} {old new : Status} (h : t.move i old new = Except.ok t1) :
    t1.upd = t.upd ∧ t1.rest = (t.rest.1 + (moved i old new).1, t.rest.2.1 ∪ (moved i old new).2.1,
      t.rest.2.2 ∪ (moved i old new).2.2) := by
  unfold Sheet.move at h
  unfold moved
  cases h1 : pending new <;> cases h2 : pending old
  · simp only [h1, h2, Bool.false_eq_true, if_false] at h ⊢
    cases h
    exact ⟨rfl, by simp [Sheet.rest]⟩
  · simp only [h1, h2, Bool.false_eq_true, if_true, if_false, bind_ok, pure_ok, require_ok, decide_eq_true_eq] at h ⊢
    obtain ⟨-, hp, rfl⟩ := h
    refine ⟨rfl, ?_⟩
    simp [Sheet.rest]
    omega
  · simp only [h1, h2, Bool.false_eq_true, if_true, if_false] at h ⊢
    cases h
    exact ⟨rfl, by simp [Sheet.rest]⟩
  · simp only [h1, h2, if_true] at h ⊢
    cases h
    exact ⟨rfl, by simp [Sheet.rest]⟩

theorem Sheet.move_errs (t : Sheet) (i : Nat) (old new : Status) : Errs arith (t.move i old new) := by
  unfold Sheet.move
  split <;> split
  · exact errs_pure _
  · exact errs_pure _
  · exact errs_bind (errs_require (by simp [arith])) fun _ _ => errs_pure _
  · exact errs_pure _

/-- A loop that sets a status on requests, in another order. -/
theorem sheet_agree (new : Status) (ok : Status → R Bool) {f : Sheet → Nat × KeeperRequest → R Sheet}
    (hf : ∀ t e, f t e = ok e.2.status >>= fun b => if b then t.mark new e else pure t)
    {m m' : AMap Nat KeeperRequest}
    (hm : (m.mapV fun _ k => KeeperRequest.canon k).Same (m'.mapV fun _ k => KeeperRequest.canon k))
    {t t' : Sheet} (ht : t.rest = t'.rest)
    (hu : (t.upd.mapV fun _ k => KeeperRequest.canon k).Same (t'.upd.mapV fun _ k => KeeperRequest.canon k)) :
    Agree (fun t t' => t.rest = t'.rest ∧
        (t.upd.mapV fun _ k => KeeperRequest.canon k).Same (t'.upd.mapV fun _ k => KeeperRequest.canon k))
      (m.entries.foldlM f t) (m'.entries.foldlM f t') := by
  let g : Nat × KCanon → Option KCanon → R (Option KCanon × Int × Finset Nat × Finset Nat) := fun e slot => do
    let b ← ok e.2.2.2.2.1
    pure (if b then (some (e.2.1, e.2.2.1, e.2.2.2.1, new, e.2.2.2.2.2), moved e.1 e.2.2.2.2.1 new) else (slot, 0, ∅, ∅))
  let add : Int × Finset Nat × Finset Nat → Int × Finset Nat × Finset Nat → Int × Finset Nat × Finset Nat :=
    fun c x => (c.1 + x.1, c.2.1 ∪ x.2.1, c.2.2 ∪ x.2.2)
  let η : Nat × KeeperRequest → Nat × KCanon := fun e => (e.1, e.2.canon)
  have pass : ∀ e : Nat × KeeperRequest, Pass Prod.fst g add
      (fun t : Sheet => (t.upd.mapV fun _ k => KeeperRequest.canon k).get) Sheet.rest (fun t => f t e) (η e) := by
    intro e
    refine ⟨fun t t1 h => ?_, fun t x h => ?_⟩
    · simp only [hf] at h
      obtain ⟨b, h1, h2⟩ := bind_ok.mp h
      cases b with
      | false =>
        cases h2
        refine ⟨_, (0, ∅, ∅), by simp only [g, η, KeeperRequest.canon, h1]; rfl, ?_, by simp [add]⟩
        exact (Function.update_eq_self _ _).symm
      | true =>
        simp only [if_true, Sheet.mark, bind_ok, pure_ok] at h2
        obtain ⟨t2, h3, rfl⟩ := h2
        obtain ⟨q1, q2⟩ := Sheet.move_ok h3
        refine ⟨_, moved e.1 e.2.status new, by simp only [g, η, KeeperRequest.canon, h1]; rfl, ?_, q2⟩
        funext q
        simp only [AMap.get_mapV, q1, AMap.get_set, Function.update_apply, η]
        by_cases hq : e.1 = q
        · subst hq; simp [KeeperRequest.canon]
        · have : ¬ q = e.1 := fun h => hq h.symm
          simp [hq, this]
    · simp only [hf] at h
      cases hb : ok e.2.status with
      | error y =>
        rw [hb] at h
        cases h
        by_cases hx : x = .arithmetic
        · exact .inl hx
        · exact .inr ⟨x, hx, by simp only [g, η, KeeperRequest.canon, hb]; rfl⟩
      | ok b =>
        rw [hb] at h
        left
        cases b with
        | false => cases h
        | true =>
          have : Errs arith (t.mark new e) := errs_bind (Sheet.move_errs _ _ _ _) fun _ _ => errs_pure _
          have h' : t.mark new e = Except.error x := h
          simpa [arith] using this x h'
  have ent : ∀ m : AMap Nat KeeperRequest, m.entries.map η = (m.mapV fun _ k => KeeperRequest.canon k).entries := fun m => rfl
  refine (keyed_agree (η := η) (η' := η) Prod.fst g add (fun c x y => ?_)
    (fun t : Sheet => (t.upd.mapV fun _ k => KeeperRequest.canon k).get) Sheet.rest
    (fun t : Sheet => (t.upd.mapV fun _ k => KeeperRequest.canon k).get) Sheet.rest
    (by rw [ent, ent]; exact hm.perm) (by rw [ent]; exact AMap.nodup _) (fun e _ => pass e) (fun e _ => pass e)
    (funext hu) ht).mono fun a b h => ⟨h.2, congrFun h.1⟩
  simp only [add, Int.add_right_comm, Finset.union_assoc, Finset.union_comm x.2.1, Finset.union_comm x.2.2]

end Perp
