import Verif.OrderZ

/-!
# Iteration order (C62): placing, cancelling and processing requests, writing back
-/

namespace Perp

/-- What an account has in its sheet. -/
def VAccount.sheet (v : VAccount) : Sheet := ⟨v.activeLen, v.activeAdditions, v.activeRemovals, v.requestUpdates⟩

theorem VAccount.Same.sheet {v v' : VAccount} (h : v.Same v') : v.sheet.rest = v'.sheet.rest ∧
    (v.sheet.upd.mapV fun _ k => KeeperRequest.canon k).Same (v'.sheet.upd.mapV fun _ k => KeeperRequest.canon k) := by
  refine ⟨?_, h.requestUpdates⟩
  simp only [Sheet.rest, VAccount.sheet, h.activeLen, h.activeAdditions, h.activeRemovals]

theorem VAccount.Same.ofSheet {v v' : VAccount} (h : v.Same v') {t t' : Sheet} (h1 : t.rest = t'.rest)
    (h2 : (t.upd.mapV fun _ k => KeeperRequest.canon k).Same (t'.upd.mapV fun _ k => KeeperRequest.canon k)) :
    (t.emb v).Same (t'.emb v') := by
  simp only [Sheet.rest, Prod.mk.injEq] at h1
  exact { h with activeLen := (by exact_mod_cast h1.1), activeAdditions := h1.2.1, activeRemovals := h1.2.2,
                 requestUpdates := h2 }

theorem VAccount.Same.trySetStatus {v v' : VAccount} (h : v.Same v') {is is' : List Nat} (hi : is.Perm is') (st : Status) :
    Agree VAccount.Same (v.trySetStatus is st) (v'.trySetStatus is' st) := by
  unfold VAccount.trySetStatus
  refine Agree.bind_same fun ph _ => Agree.bind (h.keeperRequests hi) fun m m' _ _ hm => ?_
  let g : Sheet → Nat × KeeperRequest → R Sheet := fun t e => if e.2.status ∉ ph then pure t else t.mark st e
  have e : ∀ (l : List (Nat × KeeperRequest)) (v : VAccount), l.foldlM (VAccount.trySetOne st ph) v =
      (l.foldlM g v.sheet >>= fun x => pure (x.emb v) : R VAccount) := fun l v =>
    foldlM_emb (fun t : Sheet => t.emb v) (g := g) (fun t e => trySetOne_sheet st ph v t e) l v.sheet
  rw [e _ v, e _ v']
  refine Agree.bind (sheet_agree st (fun s => pure (decide (s ∈ ph))) (fun t e => ?_) hm h.sheet.1 h.sheet.2)
    fun t t' _ _ ht => Agree.pure (h.ofSheet ht.1 ht.2)
  by_cases hs : e.2.status ∈ ph <;> simp [g, hs]

theorem VAccount.Same.cancelRequests {v v' : VAccount} (h : v.Same v') {is is' : List Nat} (hi : is.Perm is') :
    Agree VAccount.Same (v.cancelRequests is) (v'.cancelRequests is') := by
  unfold VAccount.cancelRequests
  refine Agree.bind (h.keeperRequests hi) fun m m' _ _ hm => ?_
  let g : Sheet → Nat × KeeperRequest → R Sheet := fun t e => do
    let ph ← statusPhases STATUS_CANCELLED
    require (decide (e.2.status ∈ ph)) .cancelNotActive
    t.mark STATUS_CANCELLED e
  have e : ∀ (l : List (Nat × KeeperRequest)) (v : VAccount), l.foldlM VAccount.cancelOne v =
      (l.foldlM g v.sheet >>= fun x => pure (x.emb v) : R VAccount) := fun l v =>
    foldlM_emb (fun t : Sheet => t.emb v) (g := g) (fun t e => cancelOne_sheet v t e) l v.sheet
  rw [e _ v, e _ v']
  refine Agree.bind (sheet_agree STATUS_CANCELLED (fun s => do
      let ph ← statusPhases STATUS_CANCELLED
      require (decide (s ∈ ph)) .cancelNotActive
      pure true) (fun t e => ?_) hm h.sheet.1 h.sheet.2)
    fun t t' _ _ ht => Agree.pure (h.ofSheet ht.1 ht.2)
  simp only [g, bind_assoc, pure_bind, if_true]

theorem VAccount.Same.removeActive {v v' : VAccount} (h : v.Same v') (i : Nat) :
    Agree VAccount.Same (v.removeActive i) (v'.removeActive i) := by
  unfold VAccount.removeActive
  rw [h.activeLen]
  refine Agree.require rfl fun _ => Agree.pure { h with activeLen := rfl, activeRemovals := ?_ }
  simp only [List.toFinset_append, h.activeRemovals]

theorem VAccount.Same.addActive {v v' : VAccount} (h : v.Same v') (i : Nat) : (v.addActive i).Same (v'.addActive i) := by
  refine { h with activeLen := by simp only [VAccount.addActive, h.activeLen], activeAdditions := ?_ }
  simp only [VAccount.addActive, List.toFinset_append, h.activeAdditions]

theorem VAccount.Same.pushRequest {v v' : VAccount} (h : v.Same v') (now : Int) {q q' : Request} (hq : q.canon = q'.canon)
    (delay expiry : Nat) (st : Status) (eff : List Addr) :
    Agree VAccount.Same (v.pushRequest now q delay expiry st eff) (v'.pushRequest now q' delay expiry st eff) := by
  have hl : v.requestAdditions.length = v'.requestAdditions.length := by
    simpa using congrArg List.length h.requestAdditions
  unfold VAccount.pushRequest
  rw [h.requestsLen, hl]
  refine Agree.require rfl fun _ => Agree.bind_same fun s _ => Agree.bind_same fun e _ => ?_
  refine Agree.pure { h.addActive _ with requestAdditions := ?_ }
  simp only [VAccount.addActive, List.map_append, h.requestAdditions, List.map_cons, List.map_nil, KeeperRequest.canon, hq]

theorem VAccount.Same.processRequest {v v' : VAccount} (h : v.Same v') (now : Int) (i : Nat) :
    Agree (fun x y => x.1.Same y.1 ∧ x.2.1.canon = y.2.1.canon ∧ x.2.2 = y.2.2)
      (v.processRequest now i) (v'.processRequest now i) := by
  unfold VAccount.processRequest
  rw [h.validStart]
  refine Agree.require rfl fun _ => Agree.bind (h.keeperRequest i).1 fun k k' _ _ hk => ?_
  obtain ⟨h1, h2, h3, h4, h5⟩ := KeeperRequest.canon_parts hk
  have : processStatus now k = processStatus now k' := by unfold processStatus; rw [h3, h4]
  rw [this, h2, h3]
  refine Agree.bind_same fun st _ => Agree.require rfl fun _ => Agree.bind (h.removeActive i) fun w w' _ _ hw => ?_
  refine Agree.pure ⟨hw.setUpdate i ?_, h1, rfl⟩
  simp only [KeeperRequest.canon, h1, h2, h3, h5]

theorem VAccount.Same.updateValidStart {v v' : VAccount} (h : v.Same v') : v.updateValidStart.Same v'.updateValidStart :=
  { h with validStart := h.requestsLen }

/-! ## Writing back -/

/-- Storing the updated requests in another order. -/
theorem requestUpdates_agree {u u' : AMap Nat KeeperRequest}
    (hu : (u.mapV fun _ k => KeeperRequest.canon k).Same (u'.mapV fun _ k => KeeperRequest.canon k))
    {l l' : List KeeperRequest} (hl : l.map KeeperRequest.canon = l'.map KeeperRequest.canon) :
    Agree (fun x y => x.map KeeperRequest.canon = y.map KeeperRequest.canon)
      (u.entries.foldlM requestUpdate l) (u'.entries.foldlM requestUpdate l') := by
  let η : Nat × KeeperRequest → Nat × KCanon := fun e => (e.1, e.2.canon)
  have ent : ∀ m : AMap Nat KeeperRequest, m.entries.map η = (m.mapV fun _ k => KeeperRequest.canon k).entries := fun m => rfl
  have ok : ∀ (e : Nat × KeeperRequest) (a a1 : List KeeperRequest), requestUpdate a e = Except.ok a1 →
      a1.map KeeperRequest.canon = (a.map KeeperRequest.canon).set (η e).1 (η e).2 ∧
        (η e).1 < (a.map KeeperRequest.canon).length := by
    intro e a a1 h
    simp only [requestUpdate, bind_ok, require_ok, pure_ok, decide_eq_true_eq] at h
    obtain ⟨-, h1, rfl⟩ := h
    exact ⟨by simp only [List.map_set]; rfl, by simpa using h1⟩
  have bad : ∀ (e : Nat × KeeperRequest) (a : List KeeperRequest) x, requestUpdate a e = Except.error x →
      x = .arithmetic ∨ ¬ (η e).1 < (a.map KeeperRequest.canon).length := by
    intro e a x h
    right
    intro hlt
    have : requestUpdate a e = Except.ok (a.set e.1 e.2) := by
      simp only [requestUpdate, bind_ok, require_ok, pure_ok, decide_eq_true_eq]
      exact ⟨(), by simpa [η] using hlt, trivial⟩
    rw [this] at h; cases h
  have nd : ∀ m : AMap Nat KeeperRequest, ((m.entries.map η).map Prod.fst).Nodup := fun m => by
    rw [ent]; exact AMap.nodup _
  refine foldlM_agree (η := η) (η' := η) (φ := List.map KeeperRequest.canon) (φ' := List.map KeeperRequest.canon)
    (fun b e => b.set e.1 e.2) (fun b e => e.1 < b.length) (fun _ => True) (by rw [ent, ent]; exact hu.perm)
    (fun e _ a a1 _ h => ok e a a1 h) (fun e _ a x _ h => bad e a x h)
    (fun e _ a a1 _ h => ok e a a1 h) (fun e _ a x _ h => bad e a x h)
    (fun _ _ _ _ _ => trivial) ?_ ?_ hl trivial
  · intro x hx y hy b
    by_cases hxy : x.1 = y.1
    · have : x = y := by
        have := nd u
        exact List.inj_on_of_nodup_map this hx hy hxy
      rw [this]
    · exact List.set_comm _ _ hxy
  · refine List.pairwise_iff_forall_sublist.mpr fun {x y} _ b => ?_
    simp

theorem VAccount.Same.realPositions {v v' : VAccount} (h : v.Same v') : v.realPositions.Same v'.realPositions := by
  intro p
  have hm : p ∈ v.positionsUpdated ↔ p ∈ v'.positionsUpdated := by
    rw [← List.mem_toFinset, ← List.mem_toFinset, h.positionsUpdated]
  simp only [VAccount.realPositions_get, hm, h.positions p, h.comp.positions p]

theorem VPool.Same.realize {v v' : VPool} (h : v.Same v') : v.realize.Same v'.realize := by
  refine ⟨fun p => ?_, h.comp, h.vb, h.unreal, h.skewSnap, h.pnlSnap⟩
  have hm : p ∈ v.updated ↔ p ∈ v'.updated := by
    rw [← List.mem_toFinset, ← List.mem_toFinset, h.updated]
  show v.realPositions.get p = v'.realPositions.get p
  rw [VPool.realPositions_get, VPool.realPositions_get, h.positions p]
  by_cases hp : p ∈ v.updated ∧ (v.positions.get p).isSome
  · obtain ⟨x, hx⟩ := Option.isSome_iff_exists.mp hp.2
    rw [if_pos hp.1, if_pos (hm.mp hp.1), ← h.positions p, hx]; rfl
  · rw [h.kept p hp]; simp only [hm]

theorem VAccount.Same.realize {v v' : VAccount} (h : v.Same v') : Agree Account.Same v.realize v'.realize := by
  unfold VAccount.realize
  have hl : (v.comp.requests ++ v.requestAdditions).map KeeperRequest.canon =
      (v'.comp.requests ++ v'.requestAdditions).map KeeperRequest.canon := by
    rw [List.map_append, List.map_append, h.comp.requests, h.requestAdditions]
  refine Agree.bind (requestUpdates_agree h.requestUpdates hl) fun x y _ _ hx => Agree.pure ?_
  refine { h.comp with positions := h.realPositions, vb := h.vb, requests := hx, validStart := ?_, active := ?_ }
  · simp only [VAccount.realActive, h.validStart, h.comp.validStart, h.comp.active, h.activeAdditions, h.activeRemovals]
  · simp only [h.validStart, h.comp.validStart]

theorem VAccount.Same.realizeReferral {v v' : VAccount} (h : v.Same v') {m m' : AMap RefId ReferralData} (hm : m.Same m') :
    Agree AMap.Same (v.realizeReferral m) (v'.realizeReferral m') := by
  unfold VAccount.realizeReferral
  rw [h.referralRewarded, h.referralId, h.referralData]
  split
  · refine Agree.bind_same fun r _ => Agree.bind_same fun d _ => ?_
    rw [hm r]
    exact Agree.bind_same fun o _ => Agree.pure (hm.set _ _)
  · exact Agree.pure hm

end Perp
