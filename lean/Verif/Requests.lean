import Verif.Stage
import Verif.Ledger

/-!
# Requests: the life-cycle of orders and withdrawals (C06 – C10, C13)
-/

namespace Perp

/-! ## The request list of a loaded account -/

/-- The request list as it will be written back. -/
def VAccount.reqs (v : VAccount) : List KeeperRequest :=
  v.requestUpdates.entries.foldl (fun l e => l.set e.1 e.2) (v.comp.requests ++ v.requestAdditions)

theorem foldl_lset_length {α : Type} (l : List (Nat × α)) : ∀ (b : List α),
    (l.foldl (fun l e => l.set e.1 e.2) b).length = b.length := by
  induction l with
  | nil => intro b; rfl
  | cons e l ih => intro b; rw [List.foldl_cons, ih]; simp

theorem foldl_lset_ne {α : Type} (l : List (Nat × α)) (i : Nat) : ∀ (b : List α), (∀ e ∈ l, e.1 ≠ i) →
    (l.foldl (fun l e => l.set e.1 e.2) b)[i]? = b[i]? := by
  induction l with
  | nil => intro b _; rfl
  | cons e l ih =>
    intro b h
    rw [List.foldl_cons, ih _ (fun e' h' => h e' (List.mem_cons_of_mem _ h'))]
    exact List.getElem?_set_ne (h e (List.mem_cons_self ..))

theorem foldl_lset_eq {α : Type} (l : List (Nat × α)) (i : Nat) (x : α) : ∀ (b : List α),
    (l.map Prod.fst).Nodup → (i, x) ∈ l → i < b.length →
    (l.foldl (fun l e => l.set e.1 e.2) b)[i]? = some x := by
  induction l with
  | nil => intro b _ h; cases h
  | cons e l ih =>
    intro b hn h hi
    simp only [List.map_cons, List.nodup_cons] at hn
    rw [List.foldl_cons]
    rcases List.mem_cons.mp h with h | h
    · subst h
      rw [foldl_lset_ne]
      · simp [hi]
      · intro e' he' heq
        exact hn.1 (List.mem_map.mpr ⟨e', he', heq⟩)
    · exact ih _ hn.2 h (by simpa using hi)

theorem VAccount.reqs_length (v : VAccount) :
    v.reqs.length = v.comp.requests.length + v.requestAdditions.length := by
  unfold VAccount.reqs; rw [foldl_lset_length]; simp

theorem VAccount.reqs_get (v : VAccount) (i : Nat) :
    v.reqs[i]? = match v.requestUpdates.get i with
      | some r => if i < v.comp.requests.length + v.requestAdditions.length then some r else none
      | none => (v.comp.requests ++ v.requestAdditions)[i]? := by
  cases h : v.requestUpdates.get i with
  | none =>
    unfold VAccount.reqs
    simp only
    rw [foldl_lset_ne]
    intro e he heq
    have := AMap.get_mem (m := v.requestUpdates) (k := e.1) (v := e.2) he
    rw [heq, h] at this
    cases this
  | some r =>
    simp only
    split
    · rename_i hi
      unfold VAccount.reqs
      exact foldl_lset_eq _ _ _ _ v.requestUpdates.nodup (AMap.get_eq_some.mp h) (by simpa using hi)
    · rename_i hi
      rw [List.getElem?_eq_none]
      rw [v.reqs_length]; omega

/-- The written-back request list. -/
theorem realize_requests {v : VAccount} {acc : Account} (h : v.realize = Except.ok acc) :
    acc.requests = v.reqs := by
  obtain ⟨l, hl, rfl⟩ := realize_ok h
  simp only [VAccount.reqs]
  generalize v.comp.requests ++ v.requestAdditions = b at hl
  generalize v.requestUpdates.entries = es at hl
  induction es generalizing b with
  | nil => simp only [List.foldlM_nil, pure_ok] at hl; exact hl.symm
  | cons e es ih =>
    simp only [List.foldlM_cons, bind_ok, requestUpdate, require_ok, pure_ok] at hl
    obtain ⟨_, ⟨-, -, rfl⟩, h2⟩ := hl
    exact ih _ h2

/-! ## Loaded accounts are coherent -/

/-- Coherence of the request-related part of a loaded account. -/
structure RInv (v : VAccount) : Prop where
  len : v.requestsLen = v.comp.requests.length
  upd : ∀ i r, v.requestUpdates.get i = some r → i < v.requestsLen
  start : v.comp.validStart ≤ v.validStart ∧ v.validStart ≤ v.requestsLen
  adds : ∀ i ∈ v.activeAdditions, v.requestsLen ≤ i
  rems : ∀ i ∈ v.activeRemovals, i < v.requestsLen
  cact : ∀ i ∈ v.comp.active, v.comp.validStart ≤ i
  act : ∀ i, i ∈ v.realActive ↔ v.validStart ≤ i ∧ ∃ r : KeeperRequest, v.reqs[i]? = some r ∧ pending r.status = true

theorem reqPart_eq {a b : VAccount} (h : b.reqPart = a.reqPart) :
    b.validStart = a.validStart ∧ b.requestsLen = a.requestsLen ∧ b.activeLen = a.activeLen ∧
    b.requestAdditions = a.requestAdditions ∧ b.requestUpdates = a.requestUpdates ∧
    b.activeAdditions = a.activeAdditions ∧ b.activeRemovals = a.activeRemovals ∧
    b.comp.requests = a.comp.requests ∧ b.comp.active = a.comp.active ∧
    b.comp.validStart = a.comp.validStart := by
  simpa only [VAccount.reqPart, Prod.mk.injEq, and_assoc] using h

theorem reqPart_reqs {a b : VAccount} (h : b.reqPart = a.reqPart) : b.reqs = a.reqs := by
  obtain ⟨-, -, -, h4, h5, -, -, h8, -, -⟩ := reqPart_eq h
  unfold VAccount.reqs; rw [h4, h5, h8]

theorem reqPart_active {a b : VAccount} (h : b.reqPart = a.reqPart) : b.realActive = a.realActive := by
  obtain ⟨h1, -, -, -, -, h6, h7, -, h9, h10⟩ := reqPart_eq h
  unfold VAccount.realActive; rw [h1, h6, h7, h9, h10]

theorem rinv_congr {a b : VAccount} (h : b.reqPart = a.reqPart) (hi : RInv a) : RInv b := by
  have hr := reqPart_reqs h
  have ha := reqPart_active h
  obtain ⟨h1, h2, h3, h4, h5, h6, h7, h8, h9, h10⟩ := reqPart_eq h
  constructor
  · rw [h2, h8]; exact hi.len
  · rw [h2, h5]; exact hi.upd
  · rw [h1, h2, h10]; exact hi.start
  · rw [h2, h6]; exact hi.adds
  · rw [h2, h7]; exact hi.rems
  · rw [h9, h10]; exact hi.cact
  · rw [ha, h1, hr]; exact hi.act

/-- Content of a request: everything but its status. -/
def KeeperRequest.SameContent (a b : KeeperRequest) : Prop :=
  b.request = a.request ∧ b.submission = a.submission ∧ b.expiry = a.expiry ∧ b.effected = a.effected

theorem KeeperRequest.SameContent.refl (a : KeeperRequest) : a.SameContent a := ⟨rfl, rfl, rfl, rfl⟩
theorem KeeperRequest.SameContent.trans {a b c : KeeperRequest} (h1 : a.SameContent b)
    (h2 : b.SameContent c) : a.SameContent c :=
  ⟨h2.1.trans h1.1, h2.2.1.trans h1.2.1, h2.2.2.1.trans h1.2.2.1, h2.2.2.2.trans h1.2.2.2⟩

/-- Writing one request of a loaded account. -/
def VAccount.setReq (v : VAccount) (i : Nat) (r : KeeperRequest) : VAccount :=
  { v with requestUpdates := v.requestUpdates.set i r }

theorem setReq_reqs {v : VAccount} {i : Nat} {r : KeeperRequest} (j : Nat) :
    (v.setReq i r).reqs[j]? = if j = i then (if i < v.reqs.length then some r else none) else v.reqs[j]? := by
  rw [VAccount.reqs_get, VAccount.reqs_get, VAccount.reqs_length]
  simp only [VAccount.setReq, AMap.get_set]
  by_cases h : j = i
  · subst h; rw [if_pos rfl, if_pos rfl]; rfl
  · rw [if_neg h, if_neg (Ne.symm h)]; rfl

/-- Reading a request of a loaded account gives the current version. -/
theorem keeperRequest_reqs {v : VAccount} {i : Nat} {r : KeeperRequest} (hi : RInv v)
    (h : v.keeperRequest i = Except.ok r) : v.reqs[i]? = some r ∧ i < v.requestsLen := by
  unfold VAccount.keeperRequest at h
  rw [VAccount.reqs_get]
  cases hu : v.requestUpdates.get i with
  | some r' =>
    rw [hu] at h
    simp only [pure_ok] at h
    subst h
    have := hi.upd i _ hu
    have hl := hi.len
    simp only
    rw [if_pos (by omega)]
    exact ⟨rfl, this⟩
  | none =>
    rw [hu] at h
    simp only [expect_ok] at h
    simp only
    have hlt : i < v.comp.requests.length := (List.getElem?_eq_some_iff.mp h).1
    rw [List.getElem?_append_left hlt]
    exact ⟨h, by rw [hi.len]; exact hlt⟩

theorem mem_realActive {v : VAccount} (i : Nat) : i ∈ v.realActive ↔
    ((i ∈ v.comp.active ∧ (v.validStart > v.comp.validStart → v.validStart ≤ i)) ∨ i ∈ v.activeAdditions) ∧
    i ∉ v.activeRemovals := by
  unfold VAccount.realActive
  simp only [Finset.mem_sdiff, Finset.mem_union, List.mem_toFinset]
  split
  · rename_i h; simp [h]
  · rename_i h; simp [h]

/-- A status change that does not touch execution or expiry. -/
inductive Soft : Status → Status → Prop where
  | refl (s : Status) : Soft s s
  | activate : Soft STATUS_DORMANT STATUS_ACTIVE
  | cancelActive : Soft STATUS_ACTIVE STATUS_CANCELLED
  | cancelDormant : Soft STATUS_DORMANT STATUS_CANCELLED

theorem Soft.trans {a b c : Status} (h1 : Soft a b) (h2 : Soft b c) : Soft a c := by
  generalize hb : b = b' at h2
  cases h2 with
  | refl => rw [← hb]; exact h1
  | activate =>
    cases h1 with
    | refl => rw [hb]; exact .activate
    | activate => cases hb
    | cancelActive => cases hb
    | cancelDormant => cases hb
  | cancelActive =>
    cases h1 with
    | refl => rw [hb]; exact .cancelActive
    | activate => exact .cancelDormant
    | cancelActive => cases hb
    | cancelDormant => cases hb
  | cancelDormant =>
    cases h1 with
    | refl => rw [hb]; exact .cancelDormant
    | activate => cases hb
    | cancelActive => cases hb
    | cancelDormant => cases hb

/-- Between two loaded accounts the requests changed softly. -/
structure SoftReq (v v' : VAccount) : Prop where
  only : ReqOnly v v'
  adds : v'.requestAdditions = v.requestAdditions
  rel : ∀ (i : Nat) (r : KeeperRequest), v.reqs[i]? = some r → ∃ r' : KeeperRequest, v'.reqs[i]? = some r' ∧ r.SameContent r' ∧ Soft r.status r'.status

theorem SoftReq.refl (v : VAccount) : SoftReq v v :=
  ⟨.refl _, rfl, fun _ r h => ⟨r, h, .refl _, .refl _⟩⟩

theorem SoftReq.trans {a b c : VAccount} (h1 : SoftReq a b) (h2 : SoftReq b c) : SoftReq a c := by
  refine ⟨h1.only.trans h2.only, h2.adds.trans h1.adds, ?_⟩
  intro i r hr
  obtain ⟨r1, e1, c1, s1⟩ := h1.rel i r hr
  obtain ⟨r2, e2, c2, s2⟩ := h2.rel i r1 e1
  exact ⟨r2, e2, c1.trans c2, s1.trans s2⟩

theorem SoftReq.length {a b : VAccount} (h : SoftReq a b) : b.reqs.length = a.reqs.length := by
  rw [VAccount.reqs_length, VAccount.reqs_length, h.adds]
  have := h.only
  unfold ReqOnly at this
  rw [this]

/-- Setting a request's status, with the bookkeeping of the active set. -/
theorem setStatus_one {v v1 : VAccount} {i : Nat} {r : KeeperRequest} {st : Status} (hi : RInv v)
    (hr : v.reqs[i]? = some r) (hlt : i < v.requestsLen) (hs : Soft r.status st)
    (h : v.moveActive i r.status st = Except.ok v1) (hp : pending r.status = true) :
    RInv (v1.setReq i { r with status := st }) ∧ SoftReq v (v1.setReq i { r with status := st }) := by
  have key : ∃ n rem, v1 = { v with activeLen := n, activeRemovals := rem } ∧
      ((pending st = true ∧ rem = v.activeRemovals) ∨ (pending st = false ∧ rem = v.activeRemovals ++ [i])) := by
    unfold VAccount.moveActive at h
    rw [hp] at h
    split at h
    · rename_i hst
      simp only [if_true, pure_ok] at h
      exact ⟨v.activeLen, v.activeRemovals, by rw [← h], Or.inl ⟨hst, rfl⟩⟩
    · rename_i hst
      simp only [if_true] at h
      exact ⟨_, _, (removeActive_ok h).2, Or.inr ⟨by simpa using hst, rfl⟩⟩
  obtain ⟨n, rem, rfl, hcase⟩ := key
  have hreqs : ∀ j, (VAccount.setReq { v with activeLen := n, activeRemovals := rem } i
      { r with status := st }).reqs[j]? = if j = i then some { r with status := st } else v.reqs[j]? := by
    intro j
    rw [setReq_reqs]
    have e : ({ v with activeLen := n, activeRemovals := rem } : VAccount).reqs = v.reqs := rfl
    rw [e]
    have : i < v.reqs.length := (List.getElem?_eq_some_iff.mp hr).1
    simp [this]
  constructor
  · constructor
    · exact hi.len
    · intro j x hx
      simp only [VAccount.setReq, AMap.get_set] at hx
      split at hx
      · rename_i e; subst e; exact hlt
      · exact hi.upd j x hx
    · exact hi.start
    · exact hi.adds
    · intro j hj
      rcases hcase with ⟨-, rfl⟩ | ⟨-, rfl⟩
      · exact hi.rems j hj
      · simp only [VAccount.setReq, List.mem_append, List.mem_singleton] at hj
        rcases hj with hj | rfl
        · exact hi.rems j hj
        · exact hlt
    · exact hi.cact
    · intro j
      have hact := hi.act j
      rw [mem_realActive] at hact ⊢
      rw [hreqs]
      simp only [VAccount.setReq]
      by_cases hj : j = i
      · subst hj
        simp only [if_true, Option.some.injEq, exists_eq_left']
        rcases hcase with ⟨hst, rfl⟩ | ⟨hst, rfl⟩
        · rw [hact, hr]
          simp [hp, hst]
        · simp [hst]
      · simp only [hj, if_false]
        rw [← hact]
        rcases hcase with ⟨hst, rfl⟩ | ⟨hst, rfl⟩
        · exact Iff.rfl
        · simp [hj]
  · refine ⟨rfl, rfl, ?_⟩
    intro j x hx
    rw [hreqs]
    by_cases hj : j = i
    · subst hj
      rw [hr] at hx; cases hx
      exact ⟨_, if_pos rfl, ⟨rfl, rfl, rfl, rfl⟩, hs⟩
    · exact ⟨x, by rw [if_neg hj]; exact hx, .refl _, .refl _⟩

/-- A request after its status has been set, if it is listed and in one of the required statuses. -/
def restatus (is : List Nat) (ph : List Status) (st : Status) (j : Nat) (r : KeeperRequest) : KeeperRequest :=
  if j ∈ is ∧ r.status ∈ ph then { r with status := st } else r

theorem trySetOne_inv {v v' : VAccount} {st : Status} {ph : List Status} {e : Nat × KeeperRequest}
    (hst : st = STATUS_ACTIVE ∨ st = STATUS_CANCELLED) (hph : statusPhases st = Except.ok ph)
    (hi : RInv v) (hr : v.reqs[e.1]? = some e.2) (hlt : e.1 < v.requestsLen)
    (h : v.trySetOne st ph e = Except.ok v') : RInv v' ∧ SoftReq v v' ∧
      ∀ j, v'.reqs[j]? = (v.reqs[j]?).map (restatus [e.1] ph st j) := by
  unfold VAccount.trySetOne at h
  split at h
  · rename_i hmem
    simp only [pure_ok] at h; subst h
    refine ⟨hi, .refl _, ?_⟩
    intro j
    by_cases hj : j = e.1
    · subst hj; rw [hr]; simp [restatus, hmem]
    · have : restatus [e.1] ph st j = id := by funext r; simp [restatus, hj]
      rw [this, Option.map_id_apply]
  · rename_i hmem
    simp only [bind_ok, pure_ok] at h
    obtain ⟨v1, h1, rfl⟩ := h
    have hmem : e.2.status ∈ ph := by simpa using hmem
    have hs : Soft e.2.status st ∧ pending e.2.status = true := by
      unfold statusPhases at hph
      rcases hst with rfl | rfl
      · simp [STATUS_ACTIVE] at hph
        subst hph
        simp only [List.mem_cons, List.not_mem_nil, or_false] at hmem
        rw [hmem]; exact ⟨.activate, by decide⟩
      · simp [STATUS_ACTIVE, STATUS_CANCELLED, STATUS_EXECUTED] at hph
        subst hph
        simp only [List.mem_cons, List.not_mem_nil, or_false] at hmem
        rcases hmem with h | h <;> rw [h]
        · exact ⟨.cancelActive, by decide⟩
        · exact ⟨.cancelDormant, by decide⟩
    obtain ⟨a, b⟩ := setStatus_one hi hr hlt hs.1 h1 hs.2
    refine ⟨a, b, ?_⟩
    intro j
    have e1 : v1.reqs = v.reqs := by
      unfold VAccount.moveActive at h1
      split at h1 <;> split at h1
      · simp only [pure_ok] at h1; rw [h1]
      · simp only [pure_ok] at h1; rw [← h1]; rfl
      · rw [(removeActive_ok h1).2]; rfl
      · simp only [pure_ok] at h1; rw [h1]
    have := setReq_reqs (v := v1) (i := e.1) (r := { e.2 with status := st }) j
    refine Eq.trans this ?_
    rw [e1]
    by_cases hj : j = e.1
    · subst hj
      have hl : e.1 < v.reqs.length := (List.getElem?_eq_some_iff.mp hr).1
      rw [if_pos rfl, if_pos hl, hr]
      simp [restatus, hmem]
    · have h3 : restatus [e.1] ph st j = id := by funext r; simp [restatus, hj]
      rw [if_neg hj, h3, Option.map_id_apply]

theorem trySet_foldl {st : Status} {ph : List Status} (hst : st = STATUS_ACTIVE ∨ st = STATUS_CANCELLED)
    (hph : statusPhases st = Except.ok ph) (l : List (Nat × KeeperRequest)) : ∀ {v v' : VAccount},
    RInv v → (l.map Prod.fst).Nodup → (∀ e ∈ l, v.reqs[e.1]? = some e.2 ∧ e.1 < v.requestsLen) →
    l.foldlM (VAccount.trySetOne st ph) v = Except.ok v' → RInv v' ∧ SoftReq v v' ∧
      ∀ j, v'.reqs[j]? = (v.reqs[j]?).map (restatus (l.map Prod.fst) ph st j) := by
  induction l with
  | nil =>
    intro v v' hi _ _ h
    simp only [List.foldlM_nil, pure_ok] at h
    subst h
    refine ⟨hi, .refl _, ?_⟩
    intro j
    have : restatus (([] : List (Nat × KeeperRequest)).map Prod.fst) ph st j = id := by
      funext r; simp [restatus]
    rw [this, Option.map_id_apply]
  | cons e l ih =>
    intro v v' hi hn hl h
    simp only [List.foldlM_cons, bind_ok] at h
    obtain ⟨v1, h1, h2⟩ := h
    simp only [List.map_cons, List.nodup_cons] at hn
    obtain ⟨hr, hlt⟩ := hl e (List.mem_cons_self ..)
    obtain ⟨a1, b1, c1⟩ := trySetOne_inv hst hph hi hr hlt h1
    have ho := b1.only
    unfold ReqOnly at ho
    obtain ⟨a2, b2, c2⟩ := ih a1 hn.2 (by
      intro e' he'
      obtain ⟨x, y⟩ := hl e' (List.mem_cons_of_mem _ he')
      have hne : e'.1 ≠ e.1 := by
        intro heq; exact hn.1 (heq ▸ List.mem_map_of_mem he')
      have h3 : restatus [e.1] ph st e'.1 = id := by funext r; simp [restatus, hne]
      refine ⟨by rw [c1, h3, Option.map_id_apply]; exact x, ?_⟩
      rw [ho]; exact y) h2
    refine ⟨a2, b1.trans b2, ?_⟩
    intro j
    rw [c2, c1, Option.map_map]
    congr 1
    funext r
    simp only [Function.comp, List.map_cons]
    by_cases hj : j = e.1
    · subst hj
      have hnm : e.1 ∉ l.map Prod.fst := hn.1
      simp only [restatus, List.mem_cons, List.not_mem_nil, or_false, true_and, hnm, false_and, if_false]
    · simp only [restatus, List.mem_cons, List.not_mem_nil, or_false, hj, false_and, if_false, false_or]

theorem keeperRequests_entries {v : VAccount} {is : List Nat} {krs : AMap Nat KeeperRequest} (hi : RInv v)
    (h : v.keeperRequests is = Except.ok krs) :
    ∀ e ∈ krs.entries, v.reqs[e.1]? = some e.2 ∧ e.1 < v.requestsLen := by
  intro e he
  have hg := AMap.get_mem (m := krs) he
  exact keeperRequest_reqs hi ((AMap.buildM_get h hg).2)

theorem keeperRequests_keys {v : VAccount} {is : List Nat} {krs : AMap Nat KeeperRequest}
    (h : v.keeperRequests is = Except.ok krs) (j : Nat) : j ∈ krs.entries.map Prod.fst ↔ j ∈ is := by
  obtain ⟨h1, h2⟩ := AMap.buildM_ok h
  constructor
  · intro hj
    by_contra hc
    obtain ⟨e, he, rfl⟩ := List.mem_map.mp hj
    have := AMap.get_mem (m := krs) he
    rw [h2 _ hc] at this; cases this
  · intro hj
    obtain ⟨r, -, hg⟩ := h1 j hj
    exact List.mem_map.mpr ⟨(j, r), AMap.get_eq_some.mp hg, rfl⟩

theorem restatus_congr {is is' : List Nat} (h : ∀ j, j ∈ is ↔ j ∈ is') (ph : List Status) (st : Status) :
    restatus is ph st = restatus is' ph st := by
  funext j r; simp only [restatus, h j]

theorem trySetStatus_inv {v v' : VAccount} {is : List Nat} {st : Status} (hi : RInv v)
    (hst : st = STATUS_ACTIVE ∨ st = STATUS_CANCELLED)
    (h : v.trySetStatus is st = Except.ok v') : RInv v' ∧ SoftReq v v' ∧
      ∃ ph, statusPhases st = Except.ok ph ∧
      ∀ j, v'.reqs[j]? = (v.reqs[j]?).map (restatus is ph st j) := by
  simp only [VAccount.trySetStatus, bind_ok] at h
  obtain ⟨ph, hph, krs, hk, h⟩ := h
  obtain ⟨a, b, c⟩ := trySet_foldl hst hph _ hi krs.nodup (keeperRequests_entries hi hk) h
  refine ⟨a, b, ph, hph, ?_⟩
  intro j
  rw [c, restatus_congr (keeperRequests_keys hk)]

theorem cancelOne_trySet {v v' : VAccount} {e : Nat × KeeperRequest} (h : v.cancelOne e = Except.ok v') :
    v.trySetOne STATUS_CANCELLED [STATUS_ACTIVE, STATUS_DORMANT] e = Except.ok v' ∧
    pending e.2.status = true := by
  have hph : statusPhases STATUS_CANCELLED = Except.ok [STATUS_ACTIVE, STATUS_DORMANT] := by
    simp [statusPhases, STATUS_ACTIVE, STATUS_CANCELLED, STATUS_EXECUTED]
  simp only [VAccount.cancelOne, hph, bind_ok, require_ok, decide_eq_true_eq] at h
  obtain ⟨ph, hp, -, hmem, v1, h1, h2⟩ := h
  cases hp
  refine ⟨?_, ?_⟩
  · unfold VAccount.trySetOne
    rw [if_neg (not_not.mpr hmem)]
    simp only [bind_ok]
    exact ⟨v1, h1, h2⟩
  · simp only [List.mem_cons, List.not_mem_nil, or_false] at hmem
    unfold pending; exact decide_eq_true hmem

theorem cancelRequests_inv {v v' : VAccount} {is : List Nat} (hi : RInv v)
    (h : v.cancelRequests is = Except.ok v') : RInv v' ∧ SoftReq v v' ∧
      (∀ j, v'.reqs[j]? = (v.reqs[j]?).map (restatus is [STATUS_ACTIVE, STATUS_DORMANT] STATUS_CANCELLED j)) ∧
      ∀ j ∈ is, ∃ r : KeeperRequest, v.reqs[j]? = some r ∧ pending r.status = true := by
  simp only [VAccount.cancelRequests, bind_ok] at h
  obtain ⟨krs, hk, h⟩ := h
  have hph : statusPhases STATUS_CANCELLED = Except.ok [STATUS_ACTIVE, STATUS_DORMANT] := by
    simp [statusPhases, STATUS_ACTIVE, STATUS_CANCELLED, STATUS_EXECUTED]
  have hconv : ∀ (l : List (Nat × KeeperRequest)) {v v' : VAccount}, l.foldlM VAccount.cancelOne v = Except.ok v' →
      l.foldlM (VAccount.trySetOne STATUS_CANCELLED [STATUS_ACTIVE, STATUS_DORMANT]) v = Except.ok v' ∧
      ∀ e ∈ l, pending e.2.status = true := by
    intro l
    induction l with
    | nil => intro v v' h; exact ⟨h, fun e he => by cases he⟩
    | cons e l ih =>
      intro v v' h
      simp only [List.foldlM_cons, bind_ok] at h ⊢
      obtain ⟨v1, h1, h2⟩ := h
      obtain ⟨a, b⟩ := cancelOne_trySet h1
      obtain ⟨c, d⟩ := ih h2
      refine ⟨⟨v1, a, c⟩, ?_⟩
      intro e' he'
      rcases List.mem_cons.mp he' with rfl | he'
      · exact b
      · exact d e' he'
  obtain ⟨h', hp⟩ := hconv _ h
  have hent := keeperRequests_entries hi hk
  obtain ⟨a, b, c⟩ := trySet_foldl (Or.inr rfl) hph _ hi krs.nodup hent h'
  refine ⟨a, b, ?_, ?_⟩
  · intro j
    rw [c, restatus_congr (keeperRequests_keys hk)]
  · intro j hj
    obtain ⟨e, he, rfl⟩ := List.mem_map.mp ((keeperRequests_keys hk j).mpr hj)
    exact ⟨e.2, (hent e he).1, hp e he⟩

/-- Recording a new request. -/
theorem pushRequest_inv {v v' : VAccount} {now : Int} {r : Request} {delay expiry : Nat} {st : Status}
    {eff : List Addr} (hi : RInv v) (h : v.pushRequest now r delay expiry st eff = Except.ok v') :
    RInv v' ∧ ∃ kr : KeeperRequest, v'.reqs = v.reqs ++ [kr] ∧ kr.request = r ∧ pending st = true ∧
      kr.status = st ∧ kr.effected = eff ∧ kr.submission = now + u64AsI64 delay ∧
      kr.expiry = now + u64AsI64 delay + u64AsI64 expiry ∧
      I64MIN ≤ kr.submission ∧ kr.submission ≤ I64MAX ∧ I64MIN ≤ kr.expiry ∧ kr.expiry ≤ I64MAX ∧
      v'.activeLen = v.activeLen + 1 ∧ v'.activeAdditions = v.activeAdditions ++ [v.reqs.length] ∧
      v'.activeRemovals = v.activeRemovals ∧ ReqOnly v v' := by
  have honly := pushRequest_reqOnly h
  simp only [VAccount.pushRequest, bind_ok, pure_ok, require_ok, decide_eq_true_eq, addSeconds_ok,
    VAccount.addActive] at h
  obtain ⟨-, hst, _, ⟨hr1, rfl⟩, _, ⟨hr2, rfl⟩, rfl⟩ := h
  have hp : pending st = true := by simpa only [pending, decide_eq_true_eq] using hst
  have hlen : v.requestsLen + v.requestAdditions.length = v.reqs.length := by
    rw [v.reqs_length, hi.len]
  generalize hkr : ({ request := r, submission := now + u64AsI64 delay,
                      expiry := now + u64AsI64 delay + u64AsI64 expiry
                      status := st, effected := eff } : KeeperRequest) = kr at honly ⊢
  generalize hv2 : ({ v with
    activeLen := v.activeLen + 1
    activeAdditions := v.activeAdditions ++ [v.requestsLen + v.requestAdditions.length]
    requestAdditions := v.requestAdditions ++ [kr] } : VAccount) = v2 at honly ⊢
  have hreqs : v2.reqs = v.reqs ++ [kr] := by
    apply List.ext_getElem?
    intro j
    rw [VAccount.reqs_get]
    have e : v2.requestUpdates = v.requestUpdates := by rw [← hv2]
    have e2 : v2.comp = v.comp := by rw [← hv2]
    have e3 : v2.requestAdditions = v.requestAdditions ++ [kr] := by rw [← hv2]
    rw [e, e2, e3]
    cases hu : v.requestUpdates.get j with
    | some x =>
      have hj := hi.upd j x hu
      rw [hi.len] at hj
      simp only
      rw [if_pos (by simp; omega), List.getElem?_append_left (by rw [v.reqs_length]; omega), v.reqs_get, hu]
      simp only
      rw [if_pos (by omega)]
    | none =>
      simp only
      rw [← List.append_assoc]
      have hl : (v.comp.requests ++ v.requestAdditions).length = v.reqs.length := by
        rw [v.reqs_length]; simp
      by_cases hj : j < v.reqs.length
      · rw [List.getElem?_append_left (l₁ := v.reqs) hj, List.getElem?_append_left (by omega), v.reqs_get, hu]
      · rw [List.getElem?_append_right (l₁ := v.reqs) (by omega), List.getElem?_append_right (by omega), hl]
  refine ⟨?_, kr, hreqs, ?_⟩
  · rw [← hv2] at hreqs ⊢
    refine ⟨hi.len, hi.upd, hi.start, ?_, hi.rems, hi.cact, ?_⟩
    · intro i hm
      simp only [List.mem_append, List.mem_singleton] at hm
      rcases hm with hm | rfl
      · exact hi.adds i hm
      · exact Nat.le_add_right _ _
    · intro i
      have hact := hi.act i
      rw [mem_realActive] at hact ⊢
      rw [hreqs]
      simp only [List.mem_append, List.mem_singleton]
      by_cases hi' : i = v.reqs.length
      · subst hi'
        have hrem : v.reqs.length ∉ v.activeRemovals := by
          intro hm; have := hi.rems _ hm; omega
        have h0 := hi.start.2
        have hk : kr.status = st := by rw [← hkr]
        have hge : v.validStart ≤ v.reqs.length := by omega
        simp only [hlen, or_true, true_and, hrem, not_false_eq_true, hge, true_iff]
        exact ⟨kr, by simp, by rw [hk]; exact hp⟩
      · have e : (v.reqs ++ [kr])[i]? = v.reqs[i]? := by
          by_cases hj : i < v.reqs.length
          · rw [List.getElem?_append_left hj]
          · rw [List.getElem?_eq_none (by simp; omega), List.getElem?_eq_none (by omega)]
        rw [e, ← hact, hlen]
        simp [hi']
  · rw [← hv2, ← hkr]
    rw [← hv2, ← hkr] at honly
    exact ⟨rfl, hp, rfl, rfl, rfl, rfl, hr1.1, hr1.2, hr2.1, hr2.2, rfl, by rw [← hlen], rfl, honly⟩

/-- Processing a request: it was pending inside its window and becomes executed or expired. -/
theorem processRequest_inv {v v' : VAccount} {now : Int} {i : Nat} {r : Request} {e : Bool}
    (hi : RInv v) (h : v.processRequest now i = Except.ok (v', r, e)) :
    RInv v' ∧ ReqOnly v v' ∧ v'.requestAdditions = v.requestAdditions ∧ v.validStart ≤ i ∧
    ∃ kr : KeeperRequest, v.reqs[i]? = some kr ∧ kr.request = r ∧ kr.submission < now ∧
      (e = false ∧ now < kr.expiry ∧ kr.status = STATUS_ACTIVE ∧
          v'.reqs[i]? = some { kr with status := STATUS_EXECUTED } ∨
       e = true ∧ kr.expiry ≤ now ∧ pending kr.status = true ∧
          v'.reqs[i]? = some { kr with status := STATUS_EXPIRED }) ∧
      ∀ j, j ≠ i → v'.reqs[j]? = v.reqs[j]? := by
  have honly := processRequest_reqOnly h
  simp only [VAccount.processRequest, bind_ok, pure_ok, require_ok, decide_eq_true_eq, Prod.mk.injEq] at h
  obtain ⟨-, hge, kr, hkr, st, hst, -, hsub, v1, h1, rfl, rfl, rfl⟩ := h
  obtain ⟨hr, hlt⟩ := keeperRequest_reqs hi hkr
  obtain ⟨-, rfl⟩ := removeActive_ok h1
  have hnp : pending st = false ∧ (now < kr.expiry ∧ kr.status = STATUS_ACTIVE ∧ st = STATUS_EXECUTED ∨
      kr.expiry ≤ now ∧ pending kr.status = true ∧ st = STATUS_EXPIRED) := by
    unfold processStatus at hst
    split at hst
    · rename_i hx
      simp only [bind_ok, pure_ok, require_ok] at hst
      obtain ⟨-, hp, rfl⟩ := hst
      exact ⟨by decide, Or.inr ⟨hx, hp, rfl⟩⟩
    · rename_i hx
      simp only [bind_ok, pure_ok, require_ok, decide_eq_true_eq] at hst
      obtain ⟨-, hp, rfl⟩ := hst
      exact ⟨by decide, Or.inl ⟨by omega, hp, rfl⟩⟩
  have hil : i < v.reqs.length := (List.getElem?_eq_some_iff.mp hr).1
  have hreqs : ∀ j, (VAccount.setReq { v with activeLen := v.activeLen - 1, activeRemovals := v.activeRemovals ++ [i] } i
      { kr with status := st }).reqs[j]? = if j = i then some { kr with status := st } else v.reqs[j]? := by
    intro j
    rw [setReq_reqs]
    have e : ({ v with activeLen := v.activeLen - 1, activeRemovals := v.activeRemovals ++ [i] } : VAccount).reqs
      = v.reqs := rfl
    rw [e, if_pos hil]
  refine ⟨⟨hi.len, ?_, hi.start, hi.adds, ?_, hi.cact, ?_⟩, honly, rfl, hge, kr, hr, rfl, hsub, ?_, ?_⟩
  · intro j x hx
    simp only [AMap.get_set] at hx
    split at hx
    · rename_i e; subst e; exact hlt
    · exact hi.upd j x hx
  · intro j hj
    simp only [List.mem_append, List.mem_singleton] at hj
    rcases hj with hj | rfl
    · exact hi.rems j hj
    · exact hlt
  · intro j
    have hact := hi.act j
    have hj' := hreqs j
    unfold VAccount.setReq at hj'
    rw [hj']
    rw [mem_realActive] at hact ⊢
    by_cases hj : j = i
    · subst hj
      simp [hnp.1]
    · simp only [hj, if_false]
      rw [← hact]
      simp [hj]
  · have hi' := hreqs i
    unfold VAccount.setReq at hi'
    rw [hi', if_pos rfl]
    rcases hnp.2 with ⟨a, b, rfl⟩ | ⟨a, b, rfl⟩
    · exact Or.inl ⟨by simpa using a, a, b, rfl⟩
    · exact Or.inr ⟨by simpa using a, a, b, rfl⟩
  · intro j hj
    have hj' := hreqs j
    unfold VAccount.setReq at hj'
    rw [hj', if_neg hj]

theorem updateValidStart_inv {v : VAccount} (hi : RInv v) : RInv v.updateValidStart := by
  refine ⟨hi.len, hi.upd, ⟨le_trans hi.start.1 hi.start.2, le_refl _⟩, hi.adds, hi.rems, hi.cact, ?_⟩
  intro i
  have hact := hi.act i
  have e : v.updateValidStart.reqs = v.reqs := rfl
  rw [e]
  rw [mem_realActive] at hact ⊢
  simp only [VAccount.updateValidStart]
  have h1 := hi.start
  constructor
  · rintro ⟨h | h, hn⟩
    · have hc := hi.cact i h.1
      have hge : v.requestsLen ≤ i := by
        by_cases hx : v.requestsLen > v.comp.validStart
        · exact h.2 hx
        · omega
      refine ⟨hge, (hact.mp ⟨Or.inl ⟨h.1, fun _ => by omega⟩, hn⟩).2⟩
    · exact ⟨hi.adds i h, (hact.mp ⟨Or.inr h, hn⟩).2⟩
  · rintro ⟨hge, hr⟩
    obtain ⟨h | h, hn⟩ := hact.mpr ⟨by omega, hr⟩
    · exact ⟨Or.inl ⟨h.1, fun _ => hge⟩, hn⟩
    · exact ⟨Or.inr h, hn⟩

end Perp
