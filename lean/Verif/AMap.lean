import Verif.Base

/-!
# Finite maps

`AMap K V` models the Rust `HashMap<K, V>`, `KeyValueStore<K, V>` and `IndexMap<K, V>` used by the
code: an association list with pairwise distinct keys.  Iteration is in list order.
-/

set_option linter.unusedSectionVars false

namespace Perp

/-- A finite map: entries with pairwise different keys. -/
structure AMap (K V : Type) where
  entries : List (K × V)
  nodup : (entries.map Prod.fst).Nodup

namespace AMap
variable {K V W : Type} [DecidableEq K]

/-- `HashMap::new()`. -/
def empty : AMap K V := ⟨[], by simp⟩

instance : Inhabited (AMap K V) := ⟨empty⟩

/-- Association-list lookup. -/
def lget (k : K) : List (K × V) → Option V
  | [] => none
  | (k', v) :: l => if k' = k then some v else lget k l

/-- Association-list insert: replace in place, or append. -/
def lset (k : K) (v : V) : List (K × V) → List (K × V)
  | [] => [(k, v)]
  | (k', v') :: l => if k' = k then (k, v) :: l else (k', v') :: lset k v l

/-- Association-list removal. -/
def lerase (k : K) : List (K × V) → List (K × V)
  | [] => []
  | (k', v') :: l => if k' = k then l else (k', v') :: lerase k l

theorem lset_keys (k : K) (v : V) (l : List (K × V)) :
    (lset k v l).map Prod.fst = if k ∈ l.map Prod.fst then l.map Prod.fst else l.map Prod.fst ++ [k] := by
  induction l with
  | nil => simp [lset]
  | cons x l ih =>
    obtain ⟨k', v'⟩ := x
    unfold lset
    by_cases h : k' = k
    · simp [h]
    · simp only [h, if_false, List.map_cons, List.mem_cons, ih]
      have : ¬ k = k' := fun e => h e.symm
      simp only [this, false_or]
      split <;> simp

theorem lset_nodup (k : K) (v : V) (l : List (K × V)) (h : (l.map Prod.fst).Nodup) :
    ((lset k v l).map Prod.fst).Nodup := by
  rw [lset_keys]
  split
  · exact h
  · rename_i hk
    rw [List.nodup_append]
    refine ⟨h, by simp, ?_⟩
    intro a ha b hb
    simp only [List.mem_singleton] at hb
    subst hb
    intro e; subst e; exact hk ha

theorem lerase_keys_sub (k : K) (l : List (K × V)) :
    ((lerase k l).map Prod.fst).Sublist (l.map Prod.fst) := by
  induction l with
  | nil => simp [lerase]
  | cons x l ih =>
    obtain ⟨k', v'⟩ := x
    unfold lerase
    split
    · simp
    · simpa using ih

/-- `map.get(&k)`. -/
def get (m : AMap K V) (k : K) : Option V := lget k m.entries
/-- `map.insert(k, v)`. -/
def set (m : AMap K V) (k : K) (v : V) : AMap K V := ⟨lset k v m.entries, lset_nodup k v _ m.nodup⟩
/-- `map.remove(&k)`. -/
def erase (m : AMap K V) (k : K) : AMap K V :=
  ⟨lerase k m.entries, m.nodup.sublist (lerase_keys_sub k _)⟩
/-- `map.keys()`. -/
def keys (m : AMap K V) : List K := m.entries.map Prod.fst
/-- `map.contains_key(&k)`. -/
def has (m : AMap K V) (k : K) : Bool := (m.get k).isSome
/-- `map.len()`. -/
def size (m : AMap K V) : Nat := m.entries.length
/-- `map.get(&k).unwrap_or_default()`. -/
def getD (m : AMap K V) (k : K) (d : V) : V := (m.get k).getD d
/-- Map over the values. -/
def mapV (f : K → V → W) (m : AMap K V) : AMap K W :=
  ⟨m.entries.map (fun e => (e.1, f e.1 e.2)), by
    have : (m.entries.map (fun e => (e.1, f e.1 e.2))).map Prod.fst = m.entries.map Prod.fst := by
      simp [List.map_map, Function.comp_def]
    rw [this]; exact m.nodup⟩
/-- Sum of a quantity over all entries (specification only). -/
def sum (f : K → V → Int) (m : AMap K V) : Int := (m.entries.map (fun e => f e.1 e.2)).sum

theorem lget_lset (k k' : K) (v : V) (l : List (K × V)) :
    lget k' (lset k v l) = if k = k' then some v else lget k' l := by
  induction l with
  | nil => simp [lset, lget]
  | cons x l ih =>
    obtain ⟨k0, v0⟩ := x
    unfold lset
    by_cases h : k0 = k
    · simp only [h, if_true, lget]
      split <;> simp_all
    · simp only [h, if_false, lget, ih]
      by_cases h2 : k0 = k'
      · have : ¬ k = k' := fun e => h (h2.trans e.symm)
        simp [h2, this]
      · simp [h2]

theorem lget_eq_none {k : K} {l : List (K × V)} : lget k l = none ↔ k ∉ l.map Prod.fst := by
  induction l with
  | nil => simp [lget]
  | cons x l ih =>
    obtain ⟨k0, v0⟩ := x
    unfold lget
    by_cases h : k0 = k
    · simp [h]
    · have : ¬ k = k0 := fun e => h e.symm
      simp only [h, if_false, ih, List.map_cons, List.mem_cons, this, false_or]

theorem lget_lerase (k k' : K) (l : List (K × V)) (hn : (l.map Prod.fst).Nodup) :
    lget k' (lerase k l) = if k = k' then none else lget k' l := by
  induction l with
  | nil => simp [lerase, lget]
  | cons x l ih =>
    obtain ⟨k0, v0⟩ := x
    simp only [List.map_cons, List.nodup_cons] at hn
    unfold lerase
    by_cases h : k0 = k
    · subst h
      simp only [if_true, lget]
      by_cases h2 : k0 = k'
      · subst h2; simp only [if_true]; exact lget_eq_none.mpr hn.1
      · simp [h2]
    · simp only [h, if_false, lget, ih hn.2]
      by_cases h2 : k0 = k'
      · have : ¬ k = k' := fun e => h (h2.trans e.symm)
        simp [h2, this]
      · simp [h2]

@[simp] theorem get_empty (k : K) : (empty : AMap K V).get k = none := rfl

theorem get_set (m : AMap K V) (k k' : K) (v : V) :
    (m.set k v).get k' = if k = k' then some v else m.get k' := lget_lset k k' v _

@[simp] theorem get_set_self (m : AMap K V) (k : K) (v : V) : (m.set k v).get k = some v := by
  simp [get_set]

theorem get_set_ne (m : AMap K V) {k k' : K} (v : V) (h : k ≠ k') : (m.set k v).get k' = m.get k' := by
  simp [get_set, h]

theorem get_erase (m : AMap K V) (k k' : K) :
    (m.erase k).get k' = if k = k' then none else m.get k' := lget_lerase k k' _ m.nodup

theorem get_eq_none {m : AMap K V} {k : K} : m.get k = none ↔ k ∉ m.keys := lget_eq_none

theorem lget_eq_some {k : K} {v : V} {l : List (K × V)} (hn : (l.map Prod.fst).Nodup) :
    lget k l = some v ↔ (k, v) ∈ l := by
  induction l with
  | nil => simp [lget]
  | cons x l ih =>
    obtain ⟨k0, v0⟩ := x
    simp only [List.map_cons, List.nodup_cons] at hn
    unfold lget
    by_cases h : k0 = k
    · subst h
      simp only [if_true, Option.some.injEq, List.mem_cons, Prod.mk.injEq, true_and]
      constructor
      · intro e; left; exact e.symm
      · rintro (e | e)
        · exact e.symm
        · exact absurd (List.mem_map_of_mem (f := Prod.fst) e) hn.1
    · have : ¬ k = k0 := fun e => h e.symm
      simp [h, ih hn.2, this]

theorem get_eq_some {m : AMap K V} {k : K} {v : V} : m.get k = some v ↔ (k, v) ∈ m.entries :=
  lget_eq_some m.nodup

theorem get_mem {m : AMap K V} {k : K} {v : V} (h : (k, v) ∈ m.entries) : m.get k = some v :=
  get_eq_some.mpr h

theorem has_iff {m : AMap K V} {k : K} : m.has k = true ↔ ∃ v, m.get k = some v := by
  simp [has, Option.isSome_iff_exists]

theorem mem_keys {m : AMap K V} {k : K} : k ∈ m.keys ↔ ∃ v, m.get k = some v := by
  constructor
  · intro h
    rcases hg : m.get k with _ | v
    · exact absurd h (get_eq_none.mp hg)
    · exact ⟨v, rfl⟩
  · rintro ⟨v, h⟩
    by_contra hn
    rw [get_eq_none.mpr hn] at h
    cases h

theorem get_mapV (f : K → V → W) (m : AMap K V) (k : K) :
    (m.mapV f).get k = (m.get k).map (f k) := by
  show lget k (m.entries.map _) = (lget k m.entries).map (f k)
  generalize m.entries = l
  induction l with
  | nil => rfl
  | cons x l ih =>
    obtain ⟨k0, v0⟩ := x
    simp only [List.map_cons, lget]
    by_cases h : k0 = k
    · subst h; simp
    · simp [h, ih]

/-! ### Sums -/

/-- Contribution of one key to a sum. -/
def term (f : K → V → Int) (m : AMap K V) (k : K) : Int :=
  match m.get k with
  | some v => f k v
  | none => 0

theorem lsum_lset (f : K → V → Int) (k : K) (v : V) (l : List (K × V)) :
    ((lset k v l).map (fun e => f e.1 e.2)).sum =
      (l.map (fun e => f e.1 e.2)).sum - (match lget k l with | some v => f k v | none => 0) + f k v := by
  induction l with
  | nil => simp [lset, lget]
  | cons x l ih =>
    obtain ⟨k0, v0⟩ := x
    unfold lset lget
    by_cases h : k0 = k
    · subst h; simp only [if_true, List.map_cons, List.sum_cons]; ring
    · simp only [h, if_false, List.map_cons, List.sum_cons, ih]; ring

theorem lsum_lerase (f : K → V → Int) (k : K) (l : List (K × V)) :
    ((lerase k l).map (fun e => f e.1 e.2)).sum =
      (l.map (fun e => f e.1 e.2)).sum - (match lget k l with | some v => f k v | none => 0) := by
  induction l with
  | nil => simp [lerase, lget]
  | cons x l ih =>
    obtain ⟨k0, v0⟩ := x
    unfold lerase lget
    by_cases h : k0 = k
    · subst h; simp only [if_true, List.map_cons, List.sum_cons]; ring
    · simp only [h, if_false, List.map_cons, List.sum_cons, ih]; ring

@[simp] theorem sum_empty (f : K → V → Int) : (empty : AMap K V).sum f = 0 := rfl

theorem sum_set (f : K → V → Int) (m : AMap K V) (k : K) (v : V) :
    (m.set k v).sum f = m.sum f - m.term f k + f k v := lsum_lset f k v _

theorem sum_erase (f : K → V → Int) (m : AMap K V) (k : K) :
    (m.erase k).sum f = m.sum f - m.term f k := lsum_lerase f k _

theorem sum_add (f g : K → V → Int) (m : AMap K V) :
    m.sum (fun k v => f k v + g k v) = m.sum f + m.sum g := by
  unfold sum
  induction m.entries with
  | nil => rfl
  | cons x l ih => simp only [List.map_cons, List.sum_cons, ih]; ring

theorem sum_nonneg {f : K → V → Int} {m : AMap K V} (h : ∀ k v, m.get k = some v → 0 ≤ f k v) :
    0 ≤ m.sum f := by
  have h' : ∀ e ∈ m.entries, 0 ≤ f e.1 e.2 := fun e he => h e.1 e.2 (get_mem he)
  unfold sum
  generalize m.entries = l at h'
  induction l with
  | nil => simp
  | cons x l ih =>
    have h1 := h' x (by simp)
    have h2 := ih (fun e he => h' e (by simp [he]))
    simp only [List.map_cons, List.sum_cons]
    linarith

theorem sum_congr {f g : K → V → Int} {m : AMap K V} (h : ∀ k v, m.get k = some v → f k v = g k v) :
    m.sum f = m.sum g := by
  unfold sum
  congr 1
  apply List.map_congr_left
  rintro ⟨k, v⟩ he
  exact h k v (get_mem he)

theorem sum_zero {f : K → V → Int} {m : AMap K V} (h : ∀ k v, m.get k = some v → f k v = 0) :
    m.sum f = 0 := by
  rw [sum_congr (g := fun _ _ => 0) h]
  unfold sum
  induction m.entries with
  | nil => rfl
  | cons x l ih => simpa using ih

theorem term_le_sum {f : K → V → Int} {m : AMap K V} (h : ∀ k v, m.get k = some v → 0 ≤ f k v) (k : K) :
    m.term f k ≤ m.sum f := by
  have h1 := sum_erase f m k
  have h2 : 0 ≤ (m.erase k).sum f := by
    apply sum_nonneg
    intro k' v hv
    rw [get_erase] at hv
    split at hv
    · cases hv
    · exact h k' v hv
  linarith

theorem keys_set (m : AMap K V) (k : K) (v : V) :
    (m.set k v).keys = if k ∈ m.keys then m.keys else m.keys ++ [k] := lset_keys k v _

theorem keys_nodup (m : AMap K V) : m.keys.Nodup := m.nodup

theorem lset_lset (k : K) (v v' : V) (l : List (K × V)) : lset k v' (lset k v l) = lset k v' l := by
  induction l with
  | nil => simp [lset]
  | cons x l ih =>
    obtain ⟨k0, v0⟩ := x
    by_cases h : k0 = k
    · subst h; simp [lset]
    · simp [lset, h, ih]

@[simp] theorem set_set (m : AMap K V) (k : K) (v v' : V) : (m.set k v).set k v' = m.set k v' := by
  unfold set; simp only [lset_lset]

/-- Maps with the same lookups have the same sums. -/
theorem sum_ext {f : K → V → Int} {m m' : AMap K V} (h : ∀ k, m.get k = m'.get k) :
    m.sum f = m'.sum f := by
  obtain ⟨l, hl⟩ := m
  induction l generalizing m' with
  | nil =>
    have : m'.sum f = 0 := by
      apply sum_zero
      intro k v hv
      rw [← h k] at hv
      cases hv
    rw [this]; rfl
  | cons x l ih =>
    obtain ⟨k, v⟩ := x
    have hl' : (l.map Prod.fst).Nodup := (List.nodup_cons.mp hl).2
    have hk : k ∉ l.map Prod.fst := (List.nodup_cons.mp hl).1
    have hget : ∀ k', get ⟨(k, v) :: l, hl⟩ k' = if k = k' then some v else get ⟨l, hl'⟩ k' := by
      intro k'; simp [get, lget]
    have h1 := ih (m' := m'.erase k) hl' (by
      intro k'
      rw [get_erase, ← h k', hget]
      by_cases e : k = k'
      · subst e
        simp only [if_true]
        exact lget_eq_none.mpr hk
      · simp [e])
    have h2 := sum_erase f m' k
    have h3 : m'.term f k = f k v := by
      unfold term; rw [← h k, hget]; simp
    have h4 : sum f ⟨(k, v) :: l, hl⟩ = f k v + sum f ⟨l, hl'⟩ := by simp [sum]
    rw [h4, h1, h2, h3]; ring

theorem size_set_of_has (m : AMap K V) (k : K) (v : V) (h : k ∈ m.keys) : (m.set k v).size = m.size := by
  have := congrArg List.length (keys_set m k v)
  rw [if_pos h] at this
  simpa [keys, size] using this

theorem lset_append (k : K) (v v0 : V) (pre post : List (K × V)) (h : k ∉ pre.map Prod.fst) :
    lset k v (pre ++ (k, v0) :: post) = pre ++ (k, v) :: post := by
  induction pre with
  | nil => simp [lset]
  | cons e pre ih =>
    simp only [List.map_cons, List.mem_cons, not_or] at h
    have : ¬ e.1 = k := fun x => h.1 x.symm
    simp [lset, this, ih h.2]

/-- Overwriting every entry in turn is mapping. -/
theorem foldl_set_entries (f : K → V → V) (m : AMap K V) :
    m.entries.foldl (fun a e => a.set e.1 (f e.1 e.2)) m = m.mapV f := by
  have key : ∀ (post pre : List (K × V)) (a : AMap K V),
      a.entries = pre.map (fun e => (e.1, f e.1 e.2)) ++ post →
      (post.foldl (fun a e => a.set e.1 (f e.1 e.2)) a).entries
        = (pre ++ post).map (fun e => (e.1, f e.1 e.2)) := by
    intro post
    induction post with
    | nil => intro pre a h; simp [h]
    | cons e post ih =>
      intro pre a h
      simp only [List.foldl_cons]
      have hn : e.1 ∉ (pre.map (fun e => (e.1, f e.1 e.2))).map Prod.fst := by
        have := a.nodup
        rw [h] at this
        simp only [List.map_append, List.map_cons, List.nodup_append] at this
        intro hm
        exact this.2.2 _ hm _ (List.mem_cons_self ..) rfl
      have := ih (pre ++ [e]) (a.set e.1 (f e.1 e.2)) (by
        show lset e.1 _ a.entries = _
        rw [h, lset_append _ _ _ _ _ hn]
        simp)
      rw [this]; simp
  have h := key m.entries [] m rfl
  cases hm : m.entries.foldl (fun a e => a.set e.1 (f e.1 e.2)) m with
  | mk es nd =>
    rw [hm] at h
    simp only [List.nil_append] at h
    subst h
    rfl

end AMap

end Perp
