import Verif.Errs
import Verif.Failures

/-!
# Iteration order (C62): agreement of computations, loops, maps

The code iterates over hash maps and hash sets in an order it does not control; the model iterates in
list order.  `Agree r x y`: two computations end in related results, unless an overflow (`arithmetic`)
stops one of them.  `foldlM_agree` shows it for loops over permuted lists.
-/

namespace Perp

/-- Two runs agree: if both succeed the results are related, and if only one fails it fails with an
arithmetic overflow. -/
structure Agree {α β : Type} (r : α → β → Prop) (x : R α) (y : R β) : Prop where
  both : ∀ a b, x = Except.ok a → y = Except.ok b → r a b
  left : ∀ a e, x = Except.ok a → y = Except.error e → e = .arithmetic
  right : ∀ e b, x = Except.error e → y = Except.ok b → e = .arithmetic

theorem Agree.pure {α β : Type} {r : α → β → Prop} {a : α} {b : β} (h : r a b) :
    Agree r (pure a : R α) (pure b : R β) :=
  ⟨fun _ _ h1 h2 => (by cases h1; cases h2; exact h), fun _ _ _ h2 => (by cases h2),
   fun _ _ h1 _ => (by cases h1)⟩

theorem Agree.error {α β : Type} {r : α → β → Prop} {e e' : Err} :
    Agree r (Except.error e : R α) (Except.error e' : R β) :=
  ⟨fun _ _ h1 _ => (by cases h1), fun _ _ h1 _ => (by cases h1), fun _ _ _ h2 => (by cases h2)⟩

theorem Agree.refl {α : Type} {r : α → α → Prop} {x : R α} (h : ∀ a, r a a) : Agree r x x := by
  cases x with
  | error e => exact Agree.error
  | ok a => exact Agree.pure (h a)

theorem Agree.eq {α : Type} {x y : R α} (h : x = y) : Agree (fun a b => a = b) x y := by
  subst h; exact Agree.refl fun _ => rfl

theorem Agree.mono {α β : Type} {r q : α → β → Prop} {x : R α} {y : R β} (h : Agree r x y)
    (hq : ∀ a b, r a b → q a b) : Agree q x y :=
  ⟨fun a b h1 h2 => hq a b (h.both a b h1 h2), h.left, h.right⟩

theorem Agree.bind {α β γ δ : Type} {r : α → β → Prop} {q : γ → δ → Prop} {x : R α} {y : R β}
    {f : α → R γ} {g : β → R δ} (h : Agree r x y)
    (hf : ∀ a b, x = Except.ok a → y = Except.ok b → r a b → Agree q (f a) (g b)) :
    Agree q (x >>= f) (y >>= g) := by
  cases hx : x with
  | error e =>
    cases hy : y with
    | error e' => exact Agree.error
    | ok b =>
      have he := h.right e b hx hy
      subst he
      refine ⟨fun _ _ h1 _ => ?_, fun _ _ h1 _ => ?_, fun _ _ h1 _ => ?_⟩ <;> cases h1
      rfl
  | ok a =>
    cases hy : y with
    | error e' =>
      have he := h.left a e' hx hy
      subst he
      refine ⟨fun _ _ _ h2 => ?_, fun _ _ _ h2 => ?_, fun _ _ _ h2 => ?_⟩ <;> cases h2
      rfl
    | ok b => exact hf a b hx hy (h.both a b hx hy)

/-- Binding the same computation on both sides. -/
theorem Agree.bind_same {α γ δ : Type} {q : γ → δ → Prop} {x : R α}
    {f : α → R γ} {g : α → R δ} (hf : ∀ a, x = Except.ok a → Agree q (f a) (g a)) :
    Agree q (x >>= f) (x >>= g) :=
  Agree.bind (r := fun a b => a = b) (Agree.refl fun _ => rfl) (fun a b hx _ h => by subst h; exact hf a hx)

theorem Agree.require {γ δ : Type} {q : γ → δ → Prop} {c c' : Bool} {e e' : Err}
    {f : R γ} {g : R δ} (hc : c = c') (hf : c = true → Agree q f g) :
    Agree q (require c e >>= fun _ => f) (require c' e' >>= fun _ => g) := by
  subst hc
  cases c with
  | true => exact hf rfl
  | false => exact Agree.error

theorem Agree.require_end {c c' : Bool} {e e' : Err} (hc : c = c') :
    Agree (fun _ _ => True) (Perp.require c e) (Perp.require c' e') := by
  subst hc
  cases c with
  | true => exact Agree.pure trivial
  | false => exact Agree.error

theorem Agree.expect {α β γ δ : Type} {r : α → β → Prop} {q : γ → δ → Prop} {o : Option α} {o' : Option β}
    {e e' : Err} {f : α → R γ} {g : β → R δ} (ho : Option.Rel r o o')
    (hf : ∀ a b, o = some a → o' = some b → r a b → Agree q (f a) (g b)) :
    Agree q (expect o e >>= f) (expect o' e' >>= g) := by
  cases ho with
  | none => exact Agree.error
  | some h => exact hf _ _ rfl rfl h

/-! ## Loops -/

/-- Loops over permuted lists.  `φ` is what is observed of the accumulator, `η` what is used of an
element; one pass changes the observation by `ψ`, and fails for a reason other than overflow exactly
when `P` does not hold; passes for different elements do not influence each other. -/
theorem foldlM_agree {A A' E E' B F : Type} {f : A → E → R A} {f' : A' → E' → R A'}
    {φ : A → B} {φ' : A' → B} {η : E → F} {η' : E' → F} (ψ : B → F → B) (P : B → F → Prop) (I : B → Prop)
    {l : List E} {l' : List E'} (hl : (l.map η).Perm (l'.map η'))
    (hok : ∀ e ∈ l, ∀ a a1, I (φ a) → f a e = Except.ok a1 → φ a1 = ψ (φ a) (η e) ∧ P (φ a) (η e))
    (herr : ∀ e ∈ l, ∀ a x, I (φ a) → f a e = Except.error x → x = .arithmetic ∨ ¬ P (φ a) (η e))
    (hok' : ∀ e ∈ l', ∀ a a1, I (φ' a) → f' a e = Except.ok a1 → φ' a1 = ψ (φ' a) (η' e) ∧ P (φ' a) (η' e))
    (herr' : ∀ e ∈ l', ∀ a x, I (φ' a) → f' a e = Except.error x → x = .arithmetic ∨ ¬ P (φ' a) (η' e))
    (hI : ∀ x ∈ l.map η, ∀ b, I b → P b x → I (ψ b x))
    (hcomm : ∀ x ∈ l.map η, ∀ y ∈ l.map η, ∀ b, ψ (ψ b x) y = ψ (ψ b y) x)
    (hind : (l.map η).Pairwise (fun x y => ∀ b, (P (ψ b x) y ↔ P b y) ∧ (P (ψ b y) x ↔ P b x)))
    {a : A} {a' : A'} (h0 : φ a = φ' a') (hi0 : I (φ a)) :
    Agree (fun x y => φ x = φ' y) (l.foldlM f a) (l'.foldlM f' a') := by
  -- one side at a time
  have run : ∀ {A E : Type} {f : A → E → R A} {φ : A → B} {η : E → F} (l : List E)
      (_ : ∀ e ∈ l, ∀ a a1, I (φ a) → f a e = Except.ok a1 → φ a1 = ψ (φ a) (η e) ∧ P (φ a) (η e))
      (_ : ∀ e ∈ l, ∀ a x, I (φ a) → f a e = Except.error x → x = .arithmetic ∨ ¬ P (φ a) (η e))
      (_ : ∀ x ∈ l.map η, ∀ b, I b → P b x → I (ψ b x))
      (_ : (l.map η).Pairwise (fun x y => ∀ b, (P (ψ b x) y ↔ P b y) ∧ (P (ψ b y) x ↔ P b x))) (a : A), I (φ a) →
      (∀ r, l.foldlM f a = Except.ok r → φ r = (l.map η).foldl ψ (φ a) ∧ ∀ x ∈ l.map η, P (φ a) x) ∧
      (∀ e, l.foldlM f a = Except.error e → e = .arithmetic ∨ ∃ x ∈ l.map η, ¬ P (φ a) x) := by
    intro A E f φ η l
    induction l with
    | nil =>
      intro _ _ _ _ a _
      refine ⟨fun r hr => ?_, fun e he => ?_⟩
      · simp only [List.foldlM_nil, pure_ok] at hr
        subst hr; simp
      · cases he
    | cons x l ih =>
      intro h1 h2 h3 h4 a ha
      simp only [List.map_cons, List.pairwise_cons] at h4
      have ihl := ih (fun e he => h1 e (List.mem_cons_of_mem _ he)) (fun e he => h2 e (List.mem_cons_of_mem _ he))
        (fun e he => h3 e (List.mem_cons_of_mem _ he)) h4.2
      rw [List.foldlM_cons]
      cases hx : f a x with
      | error e =>
        refine ⟨fun r hr => (by cases hr), fun e' he => ?_⟩
        cases he
        rcases h2 x List.mem_cons_self a e ha hx with h | h
        · exact .inl h
        · exact .inr ⟨η x, by simp, h⟩
      | ok a1 =>
        obtain ⟨g1, g2⟩ := h1 x List.mem_cons_self a a1 ha hx
        obtain ⟨i1, i2⟩ := ihl a1 (by rw [g1]; exact h3 _ (by simp) _ ha g2)
        refine ⟨fun r hr => ?_, fun e he => ?_⟩
        · obtain ⟨j1, j2⟩ := i1 r hr
          refine ⟨by rw [j1, g1]; rfl, fun y hy => ?_⟩
          rcases List.mem_cons.mp hy with rfl | hy
          · exact g2
          · have := j2 y hy
            rw [g1] at this
            exact ((h4.1 y hy (φ a)).1).mp this
        · rcases i2 e he with h | ⟨y, hy, h⟩
          · exact .inl h
          · refine .inr ⟨y, by rw [List.map_cons]; exact List.mem_cons_of_mem _ hy, fun hp => h ?_⟩
            rw [g1]
            exact ((h4.1 y hy (φ a)).1).mpr hp
  have r1 := run l hok herr hI hind a hi0
  have hI' : ∀ x ∈ l'.map η', ∀ b, I b → P b x → I (ψ b x) := fun x hx => hI x (hl.mem_iff.mpr hx)
  have hind' : (l'.map η').Pairwise (fun x y => ∀ b, (P (ψ b x) y ↔ P b y) ∧ (P (ψ b y) x ↔ P b x)) :=
    hl.pairwise hind (fun {x y} h b => ⟨(h b).2, (h b).1⟩)
  have r2 := run l' hok' herr' hI' hind' a' (by rw [← h0]; exact hi0)
  rw [← h0] at r2
  refine ⟨fun x y hx hy => ?_, fun x e hx he => ?_, fun e y he hy => ?_⟩
  · rw [(r1.1 x hx).1, (r2.1 y hy).1]
    exact hl.foldl_eq' (fun x hx y hy z => hcomm x hx y hy z) _
  · rcases r2.2 e he with h | ⟨z, hz, h⟩
    · exact h
    · exact absurd ((r1.1 x hx).2 z (hl.mem_iff.mpr hz)) h
  · rcases r1.2 e he with h | ⟨z, hz, h⟩
    · exact h
    · exact absurd ((r2.1 y hy).2 z (hl.mem_iff.mp hz)) h

/-- The same for pure loops. -/
theorem foldl_same {B F : Type} {ψ : B → F → B} {l l' : List F} (hl : l.Perm l')
    (hcomm : ∀ x ∈ l, ∀ y ∈ l, ∀ b, ψ (ψ b x) y = ψ (ψ b y) x) (b : B) : l.foldl ψ b = l'.foldl ψ b :=
  hl.foldl_eq' (fun x hx y hy z => hcomm x hx y hy z) b

/-- Loops over the same list from related accumulators. -/
theorem foldlM_same_list {A A' E : Type} {r : A → A' → Prop} {f : A → E → R A} {f' : A' → E → R A'} :
    ∀ {l : List E}, (∀ e ∈ l, ∀ a a', r a a' → Agree r (f a e) (f' a' e)) →
    ∀ {a a'}, r a a' → Agree r (l.foldlM f a) (l.foldlM f' a') := by
  intro l
  induction l with
  | nil => intro _ a a' h; exact Agree.pure h
  | cons e l ih =>
    intro hf a a' h
    rw [List.foldlM_cons, List.foldlM_cons]
    exact Agree.bind (hf e List.mem_cons_self a a' h) fun b b' _ _ hb =>
      ih (fun e he => hf e (List.mem_cons_of_mem _ he)) hb

/-! ## Maps -/

namespace AMap
variable {K V V' W : Type} [DecidableEq K]

/-- Two maps have the same content, in whatever order. -/
def Same (m m' : AMap K V) : Prop := ∀ k, m.get k = m'.get k

theorem Same.refl (m : AMap K V) : m.Same m := fun _ => rfl
theorem Same.symm {m m' : AMap K V} (h : m.Same m') : m'.Same m := fun k => (h k).symm
theorem Same.trans {a b c : AMap K V} (h : a.Same b) (h' : b.Same c) : a.Same c :=
  fun k => (h k).trans (h' k)

theorem Same.set {m m' : AMap K V} (h : m.Same m') (k : K) (v : V) : (m.set k v).Same (m'.set k v) := by
  intro q; rw [get_set, get_set, h q]

theorem Same.erase {m m' : AMap K V} (h : m.Same m') (k : K) : (m.erase k).Same (m'.erase k) := by
  intro q; rw [get_erase, get_erase, h q]

theorem Same.getD {m m' : AMap K V} (h : m.Same m') (k : K) (d : V) : m.getD k d = m'.getD k d := by
  unfold AMap.getD; rw [h k]

theorem Same.has {m m' : AMap K V} (h : m.Same m') (k : K) : m.has k = m'.has k := by
  unfold AMap.has; rw [h k]

theorem Same.mapV {m m' : AMap K V} (h : m.Same m') (f : K → V → W) : (m.mapV f).Same (m'.mapV f) := by
  intro q; rw [get_mapV, get_mapV, h q]

theorem Same.sum {m m' : AMap K V} (h : m.Same m') (f : K → V → Int) : m.sum f = m'.sum f := sum_ext h

omit [DecidableEq K] in
theorem nodup_entries (m : AMap K V) : m.entries.Nodup := List.Nodup.of_map _ m.nodup

theorem Same.perm {m m' : AMap K V} (h : m.Same m') : m.entries.Perm m'.entries := by
  rw [List.perm_ext_iff_of_nodup m.nodup_entries m'.nodup_entries]
  rintro ⟨k, v⟩
  rw [← get_eq_some, ← get_eq_some, h k]

theorem Same.keys {m m' : AMap K V} (h : m.Same m') : m.keys.Perm m'.keys := h.perm.map _

theorem Same.size {m m' : AMap K V} (h : m.Same m') : m.size = m'.size := h.perm.length_eq

theorem perm_same {m m' : AMap K V} (h : m.entries.Perm m'.entries) : m.Same m' := by
  intro k
  cases hk : m.get k with
  | none =>
    symm
    rw [get_eq_none] at hk ⊢
    intro hm
    exact hk ((h.map Prod.fst).mem_iff.mpr hm)
  | some v =>
    symm
    rw [get_eq_some] at hk ⊢
    exact h.mem_iff.mp hk

/-- Two maps with the same keys and related values. -/
def Rel (r : V → V' → Prop) (m : AMap K V) (m' : AMap K V') : Prop := ∀ k, Option.Rel r (m.get k) (m'.get k)

theorem Rel.set {r : V → V' → Prop} {m : AMap K V} {m' : AMap K V'} (h : m.Rel r m') (k : K) {v : V} {v' : V'}
    (hv : r v v') : (m.set k v).Rel r (m'.set k v') := by
  intro q; rw [get_set, get_set]; split
  · exact .some hv
  · exact h q

theorem Rel.has {r : V → V' → Prop} {m : AMap K V} {m' : AMap K V'} (h : m.Rel r m') (k : K) :
    m.has k = m'.has k := by
  unfold AMap.has
  have := h k
  revert this
  cases m.get k <;> cases m'.get k <;> intro this <;> first | rfl | cases this

/-- Building a map from permuted keys with functions that agree. -/
theorem buildM_agree {f g : K → R V} {ks ks' : List K} (hk : ∀ k, k ∈ ks ↔ k ∈ ks')
    (hf : ∀ k ∈ ks, f k = g k) : Agree Same (buildM f ks) (buildM g ks') := by
  have err : ∀ {f : K → R V} {ks : List K} {e : Err}, buildM f ks = Except.error e → ∃ k ∈ ks, ∃ e', f k = Except.error e' := by
    intro f ks
    induction ks with
    | nil => intro e h; cases h
    | cons k ks ih =>
      intro e h
      cases hk : f k with
      | error e' => exact ⟨k, List.mem_cons_self, e', hk⟩
      | ok v =>
        cases hb : buildM f ks with
        | error e' =>
          obtain ⟨k', h1, h2⟩ := ih hb
          exact ⟨k', List.mem_cons_of_mem _ h1, h2⟩
        | ok m =>
          simp only [buildM, hk, hb, Bind.bind, Except.bind] at h
          cases h
  refine ⟨fun m m' h h' k => ?_, fun m e h h' => ?_, fun e m h h' => ?_⟩
  · obtain ⟨h1, h2⟩ := buildM_ok h
    obtain ⟨h3, h4⟩ := buildM_ok h'
    by_cases hin : k ∈ ks
    · obtain ⟨v, hv, hg⟩ := h1 k hin
      obtain ⟨v', hv', hg'⟩ := h3 k ((hk k).mp hin)
      rw [hf k hin, hv'] at hv
      cases hv
      rw [hg, hg']
    · rw [h2 k hin, h4 k (fun hh => hin ((hk k).mpr hh))]
  · obtain ⟨k, hin, e', he⟩ := err h'
    obtain ⟨v, hv, -⟩ := (buildM_ok h).1 k ((hk k).mpr hin)
    rw [hf k ((hk k).mpr hin), he] at hv
    cases hv
  · obtain ⟨k, hin, e', he⟩ := err h
    obtain ⟨v, hv, -⟩ := (buildM_ok h').1 k ((hk k).mp hin)
    rw [← hf k hin, he] at hv
    cases hv

theorem build_same {f g : K → V} {ks ks' : List K} (hk : ∀ k, k ∈ ks ↔ k ∈ ks')
    (hf : ∀ k ∈ ks, f k = g k) : (build f ks).Same (build g ks') := by
  intro k
  rw [get_build, get_build]
  by_cases h : k ∈ ks
  · rw [if_pos h, if_pos ((hk k).mp h), hf k h]
  · rw [if_neg h, if_neg (fun hh => h ((hk k).mpr hh))]

end AMap

/-! ## Loops over the entries of a map

Every pass reads and writes one slot of its own and adds to a total. -/

/-- One pass over an element `e`: it applies `g` to the slot of `e`, stores the new slot, and adds the
rest to the total; apart from `g` it can only fail by overflow. -/
structure Pass {A F K S C X : Type} [DecidableEq K] (key : F → K) (g : F → Option S → R (Option S × X))
    (add : C → X → C) (slots : A → K → Option S) (rest : A → C) (x : A → R A) (e : F) : Prop where
  ok : ∀ a a1, x a = Except.ok a1 → ∃ s k, g e (slots a (key e)) = Except.ok (s, k) ∧
    slots a1 = Function.update (slots a) (key e) s ∧ rest a1 = add (rest a) k
  err : ∀ a err, x a = Except.error err →
    err = .arithmetic ∨ ∃ y, y ≠ Err.arithmetic ∧ g e (slots a (key e)) = Except.error y

/-- Two loops over the same elements in different orders agree. -/
theorem keyed_agree {A A' E E' F K S C X : Type} [DecidableEq K] (key : F → K)
    (g : F → Option S → R (Option S × X)) (add : C → X → C)
    (hadd : ∀ c x y, add (add c x) y = add (add c y) x)
    (slots : A → K → Option S) (rest : A → C) (slots' : A' → K → Option S) (rest' : A' → C)
    {f : A → E → R A} {f' : A' → E' → R A'} {η : E → F} {η' : E' → F} {l : List E} {l' : List E'}
    (hl : (l.map η).Perm (l'.map η')) (hn : ((l.map η).map key).Nodup)
    (hf : ∀ e ∈ l, Pass key g add slots rest (fun a => f a e) (η e))
    (hf' : ∀ e ∈ l', Pass key g add slots' rest' (fun a => f' a e) (η' e))
    {a : A} {a' : A'} (h0 : slots a = slots' a') (h1 : rest a = rest' a') :
    Agree (fun a a' => slots a = slots' a' ∧ rest a = rest' a') (l.foldlM f a) (l'.foldlM f' a') := by
  let φ : A → (K → Option S) × C := fun a => (slots a, rest a)
  let φ' : A' → (K → Option S) × C := fun a => (slots' a, rest' a)
  let ψ : (K → Option S) × C → F → (K → Option S) × C := fun b e =>
    match g e (b.1 (key e)) with
    | .ok r => (Function.update b.1 (key e) r.1, add b.2 r.2)
    | .error _ => b
  let P : (K → Option S) × C → F → Prop := fun b e =>
    ∀ y, g e (b.1 (key e)) = Except.error y → y = .arithmetic
  have hψ : ∀ b x k, k ≠ key x → (ψ b x).1 k = b.1 k := by
    intro b x k hk
    simp only [ψ]
    split
    · exact Function.update_of_ne hk _ _
    · rfl
  have inj : ∀ x ∈ l.map η, ∀ y ∈ l.map η, key x = key y → x = y := fun x hx y hy h =>
    List.inj_on_of_nodup_map hn hx hy h
  have main := foldlM_agree (φ := φ) (φ' := φ') (η := η) (η' := η') ψ P (fun _ => True) hl
    (f := f) (f' := f') (a := a) (a' := a')
    (fun e he a a1 _ h => by
      obtain ⟨s, k, q1, q2, q3⟩ := (hf e he).ok a a1 h
      refine ⟨?_, fun y hy => ?_⟩
      · simp only [φ, ψ, q1, q2, q3]
      · simp only [φ, q1] at hy; cases hy)
    (fun e he a x _ h => by
      rcases (hf e he).err a x h with q | ⟨y, q1, q2⟩
      · exact .inl q
      · exact .inr fun hp => q1 (hp y q2))
    (fun e he a a1 _ h => by
      obtain ⟨s, k, q1, q2, q3⟩ := (hf' e he).ok a a1 h
      refine ⟨?_, fun y hy => ?_⟩
      · simp only [φ', ψ, q1, q2, q3]
      · simp only [φ', q1] at hy; cases hy)
    (fun e he a x _ h => by
      rcases (hf' e he).err a x h with q | ⟨y, q1, q2⟩
      · exact .inl q
      · exact .inr fun hp => q1 (hp y q2))
    (fun _ _ _ _ _ => trivial)
    (fun x hx y hy b => by
      by_cases hk : key x = key y
      · rw [inj x hx y hy hk]
      · have e1 : (ψ b x).1 (key y) = b.1 (key y) := hψ b x _ (Ne.symm hk)
        have e2 : (ψ b y).1 (key x) = b.1 (key x) := hψ b y _ hk
        have u1 : ∀ c : (K → Option S) × C, c.1 (key y) = b.1 (key y) → ψ c y =
            match g y (b.1 (key y)) with
            | .ok r => (Function.update c.1 (key y) r.1, add c.2 r.2)
            | .error _ => c := by
          intro c hc; simp only [ψ, hc]
        have u2 : ∀ c : (K → Option S) × C, c.1 (key x) = b.1 (key x) → ψ c x =
            match g x (b.1 (key x)) with
            | .ok r => (Function.update c.1 (key x) r.1, add c.2 r.2)
            | .error _ => c := by
          intro c hc; simp only [ψ, hc]
        rw [u1 _ e1, u2 _ e2, u1 b rfl, u2 b rfl]
        cases g x (b.1 (key x)) <;> cases g y (b.1 (key y)) <;> simp only []
        rw [Function.update_comm hk, hadd])
    (by
      rw [List.Nodup, List.pairwise_map] at hn
      refine hn.imp (fun {x y} hk b => ?_)
      simp only [P]
      rw [hψ b x _ (Ne.symm hk), hψ b y _ hk]
      exact ⟨Iff.rfl, Iff.rfl⟩)
    (by simp only [φ, φ', h0, h1]) trivial
  exact main.mono fun x y h => ⟨(Prod.mk.inj h).1, (Prod.mk.inj h).2⟩

/-- Loops that only add up: every pass computes its contribution from the element alone. -/
theorem accum_agree {A A' E E' F C X : Type} (g : F → R X) (add : C → X → C)
    (hadd : ∀ c x y, add (add c x) y = add (add c y) x) (rest : A → C) (rest' : A' → C)
    {f : A → E → R A} {f' : A' → E' → R A'} {η : E → F} {η' : E' → F} {l : List E} {l' : List E'}
    (hl : (l.map η).Perm (l'.map η'))
    (hok : ∀ e ∈ l, ∀ a a1, f a e = Except.ok a1 → ∃ k, g (η e) = Except.ok k ∧ rest a1 = add (rest a) k)
    (herr : ∀ e ∈ l, ∀ a x, f a e = Except.error x →
      x = .arithmetic ∨ ∃ y, y ≠ Err.arithmetic ∧ g (η e) = Except.error y)
    (hok' : ∀ e ∈ l', ∀ a a1, f' a e = Except.ok a1 → ∃ k, g (η' e) = Except.ok k ∧ rest' a1 = add (rest' a) k)
    (herr' : ∀ e ∈ l', ∀ a x, f' a e = Except.error x →
      x = .arithmetic ∨ ∃ y, y ≠ Err.arithmetic ∧ g (η' e) = Except.error y)
    {a : A} {a' : A'} (h1 : rest a = rest' a') :
    Agree (fun a a' => rest a = rest' a') (l.foldlM f a) (l'.foldlM f' a') := by
  let ψ : C → F → C := fun b e => match g e with | .ok r => add b r | .error _ => b
  refine foldlM_agree (φ := rest) (φ' := rest') (η := η) (η' := η') ψ
    (fun _ e => ∀ y, g e = Except.error y → y = .arithmetic) (fun _ => True) hl ?_ ?_ ?_ ?_
    (fun _ _ _ _ _ => trivial) ?_ ?_ h1 trivial
  · intro e he a a1 _ h
    obtain ⟨k, q1, q2⟩ := hok e he a a1 h
    exact ⟨by simp only [ψ, q1, q2], fun y hy => by rw [q1] at hy; cases hy⟩
  · intro e he a x _ h
    rcases herr e he a x h with q | ⟨y, q1, q2⟩
    · exact .inl q
    · exact .inr fun hp => q1 (hp y q2)
  · intro e he a a1 _ h
    obtain ⟨k, q1, q2⟩ := hok' e he a a1 h
    exact ⟨by simp only [ψ, q1, q2], fun y hy => by rw [q1] at hy; cases hy⟩
  · intro e he a x _ h
    rcases herr' e he a x h with q | ⟨y, q1, q2⟩
    · exact .inl q
    · exact .inr fun hp => q1 (hp y q2)
  · intro x _ y _ b
    simp only [ψ]
    cases g x <;> cases g y <;> simp only []
    rw [hadd]
  · exact List.pairwise_of_forall fun _ _ _ => ⟨Iff.rfl, Iff.rfl⟩

/-- A pass that computes with its slot and then stores and adds. -/
theorem Pass.of {A F K S C X : Type} [DecidableEq K] {key : F → K} {g : F → Option S → R (Option S × X)}
    {add : C → X → C} {slots : A → K → Option S} {rest : A → C} {x : A → R A} {e : F}
    (put : A → Option S × X → R A) (hx : ∀ a, x a = g e (slots a (key e)) >>= put a)
    (hput : ∀ a r a1, g e (slots a (key e)) = Except.ok r → put a r = Except.ok a1 →
      slots a1 = Function.update (slots a) (key e) r.1 ∧ rest a1 = add (rest a) r.2)
    (herr : ∀ a r, Errs arith (put a r)) : Pass key g add slots rest x e := by
  refine ⟨fun a a1 h => ?_, fun a err h => ?_⟩
  · rw [hx] at h
    obtain ⟨r, h1, h2⟩ := bind_ok.mp h
    exact ⟨r.1, r.2, h1, (hput a r a1 h1 h2).1, (hput a r a1 h1 h2).2⟩
  · rw [hx] at h
    cases hg : g e (slots a (key e)) with
    | error y =>
      rw [hg] at h
      cases h
      by_cases hy : err = .arithmetic
      · exact .inl hy
      · exact .inr ⟨err, hy, rfl⟩
    | ok r =>
      rw [hg] at h
      have := herr a r err h
      simp only [arith, List.mem_singleton] at this
      exact .inl this

/-- Adding up the contributions of permuted elements. -/
theorem accum_perm {A E C X : Type} {g g' : E → R X} (put : A → X → R A) (rest : A → C) (add : C → X → C)
    (hadd : ∀ c x y, add (add c x) y = add (add c y) x)
    (hput : ∀ a k a1, put a k = Except.ok a1 → rest a1 = add (rest a) k) (herr : ∀ a k, Errs arith (put a k))
    {f f' : A → E → R A} {l l' : List E} (hl : l.Perm l') (hf : ∀ a e, f a e = g e >>= put a)
    (hf' : ∀ a e, f' a e = g' e >>= put a) (hg : ∀ e ∈ l, g e = g' e) {a a' : A} (h0 : rest a = rest a') :
    Agree (fun a a' => rest a = rest a') (l.foldlM f a) (l'.foldlM f' a') := by
  have one : ∀ a e {x}, (g' e >>= put a) = Except.error x → x = .arithmetic ∨ ∃ y, y ≠ Err.arithmetic ∧ g' e = Except.error y := by
    intro a e x h
    cases hg : g' e with
    | error y =>
      rw [hg] at h
      cases h
      by_cases hy : x = .arithmetic
      · exact .inl hy
      · exact .inr ⟨x, hy, rfl⟩
    | ok r =>
      rw [hg] at h
      have := herr a r x h
      simp only [arith, List.mem_singleton] at this
      exact .inl this
  refine accum_agree (η := id) (η' := id) g' add hadd rest rest (by simpa using hl) ?_ ?_ ?_ ?_ h0
  · intro e he a a1 h
    rw [hf, hg e he] at h
    obtain ⟨k, h1, h2⟩ := bind_ok.mp h
    exact ⟨k, h1, hput a k a1 h2⟩
  · intro e he a x h
    rw [hf, hg e he] at h
    exact one a e h
  · intro e he a a1 h
    rw [hf'] at h
    obtain ⟨k, h1, h2⟩ := bind_ok.mp h
    exact ⟨k, h1, hput a k a1 h2⟩
  · intro e he a x h
    rw [hf'] at h
    exact one a e h

end Perp
