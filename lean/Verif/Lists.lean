import Verif.Referral

/-!
# List and HashList containers (C47)

common/src/list.rs, common/src/hash_list.rs and the paginated readers built on them.
This file contains the model of the containers, their specification as Lean lists and
insertion-ordered maps, and the refinement proofs.  The rest of the model uses `List KeeperRequest`
and `AMap PairId PairConfigC` for them, which this file justifies.
-/

namespace Perp

/-! ## Model -/

/-- `KeyValueStore<K, V>`: not iterable, so a partial function is an exact model. -/
abbrev KV (K V : Type) := K → Option V

/-- `KeyValueStore::insert` -/
def KV.insert {K V : Type} [DecidableEq K] (m : KV K V) (k : K) (v : V) : KV K V :=
  fun k' => if k' = k then some v else m k'

/-- common/src/list.rs:6-10 -/
structure KList (T : Type) where
  pointer : Nat
  kvs : KV Nat T

/-- `List::new`: list.rs:13-21 -/
def KList.new {T : Type} : KList T := { pointer := 0, kvs := fun _ => none }

/-- `List::push`: list.rs:23-26; the pointer is a `u64` with overflow checks. -/
def KList.push {T : Type} (l : KList T) (x : T) : R (KList T) := do
  let p ← uadd l.pointer 1
  pure { pointer := p, kvs := KV.insert l.kvs l.pointer x }

/-- `List::get`: list.rs:28-30 -/
def KList.get {T : Type} (l : KList T) (i : Nat) : Option T := l.kvs i

/-- `List::update`: list.rs:36-39 -/
def KList.update {T : Type} (l : KList T) (i : Nat) (x : T) : R (KList T) := do
  require (decide (i < l.pointer)) .outOfBounds
  pure { l with kvs := KV.insert l.kvs i x }

/-- The loop of `range`, `n` iterations from `i`, stopping at the first gap: list.rs:43-49 -/
def KList.rangeGo {T : Type} (l : KList T) : Nat → Nat → List T
  | _, 0 => []
  | i, n + 1 =>
    match l.get i with
    | some x => x :: l.rangeGo (i + 1) n
    | none => []

/-- `List::range`: list.rs:41-51 -/
def KList.range {T : Type} (l : KList T) (start stop : Nat) : List T :=
  l.rangeGo start (stop - start)

/-- `List::len`: list.rs:53-55 -/
def KList.len {T : Type} (l : KList T) : Nat := l.pointer

/-- common/src/hash_list.rs:6-9 -/
structure KHashList (K V : Type) where
  list : KList K
  kvs : KV K V

/-- `HashList::new`: hash_list.rs:12-21 -/
def KHashList.new {K V : Type} : KHashList K V := { list := KList.new, kvs := fun _ => none }

/-- `HashList::insert`: hash_list.rs:23-32 -/
def KHashList.insert {K V : Type} [DecidableEq K] (h : KHashList K V) (k : K) (v : V) :
    R (KHashList K V) :=
  match h.kvs k with
  | some _ => pure { h with kvs := KV.insert h.kvs k v }
  | none => do
      let l ← h.list.push k
      pure { list := l, kvs := KV.insert h.kvs k v }

/-- `HashList::get`: hash_list.rs:34-36 -/
def KHashList.get {K V : Type} (h : KHashList K V) (k : K) : Option V := h.kvs k

/-- The loop of `range`: hash_list.rs:44-51; `unwrap` of a missing value panics. -/
def KHashList.rangeGo {K V : Type} (h : KHashList K V) : Nat → Nat → R (List V)
  | _, 0 => pure []
  | i, n + 1 =>
    match h.list.get i with
    | some k => do
        let v ← expect (h.kvs k) .assertion
        let vs ← h.rangeGo (i + 1) n
        pure (v :: vs)
    | none => pure []

/-- `HashList::range`: hash_list.rs:42-53 -/
def KHashList.range {K V : Type} (h : KHashList K V) (start stop : Nat) : R (List V) :=
  h.rangeGo start (stop - start)

/-- `HashList::len`: hash_list.rs:55-57 -/
def KHashList.len {K V : Type} (h : KHashList K V) : Nat := h.list.len

/-- `Config::get_pair_configs`: config/src/config.rs:72-76 -/
def KHashList.page {K V : Type} (h : KHashList K V) (n : Nat) (start : Option Nat) : R (List V) := do
  let st := start.getD 0
  let e ← uadd st n
  h.range st (min e h.len)

/-- `MarginAccount::get_requests`: account/src/margin_account.rs:113-117 -/
def KList.page {T : Type} (l : KList T) (n : Nat) (start : Option Nat) : R (List (Nat × T)) := do
  let st := start.getD 0
  let e ← uadd st n
  let e := min e l.len
  pure ((List.range' st (e - st)).zip (l.range st e))

/-- `MarginAccount::get_requests_tail`: account/src/margin_account.rs:119-124 -/
def KList.tailPage {T : Type} (l : KList T) (n : Nat) (stop : Option Nat) : R (List (Nat × T)) := do
  let e ← match stop with
    | some x => do
        let y ← uadd x 1
        pure (min y l.len)
    | none => pure l.len
  let st := e - min n e
  pure ((List.range' st (e - st)).reverse.zip (l.range st e).reverse)

/-! ## Specification: what the containers stand for -/

/-- The container holds exactly the elements of a list, in order. -/
structure KList.Holds {T : Type} (k : KList T) (l : List T) : Prop where
  len : k.pointer = l.length
  get : ∀ i, k.kvs i = l[i]?

/-- The container holds exactly an insertion-ordered map. -/
structure KHashList.Holds {K V : Type} [DecidableEq K] (h : KHashList K V) (m : AMap K V) : Prop where
  order : h.list.Holds m.keys
  get : ∀ k, h.kvs k = m.get k

/-! ## Proofs -/

section
variable {T : Type}

theorem KList.holds_new : (KList.new : KList T).Holds [] := ⟨rfl, by simp [KList.new]⟩

theorem KList.holds_push {k k' : KList T} {l : List T} {x : T} (h : k.Holds l)
    (hp : k.push x = Except.ok k') : k'.Holds (l ++ [x]) := by
  simp only [KList.push, bind_ok, uadd_ok, pure_ok] at hp
  obtain ⟨p, ⟨-, rfl⟩, rfl⟩ := hp
  refine ⟨by simp [h.len], ?_⟩
  intro i
  simp only [KV.insert, h.len, h.get]
  by_cases hi : i = l.length
  · simp [hi]
  · simp only [hi, if_false]
    rcases Nat.lt_or_gt_of_ne hi with hlt | hgt
    · rw [List.getElem?_append_left hlt]
    · rw [List.getElem?_eq_none (by omega), List.getElem?_eq_none (by simp; omega)]

theorem KList.push_succeeds {k : KList T} {l : List T} (h : k.Holds l) (hl : l.length + 1 < 2 ^ 64)
    (x : T) : ∃ k', k.push x = Except.ok k' :=
  ⟨_, by simp only [KList.push, bind_ok, uadd_ok, pure_ok]
         exact ⟨_, ⟨by rw [h.len]; exact hl, rfl⟩, rfl⟩⟩

theorem KList.holds_update {k k' : KList T} {l : List T} {i : Nat} {x : T} (h : k.Holds l)
    (hp : k.update i x = Except.ok k') : i < l.length ∧ k'.Holds (l.set i x) := by
  simp only [KList.update, bind_ok, require_ok, decide_eq_true_eq, pure_ok] at hp
  obtain ⟨-, hi, rfl⟩ := hp
  rw [h.len] at hi
  refine ⟨hi, by simp [h.len], ?_⟩
  intro j
  simp only [KV.insert, h.get, List.getElem?_set]
  by_cases hj : j = i
  · simp [hj, hi]
  · have : ¬ i = j := fun e => hj e.symm
    simp [hj, this]

theorem KList.rangeGo_eq {k : KList T} {l : List T} (h : k.Holds l) (n : Nat) :
    ∀ i, k.rangeGo i n = (l.drop i).take n := by
  induction n with
  | zero => intro i; simp [KList.rangeGo]
  | succ n ih =>
    intro i
    simp only [KList.rangeGo, KList.get, h.get]
    by_cases hi : i < l.length
    · rw [List.getElem?_eq_getElem hi]
      simp only [ih]
      rw [List.drop_eq_getElem_cons hi, List.take_succ_cons]
    · rw [List.getElem?_eq_none (by omega), List.drop_eq_nil_of_le (by omega)]
      simp

theorem KList.range_eq {k : KList T} {l : List T} (h : k.Holds l) (a b : Nat) :
    k.range a b = (l.drop a).take (b - a) := KList.rangeGo_eq h _ _

end

section
variable {K V : Type} [DecidableEq K]

theorem KHashList.holds_new : (KHashList.new : KHashList K V).Holds AMap.empty :=
  ⟨by simpa [AMap.keys, AMap.empty, KHashList.new] using KList.holds_new (T := K), by
    intro k; simp [KHashList.new, AMap.empty, AMap.get, AMap.lget]⟩

theorem KHashList.holds_insert {h h' : KHashList K V} {m : AMap K V} {k : K} {v : V} (hh : h.Holds m)
    (hi : h.insert k v = Except.ok h') : h'.Holds (m.set k v) := by
  have hget : ∀ k', KV.insert h.kvs k v k' = (m.set k v).get k' := by
    intro k'
    simp only [KV.insert, hh.get]
    by_cases e : k' = k
    · subst e; simp [AMap.get_set_self]
    · simp [e, AMap.get_set_ne _ _ (fun h => e h.symm : k ≠ k')]
  unfold KHashList.insert at hi
  rw [hh.get] at hi
  cases hk : m.get k with
  | some w =>
    rw [hk] at hi
    simp only [pure_ok] at hi
    subst hi
    refine ⟨?_, hget⟩
    have hmem : k ∈ m.keys := by
      by_contra hn
      have := AMap.lget_eq_none.mpr hn
      unfold AMap.get at hk; rw [this] at hk; cases hk
    rw [AMap.keys_set, if_pos hmem]
    exact hh.order
  | none =>
    rw [hk] at hi
    simp only [bind_ok, pure_ok] at hi
    obtain ⟨l, hl, rfl⟩ := hi
    refine ⟨?_, hget⟩
    have hmem : k ∉ m.keys := AMap.lget_eq_none.mp hk
    rw [AMap.keys_set, if_neg hmem]
    exact KList.holds_push hh.order hl

theorem KHashList.rangeGo_eq {h : KHashList K V} {m : AMap K V} (hh : h.Holds m) (n : Nat) :
    ∀ i, h.rangeGo i n = Except.ok (((m.entries.map Prod.snd).drop i).take n) := by
  induction n with
  | zero => intro i; simp [KHashList.rangeGo, pure, Except.pure]
  | succ n ih =>
    intro i
    simp only [KHashList.rangeGo, KList.get, hh.order.get]
    by_cases hi : i < m.entries.length
    · have hk : m.keys[i]? = some (m.entries[i]).1 := by
        simp [AMap.keys, List.getElem?_eq_getElem hi]
      rw [hk]
      have hv : h.kvs (m.entries[i]).1 = some (m.entries[i]).2 := by
        rw [hh.get]; exact AMap.get_mem (List.getElem_mem hi)
      simp only [hv, expect, ih, bind, Except.bind, pure, Except.pure]
      have h' : i < (m.entries.map Prod.snd).length := by simpa using hi
      rw [List.drop_eq_getElem_cons h', List.take_succ_cons]
      simp
    · have hk : m.keys[i]? = none := by
        rw [List.getElem?_eq_none]; simp [AMap.keys]; omega
      rw [hk, List.drop_eq_nil_of_le (by simp; omega)]
      simp [pure, Except.pure]

end

/-! ## Histories -/

/-- Operations on a `List`. -/
inductive ListOp (T : Type) where
  | push (x : T)
  | update (i : Nat) (x : T)

/-- One operation on the container. -/
def KList.apply {T : Type} (k : KList T) : ListOp T → R (KList T)
  | .push x => k.push x
  | .update i x => k.update i x

/-- The same operation on a mathematical list. -/
def listApply {T : Type} (l : List T) : ListOp T → List T
  | .push x => l ++ [x]
  | .update i x => l.set i x

/-- **C47 (List).**  After any sequence of successful operations starting from the empty container,
its length, every `get` and every `range` agree with the mathematical list built by the same
operations. -/
theorem c47_list_refines {T : Type} (ops : List (ListOp T)) (k : KList T)
    (h : ops.foldlM KList.apply KList.new = Except.ok k) :
    k.len = (ops.foldl listApply []).length ∧
    (∀ i, k.get i = (ops.foldl listApply [])[i]?) ∧
    (∀ a b, k.range a b = ((ops.foldl listApply []).drop a).take (b - a)) := by
  have key : ∀ (ops : List (ListOp T)) (k0 k : KList T) (l0 : List T), k0.Holds l0 →
      ops.foldlM KList.apply k0 = Except.ok k → k.Holds (ops.foldl listApply l0) := by
    intro ops
    induction ops with
    | nil =>
      intro k0 k l0 h0 h
      simp only [List.foldlM_nil, pure_ok] at h
      subst h; exact h0
    | cons op ops ih =>
      intro k0 k l0 h0 h
      simp only [List.foldlM_cons, bind_ok] at h
      obtain ⟨k1, h1, h2⟩ := h
      refine ih k1 k _ ?_ h2
      cases op with
      | push x => exact KList.holds_push h0 h1
      | update i x => exact (KList.holds_update h0 h1).2
  have hh := key ops _ _ _ KList.holds_new h
  exact ⟨hh.len, hh.get, fun a b => KList.range_eq hh a b⟩

/-- **C47 (List, out of bounds).**  In any state reached by such a sequence, `update` succeeds exactly
on existing indexes: it can neither create a gap nor grow the list. -/
theorem c47_list_update_iff {T : Type} (ops : List (ListOp T)) (k : KList T)
    (h : ops.foldlM KList.apply KList.new = Except.ok k) (i : Nat) (x : T) :
    (∃ k', k.update i x = Except.ok k') ↔ i < (ops.foldl listApply []).length := by
  rw [← (c47_list_refines ops k h).1]
  simp only [KList.update, bind_ok, require_ok, decide_eq_true_eq, pure_ok, KList.len]
  constructor
  · rintro ⟨_, _, hi, _⟩; exact hi
  · intro hi; exact ⟨_, (), hi, rfl⟩

/-- **C47 (HashList).**  After any sequence of successful inserts, `get`, `len` and `range` agree with
the insertion-ordered map built by the same inserts (a repeated key keeps its place and takes the
last value), and no read panics. -/
theorem c47_hash_list_refines {K V : Type} [DecidableEq K] (ins : List (K × V)) (h : KHashList K V)
    (hr : ins.foldlM (fun h e => KHashList.insert h e.1 e.2) KHashList.new = Except.ok h) :
    let m := ins.foldl (fun (m : AMap K V) e => m.set e.1 e.2) AMap.empty
    h.len = m.entries.length ∧ (∀ k, h.get k = m.get k) ∧
    (∀ a b, h.range a b = Except.ok (((m.entries.map Prod.snd).drop a).take (b - a))) := by
  have key : ∀ (ins : List (K × V)) (h0 h : KHashList K V) (m0 : AMap K V), h0.Holds m0 →
      ins.foldlM (fun h e => KHashList.insert h e.1 e.2) h0 = Except.ok h →
      h.Holds (ins.foldl (fun (m : AMap K V) e => m.set e.1 e.2) m0) := by
    intro ins
    induction ins with
    | nil =>
      intro h0 h m0 hh hr
      simp only [List.foldlM_nil, pure_ok] at hr
      subst hr; exact hh
    | cons e ins ih =>
      intro h0 h m0 hh hr
      simp only [List.foldlM_cons, bind_ok] at hr
      obtain ⟨h1, hr1, hr2⟩ := hr
      exact ih h1 h _ (KHashList.holds_insert hh hr1) hr2
  have hh := key ins _ _ _ KHashList.holds_new hr
  refine ⟨?_, hh.get, fun a b => KHashList.rangeGo_eq hh _ _⟩
  have := hh.order.len
  simpa [KHashList.len, KList.len, AMap.keys] using this

theorem flatMap_pages {T : Type} (n : Nat) :
    ∀ (k : Nat) (l : List T), l.length ≤ k * n →
    (List.range k).flatMap (fun i => (l.drop (i * n)).take n) = l := by
  intro k
  induction k with
  | zero => intro l h; simp at h; subst h; simp
  | succ k ih =>
    intro l h
    rw [List.range_succ_eq_map, List.flatMap_cons, List.flatMap_map]
    have h1 : (l.drop n).length ≤ k * n := by
      rw [List.length_drop, Nat.succ_mul] at *; omega
    have := ih (l.drop n) h1
    simp only [List.drop_drop] at this
    have h2 : (fun i => (l.drop (Nat.succ i * n)).take n) = fun i => (l.drop (n + i * n)).take n := by
      funext i; rw [Nat.succ_mul, Nat.add_comm]
    simp only [h2, this, Nat.zero_mul, List.drop_zero, List.take_append_drop]

theorem take_min_sub {T : Type} (l : List T) (st n : Nat) :
    (l.drop st).take (min (st + n) l.length - st) = (l.drop st).take n := by
  by_cases h : st + n ≤ l.length
  · rw [Nat.min_eq_left h, Nat.add_sub_cancel_left]
  · rw [Nat.min_eq_right (by omega), List.take_of_length_le (by simp),
      List.take_of_length_le (by simp; omega)]

/-- **C47 (paging forward).**  Reading a pair list in pages of any positive size `n`, one after the
other until the end, yields every stored value exactly once and in insertion order. -/
theorem c47_pages_concatenate {K V : Type} [DecidableEq K] (ins : List (K × V)) (h : KHashList K V)
    (hr : ins.foldlM (fun h e => KHashList.insert h e.1 e.2) KHashList.new = Except.ok h)
    (n pages : Nat) (hall : h.len ≤ pages * n) (hov : pages * n < 2 ^ 64) :
    ∃ out : Nat → List V, (∀ i < pages, h.page n (some (i * n)) = Except.ok (out i)) ∧
      (List.range pages).flatMap out =
        (ins.foldl (fun (m : AMap K V) e => m.set e.1 e.2) AMap.empty).entries.map Prod.snd := by
  obtain ⟨h1, -, h3⟩ := c47_hash_list_refines ins h hr
  set m := ins.foldl (fun (m : AMap K V) e => m.set e.1 e.2) AMap.empty with hm
  refine ⟨fun i => ((m.entries.map Prod.snd).drop (i * n)).take n, ?_, ?_⟩
  · intro i hi
    have hb : i * n + n ≤ pages * n := by
      have := Nat.mul_le_mul_right n (Nat.succ_le_of_lt hi)
      rw [Nat.succ_mul] at this; exact this
    have hu : uadd (i * n) n = Except.ok (i * n + n) := uadd_ok.mpr ⟨by omega, rfl⟩
    simp only [KHashList.page, Option.getD_some, hu, bind, Except.bind]
    rw [h3, h1]
    have := take_min_sub (m.entries.map Prod.snd) (i * n) n
    simp only [List.length_map] at this
    rw [this]
  · apply flatMap_pages n
    simpa [← h1] using hall

/-- **C47 (request pages).**  A forward page returns the requests at positions `start, start+1, …`
(at most `n`), each with its own index. -/
theorem c47_request_page {T : Type} (ops : List (ListOp T)) (k : KList T)
    (h : ops.foldlM KList.apply KList.new = Except.ok k) (n : Nat) (start : Option Nat)
    (out : List (Nat × T)) (ho : k.page n start = Except.ok out) (i : Nat) :
    let l := ops.foldl listApply []
    out[i]? = if i < n then (l[start.getD 0 + i]?).map (fun x => (start.getD 0 + i, x)) else none := by
  obtain ⟨h1, -, h3⟩ := c47_list_refines ops k h
  intro l
  simp only [KList.page, bind_ok, uadd_ok, pure_ok] at ho
  obtain ⟨e, ⟨-, rfl⟩, rfl⟩ := ho
  have hl : k.len = l.length := h1
  rw [h3, hl, take_min_sub, List.zip_eq_zipWith, List.getElem?_zipWith', List.getElem?_take,
    List.getElem?_drop]
  by_cases hi : i < n
  · by_cases hj : start.getD 0 + i < l.length
    · rw [List.getElem?_range' (by omega)]
      simp only [hi, if_true, Option.map_some, Option.bind_some, Nat.one_mul]
    · have : l[start.getD 0 + i]? = none := List.getElem?_eq_none (by omega)
      simp [hi, l] at this ⊢
      simp [this]
  · simp [hi]

/-- **C47 (request history).**  The tail reader returns the newest requests first: the last `n`
entries up to and including `stop`, each with its own index. -/
theorem c47_tail_page {T : Type} (ops : List (ListOp T)) (k : KList T)
    (h : ops.foldlM KList.apply KList.new = Except.ok k) (n : Nat) (stop : Option Nat)
    (out : List (Nat × T)) (ho : k.tailPage n stop = Except.ok out) :
    let l := ops.foldl listApply []
    let e := stop.elim l.length (fun x => min (x + 1) l.length)
    out = (((List.range e).drop (e - n)).zip ((l.take e).drop (e - n))).reverse := by
  obtain ⟨h1, -, h3⟩ := c47_list_refines ops k h
  intro l e
  have hl : k.len = l.length := h1
  have he : e ≤ l.length := by
    simp only [e]; cases stop
    · exact Nat.le_refl _
    · exact Nat.min_le_right _ _
  have hout : out = (List.range' (e - min n e) (e - (e - min n e))).reverse.zip
      (k.range (e - min n e) e).reverse := by
    unfold KList.tailPage at ho
    cases stop with
    | none =>
      simp only [bind_ok, pure_ok] at ho
      obtain ⟨e', rfl, rfl⟩ := ho
      simp only [e, hl, Option.elim]
    | some x =>
      simp only [bind_ok, pure_ok, uadd_ok] at ho
      obtain ⟨y, ⟨-, rfl⟩, e', rfl, rfl⟩ := ho
      simp only [e, hl, Option.elim]
  have hs : e - min n e = e - n := by omega
  rw [hout, hs, h3]
  have hA : List.range' (e - n) (e - (e - n)) = (List.range e).drop (e - n) := by
    rw [List.range_eq_range', List.drop_range']
    simp
  have hB : (l.drop (e - n)).take (e - (e - n)) = (l.take e).drop (e - n) := by
    rw [List.drop_take]
  rw [hA, hB]
  rw [List.zip_eq_zipWith, List.zip_eq_zipWith, List.reverse_zipWith]
  simp [List.length_drop, List.length_take, Nat.min_eq_left he]

/-! ## Concrete instances -/

example : ∃ k : KList Nat, [ListOp.push 7, .push 8, .update 0 9, .push 5].foldlM KList.apply KList.new
    = Except.ok k ∧ k.range 0 10 = [9, 8, 5] ∧ k.get 1 = some 8 ∧ k.len = 3 := by
  refine ⟨_, rfl, ?_, ?_, ?_⟩ <;> decide

example : ∃ h : KHashList Nat Nat,
    [(3, 30), (1, 10), (3, 31), (2, 20)].foldlM (fun h e => KHashList.insert h e.1 e.2) KHashList.new
      = Except.ok h ∧ h.len = 3 ∧ h.page 2 (some 0) = Except.ok [31, 10]
      ∧ h.page 2 (some 2) = Except.ok [20] := by
  refine ⟨_, rfl, ?_, ?_, ?_⟩ <;> rfl

example : ∃ (k : KList Nat) (out : List (Nat × Nat)),
    [ListOp.push 7, .push 8, .push 9].foldlM KList.apply KList.new = Except.ok k
    ∧ k.tailPage 2 none = Except.ok out ∧ out = [(2, 9), (1, 8)] := by
  refine ⟨_, _, rfl, rfl, rfl⟩

end Perp
