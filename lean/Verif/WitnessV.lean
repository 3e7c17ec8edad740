import Verif.Payout
import Verif.WitnessT

/-!
# C72, withdrawals, debt swaps and expired requests, in the scenario
-/

namespace Perp.Scn

def Ev.isPayout : Ev → Bool
  | .removeCollateral .. => true
  | .swapDebt _ => true
  | .expired => true
  | _ => false

theorem payout_cases {e : Ev} (h : Ev.isPayout e = true) :
    (∃ a l, e = .removeCollateral a l) ∨ (∃ x, e = .swapDebt x) ∨ e = .expired := by
  unfold Ev.isPayout at h
  split at h
  · rename_i a l; exact Or.inl ⟨a, l, rfl⟩
  · rename_i x; exact Or.inr (Or.inl ⟨x, rfl⟩)
  · exact Or.inr (Or.inr rfl)
  · cases h

/-- `c72_payout`: account 100 withdraws 4000 two years late, with the news, and after pair 2 has been brought up to date. -/
example : ∃ m s1 m1 : State, ∃ o q q' : Out, step env anyone neglected (.updatePairs [2] (some sameNews)) = Except.ok (m, o) ∧
    step env anyone neglected (.processRequest 100 4 (some sameNews)) = Except.ok (s1, q) ∧
    step env anyone m (.processRequest 100 4 none) = Except.ok (m1, q') ∧
    m.SameButUpkeep s1 m1 ∧ q' = q ∧ s1.pool.baseTokens < neglected.pool.baseTokens := by
  obtain ⟨m, o, m1, q', h1, h2, -⟩ := both (s := neglected) (op1 := .updatePairs [2] (some sameNews))
    (op2 := .processRequest 100 4 none) (P := fun _ _ _ _ => True) (by decide +kernel)
  obtain ⟨s1, q, h5, h6, h7⟩ := stepped (s := neglected) (op := .processRequest 100 4 (some sameNews))
    (P := fun s q => Ev.isPayout q.ev = true ∧ s.pool.baseTokens < neglected.pool.baseTokens) (by decide +kernel)
  have hu : Upkeeps env [2] (some sameNews) neglected m := .first (fun _ h => h) h1
  obtain ⟨r1, r2⟩ := c72_payout (op := .processRequest 100 4 none) neglected_reach hu (payout_cases h6)
    (Or.inl ⟨_, _, _, rfl⟩) h5 h2
  exact ⟨m, s1, m1, o, q, q', h1, h5, h2, r1, r2, h7⟩

/-- `c72_payout`: the debt of account 100 is swapped, before and after upkeep of pair 2. -/
example : ∃ m s1 m1 : State, ∃ o q q' : Out, step env anyone indebted (.updatePairs [2] none) = Except.ok (m, o) ∧
    step env anyone indebted (.swapDebt 100 10 ⟨BASE, d 1000⟩ none) = Except.ok (s1, q) ∧
    step env anyone m (.swapDebt 100 10 ⟨BASE, d 1000⟩ none) = Except.ok (m1, q') ∧
    m.SameButUpkeep s1 m1 ∧ q' = q ∧ s1.pool.baseTokens > indebted.pool.baseTokens := by
  obtain ⟨m, o, m1, q', h1, h2, -⟩ := both (s := indebted) (op1 := .updatePairs [2] none)
    (op2 := .swapDebt 100 10 ⟨BASE, d 1000⟩ none) (P := fun _ _ _ _ => True) (by decide +kernel)
  obtain ⟨s1, q, h5, h6, h7⟩ := stepped (s := indebted) (op := .swapDebt 100 10 ⟨BASE, d 1000⟩ none)
    (P := fun s q => Ev.isPayout q.ev = true ∧ s.pool.baseTokens > indebted.pool.baseTokens) (by decide +kernel)
  have hu : Upkeeps env [2] none indebted m := .first (fun _ h => h) h1
  obtain ⟨r1, r2⟩ := c72_payout (op := .swapDebt 100 10 ⟨BASE, d 1000⟩ none) indebted_reach hu (payout_cases h6)
    (Or.inr ⟨_, _, _, _, rfl⟩) h5 h2
  exact ⟨m, s1, m1, o, q, q', h1, h5, h2, r1, r2, h7⟩

end Perp.Scn
