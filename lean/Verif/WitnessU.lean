import Verif.Confluent
import Verif.WitnessT

/-!
# C73 in the scenario
-/

namespace Perp.Scn

theorem onceTwice (p : PairId) : p ∈ ([1] ++ [2] : List PairId) ↔ p ∈ ([2] ++ [1, 2, 1] : List PairId) := by
  simp only [List.mem_append, List.mem_cons, List.not_mem_nil, or_false]
  constructor
  · rintro (h | h)
    · exact .inr (.inl h)
    · exact .inl h
  · rintro (h | h | h | h)
    · exact .inr h
    · exact .inl h
    · exact .inr h
    · exact .inl h

/-- `c73_confluent`: pair 1 and then pair 2, passing the news again; or pair 2 first and then both. -/
example : ∃ m m1 n n1 : State, ∃ o o1 q q1 : Out,
    step env anyone neglected (.updatePairs [1] (some sameNews)) = Except.ok (m, o) ∧
    step env anyone m (.updatePairs [2] (some sameNews)) = Except.ok (m1, o1) ∧
    step env anyone neglected (.updatePairs [2] (some sameNews)) = Except.ok (n, q) ∧
    step env anyone n (.updatePairs [1, 2, 1] none) = Except.ok (n1, q1) ∧
    m.pool ≠ n.pool ∧ m1.Same (n1.rewardsAs m1.rewardSupply) := by
  obtain ⟨m, o, m1, o1, h1, h2, h3⟩ := both (s := neglected) (op1 := .updatePairs [1] (some sameNews))
    (op2 := .updatePairs [2] (some sameNews)) (P := fun m _ _ _ => (m.pool.position m.now 1).lastUpdate = neglected.now)
    (by decide +kernel)
  obtain ⟨n, q, n1, q1, h4, h5, h6⟩ := both (s := neglected) (op1 := .updatePairs [2] (some sameNews))
    (op2 := .updatePairs [1, 2, 1] none)
    (P := fun n _ _ _ => (n.pool.position neglected.now 1).lastUpdate ≠ neglected.now) (by decide +kernel)
  have hn : m.now = neglected.now := by
    have := (updatePairs_upkept neglected_reach h1).1.same
    have := congrArg State.now this
    exact this
  refine ⟨m, m1, n, n1, o, o1, q, q1, h1, h2, h4, h5, fun e => ?_, ?_⟩
  · rw [hn, e] at h3; exact h6 h3
  · exact c73_confluent neglected_reach (.more (.first h1) (Or.inl rfl) h2) (.more (.first h4) (Or.inr rfl) h5) onceTwice

/-- `c73_same_news`: the liquidation of account 100 after upkeep, with the news passed again and without. -/
example : ∃ m : State, ∃ o : Out, step env anyone neglected (.updatePairs [1] (some sameNews)) = Except.ok (m, o) ∧
    (∃ r, step env anyone m (.liquidate 100 ⟨BASE, d 3000⟩ none) = Except.ok r) ∧
    step env anyone m (.liquidate 100 ⟨BASE, d 3000⟩ (some sameNews)) = step env anyone m (.liquidate 100 ⟨BASE, d 3000⟩ none) := by
  obtain ⟨m, o, h1, h2⟩ := stepped (s := neglected) (op := .updatePairs [1] (some sameNews))
    (P := fun m _ => succeeds m (.liquidate 100 ⟨BASE, d 3000⟩ none) = true) (by decide +kernel)
  obtain ⟨s', q, h3⟩ := succeeded h2
  exact ⟨m, o, h1, ⟨_, h3⟩, c73_same_news (.first (fun _ h => h) h1) (.liquidate 100 ⟨BASE, d 3000⟩ none)⟩

end Perp.Scn
