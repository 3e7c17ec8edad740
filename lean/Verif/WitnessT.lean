import Verif.Outcome
import Verif.WitnessS

/-!
# C72, the outcome, in the scenario
-/

namespace Perp.Scn

def Ev.isLiquidation : Ev → Bool
  | .liquidate _ => true
  | _ => false

def Ev.isOrder : Ev → Bool
  | .order _ => true
  | _ => false

/-- `c72_outcome`: the liquidation of account 100 two years late, with the news, and after two rounds of upkeep. -/
example : ∃ m m' s1 m1 : State, ∃ o o' q q' : Out, step env anyone neglected (.updatePairs [1] (some sameNews)) = Except.ok (m, o) ∧
    m.pool ≠ neglected.pool ∧ step env anyone m (.updatePairs [1] none) = Except.ok (m', o') ∧
    step env anyone neglected (.liquidate 100 ⟨BASE, d 3000⟩ (some sameNews)) = Except.ok (s1, q) ∧
    step env anyone m' (.liquidate 100 ⟨BASE, d 3000⟩ none) = Except.ok (m1, q') ∧
    s1.Same (m1.rewardsAs s1.rewardSupply) ∧ q.Same q' := by
  obtain ⟨m, o, m', o', h1, h2, h3, h4⟩ := both (s := neglected) (op1 := .updatePairs [1] (some sameNews)) (op2 := .updatePairs [1] none)
    (P := fun m _ m' _ => m.pool.positions.entries.map (fun e => e.2.lastUpdate) ≠ neglected.pool.positions.entries.map (fun e => e.2.lastUpdate) ∧
      succeeds m' (.liquidate 100 ⟨BASE, d 3000⟩ none) = true)
    (by decide +kernel)
  obtain ⟨s', q, h5, h6⟩ := stepped (s := neglected) (op := .liquidate 100 ⟨BASE, d 3000⟩ (some sameNews))
    (P := fun _ q => Ev.isLiquidation q.ev = true) (by decide +kernel)
  obtain ⟨s'', q', h7⟩ := succeeded h4
  have hu : Upkeeps env [1] (some sameNews) neglected m' := .more (.first (fun _ h => h) h1) (fun _ h => h) h2
  have ht : ∃ e, q.ev = .liquidate e := by
    unfold Ev.isLiquidation at h6
    split at h6
    · rename_i e he; exact ⟨e, he⟩
    · cases h6
  have hc : Op.Covers neglected [1] (.liquidate 100 ⟨BASE, d 3000⟩ none) := by
    intro acc ha p hp
    obtain ⟨acc', ha', hx⟩ := tested (s := neglected) (a := 100) (P := fun acc => (acc.positions.get 1).isSome = true) (by decide +kernel)
    rw [ha] at ha'; cases ha'
    rw [List.mem_singleton] at hp
    subst hp
    exact Option.isSome_iff_exists.mp hx
  obtain ⟨r1, r2, -⟩ := c72_outcome (op := .liquidate 100 ⟨BASE, d 3000⟩ none) neglected_reach hu hc (Or.inr (Or.inl ht)) h5 h7
  exact ⟨m, m', s', s'', o, o', q, q', h1, fun h => h3 (by rw [h]), h2, h5, h7, r1, r2⟩

/-- `c72_outcome`: the order of account 100 in pair 2 with the news, and after pair 2 has been brought up to date. -/
example : ∃ m s1 m1 : State, ∃ o q q' : Out, step env anyone neglected (.updatePairs [2] (some sameNews)) = Except.ok (m, o) ∧
    step env anyone neglected (.processRequest 100 3 (some sameNews)) = Except.ok (s1, q) ∧
    step env anyone m (.processRequest 100 3 none) = Except.ok (m1, q') ∧
    s1.Same (m1.rewardsAs s1.rewardSupply) ∧ q.Same q' := by
  obtain ⟨m, o, m1, q', h1, h2, -⟩ := both (s := neglected) (op1 := .updatePairs [2] (some sameNews))
    (op2 := .processRequest 100 3 none) (P := fun _ _ _ _ => True) (by decide +kernel)
  obtain ⟨s1, q, h5, h6⟩ := stepped (s := neglected) (op := .processRequest 100 3 (some sameNews))
    (P := fun _ q => Ev.isOrder q.ev = true) (by decide +kernel)
  have ht : ∃ e, q.ev = .order e := by
    unfold Ev.isOrder at h6
    split at h6
    · rename_i e he; exact ⟨e, he⟩
    · cases h6
  have hc : Op.Covers neglected [2] (.processRequest 100 3 none) := by
    intro acc kr ha hk
    obtain ⟨acc', ha', hx⟩ := tested (s := neglected) (a := 100)
      (P := fun acc => (acc.requests[3]?).all (fun kr => kr.request.pair? == some 2) = true) (by decide +kernel)
    rw [ha] at ha'; cases ha'
    rw [hk] at hx
    simp only [Option.all_some, beq_iff_eq] at hx
    cases hq : kr.request with
    | marginOrder r =>
      rw [hq] at hx
      simp only [Request.pair?, Option.some.injEq] at hx
      intro p hp
      rw [List.mem_singleton] at hp
      rw [hp, hx]
    | removeCollateral r => rw [hq] at hx; cases hx
  have hu : Upkeeps env [2] (some sameNews) neglected m := .first (fun _ h => h) h1
  obtain ⟨r1, r2, -⟩ := c72_outcome (op := .processRequest 100 3 none) neglected_reach hu hc (Or.inl ht) h5 h2
  exact ⟨m, s1, m1, o, q, q', h1, h5, h2, r1, r2⟩

/-- `c72_upkeep`: pair 1 first, and then both pairs. -/
example : ∃ m s1 m1 : State, ∃ o q q' : Out, step env anyone neglected (.updatePairs [1] (some sameNews)) = Except.ok (m, o) ∧
    step env anyone neglected (.updatePairs [1, 2] (some sameNews)) = Except.ok (s1, q) ∧
    step env anyone m (.updatePairs [1, 2] none) = Except.ok (m1, q') ∧ s1.Same (m1.rewardsAs s1.rewardSupply) ∧
    q.reward ≠ q'.reward := by
  obtain ⟨m, o, m1, q', h1, h2, h3⟩ := both (s := neglected) (op1 := .updatePairs [1] (some sameNews))
    (op2 := .updatePairs [1, 2] none) (P := fun _ _ _ q => q.reward < d 2) (by decide +kernel)
  obtain ⟨s1, q, h5, h6⟩ := stepped (s := neglected) (op := .updatePairs [1, 2] (some sameNews))
    (P := fun _ q => q.reward = d 2) (by decide +kernel)
  have hu : Upkeeps env [1] (some sameNews) neglected m := .first (fun _ h => h) h1
  exact ⟨m, s1, m1, o, q, q', h1, h5, h2, c72_upkeep neglected_reach hu (by simp) h5 h2,
    fun h => by rw [← h, h6] at h3; exact absurd h3 (lt_irrefl _)⟩

end Perp.Scn
