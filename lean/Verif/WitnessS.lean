import Verif.Upfront
import Verif.WitnessP

/-!
# C72 in the scenario
-/

namespace Perp.Scn

theorem stepped_ne {s : State} {op : Op} {r : State × Out} {e : Err} (h : step env anyone s op = Except.ok r) :
    step env anyone s op ≠ Except.error e := by rw [h]; exact fun h => by cases h

def succeeds (s : State) (op : Op) : Bool :=
  match step env anyone s op with
  | .ok _ => true
  | .error _ => false

theorem succeeded {s : State} {op : Op} (h : succeeds s op = true) : ∃ s' o, step env anyone s op = Except.ok (s', o) := by
  unfold succeeds at h
  split at h
  · rename_i r hr; exact ⟨r.1, r.2, hr⟩
  · cases h

/-- `c72_decision`: two years late, account 100 can be liquidated with the news; also after somebody has recorded the news and
brought the pair of the account up to date, twice. -/
example : ∃ m m' : State, ∃ o o' : Out, step env anyone neglected (.updatePairs [1] (some sameNews)) = Except.ok (m, o) ∧
    m.pool ≠ neglected.pool ∧ step env anyone m (.updatePairs [1] none) = Except.ok (m', o') ∧
    (∃ r, step env anyone neglected (.liquidate 100 ⟨BASE, d 3000⟩ (some sameNews)) = Except.ok r) ∧
    ((∃ r, step env anyone neglected (.liquidate 100 ⟨BASE, d 3000⟩ (some sameNews)) = Except.ok r) ↔
      ∃ r, step env anyone m' (.liquidate 100 ⟨BASE, d 3000⟩ none) = Except.ok r) := by
  obtain ⟨m, o, m', o', h1, h2, h3, h4⟩ := both (s := neglected) (op1 := .updatePairs [1] (some sameNews)) (op2 := .updatePairs [1] none)
    (P := fun m _ m' _ => m.pool.positions.entries.map (fun e => e.2.lastUpdate) ≠ neglected.pool.positions.entries.map (fun e => e.2.lastUpdate) ∧
      succeeds m' (.liquidate 100 ⟨BASE, d 3000⟩ none) = true)
    (by decide +kernel)
  obtain ⟨s', q, h5, h6⟩ := stepped (s := neglected) (op := .liquidate 100 ⟨BASE, d 3000⟩ (some sameNews)) (P := fun _ _ => True) (by decide +kernel)
  obtain ⟨s'', q', h7⟩ := succeeded h4
  refine ⟨m, m', o, o', h1, fun h => h3 (by rw [h]), h2, ⟨_, h5⟩, ?_⟩
  have hu : Upkeeps env [1] (some sameNews) neglected m' := .more (.first (fun _ h => h) h1) (fun _ h => h) h2
  refine c72_decision (op := .liquidate 100 ⟨BASE, d 3000⟩ none) neglected_reach (whole _) hu ?_ (stepped_ne h5) (stepped_ne h7)
  intro acc ha p hp
  obtain ⟨acc', ha', hx⟩ := tested (s := neglected) (a := 100) (P := fun acc => (acc.positions.get 1).isSome = true) (by decide +kernel)
  rw [ha] at ha'; cases ha'
  rw [List.mem_singleton] at hp
  subst hp
  exact Option.isSome_iff_exists.mp hx

end Perp.Scn

namespace Perp
open Scn

/-- **C72 needs its condition.** The order of account 100 in pair 2 goes through, also after pair 2 has been brought up to date;
after pair 1 has been brought up to date — a pair that the order does not bring up to date — it is refused. -/
theorem c72_other_pairs : ∃ s m m' : State, ∃ o o' : Out, Reach Scn.env s ∧
    step Scn.env anyone s (.updatePairs [2] (some sameNews)) = Except.ok (m, o) ∧
    step Scn.env anyone s (.updatePairs [1] (some sameNews)) = Except.ok (m', o') ∧
    (∃ r, step Scn.env anyone s (.processRequest 100 3 (some sameNews)) = Except.ok r) ∧
    (∃ r, step Scn.env anyone m (.processRequest 100 3 none) = Except.ok r) ∧
    step Scn.env anyone m' (.processRequest 100 3 none) = Except.error .insufficientMargin := by
  obtain ⟨m, o, s2, o2, h1, h2, -⟩ := both (s := neglected) (op1 := .updatePairs [2] (some sameNews))
    (op2 := .processRequest 100 3 none) (P := fun _ _ _ _ => True) (by decide +kernel)
  obtain ⟨m', o', h3, h4⟩ := stepped (s := neglected) (op := .updatePairs [1] (some sameNews))
    (P := fun m _ => failsWith m (.processRequest 100 3 none) .insufficientMargin = true) (by decide +kernel)
  obtain ⟨s', q, h5, -⟩ := stepped (s := neglected) (op := .processRequest 100 3 (some sameNews)) (P := fun _ _ => True) (by decide +kernel)
  exact ⟨neglected, m, m', o, o', neglected_reach, h1, h3, ⟨_, h5⟩, ⟨_, h2⟩, failed h4⟩

end Perp
