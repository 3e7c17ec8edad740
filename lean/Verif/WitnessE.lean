import Verif.Indexer
import Verif.WitnessD

/-!
# Concrete cases that meet the hypotheses: C59
-/

namespace Perp.Scn

/-- The log and the state after a list of calls. -/
def logged : State → List Op → R (State × List Event)
  | s, [] => .ok (s, [])
  | s, op :: ops => do
      let r ← stepL env anyone s op
      let x ← logged r.1 ops
      pure (x.1, r.2.2 ++ x.2)

theorem logged_reach {ops : List Op} : ∀ {s : State} {log : List Event} {x : State × List Event}, ReachLog env log s →
    logged s ops = Except.ok x → ReachLog env (log ++ x.2) x.1 := by
  induction ops with
  | nil => intro s log x h hx; cases hx; simpa using h
  | cons op ops ih =>
    intro s log x h hx
    simp only [logged, bind_ok, pure_ok] at hx
    obtain ⟨⟨s1, o, l⟩, hs, y, hy, rfl⟩ := hx
    have := ih (.step h hs) hy
    rw [List.append_assoc] at this
    exact this

/-- A history in which everything happens: accounts, orders, fills, a cancellation, a removed collateral, a withdrawal request and
its execution, and a liquidation. -/
def eventful : List Op :=
  setup ++ orders ++ fills ++
    [ .removeCollateralRequest none 1000 200 300 [(BASE, d 10)], .tick 1040, .processRequest 200 1 none,
      .liquidate 100 ⟨BASE, d 3000⟩ (some crash), .updatePairs [2] none, .removeLiquidity ⟨LP, d 10⟩ ]

/-- `c59_indexer` on that history: the picture drawn from the log alone has the liquidated account flat, with its two pending
requests invalid, without its collateral, and the other account still short. -/
example : ∃ log s, ReachLog env log s ∧ Tracks s (View.initial.readAll log) ∧ 20 ≤ log.length ∧
    ((View.initial.readAll log).accounts 100).size 1 = 0 ∧ ((View.initial.readAll log).accounts 100).validStart = 3 ∧
    ((View.initial.readAll log).accounts 100).collateral 10 = 0 ∧ ((View.initial.readAll log).accounts 200).size 1 = d (-1) ∧
    ((View.initial.readAll log).accounts 200).validStart = 0 ∧ ((View.initial.readAll log).pool 2).isSome = true ∧
    (∃ r, ((View.initial.readAll log).accounts 200).requests 1 = some r ∧ r.status = STATUS_EXECUTED) := by
  obtain ⟨x, hx⟩ := computed (x := logged genesis eventful) (by decide +kernel)
  have hr := logged_reach (.init genesis_ok) hx
  have hv : (match logged genesis eventful with
      | .ok x => decide (20 ≤ x.2.length ∧ ((View.initial.readAll x.2).accounts 100).size 1 = 0 ∧
          ((View.initial.readAll x.2).accounts 100).validStart = 3 ∧
          ((View.initial.readAll x.2).accounts 100).collateral 10 = 0 ∧
          ((View.initial.readAll x.2).accounts 200).size 1 = d (-1) ∧
          ((View.initial.readAll x.2).accounts 200).validStart = 0 ∧
          ((View.initial.readAll x.2).pool 2).isSome = true ∧
          (((View.initial.readAll x.2).accounts 200).requests 1).map (·.status) = some STATUS_EXECUTED)
      | .error _ => false) = true := by decide +kernel
  rw [hx] at hv
  simp only [decide_eq_true_eq, Option.map_eq_some_iff] at hv
  obtain ⟨h1, h2, h3, h4, h5, h6, h7, h8⟩ := hv
  exact ⟨_, x.1, hr, c59_indexer hr, by simpa using h1, h2, h3, h4, h5, h6, h7, h8⟩

/-- `c59_nothing_hidden`: paying out the treasury is silent. -/
example : ∃ s' o, stepL env anyone open_ .collectTreasury = Except.ok (s', o, []) ∧ s'.pool ≠ open_.pool ∧
    s'.lpSupply = open_.lpSupply := by
  obtain ⟨s', o, h, hne⟩ := stepped (P := fun s' _ => s'.pool.baseTokens ≠ open_.pool.baseTokens) (s := open_)
    (op := .collectTreasury) (by decide +kernel)
  obtain ⟨l, hl⟩ := step_stepL h
  have e : l = [] := silent_log rfl (stepL_body hl)
  subst e
  refine ⟨s', o, hl, ?_, (c59_nothing_hidden open_reach hl).2.2.2.2.2⟩
  intro e
  exact hne (by rw [e])

end Perp.Scn
