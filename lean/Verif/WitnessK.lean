import Verif.Attribution
import Verif.WitnessB

/-!
# Concrete cases for C64
-/

namespace Perp.Scn

/-- Running one call. -/
theorem after_one {s s' : State} {op : Op} {o : Out} (h : step env anyone s op = Except.ok (s', o)) : after s [op] = s' := by
  unfold after
  simp only [runOps, h]
  rfl

/-- `c64_call`: the price rises by a tenth and somebody updates the pair; the account, long 2, is worth 10000 more, less the
funding that accrued. -/
example : ∃ s' o acc acc', step env anyone open_ (.updatePairs [1] (prices 1030 (d 55000) (d 2000) (d 5 2))) = Except.ok (s', o) ∧
    open_.accounts.get 100 = some acc ∧ s'.accounts.get 100 = some acc' ∧ open_.gains s' acc = d 10000 ∧
    (Op.updatePairs [1] (prices 1030 (d 55000) (d 2000) (d 5 2))).flow o 100 = 0 ∧
    s'.equity acc' = open_.equity acc + d 10000 := by
  obtain ⟨acc, ha, -⟩ := tested (s := open_) (a := 100) (P := fun _ => True) (by decide +kernel)
  obtain ⟨s', o, h, h1, h2⟩ := stepped (s := open_) (op := .updatePairs [1] (prices 1030 (d 55000) (d 2000) (d 5 2)))
    (P := fun s' _ => (∀ acc ∈ open_.accounts.get 100, open_.gains s' acc = d 10000) ∧ (s'.accounts.get 100).isSome = true)
    (by decide +kernel)
  obtain ⟨acc', ha'⟩ := Option.isSome_iff_exists.1 h2
  have hg := h1 acc ha
  have := c64_call open_reach h ha ha'
  rw [hg] at this
  refine ⟨s', o, acc, acc', h, ha, ha', hg, rfl, ?_⟩
  have := abs_le.mp this
  simp only [Op.flow, Op.rounds, Op.account, reduceCtorEq, if_false, Nat.cast_zero, neg_zero, add_zero] at this
  linarith [this.1, this.2]

/-- `c64_call` and `c55_liquidation`: account 100 (long 2) is liquidated after the price fell; what it was worth at the new
price, plus what the liquidator pays for its collateral, less the fee, is its balance afterwards. -/
example : ∃ s' o acc acc' e s1 taken, step env anyone underwater (.liquidate 100 ⟨BASE, d 3000⟩ none) = Except.ok (s', o) ∧
    underwater.accounts.get 100 = some acc ∧ s'.accounts.get 100 = some acc' ∧ o.ev = .liquidate e ∧ acc'.positions.entries = [] ∧
    underwater.Refreshed s1 none acc.positions.keys ∧ acc'.vb + e.poolLoss = s1.equity acc + taken - e.fees.total ∧
    d 2000 < taken ∧ |s'.pool.value - (s1.pool.value - e.fees.pool + e.poolLoss)| ≤ 1 ∧
    s'.equity acc' = s'.equity acc + (Op.liquidate 100 ⟨BASE, d 3000⟩ none).flow o 100 := by
  obtain ⟨s', o, acc, acc', h, ha, ha', h1, h2, h3⟩ := steppedOn (s := underwater) (a := 100) (op := .liquidate 100 ⟨BASE, d 3000⟩ none)
    (P := fun s' _ acc acc' => acc'.positions.entries = [] ∧ acc.positions.keys.length = 1 ∧
      underwater.pool.baseTokens + d 2000 < s'.pool.baseTokens) (by decide +kernel)
  obtain ⟨-, e, he, -⟩ := c19_only_below_maintenance h ha
  obtain ⟨s1, taken, g1, -, g2, g3, -, -, g4, -⟩ := c55_liquidation underwater_reach h he ha ha'
  have g5 := c64_call underwater_reach h ha ha'
  rw [h2] at g4
  refine ⟨s', o, acc, acc', e, s1, taken, h, ha, ha', he, h1, g1, g3, by linarith, by simpa using g4, ?_⟩
  rw [gains_eq] at g5
  simp only [Op.rounds, Op.account, if_true, he, Nat.cast_zero] at g5
  have := abs_le.mp g5
  linarith [this.1, this.2]

/-- `c64_call`: somebody repays the debt of account 100 for its collateral. -/
example : ∃ s' o acc acc', step env anyone indebted (.swapDebt 100 10 ⟨BASE, d 1000⟩ none) = Except.ok (s', o) ∧
    indebted.accounts.get 100 = some acc ∧ s'.accounts.get 100 = some acc' ∧
    d 500 < (Op.swapDebt 100 10 ⟨BASE, d 1000⟩ none).flow o 100 ∧
    |s'.equity acc' - (indebted.equity acc + indebted.gains s' acc + (Op.swapDebt 100 10 ⟨BASE, d 1000⟩ none).flow o 100)| ≤ 1 := by
  obtain ⟨s', o, acc, acc', h, ha, ha', h1⟩ := steppedOn (s := indebted) (a := 100) (op := .swapDebt 100 10 ⟨BASE, d 1000⟩ none)
    (P := fun _ o _ _ => d 500 < (Op.swapDebt 100 10 ⟨BASE, d 1000⟩ none).flow o 100) (by decide +kernel)
  have := c64_call indebted_reach h ha ha'
  exact ⟨s', o, acc, acc', h, ha, ha', h1, by simpa [Op.rounds, Op.account, show env.gran BASE = 1 from rfl] using this⟩

/-- Account 100 has an order to buy 2 and an order to sell 2 waiting, both due. -/
def tourist : State := after ready
  [ .marginOrderRequest none 100 (order 1 (d 2)) [] [] STATUS_ACTIVE,
    .marginOrderRequest none 100 (order 1 (d (-2)) true) [] [] STATUS_ACTIVE,
    .tick 1030 ]

theorem tourist_reach : Reach env tourist := after_reach ready_reach _

/-- The account of address 100. -/
def visitor (s : State) : Account := (s.accounts.get 100).getD { (default : Account) with vb := 0 }

theorem visitor_eq {s : State} (h : (s.accounts.get 100).isSome = true) : s.accounts.get 100 = some (visitor s) := by
  unfold visitor
  obtain ⟨acc, ha⟩ := Option.isSome_iff_exists.1 h
  rw [ha]; rfl

instance (s s' : State) (acc : Account) : Decidable (Still s s' acc) := by unfold Still; infer_instance

/-- What the call charges. -/
def outOf (s : State) (op : Op) : Out := match step env anyone s op with
  | .ok r => r.2
  | .error _ => {}

theorem step_out {s : State} {op : Op} (h : (step env anyone s op).toBool = true) :
    step env anyone s op = Except.ok (after s [op], outOf s op) := by
  obtain ⟨⟨s', o⟩, h⟩ := computed h
  rw [after_one h]
  unfold outOf
  rw [h]

def enter : Op := .processRequest 100 0 none
def quit : Op := .processRequest 100 1 none
def holding : State := after tourist [enter]
def back : State := after holding [quit]

/-- `c64_still_history` and `c64_round_trip`: buying 2 and selling them at once at 50000 costs the fees, 200, and nothing
else; `c64_still` and `c64_flow` apply to both calls. -/
example : ∃ f, StillCareer env 100 tourist (visitor tourist) f 0 4 back (visitor back) ∧
    (visitor tourist).positions.entries = [] ∧ (visitor holding).positions.entries.length = 1 ∧
    (visitor back).positions.entries = [] ∧ f = -d 200 ∧
    (visitor back).vb ≤ (visitor tourist).vb + 0 + 4 ∧ |(visitor back).vb - ((visitor tourist).vb + f)| ≤ 4 := by
  have h0 : StillCareer env 100 tourist (visitor tourist) 0 0 0 tourist (visitor tourist) := .start (visitor_eq (by decide +kernel))
  have h1 := h0.call (step_out (op := enter) (by decide +kernel)) (by decide +kernel)
    (visitor_eq (s := holding) (by decide +kernel))
  have h2 := h1.call (step_out (s := holding) (op := quit) (by decide +kernel)) (by decide +kernel)
    (visitor_eq (s := back) (by decide +kernel))
  have e1 : 0 + enter.deposits (outOf tourist enter) 100 + quit.deposits (outOf holding quit) 100 = 0 := by decide +kernel
  have e2 : 0 + enter.rounds env (outOf tourist enter) 100 + quit.rounds env (outOf holding quit) 100 = 4 := by decide +kernel
  rw [e1, e2] at h2
  have p1 : (visitor tourist).positions.entries = [] := by decide +kernel
  have p2 : (visitor back).positions.entries = [] := by decide +kernel
  exact ⟨_, h2, p1, by decide +kernel, p2, by decide +kernel, c64_round_trip tourist_reach h2 p1 p2⟩

end Perp.Scn
