import Verif.Looser
import Verif.WitnessT

/-!
# C74 in the scenario
-/

namespace Perp.Scn

def limited (l : Dec) (p : Dec) : OrderArgs :=
  { order 2 (d 1) with priceLimit := .lte l, slippageLimit := .percent p }

/-- Account 100 has placed the same order twice, to buy at 2000 or less and at 3000 or less, and two withdrawals, of 10 and of 4
base tokens, both with 5 of resource 10. The price is 2000. -/
def choices : State :=
  after open_ [.marginOrderRequest none 100 (limited (d 2000) (d 1)) [] [] STATUS_ACTIVE,
    .marginOrderRequest none 100 (limited (d 3000) (d 1)) [] [] STATUS_ACTIVE,
    .removeCollateralRequest none 1000 100 55 [(BASE, d 10), (10, d 5)],
    .removeCollateralRequest none 1000 100 56 [(10, d 5), (BASE, d 4)], .tick 1040]

theorem choices_reach : Reach env choices := after_reach open_reach _

def isDue (s : State) (a : Addr) (i : Nat) (r : Request) : Bool :=
  acctTest s a (fun acc => (acc.requests[i]?).any fun kr => decide (kr.request = r ∧ acc.validStart ≤ i ∧ kr.submission < s.now ∧
    s.now < kr.expiry ∧ kr.status = STATUS_ACTIVE))

theorem isDue_due {s : State} {a : Addr} {i : Nat} {r : Request} (h : isDue s a i r = true) : s.Due a i r := by
  unfold isDue acctTest at h
  split at h
  · rename_i acc ha
    beta_reduce at h
    cases hk : acc.requests[i]? with
    | none => rw [hk] at h; cases h
    | some kr =>
      rw [hk] at h
      simp only [Option.any_some, decide_eq_true_eq] at h
      exact ⟨acc, kr, ha, hk, h⟩
  · cases h

def wish (l : Dec) (p : Dec) : MarginOrderReq :=
  { pair := 2, amount := d 1, reduceOnly := false, priceLimit := .lte l, slippageLimit := .percent p, activate := [], cancel := [] }

theorem wish_looser : (wish (d 2000) (d 1)).Looser (wish (d 3000) (d 1)) :=
  ⟨rfl, fun x h => le_trans h (by decide +kernel), fun _ _ h => h⟩

/-- `c74_order`: buying at 2000 or less goes through, so buying at 3000 or less does. -/
example : choices.Due 100 3 (.marginOrder (wish (d 2000) (d 1))) ∧ choices.Due 100 4 (.marginOrder (wish (d 3000) (d 1))) ∧
    (∃ x, step env anyone choices (.processRequest 100 3 none) = Except.ok x) ∧
    ∃ x, step env anyone choices (.processRequest 100 4 none) = Except.ok x := by
  obtain ⟨s', o, h⟩ := succeeded (s := choices) (op := .processRequest 100 3 none) (by decide +kernel)
  obtain ⟨s2, o2, h2⟩ := succeeded (s := choices) (op := .processRequest 100 4 none) (by decide +kernel)
  have hi : choices.Due 100 3 (.marginOrder (wish (d 2000) (d 1))) := isDue_due (by decide +kernel)
  have hj : choices.Due 100 4 (.marginOrder (wish (d 3000) (d 1))) := isDue_due (by decide +kernel)
  exact ⟨hi, hj, ⟨_, h⟩, c74_order choices_reach (whole _) hi hj wish_looser ⟨_, h⟩ (stepped_ne h2)⟩

/-- `c74_order_effect`: the two orders have the same effect. -/
example : ∃ s1 s2 : State, ∃ o1 o2 : Out, step env anyone choices (.processRequest 100 3 none) = Except.ok (s1, o1) ∧
    step env anyone choices (.processRequest 100 4 none) = Except.ok (s2, o2) ∧ Ev.isOrder o1.ev = true ∧
    s1.SameButRequests 100 s2 ∧ o2 = o1 := by
  obtain ⟨s1, o1, h1, h3⟩ := stepped (s := choices) (op := .processRequest 100 3 none) (P := fun _ o => Ev.isOrder o.ev = true)
    (by decide +kernel)
  obtain ⟨s2, o2, h2⟩ := succeeded (s := choices) (op := .processRequest 100 4 none) (by decide +kernel)
  have hi : choices.Due 100 3 (.marginOrder (wish (d 2000) (d 1))) := isDue_due (by decide +kernel)
  have hj : choices.Due 100 4 (.marginOrder (wish (d 3000) (d 1))) := isDue_due (by decide +kernel)
  exact ⟨s1, s2, o1, o2, h1, h2, h3, c74_order_effect hi hj wish_looser.1 h1 h2⟩

/-- `c74_withdrawal`: 10 base tokens can be withdrawn, so 4 can, to another wallet too. -/
example : choices.Due 100 5 (.removeCollateral ⟨55, [(BASE, d 10), (10, d 5)]⟩) ∧
    choices.Due 100 6 (.removeCollateral ⟨56, [(10, d 5), (BASE, d 4)]⟩) ∧
    (∃ x, step env anyone choices (.processRequest 100 5 none) = Except.ok x) ∧
    ∃ x, step env anyone choices (.processRequest 100 6 none) = Except.ok x := by
  obtain ⟨s', o, h⟩ := succeeded (s := choices) (op := .processRequest 100 5 none) (by decide +kernel)
  obtain ⟨s2, o2, h2⟩ := succeeded (s := choices) (op := .processRequest 100 6 none) (by decide +kernel)
  have hi : choices.Due 100 5 (.removeCollateral ⟨55, [(BASE, d 10), (10, d 5)]⟩) := isDue_due (by decide +kernel)
  have hj : choices.Due 100 6 (.removeCollateral ⟨56, [(10, d 5), (BASE, d 4)]⟩) := isDue_due (by decide +kernel)
  refine ⟨hi, hj, ⟨_, h⟩, c74_withdrawal choices_reach (whole _) hi hj ⟨rfl, ?_, ?_, by decide +kernel, by decide +kernel⟩ ⟨_, h⟩
    (stepped_ne h2)⟩
  · intro r hr
    simp only [List.map_cons, List.map_nil, List.mem_cons, List.not_mem_nil, or_false] at hr ⊢
    exact hr.symm
  · intro r hr
    simp only [claimed_cons, if_neg (Ne.symm hr)]
    simp [claimed]

/-- `c74_liquidation`: offering 5000 instead of 3000 for the collateral of account 100. -/
example : ∃ s' o l x, step env anyone neglected (.liquidate 100 ⟨BASE, d 3000⟩ (some sameNews)) = Except.ok (s', o) ∧
    o.buckets = l ++ [⟨BASE, x⟩] ∧ l ≠ [] ∧ step env anyone neglected (.liquidate 100 ⟨BASE, d 5000⟩ (some sameNews)) =
      Except.ok (s', { o with buckets := l ++ [⟨BASE, x + d 2000⟩] }) := by
  obtain ⟨s', o, h, hl⟩ := stepped (s := neglected) (op := .liquidate 100 ⟨BASE, d 3000⟩ (some sameNews))
    (P := fun _ q => q.buckets.length = 2) (by decide +kernel)
  obtain ⟨l, x, hb, h'⟩ := c74_liquidation (b' := ⟨BASE, d 5000⟩) h ⟨rfl, by decide +kernel, by decide +kernel⟩ (by decide +kernel)
  refine ⟨s', o, l, x, h, hb, ?_, h'⟩
  rintro rfl
  rw [hb] at hl
  cases hl

/-- `c74_swap`: offering 2000 instead of 1000 for the debt of account 100, which is less than 1000. -/
example : ∃ s' o tk x, step env anyone indebted (.swapDebt 100 10 ⟨BASE, d 1000⟩ none) = Except.ok (s', o) ∧
    o.buckets = [tk, ⟨BASE, x⟩] ∧ step env anyone indebted (.swapDebt 100 10 ⟨BASE, d 2000⟩ none) =
      Except.ok (s', { o with buckets := [tk, ⟨BASE, x + d 1000⟩] }) := by
  obtain ⟨s', o, h⟩ := succeeded (s := indebted) (op := .swapDebt 100 10 ⟨BASE, d 1000⟩ none) (by decide +kernel)
  obtain ⟨acc, ha, hd⟩ := tested (s := indebted) (a := 100) (P := fun acc => -acc.vb ≤ d 1000) (by decide +kernel)
  obtain ⟨tk, x, hb, h'⟩ := c74_swap (b' := ⟨BASE, d 2000⟩) ha h ⟨rfl, by decide +kernel, by decide +kernel⟩ (by decide +kernel) hd
  exact ⟨s', o, tk, x, h, hb, h'⟩

end Perp.Scn
