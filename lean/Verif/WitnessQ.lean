import Verif.Schedule
import Verif.WitnessP

/-!
# Concrete cases for C70
-/

namespace Perp.Scn

/-- An hour and more after the orders have been filled, both pairs are due. -/
def hourLater : State := after open_ [.tick 4700, .oraclePush (prices 4700 (d 51000) (d 2100) (d 5 2))]

theorem hourLater_reach : Reach env hourLater := after_reach open_reach _

/-- The prices of that hour. -/
def hourPrice : PairId → Dec := hourLater.market.price

theorem all_prices {s : State} {P : PairId → Dec} {l : List PairId} (h : l.all (fun p => s.market.price p == P p) = true) :
    ∀ p ∈ l, s.market.price p = P p := by
  intro p hp
  simpa using List.all_eq_true.mp h p hp

theorem orders_same (p : PairId) : p ∈ ([1, 2] : List PairId) ↔ p ∈ ([2, 2, 1] : List PairId) := by
  simp; tauto

theorem orders_same' {p : PairId} : p ∈ ([2, 1] : List PairId) ↔ p ∈ ([1, 2] : List PairId) := by
  simp; tauto

end Perp.Scn

namespace Perp
open Scn

/-- **C70, a case.** One keeper updates both pairs in one call; or one keeper updates pair 2 and another one pairs 2 and 1.  Both
schedules run, both pairs are due, they move the funding index of pair 1, and (by C70) end in the same pool with two reward tokens
paid in total. -/
theorem c70_example : ∃ s t t' : State, Reach Scn.env s ∧ Upkeep Scn.env hourPrice s [1, 2] t ∧
    Upkeep Scn.env hourPrice s [2, 2, 1] t' ∧ s.DueAt hourPrice 1 ∧ s.DueAt hourPrice 2 ∧
    (∀ p ∈ [1, 2], 0 < (s.market.pair p).updatePeriodSeconds) ∧
    (t.pool.position t.now 1).fundingLongIndex ≠ (s.pool.position s.now 1).fundingLongIndex ∧
    t.pool.Equal t'.pool ∧ t.rewardSupply = s.rewardSupply + d 2 ∧ t'.rewardSupply = s.rewardSupply + d 2 := by
  obtain ⟨t, o, h1, h2, h3⟩ := stepped (s := hourLater) (op := .updatePairs [1, 2] none)
    (P := fun t _ => ([1, 2] : List PairId).all (fun p => t.market.price p == hourPrice p) = true ∧
      (t.pool.position t.now 1).fundingLongIndex ≠ (hourLater.pool.position hourLater.now 1).fundingLongIndex)
    (by decide +kernel)
  obtain ⟨u, o1, t', o2, g1, g2, g3, g4⟩ := both (s := hourLater) (op1 := .updatePairs [2] none) (op2 := .updatePairs [2, 1] none)
    (P := fun u _ t' _ => ([2] : List PairId).all (fun p => u.market.price p == hourPrice p) = true ∧
      ([2, 1] : List PairId).all (fun p => t'.market.price p == hourPrice p) = true)
    (by decide +kernel)
  have k : Upkeep Scn.env hourPrice hourLater [1, 2] t := .call .start h1 (all_prices h2)
  have k' : Upkeep Scn.env hourPrice hourLater [2, 2, 1] t' := .call (.call .start g1 (all_prices g3)) g2 (all_prices g4)
  have hpos : ∀ p ∈ [1, 2], 0 < (hourLater.market.pair p).updatePeriodSeconds := by decide +kernel
  have hsame := c70_schedule hourLater_reach k k' orders_same
  have hrew := c70_rewards hourLater_reach k hpos
  have hlen : ONE * (([1, 2] : List PairId).dedup.filter (fun p => hourLater.DueAt hourPrice p)).length = d 2 := by decide +kernel
  rw [hlen] at hrew
  exact ⟨hourLater, t, t', hourLater_reach, k, k', by decide +kernel, by decide +kernel, hpos, h3, hsame.1, hrew,
    (hsame.2.2.2 hpos) ▸ hrew⟩

/-- **C70, a case of updating again.** -/
theorem c70_again_example : ∃ s t t' : State, ∃ o : Out, Reach Scn.env s ∧ Upkeep Scn.env hourPrice s [1, 2] t ∧
    step Scn.env anyone t (.updatePairs [2, 1] none) = Except.ok (t', o) ∧
    (∀ p ∈ [2, 1], t'.market.price p = hourPrice p ∧ p ∈ [1, 2]) ∧ t'.pool.Equal t.pool ∧ o.reward = 0 := by
  obtain ⟨t, o1, t', o, g1, g2, g3, g4⟩ := both (s := hourLater) (op1 := .updatePairs [1, 2] none) (op2 := .updatePairs [2, 1] none)
    (P := fun t _ t' _ => ([1, 2] : List PairId).all (fun p => t.market.price p == hourPrice p) = true ∧
      ([2, 1] : List PairId).all (fun p => t'.market.price p == hourPrice p) = true)
    (by decide +kernel)
  have k : Upkeep Scn.env hourPrice hourLater [1, 2] t := .call .start g1 (all_prices g3)
  have g4' : ∀ p ∈ [2, 1], t'.market.price p = hourPrice p ∧ p ∈ [1, 2] :=
    fun p hp => ⟨all_prices g4 p hp, orders_same'.mp hp⟩
  have := c70_again hourLater_reach k g2 g4'
  exact ⟨hourLater, t, t', o, hourLater_reach, k, g2, g4', this.1, this.2 (by decide +kernel)⟩

/-- **Within one second only.** An update in between is not nothing: with the same last update, at the same time and prices, the
funding index of pair 1 is another one when a keeper has come by an hour before (C70 is about the calls of one second). -/
theorem c70_not_across_seconds : ∃ s s1 s2 t t' : State, ∃ o o' : Out, Reach Scn.env s ∧ Later Scn.env s s1 ∧ Later Scn.env s s2 ∧
    s1.now = s2.now ∧ t.market.price 1 = t'.market.price 1 ∧
    step Scn.env anyone s1 (.updatePairs [1] (some (prices 8300 (d 51000) (d 2100) (d 5 2)))) = Except.ok (t, o) ∧
    step Scn.env anyone s2 (.updatePairs [1] (some (prices 8300 (d 51000) (d 2100) (d 5 2)))) = Except.ok (t', o') ∧
    (t.pool.position t.now 1).fundingLongIndex ≠ (t'.pool.position t'.now 1).fundingLongIndex := by
  obtain ⟨t, o, h1, h2, h3⟩ := stepped (s := after hourLater [.tick 8300])
    (op := .updatePairs [1] (some (prices 8300 (d 51000) (d 2100) (d 5 2))))
    (P := fun t _ => t.market.price 1 = d 51000 ∧ (t.pool.position t.now 1).fundingLongIndex = 901508551619895250)
    (by decide +kernel)
  obtain ⟨t', o', g1, g2, g3⟩ := stepped (s := after hourLater [.updatePairs [1] none, .tick 8300])
    (op := .updatePairs [1] (some (prices 8300 (d 51000) (d 2100) (d 5 2))))
    (P := fun t _ => t.market.price 1 = d 51000 ∧ (t.pool.position t.now 1).fundingLongIndex = 901474675354109855)
    (by decide +kernel)
  refine ⟨hourLater, _, _, t, t', o, o', hourLater_reach, after_later _ _, after_later _ _, by decide +kernel, by rw [h2, g2], h1, g1, ?_⟩
  rw [h3, g3]; decide

end Perp
