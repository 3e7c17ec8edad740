import Verif.Stale
import Verif.WitnessD

/-!
# Concrete cases for C69
-/

namespace Perp.Scn

/-- Nobody updates pair 1 for two years; then account 100 orders something in pair 2 and asks to withdraw 4000. -/
def neglected : State :=
  after open_ [.tick 63073030, .marginOrderRequest none 100 (order 2 (d 1)) [] [] STATUS_ACTIVE,
    .removeCollateralRequest none 1000 100 555 [(BASE, d 4000)], .tick 63073040]

theorem neglected_reach : Reach env neglected := after_reach open_reach _

/-- The prices have not changed. -/
def sameNews : PriceUpdate := prices 63073040 (d 50000) (d 2000) (d 5 2)

/-- Run two calls and test the results. -/
def bothOk (s : State) (op1 op2 : Op) (P : State → Out → State → Out → Bool) : Bool :=
  match step env anyone s op1 with
  | .ok r => match step env anyone r.1 op2 with
    | .ok q => P r.1 r.2 q.1 q.2
    | .error _ => false
  | .error _ => false

theorem both {s : State} {op1 op2 : Op} {P : State → Out → State → Out → Prop} [∀ a b c e, Decidable (P a b c e)]
    (h : bothOk s op1 op2 (fun a b c e => decide (P a b c e)) = true) :
    ∃ s1 o1 s2 o2, step env anyone s op1 = Except.ok (s1, o1) ∧ step env anyone s1 op2 = Except.ok (s2, o2) ∧
      P s1 o1 s2 o2 := by
  unfold bothOk at h
  split at h
  · rename_i r hr
    split at h
    · rename_i q hq
      exact ⟨r.1, r.2, q.1, q.2, hr, hq, of_decide_eq_true h⟩
    · cases h
  · cases h

/-- What the checks of an account say in a state: its value covers the initial margin, and all margins are ordered. -/
def sound (s : State) (a : Addr) : Prop :=
  ∃ acc, s.accounts.get a = some acc ∧ s.initialMargin acc ≤ s.accountValue acc ∧ s.MarginsOrdered acc

def soundTest (s : State) (a : Addr) : Bool :=
  acctTest s a (fun acc => decide (s.initialMargin acc ≤ s.accountValue acc ∧
    ∀ e ∈ acc.positions.entries, (s.market.pair e.1).marginMaintenance ≤ (s.market.pair e.1).marginInitial))

theorem sound_of {s : State} {a : Addr} (h : soundTest s a = true) : sound s a := by
  obtain ⟨acc, h1, h2, h3⟩ := tested (P := fun acc => s.initialMargin acc ≤ s.accountValue acc ∧
    ∀ e ∈ acc.positions.entries, (s.market.pair e.1).marginMaintenance ≤ (s.market.pair e.1).marginInitial) h
  exact ⟨acc, h1, h2, fun p x hx => h3 (p, x) ((AMap.get_eq_some).mp hx)⟩

def opensOne : Ev → Bool
  | .order e => decide (e.amountOpen = d 1)
  | _ => false

def bigLoss : Ev → Bool
  | .liquidate e => decide (e.poolLoss < d (-4000))
  | _ => false

end Perp.Scn

namespace Perp
open Scn

/-- **C69 fails for orders.** A reachable state in which account 100 opens a position in pair 2 (the margin check passes: its
value, as computed, covers the initial margin), and in the same second, at the same prices, is liquidated. -/
theorem c69_stale_order : ∃ s s1 s2 : State, ∃ o1 o2 : Out, ∃ e : MarginOrderEv, Reach Scn.env s ∧
    step Scn.env anyone s (.processRequest 100 3 (some sameNews)) = Except.ok (s1, o1) ∧ o1.ev = .order e ∧ e.amountOpen = d 1 ∧
    sound s1 100 ∧ step Scn.env anyone s1 (.liquidate 100 ⟨BASE, d 3000⟩ none) = Except.ok (s2, o2) := by
  obtain ⟨s1, o1, s2, o2, h1, h2, h3, h4⟩ := both (s := neglected) (op1 := .processRequest 100 3 (some sameNews))
    (op2 := .liquidate 100 ⟨BASE, d 3000⟩ none)
    (P := fun s1 o1 _ _ => soundTest s1 100 = true ∧ opensOne o1.ev = true)
    (by decide +kernel)
  unfold opensOne at h4
  split at h4
  · rename_i e he
    exact ⟨neglected, s1, s2, o1, o2, e, neglected_reach, h1, he, of_decide_eq_true h4, sound_of h3, h2⟩
  · cases h4

/-- **C69 fails for withdrawals.** In the same state the account withdraws 4000 tokens (the margin check passes) and is
liquidated in the same second at the same prices; the pool bears a loss. -/
theorem c69_stale_withdrawal : ∃ s s1 s2 : State, ∃ o1 o2 : Out, ∃ e : LiquidateEv, Reach Scn.env s ∧
    step Scn.env anyone s (.processRequest 100 4 (some sameNews)) = Except.ok (s1, o1) ∧ o1.paid = [(555, ⟨BASE, d 4000⟩)] ∧
    sound s1 100 ∧ step Scn.env anyone s1 (.liquidate 100 ⟨BASE, d 3000⟩ none) = Except.ok (s2, o2) ∧
    o2.ev = .liquidate e ∧ e.poolLoss < d (-4000) := by
  obtain ⟨s1, o1, s2, o2, h1, h2, h3, h4, h5⟩ := both (s := neglected) (op1 := .processRequest 100 4 (some sameNews))
    (op2 := .liquidate 100 ⟨BASE, d 3000⟩ none)
    (P := fun s1 o1 _ o2 => soundTest s1 100 = true ∧ o1.paid = [(555, ⟨BASE, d 4000⟩)] ∧
      bigLoss o2.ev = true)
    (by decide +kernel)
  unfold bigLoss at h5
  split at h5
  · rename_i e he
    exact ⟨neglected, s1, s2, o1, o2, e, neglected_reach, h1, h4, sound_of h3, h2, he, of_decide_eq_true h5⟩
  · cases h5

end Perp

namespace Perp.Scn

/-- Had somebody updated pair 1 first, both would have been refused. -/
example : failsWith (after neglected [.updatePairs [1] (some sameNews)]) (.processRequest 100 3 none) .insufficientMargin = true ∧
    failsWith (after neglected [.updatePairs [1] (some sameNews)]) (.processRequest 100 4 none) .insufficientMargin = true := by
  decide +kernel

/-- `c69_order_partial` applies to an account whose only position is in the traded pair: account 200 in the opening block. -/
example : ∃ s s' : State, ∃ o : Out, ∃ acc acc' : Account, ∃ e : MarginOrderEv, Reach env s ∧
    step env anyone s (.processRequest 200 0 none) = Except.ok (s', o) ∧ s.accounts.get 200 = some acc ∧
    s'.accounts.get 200 = some acc' ∧ o.ev = .order e ∧ acc'.positions.entries ≠ [] ∧
    ∀ b r, step env anyone s' (.liquidate 200 b none) ≠ Except.ok r := by
  have hs : Reach env (after ordered [.tick 1030]) := after_reach ordered_reach _
  obtain ⟨s', o, h, h1, h2⟩ := stepped (s := after ordered [.tick 1030]) (op := .processRequest 200 0 none)
    (P := fun s' o => soundTest s' 200 = true ∧ (match o.ev, s'.accounts.get 200, (after ordered [.tick 1030]).accounts.get 200 with
      | .order e, some acc', some acc => decide (e.pair = 1 ∧ acc'.positions.entries.map Prod.fst = [1] ∧
          ¬ (|acc'.size e.pair| ≤ |acc.size e.pair|))
      | _, _, _ => false) = true) (by decide +kernel)
  split at h2
  · rename_i e acc' acc he ha' ha
    obtain ⟨e1, e2, e3⟩ := of_decide_eq_true h2
    refine ⟨_, s', o, acc, acc', e, hs, h, ha, ha', he, ?_, ?_⟩
    · intro hn; rw [hn] at e2; cases e2
    · intro b r
      refine c69_order_partial hs h ha ha' he (fun hsh => ?_) (fun q x hx hq => ?_) ?_ b r
      · have n1 := abs_nonneg (acc'.size e.pair)
        rcases hsh with ⟨y0, y1⟩ | ⟨y1, y0⟩
        · exact e3 (abs_le_abs_of_nonneg y0 y1)
        · exact e3 (abs_le_abs_of_nonpos y0 y1)
      · have : q ∈ acc'.positions.entries.map Prod.fst := List.mem_map.mpr ⟨(q, x), AMap.get_eq_some.mp hx, rfl⟩
        rw [e2] at this
        simp only [List.mem_singleton] at this
        rw [e1] at hq; exact absurd this hq
      · obtain ⟨a1, g1, -, g3⟩ := sound_of h1
        rw [ha'] at g1; cases g1; exact g3
  · cases h2

/-- In the opening state account 100 asks for 1000; nine minutes later pair 1 is updated and the request can be processed. -/
def upToDate : State :=
  after open_ [.removeCollateralRequest none 1000 100 555 [(BASE, d 1000)], .tick 1500, .updatePairs [1] (some (prices 1500 (d 50000) (d 2000) (d 5 2)))]

theorem upToDate_reach : Reach env upToDate := after_reach open_reach _

/-- `c69_withdrawal_partial` applies there. -/
example : ∃ s' : State, ∃ o : Out, step env anyone upToDate (.processRequest 100 3 none) = Except.ok (s', o) ∧
    o.paid = [(555, ⟨BASE, d 1000⟩)] ∧ ∀ b r, step env anyone s' (.liquidate 100 b none) ≠ Except.ok r := by
  obtain ⟨s', o, h, h1, h2, h3⟩ := stepped (s := upToDate) (op := .processRequest 100 3 none)
    (P := fun s' o => soundTest s' 100 = true ∧ o.paid = [(555, ⟨BASE, d 1000⟩)] ∧
      (match s'.accounts.get 100, upToDate.accounts.get 100 with
      | some acc', some acc => (match acc.requests[3]? with
          | some kr => decide (kr.request = .removeCollateral ⟨555, [(BASE, d 1000)]⟩ ∧ o.ev ≠ .expired ∧
              ∀ e ∈ acc'.positions.entries, (upToDate.pool.position upToDate.now e.1).lastUpdate = upToDate.now)
          | none => false)
      | _, _ => false) = true) (by decide +kernel)
  split at h3
  · rename_i acc' acc ha' ha
    split at h3
    · rename_i kr hk
      obtain ⟨e1, e2, e3⟩ := of_decide_eq_true h3
      refine ⟨s', o, h, h2, fun b r => ?_⟩
      refine c69_withdrawal_partial upToDate_reach h ha hk e1 e2 ha' (fun p x hx => e3 (p, x) (AMap.get_eq_some.mp hx)) ?_ b r
      obtain ⟨a1, g1, -, g3⟩ := sound_of h1
      rw [ha'] at g1; cases g1; exact g3
    · cases h3
  · cases h3

/-- `c69_missed` applies to the liquidation of `c69_stale_withdrawal`: more than 20000 of funding were not in the value that the
margin check saw. -/
example : ∃ s1 s2 : State, ∃ o2 : Out, ∃ acc : Account, Reach env s1 ∧
    step env anyone s1 (.liquidate 100 ⟨BASE, d 3000⟩ none) = Except.ok (s2, o2) ∧ s1.accounts.get 100 = some acc ∧
    s2.oracle.prices = s1.oracle.prices ∧ d 20000 < s1.missed s2 acc := by
  obtain ⟨s1, o1, s2, o2, h1, h2, h3⟩ := both (s := neglected) (op1 := .processRequest 100 4 (some sameNews))
    (op2 := .liquidate 100 ⟨BASE, d 3000⟩ none)
    (P := fun s1 _ s2 _ => acctTest s1 100 (fun acc => decide (d 20000 < s1.missed s2 acc)) = true) (by decide +kernel)
  obtain ⟨acc, ha, h4⟩ := tested h3
  exact ⟨s1, s2, o2, acc, .step neglected_reach h1, h2, ha, liquidate_no_update h2, h4⟩

end Perp.Scn
