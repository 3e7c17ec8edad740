import Verif.Exit
import Verif.WitnessM

/-!
# Concrete cases for C67
-/

namespace Perp.Scn

/-- The state after one call of a given caller. -/
def stepAs (cl : Caller) (s : State) (op : Op) : State :=
  match step env cl s op with
  | .ok r => r.1
  | .error _ => s

theorem stepAs_ok {cl : Caller} {s : State} {op : Op}
    (h : (match step env cl s op with | .ok _ => true | .error _ => false) = true) :
    ∃ o, step env cl s op = Except.ok (stepAs cl s op, o) := by
  unfold stepAs
  split at h
  · rename_i r hr
    rw [hr]; exact ⟨r.2, rfl⟩
  · cases h

/-- A given caller may call the method. -/
def openFor (cl : Caller) (s : State) (op : Op) : Bool :=
  (match op.role with | some r => (s.roles r).sat cl.pf | none => true) &&
  (match op.ownerRule s with | some r => r.sat cl.pf | none => true) && decide (1 ≤ s.authority)

theorem permittedFor {cl : Caller} {s : State} {op : Op} (h : openFor cl s op = true) : Permitted cl s op := by
  unfold openFor at h
  rw [Bool.and_eq_true, Bool.and_eq_true, decide_eq_true_eq] at h
  obtain ⟨⟨h1, h2⟩, h3⟩ := h
  refine ⟨fun r hr => ?_, fun r hr => ?_, fun _ => h3⟩
  · rw [hr] at h1; exact h1
  · rw [hr] at h2; exact h2

/-- The account has no positions and no debt, and the given caller satisfies none of its rules. -/
def resting (acc : Account) (k : Nat) : Bool :=
  decide (acc.positions.keys = [] ∧ 0 ≤ acc.vb) &&
    !(acc.rule .l1).sat (only k).pf && !(acc.rule .l2).sat (only k).pf && !(acc.rule .l3).sat (only k).pf

theorem resting_spec {acc : Account} {k : Nat} (h : resting acc k = true) : acc.AtRest ∧ acc.Stranger (only k) := by
  unfold resting at h
  simp only [Bool.and_eq_true, decide_eq_true_eq, Bool.not_eq_true'] at h
  obtain ⟨⟨⟨⟨h1, h2⟩, h3⟩, h4⟩, h5⟩ := h
  refine ⟨⟨fun p => ?_, h2⟩, fun l => by cases l <;> assumption⟩
  cases hg : acc.positions.get p with
  | none => rfl
  | some x =>
    have := AMap.mem_keys.mpr ⟨x, hg⟩
    rw [h1] at this; cases this

/-- The holder of account 100 asks for 4000 base tokens and all of resource 10, to be sent to 300. -/
def askOut : Op := .removeCollateralRequest none 1000 100 300 [(BASE, d 4000), (10, d 50000)]

/-- After the request, a stranger adds liquidity, the clock moves, and the stranger sends new prices: the price of resource 10's
pair collapses. -/
def asked1 : State := stepAs (only 11) ready askOut
def asked2 : State := stepAs (only 99) asked1 (.addLiquidity ⟨BASE, d 500⟩)
def asked3 : State := stepAs (only 99) asked2 (.tick 1040)
def asked4 : State := stepAs (only 99) asked3 (.updatePairs [1, 2] (some (prices 1040 (d 90000) (d 1) (d 1 2))))

theorem asked_steps : (∃ o, step env (only 11) ready askOut = Except.ok (asked1, o)) ∧
    (∃ o, step env (only 99) asked1 (.addLiquidity ⟨BASE, d 500⟩) = Except.ok (asked2, o)) ∧
    (∃ o, step env (only 99) asked2 (.tick 1040) = Except.ok (asked3, o)) ∧
    (∃ o, step env (only 99) asked3 (.updatePairs [1, 2] (some (prices 1040 (d 90000) (d 1) (d 1 2)))) = Except.ok (asked4, o)) :=
  ⟨stepAs_ok (by decide +kernel), stepAs_ok (by decide +kernel), stepAs_ok (by decide +kernel), stepAs_ok (by decide +kernel)⟩

theorem asked1_reach : Reach env asked1 := by obtain ⟨o, h⟩ := asked_steps.1; exact ready_reach.step h

/-- `c67_safe`: nobody liquidates account 100, deleverages it or sells its collateral, even after the collapse. -/
example (cl : Caller) (op : Op) (hop : (∃ b u, op = .liquidate 100 b u) ∨ (∃ p u, op = .autoDeleverage 100 p u) ∨
    ∃ r b u, op = .swapDebt 100 r b u) : ∀ x, step env cl asked1 op ≠ Except.ok x := by
  obtain ⟨acc, ha, h⟩ := tested (s := asked1) (a := 100) (P := fun acc => resting acc 99 = true) (by decide +kernel)
  exact c67_safe asked1_reach ha (resting_spec h).1 op hop

/-- The stranger's calls are such as `c67_untouched` speaks of. -/
theorem asked_strangers : Strangers env 100 asked1 asked4 := by
  obtain ⟨-, ⟨o2, h2⟩, ⟨o3, h3⟩, ⟨o4, h4⟩⟩ := asked_steps
  obtain ⟨acc, ha, h⟩ := tested (s := asked1) (a := 100) (P := fun acc => resting acc 99 = true) (by decide +kernel)
  obtain ⟨hr, hc⟩ := resting_spec h
  have m0 : Strangers env 100 asked1 asked1 := .refl
  have key : ∀ s', Strangers env 100 asked1 s' → ∀ acc', s'.accounts.get 100 = some acc' → acc'.Stranger (only 99) := by
    intro s' hm acc' ha'
    rw [(c67_untouched asked1_reach ha hr hm).2] at ha'; cases ha'
    exact hc
  have m1 := m0.step (fun acc' ha' => ⟨key _ m0 acc' ha', Or.inr (fun i u => by simp)⟩) h2
  have m2 := m1.step (fun acc' ha' => ⟨key _ m1 acc' ha', Or.inr (fun i u => by simp)⟩) h3
  exact m2.step (fun acc' ha' => ⟨key _ m2 acc' ha', Or.inr (fun i u => by simp)⟩) h4

/-- `c67_untouched`: account 100 is as before. -/
example : ∃ acc, asked1.accounts.get 100 = some acc ∧ asked4.accounts.get 100 = some acc ∧ acc.active.Nonempty := by
  obtain ⟨acc, ha, h, h'⟩ := tested (s := asked1) (a := 100) (P := fun acc => resting acc 99 = true ∧ acc.active.Nonempty)
    (by decide +kernel)
  exact ⟨acc, ha, (c67_untouched asked1_reach ha (resting_spec h).1 asked_strangers).2, h'⟩

/-- `c67_exit`: and when a stranger executes the request, the tokens are paid. -/
example : ∃ s3 o, step env (only 99) asked4 (.processRequest 100 0 none) = Except.ok (s3, o) ∧ (∀ x ∈ o.paid, x.1 = 300) ∧
    totalOf (o.paid.map Prod.snd) BASE = d 4000 ∧ totalOf (o.paid.map Prod.snd) 10 = d 50000 := by
  obtain ⟨acc, ha, h, hl, hact, hvb, hbal⟩ := tested (s := ready) (a := 100) (P := fun acc => resting acc 99 = true ∧
    acc.level2.sat (only 11).pf = true ∧ acc.active.card + 1 ≤ ready.config.exchange.decompress.activeRequestsMax ∧
    d 4000 ≤ acc.vb ∧ acc.collateralBalances.get 10 = some (d 50000)) (by decide +kernel)
  obtain ⟨s1, o1, i, h1, h2, h3⟩ := c67_exit (claims := [(BASE, d 4000), (10, d 50000)]) (expiry := 1000) (target := 300) ready_reach ha (resting_spec h).1
    (permittedFor (cl := only 11) (by decide +kernel)) hl (by decide) hact (by unfold TimeOverflow; decide +kernel) (by decide +kernel) hvb
    (by
      intro x hx hb
      simp only [List.mem_cons, List.not_mem_nil, or_false] at hx
      rcases hx with rfl | rfl
      · exact absurd rfl hb
      · exact ⟨_, hbal, by decide +kernel⟩) rfl
  obtain ⟨o, e⟩ := asked_steps.1
  have e' := h1.symm.trans e
  cases e'
  have hi : o1.indexes = [some 0] := by
    have : (match step env (only 11) ready askOut with | .ok r => decide (r.2.indexes = [some 0]) | .error _ => false) = true := by
      decide +kernel
    rw [e] at this
    simpa using this
  rw [hi] at h2
  cases h2
  have hno : (match step env (only 99) asked4 (.processRequest 100 0 none) with
      | .ok _ => true | .error _ => false) = true := by decide +kernel
  rcases h3 asked_strangers (by decide +kernel) (by decide +kernel) (whole _) (permittedFor (cl := only 99) (by decide +kernel))
    (pricesReady (by decide +kernel)) (by decide +kernel) with ⟨s3, o, h4, h5, h6⟩ | h4
  · refine ⟨s3, o, h4, h5, ?_, ?_⟩
    · rw [h6]; decide +kernel
    · rw [h6]; decide +kernel
  · rw [h4] at hno; cases hno

/-- Only account 100's order is filled: it is long 2 and so is the market. -/
def lone : State := after ordered [.tick 1030, .processRequest 100 0 none]

theorem lone_reach : Reach env lone := after_reach ordered_reach _

/-- The holder asks to close it, and others' liquidity and prices arrive. -/
def closing1 : State := stepAs (only 11) lone (.marginOrderRequest none 100 (order 1 (d (-5)) true) [] [] STATUS_ACTIVE)
def closing2 : State := stepAs (only 99) closing1 (.tick 1040)
def closing3 : State := stepAs (only 99) closing2 (.updatePairs [1, 2] (some (prices 1040 (d 20000) (d 1) (d 1 2))))

theorem closing_steps :
    (∃ o, step env (only 11) lone (.marginOrderRequest none 100 (order 1 (d (-5)) true) [] [] STATUS_ACTIVE) = Except.ok (closing1, o)) ∧
    (∃ o, step env (only 99) closing1 (.tick 1040) = Except.ok (closing2, o)) ∧
    (∃ o, step env (only 99) closing2 (.updatePairs [1, 2] (some (prices 1040 (d 20000) (d 1) (d 1 2)))) = Except.ok (closing3, o)) :=
  ⟨stepAs_ok (by decide +kernel), stepAs_ok (by decide +kernel), stepAs_ok (by decide +kernel)⟩

theorem closing_elsewhere : Elsewhere env 100 closing1 closing3 := by
  obtain ⟨-, ⟨o2, h2⟩, ⟨o3, h3⟩⟩ := closing_steps
  exact (Elsewhere.refl.step (by simp [Op.account]) h2).step (by simp [Op.account]) h3

/-- `c67_close`: the position of account 100 is closed by a stranger's call, although it is worth far less than nothing. -/
example : ∃ s3 o acc3, step env (only 99) closing3 (.processRequest 100 3 none) = Except.ok (s3, o) ∧
    s3.accounts.get 100 = some acc3 ∧ acc3.size 1 = 0 := by
  obtain ⟨acc, ha, hl, hact, hsz, hkeys, hskew⟩ := tested (s := lone) (a := 100) (P := fun acc =>
    acc.level3.sat (only 11).pf = true ∧ acc.active.card + 1 ≤ lone.config.exchange.decompress.activeRequestsMax ∧
    acc.size 1 = d 2 ∧ acc.positions.keys = [1] ∧
    |mulT (closing3.netOi 1 - acc.size 1) (closing3.market.price 1)| < |mulT (closing3.netOi 1) (closing3.market.price 1)|)
    (by decide +kernel)
  obtain ⟨s1, o1, i, h1, h2, h3⟩ := c67_close (q := order 1 (d (-5)) true) lone_reach ha rfl rfl rfl
    (by left; show 0 < acc.size 1 ∧ _ ≤ -acc.size 1; rw [hsz]; decide +kernel) (by decide +kernel) (by decide +kernel)
    (permittedFor (cl := only 11) (by decide +kernel)) hl hact (by unfold TimeOverflow; decide +kernel)
  obtain ⟨o, e⟩ := closing_steps.1
  have e' := h1.symm.trans e
  cases e'
  have hi : o1.indexes = [some 3] := by
    have : (match step env (only 11) lone (.marginOrderRequest none 100 (order 1 (d (-5)) true) [] [] STATUS_ACTIVE) with
      | .ok r => decide (r.2.indexes = [some 3]) | .error _ => false) = true := by decide +kernel
    rw [e] at this
    simpa using this
  rw [hi] at h2
  cases h2
  have hno : (match step env (only 99) closing3 (.processRequest 100 3 none) with
      | .ok _ => true | .error _ => false) = true := by decide +kernel
  rcases h3 closing_elsewhere (by decide +kernel) (by decide +kernel) (whole _) (permittedFor (cl := only 99) (by decide +kernel))
    (by rw [hkeys]; exact pricesReady (by decide +kernel)) hskew with h4 | h4
  · exact h4
  · rw [h4] at hno; cases hno

end Perp.Scn
