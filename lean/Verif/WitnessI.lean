import Verif.Blind
import Verif.Executes

/-!
# The theorems of C63 apply to concrete calls

In `leaving` account 100 has an order and a withdrawal due.  `rival` is the same ledger after account 200 has asked for
two more orders and cancelled one.
-/

namespace Perp.Scn

/-- The same ledger after account 200 has placed more orders. -/
def rival : State := after leaving
  [ .marginOrderRequest none 200 (order 1 (d (-7))) [] [] STATUS_ACTIVE,
    .marginOrderRequest none 200 (order 2 (d 3)) [] [] STATUS_DORMANT,
    .cancelRequests none 200 [1] ]

theorem rival_reach : Reach env rival := after_reach leaving_reach _

theorem private_put {s t : State} {a : Addr} {op : Op} {o : Out} (h : Reach env s) (hp : op.private a)
    (hs : step env anyone s op = Except.ok (t, o)) : Alike (fun b => b ≠ a) s t := by
  obtain ⟨acc, rfl, -⟩ := c63_private h h ⟨rfl, rfl, rfl, rfl, rfl⟩ hp hs
  exact ⟨rfl, fun b hb => AMap.get_set_ne _ _ (Ne.symm hb)⟩

/-- `c63_call`, `c63_refusal`, `c63_transaction`: the due order of account 100 executes in `leaving` and after account 200 has
placed an order of its own, while the order 200 placed is there in only one of them. -/
example : ∃ t, Alike (fun b => b ≠ 200) leaving t ∧ Reach env t ∧
    (t.accounts.get 200).map (fun x => x.requests.length) ≠ (leaving.accounts.get 200).map (fun x => x.requests.length) ∧
    (Op.processRequest 100 3 none).within (fun b => b ≠ 200) ∧
    ∃ s' o, step env anyone leaving (.processRequest 100 3 none) = Except.ok (s', o) ∧ s'.netOi 1 = 0 := by
  obtain ⟨t, o, h, hl⟩ := stepped (s := leaving) (op := .marginOrderRequest none 200 (order 1 (d (-7))) [] [] STATUS_ACTIVE)
    (P := fun t _ => (t.accounts.get 200).map (fun x => x.requests.length) ≠
      (leaving.accounts.get 200).map (fun x => x.requests.length)) (by decide +kernel)
  refine ⟨t, private_put leaving_reach (a := 200) (op := .marginOrderRequest none 200 _ _ _ _) rfl h, leaving_reach.step h, hl, ?_, stepped (by decide +kernel)⟩
  rintro a ha rfl
  cases ha

/-- `c63_private`, `c63_private_refusal`: the ledgers `leaving` and `rival` show account 100 the same clock, settings and roles;
its next order succeeds, and one for an unknown pair is refused. -/
example : (∃ s' o, step env anyone leaving (.marginOrderRequest none 100 (order 2 (d 3)) [] [] STATUS_ACTIVE) = Except.ok (s', o) ∧
      o.indexes = [some 5]) ∧
    (∃ s' o, step env anyone rival (.marginOrderRequest none 100 (order 2 (d 3)) [] [] STATUS_ACTIVE) = Except.ok (s', o) ∧
      o.indexes = [some 5]) ∧
    step env anyone leaving (.marginOrderRequest none 100 (order 9 (d 3)) [] [] STATUS_ACTIVE) = Except.error .missingPairConfig :=
  ⟨stepped (by decide +kernel), stepped (by decide +kernel), failed (by decide +kernel)⟩

/-- `c63_commute`: account 200 cancels or orders, a keeper executes the order of account 100. -/
example : ∃ t t' o o' u u',
    step env anyone leaving (.marginOrderRequest none 200 (order 1 (d (-7))) [] [] STATUS_ACTIVE) = Except.ok (t, o) ∧
    step env anyone leaving (.processRequest 100 3 none) = Except.ok (t', o') ∧
    step env anyone t (.processRequest 100 3 none) = Except.ok (u, o') ∧
    step env anyone t' (.marginOrderRequest none 200 (order 1 (d (-7))) [] [] STATUS_ACTIVE) = Except.ok (u', o) ∧
    t'.pool.vb ≠ leaving.pool.vb ∧ ∀ b, u'.accounts.get b = u.accounts.get b := by
  obtain ⟨t, o, h, -⟩ := stepped (s := leaving) (op := .marginOrderRequest none 200 (order 1 (d (-7))) [] [] STATUS_ACTIVE)
    (P := fun _ _ => True) (by decide +kernel)
  obtain ⟨t', o', h', e3⟩ := stepped (s := leaving) (op := .processRequest 100 3 none)
    (P := fun t' _ => t'.pool.vb ≠ leaving.pool.vb) (by decide +kernel)
  obtain ⟨u, u', h1, h2, -, h4⟩ := c63_commute (a := 200) (op := .marginOrderRequest none 200 _ _ _ _) leaving_reach rfl
    (by intro e; cases e) (id : ¬ (Op.processRequest 100 3 none).governs) h h'
  exact ⟨t, t', o, o', u, u', h, h', h1, h2, e3, h4⟩

/-- `c63_unobstructed`: meanwhile a keeper executes the order of account 100. -/
example : ∃ t', Meanwhile env 200 leaving t' ∧ t' ≠ leaving := by
  obtain ⟨t', o', h', e3⟩ := stepped (s := leaving) (op := .processRequest 100 3 none)
    (P := fun t' _ => t'.pool.vb ≠ leaving.pool.vb) (by decide +kernel)
  exact ⟨t', .step .refl (id : ¬ (Op.processRequest 100 3 none).governs) (by intro e; cases e) h', fun e => e3 (by rw [e])⟩

end Perp.Scn
