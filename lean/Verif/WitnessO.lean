import Verif.Deploy
import Verif.WitnessN

/-!
# Concrete cases for C68
-/

namespace Perp.Scn

/-- A deployment: the exchange belongs to the holder of proof 1, the oracle to that of proof 2, the fee delegator to that of
proof 3. -/
def birth : Birth where
  owner := .prot (.proof 1)
  oracleOwner := .prot (.proof 2)
  delegatorOwner := .prot (.proof 3)
  keys := ⟨[(0, 77)], by decide⟩
  token := ⟨AUTHORITY, d 1⟩
  now := 1000

/-- The deployed system. -/
def born : State :=
  match deploy birth with
  | .ok s => s
  | .error _ => genesis

theorem born_ok : deploy birth = Except.ok born := by
  obtain ⟨s, hs⟩ := (c68_deploy birth).1.mpr (by decide)
  unfold born
  rw [hs]

/-- Handed anything but authority tokens, the deployment fails. -/
example : ∀ s, deploy { birth with token := ⟨XRD, d 1⟩ } ≠ Except.ok s := fun s h =>
  absurd ((c68_deploy { birth with token := ⟨XRD, d 1⟩ }).1.mp ⟨s, h⟩) (by decide)

/-- `c68_deploy` applies: the histories of the other properties start here. -/
example : Genesis born ∧ born.Shows (Settings.atBirth birth) := by
  obtain ⟨h1, -, -, -, -, h2⟩ := (c68_deploy birth).2 born born_ok (by decide)
  exact ⟨h1, h2⟩

/-- Calls by given callers, one after the other. -/
def runAll (s : State) : List (Nat × Op) → Option State
  | [] => some s
  | (k, op) :: l =>
      match step env (only k) s op with
      | .ok r => runAll r.1 l
      | .error _ => none

theorem runAll_ran {s : State} : ∀ {l : List (Nat × Op)} {s1 s2 : State} {l0 : List (Caller × Op)}, Ran env s l0 s1 →
    runAll s1 l = some s2 → Ran env s (l0 ++ l.map (fun x => (only x.1, x.2))) s2 := by
  intro l
  induction l with
  | nil => intro s1 s2 l0 h e; cases e; simpa using h
  | cons x l ih =>
    intro s1 s2 l0 h e
    obtain ⟨k, op⟩ := x
    simp only [runAll] at e
    split at e
    · rename_i r hr
      have := ih (h.snoc hr) e
      simpa using this
    · cases e

/-- The owner lists pairs 1 and 2 (pair 1 twice, the second time with lower fees) and resource 10 as collateral, names holder 5 user
admin; the user admin restricts account creation to holder 6; the oracle's owner replaces the key, the fee delegator's owner
doubles the price multiplier; holder 6 opens account 100 with resource 10. -/
def firstDays : List (Nat × Op) :=
  [ (1, .updatePairConfigs [pairCfg 1, pairCfg 2, { pairCfg 1 with fee0 := d 5 4 }]),
    (1, .updateCollateralConfigs [(10, collCfg)]),
    (1, .setRole .userAdmin (.prot (.proof 5))),
    (5, .setRole .accountCreationUser (.prot (.proof 6))),
    (2, .oracleRemoveKey 0),
    (2, .oracleAddKey 0 78),
    (3, .delegatorMultiplier (d 3)),
    (6, .createAccount 100 none (.prot (.proof 11)) [⟨BASE, d 10000⟩, ⟨10, d 50000⟩] none),
    (11, .marginOrderRequest none 100 (order 1 (d 1)) [] [] STATUS_ACTIVE) ]

def settled : State := (runAll born firstDays).getD born

theorem settled_ran : Ran env born (firstDays.map (fun x => (only x.1, x.2))) settled := by
  have : (runAll born firstDays).isSome = true := by decide +kernel
  obtain ⟨s, hs⟩ := Option.isSome_iff_exists.mp this
  have e : settled = s := by unfold settled; rw [hs]; rfl
  rw [e]
  simpa using runAll_ran (Ran.nil) hs

/-- `c68_settings`: the lower fee of pair 1 is in force, and everything else as written. -/
example : settled.Shows ((Settings.atBirth birth).after (firstDays.map (fun x => (only x.1, x.2)))) ∧
    (((Settings.atBirth birth).after (firstDays.map (fun x => (only x.1, x.2)))).pairs 1).map PairConfig.fee0 = some (d 5 4) ∧
    settled.oracle.keys.get 0 = some 78 ∧ settled.delegator.priceMultiplier = d 3 ∧
    settled.roles .accountCreationUser = .prot (.proof 6) := by
  have h := c68_settings born_ok (by decide) settled_ran
  refine ⟨h, by decide +kernel, ?_, ?_, ?_⟩
  · rw [h.keys]; decide +kernel
  · rw [h.multiplier]; decide +kernel
  · rw [h.roles]; rfl

/-- `c68_writers`: holder 5 could restrict account creation because the owner had named him user admin. -/
example : ((Settings.atBirth birth).after ((firstDays.take 3).map (fun x => (only x.1, x.2)))).mayWrite birth (only 5)
    (.setRole .accountCreationUser (.prot (.proof 6))) :=
  c68_writers (l := (firstDays.take 3).map (fun x => (only x.1, x.2))) (l' := (firstDays.drop 4).map (fun x => (only x.1, x.2)))
    born_ok (by decide) settled_ran

/-- `c68_listed`, `c68_accepted`: account 100 has an order for pair 1 and holds resource 10; both had been listed by the owner. -/
example : (∃ l1 cl cs l2, firstDays.map (fun x => (only x.1, x.2)) = l1 ++ (cl, Op.updatePairConfigs cs) :: l2 ∧
      birth.owner.sat cl.pf = true ∧ ∃ w ∈ cs, w.pairId = 1) ∧
    ∃ l1 cl cs l2, firstDays.map (fun x => (only x.1, x.2)) = l1 ++ (cl, Op.updateCollateralConfigs cs) :: l2 ∧
      birth.owner.sat cl.pf = true ∧ ∃ w, (10, w) ∈ cs := by
  obtain ⟨acc, ha, hr, hb⟩ := tested (s := settled) (a := 100) (P := fun acc =>
    (∃ r ∈ acc.requests[0]?, r.request.pair? = some 1) ∧ acc.collateralBalances.get 10 = some (d 50000)) (by decide +kernel)
  obtain ⟨r, hr, hp⟩ := hr
  obtain ⟨l1, cl, cs, l2, w, x, h1, h2, h3, h4, -⟩ := c68_listed born_ok (by decide) settled_ran ha (Or.inr ⟨0, r, hr, hp⟩)
  obtain ⟨m1, cl', cs', m2, w', g1, g2, g3⟩ := c68_accepted born_ok (by decide) settled_ran ha hb
  exact ⟨⟨l1, cl, cs, l2, h1, h2, w, h3, h4⟩, m1, cl', cs', m2, g1, g2, w', g3⟩

end Perp.Scn
