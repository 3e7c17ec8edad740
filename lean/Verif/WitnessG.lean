import Verif.World
import Verif.Access

/-!
# Concrete histories for C61
-/

namespace Perp.Scn

/-- The world of the scenarios: all the authority in the exchange. -/
def wgenesis : World := ⟨genesis, 0, fun r => if r = .user then some .allowAll else none⟩

theorem wgenesis_ok : WGenesis wgenesis := ⟨genesis_ok, le_refl _, rfl⟩

/-- Somebody with every proof who also tries to show an authority token. -/
def wanyone : WCaller := { anyone with auth := true }

/-- Somebody with one proof only. -/
def wonly (p : Nat) : WCaller := { only p with auth := false }

/-- Calls one after the other, none of them the owner taking the authority out; a refused call
changes nothing. -/
def wrun (w : World) : List (WCaller × WCall) → World
  | [] => w
  | (cl, c) :: cs =>
    match c, wstep env cl w c with
    | .call .withdrawAuthority, _ => wrun w cs
    | _, .ok r => wrun r.1 cs
    | _, .error _ => wrun w cs

theorem wrun_sealed : ∀ {cs : List (WCaller × WCall)} {w0 w : World},
    Sealed env w0 w → Sealed env w0 (wrun w cs) := by
  intro cs
  induction cs with
  | nil => intro w0 w h; exact h
  | cons x cs ih =>
    intro w0 w h
    obtain ⟨cl, c⟩ := x
    unfold wrun
    split
    · exact ih h
    · rename_i r hne hr
      obtain ⟨w2, o⟩ := r
      exact ih (.step h hne hr)
    · exact ih h

/-- The scenario in the world, with everybody trying the protected methods in between: the owner makes
proof 77 the fee delegator's admin, who then lowers the fee that can be locked. -/
def attempts : List (WCaller × WCall) :=
  (setup ++ orders).map (fun op => (wanyone, .call op)) ++
  [ (wanyone, .direct (.distTreasury (d 5))),
    (wonly 11, .direct (.accountWithdraw 100 [(10, d 1)] .toZero)),
    (wonly 77, .assign .admin .allowAll),
    (wonly 1, .assign .admin (.prot (.proof 77))),
    (wonly 77, .call (.delegatorMaxLock (d 2))),
    (wonly 77, .call (.delegatorWithdraw (d 2))) ] ++
  fills.map (fun op => (wanyone, .call op))

def visited : World := wrun wgenesis attempts

theorem visited_sealed : Sealed env wgenesis visited := wrun_sealed .refl

/-- C61: the attempts left the books as the exchange made them, with both positions open, and the
delegated admin did change the setting. -/
example : visited.st.dist = open_.dist ∧ visited.st.pool.vb = open_.pool.vb ∧
    (visited.st.accounts.get 100).map (·.positions.entries) =
      (open_.accounts.get 100).map (·.positions.entries) ∧
    (open_.accounts.get 100).map (·.positions.entries.length) = some 1 ∧
    visited.st.delegator.maxLock = d 2 ∧ open_.delegator.maxLock = d 3 ∧
    visited.dRoles .admin = some (.prot (.proof 77)) := by decide +kernel

example : visited.outside = 0 ∧ Reach env visited.st ∧
    ∀ (cl : WCaller) (d : Direct), wstep env cl visited (.direct d) = Except.error .role :=
  c61_sealed wgenesis_ok rfl visited_sealed

/-- A refusal is not an accident of the arguments: with the authority outside, the same call goes
through. -/
def wtry (w : World) (cl : WCaller) (c : WCall) (P : World → Bool) : Bool :=
  match wstep env cl w c with
  | .ok r => P r.1
  | .error _ => false

theorem wtried {w : World} {cl : WCaller} {c : WCall} {P : World → Prop} [∀ w, Decidable (P w)]
    (h : wtry w cl c (fun w => decide (P w)) = true) :
    ∃ w' o, wstep env cl w c = Except.ok (w', o) ∧ P w' := by
  unfold wtry at h
  split at h
  · rename_i r hr
    exact ⟨r.1, r.2, hr, of_decide_eq_true h⟩
  · cases h

/-- The owner takes the authority out. -/
def unsealed : World :=
  match wstep env (wonly 1) visited (.call .withdrawAuthority) with
  | .ok r => r.1
  | .error _ => visited

theorem unsealed_step : ∃ o, wstep env (wonly 1) visited (.call .withdrawAuthority) = Except.ok (unsealed, o) := by
  obtain ⟨w, o, h, -⟩ := wtried (w := visited) (cl := wonly 1) (c := .call .withdrawAuthority)
    (P := fun _ => True) (by decide +kernel)
  refine ⟨o, ?_⟩
  unfold unsealed
  rw [h]

/-- C61, hypotheses of `c61_authority`: the owner moves one token out. -/
example : visited.outside = 0 ∧ unsealed.outside = ONE ∧ unsealed.st.authority = 0 := by decide +kernel

/-- C61: the condition on the authority is needed.  Once it is outside, whoever holds it can write
into the fee distributor and the books no longer balance. -/
example : ∃ w' o, wstep env { only 5 with auth := true } unsealed (.direct (.distTreasury (d 500))) =
      Except.ok (w', o) ∧
    w'.st.pool.vb + w'.st.accounts.sum (fun _ a => a.vb) + w'.st.dist.protocol + w'.st.dist.treasury
      + w'.st.referrals.sum (fun _ d => d.balance) + w'.st.delegator.vb ≠ w'.st.oathSupply := by
  exact wtried (P := fun w' => w'.st.pool.vb + w'.st.accounts.sum (fun _ a => a.vb) + w'.st.dist.protocol +
    w'.st.dist.treasury + w'.st.referrals.sum (fun _ d => d.balance) + w'.st.delegator.vb ≠ w'.st.oathSupply)
    (by decide +kernel)

/-- C61: nobody without the token gets through even then. -/
example (d : Direct) : wstep env (wonly 1) unsealed (.direct d) = Except.error .role :=
  c61_refused (.inl rfl)

/-- C61: an exchange without its authority refuses every user call, so taking it out also stops the
exchange. -/
example : wtry unsealed wanyone (.call (.addLiquidity ⟨BASE, d 1⟩)) (fun _ => true) = false ∧
    wtry visited wanyone (.call (.addLiquidity ⟨BASE, d 1⟩)) (fun _ => true) = true := by decide +kernel

/-- C61, `c61_delegator`: the delegated admin is let through, somebody else is not, and the admin
cannot withdraw. -/
example : wtry visited (wonly 77) (.call (.delegatorMultiplier (d 2))) (fun _ => true) = true ∧
    wtry visited (wonly 78) (.call (.delegatorMultiplier (d 2))) (fun _ => true) = false ∧
    wtry visited (wonly 77) (.call (.delegatorWithdraw 0)) (fun _ => true) = false ∧
    wtry visited (wonly 1) (.call (.delegatorWithdraw 0)) (fun _ => true) = true ∧
    wtry visited (wonly 78) (.call (.lockFee 0)) (fun _ => true) = true := by decide +kernel

end Perp.Scn
