import Verif.Guarded
import Verif.WitnessC
import Verif.Executes

/-!
# Concrete cases for the theorems of `Guarded` (C14, C40)
-/

namespace Perp.Scn

/-- `c40_methods`, `c40_configuration`: the owner removes a collateral; a caller with another proof cannot. -/
example : ∃ s' o, step env anyone open_ (.removeCollateralConfig 10) = Except.ok (s', o) ∧ s'.config ≠ open_.config ∧
    anyone.holds open_ .owner ∧ ¬ (only 77).holds open_ .owner := by
  obtain ⟨s', o, h, h1⟩ := stepped (s := open_) (op := .removeCollateralConfig 10)
    (P := fun s' _ => (s'.config.collaterals.get 10).isNone ∧ (open_.config.collaterals.get 10).isSome) (by decide +kernel)
  have hc : s'.config ≠ open_.config := by
    intro e; rw [e] at h1
    obtain ⟨h1, h2⟩ := h1
    cases hx : open_.config.collaterals.get 10 <;> rw [hx] at h1 h2 <;> simp at h1 h2
  exact ⟨s', o, h, hc, c40_configuration h hc, by unfold Caller.holds; decide +kernel⟩

/-- `c40_methods`: two methods with different roles. -/
example : Restricted (.cancelRequests none 100 [1]) .cancelRequestUser ∧ Restricted (.processRequest 100 3 none) .keeperProcess :=
  ⟨.cancel_requests, .process_request⟩

/-- `c40_owners`, `c14_keys`: the oracle's owner registers a key, removes one. -/
example : (∃ s' o, step env anyone open_ (.oracleAddKey 5 99) = Except.ok (s', o) ∧
      s'.oracle.keys.get 5 ≠ open_.oracle.keys.get 5 ∧ s'.oracle.keys.get 5 = some 99 ∧ open_.oracleOwner.sat anyone.pf = true) ∧
    ∀ s' o, step env (only 77) open_ (.oracleAddKey 5 99) ≠ Except.ok (s', o) := by
  obtain ⟨s', o, h, h1, h2⟩ := stepped (s := open_) (op := .oracleAddKey 5 99)
    (P := fun s' _ => s'.oracle.keys.get 5 ≠ open_.oracle.keys.get 5 ∧ s'.oracle.keys.get 5 = some 99) (by decide +kernel)
  exact ⟨⟨s', o, h, h1, h2, (c14_keys h h1).1⟩, fun s' o h => absurd (c40_owners h .add_public_key) (by decide +kernel)⟩

/-- `c40_assignment`: the owner assigns a user role, and the role of a keeper. -/
example : (∃ s' o, step env anyone open_ (.setRole .liquidityUser .denyAll) = Except.ok (s', o) ∧
      s'.roles .liquidityUser ≠ open_.roles .liquidityUser ∧ Role.liquidityUser ∈ userRoles) ∧
    ∃ s' o, step env anyone open_ (.setRole .keeperProcess .denyAll) = Except.ok (s', o) ∧
      s'.roles .keeperProcess ≠ open_.roles .keeperProcess ∧ anyone.holds open_ .owner ∧ Role.keeperProcess ∉ userRoles := by
  obtain ⟨s1, o1, h1, e1⟩ := stepped (s := open_) (op := .setRole .liquidityUser .denyAll)
    (P := fun s' _ => s'.roles .liquidityUser ≠ open_.roles .liquidityUser) (by decide +kernel)
  obtain ⟨s2, o2, h2, e2⟩ := stepped (s := open_) (op := .setRole .keeperProcess .denyAll)
    (P := fun s' _ => s'.roles .keeperProcess ≠ open_.roles .keeperProcess) (by decide +kernel)
  refine ⟨⟨s1, o1, h1, e1, by decide⟩, s2, o2, h2, e2, ?_, by decide⟩
  rcases (c40_assignment h2 e2).2 with h | ⟨h, -⟩
  · exact h
  · exact absurd h (by decide)

/-- `c40_authority`, `c40_component_owners`: the owner withdraws the authority. -/
example : ∃ s' o, step env anyone open_ .withdrawAuthority = Except.ok (s', o) ∧ s'.authority ≠ open_.authority ∧
    anyone.holds open_ .owner ∧ s'.oracleOwner = open_.oracleOwner := by
  obtain ⟨s', o, h, h1⟩ := stepped (s := open_) (op := .withdrawAuthority)
    (P := fun s' _ => s'.authority ≠ open_.authority) (by decide +kernel)
  exact ⟨s', o, h, h1, c40_authority h h1, (c40_component_owners h).1⟩

/-- `c40_account_created`: a third account. -/
example : ∃ s' o acc, step env anyone open_ (.createAccount 300 none (.prot (.proof 13)) [] none) = Except.ok (s', o) ∧
    open_.accounts.get 300 = none ∧ s'.accounts.get 300 = some acc ∧ anyone.holds open_ .accountCreationUser := by
  obtain ⟨s', o, h, h1⟩ := stepped (s := open_) (op := .createAccount 300 none (.prot (.proof 13)) [] none)
    (P := fun s' _ => (s'.accounts.get 300).isSome) (by decide +kernel)
  obtain ⟨acc, ha⟩ := Option.isSome_iff_exists.mp h1
  have hn : open_.accounts.get 300 = none := by
    rw [← Option.isNone_iff_eq_none]; decide +kernel
  exact ⟨s', o, acc, h, hn, ha, c40_account_created h hn ha⟩

/-- `c40_position_moved`, `c40_book_moved`: the first order of account 100 is executed by a keeper. -/
example : ∃ s' o acc acc', step env anyone leaving (.processRequest 100 3 none) = Except.ok (s', o) ∧
    leaving.accounts.get 100 = some acc ∧ s'.accounts.get 100 = some acc' ∧ acc'.positions.get 1 ≠ acc.positions.get 1 ∧
    (anyone.holds leaving .keeperProcess ∨ anyone.holds leaving .keeperLiquidate ∨ anyone.holds leaving .keeperAutoDeleverage) := by
  obtain ⟨s', o, h, h1, h2⟩ := stepped (s := leaving) (op := .processRequest 100 3 none)
    (P := fun s' _ => (leaving.accounts.get 100).isSome ∧
      (s'.accounts.get 100).map (fun x => (x.positions.get 1).map (·.amount)) ≠
        (leaving.accounts.get 100).map (fun x => (x.positions.get 1).map (·.amount))) (by decide +kernel)
  obtain ⟨acc, ha⟩ := Option.isSome_iff_exists.mp h1
  obtain ⟨acc', ha'⟩ := c49_never_removed h ha
  have hp : acc'.positions.get 1 ≠ acc.positions.get 1 := by
    intro e
    rw [ha, ha'] at h2
    simp [e] at h2
  exact ⟨s', o, acc, acc', h, ha, ha', hp, c40_position_moved leaving_reach h ha ha' hp⟩

/-- `c40_book_moved`: the same call moves the pool's side of the position. -/
example : ∃ s' o, step env anyone leaving (.processRequest 100 3 none) = Except.ok (s', o) ∧
    s'.pool.positions ≠ leaving.pool.positions := by
  obtain ⟨s', o, h, h1⟩ := stepped (s := leaving) (op := .processRequest 100 3 none)
    (P := fun s' _ => (s'.pool.positions.get 1).map (·.oiLong) ≠ (leaving.pool.positions.get 1).map (·.oiLong)) (by decide +kernel)
  exact ⟨s', o, h, fun e => h1 (by rw [e])⟩

/-- `c40_lp_supply`: liquidity is added. -/
example : ∃ s' o, step env anyone open_ (.addLiquidity ⟨BASE, d 100⟩) = Except.ok (s', o) ∧ s'.lpSupply ≠ open_.lpSupply ∧
    anyone.holds open_ .liquidityUser := by
  obtain ⟨s', o, h, h1⟩ := stepped (s := open_) (op := .addLiquidity ⟨BASE, d 100⟩)
    (P := fun s' _ => s'.lpSupply ≠ open_.lpSupply) (by decide +kernel)
  exact ⟨s', o, h, h1, c40_lp_supply h h1⟩

/-- `c40_referral_issued`: a referral is minted. -/
example : ∃ s' o d', step env anyone open_ (.mintReferral 9 (d 5 2) (d 5 2) 3) = Except.ok (s', o) ∧
    open_.referrals.get 9 = none ∧ s'.referrals.get 9 = some d' ∧ anyone.holds open_ .referralAdmin := by
  obtain ⟨s', o, h, h1⟩ := stepped (s := open_) (op := .mintReferral 9 (d 5 2) (d 5 2) 3)
    (P := fun s' _ => (s'.referrals.get 9).isSome) (by decide +kernel)
  obtain ⟨d', hd⟩ := Option.isSome_iff_exists.mp h1
  have hn : open_.referrals.get 9 = none := by
    rw [← Option.isNone_iff_eq_none]; decide +kernel
  exact ⟨s', o, d', h, hn, hd, c40_referral_issued h hn hd⟩

/-- `c40_delegator`: the owner of the fee delegator changes the limit and takes tokens out; a user locks a fee. -/
example : (∃ s' o, step env anyone oathed (.delegatorMaxLock (d 7)) = Except.ok (s', o) ∧
      s'.delegator.maxLock ≠ oathed.delegator.maxLock ∧ oathed.delegatorOwner.sat anyone.pf = true) ∧
    (∃ s' o, step env anyone oathed (.delegatorWithdraw (d 2)) = Except.ok (s', o) ∧
      s'.delegator.vault ≠ oathed.delegator.vault ∧ oathed.delegatorOwner.sat anyone.pf = true) ∧
    ∃ s' o, step env (only 77) oathed (.lockFee (d 1)) = Except.ok (s', o) ∧ s'.delegator.vault ≠ oathed.delegator.vault ∧
      s'.delegator.vault = oathed.delegator.vault - d 1 := by
  obtain ⟨s1, o1, h1, e1⟩ := stepped (s := oathed) (op := .delegatorMaxLock (d 7))
    (P := fun s' _ => s'.delegator.maxLock ≠ oathed.delegator.maxLock) (by decide +kernel)
  obtain ⟨s2, o2, h2, e2⟩ := stepped (s := oathed) (op := .delegatorWithdraw (d 2))
    (P := fun s' _ => s'.delegator.vault ≠ oathed.delegator.vault) (by decide +kernel)
  obtain ⟨s3, o3, h3, e3⟩ : ∃ s' o, step env (only 77) oathed (.lockFee (d 1)) = Except.ok (s', o) ∧
      s'.delegator.vault ≠ oathed.delegator.vault := by
    have hb : (match step env (only 77) oathed (.lockFee (d 1)) with
        | .ok r => decide (r.1.delegator.vault ≠ oathed.delegator.vault) | .error _ => false) = true := by decide +kernel
    split at hb
    · rename_i r hr
      exact ⟨r.1, r.2, hr, of_decide_eq_true hb⟩
    · cases hb
  refine ⟨⟨s1, o1, h1, e1, (c40_delegator h1).1 (.inl e1)⟩, ⟨s2, o2, h2, e2, ?_⟩, s3, o3, h3, e3, ?_⟩
  · rcases (c40_delegator h2).2 e2 with h | ⟨x, h, -⟩
    · exact h
    · cases h
  · rcases (c40_delegator h3).2 e3 with h | ⟨x, h, he⟩
    · exact absurd h (by decide +kernel)
    · cases h; exact he

end Perp.Scn
