import Verif.WitnessB
import Verif.FundingRate
import Verif.Oaths
import Verif.Validated
import Verif.DFloatProps

/-!
# Concrete cases for C37 to C46

Each example applies a theorem to the scenario of `Scenario.lean`: its hypotheses hold there.  (The examples for C47 are at
the end of `Lists.lean`.)
-/

namespace Perp.Scn

/-- `c37_registry_exact`: account 100 is listed at level 1 under the rule (proof 11), not under (proof 12). -/
example : 100 ∈ (permsOf open_.perms (.prot (.proof 11))).at .l1 ∧ 100 ∉ (permsOf open_.perms (.prot (.proof 12))).at .l1 := by
  obtain ⟨acc, ha, h1⟩ := tested (s := open_) (a := 100) (P := fun acc => acc.level1 = .prot (.proof 11)) (by decide +kernel)
  rw [c37_registry_exact open_reach, c37_registry_exact open_reach]
  refine ⟨⟨acc, ha, .inl h1.symm⟩, ?_⟩
  rintro ⟨acc', ha', h2⟩
  rw [ha] at ha'; cases ha'
  have : acc.rule .l1 = .prot (.proof 11) := h1
  rw [this] at h2
  rcases h2 with h2 | ⟨l, n, h2, -⟩ <;> cases h2

/-- The holder of proof 11 adds proof 30 to level 1 of account 100. -/
theorem addsKey : ∃ s' o acc, step env (only 11) open_ (.addAuthRule none 100 1 (.proof 30)) = Except.ok (s', o) ∧
    open_.accounts.get 100 = some acc ∧ acc.level1 = .prot (.proof 11) := by
  obtain ⟨acc, ha, h1⟩ := tested (s := open_) (a := 100) (P := fun acc => acc.level1 = .prot (.proof 11)) (by decide +kernel)
  obtain ⟨⟨s', o⟩, h⟩ := computed (x := step env (only 11) open_ (.addAuthRule none 100 1 (.proof 30))) (by decide +kernel)
  exact ⟨s', o, acc, h, ha, h1⟩

/-- `c38_add_auth_rule` and `c38_caller_keeps_level1`: afterwards either proof is enough, and the caller still has access. -/
example : ∃ s' o acc', step env (only 11) open_ (.addAuthRule none 100 1 (.proof 30)) = Except.ok (s', o) ∧
    s'.accounts.get 100 = some acc' ∧ acc'.level1.sat (only 30).pf = true ∧ acc'.level1.sat (only 12).pf = false ∧
    acc'.level1.sat (only 11).pf = true ∧ acc'.level2 = .prot (.proof 11) := by
  obtain ⟨s', o, acc, h, ha, h1⟩ := addsKey
  obtain ⟨acc', ha', h2, h3⟩ := c38_add_auth_rule (l := .l1) h ha (.inl rfl) h1
  obtain ⟨acc'', ha'', h4⟩ := c38_caller_keeps_level1 h ha h1
  rw [ha'] at ha''; cases ha''
  obtain ⟨acc0, ha0, h5⟩ := tested (s := open_) (a := 100) (P := fun acc => acc.level2 = .prot (.proof 11)) (by decide +kernel)
  rw [ha] at ha0; cases ha0
  have e : acc.rule .l1 = .prot (.proof 11) := h1
  refine ⟨s', o, acc', h, ha', ?_, ?_, h4, (h3 .l2 (by decide)).trans h5⟩
  · exact (h2 _).trans (by rw [e]; decide)
  · exact (h2 _).trans (by rw [e]; decide)

/-- `c38_recovery_key`: the first recovery key (proof 1000) gives access at level 1. -/
example : ∃ s' o acc', step env (only 11) open_ (.createRecoveryKey none 100) = Except.ok (s', o) ∧
    s'.accounts.get 100 = some acc' ∧ acc'.level1.sat (only 1000).pf = true := by
  obtain ⟨acc, ha, h1⟩ := tested (s := open_) (a := 100) (P := fun acc => acc.level1 = .prot (.proof 11)) (by decide +kernel)
  obtain ⟨⟨s', o⟩, h⟩ := computed (x := step env (only 11) open_ (.createRecoveryKey none 100)) (by decide +kernel)
  obtain ⟨acc', ha', h2, -⟩ := c38_recovery_key h ha h1
  exact ⟨s', o, acc', h, ha', (h2 _).trans (by rw [h1]; decide +kernel)⟩

/-- Account 100 after its level 1 has been opened to everyone. -/
def openRule : State := after open_ [.setLevelAuth none 100 .l1 .allowAll]

/-- `c38_open_rule_replaced`: adding a rule to an open level closes it to everyone else. -/
example : ∃ s' o acc', step env (only 5) openRule (.addAuthRule none 100 1 (.proof 30)) = Except.ok (s', o) ∧
    s'.accounts.get 100 = some acc' ∧ acc'.level1.sat (only 30).pf = true ∧ acc'.level1.sat (only 5).pf = false := by
  obtain ⟨acc, ha, h1⟩ := tested (s := openRule) (a := 100) (P := fun acc => acc.level1 = .allowAll) (by decide +kernel)
  obtain ⟨⟨s', o⟩, h⟩ := computed (x := step env (only 5) openRule (.addAuthRule none 100 1 (.proof 30))) (by decide +kernel)
  obtain ⟨acc', ha', h2⟩ := c38_open_rule_replaced h ha h1
  exact ⟨s', o, acc', h, ha', (h2 _).trans (by decide), (h2 _).trans (by decide)⟩

/-- The exchange after its authority has been withdrawn. -/
def frozen : State := after open_ [.withdrawAuthority]

theorem frozen_authority : frozen.authority = 0 := by decide +kernel

/-- `c39_withdraw` -/
example : ∃ s' o, step env anyone open_ .withdrawAuthority = Except.ok (s', o) ∧ 0 < open_.authority ∧ s'.authority = 0 := by
  obtain ⟨s', o, h, -⟩ := stepped (s := open_) (op := .withdrawAuthority) (P := fun _ _ => True) (by decide +kernel)
  exact ⟨s', o, h, by decide +kernel, c39_withdraw h⟩

/-- `c39_frozen`: without the authority a call that would otherwise go through is refused. -/
example : (step env anyone open_ (.addLiquidity ⟨BASE, d 100⟩)).toBool = true ∧
    ∀ s' o, step env anyone frozen (.addLiquidity ⟨BASE, d 100⟩) ≠ Except.ok (s', o) :=
  ⟨by decide +kernel, c39_frozen (by rw [frozen_authority]) rfl (by intro x; nofun) (by nofun) (by intro x; nofun)⟩

/-- `c39_stays_frozen`: whatever is called, as long as it is not the deposit of an authority. -/
example {s' : State} (hist : Relation.ReflTransGen
    (fun a b => ∃ cl op o, (∀ x, op ≠ .depositAuthority x) ∧ step env cl a op = Except.ok (b, o)) frozen s') : s'.authority = 0 :=
  c39_stays_frozen (P := fun op => ∀ x, op ≠ .depositAuthority x) (fun x h => h x rfl) frozen_authority hist

/-- `c39_only_authority_moves`: the deposit of an authority goes through and changes nothing else. -/
example : ∃ s' o, step env anyone frozen (.depositAuthority (d 1)) = Except.ok (s', o) ∧ s'.authority ≠ frozen.authority ∧
    s' = { frozen with authority := s'.authority } := by
  obtain ⟨s', o, h, h1⟩ := stepped (s := frozen) (op := .depositAuthority (d 1)) (P := fun s' _ => s'.authority ≠ frozen.authority)
    (by decide +kernel)
  exact ⟨s', o, h, h1, c39_only_authority_moves (by rw [frozen_authority]) rfl h⟩

/-- `c40_role_required` and `c40_owner_required`: the calls go through for a caller with every proof, and so that caller meets
the rule; for a caller who does not, neither goes through. -/
example : ∃ s1 o1 s2 o2, step env anyone open_ (.removeCollateralConfig 10) = Except.ok (s1, o1) ∧ (open_.roles .owner).sat anyone.pf = true ∧
    step env anyone open_ (.oracleRemovePrice 2) = Except.ok (s2, o2) ∧ open_.oracleOwner.sat anyone.pf = true ∧
    (∀ s' o, step env (only 77) open_ (.removeCollateralConfig 10) ≠ Except.ok (s', o)) ∧
    ∀ s' o, step env (only 77) open_ (.oracleRemovePrice 2) ≠ Except.ok (s', o) := by
  obtain ⟨s1, o1, h1, -⟩ := stepped (s := open_) (op := (.removeCollateralConfig 10)) (P := fun _ _ => True) (by decide +kernel)
  obtain ⟨s2, o2, h2, -⟩ := stepped (s := open_) (op := .oracleRemovePrice 2) (P := fun _ _ => True) (by decide +kernel)
  refine ⟨s1, o1, s2, o2, h1, c40_role_required h1 rfl, h2, c40_owner_required h2 rfl, fun s' o h => ?_, fun s' o h => ?_⟩
  · exact absurd (c40_role_required h rfl) (by decide +kernel)
  · exact absurd (c40_owner_required h rfl) (by decide +kernel)

/-- `c40_roles_change`: the owner closes a user role. -/
example : ∃ s' o, step env anyone open_ (.setRole .liquidityUser .denyAll) = Except.ok (s', o) ∧
    s'.roles .liquidityUser ≠ open_.roles .liquidityUser ∧ ((open_.roles .owner).sat anyone.pf = true ∨
      (Role.userRole .liquidityUser = true ∧ (open_.roles .userAdmin).sat anyone.pf = true)) := by
  obtain ⟨s', o, h, h1⟩ := stepped (s := open_) (op := .setRole .liquidityUser .denyAll)
    (P := fun s' _ => s'.roles .liquidityUser ≠ open_.roles .liquidityUser) (by decide +kernel)
  exact ⟨s', o, h, h1, (c40_roles_change h h1).2.2⟩

/-- `c40_failed_tx_changes_nothing` and `c40_failed_call_undoes_all`: liquidity is added, then a withdrawal of more LP tokens
than exist fails, and both are undone. -/
example : ∃ s1 os, runOps env anyone open_ [.addLiquidity ⟨BASE, d 100⟩] = Except.ok (s1, os) ∧ s1.lpSupply ≠ open_.lpSupply ∧
    applyTx env anyone open_ ([.addLiquidity ⟨BASE, d 100⟩] ++ .removeLiquidity ⟨LP, d 100000000⟩ :: [.tick 2000]) = open_ := by
  have hb : (match runOps env anyone open_ [.addLiquidity ⟨BASE, d 100⟩] with
      | .ok r => decide (r.1.lpSupply ≠ open_.lpSupply) && (match step env anyone r.1 (.removeLiquidity ⟨LP, d 100000000⟩) with
        | .ok _ => false | .error _ => true)
      | .error _ => false) = true := by decide +kernel
  split at hb
  · rename_i r hr
    rw [Bool.and_eq_true] at hb
    obtain ⟨h1, h2⟩ := hb
    split at h2
    · cases h2
    · rename_i e he
      exact ⟨r.1, r.2, hr, of_decide_eq_true h1, c40_failed_call_undoes_all hr he⟩
  · cases hb

/-- `c40_failed_tx_changes_nothing`: an oath left over at the end makes the whole transaction fail. -/
example : applyTx env anyone open_ [.delegatorDeposit (d 10), .lockFee (d 4)] = open_ := by
  have hb : (match runTx env anyone open_ [.delegatorDeposit (d 10), .lockFee (d 4)] with
    | .ok _ => false | .error _ => true) = true := by decide +kernel
  split at hb
  · cases hb
  · rename_i e he; exact c40_failed_tx_changes_nothing he

/-- The fee delegator with 10 XRD and no oath outstanding. -/
def funded : State := after open_ [.delegatorDeposit (d 10)]

/-- `c41_bounded` and `c41_supply_nonneg`: locking 4 XRD mints an oath within the maximum. -/
example : ∃ s' o x, step env anyone funded (.lockFee (d 4)) = Except.ok (s', o) ∧ s'.oathSupply ≤ s'.delegator.maxLock ∧
    o.buckets = [⟨FEE_OATH, x⟩] ∧ s'.oathSupply = funded.oathSupply + x ∧ s'.delegator.vault = funded.delegator.vault - d 4 := by
  obtain ⟨s', o, h, h1⟩ := stepped (s := funded) (op := .lockFee (d 4)) (P := fun s' _ => funded.oathSupply < s'.oathSupply)
    (by decide +kernel)
  obtain ⟨h2, amount, x, h3, h4, h5, -, h6⟩ := c41_bounded h h1
  cases h3
  exact ⟨s', o, x, h, h2, h4, h5, h6⟩

example : 0 ≤ oathed.oathSupply ∧ oathed.oathSupply ≠ 0 := ⟨c41_supply_nonneg oathed_reach, by decide +kernel⟩

/-- Calls that do not lower the limit of the delegator stay within `ReachLock`. -/
theorem runOps_lock {env : Env} {cl : Caller} : ∀ {ops : List Op} {s : State} {r : State × List Out},
    runOps env cl s ops = Except.ok r → (∀ op ∈ ops, ∀ x, op ≠ .delegatorMaxLock x) → ReachLock env s → ReachLock env r.1 := by
  intro ops
  induction ops with
  | nil =>
    intro s r hr _ h
    simp only [runOps, Except.ok.injEq] at hr
    rw [← hr]; exact h
  | cons op ops ih =>
    intro s r hr hl h
    simp only [runOps, bind_ok, pure_ok] at hr
    obtain ⟨⟨s1, o⟩, h1, ⟨s2, os⟩, h2, rfl⟩ := hr
    exact ih (r := (s2, os)) h2 (fun op' ho => hl op' (by simp [ho]))
      (.step h h1 (fun x hx => absurd hx (hl op (by simp) x)))

theorem after_lock {s : State} (h : ReachLock env s) (ops : List Op) (hl : ∀ op ∈ ops, ∀ x, op ≠ .delegatorMaxLock x) :
    ReachLock env (after s ops) := by
  unfold after
  split
  · rename_i r hr; exact runOps_lock hr hl h
  · exact h

theorem oathed_lock : ReachLock env oathed :=
  after_lock (after_lock (after_lock (after_lock (.init genesis_ok) _ (by simp [setup])) _ (by simp [orders])) _
    (by simp [fills])) _ (by simp)

/-- `c41_within_max_lock` -/
example : oathed.oathSupply ≤ oathed.delegator.maxLock ∧ oathed.oathSupply = d 3 1 := ⟨c41_within_max_lock oathed_lock, by decide +kernel⟩

/-- `c41_charged`: the oath spent on a call of account 100 is charged to it. -/
example : ∃ s' o acc acc', step env anyone oathed (.cancelRequests (some ⟨FEE_OATH, d 3 1⟩) 100 [1]) = Except.ok (s', o) ∧
    oathed.accounts.get 100 = some acc ∧ s'.accounts.get 100 = some acc' ∧ s'.oathSupply = oathed.oathSupply - d 3 1 ∧
    acc'.vb = acc.vb - d 3 1 + 0 := by
  obtain ⟨s', o, acc, acc', h, ha, ha', -⟩ := steppedOn (s := oathed) (a := 100)
    (op := .cancelRequests (some ⟨FEE_OATH, d 3 1⟩) 100 [1]) (P := fun _ _ _ _ => True) (by decide +kernel)
  obtain ⟨-, -, h1, acc'', ha'', -, h2⟩ := c41_charged oathed_reach h rfl rfl ha
  rw [ha'] at ha''; cases ha''
  exact ⟨s', o, acc, acc', h, ha, ha', h1, h2⟩

/-- `c41_charged_new`: an oath spent on the creation of an account. -/
example : ∃ s' o acc' extra, step env anyone oathed (.createAccount 300 (some ⟨FEE_OATH, d 3 1⟩) (.prot (.proof 13)) [⟨BASE, d 50⟩] none) =
    Except.ok (s', o) ∧ s'.accounts.get 300 = some acc' ∧ s'.oathSupply = oathed.oathSupply - d 3 1 ∧
    acc'.vb = totalOf ([⟨BASE, d 50⟩] ++ extra) BASE - d 3 1 := by
  obtain ⟨s', o, h, -⟩ := stepped (s := oathed)
    (op := .createAccount 300 (some ⟨FEE_OATH, d 3 1⟩) (.prot (.proof 13)) [⟨BASE, d 50⟩] none) (P := fun _ _ => True) (by decide +kernel)
  obtain ⟨-, -, h1, acc', extra, ha', -, h2⟩ := c41_charged_new h
  exact ⟨s', o, acc', extra, h, ha', h1, h2⟩

/-- `c41_none_outstanding` -/
example : open_.oathSupply = 0 := c41_none_outstanding open_tx

/-- `c42_conserved`, `c42_settlement`, `c43_update` and `c43_integral`: closing half of a position for which funding is due. -/
example : ∃ s' o acc acc', step env anyone closing (.processRequest 100 3 none) = Except.ok (s', o) ∧
    closing.accounts.get 100 = some acc ∧ s'.accounts.get 100 = some acc' ∧
    Op.updates closing (.processRequest 100 3 none) o = [1] ∧ o.ev.settledFunding < 0 ∧
    |s'.fundingGap - closing.fundingGap| ≤ closing.fundingRounding [1] ∧
    (∃ d, PairBrought closing s' 1 d) ∧ |ONE * -o.ev.settledFunding - (s'.debtIn acc 1 + 0)| ≤ ONE * 1 ∧ s'.debtIn acc' 1 = 0 ∧
    (s'.pool.position closing.now 2).funding2Rate = (closing.pool.position closing.now 2).funding2Rate := by
  obtain ⟨s', o, acc, acc', h, ha, ha', h1, h2⟩ := steppedOn (s := closing) (a := 100)
    (op := .processRequest 100 3 none) (P := fun _ o _ _ => Op.updates closing (.processRequest 100 3 none) o = [1] ∧
      o.ev.settledFunding < 0) (by decide +kernel)
  have h3 := c42_conserved closing_reach h
  have h4 := (c42_settlement closing_reach h).2 100 acc acc' rfl ha ha'
  have h5 := c43_update closing_reach h
  have h6 := (c43_integral 2 closing_reach h rfl rfl rfl).1
  rw [h1] at h3 h4 h5 h6
  exact ⟨s', o, acc, acc', h, ha, ha', h1, h2, h3, h5.1 1 (by simp), by simpa using h4.1, h4.2 1 (by simp), h6 (by decide)⟩

/-- `c43_direction`: two longs face one short, so the longs pay; `c44_reward`: the update is due and earns one reward. -/
example : ∃ s' o pp pp' charge, step env anyone later (.updatePairs [1] none) = Except.ok (s', o) ∧
    later.pool.position later.now 1 = pp ∧ s'.pool.position s'.now 1 = pp' ∧ 0 ≤ charge ∧
    Pays pp.oiLong pp.oiShort (pp'.fundingLongIndex - pp.fundingLongIndex - charge)
      (charge - (pp'.fundingShortIndex - pp.fundingShortIndex)) ∧
    o.reward = ONE * (([1] : List PairId).dedup.filter (fun p => decide (later.rewardDue s' p))).length ∧ o.reward = ONE := by
  obtain ⟨s', o, h, h1, h2, h3, h4, h5, h6⟩ := stepped (s := later) (op := .updatePairs [1] none)
    (P := fun s' o => 1 ∈ Op.updates later (.updatePairs [1] none) o ∧ (later.pool.position later.now 1).lastUpdate ≠ later.now ∧
      (later.pool.position later.now 1).oiLong ≠ 0 ∧ (later.pool.position later.now 1).oiShort ≠ 0 ∧
      0 < (later.pool.position later.now 1).yearlyRate (later.market.pair 1) (s'.market.price 1)
          (s'.pool.position s'.now 1).funding2Rate ∧ o.reward = ONE) (by decide +kernel)
  obtain ⟨charge, h7, -, h8, -⟩ := c43_direction later_reach h h1 rfl rfl h2 h3 h4
  exact ⟨s', o, _, _, charge, h, rfl, rfl, h7, h8 h5, (c44_reward h).1, h6⟩

/-- `c43_no_funding`: nobody has a position in pair 2, so its indexes stay although the pair is updated. -/
example : ∃ s' o, step env anyone later (.updatePairs [2] none) = Except.ok (s', o) ∧
    (s'.pool.position later.now 2).lastUpdate = later.now ∧
    (s'.pool.position later.now 2).fundingLongIndex = (later.pool.position later.now 2).fundingLongIndex := by
  obtain ⟨s', o, h, h1⟩ := stepped (s := later) (op := .updatePairs [2] none)
    (P := fun s' _ => (s'.pool.position later.now 2).lastUpdate = later.now) (by decide +kernel)
  exact ⟨s', o, h, h1, (c43_no_funding 2 later_reach h rfl rfl (.inl (by decide +kernel))).1⟩

/-- `c44_repeat_partial`: the same pair again in the same second. -/
example : ∃ s1 o1 s2 o2, step env anyone later (.updatePairs [1] none) = Except.ok (s1, o1) ∧ o1.reward = ONE ∧
    step env anyone s1 (.updatePairs [1] none) = Except.ok (s2, o2) ∧ o2.reward = 0 ∧ s2.rewardSupply = s1.rewardSupply := by
  obtain ⟨s1, o1, h, h1, h0, h2⟩ := stepped (s := later) (op := .updatePairs [1] none)
    (P := fun s1 o1 => o1.reward = ONE ∧ 1 ∈ Op.updates later (.updatePairs [1] none) o1 ∧ trial s1 (.updatePairs [1] none)
      (fun s2 _ => decide (s2.market.price 1 = s1.market.price 1 ∧
        0 < (s1.market.pair 1).updatePeriodSeconds)) = true) (by decide +kernel)
  obtain ⟨s2, o2, h', h3⟩ := stepped h2
  have := c44_repeat_partial later_reach h h' (by
    intro p hp
    simp only [List.mem_singleton] at hp
    subst hp
    exact ⟨h0, h3⟩)
  exact ⟨s1, o1, s2, o2, h, h1, h', this.1, this.2⟩

/-- `c45_storable`, `c45_magnitude`, `c45_precision` and `c45_idempotent`: a value that needs rounding. -/
example : ∃ f g, DFloat.ofDec (d 123456789) = Except.ok f ∧ f.toDec ≠ d 123456789 ∧ |f.toDec| ≤ |d 123456789| ∧
    (|d 123456789| - |f.toDec|) * 100 < |d 123456789| ∧ DFloat.ofDec f.toDec = Except.ok g ∧ g.toDec = f.toDec := by
  have hr : InRange (d 123456789) = true := by decide +kernel
  obtain ⟨f, hf⟩ := (c45_storable hr).2 (by decide +kernel)
  obtain ⟨g, hg, hg'⟩ := (c45_idempotent hf).2
  refine ⟨f, g, hf, fun e => ?_, (c45_magnitude hr hf).1, (c45_precision hr (by decide +kernel) hf).1, hg, hg'⟩
  have hb : (match DFloat.ofDec (d 123456789) with
    | .ok f => decide (f.toDec ≠ d 123456789) | .error _ => false) = true := by decide +kernel
  rw [hf] at hb
  exact of_decide_eq_true hb e

/-- `c45_storable`: … and one that is too large to be stored. -/
example : ¬ ∃ f, DFloat.ofDec (d 20000000000000000) = Except.ok f := by
  rw [c45_storable (by decide +kernel)]; decide +kernel

/-- `c45_round_trip` -/
example : ∃ g, DFloat.ofDec (DFloat.toDec ⟨4660⟩) = Except.ok g ∧ g.toDec = DFloat.toDec ⟨4660⟩ ∧ DFloat.toDec ⟨4660⟩ ≠ 0 := by
  obtain ⟨g, h, h'⟩ := c45_round_trip ⟨4660⟩ (by decide)
  exact ⟨g, h, h', by decide +kernel⟩

/-- `c46_exchange_in_force`, `c46_pair_in_force_partial` and `c46_collateral_in_force_partial` -/
example : ∃ x y, open_.config.pairs.get 1 = some x ∧ open_.config.collaterals.get 10 = some y ∧
    0 < open_.config.exchange.decompress.positionsMax ∧ x.decompress.pairId = 1 ∧
    99 * x.decompress.marginMaintenance ≤ 100 * x.decompress.marginInitial ∧ y.decompress.discount ≤ ONE ∧
    0 < x.decompress.marginMaintenance := by
  have hx : (match open_.config.pairs.get 1 with | some x => decide (0 < x.decompress.marginMaintenance) | none => false) = true := by
    decide +kernel
  have hy : (open_.config.collaterals.get 10).isSome = true := by decide +kernel
  obtain ⟨y, hy⟩ := Option.isSome_iff_exists.1 hy
  split at hx
  · rename_i x hx'
    have h1 := c46_pair_in_force_partial open_reach hx'
    exact ⟨x, y, hx', hy, (c46_exchange_in_force open_reach).1, h1.1, h1.2.2.1, (c46_collateral_in_force_partial open_reach hy).2.1,
      of_decide_eq_true hx⟩
  · cases hx

end Perp.Scn
