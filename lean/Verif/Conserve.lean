import Verif.Tokens
import Verif.Guarded

/-!
# Tokens are conserved (C51)

Every call moves tokens between the caller, the vaults of the components and the addresses it pays; tokens appear and disappear
only where the code mints or burns them, and where the fee delegator pays a network fee.
-/

namespace Perp

/-! ## Specification -/

/-- Tokens of one resource held in the vaults of all accounts, of the pool, of the referral generator, of the fee delegator and in
the exchange's own vault of authority tokens. -/
def State.held (s : State) (r : Res) : Int :=
  s.accounts.sum (fun _ a => (a.collateral.get r).getD 0) + (if r = BASE then s.pool.baseTokens else 0) +
    (s.refgen.vaults.get r).getD 0 + (if r = XRD then s.delegator.vault else 0) + (if r = AUTHORITY then s.authority else 0)

/-- The buckets a caller passes to a method (besides the fee oath). -/
def Op.supplied : Op → List Bucket
  | .mintReferralWithAllocation _ _ _ _ t _ _ | .addReferralAllocation _ t _ _ | .createReferralCodes _ t _
  | .createAccount _ _ _ t _ | .addCollateral _ _ t => t
  | .swapProtocolFee b | .addLiquidity b | .removeLiquidity b | .swapDebt _ _ b _ | .liquidate _ b _ => [b]
  | .depositAuthority x => [⟨AUTHORITY, x⟩]
  | .delegatorDeposit x => [⟨XRD, x⟩]
  | _ => []

/-- What a call pays to the network as transaction fee. -/
def Op.locked : Op → List Bucket
  | .lockFee x => [⟨XRD, x⟩]
  | _ => []

/-! ## Fee delegator and authority tokens -/

/-- What a call does to the fee delegator's vault. -/
theorem body_fees {env : Env} {cl : Caller} {s s' : State} {op : Op} {o : Out} (h : body env cl s op = Except.ok (s', o)) :
    (s'.delegator.vault = s.delegator.vault ∧ (∀ x, op ≠ .delegatorDeposit x) ∧ (∀ x, op ≠ .delegatorWithdraw x) ∧
      ∀ x, op ≠ .lockFee x) ∨
    (∃ x, op = .delegatorDeposit x ∧ 0 ≤ x ∧ s'.delegator.vault = s.delegator.vault + x ∧ o = {}) ∨
    (∃ x y, op = .delegatorWithdraw x ∧ 0 ≤ y ∧ y ≤ s.delegator.vault ∧ s'.delegator.vault = s.delegator.vault - y ∧
      o = { buckets := [⟨XRD, y⟩] }) ∨
    (∃ x, op = .lockFee x ∧ 0 ≤ x ∧ x ≤ s.delegator.vault ∧ s'.delegator.vault = s.delegator.vault - x) := by
  cases hd : op.ofDelegator with
  | false =>
    refine .inl ⟨?_, ?_, ?_, ?_⟩
    · rcases (body_apart h).delegator with h1 | h1
      · rw [h1]
      · rw [hd] at h1; cases h1
    all_goals (rintro x rfl; cases hd)
  | true =>
    cases op <;> first | (cases hd; done) | skip
    case collectFeeDelegator =>
      obtain ⟨pool, x, hp, rfl, -⟩ := collectFeeDelegator_ok h
      exact .inl ⟨rfl, by simp⟩
    case lockFee x =>
      obtain ⟨value, -, h0, h1, -, hle, rfl, -⟩ := lockFee_ok h
      exact .inr (.inr (.inr ⟨x, rfl, h0, h1, rfl⟩))
    case delegatorMaxLock x =>
      simp only [body, Delegator.updateMaxLock, bind_ok, pure_ok, require_ok, Prod.mk.injEq] at h
      obtain ⟨_, ⟨-, -, rfl⟩, rfl, rfl⟩ := h
      exact .inl ⟨rfl, by simp⟩
    case delegatorMultiplier x =>
      simp only [body, Delegator.updateMultiplier, bind_ok, pure_ok, require_ok, Prod.mk.injEq] at h
      obtain ⟨_, ⟨-, -, rfl⟩, rfl, rfl⟩ := h
      exact .inl ⟨rfl, by simp⟩
    case delegatorContingent b =>
      simp only [body, pure_ok, Prod.mk.injEq] at h
      obtain ⟨rfl, rfl⟩ := h
      exact .inl ⟨rfl, by simp⟩
    case delegatorDeposit x =>
      simp only [body, Delegator.deposit, bind_ok, pure_ok, require_ok, dadd_ok, Prod.mk.injEq] at h
      obtain ⟨_, ⟨⟨⟩, hx, y, ⟨-, rfl⟩, rfl⟩, rfl, rfl⟩ := h
      exact .inr (.inl ⟨x, rfl, by simpa using hx, rfl, rfl⟩)
    case delegatorWithdraw x =>
      simp only [body, Delegator.withdraw, bind_ok, pure_ok, Prod.mk.injEq] at h
      obtain ⟨⟨_, y⟩, ⟨_, ht, rfl, rfl⟩, rfl, rfl⟩ := h
      obtain ⟨-, h1, -, h2⟩ := takeAmount_ok.mp ht
      exact .inr (.inr (.inl ⟨x, _, rfl, h1, h2, rfl, rfl⟩))

theorem reach_fees {env : Env} {s : State} (h : Reach env s) : 0 ≤ s.delegator.vault ∧ 0 ≤ s.authority := by
  refine Reach.induct (P := fun s => 0 ≤ s.delegator.vault ∧ 0 ≤ s.authority) (env := env)
    (fun s g => ⟨by rw [g.delegator], g.authority⟩) ?_ h
  intro s s' cl op o hs hb
  refine ⟨?_, ?_⟩
  · rcases body_fees hb with ⟨e, -⟩ | ⟨x, -, h0, e, -⟩ | ⟨x, y, -, h0, h1, e, -⟩ | ⟨x, -, h0, h1, e⟩ <;> omega
  · rcases (body_admin hb).authority with e | ⟨x, -, h0, e⟩ | ⟨-, e⟩ <;> omega

theorem held_stored (s : State) (r : Res) :
    s.held r = s.stored r + (if r = XRD then s.delegator.vault else 0) + (if r = AUTHORITY then s.authority else 0) := rfl

/-- For every resource and every successful call: what the vaults hold afterwards, plus what the call hands out, burns and pays as
network fee, equals what they held before, plus what the caller supplied, plus what the call minted. -/
theorem body_conserved {env : Env} {cl : Caller} {s s' : State} {op : Op} {o : Out}
    (h : body env cl s op = Except.ok (s', o)) (r : Res) :
    s'.held r + totalOf o.given r + totalOf o.burnt r + totalOf op.locked r =
      s.held r + totalOf op.supplied r + totalOf (op.minted o) r := by
  by_cases h1 : op = .withdrawAuthority
  · subst h1
    simp only [body, pure_ok, Prod.mk.injEq] at h
    obtain ⟨rfl, rfl⟩ := h
    simp only [State.held, Out.given, Op.locked, Op.supplied, Op.minted, totalOf_cons, totalOf_nil, List.map_nil, List.nil_append]
    by_cases hr : r = AUTHORITY
    · subst hr; simp only [if_true]; omega
    · have hr' : ¬ AUTHORITY = r := fun e => hr e.symm
      simp only [hr, hr', if_false]; omega
  by_cases h2 : ∃ x, op = .delegatorWithdraw x
  · obtain ⟨x, rfl⟩ := h2
    simp only [body, Delegator.withdraw, bind_ok, pure_ok, Prod.mk.injEq] at h
    obtain ⟨⟨_, y⟩, ⟨_, ht, rfl, rfl⟩, rfl, rfl⟩ := h
    simp only [State.held, Out.given, Op.locked, Op.supplied, Op.minted, totalOf_cons, totalOf_nil, List.map_nil, List.nil_append]
    by_cases hr : r = XRD
    · subst hr; simp only [if_true]; omega
    · have hr' : ¬ XRD = r := fun e => hr e.symm
      simp only [hr, hr', if_false]; omega
  have hn' : ∀ x, op ≠ .delegatorWithdraw x := fun x e => h2 ⟨x, e⟩
  have core := body_stored h r h1 hn'
  have ha := (body_admin h).authority
  have hf := body_fees h
  rw [held_stored, held_stored]
  by_cases h3 : ∃ x, op = .depositAuthority x
  · obtain ⟨x, rfl⟩ := h3
    obtain ⟨e, -⟩ | ⟨x, hx, -⟩ | ⟨x, y, hx, -⟩ | ⟨x, hx, -⟩ := hf <;> first | (cases hx; done) | skip
    have ha : s'.authority = s.authority + x := by
      simp only [body, bind_ok, pure_ok, require_ok, dadd_ok, Prod.mk.injEq] at h
      obtain ⟨-, -, _, ⟨-, rfl⟩, rfl, -⟩ := h
      rfl
    simp only [Op.tokens, Op.supplied, Op.locked, Op.minted, totalOf_cons, totalOf_nil] at core ⊢
    rw [e, ha]
    by_cases hr : r = AUTHORITY
    · subst hr; simp only [if_true]; omega
    · have hr' : ¬ AUTHORITY = r := fun e => hr e.symm
      simp only [hr, hr', if_false]; omega
  have ha : s'.authority = s.authority := by
    rcases ha with e | ⟨x, hx, -⟩ | ⟨hx, -⟩
    · exact e
    · exact absurd ⟨x, hx⟩ h3
    · exact absurd hx h1
  rw [ha]
  by_cases h4 : ∃ x, op = .delegatorDeposit x
  · obtain ⟨x, rfl⟩ := h4
    obtain ⟨-, hx, -⟩ | ⟨y, hx, -, e, -⟩ | ⟨x, y, hx, -⟩ | ⟨x, hx, -⟩ := hf <;> first | (cases hx; done) | skip
    · exact absurd rfl (hx _)
    cases hx
    simp only [Op.tokens, Op.supplied, Op.locked, Op.minted, totalOf_cons, totalOf_nil] at core ⊢
    rw [e]
    by_cases hr : r = XRD
    · subst hr; simp only [if_true]; omega
    · have hr' : ¬ XRD = r := fun e => hr e.symm
      simp only [hr, hr', if_false]; omega
  by_cases h5 : ∃ x, op = .lockFee x
  · obtain ⟨x, rfl⟩ := h5
    obtain ⟨-, -, -, hx⟩ | ⟨y, hx, -, e, -⟩ | ⟨x, y, hx, -⟩ | ⟨y, hx, -, -, e⟩ := hf <;> first | (cases hx; done) | skip
    · exact absurd rfl (hx _)
    cases hx
    simp only [Op.tokens, Op.supplied, Op.locked, totalOf_cons, totalOf_nil] at core ⊢
    rw [e]
    by_cases hr : r = XRD
    · subst hr; simp only [if_true]; omega
    · have hr' : ¬ XRD = r := fun e => hr e.symm
      simp only [hr, hr', if_false]; omega
  have e : s'.delegator.vault = s.delegator.vault := by
    obtain ⟨e, -⟩ | ⟨y, hx, -⟩ | ⟨x, y, hx, -⟩ | ⟨y, hx, -⟩ := hf
    · exact e
    · exact absurd ⟨y, hx⟩ h4
    · exact absurd ⟨x, hx⟩ h2
    · exact absurd ⟨y, hx⟩ h5
  have e1 : op.supplied = op.tokens := by
    cases op <;> first | rfl | exact absurd ⟨_, rfl⟩ h3 | exact absurd ⟨_, rfl⟩ h4
  have e2 : op.locked = [] := by
    cases op <;> first | rfl | exact absurd ⟨_, rfl⟩ h5
  rw [e, e1, e2, totalOf_nil]
  omega

/-- No vault is ever overdrawn: the accounts, the pool, the generator, the fee delegator and the exchange each hold a non-negative
amount of everything. -/
theorem c51_held_nonneg {env : Env} {s : State} (h : Reach env s) (r : Res) :
    0 ≤ s.held r ∧ 0 ≤ s.pool.baseTokens ∧ 0 ≤ (s.refgen.vaults.get r).getD 0 ∧ 0 ≤ s.delegator.vault ∧ 0 ≤ s.authority ∧
    ∀ a acc, s.accounts.get a = some acc → 0 ≤ (acc.collateral.get r).getD 0 := by
  have h1 := reach_base h
  have h2 : 0 ≤ (s.refgen.vaults.get r).getD 0 := by
    have := (c34_backed h).1 r
    exact le_trans this.1 this.2
  have h3 : ∀ a acc, s.accounts.get a = some acc → 0 ≤ (acc.collateral.get r).getD 0 := by
    intro a acc ha
    have hc := reach_collOk h a acc ha
    have e := hc.vault r
    simp only [Account.collPart] at e
    rw [← e]
    cases hg : acc.collateralBalances.get r with
    | none => simp
    | some x => exact hc.nonneg r x hg
  obtain ⟨h4, h5⟩ := reach_fees h
  refine ⟨?_, h1, h2, h4, h5, h3⟩
  have := AMap.sum_nonneg (f := fun _ x => (x.collateral.get r).getD 0) (m := s.accounts) h3
  unfold State.held
  split <;> split <;> split <;> omega

/-! ## C51 -/

/-- **C51, tokens are conserved by every call.** For every resource: what the vaults hold after a successful call, plus what the
call hands out, plus what it burns and pays the network as fee, equals what they held before, plus what the caller supplied, plus
what was minted. -/
theorem c51_call {env : Env} {cl : Caller} {s s' : State} {op : Op} {o : Out} (h : step env cl s op = Except.ok (s', o))
    (r : Res) :
    s'.held r + totalOf o.given r + totalOf o.burnt r + totalOf op.locked r =
      s.held r + totalOf op.supplied r + totalOf (op.minted o) r :=
  body_conserved (step_body h) r

/-- **C51, supplies.** The recorded supplies follow the tokens: the LP supply changes exactly by the LP tokens minted and burnt,
the supply of keeper rewards grows exactly by the reward paid out, and the supply of fee oaths by those minted less the one the
call settles. -/
theorem c51_supplies {env : Env} {cl : Caller} {s s' : State} {op : Op} {o : Out} (h : step env cl s op = Except.ok (s', o)) :
    s'.lpSupply + totalOf o.burnt LP = s.lpSupply + totalOf (op.minted o) LP ∧
    s'.rewardSupply = s.rewardSupply + o.reward ∧
    s'.oathSupply + oathAmt op.oath = s.oathSupply + totalOf (op.minted o) FEE_OATH := by
  have hb := step_body h
  obtain ⟨h1, h2⟩ := body_supply hb
  refine ⟨h1, h2, ?_⟩
  have h3 := body_oaths hb
  have h4 : op.oathMinted env s = totalOf (op.minted o) FEE_OATH := by
    cases op with
    | lockFee x =>
      obtain ⟨value, rfl, -, -, h0, hle, rfl, rfl⟩ := lockFee_ok hb
      simp [Op.minted, Op.oathMinted, totalOf_nil, totalOf_cons]
    | addLiquidity b =>
      obtain ⟨cfg, fee, lp, price, hc, hb, hres, hfee, -, -, rfl, ho, hpd, -⟩ := opAddLiquidity_ok hb
      simp [ho, Op.minted, Op.oathMinted, totalOf_nil, totalOf_cons, LP, FEE_OATH]
    | _ => rfl
  omega

/-- A history of successful calls with their results. -/
inductive Log (env : Env) : State → List (Op × Out) → State → Prop where
  | nil (s : State) : Log env s [] s
  | cons {s s' s'' : State} {cl : Caller} {op : Op} {o : Out} {l : List (Op × Out)} :
      step env cl s op = Except.ok (s', o) → Log env s' l s'' → Log env s ((op, o) :: l) s''

/-- Total over a history. -/
def logTotal (f : Op → Out → List Bucket) (l : List (Op × Out)) (r : Res) : Int := (l.map (fun e => totalOf (f e.1 e.2) r)).sum

theorem logTotal_cons (f : Op → Out → List Bucket) (op : Op) (o : Out) (l : List (Op × Out)) (r : Res) :
    logTotal f ((op, o) :: l) r = totalOf (f op o) r + logTotal f l r := by
  simp [logTotal]

theorem Log.reach {env : Env} {s s' : State} {l : List (Op × Out)} (h : Log env s l s') (h0 : Reach env s) : Reach env s' := by
  induction h with
  | nil => exact h0
  | cons hs _ ih => exact ih (.step h0 hs)

/-- **C51, over a whole history.** Between any two states of a history, the tokens handed out, burnt and paid as network fees are
exactly those held at the start, supplied and minted, less those still held. -/
theorem c51_history {env : Env} {s s' : State} {l : List (Op × Out)} (h : Log env s l s') (r : Res) :
    s'.held r + logTotal (fun _ o => o.given) l r + logTotal (fun _ o => o.burnt) l r + logTotal (fun op _ => op.locked) l r =
      s.held r + logTotal (fun op _ => op.supplied) l r + logTotal Op.minted l r := by
  induction h with
  | nil => simp [logTotal]
  | cons hs _ ih =>
    have := c51_call hs r
    simp only [logTotal_cons] at ih ⊢
    omega

/-- **C51, nobody can take out more than was put in.** From the creation of the exchange on, of no resource have the components
ever handed out (or paid as network fee) more than users supplied and the exchange itself minted; of authority tokens, not more than
these and those the exchange was created with. -/
theorem c51_solvent {env : Env} {s s' : State} {l : List (Op × Out)} (h0 : Genesis s) (h : Log env s l s') (r : Res) :
    logTotal (fun _ o => o.given) l r + logTotal (fun _ o => o.burnt) l r + logTotal (fun op _ => op.locked) l r ≤
      (if r = AUTHORITY then s.authority else 0) + logTotal (fun op _ => op.supplied) l r + logTotal Op.minted l r := by
  have e := c51_history h r
  have n := (c51_held_nonneg (h.reach (.init h0)) r).1
  have z : s.held r = if r = AUTHORITY then s.authority else 0 := by
    unfold State.held
    rw [h0.accounts, h0.pool, h0.refgen, h0.delegator]
    simp only [AMap.get_empty, Option.getD_none]
    have : (AMap.empty : AMap Addr Account).sum (fun _ a => (a.collateral.get r).getD 0) = 0 := rfl
    rw [this]; simp
  omega

theorem lp_log {env : Env} {s s' : State} {l : List (Op × Out)} (h : Log env s l s') :
    s'.lpSupply = s.lpSupply + logTotal Op.minted l LP - logTotal (fun _ o => o.burnt) l LP := by
  induction h with
  | nil => simp [logTotal]
  | cons hs _ ih =>
    have := (c51_supplies hs).1
    simp only [logTotal_cons] at ih ⊢
    omega

/-- **C51, the LP supply is what was minted and not redeemed.** -/
theorem c51_lp {env : Env} {s s' : State} {l : List (Op × Out)} (h0 : Genesis s) (h : Log env s l s') :
    s'.lpSupply = logTotal Op.minted l LP - logTotal (fun _ o => o.burnt) l LP := by
  rw [lp_log h, h0.lp]; omega

namespace Scn

/-- The scenario's exchange holds base tokens and another collateral. -/
example : ready.held BASE > 0 ∧ ready.held 10 > 0 := by decide +kernel

/-- Adding liquidity: the conservation law is about non-trivial amounts on both sides. -/
example : ∃ s' o, step env anyone ready (.addLiquidity ⟨BASE, d 100 0⟩) = Except.ok (s', o) ∧
    s'.held BASE = ready.held BASE + d 100 0 ∧ totalOf o.given LP > 0 ∧
    totalOf (Op.minted (.addLiquidity ⟨BASE, d 100 0⟩) o) LP = totalOf o.given LP := stepped (by decide +kernel)

end Scn

end Perp
