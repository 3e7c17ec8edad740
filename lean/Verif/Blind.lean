import Verif.AccFrame
import Verif.SpecOps
import Verif.Known
import Verif.Getters
import Verif.Admin

/-!
# Other accounts are invisible (C63)

A call works on the account it names and on what everybody shares: the pool, the prices, the settings, the
referrals, the fee balances.  `Alike V s s'`: two ledgers that share all of that and agree on the accounts in
`V`; the other accounts may differ in every respect, or exist in only one of them.
-/

namespace Perp

/-- Everything is the same but the accounts outside `V`. -/
structure Alike (V : Addr → Prop) (s s' : State) : Prop where
  shared : s' = { s with accounts := s'.accounts }
  seen : ∀ a, V a → s'.accounts.get a = s.accounts.get a

/-- Two computations end alike: with related results, or with the same error. -/
def Tied {α β : Type} (r : α → β → Prop) (x : R α) (y : R β) : Prop :=
  match x, y with
  | .ok a, .ok b => r a b
  | .error e, .error e' => e = e'
  | _, _ => False

theorem tied_pure {α β : Type} {r : α → β → Prop} {a : α} {b : β} (h : r a b) : Tied r (pure a : R α) (pure b : R β) := h

theorem tied_bind {α β γ δ : Type} {r : α → β → Prop} {q : γ → δ → Prop} {x : R α} {y : R β} {f : α → R γ} {g : β → R δ}
    (h : Tied r x y) (hf : ∀ a b, r a b → Tied q (f a) (g b)) : Tied q (x >>= f) (y >>= g) := by
  cases x with
  | error e =>
    cases y with
    | error e' => exact h
    | ok b => cases h
  | ok a =>
    cases y with
    | error e' => cases h
    | ok b => exact hf a b h

theorem tied_same {α γ δ : Type} {q : γ → δ → Prop} {x : R α} {f : α → R γ} {g : α → R δ}
    (hf : ∀ a, x = Except.ok a → Tied q (f a) (g a)) : Tied q (x >>= f) (x >>= g) := by
  cases x with
  | error e => exact rfl
  | ok a => exact hf a rfl

/-- Alike states and the same outcome. -/
def SameOut (V : Addr → Prop) (x y : State × Out) : Prop := Alike V x.1 y.1 ∧ x.2 = y.2

variable {V : Addr → Prop} {s : State} {X : AMap Addr Account}

theorem alike_mk {s s' : State} (h : Alike V s s') : ∃ X, s' = { s with accounts := X } ∧
    ∀ a, V a → X.get a = s.accounts.get a := ⟨s'.accounts, h.shared, h.seen⟩

theorem Alike.refl (s : State) : Alike V s s := ⟨rfl, fun _ _ => rfl⟩

theorem load_alike (hX : ∀ a, V a → X.get a = s.accounts.get a) {a : Addr} (ha : V a) :
    ({ s with accounts := X } : State).load a = s.load a := by
  unfold State.load VAccount.new
  rw [hX a ha]

theorem commit_alike (hX : ∀ a, V a → X.get a = s.accounts.get a) (w : W) :
    Tied (Alike V) (s.commit w) (({ s with accounts := X } : State).commit w) := by
  unfold State.commit
  refine tied_same fun acc _ => tied_same fun refs _ => tied_pure ⟨rfl, fun a ha => ?_⟩
  simp only [AMap.get_set, hX a ha]

theorem commitAcc_alike (hX : ∀ a, V a → X.get a = s.accounts.get a) (v : VAccount) :
    Tied (Alike V) (s.commitAcc v) (({ s with accounts := X } : State).commitAcc v) := by
  unfold State.commitAcc
  refine tied_same fun acc _ => tied_same fun refs _ => tied_pure ⟨rfl, fun a ha => ?_⟩
  simp only [AMap.get_set, hX a ha]

theorem mintReward_alike {s s' : State} (h : Alike V s s') (env : Env) (x : Dec) :
    Tied (Alike V) (s.mintReward env x) (s'.mintReward env x) := by
  obtain ⟨X, rfl, hX⟩ := alike_mk h
  unfold State.mintReward
  exact tied_same fun _ _ => tied_same fun _ _ => tied_pure ⟨rfl, hX⟩

theorem payOath_alike {s s' : State} (h : Alike V s s') (env : Env) (v : VAccount) (oath : Option Bucket) (ids plain : List PairId) :
    Tied (fun x y => Alike V x.1 y.1 ∧ x.2 = y.2) (payOath env s v oath ids plain) (payOath env s' v oath ids plain) := by
  obtain ⟨X, rfl, hX⟩ := alike_mk h
  unfold payOath
  cases oath with
  | none => exact tied_same fun _ _ => tied_pure ⟨⟨rfl, hX⟩, rfl⟩
  | some b =>
    refine tied_same fun _ _ => tied_same fun _ _ => ?_
    unfold State.burnOath
    simp only [bind_assoc, pure_bind]
    exact tied_same fun _ _ => tied_pure ⟨⟨rfl, hX⟩, rfl⟩

theorem keeperLoad_alike {s s' : State} (h : Alike V s s') (env : Env) (ids : List PairId) (u : Option PriceUpdate) :
    Tied (fun x y => Alike V x.1 y.1 ∧ x.2 = y.2) (keeperLoad env s ids u) (keeperLoad env s' ids u) := by
  obtain ⟨X, rfl, hX⟩ := alike_mk h
  unfold keeperLoad
  exact tied_same fun _ _ => tied_same fun _ _ => tied_same fun _ _ => tied_pure ⟨⟨rfl, hX⟩, rfl⟩

theorem depositTokens_alike {s s' : State} (h : Alike V s s') (env : Env) (v : VAccount) (oath : Option Bucket) (t : List Bucket) :
    Tied (fun x y => Alike V x.1 y.1 ∧ x.2 = y.2) (depositTokens env s v oath t) (depositTokens env s' v oath t) := by
  obtain ⟨X, rfl, hX⟩ := alike_mk h
  unfold depositTokens
  cases oath with
  | none => exact tied_same fun _ _ => tied_same fun _ _ => tied_pure ⟨⟨rfl, hX⟩, rfl⟩
  | some b =>
    refine tied_same fun _ _ => tied_same fun _ _ => tied_same fun _ _ => ?_
    unfold State.burnOath
    simp only [bind_assoc, pure_bind]
    exact tied_same fun _ _ => tied_pure ⟨⟨rfl, hX⟩, rfl⟩

theorem commitAcc_alike' {s s' : State} (h : Alike V s s') (v : VAccount) :
    Tied (Alike V) (s.commitAcc v) (s'.commitAcc v) := by
  obtain ⟨X, rfl, hX⟩ := alike_mk h; exact commitAcc_alike hX v

theorem commit_alike' {s s' : State} (h : Alike V s s') (w : W) : Tied (Alike V) (s.commit w) (s'.commit w) := by
  obtain ⟨X, rfl, hX⟩ := alike_mk h; exact commit_alike hX w

theorem load_alike' {s s' : State} (h : Alike V s s') {a : Addr} (ha : V a) : s'.load a = s.load a := by
  obtain ⟨X, rfl, hX⟩ := alike_mk h; exact load_alike hX ha

theorem Alike.now {s s' : State} (h : Alike V s s') : s'.now = s.now := by rw [h.shared]
theorem Alike.config {s s' : State} (h : Alike V s s') : s'.config = s.config := by rw [h.shared]
theorem Alike.dist {s s' : State} (h : Alike V s s') : s'.dist = s.dist := by rw [h.shared]
theorem Alike.perms {s s' : State} (h : Alike V s s') : s'.perms = s.perms := by rw [h.shared]
theorem Alike.recoveryKeys {s s' : State} (h : Alike V s s') : s'.recoveryKeys = s.recoveryKeys := by rw [h.shared]
theorem Alike.okBucket {s s' : State} (h : Alike V s s') (env : Env) : Perp.okBucket env s' = Perp.okBucket env s := by
  obtain ⟨X, rfl, hX⟩ := alike_mk h; rfl

/-- Calls that name no account. -/
theorem body_alike_none (env : Env) (cl : Caller) {s s' : State} (h : Alike V s s') {op : Op} (hn : op.account = none) :
    Tied (SameOut V) (body env cl s op) (body env cl s' op) := by
  obtain ⟨X, rfl, hX⟩ := alike_mk h
  cases op <;> first | (cases hn; done) | skip
  case updateReferral id a b m =>
    simp only [body, Perp.updateReferral]
    split
    · exact tied_pure ⟨⟨rfl, hX⟩, rfl⟩
    · simp only [bind_assoc, pure_bind]
      repeat' first | exact tied_pure ⟨⟨rfl, hX⟩, rfl⟩ | refine tied_same fun _ _ => ?_
  all_goals
    simp only [body, Perp.collectTreasury, Perp.collectFeeDelegator, Perp.mintReferral, Perp.mintReferralWithAllocation,
      Perp.addReferralAllocation, grantReferrals, Perp.swapProtocolFee, opAddLiquidity, opRemoveLiquidity,
      Perp.createReferralCodes, Perp.createReferralCodesFromAllocation, Perp.collectReferralRewards, opUpdatePairs, keeperLoad,
      State.mintReward, Perp.setRole, Perp.lockFee, bind_assoc, pure_bind]
    repeat' first | exact tied_pure ⟨⟨rfl, hX⟩, rfl⟩ | refine tied_same fun _ _ => ?_

theorem auth_alike {s s' : State} (h : Alike V s s') (m : AMap Rule Permissions) (n : Nat) :
    Alike V { s with perms := m, recoveryKeys := n } { s' with perms := m, recoveryKeys := n } := by
  obtain ⟨X, rfl, hX⟩ := alike_mk h; exact ⟨rfl, hX⟩

theorem perms_alike {s s' : State} (h : Alike V s s') (m : AMap Rule Permissions) :
    Alike V { s with perms := m } { s' with perms := m } := by
  obtain ⟨X, rfl, hX⟩ := alike_mk h; exact ⟨rfl, hX⟩

theorem claimCode_alike {s s' : State} (h : Alike V s s') (env : Env) (c : Option Nat) :
    Tied (fun x y => Alike V x.1 y.1 ∧ x.2 = y.2) (claimCode env s c) (claimCode env s' c) := by
  obtain ⟨X, rfl, hX⟩ := alike_mk h
  unfold claimCode
  cases c with
  | none => exact tied_pure ⟨⟨rfl, hX⟩, rfl⟩
  | some c => exact tied_same fun _ _ => tied_pure ⟨⟨rfl, hX⟩, rfl⟩

/-- Finish a call that writes one account back. -/
theorem finish_alike {s s' : State} (h : Alike V s s') (v : VAccount) (o : Out) :
    Tied (SameOut V) (s.commitAcc v >>= fun s => pure (s, o)) (s'.commitAcc v >>= fun s => pure (s, o)) :=
  tied_bind (commitAcc_alike' h v) fun _ _ hx => tied_pure ⟨hx, rfl⟩

/-- Calls that name an account in `V`. -/
theorem body_alike_some (env : Env) (cl : Caller) {s s' : State} (h : Alike V s s') {op : Op} {a : Addr}
    (hn : op.account = some a) (ha : V a) : Tied (SameOut V) (body env cl s op) (body env cl s' op) := by
  cases op <;> first | (cases hn; done) | skip
  all_goals obtain rfl : _ = a := Option.some.inj hn
  case createAccount a o r t c =>
    simp only [body, Perp.createAccount]
    rw [h.okBucket, show s'.accounts.has a = s.accounts.has a by unfold AMap.has; rw [h.seen a ha]]
    refine tied_same fun _ _ => tied_same fun _ _ => tied_bind (claimCode_alike h env c) ?_
    rintro ⟨x, y⟩ ⟨x', y'⟩ ⟨hx, rfl⟩
    dsimp only at hx
    obtain ⟨X, rfl, hX⟩ := alike_mk hx
    have hs : Alike V { x with accounts := x.accounts.set a (Account.fresh r y.1), perms := registerAccount x.perms a r }
        { x with accounts := X.set a (Account.fresh r y.1), perms := registerAccount x.perms a r } :=
      ⟨rfl, fun b hb => by simp only [AMap.get_set, hX b hb]⟩
    dsimp only
    rw [load_alike' hs ha]
    refine tied_same fun v _ => tied_bind (depositTokens_alike hs env v o _) ?_
    rintro ⟨x1, w⟩ ⟨x1', w'⟩ ⟨h1, rfl⟩
    exact tied_bind (commit_alike' h1 w) fun _ _ h2 => tied_pure ⟨h2, rfl⟩
  case createRecoveryKey o a =>
    simp only [body, Perp.createRecoveryKey]
    rw [load_alike' h ha]
    refine tied_same fun v _ => tied_same fun _ _ => tied_bind (payOath_alike h env v o _ _) ?_
    rintro ⟨x, y⟩ ⟨x', y'⟩ ⟨hx, rfl⟩
    dsimp only at hx ⊢
    rw [hx.perms, hx.recoveryKeys]
    exact finish_alike (auth_alike hx _ _) _ _
  case addAuthRule o a l n =>
    simp only [body, Perp.addAuthRule]
    rw [load_alike' h ha]
    refine tied_same fun v _ => tied_same fun _ _ => tied_bind (payOath_alike h env v o _ _) ?_
    rintro ⟨x, y⟩ ⟨x', y'⟩ ⟨hx, rfl⟩
    dsimp only at hx ⊢
    rw [hx.perms]
    exact tied_same fun _ _ => finish_alike (perms_alike hx _) _ _
  case setLevelAuth o a l r =>
    simp only [body, Perp.setLevelAuth]
    rw [load_alike' h ha]
    refine tied_same fun v _ => tied_same fun _ _ => tied_bind (payOath_alike h env v o _ _) ?_
    rintro ⟨x, y⟩ ⟨x', y'⟩ ⟨hx, rfl⟩
    dsimp only at hx ⊢
    rw [hx.perms]
    exact finish_alike (perms_alike hx _) _ _
  case addCollateral o a t =>
    simp only [body, opAddCollateral]
    rw [load_alike' h ha, h.okBucket]
    refine tied_same fun _ _ => tied_same fun v _ => tied_same fun _ _ => tied_bind (depositTokens_alike h env v o _) ?_
    rintro ⟨x, w⟩ ⟨x', w'⟩ ⟨hx, rfl⟩
    exact tied_bind (commit_alike' hx w) fun _ _ h2 => tied_pure ⟨h2, rfl⟩
  case removeCollateralRequest o e a t c =>
    simp only [body, Perp.removeCollateralRequest]
    rw [load_alike' h ha]
    refine tied_same fun v _ => tied_same fun _ _ => tied_bind (payOath_alike h env v o _ _) ?_
    rintro ⟨x, y⟩ ⟨x', y'⟩ ⟨hx, rfl⟩
    dsimp only at hx ⊢
    rw [hx.now]
    exact tied_same fun _ _ => tied_same fun _ _ => tied_same fun _ _ => finish_alike hx _ _
  case marginOrderRequest o a x p q st =>
    simp only [body, Perp.marginOrderRequest]
    rw [load_alike' h ha]
    refine tied_same fun v _ => tied_same fun _ _ => tied_bind (payOath_alike h env v o _ _) ?_
    rintro ⟨x, y⟩ ⟨x', y'⟩ ⟨hx, rfl⟩
    dsimp only at hx ⊢
    rw [hx.now]
    iterate 7 refine tied_same fun _ _ => ?_
    exact finish_alike hx _ _
  case marginOrderTpSlRequest o a x tp sl =>
    simp only [body, Perp.marginOrderTpSlRequest]
    rw [load_alike' h ha]
    refine tied_same fun v _ => tied_same fun _ _ => tied_bind (payOath_alike h env v o _ _) ?_
    rintro ⟨x, y⟩ ⟨x', y'⟩ ⟨hx, rfl⟩
    dsimp only at hx ⊢
    rw [hx.now]
    iterate 5 refine tied_same fun _ _ => ?_
    exact finish_alike hx _ _
  case cancelRequests o a l =>
    simp only [body, opCancelRequests]
    rw [load_alike' h ha]
    refine tied_same fun v _ => tied_same fun _ _ => tied_bind (payOath_alike h env v o _ _) ?_
    rintro ⟨x, y⟩ ⟨x', y'⟩ ⟨hx, rfl⟩
    exact tied_same fun _ _ => finish_alike hx _ _
  case processRequest a i u =>
    simp only [body, Perp.processRequest]
    rw [load_alike' h ha, h.now, h.config]
    refine tied_same fun v _ => tied_same fun r _ => tied_same fun c _ => tied_bind (r := SameOut V) ?_ ?_
    · unfold processBody
      split
      · exact finish_alike h _ _
      · refine tied_bind (keeperLoad_alike h env _ u) ?_
        rintro ⟨x, y⟩ ⟨x', y'⟩ ⟨hx, rfl⟩
        dsimp only at hx ⊢
        rw [hx.dist]
        refine tied_same fun w _ => tied_bind (commit_alike' hx w.1) fun _ _ h2 => tied_pure ⟨h2, rfl⟩
    · rintro ⟨x, y⟩ ⟨x', y'⟩ ⟨hx, hy⟩
      dsimp only at hx hy ⊢
      subst hy
      exact tied_bind (mintReward_alike hx env _) fun _ _ h2 => tied_pure ⟨h2, rfl⟩
  case swapDebt a r p u =>
    simp only [body, opSwapDebt]
    rw [load_alike' h ha, h.okBucket]
    refine tied_same fun _ _ => tied_same fun v _ => tied_bind (keeperLoad_alike h env _ u) ?_
    rintro ⟨x, y⟩ ⟨x', y'⟩ ⟨hx, rfl⟩
    dsimp only at hx ⊢
    rw [hx.dist]
    exact tied_same fun w _ => tied_bind (commit_alike' hx w.1) fun _ _ h2 => tied_pure ⟨h2, rfl⟩
  case liquidate a p u =>
    simp only [body, opLiquidate]
    rw [load_alike' h ha, h.okBucket]
    refine tied_same fun _ _ => tied_same fun v _ => tied_bind (keeperLoad_alike h env _ u) ?_
    rintro ⟨x, y⟩ ⟨x', y'⟩ ⟨hx, rfl⟩
    dsimp only at hx ⊢
    rw [hx.dist]
    exact tied_same fun w _ => tied_bind (commit_alike' hx w.1) fun _ _ h2 =>
      tied_bind (mintReward_alike h2 env _) fun _ _ h3 => tied_pure ⟨h3, rfl⟩
  case autoDeleverage a p u =>
    simp only [body, opAutoDeleverage]
    rw [load_alike' h ha]
    refine tied_same fun v _ => tied_bind (keeperLoad_alike h env _ u) ?_
    rintro ⟨x, y⟩ ⟨x', y'⟩ ⟨hx, rfl⟩
    dsimp only at hx ⊢
    rw [hx.dist]
    exact tied_same fun w _ => tied_bind (commit_alike' hx w.1) fun _ _ h2 =>
      tied_bind (mintReward_alike h2 env _) fun _ _ h3 => tied_pure ⟨h3, rfl⟩

/-- The accounts a call may name while the accounts outside `V` stay out of sight. -/
def Op.within (V : Addr → Prop) (op : Op) : Prop := ∀ a, op.account = some a → V a

theorem step_alike (env : Env) (cl : Caller) {s s' : State} (h : Alike V s s') {op : Op} (hv : op.within V) :
    Tied (SameOut V) (step env cl s op) (step env cl s' op) := by
  have hb : Tied (SameOut V) (body env cl s op) (body env cl s' op) := by
    cases hn : op.account with
    | none => exact body_alike_none env cl h hn
    | some a => exact body_alike_some env cl h hn (hv a hn)
  obtain ⟨X, rfl, hX⟩ := alike_mk h
  have e2 : checkOwner cl { s with accounts := X } op = checkOwner cl s op := by
    unfold checkOwner; cases op <;> rfl
  unfold step
  rw [e2]
  exact tied_same fun _ _ => tied_same fun _ _ => tied_same fun _ _ => hb

/-- **C63.** What a call does does not depend on the accounts it does not name: on two ledgers that differ only in
accounts outside `V`, a call that names none of these fails with the same error on both … -/
theorem c63_refusal {env : Env} {cl : Caller} {s s' : State} {op : Op} (h : Alike V s s') (hv : op.within V) (e : Err) :
    step env cl s op = Except.error e ↔ step env cl s' op = Except.error e := by
  have ht := step_alike env cl h hv
  generalize step env cl s op = x at ht
  generalize step env cl s' op = y at ht
  cases x <;> cases y
  · cases ht; exact Iff.rfl
  · cases ht
  · cases ht
  · exact ⟨fun h => (by cases h), fun h => (by cases h)⟩

/-- **C63.** … or succeeds on both, with the same outcome (payments, indexes, events), and leaves ledgers that again
differ only in accounts outside `V` — which it has not touched. -/
theorem c63_call {env : Env} {cl : Caller} {s s' t : State} {op : Op} {o : Out} (h : Alike V s s') (hv : op.within V)
    (ho : step env cl s op = Except.ok (t, o)) :
    ∃ t', step env cl s' op = Except.ok (t', o) ∧ Alike V t t' ∧
      ∀ a, ¬ V a → t.accounts.get a = s.accounts.get a ∧ t'.accounts.get a = s'.accounts.get a := by
  have ht := step_alike env cl h hv
  rw [ho] at ht
  cases hy : step env cl s' op with
  | error e => rw [hy] at ht; cases ht
  | ok r =>
    obtain ⟨t', o'⟩ := r
    rw [hy] at ht
    obtain ⟨h1, h2⟩ := ht
    obtain rfl : o = o' := h2
    refine ⟨t', rfl, h1, fun a ha => ⟨?_, ?_⟩⟩
    · exact body_accounts (step_body ho) a fun e => ha (hv a e)
    · exact body_accounts (step_body hy) a fun e => ha (hv a e)

theorem runOps_alike (env : Env) (cl : Caller) {ops : List Op} (hv : ∀ op ∈ ops, op.within V) :
    ∀ {s s' : State}, Alike V s s' → Tied (fun x y => Alike V x.1 y.1 ∧ x.2 = y.2) (runOps env cl s ops) (runOps env cl s' ops) := by
  induction ops with
  | nil => intro s s' h; exact tied_pure ⟨h, rfl⟩
  | cons op ops ih =>
    intro s s' h
    unfold runOps
    refine tied_bind (step_alike env cl h (hv op List.mem_cons_self)) ?_
    rintro ⟨x, o⟩ ⟨x', o'⟩ ⟨hx, ho⟩
    dsimp only at hx ho ⊢
    subst ho
    refine tied_bind (ih (fun q hq => hv q (List.mem_cons_of_mem _ hq)) hx) ?_
    rintro ⟨y, l⟩ ⟨y', l'⟩ ⟨hy, hl⟩
    dsimp only at hy hl ⊢
    subst hl
    exact tied_pure ⟨hy, rfl⟩

/-- **C63.** The same for whole transactions. -/
theorem c63_transaction {env : Env} {cl : Caller} {s s' : State} {ops : List Op} (h : Alike V s s')
    (hv : ∀ op ∈ ops, op.within V) :
    (∀ e, runTx env cl s ops = Except.error e ↔ runTx env cl s' ops = Except.error e) ∧
    (∀ t os, runTx env cl s ops = Except.ok (t, os) → ∃ t', runTx env cl s' ops = Except.ok (t', os) ∧ Alike V t t') := by
  have ht : Tied (fun x y => Alike V x.1 y.1 ∧ x.2 = y.2) (runTx env cl s ops) (runTx env cl s' ops) := by
    unfold runTx
    refine tied_bind (runOps_alike env cl hv h) ?_
    rintro ⟨y, l⟩ ⟨y', l'⟩ ⟨hy, hl⟩
    dsimp only at hy hl ⊢
    subst hl
    obtain ⟨X, rfl, hX⟩ := alike_mk hy
    exact tied_same fun _ _ => tied_pure ⟨hy, rfl⟩
  generalize runTx env cl s ops = x at ht
  generalize runTx env cl s' ops = y at ht
  cases x with
  | error e =>
    cases y with
    | error e' => cases ht; exact ⟨fun _ => Iff.rfl, fun _ _ h => (by cases h)⟩
    | ok b => cases ht
  | ok a =>
    cases y with
    | error e' => cases ht
    | ok b =>
      refine ⟨fun e => ⟨fun h => (by cases h), fun h => (by cases h)⟩, fun t os h => ?_⟩
      cases h
      obtain ⟨h1, h2⟩ := ht
      exact ⟨b.1, by rw [show os = b.2 from h2], h1⟩

/-- **C63.** Nor do the reads of the pool, of the pairs, of referrals and of an account show anything of the accounts
outside `V`. -/
theorem c63_reads {s s' : State} (h : Alike V s s') :
    getPoolDetails s' = getPoolDetails s ∧ (∀ ids, getPairDetails s' ids = getPairDetails s ids) ∧
    (∀ r, getReferralDetails s' r = getReferralDetails s r) ∧
    ∀ a, V a → ∀ n stop, getAccountDetails s' a n stop = getAccountDetails s a n stop := by
  obtain ⟨X, rfl, hX⟩ := alike_mk h
  refine ⟨rfl, fun _ => rfl, fun _ => rfl, fun a ha n stop => ?_⟩
  unfold getAccountDetails
  rw [load_alike hX ha]

/-! ## Calls that concern nobody else -/

/-- Placing and cancelling requests of account `a` without a fee oath. -/
def Op.private (a : Addr) : Op → Prop
  | .removeCollateralRequest none _ b _ _ => b = a
  | .marginOrderRequest none b _ _ _ _ => b = a
  | .marginOrderTpSlRequest none b _ _ _ => b = a
  | .cancelRequests none b _ => b = a
  | _ => False

/-- What such a call can depend on. -/
structure Own (a : Addr) (s s' : State) : Prop where
  now : s'.now = s.now
  config : s'.config = s.config
  roles : s'.roles = s.roles
  authority : s'.authority = s.authority
  account : s'.accounts.get a = s.accounts.get a

/-- The same loaded account up to the data of its referral. -/
def Peer (v v' : VAccount) : Prop := v.referralRewarded = false ∧ ∃ d, v' = { v with referralData := d }

theorem peer_load {env : Env} {a : Addr} {s s' : State} (h : Reach env s) (h' : Reach env s') (ho : Own a s s') :
    Tied (fun v v' => Peer v v' ∧ v.addr = a) (s.load a) (s'.load a) := by
  have r1 := reach_resolves h
  have r2 := reach_resolves h'
  unfold State.load VAccount.new
  rw [ho.account]
  cases hg : s.accounts.get a with
  | none => exact rfl
  | some acc =>
    have hl : ∃ d d', loadReferral s.referrals acc.referralId = Except.ok d ∧
        loadReferral s'.referrals acc.referralId = Except.ok d' := by
      cases hr : acc.referralId with
      | none => exact ⟨none, none, rfl, rfl⟩
      | some r =>
        obtain ⟨d, hd⟩ := r1.referral a acc r hg hr
        obtain ⟨d', hd'⟩ := r2.referral a acc r (by rw [ho.account, hg]) hr
        exact ⟨some d, some d', by simp only [loadReferral, hd]; rfl, by simp only [loadReferral, hd']; rfl⟩
    obtain ⟨d, d', h1, h2⟩ := hl
    refine tied_bind (r := fun x y => x = acc ∧ y = acc) ⟨rfl, rfl⟩ ?_
    rintro _ _ ⟨rfl, rfl⟩
    rw [h1, h2]
    exact tied_pure ⟨⟨rfl, d', rfl⟩, rfl⟩

theorem peer_push {v v' : VAccount} (h : Peer v v') (now : Int) (r : Request) (x y : Nat) (st : Status) (e : List Addr) :
    Tied (fun w w' => Peer w w' ∧ w.addr = v.addr) (v.pushRequest now r x y st e) (v'.pushRequest now r x y st e) := by
  obtain ⟨h1, d, rfl⟩ := h
  unfold VAccount.pushRequest
  exact tied_same fun _ _ => tied_same fun _ _ => tied_same fun _ _ => tied_pure ⟨⟨h1, d, rfl⟩, rfl⟩

theorem peer_exit {v v' : VAccount} (h : Peer v v') (now : Int) (o : OrderArgs) (l : Option PriceLimit) (cs : List Nat) :
    Tied (fun w w' => Peer w w' ∧ w.addr = v.addr) (pushExit v now o l cs) (pushExit v' now o l cs) := by
  unfold pushExit
  cases l with
  | none => exact tied_pure ⟨h, rfl⟩
  | some l => exact tied_same fun _ _ => peer_push h _ _ _ _ _ _

theorem peer_cancel {v v' : VAccount} (h : Peer v v') (is : List Nat) :
    Tied (fun w w' => Peer w w' ∧ w.addr = v.addr) (v.cancelRequests is) (v'.cancelRequests is) := by
  have one : ∀ (e : Nat × KeeperRequest) {v v' : VAccount}, Peer v v' →
      Tied (fun w w' => Peer w w' ∧ w.addr = v.addr) (v.cancelOne e) (v'.cancelOne e) := by
    rintro e v v' ⟨h1, d, rfl⟩
    unfold VAccount.cancelOne
    refine tied_same fun _ _ => tied_same fun _ _ => ?_
    refine tied_bind (r := fun w w' => Peer w w' ∧ w.addr = v.addr) ?_ ?_
    · unfold VAccount.moveActive VAccount.removeActive
      split <;> split
      · exact tied_pure ⟨⟨h1, d, rfl⟩, rfl⟩
      · exact tied_pure ⟨⟨h1, d, rfl⟩, rfl⟩
      · exact tied_same fun _ _ => tied_pure ⟨⟨h1, d, rfl⟩, rfl⟩
      · exact tied_pure ⟨⟨h1, d, rfl⟩, rfl⟩
    · rintro w w' ⟨⟨h2, d', rfl⟩, h3⟩
      exact tied_pure ⟨⟨h2, d', rfl⟩, h3⟩
  have all : ∀ (l : List (Nat × KeeperRequest)) {v v' : VAccount}, Peer v v' →
      Tied (fun w w' => Peer w w' ∧ w.addr = v.addr) (l.foldlM VAccount.cancelOne v) (l.foldlM VAccount.cancelOne v') := by
    intro l
    induction l with
    | nil => intro v v' h; exact tied_pure ⟨h, rfl⟩
    | cons e l ih =>
      intro v v' h
      rw [List.foldlM_cons, List.foldlM_cons]
      refine tied_bind (one e h) ?_
      rintro w w' ⟨h1, h2⟩
      have := ih h1
      rw [h2] at this
      exact this
  have hk : v'.keeperRequests is = v.keeperRequests is := by obtain ⟨-, d, rfl⟩ := h; rfl
  unfold VAccount.cancelRequests
  rw [hk]
  exact tied_same fun _ _ => all _ h

/-- Both ledgers get the same new account `a` and nothing else. -/
def OnlyOwn (a : Addr) (s s' : State) (x y : State × Out) : Prop :=
  x.2 = y.2 ∧ ∃ acc, x.1 = { s with accounts := s.accounts.set a acc } ∧ y.1 = { s' with accounts := s'.accounts.set a acc }

theorem peer_commit {a : Addr} {s s' : State} {v v' : VAccount} (h : Peer v v') (ha : v.addr = a) (o : Out) :
    Tied (OnlyOwn a s s') (s.commitAcc v >>= fun s => pure (s, o)) (s'.commitAcc v' >>= fun s => pure (s, o)) := by
  obtain ⟨h1, d, rfl⟩ := h
  have hr : ∀ m, v.realizeReferral m = pure m := by intro m; unfold VAccount.realizeReferral; rw [h1]; rfl
  have hr' : ∀ m, ({ v with referralData := d } : VAccount).realizeReferral m = pure m := by
    intro m; unfold VAccount.realizeReferral; simp only [h1]; rfl
  subst ha
  unfold State.commitAcc
  rw [hr, hr']
  simp only [pure_bind, bind_assoc]
  exact tied_same fun acc _ => tied_pure ⟨rfl, acc, rfl, rfl⟩

theorem peer_verify {v v' : VAccount} (h : Peer v v') (cl : Caller) (l : Level) : verifyLevel cl v' l = verifyLevel cl v l := by
  obtain ⟨-, d, rfl⟩ := h; rfl

theorem peer_pay {s s' : State} (hc : s'.config = s.config) {v v' : VAccount} (h : Peer v v') (env : Env) (ids ids' plain : List PairId) :
    Tied (fun x y => x.1 = s ∧ y.1 = s' ∧ x.2.1 = v ∧ y.2.1 = v' ∧ x.2.2 = y.2.2) (payOath env s v none ids plain)
      (payOath env s' v' none ids' plain) := by
  unfold payOath
  rw [hc]
  exact tied_same fun _ _ => tied_pure ⟨rfl, rfl, rfl, rfl, rfl⟩

theorem peer_limit {v v' : VAccount} (h : Peer v v') (c : VConfig) : assertActiveLimit c v' = assertActiveLimit c v := by
  obtain ⟨-, d, rfl⟩ := h; rfl

theorem peer_len {v v' : VAccount} (h : Peer v v') : v'.requestsLen = v.requestsLen := by
  obtain ⟨-, d, rfl⟩ := h; rfl

theorem private_account {a : Addr} {op : Op} (hp : op.private a) : op.account = some a := by
  unfold Op.private at hp
  split at hp <;> first | (subst hp; rfl) | cases hp

theorem body_private {env : Env} {cl : Caller} {a : Addr} {s s' : State} (h : Reach env s) (h' : Reach env s')
    (ho : Own a s s') {op : Op} (hp : op.private a) :
    Tied (OnlyOwn a s s') (body env cl s op) (body env cl s' op) := by
  unfold Op.private at hp
  split at hp
  · rename_i e b t c
    subst hp
    simp only [body, Perp.removeCollateralRequest]
    refine tied_bind (peer_load h h' ho) ?_
    rintro v v' ⟨hv, hb⟩
    rw [peer_verify hv]
    refine tied_same fun _ _ => tied_bind (peer_pay ho.config hv env _ _ _) ?_
    rintro ⟨x, y, z⟩ ⟨x', y', z'⟩ ⟨e1, e2, e3, e4, e5⟩
    dsimp only at e1 e2 e3 e4 e5 ⊢
    subst e1 e2 e3 e4 e5
    rw [ho.now, peer_len hv]
    refine tied_same fun _ _ => tied_bind (peer_push hv _ _ _ _ _ _) ?_
    rintro w w' ⟨hw, hb'⟩
    rw [peer_limit hw]
    exact tied_same fun _ _ => peer_commit hw (by rw [hb', hb]) _
  · rename_i b x p q st
    subst hp
    simp only [body, Perp.marginOrderRequest]
    refine tied_bind (peer_load h h' ho) ?_
    rintro v v' ⟨hv, hb⟩
    rw [peer_verify hv]
    refine tied_same fun _ _ => tied_bind (peer_pay ho.config hv env _ _ _) ?_
    rintro ⟨x, y, z⟩ ⟨x', y', z'⟩ ⟨e1, e2, e3, e4, e5⟩
    dsimp only at e1 e2 e3 e4 e5 ⊢
    subst e1 e2 e3 e4 e5
    rw [ho.now, peer_len hv]
    iterate 5 refine tied_same fun _ _ => ?_
    refine tied_bind (peer_push hv _ _ _ _ _ _) ?_
    rintro w w' ⟨hw, hb'⟩
    rw [peer_limit hw]
    exact tied_same fun _ _ => peer_commit hw (by rw [hb', hb]) _
  · rename_i b x tp sl
    subst hp
    simp only [body, Perp.marginOrderTpSlRequest]
    refine tied_bind (peer_load h h' ho) ?_
    rintro v v' ⟨hv, hb⟩
    rw [peer_verify hv]
    refine tied_same fun _ _ => tied_bind (peer_pay ho.config hv env _ _ _) ?_
    rintro ⟨x, y, z⟩ ⟨x', y', z'⟩ ⟨e1, e2, e3, e4, e5⟩
    dsimp only at e1 e2 e3 e4 e5 ⊢
    subst e1 e2 e3 e4 e5
    rw [ho.now, peer_len hv]
    refine tied_same fun _ _ => tied_bind (peer_push hv _ _ _ _ _ _) ?_
    rintro w w' ⟨hw, hb'⟩
    refine tied_bind (peer_exit hw _ _ _ _) ?_
    rintro w1 w1' ⟨hw1, hb1⟩
    refine tied_bind (peer_exit hw1 _ _ _ _) ?_
    rintro w2 w2' ⟨hw2, hb2⟩
    rw [peer_limit hw2]
    exact tied_same fun _ _ => peer_commit hw2 (by rw [hb2, hb1, hb', hb]) _
  · rename_i b l
    subst hp
    simp only [body, opCancelRequests]
    refine tied_bind (peer_load h h' ho) ?_
    rintro v v' ⟨hv, hb⟩
    rw [peer_verify hv]
    refine tied_same fun _ _ => tied_bind (peer_pay ho.config hv env _ _ _) ?_
    rintro ⟨x, y, z⟩ ⟨x', y', z'⟩ ⟨e1, e2, e3, e4, e5⟩
    dsimp only at e1 e2 e3 e4 e5 ⊢
    subst e1 e2 e3 e4 e5
    refine tied_bind (peer_cancel hv _) ?_
    rintro w w' ⟨hw, hb'⟩
    exact peer_commit hw (by rw [hb', hb]) _
  · cases hp

theorem step_private {env : Env} (cl : Caller) {a : Addr} {s s' : State} (h : Reach env s) (h' : Reach env s')
    (ho : Own a s s') {op : Op} (hp : op.private a) :
    Tied (OnlyOwn a s s') (step env cl s op) (step env cl s' op) := by
  have hb := body_private (cl := cl) h h' ho hp
  have e1 : checkRole cl s' op = checkRole cl s op := by unfold checkRole; rw [ho.roles]
  have e2 : checkOwner cl s' op = checkOwner cl s op := by
    have : op.ownerRule s' = op.ownerRule s := by
      unfold Op.private at hp
      split at hp <;> first | rfl | cases hp
    unfold checkOwner; rw [this]
  have e3 : checkAuthority s' op = checkAuthority s op := by unfold checkAuthority; rw [ho.authority]
  unfold step
  rw [e1, e2, e3]
  exact tied_same fun _ _ => tied_same fun _ _ => tied_same fun _ _ => hb

/-- **C63.** Nobody else can stand in the way of placing or cancelling requests: in any two reachable states with the
same clock, settings, roles and account `a`, such a call (without a fee oath) fails with the same error … -/
theorem c63_private_refusal {env : Env} {cl : Caller} {a : Addr} {s s' : State} {op : Op} (h : Reach env s) (h' : Reach env s')
    (ho : Own a s s') (hp : op.private a) (e : Err) :
    step env cl s op = Except.error e ↔ step env cl s' op = Except.error e := by
  have ht := step_private cl h h' ho hp
  generalize step env cl s op = x at ht
  generalize step env cl s' op = y at ht
  cases x <;> cases y
  · cases ht; exact Iff.rfl
  · cases ht
  · cases ht
  · exact ⟨fun h => (by cases h), fun h => (by cases h)⟩

/-- **C63.** … or does the same thing in both, to account `a` alone. -/
theorem c63_private {env : Env} {cl : Caller} {a : Addr} {s s' t : State} {op : Op} {o : Out} (h : Reach env s)
    (h' : Reach env s') (ho : Own a s s') (hp : op.private a) (hs : step env cl s op = Except.ok (t, o)) :
    ∃ acc, t = { s with accounts := s.accounts.set a acc } ∧
      step env cl s' op = Except.ok ({ s' with accounts := s'.accounts.set a acc }, o) := by
  have ht := step_private cl h h' ho hp
  rw [hs] at ht
  cases hy : step env cl s' op with
  | error e => rw [hy] at ht; cases ht
  | ok r =>
    rw [hy] at ht
    obtain ⟨h1, acc, h2, h3⟩ := ht
    refine ⟨acc, h2, ?_⟩
    rw [← h3, show o = r.2 from h1]

/-- Calls that change the rules for everybody: the clock, the settings, the roles, the authority token. -/
def Op.governs : Op → Prop
  | .depositAuthority _ | .withdrawAuthority | .updateExchangeConfig _ | .updatePairConfigs _ | .updateCollateralConfigs _
  | .removeCollateralConfig _ | .setRole _ _ | .tick _ => True
  | _ => False

theorem own_step {env : Env} {cl : Caller} {a : Addr} {s s' : State} {op : Op} {o : Out} (hg : ¬ op.governs)
    (hn : op.account ≠ some a) (h : step env cl s op = Except.ok (s', o)) : Own a s s' := by
  have he := body_admin (step_body h)
  refine ⟨?_, ?_, ?_, ?_, body_accounts (step_body h) a hn⟩
  · rcases he.now with e | ⟨rfl, -⟩
    · exact e
    · exact absurd trivial hg
  · rcases he.config with e | ⟨_, rfl, -⟩ | ⟨_, rfl, -⟩ | ⟨_, rfl, -⟩ | ⟨_, rfl, -⟩
    · exact e
    all_goals exact absurd trivial hg
  · rcases he.roles with e | ⟨_, _, rfl, -⟩
    · exact e
    · exact absurd trivial hg
  · rcases he.authority with e | ⟨_, rfl, -⟩ | ⟨rfl, -⟩
    · exact e
    all_goals exact absurd trivial hg

/-- A history of calls by anybody that neither names account `a` nor changes the rules for everybody. -/
inductive Meanwhile (env : Env) (a : Addr) : State → State → Prop where
  | refl {s : State} : Meanwhile env a s s
  | step {s s' s'' : State} {cl : Caller} {op : Op} {o : Out} : Meanwhile env a s s' → ¬ op.governs → op.account ≠ some a →
      step env cl s' op = Except.ok (s'', o) → Meanwhile env a s s''

theorem meanwhile_own {env : Env} {a : Addr} {s s' : State} (h : Reach env s) (hm : Meanwhile env a s s') :
    Reach env s' ∧ Own a s s' := by
  induction hm with
  | refl => exact ⟨h, ⟨rfl, rfl, rfl, rfl, rfl⟩⟩
  | step _ hg hn hs ih =>
    have ho := own_step hg hn hs
    exact ⟨ih.1.step hs, ⟨ho.now.trans ih.2.now, ho.config.trans ih.2.config, ho.roles.trans ih.2.roles,
      ho.authority.trans ih.2.authority, ho.account.trans ih.2.account⟩⟩

/-- **C63.** Nobody can get in the way: whatever calls others manage to make first, a request that could be placed or cancelled
before them is placed or cancelled after them just the same, under the same index. -/
theorem c63_unobstructed {env : Env} {cl : Caller} {a : Addr} {s s' t : State} {op : Op} {o : Out} (h : Reach env s)
    (hp : op.private a) (hm : Meanwhile env a s s') (hs : step env cl s op = Except.ok (t, o)) :
    ∃ t', step env cl s' op = Except.ok (t', o) ∧ t'.accounts.get a = t.accounts.get a := by
  obtain ⟨h', ho⟩ := meanwhile_own h hm
  obtain ⟨acc, rfl, h1⟩ := c63_private h h' ho hp hs
  exact ⟨_, h1, by simp only [AMap.get_set_self]⟩

/-- **C63.** And the order in which such a call and anybody else's call are made is irrelevant. -/
theorem c63_commute {env : Env} {cl cl' : Caller} {a : Addr} {s t t' : State} {op op' : Op} {o o' : Out} (h : Reach env s)
    (hp : op.private a) (hn : op'.account ≠ some a) (hg : ¬ op'.governs)
    (h1 : step env cl s op = Except.ok (t, o)) (h2 : step env cl' s op' = Except.ok (t', o')) :
    ∃ u u', step env cl' t op' = Except.ok (u, o') ∧ step env cl t' op = Except.ok (u', o) ∧
      u' = { u with accounts := u'.accounts } ∧ ∀ b, u'.accounts.get b = u.accounts.get b := by
  obtain ⟨acc, rfl, h3⟩ := c63_private h (h.step h2) (own_step hg hn h2) hp h1
  have hA : Alike (fun b => b ≠ a) s { s with accounts := s.accounts.set a acc } :=
    ⟨rfl, fun b hb => AMap.get_set_ne _ _ (Ne.symm hb)⟩
  obtain ⟨u, h4, h5, h6⟩ := c63_call (op := op') hA (fun b hb e => hn (by rw [hb, e])) h2
  refine ⟨u, _, h4, h3, ?_, fun b => ?_⟩
  · have := h5.shared
    rw [this]
  · by_cases hb : b = a
    · subst hb
      rw [AMap.get_set_self, (h6 b (fun h => h rfl)).2, AMap.get_set_self]
    · rw [AMap.get_set_ne _ _ (Ne.symm hb), h5.seen b hb]

end Perp
