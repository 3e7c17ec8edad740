import Verif.Ops

/-!
# Token wrapper (C48) — token_wrapper/src/token_wrapper.rs

The token wrapper is a separate component with its own users; it is modelled as its own transition
system.  `BASE` is minted only by the wrapper (`BASE_AUTHORITY_RESOURCE`, token_wrapper.rs:150, 169).
-/

namespace Perp
namespace Wrapper

/-- The flash oath resource created by the wrapper: token_wrapper.rs:65-87 -/
def FLASH : Res := 5

/-- token_wrapper.rs:49-54 with `Input` (token_wrapper/src/token_wrapper/structs.rs), plus the total
supplies of the base token and of the flash oath. -/
structure TW where
  authority : Dec
  inputs : AMap Res (Dec × Bool)
  baseSupply : Dec
  flashSupply : Dec

/-- Calls. -/
inductive WOp where
  | addInput (r : Res)
  | updateWrappable (r : Res) (b : Bool)
  | wrap (child : Bucket)
  | unwrap (parent : Bucket) (child : Res)
  | flashLoan (amount : Dec)
  | repay (oath token : Bucket)

/-- Result of a call: the buckets returned, base tokens lent and base tokens repaid. -/
structure WOut where
  buckets : List Bucket := []
  lent : Dec := 0
  repaid : Dec := 0

/-- Engine rule for buckets: non-negative multiples of the granularity and no more than exists. -/
def okB (env : Env) (s : TW) (b : Bucket) : Bool :=
  decide (0 ≤ b.amt ∧ b.amt % (env.gran b.res : Int) = 0 ∧ (b.res = BASE → b.amt ≤ s.baseSupply) ∧
    (b.res = FLASH → b.amt ≤ s.flashSupply))

/-- Burning a bucket changes the supply of its resource.  Inside the wrapper base tokens and flash
oaths can both be burnt (token_wrapper.rs:79-82; 162 and 190 burn base tokens without further
authorization). -/
def burn (s : TW) (b : Bucket) : TW :=
  { s with baseSupply := if b.res = BASE then s.baseSupply - b.amt else s.baseSupply
           flashSupply := if b.res = FLASH then s.flashSupply - b.amt else s.flashSupply }

/-- Minting base tokens inside `authorize!`: token_wrapper.rs:41-47, 150-152, 169-171 -/
def mintBase (env : Env) (s : TW) (amount : Dec) : R TW := do
  require (decide (1 ≤ s.authority)) .authority
  let x ← mintAmount (env.gran BASE) amount
  let t ← dadd s.baseSupply x
  pure { s with baseSupply := t }

/-- `add_input`: token_wrapper.rs:115-126 -/
def addInput (s : TW) (r : Res) : TW :=
  if s.inputs.has r then s else { s with inputs := s.inputs.set r (0, true) }

/-- `update_wrappable`: token_wrapper.rs:128-131 -/
def updateWrappable (s : TW) (r : Res) (b : Bool) : R TW := do
  let x ← expect (s.inputs.get r) .childToken
  pure { s with inputs := s.inputs.set r (x.1, b) }

/-- `wrap`: token_wrapper.rs:142-156.  A flash oath cannot be deposited (token_wrapper.rs:83-86). -/
def wrap (env : Env) (s : TW) (child : Bucket) : R (TW × WOut) := do
  let x ← expect (s.inputs.get child.res) .childToken
  require x.2 .wrapDisabled
  let s ← mintBase env s child.amt
  require (decide (child.res ≠ FLASH)) .vault
  let v ← dadd x.1 child.amt
  pure ({ s with inputs := s.inputs.set child.res (v, x.2) }, { buckets := [⟨BASE, child.amt⟩] })

/-- `unwrap`: token_wrapper.rs:158-165.  Nothing checks which resource `parent_token` is. -/
def unwrap (env : Env) (s : TW) (parent : Bucket) (child : Res) : R (TW × WOut) := do
  let x ← expect (s.inputs.get child) .childToken
  let t ← takeAmount (env.gran child) x.1 parent.amt .toZero
  let s := { s with inputs := s.inputs.set child (x.1 - t, x.2) }
  pure (burn s parent, { buckets := [⟨child, t⟩] })

/-- `flash_loan`: token_wrapper.rs:167-174 -/
def flashLoan (env : Env) (s : TW) (amount : Dec) : R (TW × WOut) := do
  let x ← mintAmount (env.gran FLASH) amount
  let f ← dadd s.flashSupply x
  let s ← mintBase env { s with flashSupply := f } amount
  pure (s, { buckets := [⟨BASE, amount⟩, ⟨FLASH, amount⟩], lent := amount })

/-- `repay_flash_loan`: token_wrapper.rs:176-194 -/
def repay (env : Env) (s : TW) (oath token : Bucket) : R (TW × WOut) := do
  require (decide (oath.res = FLASH)) .flashOath
  require (decide (token.res = BASE)) .invalidPaymentToken
  require (decide (token.amt ≥ oath.amt)) .flashPayment
  let x ← takeAmount (env.gran BASE) token.amt oath.amt .toInfinity
  pure (burn (burn s ⟨BASE, x⟩) oath, { buckets := [⟨BASE, token.amt - x⟩], repaid := x })

/-- One call; the buckets supplied obey the engine rule. -/
def wstep (env : Env) (s : TW) : WOp → R (TW × WOut)
  | .addInput r => pure (addInput s r, {})
  | .updateWrappable r b => do
      let s ← updateWrappable s r b
      pure (s, {})
  | .wrap c => do
      require (okB env s c) .badBucket
      wrap env s c
  | .unwrap p c => do
      require (okB env s p) .badBucket
      unwrap env s p c
  | .flashLoan a => flashLoan env s a
  | .repay o t => do
      require (okB env s o && okB env s t) .badBucket
      repay env s o t

/-- A sequence of calls. -/
def wrun (env : Env) (s : TW) : List WOp → R (TW × List WOut)
  | [] => .ok (s, [])
  | op :: ops => do
      let (s, o) ← wstep env s op
      let (s, os) ← wrun env s ops
      pure (s, o :: os)

/-- A transaction: no flash oath bucket may dangle at the end (it cannot be deposited). -/
def wtx (env : Env) (s : TW) (ops : List WOp) : R (TW × List WOut) := do
  let r ← wrun env s ops
  require (decide (r.1.flashSupply = 0)) .oathOutstanding
  pure r

/-! ## Specification -/

/-- Child tokens held by the wrapper, all resources together. -/
def held (s : TW) : Int := s.inputs.sum (fun _ v => v.1)

/-- The wrapper as instantiated: token_wrapper.rs:89-94 -/
def Genesis (s : TW) : Prop :=
  s.inputs = AMap.empty ∧ s.baseSupply = 0 ∧ s.flashSupply = 0

/-- Every `unwrap` in the sequence is handed base tokens (what the code fails to check). -/
def PaysBase : WOp → Prop
  | .unwrap p _ => p.res = BASE
  | _ => True

/-- Sums of the amounts lent and repaid. -/
def lentTotal (os : List WOut) : Int := (os.map (·.lent)).sum
def repaidTotal (os : List WOut) : Int := (os.map (·.repaid)).sum

/-! ## Proofs -/

theorem amountFor_toZero_le {g : Nat} (hg : 0 < g) {a : Int} (ha : 0 ≤ a) :
    amountFor g a .toZero ≤ a := by
  have := tdiv_nonneg_bounds ha (by exact_mod_cast hg : (0 : Int) < g)
  simpa [amountFor] using this.2.1

theorem le_amountFor_toInfinity {g : Nat} (hg : 0 < g) (a : Int) : a ≤ amountFor g a .toInfinity := by
  have hg' : (0 : Int) < g := by exact_mod_cast hg
  have := Int.ediv_mul_le (-a) hg'.ne'
  simp only [amountFor]
  linarith

theorem mintBase_ok {env : Env} {s s' : TW} {a : Dec} (h : mintBase env s a = Except.ok s') :
    0 ≤ a ∧ s' = { s with baseSupply := s.baseSupply + a } := by
  simp only [mintBase, bind_ok, require_ok, mintAmount_ok, dadd_ok, pure_ok] at h
  obtain ⟨-, -, x, ⟨h0, -, -, rfl⟩, t, ⟨-, rfl⟩, rfl⟩ := h
  exact ⟨h0, rfl⟩

/-- Backing invariant. -/
def Backed (s : TW) : Prop :=
  s.baseSupply ≤ held s + s.flashSupply ∧ ∀ r v, s.inputs.get r = some v → 0 ≤ v.1

theorem held_set (s : TW) (r : Res) (x v : Dec × Bool) (hx : s.inputs.get r = some x) :
    held { s with inputs := s.inputs.set r v } = held s + v.1 - x.1 := by
  unfold held
  simp only
  rw [AMap.sum_set]
  simp [AMap.term, hx]
  ring

theorem wstep_backed {env : Env} {s s' : TW} {op : WOp} {o : WOut} (hp : PaysBase op)
    (h : wstep env s op = Except.ok (s', o)) (hb : Backed s) :
    Backed s' ∧ s'.flashSupply - s.flashSupply ≥ o.lent - o.repaid := by
  have hset : ∀ {m : AMap Res (Dec × Bool)} {r : Res} {v : Dec × Bool}, 0 ≤ v.1 →
      (∀ r v, m.get r = some v → 0 ≤ v.1) → ∀ r' v', (m.set r v).get r' = some v' → 0 ≤ v'.1 := by
    intro m r v hv hm r' v' hg
    rw [AMap.get_set] at hg
    split at hg
    · cases hg; exact hv
    · exact hm _ _ hg
  cases op with
  | addInput r =>
    simp only [wstep, pure_ok, Prod.mk.injEq] at h
    obtain ⟨rfl, rfl⟩ := h
    unfold addInput
    split
    · exact ⟨hb, by simp⟩
    · rename_i hr
      refine ⟨⟨?_, hset (by simp) hb.2⟩, by simp⟩
      have : s.inputs.get r = none := by
        rw [AMap.has] at hr
        cases hg : s.inputs.get r with
        | none => rfl
        | some x => simp [hg] at hr
      unfold held
      simp only
      rw [AMap.sum_set]
      have hb1 := hb.1
      unfold held at hb1
      simpa [AMap.term, this] using hb1
  | updateWrappable r b =>
    simp only [wstep, updateWrappable, bind_ok, expect_ok, pure_ok, Prod.mk.injEq] at h
    obtain ⟨s1, ⟨x, hx, rfl⟩, rfl, rfl⟩ := h
    refine ⟨⟨?_, hset (v := (x.1, b)) (show 0 ≤ x.1 from hb.2 r x hx) hb.2⟩, by simp⟩
    rw [held_set s r x _ hx]
    have := hb.1
    simpa using this
  | wrap c =>
    simp only [wstep, wrap, bind_ok, require_ok, okB, decide_eq_true_eq, expect_ok, dadd_ok, pure_ok,
      Prod.mk.injEq] at h
    obtain ⟨-, hok, x, hx, -, -, s1, hs1, -, -, v, ⟨-, rfl⟩, rfl, rfl⟩ := h
    obtain ⟨h0, rfl⟩ := mintBase_ok hs1
    refine ⟨⟨?_, hset (by have := hb.2 _ _ hx; simpa using Int.add_nonneg this h0) hb.2⟩, by simp⟩
    have hh := held_set s c.res x (x.1 + c.amt, x.2) hx
    simp only [held] at hh ⊢
    rw [hh]
    have := hb.1
    simp only [held] at this
    linarith
  | unwrap p c =>
    simp only [wstep, unwrap, bind_ok, require_ok, okB, decide_eq_true_eq, expect_ok, takeAmount_ok,
      pure_ok, Prod.mk.injEq] at h
    obtain ⟨-, hok, x, hx, t, ⟨ht, ht0, -, hle⟩, rfl, rfl⟩ := h
    have hpb : p.res = BASE := hp
    have hnf : p.res ≠ FLASH := by rw [hpb]; decide
    have htle : t ≤ p.amt := by rw [← ht]; exact amountFor_toZero_le (env.gran_pos c) hok.1
    refine ⟨⟨?_, ?_⟩, ?_⟩
    · have hh := held_set s c x (x.1 - t, x.2) hx
      simp only [held, burn, hpb, if_true] at hh ⊢
      rw [hh]
      have := hb.1
      simp only [held] at this
      have hne : ¬ BASE = FLASH := by decide
      simp only [hne, if_false]
      linarith
    · simp only [burn]
      exact hset (by simpa using hle) hb.2
    · simp [burn, hnf]
  | flashLoan a =>
    simp only [wstep, flashLoan, bind_ok, mintAmount_ok, dadd_ok, pure_ok, Prod.mk.injEq] at h
    obtain ⟨x, ⟨-, -, -, rfl⟩, f, ⟨-, rfl⟩, s1, hs1, rfl, rfl⟩ := h
    obtain ⟨h0, rfl⟩ := mintBase_ok hs1
    refine ⟨⟨?_, hb.2⟩, ?_⟩
    · have := hb.1
      simp only [held] at this ⊢
      linarith
    · simp
  | repay ob tb =>
    simp only [wstep, repay, bind_ok, require_ok, okB, Bool.and_eq_true, decide_eq_true_eq,
      takeAmount_ok, pure_ok, Prod.mk.injEq] at h
    obtain ⟨-, hok, -, ho, -, htb, -, hge, x, ⟨hx, hx0, -, hxle⟩, rfl, rfl⟩ := h
    have hle : ob.amt ≤ x := by rw [← hx]; exact le_amountFor_toInfinity (env.gran_pos _) _
    have e1 : ¬ (FLASH = BASE) := by decide
    have e2 : ¬ (BASE = FLASH) := by decide
    refine ⟨⟨?_, hb.2⟩, ?_⟩
    · have := hb.1
      simp only [held] at this ⊢
      simp only [burn, ho, e1, e2, if_false, if_true]
      linarith
    · simp only [burn, ho, e2, if_false, if_true]
      linarith

theorem wrun_backed {env : Env} (ops : List WOp) : ∀ {s s' : TW} {os : List WOut},
    (∀ op ∈ ops, PaysBase op) → wrun env s ops = Except.ok (s', os) → Backed s →
    Backed s' ∧ s'.flashSupply - s.flashSupply ≥ lentTotal os - repaidTotal os := by
  induction ops with
  | nil =>
    intro s s' os _ h hb
    simp only [wrun, Except.ok.injEq, Prod.mk.injEq] at h
    obtain ⟨rfl, rfl⟩ := h
    exact ⟨hb, by simp [lentTotal, repaidTotal]⟩
  | cons op ops ih =>
    intro s s' os hp h hb
    simp only [wrun, bind_ok, pure_ok, Prod.exists, Prod.mk.injEq] at h
    obtain ⟨s1, o, h1, s2, os2, h2, rfl, rfl⟩ := h
    obtain ⟨hb1, hl1⟩ := wstep_backed (hp op (by simp)) h1 hb
    obtain ⟨hb2, hl2⟩ := ih (fun op' hm => hp op' (by simp [hm])) h2 hb1
    refine ⟨hb2, ?_⟩
    simp only [lentTotal, repaidTotal, List.map_cons, List.sum_cons] at hl2 ⊢
    linarith

/-- A history of transactions from instantiation. -/
inductive WReach (env : Env) (P : WOp → Prop) : TW → Prop where
  | init {s : TW} : Genesis s → WReach env P s
  | tx {s s' : TW} {ops : List WOp} {os : List WOut} : WReach env P s → (∀ op ∈ ops, P op) →
      wtx env s ops = Except.ok (s', os) → WReach env P s'

/-- **C48, backing (partial).**  In every history in which `unwrap` is only ever handed base tokens,
after every transaction the base tokens in existence do not exceed the child tokens held.  Missing for
the full property: the code does not check the resource handed to `unwrap`; see
`c48_unbacked_reachable`. -/
theorem c48_backed_partial {env : Env} {s : TW} (h : WReach env PaysBase s) :
    s.baseSupply ≤ held s ∧ s.flashSupply = 0 := by
  have key : Backed s ∧ s.flashSupply = 0 := by
    induction h with
    | init hg =>
      obtain ⟨h1, h2, h3⟩ := hg
      refine ⟨⟨?_, ?_⟩, h3⟩
      · simp [held, h1, h2, h3]
      · intro r v hv; rw [h1] at hv; cases hv
    | tx _ hp hx ih =>
      simp only [wtx, bind_ok, require_ok, decide_eq_true_eq, pure_ok] at hx
      obtain ⟨r, hr, -, hf, rfl⟩ := hx
      exact ⟨(wrun_backed _ hp hr ih.1).1, hf⟩
  have := key.1.1
  rw [key.2] at this
  exact ⟨by linarith, key.2⟩

/-- **C48, flash loans (partial).**  In every such history every transaction repays at least what it
borrowed.  Missing for the full property: see `c48_flash_loan_unpaid`. -/
theorem c48_flash_repaid_partial {env : Env} {s s' : TW} {ops : List WOp} {os : List WOut}
    (h : WReach env PaysBase s) (hp : ∀ op ∈ ops, PaysBase op)
    (hx : wtx env s ops = Except.ok (s', os)) : lentTotal os ≤ repaidTotal os := by
  have h0 := (c48_backed_partial h).2
  have hb : Backed s := by
    clear hx hp ops os s' h0
    induction h with
    | init hg =>
      obtain ⟨h1, h2, h3⟩ := hg
      refine ⟨by simp [held, h1, h2, h3], ?_⟩
      intro r v hv; rw [h1] at hv; cases hv
    | tx _ hp hx ih =>
      simp only [wtx, bind_ok, require_ok, decide_eq_true_eq, pure_ok] at hx
      obtain ⟨r, hr, -, hf, rfl⟩ := hx
      exact (wrun_backed _ hp hr ih).1
  simp only [wtx, bind_ok, require_ok, decide_eq_true_eq, pure_ok] at hx
  obtain ⟨r, hr, -, hf, rfl⟩ := hx
  have := (wrun_backed _ hp hr hb).2
  simp only at hf
  rw [hf, h0] at this
  linarith

/-! ## The full property is false of the code -/

/-- An environment with 18 decimals everywhere, for the concrete witnesses. -/
def env1 : Env where
  gran := fun _ => 1
  gran_pos := by simp
  verify := fun _ _ _ => true
  hash := id
  usdPrice := ONE
  isWallet := fun _ => true
  recoveryProof := fun n => 1000 + n

/-- An attacker's own token. -/
def FAKE : Res := 77
/-- A supported child token. -/
def CHILD : Res := 50

def w0 : TW := { authority := ONE, inputs := AMap.empty, baseSupply := 0, flashSupply := 0 }

/-- A user wraps 1000 child tokens, then somebody unwraps a worthless token of their own: the base
tokens stay in circulation and the vault is empty. -/
def drain : List WOp :=
  [.addInput CHILD, .wrap ⟨CHILD, 1000 * ONE⟩, .unwrap ⟨FAKE, 1000 * ONE⟩ CHILD]

/-- **C48, negation of the full backing property**: a state with 1000 base tokens and no backing at
all is reachable. -/
theorem c48_unbacked_reachable :
    ∃ s, WReach env1 (fun _ => True) s ∧ s.baseSupply = 1000 * ONE ∧ held s = 0 := by
  have hx : ∃ s os, wtx env1 w0 drain = Except.ok (s, os) ∧ s.baseSupply = 1000 * ONE ∧ held s = 0 :=
    ⟨_, _, rfl, rfl, rfl⟩
  obtain ⟨s, os, hx, h1, h2⟩ := hx
  exact ⟨s, WReach.tx (WReach.init ⟨rfl, rfl, rfl⟩) (by simp) hx, h1, h2⟩

/-- **C48, negation of flash-loan repayment**: a flash loan's oath itself can be handed to `unwrap`,
which burns it and pays out child tokens; the loan is never repaid and the transaction succeeds. -/
theorem c48_flash_loan_unpaid :
    ∃ s s' os, WReach env1 (fun _ => True) s ∧
      wtx env1 s [.flashLoan (1000 * ONE), .unwrap ⟨FLASH, 1000 * ONE⟩ CHILD] = Except.ok (s', os) ∧
      lentTotal os = 1000 * ONE ∧ repaidTotal os = 0 ∧ s'.baseSupply = 2000 * ONE ∧ held s' = 0 := by
  have hx : ∃ s os, wtx env1 w0 [.addInput CHILD, .wrap ⟨CHILD, 1000 * ONE⟩] = Except.ok (s, os) ∧
      ∃ s' os', wtx env1 s [.flashLoan (1000 * ONE), .unwrap ⟨FLASH, 1000 * ONE⟩ CHILD]
        = Except.ok (s', os') ∧ lentTotal os' = 1000 * ONE ∧ repaidTotal os' = 0 ∧
        s'.baseSupply = 2000 * ONE ∧ held s' = 0 :=
    ⟨_, _, rfl, _, _, rfl, rfl, rfl, rfl, rfl⟩
  obtain ⟨s, os, hx, s', os', hy, h1, h2, h3, h4⟩ := hx
  exact ⟨s, s', os', WReach.tx (WReach.init ⟨rfl, rfl, rfl⟩) (by simp) hx, hy, h1, h2, h3, h4⟩

/-! ## Concrete instance of the partial theorems' hypotheses -/

example : ∃ s, WReach env1 PaysBase s ∧ s.baseSupply = 600 * ONE ∧ held s = 600 * ONE := by
  have hx : ∃ s os, wtx env1 w0 [.addInput CHILD, .wrap ⟨CHILD, 1000 * ONE⟩,
      .flashLoan (5 * ONE), .repay ⟨FLASH, 5 * ONE⟩ ⟨BASE, 7 * ONE⟩,
      .unwrap ⟨BASE, 400 * ONE⟩ CHILD] = Except.ok (s, os) ∧ s.baseSupply = 600 * ONE ∧
      held s = 600 * ONE := ⟨_, _, rfl, rfl, rfl⟩
  obtain ⟨s, os, hx, h1, h2⟩ := hx
  refine ⟨s, WReach.tx (WReach.init ⟨rfl, rfl, rfl⟩) ?_ hx, h1, h2⟩
  intro op hop
  simp only [List.mem_cons, List.not_mem_nil, or_false] at hop
  rcases hop with rfl | rfl | rfl | rfl | rfl <;> simp [PaysBase]

end Wrapper
end Perp
