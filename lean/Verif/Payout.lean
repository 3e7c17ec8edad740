import Verif.Outcome

/-!
# C72: withdrawals, debt swaps and expired requests

These calls bring no pair up to date. After upkeep they do exactly what they would have done before; the pool keeps the figures of
the pairs as the upkeep left them.
-/

namespace Perp

/-- The pool `x` with the tokens and the balance of `v`. -/
def VPool.graft (v x : VPool) : VPool :=
  { x with base := v.base, vb := v.vb, comp := { x.comp with baseTokens := v.comp.baseTokens } }

def W.graft (w : W) (x : VPool) : W := { w with pool := w.pool.graft x }

theorem deposit_graft (v x : VPool) (a : Dec) : (v.graft x).deposit a = v.deposit a >>= fun v1 => pure (v1.graft x) := by
  simp only [VPool.deposit, VPool.graft, bind_assoc, pure_bind]

theorem addVb_graft (v x : VPool) (a : Dec) : (v.graft x).addVb a = v.addVb a >>= fun v1 => pure (v1.graft x) := by
  simp only [VPool.addVb, VPool.graft, bind_assoc, pure_bind]

theorem withdraw_graft (env : Env) (v x : VPool) (a : Dec) (st : Strategy) :
    (v.graft x).withdraw env a st = v.withdraw env a st >>= fun r => pure (r.1.graft x, r.2) := by
  simp only [VPool.withdraw, VPool.graft, bind_assoc, pure_bind]

theorem settleAccount_graft (w : W) (x : VPool) (a : Dec) :
    settleAccount (w.graft x) a = settleAccount w a >>= fun w1 => pure (w1.graft x) := by
  simp only [settleAccount, W.graft, addVb_graft, bind_assoc, pure_bind]

theorem swapDebt_graft (c : Ctx) (w : W) (x : VPool) (r : Res) (b : Bucket) :
    swapDebt c (w.graft x) r b = swapDebt c w r b >>= fun t => pure (t.1.graft x, t.2) := by
  have h1 : ∀ (v : VPool) a, settleAccount { w with pool := v.graft x } a =
      settleAccount { w with pool := v } a >>= fun w1 => pure (w1.graft x) :=
    fun v a => settleAccount_graft { w with pool := v } x a
  simp only [swapDebt, W.graft, deposit_graft, bind_assoc, pure_bind]
  simp only [h1, bind_assoc, pure_bind, W.graft]
  rfl

theorem claimOne_graft (env : Env) (w : W) (x : VPool) (bs : List Bucket) (cs : List (Res × Dec)) (e : Res × Dec) :
    claimOne env (w.graft x, bs, cs) e = claimOne env (w, bs, cs) e >>= fun t => pure (t.1.graft x, t.2) := by
  have h1 : ∀ (v : VPool) a, settleAccount { w with pool := v.graft x } a =
      settleAccount { w with pool := v } a >>= fun w1 => pure (w1.graft x) :=
    fun v a => settleAccount_graft { w with pool := v } x a
  unfold claimOne
  by_cases hb : e.1 = BASE
  · simp only [if_pos hb, W.graft, withdraw_graft, bind_assoc, pure_bind]
    simp only [h1, bind_assoc, pure_bind, W.graft]
    rfl
  · simp only [if_neg hb, W.graft, bind_assoc, pure_bind]
    rfl

theorem claims_graft (env : Env) (x : VPool) : ∀ (l : List (Res × Dec)) (w : W) (bs : List Bucket) (cs : List (Res × Dec)),
    l.foldlM (claimOne env) (w.graft x, bs, cs) = l.foldlM (claimOne env) (w, bs, cs) >>= fun t => pure (t.1.graft x, t.2) := by
  intro l
  induction l with
  | nil => intro w bs cs; rfl
  | cons e l ih =>
    intro w bs cs
    simp only [List.foldlM_cons, claimOne_graft, bind_assoc, pure_bind]
    exact bind_congr fun t => ih t.1 t.2.1 t.2.2

/-- A withdrawal that goes through takes the same out of either pool. -/
theorem removeCollateral_graft {c : Ctx} {w w1 w2 : W} {x : VPool} {r : RemoveCollateralReq} {bs bs' : List Bucket}
    (h : removeCollateral c w r = Except.ok (w1, bs)) (h' : removeCollateral c (w.graft x) r = Except.ok (w2, bs')) :
    w2 = w1.graft x ∧ bs' = bs := by
  simp only [removeCollateral, bind_ok, pure_ok, Prod.mk.injEq, claims_graft] at h h'
  obtain ⟨cl, k1, t, k2, ⟨a, b⟩, k3, -, -, -, -, rfl, rfl⟩ := h
  obtain ⟨cl', j1, t', ⟨t0, j2, rfl⟩, ⟨a', b'⟩, j3, -, -, -, -, rfl, rfl⟩ := h'
  rw [k1] at j1
  cases j1
  rw [k2] at j2
  cases j2
  have : (t.1.graft x).acc = t.1.acc := rfl
  simp only [this] at j3
  rw [k3] at j3
  cases j3
  exact ⟨rfl, rfl⟩

theorem new_graft {s m : State} (hb : m.pool.baseTokens = s.pool.baseTokens) (hv : m.pool.vb = s.pool.vb) (n n' : Int)
    (ids ids' : List PairId) : VPool.new m.pool n ids = (VPool.new s.pool n' ids').graft (VPool.new m.pool n ids) := by
  simp only [VPool.graft, VPool.new, ← hb, ← hv]

theorem graft_realize (v : VPool) (p : Pool) (n : Int) (ids : List PairId) :
    (v.graft (VPool.new p n ids)).realize = { p with baseTokens := v.realize.baseTokens, vb := v.realize.vb } := by
  have : ∀ (l : List (PairId × PoolPosition)) (m : AMap PairId PoolPosition),
      l.foldl (fun m e => if e.1 ∈ ([] : List PairId) then m.set e.1 e.2 else m) m = m := by
    intro l
    induction l with
    | nil => intro m; rfl
    | cons e l ih => intro m; simp only [List.foldl_cons, List.not_mem_nil, if_false]; simpa using ih m
  simp only [VPool.realize, VPool.graft, VPool.new, VPool.realPositions, Pool.mk.injEq, and_true, true_and]
  exact this _ _

section
variable {env : Env} {s m s' m' : State} {u : Option PriceUpdate} {own : List PairId} {o o' : Out}

/-- **Specification.** `m'` is `s'` with the prices and the figures of the pairs in the pool as in `m`, and another number of reward
tokens. -/
def State.SameButUpkeep (m s' m' : State) : Prop :=
  m' = { s' with oracle := m.oracle, rewardSupply := m'.rewardSupply,
                 pool := { m.pool with baseTokens := s'.pool.baseTokens, vb := s'.pool.vb } }

theorem Rounds.swapped (h : Rounds s m u own) {a : Addr} {r : Res} {b : Bucket}
    (h1 : opSwapDebt env s a r b u = Except.ok (s', o)) (h2 : opSwapDebt env m a r b none = Except.ok (m', o')) :
    m.SameButUpkeep s' m' ∧ o' = o := by
  obtain ⟨v, s1, c, w, tk, rest, e, acc, refs, -, hv, hk, hx, hz, rfl, rfl⟩ := opSwapDebt_ok h1
  obtain ⟨v', m1, c', w', tk', rest', e', acc', refs', -, hv', hk', hx', hz', rfl, rfl⟩ := opSwapDebt_ok h2
  rw [h.load, hv] at hv'
  cases hv'
  obtain ⟨rfl, o1, o2⟩ := h.ctx hk hk'
  have hd : m.dist = s.dist := by rw [h.same]
  have hrf : m.referrals = s.referrals := by rw [h.same]
  obtain ⟨-, -, -, -, -, -, e1⟩ := keeperLoad_ok hk
  obtain ⟨-, -, -, -, -, -, e2⟩ := keeperLoad_ok hk'
  have hg : ({ pool := VPool.new m.pool m.now [], acc := v, dist := m.dist } : W) =
      ({ pool := VPool.new s.pool s.now [], acc := v, dist := s.dist } : W).graft (VPool.new m.pool m.now []) := by
    rw [W.graft, hd]
    simp only
    rw [← new_graft h.base h.vb]
  rw [hg, swapDebt_graft, hx] at hx'
  cases hx'
  obtain ⟨z1, z2⟩ := hz
  obtain ⟨z1', z2'⟩ := hz'
  have y1 : (w.graft (VPool.new m.pool m.now [])).acc = w.acc := rfl
  rw [y1, z1] at z1'
  cases z1'
  rw [y1, hrf, z2] at z2'
  cases z2'
  refine ⟨?_, rfl⟩
  unfold State.SameButUpkeep
  rw [e1, e2, o1, o2]
  unfold State.realized
  have hre : (w.graft (VPool.new m.pool m.now [])).pool.realize = _ := graft_realize w.pool m.pool m.now []
  rw [hre]
  conv_lhs => rw [h.same]
  conv_rhs => rw [h.same]
  rfl

theorem Rounds.processed (h : Rounds s m u own) {a : Addr} {i : Nat} (ht : ∀ e, o.ev ≠ .order e)
    (h1 : processRequest env s a i u = Except.ok (s', o)) (h2 : processRequest env m a i none = Except.ok (m', o')) :
    m.SameButUpkeep s' m' ∧ o' = o := by
  obtain ⟨v, v1, r, ex, cfg, hv, hp, hcfg, -, -, hcase⟩ := processRequest_ok h1
  obtain ⟨v', v1', r', ex', cfg', hv', hp', hcfg', -, -, hcase'⟩ := processRequest_ok h2
  have mn : m.now = s.now := by rw [h.same]
  have mc : m.config = s.config := by rw [h.same]
  have hd : m.dist = s.dist := by rw [h.same]
  have hrf : m.referrals = s.referrals := by rw [h.same]
  rw [h.load, hv] at hv'
  cases hv'
  rw [mn, hp] at hp'
  cases hp'
  rw [mc, hcfg] at hcfg'
  cases hcfg'
  rcases hcase with ⟨he, acc, refs, hz, rfl, rfl⟩ | ⟨he, s1, c, w, out, acc, refs, hk, hx, hz, rfl, rfl⟩
  · rcases hcase' with ⟨-, acc', refs', hz', rfl, rfl⟩ | ⟨he', -⟩
    swap
    · rw [he] at he'; cases he'
    obtain ⟨z1, z2⟩ := hz
    obtain ⟨z1', z2'⟩ := hz'
    rw [z1] at z1'
    cases z1'
    rw [hrf, z2] at z2'
    cases z2'
    refine ⟨?_, rfl⟩
    unfold State.SameButUpkeep State.realizedAcc
    have hpool : m.pool = { m.pool with baseTokens := s.pool.baseTokens, vb := s.pool.vb } := by rw [← h.base, ← h.vb]
    simp only
    rw [← hpool]
    conv_lhs => rw [h.same]
  rcases hcase' with ⟨he', -⟩ | ⟨-, m1, c', w', out', acc', refs', hk', hx', hz', rfl, rfl⟩
  · rw [he] at he'; cases he'
  obtain ⟨rfl, o1, o2⟩ := h.ctx hk hk'
  obtain ⟨-, -, -, -, -, -, e1⟩ := keeperLoad_ok hk
  obtain ⟨-, -, -, -, -, -, e2⟩ := keeperLoad_ok hk'
  cases r with
  | marginOrder q =>
    simp only [executeRequest, bind_ok, pure_ok, Prod.mk.injEq] at hx
    obtain ⟨⟨x, ev⟩, hx, rfl, rfl⟩ := hx
    exact absurd rfl (ht ev)
  | removeCollateral q =>
    have hg : ({ pool := VPool.new m.pool m.now (requestPairs v1 (.removeCollateral q)), acc := v1, dist := m.dist } : W) =
        ({ pool := VPool.new s.pool s.now (requestPairs v1 (.removeCollateral q)), acc := v1, dist := s.dist } : W).graft
          (VPool.new m.pool m.now (requestPairs v1 (.removeCollateral q))) := by
      rw [W.graft, hd]
      simp only
      rw [← new_graft h.base h.vb]
    simp only [executeRequest, bind_ok, pure_ok, Prod.mk.injEq] at hx hx'
    obtain ⟨⟨x, bs⟩, hx, rfl, rfl⟩ := hx
    obtain ⟨⟨x', bs'⟩, hx', rfl, rfl⟩ := hx'
    rw [hg] at hx'
    obtain ⟨rfl, rfl⟩ := removeCollateral_graft hx hx'
    obtain ⟨z1, z2⟩ := hz
    obtain ⟨z1', z2'⟩ := hz'
    have y1 : (x.graft (VPool.new m.pool m.now (requestPairs v1 (.removeCollateral q)))).acc = x.acc := rfl
    simp only [y1] at z1' z2'
    rw [z1] at z1'
    cases z1'
    rw [hrf, z2] at z2'
    cases z2'
    refine ⟨?_, rfl⟩
    unfold State.SameButUpkeep
    rw [e1, e2, o1, o2]
    unfold State.realized
    have hre : (x.graft (VPool.new m.pool m.now (requestPairs v1 (.removeCollateral q)))).pool.realize = _ :=
      graft_realize x.pool m.pool m.now _
    simp only [hre]
    conv_lhs => rw [h.same]
    conv_rhs => rw [h.same]
    rfl

end

/-- **C72, withdrawals, debt swaps and expired requests.** They bring no pair up to date. When such a call goes through, with the
price update before the upkeep and without it after, it pays and reports the same, and leaves the same ledger behind, except that
the pool's figures of the pairs and the prices stay as the upkeep left them. -/
theorem c72_payout {env : Env} {cl cl' : Caller} {s m s' m' : State} {ids : List PairId} {u : Option PriceUpdate} {op : Op}
    {o o' : Out} (hr : Reach env s) (hu : Upkeeps env ids u s m)
    (ht : (∃ a l, o.ev = .removeCollateral a l) ∨ (∃ e, o.ev = .swapDebt e) ∨ o.ev = .expired)
    (hop : (∃ a i v, op = .processRequest a i v) ∨ ∃ a r b v, op = .swapDebt a r b v)
    (h1 : step env cl s (op.given u) = Except.ok (s', o)) (h2 : step env cl' m (op.given none) = Except.ok (m', o')) :
    m.SameButUpkeep s' m' ∧ o' = o := by
  have h := upkeeps_frame hr hu
  replace h1 := step_body h1
  replace h2 := step_body h2
  rcases hop with ⟨a, i, v, rfl⟩ | ⟨a, r, b, v, rfl⟩
  · refine h.processed (fun e he => ?_) h1 h2
    rw [he] at ht
    rcases ht with ⟨x, l, ht⟩ | ⟨x, ht⟩ | ht <;> cases ht
  · exact h.swapped h1 h2

end Perp
