import Verif.Generous

/-!
# C74: the same order with looser limits has the same effect

Limits and the bookkeeping of requests do not enter into the execution of an order.
-/

namespace Perp

/-- The account `v` with the pending changes to requests of `x`. -/
def VAccount.regraft (v x : VAccount) : VAccount :=
  { v with requestUpdates := x.requestUpdates, activeLen := x.activeLen, activeAdditions := x.activeAdditions,
           activeRemovals := x.activeRemovals }

def W.regraft (w : W) (x : VAccount) : W := { w with acc := w.acc.regraft x }

theorem settleAccount_regraft (w : W) (x : VAccount) (a : Dec) :
    settleAccount (w.regraft x) a = settleAccount w a >>= fun w1 => pure (w1.regraft x) := by
  simp only [settleAccount, W.regraft, VAccount.addVb, VAccount.regraft, bind_assoc, pure_bind]

theorem settlePosition_regraft (pp : PoolPosition) (v x : VAccount) (p : PairId) :
    settlePosition pp (v.regraft x) p = settlePosition pp v p >>= fun t => pure (t.1.regraft x, t.2) := by
  unfold settlePosition
  have h : (v.regraft x).positions = v.positions := rfl
  rw [h]
  cases v.positions.get p with
  | none => rfl
  | some pos => simp only [bind_assoc, pure_bind]; rfl

theorem settleFunding_regraft (w : W) (x : VAccount) (p : PairId) :
    settleFunding (w.regraft x) p = settleFunding w p >>= fun t => pure (t.1.regraft x, t.2) := by
  have h1 : ∀ (v : VAccount) pool a, settleAccount { w with pool, acc := v.regraft x } a =
      settleAccount { w with pool, acc := v } a >>= fun w1 => pure (w1.regraft x) :=
    fun v pool a => settleAccount_regraft { w with pool, acc := v } x a
  have h2 : (w.acc.regraft x).touchAll = w.acc.touchAll.regraft x := rfl
  simp only [settleFunding, W.regraft, h2, settlePosition_regraft, bind_assoc, pure_bind]
  simp only [h1, bind_assoc, pure_bind, W.regraft]

theorem integrity_regraft (c : Ctx) (pool : VPool) (v x : VAccount) :
    assertAccountIntegrity c pool (v.regraft x) = assertAccountIntegrity c pool v := rfl

theorem positionLimit_regraft (cfg : VConfig) (v x : VAccount) :
    assertPositionLimit cfg (v.regraft x) = assertPositionLimit cfg v := rfl

theorem openPosition_regraft (c : Ctx) (w : W) (x : VAccount) (p : PairId) (a : Dec) :
    openPosition c (w.regraft x) p a = openPosition c w p a >>= fun t => pure (t.1.regraft x, t.2) := by
  have h1 : (w.acc.regraft x).feeRebate = w.acc.feeRebate := rfl
  have h2 : (w.acc.regraft x).position p = w.acc.position p := rfl
  have h3 : ∀ y, (w.acc.regraft x).setPosition p y = (w.acc.setPosition p y).regraft x := fun _ => rfl
  simp only [openPosition, W.regraft, h1, h2, h3, integrity_regraft, positionLimit_regraft, bind_assoc, pure_bind]

theorem closePosition_regraft (c : Ctx) (w : W) (x : VAccount) (p : PairId) (a : Dec) :
    closePosition c (w.regraft x) p a = closePosition c w p a >>= fun t => pure (t.1.regraft x, t.2) := by
  have h1 : (w.acc.regraft x).feeRebate = w.acc.feeRebate := rfl
  have h2 : (w.acc.regraft x).position p = w.acc.position p := rfl
  have h3 : ∀ y, (w.acc.regraft x).setPosition p y = (w.acc.setPosition p y).regraft x := fun _ => rfl
  have h4 : ∀ (v : VAccount) pool a, settleAccount { w with pool, acc := v.regraft x } a =
      settleAccount { w with pool, acc := v } a >>= fun w1 => pure (w1.regraft x) :=
    fun v pool a => settleAccount_regraft { w with pool, acc := v } x a
  simp only [closePosition, W.regraft, h1, h2, h3, bind_assoc, pure_bind]
  simp only [h4, bind_assoc, pure_bind, W.regraft]

theorem executeOrder_regraft (c : Ctx) (w : W) (x : VAccount) (p : PairId) (cl op : Dec) :
    executeOrder c (w.regraft x) p cl op = executeOrder c w p cl op >>= fun t => pure (t.1.regraft x, t.2) := by
  have h1 : closePart c (w.regraft x) p cl = closePart c w p cl >>= fun t => pure (t.1.regraft x, t.2) := by
    unfold closePart
    split
    · exact closePosition_regraft ..
    · rfl
  have h2 : ∀ w : W, openPart c (w.regraft x) p op = openPart c w p op >>= fun t => pure (t.1.regraft x, t.2) := by
    intro w
    unfold openPart
    split
    · exact openPosition_regraft ..
    · rfl
  simp only [executeOrder, h1, h2, bind_assoc, pure_bind]

theorem rewardReferral_regraft (v x : VAccount) (a : Dec) :
    (v.regraft x).rewardReferral a = v.rewardReferral a >>= fun v1 => pure (v1.regraft x) := by
  unfold VAccount.rewardReferral
  have h : (v.regraft x).referralData = v.referralData := rfl
  rw [h]
  cases v.referralData with
  | none => rfl
  | some d => simp only [bind_assoc, pure_bind]; rfl

theorem settleFeesReferral_regraft (ex : ExchangeConfig) (w : W) (x : VAccount) (a : Dec) :
    settleFeesReferral ex (w.regraft x) a = settleFeesReferral ex w a >>= fun t => pure (t.1.regraft x, t.2) := by
  have h1 : (w.acc.regraft x).feeShareReferral = w.acc.feeShareReferral := rfl
  simp only [settleFeesReferral, W.regraft, h1, rewardReferral_regraft, bind_assoc, pure_bind]

theorem regraft_self (v : VAccount) : v.regraft v = v := rfl
theorem regraft_regraft (v x y : VAccount) : (v.regraft x).regraft y = v.regraft y := rfl

theorem removeActive_regraft {v v1 : VAccount} {i : Nat} (h : v.removeActive i = Except.ok v1) : v1 = v.regraft v1 := by
  simp only [VAccount.removeActive, bind_ok, pure_ok] at h
  obtain ⟨-, -, rfl⟩ := h
  rfl

theorem trySetStatus_regraft {v v1 : VAccount} {is : List Nat} {st : Status} (h : v.trySetStatus is st = Except.ok v1) :
    v1 = v.regraft v1 := by
  simp only [VAccount.trySetStatus, bind_ok] at h
  obtain ⟨ph, -, krs, -, h⟩ := h
  generalize krs.entries = l at h
  induction l generalizing v with
  | nil => simp only [List.foldlM_nil, pure_ok] at h; subst h; rfl
  | cons e l ih =>
    simp only [List.foldlM_cons, bind_ok] at h
    obtain ⟨v2, h1, h2⟩ := h
    have h3 := ih h2
    have h4 : v2 = v.regraft v2 := by
      unfold VAccount.trySetOne at h1
      split at h1
      · cases h1; rfl
      simp only [bind_ok, pure_ok] at h1
      obtain ⟨v3, h5, rfl⟩ := h1
      have h6 : v3 = v.regraft v3 := by
        unfold VAccount.moveActive at h5
        split at h5 <;> split at h5
        · cases h5; rfl
        · cases h5; rfl
        · exact removeActive_regraft h5
        · cases h5; rfl
      rw [h6]; rfl
    rw [h3, h4, regraft_regraft]
    rfl

theorem processRequest_regraft {v v1 : VAccount} {now : Int} {i : Nat} {r : Request} {b : Bool}
    (h : v.processRequest now i = Except.ok (v1, r, b)) : v1 = v.regraft v1 := by
  simp only [VAccount.processRequest, bind_ok, pure_ok, Prod.mk.injEq] at h
  obtain ⟨-, -, kr, -, st, -, -, -, v2, h1, rfl, -, -⟩ := h
  rw [removeActive_regraft h1]
  rfl

/-- Two orders that differ only in their limits have the same effect, whatever the bookkeeping of requests. -/
theorem marginOrder_regraft {c : Ctx} {w w1 w2 : W} {x : VAccount} {q q' : MarginOrderReq} {e e' : MarginOrderEv}
    (hq : q' = { q with priceLimit := q'.priceLimit, slippageLimit := q'.slippageLimit })
    (h : marginOrder c w q = Except.ok (w1, e)) (h' : marginOrder c (w.regraft x) q' = Except.ok (w2, e')) :
    e' = e ∧ w2 = w1.regraft w2.acc := by
  rw [hq] at h'
  simp only [marginOrder, bind_ok, pure_ok, Prod.mk.injEq] at h h'
  obtain ⟨pr, a1, -, -, up, a2, ⟨wf, fu⟩, a3, ⟨cl, op⟩, a4, ⟨wo, pnl, fee⟩, a5, tot, a6, ta, a7, tv, a8, -, -, -, -, ⟨ws, fs⟩, a9,
    acc1, a10, acc2, a11, ds, a12, -, -, tp, a13, rfl, rfl⟩ := h
  obtain ⟨pr', b1, -, -, up', b2, ⟨wf', fu'⟩, b3, ⟨cl', op'⟩, b4, ⟨wo', pnl', fee'⟩, b5, tot', b6, ta', b7, tv', b8, -, -, -, -, ⟨ws', fs'⟩, b9,
    acc1', b10, acc2', b11, ds', b12, -, -, tp', b13, rfl, rfl⟩ := h'
  rw [a1] at b1; cases b1
  have e1 : (w.regraft x).pool = w.pool := rfl
  rw [e1, a2] at b2; cases b2
  have e2 : ({ w.regraft x with pool := up.1 } : W) = ({ w with pool := up.1 } : W).regraft x := rfl
  rw [e2, settleFunding_regraft, a3] at b3
  cases b3
  have e3 : (wf.regraft x).acc.positions = wf.acc.positions := rfl
  simp only [e3] at b4 a4
  rw [a4] at b4; cases b4
  simp only at a5 b5
  rw [executeOrder_regraft, a5] at b5
  cases b5
  simp only at a9 b9
  rw [settleFeesReferral_regraft, a9] at b9
  cases b9
  simp only at a6 b6 a13 b13
  rw [a6] at b6; cases b6
  rw [a13] at b13; cases b13
  refine ⟨rfl, ?_⟩
  have f1 := trySetStatus_regraft a10
  have f2 := trySetStatus_regraft a11
  have g1 := trySetStatus_regraft b10
  have g2 := trySetStatus_regraft b11
  have e4 : acc2 = ws.acc.regraft acc2 := by rw [f2, f1]; rfl
  have e5 : acc2' = ws.acc.regraft acc2' := by rw [g2, g1]; rfl
  show ({ ws.regraft x with acc := acc2' } : W) = ({ ws with acc := acc2.regraft acc2' } : W)
  rw [e4, regraft_regraft, ← e5]
  rfl

theorem processRequest_content {s : State} {a : Addr} {v v1 : VAccount} {acc : Account} {kr : KeeperRequest} {i : Nat} {r : Request}
    {b : Bool} (hv : s.load a = Except.ok v) (h : v.processRequest s.now i = Except.ok (v1, r, b)) (ha : s.accounts.get a = some acc)
    (hk : acc.requests[i]? = some kr) : kr.request = r ∧ b = decide (s.now ≥ kr.expiry) := by
  obtain ⟨acc', rd, h1, -, rfl⟩ := load_ok hv
  rw [ha] at h1; cases h1
  simp only [VAccount.processRequest, bind_ok, pure_ok, Prod.mk.injEq] at h
  obtain ⟨-, -, k, h2, -, -, -, -, v2, -, -, rfl, rfl⟩ := h
  simp only [VAccount.keeperRequest, AMap.get_empty, hk, expect_ok, Option.some.injEq] at h2
  subst h2
  exact ⟨rfl, rfl⟩

/-- **Specification.** `s'` differs from `s` at most in the list of requests and the set of pending requests of account `a`. -/
def State.SameButRequests (a : Addr) (s s' : State) : Prop :=
  ∃ acc requests active, s.accounts.get a = some acc ∧
    s' = { s with accounts := s.accounts.set a { acc with requests, active } }

/-- **C74, orders, the effect.** When two orders of an account that differ only in their limits both go through, they have the same
effect: same event, same reward and the same ledger, except for the bookkeeping of the account's requests. -/
theorem c74_order_effect {env : Env} {cl cl' : Caller} {s s1 s2 : State} {a : Addr} {i j : Nat} {u : Option PriceUpdate} {o1 o2 : Out}
    {q q' : MarginOrderReq} (hi : s.Due a i (.marginOrder q)) (hj : s.Due a j (.marginOrder q'))
    (hq : q' = { q with priceLimit := q'.priceLimit, slippageLimit := q'.slippageLimit })
    (h1 : step env cl s (.processRequest a i u) = Except.ok (s1, o1))
    (h2 : step env cl' s (.processRequest a j u) = Except.ok (s2, o2)) : s1.SameButRequests a s2 ∧ o2 = o1 := by
  replace h1 := step_body h1
  replace h2 := step_body h2
  simp only [body] at h1 h2
  obtain ⟨acc, kr, d1, d2, d3, -, -, d4, -⟩ := hi
  obtain ⟨acc', kr', k1, k2, k3, -, -, k4, -⟩ := hj
  rw [d1] at k1; cases k1
  obtain ⟨v, v1, r, ex, cfg, hv, hp, hcfg, hx1, hx2, hcase⟩ := processRequest_ok h1
  obtain ⟨v', v1', r', ex', cfg', hv', hp', hcfg', hx1', hx2', hcase'⟩ := processRequest_ok h2
  obtain ⟨g1, g2⟩ := processRequest_content hv hp d1 d2
  obtain ⟨g1', g2'⟩ := processRequest_content hv' hp' d1 k2
  rw [hv] at hv'; cases hv'
  rw [d3] at g1; subst g1
  rw [k3] at g1'; subst g1'
  have y1 := processRequest_regraft hp
  have y2 := processRequest_regraft hp'
  have y3 : v1' = v1.regraft v1' := by rw [y1, regraft_regraft]; exact y2
  have yr : requestPairs v1' (.marginOrder q') = requestPairs v1 (.marginOrder q) := by rw [y3, hq]; rfl
  rw [yr, hcfg] at hcfg'
  cases hcfg'
  rcases hcase with ⟨he, -⟩ | ⟨-, t1, c, w, out, acc1, refs, hk, hx, hz, rfl, rfl⟩
  · rw [g2, decide_eq_true_eq] at he; exact absurd d4 (not_lt.mpr he)
  rcases hcase' with ⟨he, -⟩ | ⟨-, t2, c', w', out', acc2, refs', hk', hx', hz', rfl, rfl⟩
  · rw [g2', decide_eq_true_eq] at he; exact absurd k4 (not_lt.mpr he)
  rw [yr, hk] at hk'
  cases hk'
  simp only [executeRequest, bind_ok, pure_ok, Prod.mk.injEq] at hx hx'
  obtain ⟨⟨w3, e⟩, hx, rfl, rfl⟩ := hx
  obtain ⟨⟨w4, e'⟩, hx', rfl, rfl⟩ := hx'
  have yw : ({ pool := VPool.new s.pool s.now (requestPairs v1' (.marginOrder q')), acc := v1', dist := s.dist } : W) =
      ({ pool := VPool.new s.pool s.now (requestPairs v1 (.marginOrder q)), acc := v1, dist := s.dist } : W).regraft v1' := by
    rw [yr, W.regraft]
    simp only
    rw [← y3]
  rw [yw] at hx'
  obtain ⟨rfl, hw⟩ := marginOrder_regraft hq hx hx'
  obtain ⟨z1, z2⟩ := hz
  obtain ⟨z1', z2'⟩ := hz'
  simp only at z1 z2 z1' z2'
  rw [hw] at z1' z2'
  have zr : (w3.regraft w4.acc).acc.realizeReferral s.referrals = w3.acc.realizeReferral s.referrals := rfl
  rw [zr, z2] at z2'
  cases z2'
  have za : acc2 = { acc1 with requests := acc2.requests, active := acc2.active } := by
    simp only [VAccount.realize, bind_ok, pure_ok] at z1 z1'
    obtain ⟨l, -, rfl⟩ := z1
    obtain ⟨l', -, rfl⟩ := z1'
    rfl
  have hadd : w3.acc.addr = a := by
    have h5 := (marginOrder_path hx).frame.1
    rw [h5, y1]
    obtain ⟨x, rd, -, -, hl⟩ := load_ok hv
    rw [hl]
    rfl
  have hadd' : w4.acc.addr = a := by rw [hw]; exact hadd
  refine ⟨⟨acc1, acc2.requests, acc2.active, ?_, ?_⟩, rfl⟩
  · simp only [State.realized, hadd, AMap.get_set_self]
  · rw [← za]
    simp only [State.realized, hadd, hadd', AMap.set_set]
    rw [hw]
    rfl

end Perp
