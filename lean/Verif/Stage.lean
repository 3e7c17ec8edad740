import Verif.Effects

/-!
# What each stage of a trade leaves alone

`Touches p w w'`: going from `w` to `w'` changed at most the account's position in pair `p`, its virtual
balance and the referral credit, and in the pool only pair `p` and the totals.
-/

namespace Perp

structure Touches (p : PairId) (w w' : W) : Prop where
  acc : w'.acc = { w.acc with positions := w'.acc.positions, positionsUpdated := w'.acc.positionsUpdated
                              vb := w'.acc.vb, referralData := w'.acc.referralData
                              referralRewarded := w'.acc.referralRewarded }
  pos : ∀ q, q ≠ p → w'.acc.positions.get q = w.acc.positions.get q
  pool : ∀ q, q ≠ p → w'.pool.positions.get q = w.pool.positions.get q
  upd : ∀ q, q ≠ p → (q ∈ w'.pool.updated ↔ q ∈ w.pool.updated)
  comp : w'.pool.comp = w.pool.comp
  base : w'.pool.base = w.pool.base

theorem Touches.refl (p : PairId) (w : W) : Touches p w w :=
  ⟨rfl, fun _ _ => rfl, fun _ _ => rfl, fun _ _ => Iff.rfl, rfl, rfl⟩

theorem Touches.trans {p : PairId} {a b c : W} (h1 : Touches p a b) (h2 : Touches p b c) : Touches p a c := by
  refine ⟨?_, fun q hq => (h2.pos q hq).trans (h1.pos q hq), fun q hq => (h2.pool q hq).trans (h1.pool q hq),
    fun q hq => (h2.upd q hq).trans (h1.upd q hq), h2.comp.trans h1.comp, h2.base.trans h1.base⟩
  rw [h2.acc, h1.acc]

theorem credited_acc (v : VAccount) (x : Dec) :
    v.credited x = { v with referralData := (v.credited x).referralData
                            referralRewarded := (v.credited x).referralRewarded } := by
  unfold VAccount.credited; split <;> rfl

theorem settleFees_touches {ex : ExchangeConfig} {w w' : W} {fee : Dec} {f : FeeSplit} (p : PairId)
    (h : settleFeesReferral ex w fee = Except.ok (w', f)) : Touches p w w' := by
  obtain ⟨hp, -, ha, -⟩ := settleFeesReferral_ok h
  refine ⟨?_, ?_, ?_, ?_, ?_, ?_⟩
  · rw [ha, credited_acc]
  · intro q _; rw [ha, credited_acc]
  · intro q _; rw [hp]
  · intro q _; rw [hp]
  · rw [hp]
  · rw [hp]

theorem settleAccount_touches {w w' : W} {x : Dec} (p : PairId)
    (h : settleAccount w x = Except.ok w') : Touches p w w' := by
  rw [settleAccount_ok h]
  exact ⟨rfl, fun _ _ => rfl, fun _ _ => rfl, fun _ _ => Iff.rfl, rfl, rfl⟩

theorem updatePair_touches {c : Ctx} {w : W} {pool : VPool} {p : PairId} {b : Bool}
    (h : updatePair c w.pool p = Except.ok (pool, b)) : Touches p w { w with pool } := by
  obtain ⟨pc, price, pp0, pp1, dPool, seconds, period, -, -, -, -, -, -, rfl, -⟩ := updatePair_ok h
  exact ⟨rfl, fun _ _ => rfl, fun q hq => AMap.get_set_ne _ _ (Ne.symm hq), fun q hq => by simp [hq], rfl, rfl⟩

theorem settleFunding_touches {w w' : W} {p : PairId} {n : Dec}
    (h : settleFunding w p = Except.ok (w', n)) : Touches p w w' := by
  obtain ⟨pp, -, -, hp, ha, -⟩ := settleFunding_ok h
  refine ⟨?_, ?_, ?_, ?_, ?_, ?_⟩
  · rw [ha]
  · intro q hq
    rw [ha]
    simp only
    split
    · exact AMap.get_set_ne _ _ (Ne.symm hq)
    · rfl
  · intro q hq; rw [hp]
  · intro q hq; rw [hp]
  · rw [hp]
  · rw [hp]

theorem openPosition_touches {c : Ctx} {w w' : W} {p : PairId} {amount fee : Dec}
    (h : openPosition c w p amount = Except.ok (w', fee)) : Touches p w w' := by
  obtain ⟨pc, price, pp, -, -, -, -, -, -, -, -, hp, ha, -, -, -⟩ := openPosition_ok h
  refine ⟨?_, ?_, ?_, ?_, ?_, ?_⟩
  · rw [ha]; rfl
  · intro q hq; rw [ha]; exact AMap.get_set_ne _ _ (Ne.symm hq)
  · intro q hq; rw [hp]; exact AMap.get_set_ne _ _ (Ne.symm hq)
  · intro q hq; rw [hp]; simp [VPool.remark, hq]
  · rw [hp]; rfl
  · rw [hp]; rfl

theorem closePosition_touches {c : Ctx} {w w' : W} {p : PairId} {amount pnl fee : Dec}
    (h : closePosition c w p amount = Except.ok (w', pnl, fee)) : Touches p w w' := by
  obtain ⟨pc, price, pp, -, -, -, -, -, -, -, -, -, hp, ha, -⟩ := closePosition_ok h
  refine ⟨?_, ?_, ?_, ?_, ?_, ?_⟩
  · rw [ha]; rfl
  · intro q hq; rw [ha]; exact AMap.get_set_ne _ _ (Ne.symm hq)
  · intro q hq; rw [hp]; exact AMap.get_set_ne _ _ (Ne.symm hq)
  · intro q hq; rw [hp]; simp [VPool.remark, hq]
  · rw [hp]; rfl
  · rw [hp]; rfl

theorem closePart_touches {c : Ctx} {w w' : W} {p : PairId} {x pnl fee : Dec}
    (h : closePart c w p x = Except.ok (w', pnl, fee)) : Touches p w w' := by
  unfold closePart at h
  split at h
  · exact closePosition_touches h
  · simp only [pure_ok, Prod.mk.injEq] at h
    rw [h.1]; exact .refl _ _

theorem openPart_touches {c : Ctx} {w w' : W} {p : PairId} {x fee : Dec}
    (h : openPart c w p x = Except.ok (w', fee)) : Touches p w w' := by
  unfold openPart at h
  split at h
  · exact openPosition_touches h
  · simp only [pure_ok, Prod.mk.injEq] at h
    rw [h.1]; exact .refl _ _

theorem executeOrder_touches {c : Ctx} {w w' : W} {p : PairId} {close op pnl fee : Dec}
    (h : executeOrder c w p close op = Except.ok (w', pnl, fee)) : Touches p w w' := by
  obtain ⟨w1, f1, f2, h1, h2, rfl⟩ := executeOrder_ok h
  exact (closePart_touches h1).trans (openPart_touches h2)

/-- A margin order: everything up to the requests it activates and cancels touches only its pair. -/
theorem marginOrder_touches {c : Ctx} {w w' : W} {r : MarginOrderReq} {e : MarginOrderEv}
    (h : marginOrder c w r = Except.ok (w', e)) :
    ∃ w3 a1 a2, Touches r.pair w w3 ∧ w3.acc.trySetStatus r.activate STATUS_ACTIVE = Except.ok a1 ∧
      a1.trySetStatus r.cancel STATUS_CANCELLED = Except.ok a2 ∧ w' = { w3 with acc := a2 } := by
  obtain ⟨price, pool, b, w1, funding, close, op, w2, pnl, fee, ok, w3, fees, a1, a2, -, -, hup, hf,
    -, hx, -, -, hfee, ha1, ha2, rfl, -, -⟩ := marginOrder_ok h
  have h1 := (updatePair_touches hup).trans (settleFunding_touches hf)
  have h2 := (h1.trans (executeOrder_touches hx)).trans (settleFees_touches r.pair hfee)
  exact ⟨w3, a1, a2, h2, ha1, ha2, rfl⟩

theorem autoDeleverage_touches {c : Ctx} {w w' : W} {p : PairId} {e : AdlEv}
    (h : autoDeleverage c w p = Except.ok (w', e)) : Touches p w w' := by
  obtain ⟨pool, b, w1, funding, ratio0, price, pct, thr, w2, pnl, fee, fees, ratio1, hup, hf, -, -, -, -, -, -,
    -, -, hcl, hfee, -⟩ := autoDeleverage_ok h
  exact (((updatePair_touches hup).trans (settleFunding_touches hf)).trans (closePosition_touches hcl)).trans
    (settleFees_touches p hfee)

/-! ## Operations that leave the requests alone -/

/-- The request-related part of a loaded account. -/
def VAccount.reqPart (v : VAccount) :
    (Nat × Nat × Nat) × (List KeeperRequest × AMap Nat KeeperRequest × List Nat × List Nat) ×
    (List KeeperRequest × Finset Nat × Nat) :=
  ((v.validStart, v.requestsLen, v.activeLen),
   (v.requestAdditions, v.requestUpdates, v.activeAdditions, v.activeRemovals),
   (v.comp.requests, v.comp.active, v.comp.validStart))

theorem Touches.reqPart {p : PairId} {w w' : W} (h : Touches p w w') : w'.acc.reqPart = w.acc.reqPart := by
  rw [h.acc]; rfl

theorem CollOnly.reqPart {a b : VAccount} (h : CollOnly a b) : b.reqPart = a.reqPart := by
  unfold CollOnly at h; rw [h]; rfl

theorem settleAccount_reqPart {w w' : W} {x : Dec} (h : settleAccount w x = Except.ok w') :
    w'.acc.reqPart = w.acc.reqPart := by
  rw [settleAccount_ok h]; rfl

theorem claims_reqPart {env : Env} {l : List (Res × Dec)} {t t' : W × List Bucket × List (Res × Dec)}
    (h : l.foldlM (claimOne env) t = Except.ok t') : t'.1.acc.reqPart = t.1.acc.reqPart := by
  refine foldlM_rel (P := fun a b : W × List Bucket × List (Res × Dec) => b.1.acc.reqPart = a.1.acc.reqPart)
    (fun _ => rfl) (fun a b c h1 h2 => h2.trans h1) ?_ _ h
  intro t e t' h
  rcases claimOne_ok h with ⟨-, -, -, pool, x, w, hp, hw, rfl⟩ | ⟨-, -, rfl⟩
  · have e := settleAccount_reqPart hw; exact e
  · rfl

theorem removeCollateral_reqPart {c : Ctx} {w w' : W} {r : RemoveCollateralReq}
    {tokens : List Bucket} (h : removeCollateral c w r = Except.ok (w', tokens)) :
    w'.acc.reqPart = w.acc.reqPart := by
  obtain ⟨claims, t, acc, bs, -, ht, hw, -, -, rfl, -⟩ := removeCollateral_ok h
  exact (withdrawCollateral_collOnly hw).reqPart.trans (claims_reqPart ht)

theorem addCollateral_reqPart {cfg : VConfig} {w w' : W} {tokens : List Bucket}
    (h : addCollateral cfg w tokens = Except.ok w') : w'.acc.reqPart = w.acc.reqPart := by
  obtain ⟨w1, acc, h1, -, hd, -, rfl⟩ := addCollateral_ok h
  refine (depositCollateral_collOnly hd).reqPart.trans ?_
  refine foldlM_rel (P := fun a b : W => b.acc.reqPart = a.acc.reqPart)
    (fun _ => rfl) (fun a b c h1 h2 => h2.trans h1) ?_ _ h1
  intro w b w' h
  simp only [addBase, bind_ok] at h
  obtain ⟨pool, -, hs⟩ := h
  have e := settleAccount_reqPart hs; exact e

theorem swapDebt_reqPart {c : Ctx} {w w' : W} {res : Res} {pay token rest : Bucket}
    {e : SwapDebtEv} (h : swapDebt c w res pay = Except.ok (w', token, rest, e)) :
    w'.acc.reqPart = w.acc.reqPart := by
  obtain ⟨cc, pr, priceRes, amount, value, taken, pool, w1, acc, bs, -, -, -, -, -, -, -, hp, hs, hwd, -, rfl,
    -, -⟩ := swapDebt_ok h
  have e := settleAccount_reqPart hs
  exact (withdrawCollateral_collOnly hwd).reqPart.trans e

/-- Liquidation changes nothing about the requests except that it moves the start of the valid ones. -/
theorem liquidate_reqPart {c : Ctx} {w w' : W} {pay : Bucket} {bs : List Bucket} {e : LiquidateEv}
    (h : liquidate c w pay = Except.ok (w', bs, e)) :
    ∃ a : VAccount, a.reqPart = w.acc.reqPart ∧ w'.acc = a.updateValidStart := by
  obtain ⟨w1, lp, lc, value, acc, tokens, taken, pool, w2, w3, loss, w4, fees, -, hlp, -, -, -, -, hwd, -, hp,
    hs, hwo, hfee, rfl, -, -⟩ := liquidate_ok h
  refine ⟨w4.acc, ?_, rfl⟩
  obtain ⟨p1, p2, p3, -, -, -, rfl⟩ := liquidatePositions_ok hlp
  obtain ⟨-, rfl⟩ := writeOff_ok hwo
  have e1 := (settleFees_touches 0 hfee).reqPart
  rw [e1]
  have e2 := settleAccount_reqPart hs
  have e3 := (withdrawCollateral_collOnly hwd).reqPart
  exact e2.trans e3

end Perp
