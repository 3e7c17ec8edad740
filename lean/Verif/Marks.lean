import Verif.Trade

/-!
# C04, second half: the pool's per-pair snapshots are marks to market

Every method that touches a pair leaves its snapshots at the value of the pair at the price used; no other method
changes any pool position.
-/

namespace Perp

/-- The snapshots of a pool position are its marks to market at a price. -/
def PoolPosition.MarkedAt (pp : PoolPosition) (price : Dec) : Prop :=
  pp.skewAbsSnap = |mulT (pp.oiLong - pp.oiShort) price| ∧ pp.pnlSnap = pp.cost - mulT (pp.oiLong - pp.oiShort) price

/-- Methods that may change the pool's position in a pair. -/
def Op.marks : Op → Bool
  | .processRequest .. | .liquidate .. | .autoDeleverage .. | .updatePairs .. => true
  | _ => false

theorem addBase_pool {w w' : W} {b : Bucket} (h : addBase w b = Except.ok w') :
    w'.pool.positions = w.pool.positions ∧ w'.pool.updated = w.pool.updated ∧
    w'.pool.comp.positions = w.pool.comp.positions := by
  simp only [addBase, bind_ok] at h
  obtain ⟨p, hp, h⟩ := h
  rw [settleAccount_ok h, VPool.deposit_ok hp]
  exact ⟨rfl, rfl, rfl⟩

theorem addCollateral_pool {cfg : VConfig} {w w' : W} {t : List Bucket} (h : addCollateral cfg w t = Except.ok w') :
    w'.pool.positions = w.pool.positions ∧ w'.pool.updated = w.pool.updated ∧
    w'.pool.comp.positions = w.pool.comp.positions := by
  obtain ⟨w1, acc, h1, -, -, -, rfl⟩ := addCollateral_ok h
  have := foldlM_rel (P := fun a b : W => b.pool.positions = a.pool.positions ∧ b.pool.updated = a.pool.updated ∧
      b.pool.comp.positions = a.pool.comp.positions)
    (fun _ => ⟨rfl, rfl, rfl⟩) (fun a b c h1 h2 => ⟨h2.1.trans h1.1, h2.2.1.trans h1.2.1, h2.2.2.trans h1.2.2⟩)
    (fun a b c h => addBase_pool h) _ h1
  exact this

theorem realPositions_untouched {v : VPool} (h : v.updated = []) : v.realPositions = v.comp.positions := by
  unfold VPool.realPositions
  rw [h]
  have : ∀ (l : List (PairId × PoolPosition)) (m : AMap PairId PoolPosition),
      l.foldl (fun m e => if e.1 ∈ ([] : List PairId) then m.set e.1 e.2 else m) m = m := by
    intro l; induction l with
    | nil => intro m; rfl
    | cons e l ih => intro m; simp
  exact this _ _

theorem depositTokens_pool {env : Env} {s s1 : State} {v : VAccount} {oath : Option Bucket} {t : List Bucket} {w : W}
    (h : depositTokens env s v oath t = Except.ok (s1, w)) : w.pool.realize.positions = s.pool.positions := by
  obtain ⟨cfg, ids, w0, -, ha, -, -, -, rfl, -⟩ := depositTokens_ok h
  obtain ⟨-, h2, h3⟩ := addCollateral_pool ha
  simp only [VPool.realize]
  rw [realPositions_untouched (by rw [h2]; rfl), h3]
  rfl

theorem addCollateral_unreal {cfg : VConfig} {w w' : W} {t : List Bucket} (h : addCollateral cfg w t = Except.ok w') :
    w'.pool.unreal = w.pool.unreal := by
  obtain ⟨w1, acc, h1, -, -, -, rfl⟩ := addCollateral_ok h
  show w1.pool.unreal = _
  refine foldlM_rel (P := fun a b : W => b.pool.unreal = a.pool.unreal)
    (fun _ => rfl) (fun a b c h1 h2 => h2.trans h1) (fun a b c h => ?_) _ h1
  simp only [addBase, bind_ok] at h
  obtain ⟨p, hp, h⟩ := h
  rw [settleAccount_ok h, VPool.deposit_ok hp]

theorem depositTokens_unreal {env : Env} {s s1 : State} {v : VAccount} {oath : Option Bucket} {t : List Bucket} {w : W}
    (h : depositTokens env s v oath t = Except.ok (s1, w)) :
    w.pool.realize.unrealizedFunding = s.pool.unrealizedFunding := by
  obtain ⟨cfg, ids, w0, -, ha, -, -, -, rfl, -⟩ := depositTokens_ok h
  exact addCollateral_unreal ha

/-- The part of the pool the pair updates own: the positions and the unrealised funding. -/
def Pool.fundingPart (pl : Pool) : AMap PairId PoolPosition × Dec := (pl.positions, pl.unrealizedFunding)

/-- No other method changes any pool position or the unrealised funding. -/
theorem body_pool_frame {env : Env} {cl : Caller} {s s' : State} {op : Op} {o : Out}
    (h : body env cl s op = Except.ok (s', o)) (hn : op.marks = false) : s'.pool.fundingPart = s.pool.fundingPart := by
  have holder : ∀ a, op.account = some a → op.holder = true → (∃ acc, s.accounts.get a = some acc) →
      s'.pool.fundingPart = s.pool.fundingPart := by
    intro a h1 h2 ⟨acc, h3⟩
    obtain ⟨acc', he⟩ := holder_effect h h1 h2 h3
    rw [he.pool]
  have there : ∀ a, op.account = some a → (∀ oath r t c, op ≠ .createAccount a oath r t c) →
      ∃ acc, s.accounts.get a = some acc := by
    intro a h1 h2
    rcases body_account h h1 with ⟨lr, -, h3⟩ | ⟨g, rule, rid, ⟨oath, t, c, h3⟩, -⟩
    · exact h3
    · exact absurd h3 (h2 oath rule t c)
  cases op with
  | depositAuthority x =>
    simp only [body, bind_ok, pure_ok, Prod.mk.injEq] at h
    obtain ⟨-, -, _, -, rfl, -⟩ := h
    rfl
  | withdrawAuthority =>
    simp only [body, pure_ok, Prod.mk.injEq] at h
    obtain ⟨rfl, -⟩ := h
    rfl
  | signalUpgrade _ =>
    simp only [body, pure_ok, Prod.mk.injEq] at h
    obtain ⟨rfl, -⟩ := h
    rfl
  | updateExchangeConfig c =>
    simp only [body, bind_ok, pure_ok, Prod.mk.injEq] at h
    obtain ⟨_, -, rfl, -⟩ := h
    rfl
  | updatePairConfigs c =>
    simp only [body, bind_ok, pure_ok, Prod.mk.injEq] at h
    obtain ⟨_, -, rfl, -⟩ := h
    rfl
  | updateCollateralConfigs c =>
    simp only [body, bind_ok, pure_ok, Prod.mk.injEq] at h
    obtain ⟨_, -, rfl, -⟩ := h
    rfl
  | removeCollateralConfig c =>
    simp only [body, pure_ok, Prod.mk.injEq] at h
    obtain ⟨rfl, -⟩ := h
    rfl
  | collectTreasury =>
    obtain ⟨pool, x, hp, rfl, -⟩ := collectTreasury_ok h
    rw [(payout_ok hp).2.2]; rfl
  | collectFeeDelegator =>
    obtain ⟨pool, x, hp, rfl, -⟩ := collectFeeDelegator_ok h
    rw [(payout_ok hp).2.2]; rfl
  | mintReferral id a b m =>
    simp only [body, bind_ok, pure_ok, Prod.mk.injEq] at h
    obtain ⟨s1, hm, rfl, -⟩ := h
    obtain ⟨h1, h2, hn, rfl⟩ := mintReferral_ok hm
    rfl
  | mintReferralWithAllocation id a b m t c n =>
    simp only [body, mintReferralWithAllocation, bind_ok] at h
    obtain ⟨s1, hm, h⟩ := h
    obtain ⟨h1, h2, hn, rfl⟩ := mintReferral_ok hm
    obtain ⟨cfg, s2, g, rest, i, -, -, hg, -, rfl, -⟩ := addReferralAllocation_ok h
    obtain ⟨d, hd, -, -, rfl⟩ := grantReferrals_ok hg
    rfl
  | updateReferral id a b m =>
    simp only [body, bind_ok, pure_ok, Prod.mk.injEq] at h
    obtain ⟨s1, hm, rfl, -⟩ := h
    rcases updateReferral_ok hm with rfl | ⟨d, hd, ha, hb, rfl⟩
    · rfl
    · rfl
  | addReferralAllocation id t c n =>
    obtain ⟨cfg, s2, g, rest, i, -, -, hg, -, rfl, -⟩ := addReferralAllocation_ok h
    obtain ⟨d, hd, -, -, rfl⟩ := grantReferrals_ok hg
    rfl
  | swapProtocolFee b =>
    obtain ⟨cfg, pool, x, burn, -, -, -, -, hp, rfl, -⟩ := swapProtocolFee_ok h
    rw [(payout_ok hp).2.2]; rfl
  | addLiquidity b =>
    obtain ⟨cfg, fee, lp, price, hc, hb, -, hfee, -, -, rfl, -⟩ := opAddLiquidity_ok h
    rfl
  | removeLiquidity b =>
    obtain ⟨cfg, price, value, fee, x, hc, hb, hres, hs0, hpr, hval, hfee, -, ht, rfl, -⟩ := opRemoveLiquidity_ok h
    rfl
  | createReferralCodes id t hs =>
    obtain ⟨cfg, n, s1, g, rest, -, -, -, -, hg, -, rfl, -⟩ := createReferralCodes_ok h
    obtain ⟨d, hd, -, -, rfl⟩ := grantReferrals_ok hg
    rfl
  | createReferralCodesFromAllocation id i hs =>
    simp only [body, bind_ok, pure_ok, Prod.mk.injEq] at h
    obtain ⟨s1, hm, rfl, -⟩ := h
    obtain ⟨g, -, -, rfl⟩ := createReferralCodesFromAllocation_ok hm
    rfl
  | collectReferralRewards id =>
    obtain ⟨d, pool, x, -, hd, hp, rfl, -⟩ := collectReferralRewards_ok h
    rw [(payout_ok hp).2.2]; rfl
  | createAccount a oath r t c =>
    obtain ⟨s0, rid, extra, s1, v, s2, w, acc, refs, -, -, hc, rfl, -, hd, -, rfl, -⟩ := createAccount_ok h
    have h1 := depositTokens_pool hd
    have h2 := depositTokens_unreal hd
    simp only [State.realized, Pool.fundingPart]
    rw [h1, h2]
    rcases claimCode_ok hc with ⟨-, -, -, rfl⟩ | ⟨c, g, r, -, -, -, rfl⟩ <;> rfl
  | createRecoveryKey oath a => exact holder a rfl rfl (there a rfl (by simp))
  | addAuthRule oath a l n => exact holder a rfl rfl (there a rfl (by simp))
  | setLevelAuth oath a l r => exact holder a rfl rfl (there a rfl (by simp))
  | addCollateral oath a t =>
    obtain ⟨v, s1, w, acc, refs, -, -, -, hd, -, rfl, -⟩ := opAddCollateral_ok h
    simp only [State.realized, Pool.fundingPart]
    rw [depositTokens_pool hd, depositTokens_unreal hd]
  | removeCollateralRequest oath e a t c => exact holder a rfl rfl (there a rfl (by simp))
  | marginOrderRequest oath a args act can st => exact holder a rfl rfl (there a rfl (by simp))
  | marginOrderTpSlRequest oath a args tp sl => exact holder a rfl rfl (there a rfl (by simp))
  | cancelRequests oath a is => exact holder a rfl rfl (there a rfl (by simp))
  | processRequest a i u => cases hn
  | swapDebt a r p u =>
    obtain ⟨acc0, acc', s1, c, w0, w, token, rest, e, hk, -, hx, -⟩ := run_swapDebt h
    obtain ⟨cc, pr, priceRes, amount, value, taken, pool, w1, ac, bs, -, -, -, -, -, -, -, hp, hs, -, -, rfl, -⟩ :=
      swapDebt_ok hx
    rw [hk.pool, settleAccount_ok hs, VPool.deposit_ok hp, hk.pool0]
    simp only [VPool.realize, Pool.fundingPart]
    rw [realPositions_untouched rfl]
    rfl
  | liquidate a p u => cases hn
  | autoDeleverage a p u => cases hn
  | updatePairs ids u => cases hn
  | setRole r rule =>
    simp only [body, bind_ok, pure_ok, Prod.mk.injEq] at h
    obtain ⟨s1, hm, rfl, -⟩ := h
    obtain ⟨-, -, rfl⟩ := setRole_ok hm
    rfl
  | oraclePush u =>
    simp only [body, bind_ok, pure_ok, Prod.mk.injEq] at h
    obtain ⟨_, -, rfl, -⟩ := h
    rfl
  | oracleAddKey id k =>
    simp only [body, bind_ok, pure_ok, Prod.mk.injEq] at h
    obtain ⟨_, -, rfl, -⟩ := h
    rfl
  | oracleRemoveKey id =>
    simp only [body, pure_ok, Prod.mk.injEq] at h
    obtain ⟨rfl, -⟩ := h
    rfl
  | oracleRemovePrice p =>
    simp only [body, pure_ok, Prod.mk.injEq] at h
    obtain ⟨rfl, -⟩ := h
    rfl
  | delegatorMaxLock x =>
    simp only [body, bind_ok, pure_ok, Prod.mk.injEq] at h
    obtain ⟨_, hd, rfl, -⟩ := h
    rfl
  | delegatorMultiplier x =>
    simp only [body, bind_ok, pure_ok, Prod.mk.injEq] at h
    obtain ⟨_, hd, rfl, -⟩ := h
    rfl
  | delegatorContingent b =>
    simp only [body, pure_ok, Prod.mk.injEq] at h
    obtain ⟨rfl, -⟩ := h
    rfl
  | delegatorDeposit x =>
    simp only [body, bind_ok, pure_ok, Prod.mk.injEq] at h
    obtain ⟨_, hd, rfl, -⟩ := h
    rfl
  | delegatorWithdraw x =>
    simp only [body, bind_ok, pure_ok, Prod.mk.injEq] at h
    obtain ⟨⟨_, _⟩, hd, rfl, -⟩ := h
    rfl
  | lockFee x =>
    obtain ⟨value, -, -, -, h0, hle, rfl, -⟩ := lockFee_ok h
    rfl
  | tick t =>
    simp only [body, bind_ok, pure_ok, require_ok, Prod.mk.injEq] at h
    obtain ⟨-, -, rfl, -⟩ := h
    rfl

theorem body_pool_positions {env : Env} {cl : Caller} {s s' : State} {op : Op} {o : Out}
    (h : body env cl s op = Except.ok (s', o)) (hn : op.marks = false) : s'.pool.positions = s.pool.positions :=
  congrArg Prod.fst (body_pool_frame h hn)

theorem body_pool_unreal {env : Env} {cl : Caller} {s s' : State} {op : Op} {o : Out}
    (h : body env cl s op = Except.ok (s', o)) (hn : op.marks = false) :
    s'.pool.unrealizedFunding = s.pool.unrealizedFunding :=
  congrArg Prod.snd (body_pool_frame h hn)

/-! ## Marking -/

/-- Every touched pair outside `S` carries marks at the price in use. -/
def MarkedOff (c : Ctx) (S : List PairId) (v : VPool) : Prop :=
  ∀ q ∈ v.updated, q ∉ S → ∃ price pp, c.orc.prices.get q = some price ∧ v.positions.get q = some pp ∧ pp.MarkedAt price

theorem snapAt_marked (pp : PoolPosition) (price : Dec) : (pp.snapAt price).MarkedAt price := ⟨rfl, rfl⟩

theorem markedOff_same {c : Ctx} {S : List PairId} {v v' : VPool} (h1 : v'.positions = v.positions)
    (h2 : v'.updated = v.updated) (h : MarkedOff c S v) : MarkedOff c S v' := by
  unfold MarkedOff; rw [h1, h2]; exact h

/-- Writing a marked position. -/
theorem markedOff_set {c : Ctx} {S S' : List PairId} {v v' : VPool} {p : PairId} {pp : PoolPosition} {price : Dec}
    (hp : c.orc.prices.get p = some price) (hm : pp.MarkedAt price) (h1 : v'.positions = v.positions.set p pp)
    (h2 : ∀ q, q ∈ v'.updated → q = p ∨ q ∈ v.updated) (hS : ∀ q, q ≠ p → q ∉ S' → q ∉ S)
    (h : MarkedOff c S v) : MarkedOff c S' v' := by
  intro q hq hqS
  by_cases e : q = p
  · subst e
    exact ⟨price, pp, hp, by rw [h1, AMap.get_set_self], hm⟩
  · rcases h2 q hq with h3 | h3
    · exact absurd h3 e
    · obtain ⟨price', pp', a1, a2, a3⟩ := h q h3 (hS q e hqS)
      exact ⟨price', pp', a1, by rw [h1, AMap.get_set_ne _ _ (Ne.symm e)]; exact a2, a3⟩

/-- Writing any position of an excepted pair. -/
theorem markedOff_free {c : Ctx} {S : List PairId} {v v' : VPool} {p : PairId} {pp : PoolPosition}
    (hS : p ∈ S) (h1 : v'.positions = v.positions.set p pp) (h2 : ∀ q, q ∈ v'.updated → q = p ∨ q ∈ v.updated)
    (h : MarkedOff c S v) : MarkedOff c S v' := by
  intro q hq hqS
  have e : q ≠ p := by rintro rfl; exact hqS hS
  rcases h2 q hq with h3 | h3
  · exact absurd h3 e
  · obtain ⟨price', pp', a1, a2, a3⟩ := h q h3 hqS
    exact ⟨price', pp', a1, by rw [h1, AMap.get_set_ne _ _ (Ne.symm e)]; exact a2, a3⟩

theorem updatePair_marked {c : Ctx} {pool pool' : VPool} {p : PairId} {b : Bool} {S : List PairId}
    (h : updatePair c pool p = Except.ok (pool', b)) (h0 : MarkedOff c S pool) : MarkedOff c S pool' := by
  obtain ⟨pc, price, pp0, pp1, dPool, seconds, period, -, hp, hpp, -, -, hf, rfl, -⟩ := updatePair_ok h
  have hf := fundingStep_only hf
  refine markedOff_set (p := p) (pp := pp1) hp ?_ rfl (fun q hq => by simpa using hq) (fun _ _ h => h) h0
  unfold FundingOnly at hf
  rw [hf]
  exact ⟨rfl, rfl⟩

theorem remark_marked {c : Ctx} {S : List PairId} {pool : VPool} {p : PairId} {old new : PoolPosition} {price : Dec}
    (hp : c.orc.prices.get p = some price) (h0 : MarkedOff c S pool) : MarkedOff c S (pool.remark p old new price) :=
  markedOff_set (p := p) hp (snapAt_marked new price) rfl (fun q hq => by simpa [VPool.remark] using hq) (fun _ _ h => h) h0

theorem updatePairSnaps_marked {c : Ctx} {S S' : List PairId} {pool pool' : VPool} {p : PairId}
    (h : updatePairSnaps c pool p = Except.ok pool') (hS : ∀ q, q ≠ p → q ∉ S' → q ∉ S) (h0 : MarkedOff c S pool) :
    MarkedOff c S' pool' := by
  obtain ⟨price, pp, hp, -, rfl⟩ := updatePairSnaps_ok h
  exact markedOff_set (p := p) hp (snapAt_marked pp price) rfl (fun q hq => by simpa using hq) hS h0

theorem settleFunding_marked {c : Ctx} {S : List PairId} {w w' : W} {p : PairId} {n : Dec}
    (h : settleFunding w p = Except.ok (w', n)) (h0 : MarkedOff c S w.pool) : MarkedOff c S w'.pool := by
  obtain ⟨pp, -, -, hp, -⟩ := settleFunding_ok h
  exact markedOff_same (by rw [hp]) (by rw [hp]) h0

theorem closePosition_marked {c : Ctx} {S : List PairId} {w w' : W} {p : PairId} {x pnl fee : Dec}
    (h : closePosition c w p x = Except.ok (w', pnl, fee)) (h0 : MarkedOff c S w.pool) : MarkedOff c S w'.pool := by
  obtain ⟨pc, price, pp, -, hp, -, -, -, -, -, -, -, hw, -⟩ := closePosition_ok h
  refine markedOff_same (v := w.pool.remark p pp (pp.closed x (closedCost (w.acc.position p) x)) price) (by rw [hw]) (by rw [hw]) ?_
  exact remark_marked hp h0

theorem openPosition_marked {c : Ctx} {S : List PairId} {w w' : W} {p : PairId} {x fee : Dec}
    (h : openPosition c w p x = Except.ok (w', fee)) (h0 : MarkedOff c S w.pool) : MarkedOff c S w'.pool := by
  obtain ⟨pc, price, pp, -, hp, -, -, -, -, -, -, hw, -⟩ := openPosition_ok h
  rw [hw]
  exact remark_marked hp h0

theorem settleFees_marked {c : Ctx} {ex : ExchangeConfig} {S : List PairId} {w w' : W} {fee : Dec} {f : FeeSplit}
    (h : settleFeesReferral ex w fee = Except.ok (w', f)) (h0 : MarkedOff c S w.pool) : MarkedOff c S w'.pool := by
  obtain ⟨hp, -⟩ := settleFeesReferral_ok h
  exact markedOff_same (by rw [hp]) (by rw [hp]) h0

theorem marginOrder_marked {c : Ctx} {S : List PairId} {w w' : W} {r : MarginOrderReq} {e : MarginOrderEv}
    (h : marginOrder c w r = Except.ok (w', e)) (h0 : MarkedOff c S w.pool) : MarkedOff c S w'.pool := by
  obtain ⟨price, pool, b, w1, funding, close, op, w2, pnl, fee, ok, w3, fees, a1, a2, -, -, hup, hf,
    -, hx, -, -, hfee, -, -, rfl, -, -⟩ := marginOrder_ok h
  obtain ⟨wc, f1, f2, hc, ho, -⟩ := executeOrder_ok hx
  show MarkedOff c S w3.pool
  refine settleFees_marked hfee ?_
  have m1 : MarkedOff c S w1.pool := settleFunding_marked hf (updatePair_marked hup h0)
  have m2 : MarkedOff c S wc.pool := by
    unfold closePart at hc
    split at hc
    · exact closePosition_marked hc m1
    · simp only [pure_ok, Prod.mk.injEq] at hc
      rw [← hc.1]; exact m1
  unfold openPart at ho
  split at ho
  · exact openPosition_marked ho m2
  · simp only [pure_ok, Prod.mk.injEq] at ho
    rw [← ho.1]; exact m2

theorem autoDeleverage_marked {c : Ctx} {S : List PairId} {w w' : W} {p : PairId} {e : AdlEv}
    (h : autoDeleverage c w p = Except.ok (w', e)) (h0 : MarkedOff c S w.pool) : MarkedOff c S w'.pool := by
  obtain ⟨pool, b, w1, funding, ratio0, price, pct, thr, w2, pnl, fee, fees, ratio1, hup, hf, -, -, -, -, -, -,
    -, -, hcl, hfee, -⟩ := autoDeleverage_ok h
  exact settleFees_marked hfee (closePosition_marked hcl (settleFunding_marked hf (updatePair_marked hup h0)))

theorem liquidatePositions_marked {c : Ctx} {w w' : W} {tot : LiqTotals}
    (h : liquidatePositions c w = Except.ok (w', tot)) (h0 : MarkedOff c [] w.pool) : MarkedOff c [] w'.pool := by
  obtain ⟨p1, p2, p3, h1, h2, h3, rfl⟩ := liquidatePositions_ok h
  have m1 : MarkedOff c [] p1 := by
    have := foldlM_rel (P := fun a b : VPool => MarkedOff c [] a → MarkedOff c [] b) (fun _ h => h)
      (fun a b d h1 h2 h => h2 (h1 h)) (fun a p b h => by
        simp only [bind_ok, pure_ok] at h
        obtain ⟨⟨x, y⟩, hx, rfl⟩ := h
        exact updatePair_marked hx) _ h1
    exact this h0
  have m1' : MarkedOff c w.acc.positions.keys p1 := fun q hq _ => m1 q hq (by simp)
  have m2 : MarkedOff c w.acc.positions.keys p2 := by
    have key : ∀ (l : List (PairId × AccountPosition)) (t t' : VPool × LiqTotals),
        (∀ e ∈ l, e.1 ∈ w.acc.positions.keys) → l.foldlM (liquidateOne c w.acc.rebate) t = Except.ok t' →
        MarkedOff c w.acc.positions.keys t.1 → MarkedOff c w.acc.positions.keys t'.1 := by
      intro l
      induction l with
      | nil =>
        intro t t' _ h hm
        simp only [List.foldlM_nil, pure_ok] at h
        subst h; exact hm
      | cons e l ih =>
        intro t t' hl h hm
        simp only [List.foldlM_cons, bind_ok] at h
        obtain ⟨t1, h1, h2⟩ := h
        obtain ⟨pc, price, pp, -, -, -, e1, -⟩ := liquidateOne_ok h1
        refine ih t1 t' (fun x hx => hl x (List.mem_cons_of_mem _ hx)) h2 ?_
        refine markedOff_free (hl e List.mem_cons_self) (by rw [e1]; rfl) ?_ hm
        intro q hq
        rw [e1] at hq
        simpa [VPool.setPosition] using hq
    exact key _ _ _ (fun e he => List.mem_map_of_mem he) h2 m1'
  have m3 : ∀ (l : List PairId) (a b : VPool), l.foldlM (updatePairSnaps c) a = Except.ok b → MarkedOff c l a →
      MarkedOff c [] b := by
    intro l
    induction l with
    | nil =>
      intro a b h hm
      simp only [List.foldlM_nil, pure_ok] at h
      subst h; exact hm
    | cons p l ih =>
      intro a b h hm
      simp only [List.foldlM_cons, bind_ok] at h
      obtain ⟨x, hx, h⟩ := h
      exact ih x b h (updatePairSnaps_marked hx (fun q h1 h2 => by simp [h1, h2]) hm)
  exact m3 _ _ _ h3 (markedOff_same rfl rfl m2)

theorem liquidate_marked {c : Ctx} {w w' : W} {pay : Bucket} {bs : List Bucket} {e : LiquidateEv}
    (h : liquidate c w pay = Except.ok (w', bs, e)) (h0 : MarkedOff c [] w.pool) : MarkedOff c [] w'.pool := by
  obtain ⟨w1, lp, lc, value, acc, tokens, taken, pool, w2, w3, loss, w4, fees, -, hlp, -, -, -, -, hwd, -, hp,
    hs, hwo, hfee, rfl, -, -⟩ := liquidate_ok h
  show MarkedOff c [] w4.pool
  refine settleFees_marked hfee ?_
  have m1 := liquidatePositions_marked hlp h0
  have m2 : MarkedOff c [] w2.pool := by
    rw [settleAccount_ok hs, VPool.deposit_ok hp]
    exact markedOff_same rfl rfl m1
  rw [(writeOff_ok hwo).2]
  exact markedOff_same rfl rfl m2

theorem updatePairsLoop_marked {c : Ctx} (l : List PairId) :
    ∀ {pool pool' : VPool} {flags : List Bool}, updatePairsLoop c pool l = Except.ok (pool', flags) →
      MarkedOff c [] pool → MarkedOff c [] pool' := by
  induction l with
  | nil =>
    intro pool pool' flags h h0
    simp only [updatePairsLoop, Except.ok.injEq, Prod.mk.injEq] at h
    rw [← h.1]; exact h0
  | cons p l ih =>
    intro pool pool' flags h h0
    simp only [updatePairsLoop, bind_ok, pure_ok, Prod.mk.injEq] at h
    obtain ⟨⟨p1, b⟩, h1, ⟨p2, bs⟩, h2, rfl, -⟩ := h
    exact ih h2 (updatePair_marked h1 h0)

/-! ## Which pairs a call touches -/

theorem WPath.updated {ex : ExchangeConfig} {w w' : W} {x : Dec} (h : WPath ex w w' x) {q : PairId}
    (hq : q ∈ w.pool.updated) : q ∈ w'.pool.updated := by
  refine h.keep (P := fun w => q ∈ w.pool.updated) ?_ hq
  intro a b y hs h0
  cases hs with
  | fees _ hf => rw [(settleFeesReferral_ok hf).1]; exact h0
  | mark => exact List.mem_cons_of_mem _ h0
  | trade => exact List.mem_cons_of_mem _ (List.mem_cons_of_mem _ h0)
  | liq => exact List.mem_cons_of_mem _ h0
  | _ => exact h0

theorem updatePair_updated {c : Ctx} {pool pool' : VPool} {p : PairId} {b : Bool}
    (h : updatePair c pool p = Except.ok (pool', b)) : p ∈ pool'.updated ∧ ∀ q ∈ pool.updated, q ∈ pool'.updated := by
  obtain ⟨pc, price, pp0, pp1, dPool, seconds, period, -, -, -, -, -, -, rfl, -⟩ := updatePair_ok h
  exact ⟨List.mem_cons_self, fun q hq => List.mem_cons_of_mem _ hq⟩

theorem marginOrder_updated {c : Ctx} {w w' : W} {r : MarginOrderReq} {e : MarginOrderEv}
    (h : marginOrder c w r = Except.ok (w', e)) : r.pair ∈ w'.pool.updated := by
  obtain ⟨price, pool, b, w1, funding, close, op, w2, pnl, fee, ok, w3, fees, a1, a2, -, -, hup, hf,
    -, hx, -, -, hfee, -, -, rfl, -, -⟩ := marginOrder_ok h
  have h1 := (settleFunding_path (ex := c.cfg.ex) hf).updated (updatePair_updated hup).1
  obtain ⟨hx, h0⟩ := executeOrder_path (ex := c.cfg.ex) hx
  exact (WStep.fees h0 hfee).path.updated (hx.updated h1)

theorem autoDeleverage_updated {c : Ctx} {w w' : W} {p : PairId} {e : AdlEv}
    (h : autoDeleverage c w p = Except.ok (w', e)) : p ∈ w'.pool.updated := by
  obtain ⟨pool, b, w1, funding, ratio0, price, pct, thr, w2, pnl, fee, fees, ratio1, hup, hf, -, -, -, -, -, -,
    -, -, hcl, hfee, -⟩ := autoDeleverage_ok h
  have h1 := (settleFunding_path (ex := c.cfg.ex) hf).updated (updatePair_updated hup).1
  have h2 : p ∈ w2.pool.updated := by
    obtain ⟨_, _, _, -, -, -, -, -, -, -, -, -, hw, -⟩ := closePosition_ok hcl
    rw [hw]; exact List.mem_cons_self
  rw [(settleFeesReferral_ok hfee).1]; exact h2

theorem liquidate_updated {c : Ctx} {w w' : W} {pay : Bucket} {bs : List Bucket} {e : LiquidateEv}
    (h : liquidate c w pay = Except.ok (w', bs, e)) {q : PairId} (hq : q ∈ w.acc.positions.keys) : q ∈ w'.pool.updated := by
  obtain ⟨w1, lp, lc, value, acc, tokens, taken, pool, w2, w3, loss, w4, fees, -, hlp, -, -, -, -, hwd, -, hp,
    hs, hwo, hfee, rfl, -, -⟩ := liquidate_ok h
  have m1 : q ∈ w1.pool.updated := by
    obtain ⟨p1, p2, p3, -, -, h3, rfl⟩ := liquidatePositions_ok hlp
    have key : ∀ (l : List PairId) (a b : VPool), l.foldlM (updatePairSnaps c) a = Except.ok b →
        (q ∈ l ∨ q ∈ a.updated) → q ∈ b.updated := by
      intro l
      induction l with
      | nil =>
        intro a b h hm
        simp only [List.foldlM_nil, pure_ok] at h
        subst h; simpa using hm
      | cons p l ih =>
        intro a b h hm
        simp only [List.foldlM_cons, bind_ok] at h
        obtain ⟨x, hx, h⟩ := h
        refine ih x b h ?_
        obtain ⟨price, pp, -, -, rfl⟩ := updatePairSnaps_ok hx
        simp only [List.mem_cons] at hm ⊢
        tauto
    exact key _ _ _ h3 (.inl hq)
  have e1 : w3.pool.updated = w1.pool.updated := by
    rw [(writeOff_ok hwo).2, settleAccount_ok hs, VPool.deposit_ok hp]
  simp only
  rw [(settleFeesReferral_ok hfee).1]
  simp only
  rw [e1]; exact m1

theorem updatePairsLoop_updated {c : Ctx} (l : List PairId) :
    ∀ {pool pool' : VPool} {flags : List Bool}, updatePairsLoop c pool l = Except.ok (pool', flags) →
      ∀ q, q ∈ l ∨ q ∈ pool.updated → q ∈ pool'.updated := by
  induction l with
  | nil =>
    intro pool pool' flags h q hq
    simp only [updatePairsLoop, Except.ok.injEq, Prod.mk.injEq] at h
    rw [← h.1]; simpa using hq
  | cons p l ih =>
    intro pool pool' flags h q hq
    simp only [updatePairsLoop, bind_ok, pure_ok, Prod.mk.injEq] at h
    obtain ⟨⟨p1, b⟩, h1, ⟨p2, bs⟩, h2, rfl, -⟩ := h
    obtain ⟨u1, u2⟩ := updatePair_updated h1
    refine ih h2 q ?_
    rcases hq with hq | hq
    · rcases List.mem_cons.mp hq with rfl | hq
      · exact .inr u1
      · exact .inl hq
    · exact .inr (u2 q hq)

/-- The pairs a successful call of each method deals with. -/
def Op.touches (s : State) (op : Op) (o : Out) (q : PairId) : Prop :=
  match op with
  | .processRequest _ _ _ => ∃ e, o.ev = .order e ∧ e.pair = q
  | .liquidate a _ _ => ∃ acc pos, s.accounts.get a = some acc ∧ acc.positions.get q = some pos
  | .autoDeleverage _ p _ => p = q
  | .updatePairs ids _ => q ∈ ids
  | _ => False

theorem removeCollateral_pool {c : Ctx} {w w' : W} {r : RemoveCollateralReq} {tokens : List Bucket}
    (h : removeCollateral c w r = Except.ok (w', tokens)) :
    w'.pool.positions = w.pool.positions ∧ w'.pool.updated = w.pool.updated ∧
    w'.pool.comp.positions = w.pool.comp.positions ∧ w'.acc.positions = w.acc.positions ∧
    w'.acc.positionsUpdated = w.acc.positionsUpdated := by
  obtain ⟨claims, t, acc, bs, -, ht, hw, -, -, rfl, -⟩ := removeCollateral_ok h
  have := foldlM_rel (P := fun a b : W × List Bucket × List (Res × Dec) => b.1.pool.positions = a.1.pool.positions ∧
      b.1.pool.updated = a.1.pool.updated ∧ b.1.pool.comp.positions = a.1.pool.comp.positions ∧
      b.1.acc.positions = a.1.acc.positions ∧ b.1.acc.positionsUpdated = a.1.acc.positionsUpdated)
    (fun _ => ⟨rfl, rfl, rfl, rfl, rfl⟩) (fun a b c h1 h2 => ⟨h2.1.trans h1.1, h2.2.1.trans h1.2.1, h2.2.2.1.trans h1.2.2.1,
      h2.2.2.2.1.trans h1.2.2.2.1, h2.2.2.2.2.trans h1.2.2.2.2⟩)
    (fun a b d h => by
      rcases claimOne_ok h with ⟨-, -, -, pool, x, w, hp, hw, rfl⟩ | ⟨-, -, rfl⟩
      · obtain ⟨-, rfl⟩ := VPool.withdraw_ok hp
        simp only [settleAccount_ok hw, and_self]
      · simp only [and_self]) _ ht
  have hc := withdrawCollateral_collOnly hw
  unfold CollOnly at hc
  refine ⟨this.1, this.2.1, this.2.2.1, ?_, ?_⟩
  · simp only; rw [hc]; exact this.2.2.2.1
  · simp only; rw [hc]; exact this.2.2.2.2

/-- **C04, second half.** If a successful call deals with a pair, or changes the pool's position in it for whatever
reason, then afterwards the snapshots of that pair are its skew and pnl marked at the price stored in the oracle. -/
theorem c04_touched_pairs_marked {env : Env} {cl : Caller} {s s' : State} {op : Op} {o : Out} {q : PairId}
    (h : step env cl s op = Except.ok (s', o))
    (hq : op.touches s o q ∨ s'.pool.positions.get q ≠ s.pool.positions.get q) :
    ∃ pp price t, s'.pool.positions.get q = some pp ∧ s'.oracle.prices.get q = some (price, t) ∧ pp.MarkedAt price := by
  have hb := step_body h
  have fin : ∀ {ids u s1 c} {v : VPool}, keeperLoad env s ids u = Except.ok (s1, c, VPool.new s.pool s.now ids) →
      s'.pool = v.realize → s'.oracle = s1.oracle → v.comp.positions = s.pool.positions → MarkedOff c [] v →
      (op.touches s o q → q ∈ v.updated) →
      ∃ pp price t, s'.pool.positions.get q = some pp ∧ s'.oracle.prices.get q = some (price, t) ∧ pp.MarkedAt price := by
    intro ids u s1 c v hk hp ho hcomp hm ht
    have hup : q ∈ v.updated := by
      rcases hq with hq | hq
      · exact ht hq
      · by_contra hn
        apply hq
        rw [hp]
        simp only [VPool.realize]
        rw [VPool.realPositions_get, if_neg hn, hcomp]
    obtain ⟨price, pp, h1, h2, h3⟩ := hm q hup (by simp)
    obtain ⟨-, t, ht, -⟩ := (keeperLoad_prices hk).1 q price h1
    refine ⟨pp, price, t, ?_, by rw [ho]; exact ht, h3⟩
    rw [hp]
    simp only [VPool.realize]
    rw [VPool.realPositions_get, if_pos hup, h2]
    rfl
  have frame : ∀ {a acc acc' ids u s1 c w0 w}, KeeperRun env s s' a acc acc' ids u s1 c w0 w →
      w.pool.comp.positions = s.pool.positions := by
    intro a acc acc' ids u s1 c w0 w hk
    have := congrArg Pool.positions hk.path.frame.2.2.2.2
    rw [this, hk.pool0]; rfl
  have new : ∀ {c : Ctx} {ids : List PairId}, MarkedOff c [] (VPool.new s.pool s.now ids) := by
    intro c ids q hq
    simp [VPool.new] at hq
  by_cases hm : op.marks = true
  · cases op <;> first | exact absurd hm Bool.false_ne_true | skip
    case processRequest a i u =>
      by_cases hx : o.ev = .expired
      · exfalso
        rcases hq with ⟨e, he, -⟩ | hq
        · rw [hx] at he; cases he
        · obtain ⟨v, v1, r, expired, cfg, -, -, -, -, -, hh⟩ := processRequest_ok hb
          rcases hh with ⟨-, acc, refs, -, rfl, -⟩ | ⟨-, s1, c, w, out, acc, refs, -, hex, -, -, ho⟩
          · exact hq rfl
          · rw [ho] at hx
            rcases executeRequest_ok hex with ⟨_, _, -, -, rfl⟩ | ⟨_, _, -, -, rfl⟩ <;> cases hx
      · obtain ⟨acc, acc', kr, ids, s1, c, w0, w, out, hk, -, -, -, hex, hev, -, -⟩ := run_execute hb hx
        refine fin hk.load hk.pool hk.oracle (frame hk) ?_ ?_
        · rcases executeRequest_ok hex with ⟨rc, tokens, -, hr, -⟩ | ⟨mo, e, -, hr, -⟩
          · have := removeCollateral_pool hr
            refine markedOff_same this.1 this.2.1 ?_
            rw [hk.pool0]; exact new
          · refine marginOrder_marked hr ?_
            rw [hk.pool0]; exact new
        · rintro ⟨e, he, rfl⟩
          rw [hev] at he
          rcases executeRequest_ok hex with ⟨rc, tokens, -, hr, ho⟩ | ⟨mo, e', -, hr, ho⟩
          · rw [ho] at he; cases he
          · rw [ho] at he; cases he
            have := marginOrder_updated hr
            obtain ⟨price, pool, b, w1, funding, close, op, w2, pnl, fee, ok, w3, fees, a1, a2, -, -, -, -,
              -, -, -, -, -, -, -, -, -, rfl⟩ := marginOrder_ok hr
            exact this
    case liquidate a b u =>
      obtain ⟨acc, acc', ids, s1, c, w0, w, tokens, e, hk, -, -, hx, -⟩ := run_liquidate hb
      refine fin hk.load hk.pool hk.oracle (frame hk) (liquidate_marked hx (by rw [hk.pool0]; exact new)) ?_
      rintro ⟨acc0, pos, ha, hpos⟩
      rw [hk.before] at ha; cases ha
      refine liquidate_updated hx ?_
      rw [hk.pos0, AMap.mem_keys]
      exact ⟨pos, hpos⟩
    case autoDeleverage a p u =>
      obtain ⟨acc, acc', ids, s1, c, w0, w, e, hk, -, hx, -⟩ := run_adl hb
      refine fin hk.load hk.pool hk.oracle (frame hk) (autoDeleverage_marked hx (by rw [hk.pool0]; exact new)) ?_
      rintro rfl
      exact autoDeleverage_updated hx
    case updatePairs ids u =>
      obtain ⟨s1, c, pool, flags, n, hk, hx, -, he, -⟩ := opUpdatePairs_ok hb
      have hcomp : pool.comp.positions = s.pool.positions := by
        have hp := updatePairsLoop_path (ex := c.cfg.ex) (acc := default) (d := s.dist) _ hx
        have := congrArg Pool.positions hp.frame.2.2.2.2
        rw [this]; rfl
      refine fin hk (by rw [he]) (by rw [he]) hcomp (updatePairsLoop_marked _ hx new) ?_
      intro hq
      exact updatePairsLoop_updated _ hx q (.inl (List.mem_dedup.mpr hq))
  · have hm : op.marks = false := by simpa using hm
    exfalso
    rcases hq with hq | hq
    · cases op <;> first | exact hq | cases hm
    · exact hq (by rw [body_pool_positions hb hm])

end Perp
