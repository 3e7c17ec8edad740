import Verif.OrderR

/-!
# Iteration order (C62): the bodies of the exchange methods
-/

namespace Perp

theorem assertPoolIntegrity_agree {c c' : VConfig} (hc : c.Same c') {v v' : VPool} (hv : v.Same v') (x : Dec) :
    Agree (fun _ _ => True) (assertPoolIntegrity c v x) (assertPoolIntegrity c' v' x) := by
  unfold assertPoolIntegrity
  rw [hv.skewRatio, hc.ex]
  exact Agree.refl fun _ => trivial

theorem assertCollateralsLimit_agree {c c' : VConfig} (hc : c.Same c') {v v' : VAccount} (hv : v.Same v') :
    Agree (fun _ _ => True) (assertCollateralsLimit c v) (assertCollateralsLimit c' v') := by
  unfold assertCollateralsLimit
  rw [hv.collateralBalances.size, hc.ex]
  exact Agree.refl fun _ => trivial

theorem assertActiveLimit_agree {c c' : VConfig} (hc : c.Same c') {v v' : VAccount} (hv : v.Same v') :
    Agree (fun _ _ => True) (assertActiveLimit c v) (assertActiveLimit c' v') := by
  unfold assertActiveLimit
  rw [hv.activeLen, hc.ex]
  exact Agree.refl fun _ => trivial

theorem settleFeeOath_agree {c c' : Ctx} (hc : c.Same c') {pool pool' : VPool} (hp : pool.Same pool') {a a' : VAccount}
    (ha : a.Same a') (oath : Bucket) : Agree VAccount.Same (settleFeeOath c pool a oath) (settleFeeOath c' pool' a' oath) := by
  unfold settleFeeOath
  refine Agree.require rfl fun _ => Agree.bind_same fun n _ => Agree.bind (ha.addVb n) fun x x' _ _ hx => ?_
  exact Agree.unit (assertAccountIntegrity_agree hc hp hx) (Agree.pure hx)

theorem addLiquidity_agree (env : Env) {c c' : VConfig} (hc : c.Same c') {v v' : VPool} (hv : v.Same v') (d : FeeDist)
    (supply : Dec) (b : Bucket) :
    Agree (fun r r' => r.1.Same r'.1 ∧ r.2 = r'.2) (addLiquidity env c v d supply b) (addLiquidity env c' v' d supply b) := by
  unfold addLiquidity
  rw [hc.ex, hv.poolValue]
  refine Agree.require rfl fun _ => ?_
  iterate 4 refine Agree.bind_same fun _ _ => ?_
  refine Agree.bind (hv.deposit _) fun x x' _ _ hx => Agree.bind_same fun m _ => ?_
  refine Agree.bind (hx.settleFeesBasic _ _ _) fun y y' _ _ hy => ?_
  obtain ⟨y1, y2, y3⟩ := y
  obtain ⟨y1', y2', y3'⟩ := y'
  obtain ⟨h1, h2⟩ := hy
  cases h2
  exact Agree.pure ⟨h1, rfl⟩

theorem removeLiquidity_agree (env : Env) {c c' : VConfig} (hc : c.Same c') {v v' : VPool} (hv : v.Same v') (d : FeeDist)
    (supply : Dec) (b : Bucket) :
    Agree (fun r r' => r.1.Same r'.1 ∧ r.2 = r'.2) (removeLiquidity env c v d supply b)
      (removeLiquidity env c' v' d supply b) := by
  unfold removeLiquidity
  rw [hc.ex, hv.poolValue, hv.base]
  refine Agree.require rfl fun _ => ?_
  iterate 5 refine Agree.bind_same fun _ _ => ?_
  refine Agree.require rfl fun _ => ?_
  refine Agree.bind (hv.withdraw _ _ _) fun x x' _ _ hx => ?_
  obtain ⟨x1, x2⟩ := x
  obtain ⟨x1', x2'⟩ := x'
  obtain ⟨h1, h2⟩ := hx
  cases h2
  refine Agree.bind (h1.settleFeesBasic _ _ _) fun y y' _ _ hy => ?_
  obtain ⟨y1, y2, y3⟩ := y
  obtain ⟨y1', y2', y3'⟩ := y'
  obtain ⟨h3, h4⟩ := hy
  cases h4
  refine Agree.unit (assertPoolIntegrity_agree hc h3 _) ?_
  iterate 2 refine Agree.bind_same fun _ _ => ?_
  exact Agree.pure ⟨h3, rfl⟩

theorem addBase_agree {w w' : W} (h : w.Same w') (b : Bucket) : Agree W.Same (addBase w b) (addBase w' b) := by
  unfold addBase
  refine Agree.bind (h.pool.deposit _) fun x x' _ _ hx => ?_
  exact W.Same.settleAccount (w := { w with pool := x }) (w' := { w' with pool := x' }) ⟨hx, h.acc, h.dist⟩ _

theorem addCollateral_agree {c c' : VConfig} (hc : c.Same c') {w w' : W} (h : w.Same w') (bs : List Bucket) :
    Agree W.Same (addCollateral c w bs) (addCollateral c' w' bs) := by
  unfold addCollateral
  refine Agree.bind (foldlM_same_list (fun b _ _ _ h => addBase_agree h b) h) fun x x' _ _ hx => ?_
  have : (fun b : Bucket => c.colls.has b.res) = fun b => c'.colls.has b.res := funext fun b => hc.colls.has _
  simp only [this]
  refine Agree.require rfl fun _ => Agree.bind (hx.acc.depositCollateral _) fun y y' _ _ hy => ?_
  exact Agree.unit (assertCollateralsLimit_agree hc hy) (Agree.pure ⟨hx.pool, hy, hx.dist⟩)

theorem marginOrder_brought {c c' : Ctx} {w w' : W} (hc : c.Same c') (ha : w.acc.Same w'.acc) (hd : w.dist = w'.dist)
    {r r' : MarginOrderReq} (hr : (Request.marginOrder r).canon = (Request.marginOrder r').canon)
    (hup : Agree (fun x x' => x.1.Same x'.1) (updatePair c w.pool r'.pair) (updatePair c' w'.pool r'.pair)) :
    Agree (fun x x' => x.1.Same x'.1 ∧ x.2 = x'.2) (marginOrder c w r) (marginOrder c' w' r') := by
  simp only [Request.canon, Sum.inr.injEq, Prod.mk.injEq, Multiset.coe_eq_coe] at hr
  obtain ⟨r1, r2, r3, r4, r5, r6, r7⟩ := hr
  unfold marginOrder
  rw [r1, r2, r3, r4, r5, hc.price, hc.cfg.ex]
  refine Agree.bind_same fun price _ => Agree.require rfl fun _ => ?_
  refine Agree.bind hup fun u u' _ _ hu => ?_
  refine Agree.bind (W.Same.settleFunding (w := { w with pool := u.1 }) (w' := { w' with pool := u'.1 })
    ⟨hu, ha, hd⟩ _) fun x x' _ _ hx => ?_
  obtain ⟨x, f⟩ := x
  obtain ⟨x', f'⟩ := x'
  obtain ⟨hx, rfl⟩ := hx
  simp only
  rw [hx.acc.positions.getD, hx.pool.skewSnap]
  refine Agree.bind_same fun s _ => ?_
  refine Agree.bind (executeOrder_agree hc hx _ _ _) fun y y' _ _ hy => ?_
  obtain ⟨y, pnl, fee⟩ := y
  obtain ⟨y', pnl', fee'⟩ := y'
  obtain ⟨hy, h2⟩ := hy
  cases h2
  simp only
  iterate 4 refine Agree.bind_same fun _ _ => ?_
  refine Agree.require rfl fun _ => ?_
  refine Agree.bind (hy.settleFeesReferral _ _) fun z z' _ _ hz => ?_
  obtain ⟨z, fs⟩ := z
  obtain ⟨z', fs'⟩ := z'
  obtain ⟨hz, rfl⟩ := hz
  refine Agree.bind (hz.acc.trySetStatus r6 _) fun a a' _ _ ha => ?_
  refine Agree.bind (ha.trySetStatus r7 _) fun b b' _ _ hb => ?_
  simp only
  rw [hz.pool.skewSnap]
  refine Agree.bind_same fun ds _ => Agree.unit (assertPoolIntegrity_agree hc.cfg hz.pool _) ?_
  exact Agree.bind_same fun _ _ => Agree.pure ⟨⟨hz.pool, hb, hz.dist⟩, rfl⟩

theorem marginOrder_agree {c c' : Ctx} {w w' : W} (hc : c.Same c') (hw : w.Same w') {r r' : MarginOrderReq}
    (hr : (Request.marginOrder r).canon = (Request.marginOrder r').canon) :
    Agree (fun x x' => x.1.Same x'.1 ∧ x.2 = x'.2) (marginOrder c w r) (marginOrder c' w' r') :=
  marginOrder_brought hc hw.acc hw.dist hr ((updatePair_agree hc hw.pool _).mono fun _ _ h => h.1)

theorem swapDebt_agree {c c' : Ctx} {w w' : W} (hc : c.Same c') (hw : w.Same w') (res : Res) (b : Bucket) :
    Agree (fun x x' => x.1.Same x'.1 ∧ x.2 = x'.2) (swapDebt c w res b) (swapDebt c' w' res b) := by
  unfold swapDebt assertValidCollateral
  rw [hc.cfg.colls.has, hw.acc.vb, hc.cfg.colls res, hc.priceResource, hw.acc.collateralAmount, hc.env]
  iterate 3 refine Agree.require rfl fun _ => ?_
  iterate 8 refine Agree.bind_same fun _ _ => ?_
  refine Agree.bind (hw.pool.deposit _) fun x x' _ _ hx => ?_
  refine Agree.bind (W.Same.settleAccount (w := { w with pool := x }) (w' := { w' with pool := x' })
    ⟨hx, hw.acc, hw.dist⟩ _) fun y y' _ _ hy => ?_
  refine Agree.bind (hy.acc.withdrawCollateral _ (List.Perm.refl _) (by simp) _) fun z z' h1 h2 hz => ?_
  obtain ⟨z, bs⟩ := z
  obtain ⟨z', bs'⟩ := z'
  obtain ⟨hz, hb⟩ := hz
  simp only [VAccount.withdrawCollateral, vaultTakeBatch, bind_ok, pure_ok, Prod.mk.injEq, Prod.exists] at h1
  obtain ⟨m, l, ⟨m1, k, -, m2, l2, hl, rfl, rfl⟩, -, -, -, -, -, rfl⟩ := h1
  cases hl
  rw [List.perm_comm, List.perm_singleton] at hb
  subst hb
  exact Agree.bind_same fun t _ => Agree.pure ⟨⟨hy.pool, hz, hy.dist⟩, rfl⟩

theorem writeOff_agree {w w' : W} (h : w.Same w') :
    Agree (fun x x' => x.1.Same x'.1 ∧ x.2 = x'.2) (writeOff w) (writeOff w') := by
  unfold writeOff
  rw [h.acc.vb]
  split
  · refine Agree.bind_same fun n _ => Agree.bind (h.settleAccount _) fun x x' _ _ hx => Agree.pure ⟨hx, rfl⟩
  · exact Agree.pure ⟨h, rfl⟩

/-- Events of liquidations with the same content. -/
def LiquidateEv.canon (e : LiquidateEv) :=
  (e.accountValue, e.margin, e.virtualBalance, e.positionsPnl, (e.collateralAmounts : Multiset (Res × Dec)),
    e.collateralValue, e.collateralValueDiscounted, e.funding, e.fees, e.poolLoss)

theorem liquidate_brought {c c' : Ctx} {w w' : W} (hc : c.Same c') (ha : w.acc.Same w'.acc) (hd : w.dist = w'.dist) (b : Bucket)
    (hup : Agree VPool.Same (w.acc.positions.keys.foldlM (fun pool p => do let r ← updatePair c pool p; pure r.1) w.pool)
      (w'.acc.positions.keys.foldlM (fun pool p => do let r ← updatePair c' pool p; pure r.1) w'.pool)) :
    Agree (fun x x' => x.1.Same x'.1 ∧ x.2.1.Perm x'.2.1 ∧ x.2.2.canon = x'.2.2.canon) (liquidate c w b)
      (liquidate c' w' b) := by
  unfold liquidate
  rw [hc.env, hc.cfg.ex]
  refine Agree.require rfl fun _ => ?_
  refine Agree.bind (liquidatePositions_brought hc ha hd hup) fun x x' _ _ hx => ?_
  obtain ⟨x, lp⟩ := x
  obtain ⟨x', lp'⟩ := x'
  obtain ⟨hx, rfl⟩ := hx
  refine Agree.bind (liquidateCollateral_agree hc hx.acc) fun lc lc' g1 g2 hl => ?_
  have hn := liquidateCollateral_nodup g1
  simp only [LiqColl.obs, Prod.mk.injEq, Multiset.coe_eq_coe] at hl
  obtain ⟨l1, l2, l3, l4⟩ := hl
  simp only
  rw [l2, l3, hx.acc.vb]
  iterate 3 refine Agree.bind_same fun _ _ => ?_
  iterate 2 refine Agree.require rfl fun _ => ?_
  refine Agree.bind (hx.acc.withdrawCollateral _ l4 hn _) fun z z' _ _ hz => ?_
  obtain ⟨z, bs⟩ := z
  obtain ⟨z', bs'⟩ := z'
  obtain ⟨hz, hb⟩ := hz
  refine Agree.bind_same fun taken _ => Agree.bind (hx.pool.deposit _) fun p p' _ _ hp => Agree.bind_same fun s _ => ?_
  refine Agree.bind (W.Same.settleAccount (w := { x with pool := p, acc := z }) (w' := { x' with pool := p', acc := z' })
    ⟨hp, hz, hx.dist⟩ _) fun y y' _ _ hy => ?_
  refine Agree.bind (writeOff_agree hy) fun u u' _ _ hu => ?_
  obtain ⟨u, loss⟩ := u
  obtain ⟨u', loss'⟩ := u'
  obtain ⟨hu, rfl⟩ := hu
  refine Agree.bind (hu.settleFeesReferral _ _) fun v v' _ _ hv => ?_
  obtain ⟨v, fs⟩ := v
  obtain ⟨v', fs'⟩ := v'
  obtain ⟨hv, rfl⟩ := hv
  refine Agree.bind_same fun nf _ => Agree.pure ⟨⟨hv.pool, hv.acc.updateValidStart, hv.dist⟩, hb.append_right _, ?_⟩
  simp only [LiquidateEv.canon, l1, Multiset.coe_eq_coe.mpr l4]

theorem liquidate_agree {c c' : Ctx} {w w' : W} (hc : c.Same c') (hw : w.Same w') (b : Bucket) :
    Agree (fun x x' => x.1.Same x'.1 ∧ x.2.1.Perm x'.2.1 ∧ x.2.2.canon = x'.2.2.canon) (liquidate c w b)
      (liquidate c' w' b) :=
  liquidate_brought hc hw.acc hw.dist b (markLoop_agree hc hw.pool hw.acc.positions.keys w.acc.positions.keys_nodup)

theorem autoDeleverage_brought {c c' : Ctx} {w w' : W} (hc : c.Same c') (ha : w.acc.Same w'.acc) (hd : w.dist = w'.dist)
    (p : PairId) (hup : Agree (fun x x' => x.1.Same x'.1) (updatePair c w.pool p) (updatePair c' w'.pool p)) :
    Agree (fun x x' => x.1.Same x'.1 ∧ x.2 = x'.2) (autoDeleverage c w p) (autoDeleverage c' w' p) := by
  unfold autoDeleverage
  rw [hc.price, hc.cfg.ex]
  refine Agree.bind hup fun u u' _ _ hu => ?_
  refine Agree.bind (W.Same.settleFunding (w := { w with pool := u.1 }) (w' := { w' with pool := u'.1 })
    ⟨hu, ha, hd⟩ _) fun x x' _ _ hx => ?_
  obtain ⟨x, f⟩ := x
  obtain ⟨x', f'⟩ := x'
  obtain ⟨hx, rfl⟩ := hx
  simp only
  rw [hx.acc.position, hx.pool.skewRatio]
  refine Agree.bind_same fun r _ => Agree.require rfl fun _ => Agree.bind_same fun pr _ => Agree.require rfl fun _ => ?_
  iterate 4 refine Agree.bind_same fun _ _ => ?_
  refine Agree.require rfl fun _ => Agree.bind_same fun n _ => ?_
  refine Agree.bind (closePosition_agree hc hx _ _) fun y y' _ _ hy => ?_
  obtain ⟨y, pnl, fee⟩ := y
  obtain ⟨y', pnl', fee'⟩ := y'
  obtain ⟨hy, h2⟩ := hy
  cases h2
  refine Agree.bind (hy.settleFeesReferral _ _) fun z z' _ _ hz => ?_
  obtain ⟨z, fs⟩ := z
  obtain ⟨z', fs'⟩ := z'
  obtain ⟨hz, rfl⟩ := hz
  simp only
  rw [hz.pool.skewRatio]
  refine Agree.bind_same fun r1 _ => Agree.require rfl fun _ => ?_
  exact Agree.bind_same fun _ _ => Agree.pure ⟨hz, rfl⟩

theorem autoDeleverage_agree {c c' : Ctx} {w w' : W} (hc : c.Same c') (hw : w.Same w') (p : PairId) :
    Agree (fun x x' => x.1.Same x'.1 ∧ x.2 = x'.2) (autoDeleverage c w p) (autoDeleverage c' w' p) :=
  autoDeleverage_brought hc hw.acc hw.dist p ((updatePair_agree hc hw.pool _).mono fun _ _ h => h.1)

end Perp
