import Verif.Binding
import Verif.Unique

/-!
# C71 for keepers: no reason to refuse a keeper call is waived
-/

namespace Perp

section
variable {env : Env} {cl : Caller} {s s' : State} {o : Out}

/-! ## Liquidations -/

theorem liquidate_cleared (h : Reach env s) {a : Addr} {b : Bucket} {u : Option PriceUpdate}
    (hs : opLiquidate env s a b u = Except.ok (s', o)) : Cleared (LiquidationRefused env s a b u) := by
  simp only [opLiquidate, bind_ok, require_ok] at hs
  obtain ⟨⟨⟩, hb, v, hv, ⟨s1, c, pool⟩, hr, ⟨w, tokens, ev⟩, hl, -⟩ := hs
  obtain ⟨acc, rd, ha, -, hv'⟩ := load_ok hv
  have hpid : v.positionIds = acc.positions.keys := by rw [hv']; rfl
  have hpr := prices_cleared hr
  rw [hpid] at hpr
  have hst := keeperLoad_state hr
  obtain ⟨w1, lp, lc, value, ac, tk, taken, pl, w2, w3, loss, w4, fees, hbase, hlp, hlc, hlt, hval, hle, -⟩ := liquidate_ok hl
  obtain ⟨p1, p2, p3, hu, hlo, -, rfl⟩ := liquidatePositions_ok hlp
  obtain ⟨t1, t2, -, t3⟩ := liqLoop_value (p1 := p1) _ v.positions.nodup (fun e _ => rfl) hlo
  obtain ⟨c1, c2, -, c4⟩ := liquidateCollateral_ok (keeperLoad_feeds hr) p1 hlc
  simp only at hu hlt c1 c2 c4
  have e1 : v.positions = acc.positions := by rw [hv']
  have e2 : v.noPositions.collateralBalances = acc.collateralBalances := by rw [hv']; rfl
  have e3 : v.noPositions.vb = acc.vb := by rw [hv']; rfl
  obtain ⟨href, hcoh⟩ := midway_refreshed h hr (fun p hp => hp) (AMap.keys_nodup _) hu
  have hag := midway_agree hr hcoh (fun p x hp => t3 (p, x) (AMap.get_eq_some.mp hp)) c4
  have hrb : (s1.midway p1).rebateOf acc = v.rebate := by
    rw [← load_rebateOf hv ha]
    unfold State.rebateOf State.midway
    rw [hst.2.2.2.2.1]
  have hkeys : v.positions.keys = acc.positions.keys := by rw [e1]
  rw [hpid] at href
  have hmain : (s1.midway p1).accountValue acc < (s1.midway p1).maintenanceMargin acc := by
    unfold State.maintenanceMargin State.accountValue
    have a1 := hag.value v.rebate acc.vb
    have a2 := hag.margin PairConfig.marginMaintenance
    rw [e2, e1] at a1 a2
    rw [hrb, ← a1, ← a2]
    simp only [zero_add] at t1 t2
    rw [t1, t2, c1, c2, e2, e3, e1] at hlt
    exact hlt
  have hpay : acc.collateralBalances.sum (s1.midway p1).market.collValue ≤ b.amt := by
    have hcs : v.noPositions.collateralBalances.sum (c.market p1).collValue =
        v.noPositions.collateralBalances.sum (s1.midway p1).market.collValue := by
      refine AMap.sum_congr (fun r x hx => ?_)
      simp only [Market.collValue, hag.coll r x hx]
      cases hc : (s1.midway p1).market.coll r with
      | none => rfl
      | some cc => simp only [hag.collPrice r x cc hx hc]
    rw [← e2, ← hcs, ← c1]
    have := (amountFor_up (c.env.gran_pos BASE) lc.valueDiscounted).1
    exact le_trans this (le_trans (le_of_eq (by first | exact hval | exact hval.symm)) hle)
  intro e he hn
  have key : ∀ e, e ≠ .arithmetic → (∃ acc, s.accounts.get a = some acc ∧ PricesRefused env s acc.positions.keys u e) → False := by
    rintro e he ⟨acc2, ha2, hn⟩
    rw [ha] at ha2; cases ha2
    exact hpr e he hn
  cases e <;> try exact key _ he hn
  case badBucket => rw [show okBucket env s b = false from hn] at hb; cases hb
  case invalidMarginAccount => rw [show s.accounts.get a = none from hn] at ha; cases ha
  case invalidPaymentToken => exact hn hbase
  case sufficientMargin =>
    obtain ⟨acc2, sx, ha2, hx, hn⟩ := hn
    rw [ha] at ha2; cases ha2
    have hk := Refreshed.unique hx href
    rw [hk.accountValue, hk.maintenance] at hn
    exact absurd hmain (not_lt.mpr hn)
  case insufficientPayment =>
    obtain ⟨acc2, sx, ha2, hx, hn⟩ := hn
    rw [ha] at ha2; cases ha2
    have hk := Refreshed.unique hx href
    rw [hk.market] at hn
    exact absurd hpay (not_le.mpr hn)

/-! ## Auto-deleveraging -/

theorem adl_cleared (h : Reach env s) {a : Addr} {p : PairId} {u : Option PriceUpdate}
    (hs : opAutoDeleverage env s a p u = Except.ok (s', o)) : Cleared (AdlRefused env s a p u) := by
  simp only [opAutoDeleverage, bind_ok] at hs
  obtain ⟨va, hv, ⟨s1, c, pool⟩, hr, ⟨w, ev⟩, hl, -⟩ := hs
  obtain ⟨acc, rd, ha, -, hv'⟩ := load_ok hv
  have hpid : va.positionIds = acc.positions.keys := by rw [hv']; rfl
  have hpr := prices_cleared hr
  rw [hpid] at hpr
  obtain ⟨hready, hhas⟩ := keeperLoad_ready hr
  obtain ⟨-, -, hcfg, -, -, -, -⟩ := keeperLoad_ok hr
  have hex : c.cfg.ex = s.config.exchange.decompress := (VConfig.new_ok hcfg).1
  have hpin : p ∈ insertId va.positionIds p := mem_insertId.mpr (Or.inl rfl)
  obtain ⟨hsz, hco⟩ := load_position hv ha p
  obtain ⟨v, b, wa, funding, ratio0, x, pct, thr, w2, pnl, fee, fees, ratio1, hu, hy, hr0, hcap, hx, hne, hcne, hpct, hthr, hgt,
    hcl, hsf, hr1, hlt, -⟩ := autoDeleverage_ok hl
  obtain ⟨pp, x', hpp, hx', hm⟩ := midway_marked hu
  rw [hx] at hx'; cases hx'
  obtain ⟨pc, hpc⟩ := hready.pair p hpin
  obtain ⟨hrf, hcoh, hbase⟩ := one_refreshed h hr hpin hu
  obtain ⟨q1, q2, q3, q4⟩ := midway_quote hr hcoh hpp hpc hx hv ha
  obtain ⟨w1, w2'⟩ := midway_value (s1 := s1) hbase
  obtain ⟨m1, m2, m3⟩ := settleFunding_worth hy
  have hfp := settleFunding_position hy
  obtain ⟨_, -, -, -, hfa, -⟩ := settleFunding_ok hy
  have hreb : wa.acc.rebate = va.rebate := by rw [hfa]; rfl
  have href : ∀ f, referralPart c.cfg.ex wa.acc f = referralPart c.cfg.ex va f := by intro f; rw [hfa]; rfl
  simp only at hfp m1 m2 m3
  have hr0' : ratio0 = (s1.midway v).pool.skewRatio := by
    rw [w2', skewRatio_ok hr0, m2]; unfold VPool.worth at m1 ⊢; rw [m1]
  have hc : closePart c wa p (-(wa.acc.position p).amount) = Except.ok (w2, pnl, fee) := by
    unfold closePart; rw [if_pos (by simpa using hne)]; exact hcl
  obtain ⟨k1, k2, pp1, k3, k4, k5, -⟩ := closePart_worth hc hx (by rw [m3]; exact hpp) hm
  have hfee : fee = tradeFee c.cfg.ex.feeMax pc.fee0 pc.fee1 va.rebate x (pp.oiLong - pp.oiShort) (-(va.position p).amount) ∧
      ∀ f, referralPart c.cfg.ex w2.acc f = referralPart c.cfg.ex va f := by
    obtain ⟨pc', pr, pp', hpc', hpr, hpp', -, -, -, rfl, -, -, -, hacc, -⟩ := closePosition_ok hcl
    rw [hx] at hpr; cases hpr
    rw [hpc] at hpc'; cases hpc'
    rw [m3, hpp] at hpp'; cases hpp'
    refine ⟨by rw [feeOf_tradeFee, hreb, hfp.1], fun f => ?_⟩
    rw [← href, hacc]; rfl
  obtain ⟨n1, n2, n3, n4⟩ := settleFees_worth hsf
  obtain ⟨-, -, -, hsplit⟩ := settleFeesReferral_ok hsf
  obtain ⟨hthr', -⟩ := adlThreshold_ok hthr
  have hsize0 : acc.size p ≠ 0 := by rw [hfp.1, hsz] at hne; exact hne
  have hline : adlLine s.config.exchange.decompress (s1.midway v).pool.skewRatio <
      divT (mulT (acc.size p) ((s1.midway v).market.price p) - acc.costOf p) (acc.costOf p) := by
    rw [q1, ← hr0', ← hex, ← hsz, ← hco, ← hfp.1, ← hfp.2, ← hpct]
    rw [hthr'] at hgt; exact hgt
  have hafter : (s1.midway v).ratioAfter acc p (-acc.size p) 0 < (s1.midway v).pool.skewRatio := by
    rw [← hr0']
    refine lt_of_eq_of_lt ?_ hlt
    have hof : (s1.midway v).orderFee acc p (-acc.size p) 0 = fee := by
      unfold State.orderFee
      rw [q1, q2, q3, q3, tradeFee_zero, add_zero, hfee.1, hsz]
    have hz : carry (pp.oiLong - pp.oiShort + -acc.size p) 0 x = 0 := by unfold carry; rw [mulT_zero_left]; simp
    have e : w.pool.base + w.pool.vb + w.pool.unreal + w.pool.pnlSnap = w.pool.worth := rfl
    rw [skewRatio_ok hr1, e, n1, n2, k1, k2, m1, m2, hsplit]
    unfold State.ratioAfter
    rw [hof, q1, q2, q4, w1, hz, add_zero, add_zero, hfp.1, hsz, hfee.2]
    change divT (v.skewSnap - _ + _) _ = _
    congr 2
    ring
  intro e he hn
  have key : ∀ e, e ≠ .arithmetic → (∃ acc, s.accounts.get a = some acc ∧ PricesRefused env s (insertId acc.positions.keys p) u e) →
      False := by
    rintro e he ⟨acc2, ha2, hn⟩
    rw [ha] at ha2; cases ha2
    exact hpr e he hn
  cases e <;> try exact key _ he hn
  case invalidMarginAccount => rw [show s.accounts.get a = none from hn] at ha; cases ha
  case missingPairConfig =>
    obtain ⟨k, hk, -⟩ := (VConfig.new_ok hcfg).2.2.1 p hpin
    rw [show s.config.pairs.get p = none from hn] at hk; cases hk
  case adlSkewTooLow =>
    obtain ⟨sx, hx, hn⟩ := hn
    rw [(Refreshed.unique hx hrf).ratio, ← hr0', ← hex] at hn
    exact absurd hcap (not_lt.mpr hn)
  case adlNoPosition =>
    obtain ⟨acc2, ha2, hn⟩ := hn
    rw [ha] at ha2; cases ha2
    exact hsize0 hn
  case adlPnlBelowThreshold =>
    obtain ⟨acc2, sx, ha2, hx, hn⟩ := hn
    rw [ha] at ha2; cases ha2
    have hk := Refreshed.unique hx hrf
    rw [hk.ratio, hk.market] at hn
    exact absurd hline (not_lt.mpr hn)
  case adlSkewNotReduced =>
    obtain ⟨acc2, sx, ha2, hx, hn⟩ := hn
    rw [ha] at ha2; cases ha2
    have hk := Refreshed.unique hx hrf
    rw [hk.ratio, hk.ratioAfter] at hn
    exact absurd hafter (not_lt.mpr hn)

end
end Perp
