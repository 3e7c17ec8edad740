import Verif.Fees
import Verif.Adl

/-!
# C50: the exact trading fee, and who pays more

The fee of a trade is a base rate on its value plus an impact charge that is the growth of the squared skew, scaled by the
referral multiplier and clamped between zero and the maximum rate.
-/

namespace Perp

/-! ## Specification -/

/-- How much longs exceed shorts in a pair. -/
def State.netOi (s : State) (p : PairId) : Dec :=
  (s.pool.position s.now p).oiLong - (s.pool.position s.now p).oiShort

/-- The fee for an account trading in a state. -/
def State.tradeFee (s : State) (acc : Account) (p : PairId) (price skew amount : Dec) : Dec :=
  Perp.tradeFee s.config.exchange.decompress.feeMax (s.market.pair p).fee0 (s.market.pair p).fee1 (s.rebateOf acc)
    price skew amount

/-! ## Facts about the fee -/

theorem tradeFee_nonneg (feeMax fee0 fee1 m price skew amount : Dec) :
    0 ≤ tradeFee feeMax fee0 fee1 m price skew amount := le_max_left _ _

theorem tradeFee_zero {feeMax fee0 fee1 m price skew : Dec} :
    tradeFee feeMax fee0 fee1 m price skew 0 = 0 := by
  simp [tradeFee, mulT_zero_left]

theorem tradeFee_mono {feeMax fee0 fee1 m price skew skew' amount amount' : Dec} (hf : 0 ≤ fee1) (hm : 0 ≤ m)
    (ha : |mulT amount price| = |mulT amount' price|)
    (h : mulT amount price * (2 * mulT skew price + mulT amount price) ≤
      mulT amount' price * (2 * mulT skew' price + mulT amount' price)) :
    tradeFee feeMax fee0 fee1 m price skew amount ≤ tradeFee feeMax fee0 fee1 m price skew' amount' := by
  unfold tradeFee
  rw [ha]
  refine max_le_max le_rfl (min_le_min ?_ le_rfl)
  refine mulT_mono_left (add_le_add le_rfl (mulT_mono_left ?_ hf)) hm
  unfold mulT
  exact Int.tdiv_le_tdiv ONE_pos h

/-- Trading with the skew (making it larger) costs at least as much as the opposite trade of the same size. -/
theorem c50_with_skew_costs_more {feeMax fee0 fee1 m price skew amount : Dec} (hf : 0 ≤ fee1) (hm : 0 ≤ m)
    (hp : 0 ≤ price) (hs : 0 ≤ skew * amount) :
    tradeFee feeMax fee0 fee1 m price skew (-amount) ≤ tradeFee feeMax fee0 fee1 m price skew amount := by
  refine tradeFee_mono hf hm (by rw [mulT_neg_left, abs_neg]) ?_
  rw [mulT_neg_left]
  have hk : 0 ≤ mulT amount price * mulT skew price := by
    rcases Int.le_total 0 amount with h | h <;> rcases Int.le_total 0 skew with g | g
    · exact mul_nonneg (mulT_nonneg h hp) (mulT_nonneg g hp)
    · have e : skew * amount = 0 := le_antisymm (mul_nonpos_of_nonpos_of_nonneg g h) hs
      rcases mul_eq_zero.mp e with e | e <;> simp [e, mulT_zero_left]
    · have e : skew * amount = 0 := le_antisymm (mul_nonpos_of_nonneg_of_nonpos g h) hs
      rcases mul_eq_zero.mp e with e | e <;> simp [e, mulT_zero_left]
    · have h1 := mulT_nonneg (neg_nonneg.mpr h) hp
      have h2 := mulT_nonneg (neg_nonneg.mpr g) hp
      rw [mulT_neg_left] at h1 h2
      nlinarith
  nlinarith

/-- A larger rebate never makes a trade more expensive. -/
theorem tradeFee_multiplier {feeMax fee0 fee1 m m' price skew amount : Dec} (h : m ≤ m') (h0 : 0 ≤ m) :
    tradeFee feeMax fee0 fee1 m price skew amount ≤ tradeFee feeMax fee0 fee1 m' price skew amount := by
  unfold tradeFee
  generalize mulT |mulT amount price| fee0 +
      mulT (mulT (mulT amount price) (2 * mulT skew price + mulT amount price)) fee1 = x
  rcases Int.le_total 0 x with hx | hx
  · refine max_le_max le_rfl (min_le_min ?_ le_rfl)
    rw [mulT_comm x m, mulT_comm x m']
    exact mulT_mono_left h hx
  · have e : mulT x m ≤ 0 := by
      have := mulT_nonneg (neg_nonneg.mpr hx) h0
      rw [mulT_neg_left] at this; omega
    refine max_le (le_max_left _ _) ?_
    exact le_trans (le_trans (min_le_left _ _) e) (le_max_left _ _)

/-! ## The code charges it -/

theorem closed_skew (pp : PoolPosition) (x cost : Dec) :
    (pp.closed x cost).oiLong - (pp.closed x cost).oiShort = pp.oiLong - pp.oiShort + x := by
  unfold PoolPosition.closed
  split <;> simp only <;> ring

theorem updatePair_oi {c : Ctx} {pool pool' : VPool} {p : PairId} {b : Bool}
    (h : updatePair c pool p = Except.ok (pool', b)) :
    ∃ pp pp', pool.positions.get p = some pp ∧ pool'.positions.get p = some pp' ∧ pp'.oiLong = pp.oiLong ∧
      pp'.oiShort = pp.oiShort := by
  obtain ⟨pc, price, pp0, pp1, dPool, seconds, period, -, -, hpp, -, -, hfs, hpool, -⟩ := updatePair_ok h
  have hfs := fundingStep_only hfs
  refine ⟨pp0, pp1, hpp, ?_, ?_, ?_⟩
  · rw [hpool]; exact AMap.get_set_self _ _ _
  · rw [hfs]; rfl
  · rw [hfs]; rfl

/-- Both parts of an order are charged by the formula, the opening part at the skew left by the closing part. -/
theorem executeOrder_fee {c : Ctx} {w w' : W} {p : PairId} {close op pnl fee price : Dec} {pc : PairConfig}
    {pp : PoolPosition} (h : executeOrder c w p close op = Except.ok (w', pnl, fee))
    (hp : c.orc.prices.get p = some price) (hc : c.cfg.pairs.get p = some pc) (hpp : w.pool.positions.get p = some pp) :
    fee = tradeFee c.cfg.ex.feeMax pc.fee0 pc.fee1 w.acc.rebate price (pp.oiLong - pp.oiShort) close +
      tradeFee c.cfg.ex.feeMax pc.fee0 pc.fee1 w.acc.rebate price (pp.oiLong - pp.oiShort + close) op := by
  obtain ⟨w1, f1, f2, h1, h2, rfl⟩ := executeOrder_ok h
  have key : f1 = tradeFee c.cfg.ex.feeMax pc.fee0 pc.fee1 w.acc.rebate price (pp.oiLong - pp.oiShort) close ∧
      w1.acc.rebate = w.acc.rebate ∧ ∃ pp1, w1.pool.positions.get p = some pp1 ∧
        pp1.oiLong - pp1.oiShort = pp.oiLong - pp.oiShort + close := by
    unfold closePart at h1
    split at h1
    · obtain ⟨pc', pr, pp', hc', hpr, hpp', -, -, -, rfl, -, -, hpool, hacc, -⟩ := closePosition_ok h1
      rw [hp] at hpr; cases hpr
      rw [hc] at hc'; cases hc'
      rw [hpp] at hpp'; cases hpp'
      refine ⟨rfl, by rw [hacc]; rfl, (pp.closed close (closedCost (w.acc.position p) close)).snapAt price, ?_, ?_⟩
      · rw [hpool]; exact AMap.get_set_self _ _ _
      · exact closed_skew _ _ _
    · rename_i hz
      simp only [ne_eq, not_not] at hz
      simp only [pure_ok, Prod.mk.injEq] at h1
      obtain ⟨rfl, -, rfl⟩ := h1
      subst hz
      exact ⟨tradeFee_zero.symm, rfl, pp, hpp, by ring⟩
  obtain ⟨k1, k2, pp1, k3, k4⟩ := key
  rw [← k1, ← k4, ← k2]
  congr 1
  unfold openPart at h2
  split at h2
  · obtain ⟨pc', pr, pp', hc', hpr, hpp', -, rfl, -⟩ := openPosition_ok h2
    rw [hp] at hpr; cases hpr
    rw [hc] at hc'; cases hc'
    rw [k3] at hpp'; cases hpp'
    rfl
  · rename_i hz
    simp only [ne_eq, not_not] at hz
    simp only [pure_ok, Prod.mk.injEq] at h2
    subst hz
    rw [← h2.2]
    exact tradeFee_zero.symm

theorem run_pair {env : Env} {s s' : State} {a : Addr} {acc acc' : Account} {ids : List PairId}
    {u : Option PriceUpdate} {s1 : State} {c : Ctx} {w0 w : W} (h : KeeperRun env s s' a acc acc' ids u s1 c w0 w)
    {p : PairId} {pc : PairConfig} (hx : c.cfg.pairs.get p = some pc) : s.market.pair p = pc := by
  have := h.pair hx
  unfold State.market at this ⊢
  simpa only [h.config] using this

/-- **C50, orders.** The fee reported for an executed order is the formula applied to the part that closes, at the skew before
the order, plus the formula applied to the part that opens, at the skew that closing leaves; with the rates, referral
multiplier and skew of the state before the call, and the reported price. -/
theorem c50_order_fee {env : Env} {cl : Caller} {s s' : State} {a : Addr} {i : Nat} {u : Option PriceUpdate} {o : Out}
    {e : MarginOrderEv} {acc : Account} (h : step env cl s (.processRequest a i u) = Except.ok (s', o))
    (he : o.ev = .order e) (ha : s.accounts.get a = some acc) :
    e.fees.total = s.tradeFee acc e.pair e.price (s.netOi e.pair) e.amountClose +
      s.tradeFee acc e.pair e.price (s.netOi e.pair + e.amountClose) e.amountOpen := by
  have hx : o.ev ≠ .expired := by intro hx; rw [hx] at he; cases he
  obtain ⟨acc0, acc', kr, ids, s1, c, w0, w, out, hrun, -, -, -, hex, hev, -, -⟩ := run_execute (step_body h) hx
  have hb := hrun.before
  rw [ha] at hb; cases hb
  rcases executeRequest_ok hex with ⟨q, tokens, -, -, ho⟩ | ⟨q, e', -, hmo, ho⟩
  · rw [hev, ho] at he; cases he
  · rw [hev, ho] at he; cases he
    obtain ⟨price, pool, b, w1, funding, close, op, w2, pnl, fee, ok, w3, fees, a1, a2, hpr, hlim, hup, hf,
      hsp, hxo, hok, hok', hfee, ha1, ha2, hw', hint, rfl⟩ := marginOrder_ok hmo
    have ht : fees.total = fee := by
      obtain ⟨-, -, -, rfl⟩ := settleFeesReferral_ok hfee
      unfold FeeSplit.total; ring
    simp only
    rw [ht]
    obtain ⟨pc, -, -, -, -, -, -, hpc, -⟩ := updatePair_ok hup
    obtain ⟨pp, pp', g1, g2, g3, g4⟩ := updatePair_oi hup
    obtain ⟨ppf, -, -, hwf, hacc, -⟩ := settleFunding_ok hf
    have hpp1 : w1.pool.positions.get q.pair = some pp' := by rw [hwf]; exact g2
    have hpp0 := hrun.poolPos0 g1
    have hreb : w1.acc.rebate = w0.acc.rebate := by rw [hacc]; rfl
    have := executeOrder_fee hxo hpr hpc hpp1
    rw [this, hreb, ← hrun.rebate0, g3, g4]
    unfold State.tradeFee State.netOi
    rw [hpp0, run_pair hrun hpc, hrun.ex]

/-- **C50, auto-deleverage.** -/
theorem c50_adl_fee {env : Env} {cl : Caller} {s s' : State} {a : Addr} {p : PairId} {u : Option PriceUpdate} {o : Out}
    {e : AdlEv} {acc : Account} (h : step env cl s (.autoDeleverage a p u) = Except.ok (s', o))
    (he : o.ev = .adl e) (ha : s.accounts.get a = some acc) :
    e.fees.total = s.tradeFee acc p e.price (s.netOi p) e.amountClose := by
  obtain ⟨acc0, acc', ids, s1, c, w0, w, e', hrun, -, hl, rfl⟩ := run_adl (step_body h)
  have hb := hrun.before
  rw [ha] at hb; cases hb
  cases he
  obtain ⟨pool, b, w1, funding, ratio0, price, pct, thr, w2, pnl, fee, fees, ratio1, hup, hf, -, -, hpr, -, -, -, -, -,
    hcl, hfee, -, -, rfl⟩ := autoDeleverage_ok hl
  have ht : fees.total = fee := by
    obtain ⟨-, -, -, rfl⟩ := settleFeesReferral_ok hfee
    unfold FeeSplit.total; ring
  simp only
  rw [ht]
  obtain ⟨pp, pp', g1, g2, g3, g4⟩ := updatePair_oi hup
  obtain ⟨ppf, -, -, hwf, hacc, -⟩ := settleFunding_ok hf
  have hpp1 : w1.pool.positions.get p = some pp' := by rw [hwf]; exact g2
  have hpp0 := hrun.poolPos0 g1
  have hreb : w1.acc.rebate = w0.acc.rebate := by rw [hacc]; rfl
  obtain ⟨pc, pr, ppc, hpc, hpr', hppc, -, -, -, rfl, -⟩ := closePosition_ok hcl
  rw [hpr] at hpr'; cases hpr'
  rw [hpp1] at hppc; cases hppc
  rw [feeOf_tradeFee, hreb, ← hrun.rebate0, g3, g4]
  unfold State.tradeFee State.netOi
  rw [hpp0, run_pair hrun hpc, hrun.ex]

theorem liqLoop_fees {c : Ctx} {rebate : Dec} {p1 : VPool} (l : List (PairId × AccountPosition)) :
    ∀ {t t' : VPool × LiqTotals}, (l.map Prod.fst).Nodup →
    (∀ e ∈ l, t.1.positions.get e.1 = p1.positions.get e.1) →
    l.foldlM (liquidateOne c rebate) t = Except.ok t' →
    t'.2.fee = t.2.fee + (l.map (fun e => feeOf c.cfg.ex ((c.market p1).pair e.1) ((c.market p1).pool e.1) rebate
      ((c.market p1).price e.1) (mulT (-e.2.amount) ((c.market p1).price e.1)))).sum := by
  induction l with
  | nil => intro t t' _ _ h; simp only [List.foldlM_nil, pure_ok] at h; subst h; simp
  | cons e l ih =>
    intro t t' hn hg h
    simp only [List.foldlM_cons, bind_ok] at h
    obtain ⟨t1, h1, h2⟩ := h
    obtain ⟨pc, price, pp, hpc, hpr, hpp, e1, e2⟩ := liquidateOne_ok h1
    simp only [List.map_cons, List.nodup_cons] at hn
    have i1 := ih hn.2 (fun x hx => by
      rw [e1]
      show (t.1.positions.set e.1 _).get x.1 = _
      rw [AMap.get_set_ne]
      · exact hg x (List.mem_cons_of_mem _ hx)
      · intro hh; exact hn.1 (List.mem_map.mpr ⟨x, hx, hh.symm⟩)) h2
    have hpp' : p1.positions.get e.1 = some pp := (hg e (List.mem_cons_self ..)).symm.trans hpp
    rw [e2] at i1
    simp only [List.map_cons, List.sum_cons, Ctx.market, hpc, hpr, hpp', Option.getD_some] at i1 ⊢
    rw [i1]; ring

/-- **C50, liquidations.** The fee of a liquidation is the sum, over the positions closed, of the formula applied to closing
each of them whole, at the prices in force after the call. -/
theorem c50_liquidation_fee {env : Env} {cl : Caller} {s s' : State} {a : Addr} {b : Bucket} {u : Option PriceUpdate}
    {o : Out} {e : LiquidateEv} {acc : Account} (h : step env cl s (.liquidate a b u) = Except.ok (s', o))
    (he : o.ev = .liquidate e) (ha : s.accounts.get a = some acc) :
    e.fees.total = acc.positions.sum (fun p pos =>
      s.tradeFee acc p (s'.market.price p) (s.netOi p) (-pos.amount)) := by
  obtain ⟨acc0, acc', ids, s1, c, w0, w, tokens, e', hrun, -, -, hl, rfl⟩ := run_liquidate (step_body h)
  cases he
  have hb := hrun.before
  rw [ha] at hb; cases hb
  obtain ⟨w1, lp, lc, value, ac, tokens, taken, pool, w2, w3, loss, w4, fees, -, hlp, -, -, -, -, hwd, -, -, hst, hwo,
    hfee, rfl, -, rfl⟩ := liquidate_ok hl
  obtain ⟨p1, p2, p3, hu, hlo, -, rfl⟩ := liquidatePositions_ok hlp
  have ht : fees.total = lp.fee := by
    obtain ⟨-, -, -, rfl⟩ := settleFeesReferral_ok hfee
    unfold FeeSplit.total; ring
  have hf := liqLoop_fees (p1 := p1) _ w0.acc.positions.nodup (fun e _ => rfl) hlo
  obtain ⟨-, -, -, hk⟩ := liqLoop_value (p1 := p1) _ w0.acc.positions.nodup (fun e _ => rfl) hlo
  have hv := updatePairs_size _ hu
  simp only
  rw [ht, hf]
  simp only [zero_add]
  rw [← hrun.pos0]
  refine Eq.trans ?_ (AMap.sum_congr (m := w0.acc.positions) (f := fun p pos => feeOf c.cfg.ex ((c.market p1).pair p)
    ((c.market p1).pool p) w0.acc.rebate ((c.market p1).price p) (mulT (-pos.amount) ((c.market p1).price p))) ?_)
  · rfl
  · intro p x hp
    obtain ⟨⟨pc, hpc⟩, ⟨y, hy⟩, pp, hpp⟩ := hk (p, x) ((AMap.get_eq_some).mp hp)
    simp only at hpc hy hpp
    have e1 : w0.pool.view PoolPosition.size p = some pp.size := by rw [← hv]; simp [VPool.view, hpp]
    simp only [VPool.view, Option.map_eq_some_iff] at e1
    obtain ⟨q1, g1, hs⟩ := e1
    have k1 := hrun.poolPos0 g1
    simp only [PoolPosition.size, Prod.mk.injEq] at hs
    simp only [Ctx.market, hpc, hy, hpp, Option.getD_some]
    rw [feeOf_tradeFee, (hrun.price hy).1, ← hrun.rebate0]
    unfold State.tradeFee State.netOi
    rw [k1, run_pair hrun hpc, hrun.ex, hs.1, hs.2.1]

/-- In every state reached, for every account and configured pair, trading with the skew costs at least as much as the
opposite trade of the same size, and referred accounts pay at most what others pay. -/
theorem c50_direction {env : Env} {s : State} {acc : Account} {p : PairId} {x : PairConfigC} {price amount : Dec}
    (h0 : Reach env s) (hx : s.config.pairs.get p = some x) (hp : 0 ≤ price) :
    (0 ≤ s.netOi p * amount →
      s.tradeFee acc p price (s.netOi p) (-amount) ≤ s.tradeFee acc p price (s.netOi p) amount) ∧
    ∀ acc' : Account, acc'.referralId = none → ∀ skew,
      s.tradeFee acc p price skew amount ≤ s.tradeFee acc' p price skew amount := by
  obtain ⟨-, hb, -⟩ := (reach_inForce h0).pairs p x hx
  have hpair : s.market.pair p = x.decompress := by simp [State.market, hx]
  have hreb : 0 ≤ s.rebateOf acc ∧ s.rebateOf acc ≤ ONE := by
    unfold State.rebateOf
    split
    · rename_i d hd
      rw [Option.bind_eq_some_iff] at hd
      obtain ⟨r, -, hr⟩ := hd
      have := (reach_rates h0 r d hr).2
      rw [referralRateOk, decide_eq_true_eq] at this
      have h1 : decLit 1 1 ≤ ONE := by decide
      constructor <;> omega
    · exact ⟨ONE_pos.le, le_rfl⟩
  constructor
  · intro hs
    exact c50_with_skew_costs_more (by rw [hpair]; exact hb.fee1.1) hreb.1 hp hs
  · intro acc' hn skew
    have e : s.rebateOf acc' = ONE := by simp [State.rebateOf, hn]
    unfold State.tradeFee
    rw [e]
    exact tradeFee_multiplier hreb.2 hreb.1

namespace Scn

/-- In the example, longs exceed shorts by one; account 100's long order of 2 paid a fee for opening, and an order against
the skew would have been cheaper than one with it. -/
example : open_.netOi 1 = d 1 ∧
    (match open_.accounts.get 100 with
     | some acc => decide (open_.tradeFee acc 1 (d 50000) (open_.netOi 1) (-(d 1)) <
        open_.tradeFee acc 1 (d 50000) (open_.netOi 1) (d 1))
     | none => false) = true := by decide +kernel

/-- The hypotheses of `c50_order_fee` are met: executing the first order reports an order with a positive fee. -/
example : ∃ s' o, step env anyone (after ordered [.tick 1030]) (.processRequest 100 0 none) = Except.ok (s', o) ∧
    (match o.ev with | .order e => decide (0 < e.fees.total ∧ e.amountOpen = d 2) | _ => false) = true :=
  stepped (by decide +kernel)

end Scn

end Perp
