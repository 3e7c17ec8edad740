import Verif.TradeFair
import Verif.Liquidation
import Mathlib.Algebra.BigOperators.Group.List.Lemmas

/-!
# Liquidation is fair (C55)
-/

namespace Perp

/-! ## Liquidation, in the working state -/

theorem liqLoop_book {c : Ctx} {rebate : Dec} : ∀ (l : List (PairId × AccountPosition)) {t t' : VPool × LiqTotals},
    (l.map Prod.fst).Nodup → l.foldlM (liquidateOne c rebate) t = Except.ok t' →
    (∀ e ∈ l, ∃ pp price, t.1.positions.get e.1 = some pp ∧ c.orc.prices.get e.1 = some price ∧
      t'.1.positions.get e.1 = some (pp.closed (-e.2.amount) e.2.cost)) ∧
    (∀ q, q ∉ l.map Prod.fst → t'.1.positions.get q = t.1.positions.get q) ∧
    t'.1.worth = t.1.worth ∧ t'.1.base = t.1.base ∧ t'.1.comp = t.1.comp ∧
    t'.2.pnl + t'.2.fee + t'.2.funding = t.2.pnl + t.2.fee + t.2.funding +
      (l.map (fun e => -mulT (-e.2.amount) ((c.orc.prices.get e.1).getD 0) - e.2.cost)).sum := by
  intro l
  induction l with
  | nil =>
    intro t t' _ h
    simp only [List.foldlM_nil, pure_ok] at h
    subst h
    exact ⟨by simp, fun _ _ => rfl, rfl, rfl, rfl, by simp⟩
  | cons e l ih =>
    intro t t' hn h
    simp only [List.foldlM_cons, bind_ok] at h
    obtain ⟨t1, h1, h2⟩ := h
    rw [List.map_cons, List.nodup_cons] at hn
    obtain ⟨i1, i2, i3, i4, i5, i6⟩ := ih hn.2 h2
    obtain ⟨pc, price, pp, -, hpr, hpp, e1, e2⟩ := liquidateOne_ok h1
    have hget : ∀ q, q ≠ e.1 → t1.1.positions.get q = t.1.positions.get q := by
      intro q hq
      rw [e1]
      exact AMap.get_set_ne _ _ (fun h => hq h.symm)
    refine ⟨?_, ?_, ?_, ?_, ?_, ?_⟩
    · intro x hx
      rcases List.mem_cons.mp hx with rfl | hx
      · refine ⟨pp, price, hpp, hpr, ?_⟩
        rw [i2 _ hn.1, e1]
        exact AMap.get_set_self _ _ _
      · have hne : x.1 ≠ e.1 := fun h => hn.1 (h ▸ List.mem_map_of_mem hx)
        obtain ⟨pp', pr, g1, g2, g3⟩ := i1 x hx
        exact ⟨pp', pr, by rw [← hget _ hne]; exact g1, g2, g3⟩
    · intro q hq
      rw [List.map_cons, List.mem_cons, not_or] at hq
      rw [i2 q hq.2, hget q hq.1]
    · rw [i3, e1]; rfl
    · rw [i4, e1]; rfl
    · rw [i5, e1]; rfl
    · rw [i6, e2, List.map_cons, List.sum_cons, hpr]
      simp only [Option.getD_some]
      ring

theorem snapLoop_book {c : Ctx} : ∀ (l : List PairId) {v v' : VPool}, l.Nodup →
    l.foldlM (updatePairSnaps c) v = Except.ok v' →
    v'.worth = v.worth + (l.map (fun p =>
      (((v.positions.get p).getD (PoolPosition.dflt 0)).snapAt ((c.orc.prices.get p).getD 0)).pnlSnap
        - ((v.positions.get p).getD (PoolPosition.dflt 0)).pnlSnap)).sum ∧
    v'.base = v.base ∧ v'.comp = v.comp := by
  intro l
  induction l with
  | nil =>
    intro v v' _ h
    simp only [List.foldlM_nil, pure_ok] at h
    subst h; simp
  | cons p l ih =>
    intro v v' hn h
    simp only [List.foldlM_cons, bind_ok] at h
    obtain ⟨v1, h1, h2⟩ := h
    rw [List.nodup_cons] at hn
    obtain ⟨i1, i2, i3⟩ := ih hn.2 h2
    obtain ⟨price, pp, hpr, hpp, e1⟩ := updatePairSnaps_ok h1
    have hget : ∀ q ∈ l, v1.positions.get q = v.positions.get q := by
      intro q hq
      rw [e1]
      exact AMap.get_set_ne _ _ (fun h => hn.1 (h ▸ hq))
    refine ⟨?_, by rw [i2, e1], by rw [i3, e1]⟩
    rw [i1, List.map_cons, List.sum_cons, hpr, hpp]
    rw [List.map_congr_left (fun q hq => by rw [hget q hq])]
    rw [e1]
    unfold VPool.worth PoolPosition.snapAt
    simp only [Option.getD_some]
    ring

theorem sum_near {α : Type} {f g : α → Int} : ∀ {l : List α}, (∀ e ∈ l, |f e - g e| ≤ 1) →
    |(l.map f).sum - (l.map g).sum| ≤ l.length := by
  intro l
  induction l with
  | nil => intro _; simp
  | cons e l ih =>
    intro h
    have h1 := h e (by simp)
    have h2 := ih (fun x hx => h x (List.mem_cons_of_mem _ hx))
    simp only [List.map_cons, List.sum_cons, List.length_cons]
    push_cast
    rw [abs_le] at h1 h2 ⊢
    constructor <;> linarith [h1.1, h1.2, h2.1, h2.2]

/-- Closing all positions of an account, from the pool's side. -/
theorem liquidatePositions_worth {c : Ctx} {w w' : W} {lp : LiqTotals} (h : liquidatePositions c w = Except.ok (w', lp))
    (hbase : w.pool.base = w.pool.comp.baseTokens) :
    ∃ p1, w.acc.positions.keys.foldlM (fun pool p => do let r ← updatePair c pool p; pure r.1) w.pool = Except.ok p1 ∧
      p1.base = p1.comp.baseTokens ∧ w'.pool.base = w'.pool.comp.baseTokens ∧
      |w'.pool.worth - (p1.worth + lp.pnl + lp.fee)| ≤ w.acc.positions.keys.length ∧
      lp.pnl + lp.fee = (w.acc.positions.entries.map (fun e => mulT e.2.amount ((c.orc.prices.get e.1).getD 0) - e.2.cost
        - fundingOwed ((c.market p1).pool e.1) e.2)).sum ∧
      (∀ e ∈ w.acc.positions.entries, (∃ pp, p1.positions.get e.1 = some pp) ∧ ∃ x, c.orc.prices.get e.1 = some x) ∧
      p1.comp = w.pool.comp ∧ w'.pool.comp = w.pool.comp ∧
      w'.pool.view PoolPosition.indexes = p1.view PoolPosition.indexes := by
  obtain ⟨p1, p2, p3, h1, h2, h3, rfl⟩ := liquidatePositions_ok h
  have hnd : (w.acc.positions.entries.map Prod.fst).Nodup := w.acc.positions.nodup
  obtain ⟨b1, b2, b3, b4, b5, b6⟩ := liqLoop_book _ hnd h2
  obtain ⟨c1, c2, c3⟩ := snapLoop_book _ hnd h3
  have hk := fold_kept _ h1
  have hbase1 : p1.base = p1.comp.baseTokens := by
    have : ∀ (l : List PairId) {v v' : VPool},
        l.foldlM (fun pool p => do let r ← updatePair c pool p; pure r.1) v = Except.ok v' → v'.base = v.base := by
      intro l
      induction l with
      | nil => intro v v' h; simp only [List.foldlM_nil, pure_ok] at h; rw [h]
      | cons p l ih =>
        intro v v' h
        simp only [List.foldlM_cons, bind_ok, pure_ok] at h
        obtain ⟨v1, ⟨⟨v2, b⟩, g1, rfl⟩, g2⟩ := h
        rw [ih (by simpa only [bind_ok, pure_ok] using g2)]
        obtain ⟨_, _, _, _, _, _, _, -, -, -, -, -, -, rfl, -⟩ := updatePair_ok g1
        rfl
    rw [this _ h1, hk.2.1, hbase]
  have hfun := (liqLoop_value (p1 := p1) _ hnd (fun e _ => rfl) h2).2.2.1
  refine ⟨p1, h1, hbase1, ?_, ?_, ?_, ?_, hk.2.1, ?_, (snaps_indexes _ h3).trans (liqLoop_indexes _ h2)⟩
  · simp only
    rw [c2, c3]
    simp only
    rw [b4, b5, hbase1]
  rotate_left
  · simp only at b6 hfun
    have : (w.acc.positions.entries.map (fun e => -mulT (-e.2.amount) ((c.orc.prices.get e.1).getD 0) - e.2.cost)).sum =
        (w.acc.positions.entries.map (fun e => mulT e.2.amount ((c.orc.prices.get e.1).getD 0) - e.2.cost
          - fundingOwed ((c.market p1).pool e.1) e.2)).sum +
        (w.acc.positions.entries.map (fun e => fundingOwed ((c.market p1).pool e.1) e.2)).sum := by
      rw [← List.sum_map_add]
      congr 1
      refine List.map_congr_left (fun e _ => ?_)
      rw [mulT_neg_left]; ring
    linarith
  · intro e he
    obtain ⟨pp, x, k1, k2, -⟩ := b1 e he
    exact ⟨⟨pp, k1⟩, x, k2⟩
  · simp only
    rw [c3]
    simp only
    rw [b5]; exact hk.2.1
  simp only at c1 b6 ⊢
  have hw : ({ p2 with unreal := p2.unreal - lp.funding } : VPool).worth = p2.worth - lp.funding := by
    unfold VPool.worth; ring
  rw [c1, hw, b3]
  have hsum := sum_near (l := w.acc.positions.entries)
    (f := fun e => (((p2.positions.get e.1).getD (PoolPosition.dflt 0)).snapAt ((c.orc.prices.get e.1).getD 0)).pnlSnap
        - ((p2.positions.get e.1).getD (PoolPosition.dflt 0)).pnlSnap)
    (g := fun e => -mulT (-e.2.amount) ((c.orc.prices.get e.1).getD 0) - e.2.cost) (by
      intro e he
      obtain ⟨pp, price, g1, g2, g3⟩ := b1 e he
      obtain ⟨x, hx, hm⟩ := hk.2.2.2 e.1 (List.mem_map_of_mem he) pp g1
      rw [g2] at hx; cases hx
      have hks := closed_skew pp (-e.2.amount) e.2.cost
      have hc : (pp.closed (-e.2.amount) e.2.cost).cost = pp.cost - e.2.cost ∧
          (pp.closed (-e.2.amount) e.2.cost).pnlSnap = pp.pnlSnap := by
        unfold PoolPosition.closed; split <;> exact ⟨rfl, rfl⟩
      have := carry_small (pp.oiLong - pp.oiShort) (-e.2.amount) price
      simp only [g3, g2, Option.getD_some]
      unfold PoolPosition.snapAt PoolPosition.skewAt
      simp only
      rw [hks, hc.1, hc.2, hm.2]
      unfold carry at this
      rw [abs_le] at this ⊢
      constructor <;> linarith [this.1, this.2])
  rw [show w.acc.positions.keys = w.acc.positions.entries.map Prod.fst from rfl, List.map_map, List.length_map]
  change |_ + (w.acc.positions.entries.map (fun e =>
    (((p2.positions.get e.1).getD (PoolPosition.dflt 0)).snapAt ((c.orc.prices.get e.1).getD 0)).pnlSnap
        - ((p2.positions.get e.1).getD (PoolPosition.dflt 0)).pnlSnap)).sum - _| ≤ _
  rw [abs_le] at hsum ⊢
  constructor <;> linarith [hsum.1, hsum.2]

/-- **C55, liquidation.** A liquidation closes the account's positions at the mark for the fee it reports: what the account
is left with (its debt, if it is one, being borne by the pool as the loss reported) is what it was worth at the mark, plus the
payment, less the fee, exactly; the pool is worth its part of the fee more and the loss less, up to one unit of the last place
per position; `s1` is the state with the prices of the call recorded and the account's pairs brought up to date. -/
theorem c55_liquidation {env : Env} {cl : Caller} {s s' : State} {a : Addr} {b : Bucket} {u : Option PriceUpdate} {o : Out}
    {e : LiquidateEv} {acc acc' : Account} (h0 : Reach env s)
    (h : step env cl s (.liquidate a b u) = Except.ok (s', o)) (he : o.ev = .liquidate e)
    (ha : s.accounts.get a = some acc) (ha' : s'.accounts.get a = some acc') :
    ∃ s1 taken, s.Refreshed s1 u acc.positions.keys ∧ o.buckets.getLast? = some ⟨BASE, b.amt - taken⟩ ∧ s'.pool.baseTokens = s.pool.baseTokens + taken ∧
      acc'.vb + e.poolLoss = s1.equity acc + taken - e.fees.total ∧ e.poolLoss ≤ 0 ∧ (e.poolLoss < 0 → acc'.vb = 0) ∧
      |s'.pool.value - (s1.pool.value - e.fees.pool + e.poolLoss)| ≤ acc.positions.keys.length ∧
      s1.equity acc = s'.equity acc := by
  obtain ⟨acc0, acc1, ids, s1, c, w0, w, tokens, e', hrun, -, hids, hl, rfl⟩ := run_liquidate (step_body h)
  cases he
  have hb := hrun.before
  rw [ha] at hb; cases hb
  have hb := hrun.after
  rw [ha'] at hb; cases hb
  obtain ⟨w1, lp, lc, value, ac, tokens, taken, pool, w2, w3, loss, w4, fees, hres, hlp, hlc, -, hval, -, hwd, htk, hdep, hst,
    hwo, hfee, rfl, rfl, rfl⟩ := liquidate_ok hl
  obtain ⟨p1, hf, g1, g2, g3, g4, g5, g6, g7, g8⟩ := liquidatePositions_worth hlp (by rw [hrun.pool0]; rfl)
  have hk0 : w0.acc.positions.keys = acc.positions.keys := by rw [hrun.pos0]
  rw [hk0] at hf g3
  rw [hrun.pos0] at g4 g5
  have hf' := hf
  rw [hrun.pool0] at hf'
  obtain ⟨r1, r2⟩ := midway_refreshed h0 hrun.load (l := acc.positions.keys) (by rw [hids]; exact fun p hp => hp)
    acc.positions.nodup hf'
  obtain ⟨f1, -, f3, f4⟩ := settleFeesReferral_ok hfee
  obtain ⟨hloss, hw3⟩ := writeOff_ok hwo
  have hw2 := settleAccount_ok hst
  have hd := VPool.deposit_ok hdep
  rw [takeAmount_ok] at htk
  have hval' : taken = value := htk.1.symm
  have hva : ac.vb = acc.vb := by
    have h1 := withdrawCollateral_collOnly hwd
    unfold CollOnly at h1
    obtain ⟨_, _, _, -, -, -, h2⟩ := liquidatePositions_ok hlp
    rw [h1, h2]
    exact hrun.vb0
  have hvb : acc'.vb = acc.vb + (lp.pnl + value) - loss := by
    rw [hrun.vb]
    show w4.acc.vb = _
    rw [f3, (credited_parts _ _).1, hw3, hw2]
    simp only
    rw [hva]
  have hloss' : loss = min (acc.vb + (lp.pnl + value)) 0 := by
    rw [hloss, hw2]
    simp only
    rw [hva]
  have htot : fees.total = lp.fee := by
    rw [f4]
    unfold FeeSplit.total; ring
  have hnow : (s1.midway p1).now = s.now := (keeperLoad_state hrun.load).2.1
  have heq : (s1.midway p1).equity acc = acc.vb + (lp.pnl + lp.fee) := by
    unfold State.equity AMap.sum
    rw [g4]
    congr 2
    refine List.map_congr_left (fun x hx => ?_)
    obtain ⟨⟨pp, hpp⟩, y, hy⟩ := g5 x hx
    have e1 : (s1.midway p1).market.price x.1 = y := by
      have := (hrun.price hy).1
      rw [← this]
      unfold State.market State.midway; rw [hrun.oracle]
    have e2 : (s1.midway p1).market.pool x.1 = pp := by
      change (s1.midway p1).pool.position (s1.midway p1).now x.1 = pp
      rw [hnow]; exact r2 x.1 pp hpp
    unfold Market.gain
    rw [e1, e2, fundingOwed_eq, hy]
    simp [Ctx.market, hpp]
  refine ⟨s1.midway p1, taken, r1, by simp, ?_, ?_, ?_, ?_, ?_, ?_⟩
  · rw [hrun.pool]
    show w4.pool.comp.baseTokens = _
    rw [f1, hw3, hw2]
    simp only
    rw [hd]
    simp only
    rw [g7, hrun.pool0]; rfl
  · simp only
    rw [hvb, heq, htot, hval']; ring
  · simp only
    rw [hloss']; exact min_le_right _ _
  · simp only
    intro hneg
    rw [hvb]
    rw [hloss'] at hneg ⊢
    omega
  · rw [(midway_value g1).1]
    have hval : s'.pool.value = w4.pool.worth := by
      rw [hrun.pool]
      have : w4.pool.base = w4.pool.comp.baseTokens := by
        rw [f1, hw3, hw2]
        simp only
        rw [hd]
        simp only
        rw [g2]
      unfold Pool.value VPool.worth VPool.realize
      rw [this]
    have hworth : w4.pool.worth = w1.pool.worth - lp.pnl + loss - lp.fee - fees.pool := by
      rw [(settleFees_worth hfee).1, hw3, hw2]
      unfold VPool.worth
      simp only
      rw [hd, hval']
      simp only; ring
    rw [hval, hworth]
    simp only
    rw [abs_le] at g3 ⊢
    constructor <;> linarith [g3.1, g3.2]
  · unfold State.equity
    congr 1
    refine AMap.sum_congr (fun p pos hp => ?_)
    obtain ⟨⟨pp, hpp⟩, y, hy⟩ := g5 (p, pos) (AMap.get_eq_some.mp hp)
    have e1 : (s1.midway p1).market.price p = s'.market.price p := by
      unfold State.market State.midway; rw [hrun.oracle]
    have e2 : (s1.midway p1).market.pool p = pp := by
      change (s1.midway p1).pool.position (s1.midway p1).now p = pp
      rw [hnow]; exact r2 p pp hpp
    have hv := congrFun g8 p
    have hpool : w4.pool.positions = w1.pool.positions := by
      rw [f1, hw3, hw2]
      simp only
      rw [hd]
    unfold VPool.view at hv
    rw [← hpool, hpp, Option.map_some] at hv
    obtain ⟨pp', h1, h2⟩ := Option.map_eq_some_iff.mp hv
    have e3 : s'.market.pool p = pp' := hrun.poolPos h1
    unfold PoolPosition.indexes at h2
    simp only [Prod.mk.injEq] at h2
    unfold Market.gain AccountPosition.fundingDue
    rw [e1, e2, e3, h2.1, h2.2]

end Perp
