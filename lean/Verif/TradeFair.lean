import Verif.Reasons
import Verif.FeeRate

/-!
# Trading is fair (C55)

An executed order, or an auto-deleverage, moves exactly the trading fee: what the account is worth at the mark falls by the fee,
and what the pool is worth grows by the part of the fee that it keeps, up to the rounding of four products.  Neither side can
gain from the other by trading at the oracle price.
-/

namespace Perp

/-! ## Working state -/

/-- Value of the pool in the working state. -/
def VPool.worth (v : VPool) : Dec := v.base + v.vb + v.unreal + v.pnlSnap

/-- What the rounding of products leaves over when `a` and `b` are valued together instead of separately. -/
def carry (a b x : Dec) : Dec := mulT a x + mulT b x - mulT (a + b) x

theorem tdiv_add_close (a b n : Int) (hn : 0 < n) :
    -1 ≤ a.tdiv n + b.tdiv n - (a + b).tdiv n ∧ a.tdiv n + b.tdiv n - (a + b).tdiv n ≤ 1 := by
  have key : ∀ z : Int, ∃ r, z = n * z.tdiv n + r ∧ -n < r ∧ r < n ∧ (0 ≤ z → 0 ≤ r) ∧ (z ≤ 0 → r ≤ 0) := by
    intro z
    refine ⟨z.tmod n, (Int.mul_tdiv_add_tmod z n).symm, ?_, ?_, ?_, ?_⟩
    · have := Int.lt_tmod_of_pos z hn; omega
    · exact Int.tmod_lt_of_pos z hn
    · intro hz; exact Int.tmod_nonneg _ hz
    · intro hz
      have := Int.tmod_nonneg (a := -z) n (by omega)
      rw [Int.neg_tmod] at this; omega
  obtain ⟨ra, ea, a1, a2, a3, a4⟩ := key a
  obtain ⟨rb, eb, b1, b2, b3, b4⟩ := key b
  obtain ⟨rc, ec, c1, c2, c3, c4⟩ := key (a + b)
  generalize a.tdiv n = qa at *
  generalize b.tdiv n = qb at *
  generalize (a + b).tdiv n = qc at *
  have e : n * (qa + qb - qc) = rc - ra - rb := by
    have : n * (qa + qb - qc) = n * qa + n * qb - n * qc := by ring
    omega
  have hr : -(2 * n) < rc - ra - rb ∧ rc - ra - rb < 2 * n := by
    rcases le_total 0 a with ha | ha <;> rcases le_total 0 b with hb | hb
    · have := a3 ha; have := b3 hb; have := c3 (by omega); constructor <;> omega
    · have := a3 ha; have := b4 hb
      rcases le_total 0 (a + b) with hc | hc
      · have := c3 hc; constructor <;> omega
      · have := c4 hc; constructor <;> omega
    · have := a4 ha; have := b3 hb
      rcases le_total 0 (a + b) with hc | hc
      · have := c3 hc; constructor <;> omega
      · have := c4 hc; constructor <;> omega
    · have := a4 ha; have := b4 hb; have := c4 (by omega); constructor <;> omega
  rw [← e] at hr
  obtain ⟨h1, h2⟩ := hr
  constructor
  · by_contra hlt
    have : qa + qb - qc ≤ -2 := by omega
    nlinarith
  · by_contra hlt
    have : 2 ≤ qa + qb - qc := by omega
    nlinarith

/-- Rounding leaves over at most one unit of the last place. -/
theorem carry_small (a b x : Dec) : |carry a b x| ≤ 1 := by
  unfold carry mulT
  rw [add_mul, abs_le]
  have := tdiv_add_close (a * x) (b * x) ONE ONE_pos
  constructor <;> omega

theorem closePart_worth {c : Ctx} {w w' : W} {p : PairId} {x pnl fee price : Dec} {pp : PoolPosition}
    (h : closePart c w p x = Except.ok (w', pnl, fee)) (hp : c.orc.prices.get p = some price)
    (hpp : w.pool.positions.get p = some pp) (hm : pp.MarkedAt price) :
    w'.pool.worth = w.pool.worth + fee + carry (pp.oiLong - pp.oiShort) x price ∧
    w'.pool.skewSnap = w.pool.skewSnap - |mulT (pp.oiLong - pp.oiShort) price| +
      |mulT (pp.oiLong - pp.oiShort + x) price| ∧
    ∃ pp', w'.pool.positions.get p = some pp' ∧ pp'.MarkedAt price ∧
      pp'.oiLong - pp'.oiShort = pp.oiLong - pp.oiShort + x ∧ pp'.indexes = pp.indexes := by
  unfold closePart at h
  split at h
  · obtain ⟨pc, pr, pp', -, hpr, hpp', -, -, -, -, -, hpnl, hpool, -, -⟩ := closePosition_ok h
    rw [hp] at hpr; cases hpr
    rw [hpp] at hpp'; cases hpp'
    have hk := closed_skew pp x (closedCost (w.acc.position p) x)
    have hc : (pp.closed x (closedCost (w.acc.position p) x)).cost = pp.cost - closedCost (w.acc.position p) x := by
      unfold PoolPosition.closed; split <;> rfl
    refine ⟨?_, ?_, (pp.closed x (closedCost (w.acc.position p) x)).snapAt price, ?_, snapAt_marked _ _, hk, ?_⟩
    · rw [hpool]
      unfold VPool.worth VPool.remark PoolPosition.snapAt PoolPosition.skewAt carry
      simp only
      rw [hk, hc, hm.2, hpnl]; ring
    · rw [hpool]
      unfold VPool.remark PoolPosition.snapAt PoolPosition.skewAt
      simp only
      rw [hk, hm.1]; ring
    · rw [hpool]; exact AMap.get_set_self _ _ _
    · unfold PoolPosition.closed PoolPosition.snapAt PoolPosition.indexes; split <;> rfl
  · rename_i hx
    simp only [ne_eq, not_not] at hx
    simp only [pure_ok, Prod.mk.injEq] at h
    obtain ⟨rfl, -, rfl⟩ := h
    subst hx
    refine ⟨?_, ?_, pp, hpp, hm, by ring, rfl⟩
    · unfold carry; rw [mulT_zero_left]; simp
    · simp

theorem opened_skew (pp : PoolPosition) (x cost : Dec) :
    (pp.opened x cost).oiLong - (pp.opened x cost).oiShort = pp.oiLong - pp.oiShort + x := by
  unfold PoolPosition.opened
  split <;> simp only <;> ring

theorem openPart_worth {c : Ctx} {w w' : W} {p : PairId} {x fee price : Dec} {pp : PoolPosition}
    (h : openPart c w p x = Except.ok (w', fee)) (hp : c.orc.prices.get p = some price)
    (hpp : w.pool.positions.get p = some pp) (hm : pp.MarkedAt price) :
    w'.pool.worth = w.pool.worth + fee + carry (pp.oiLong - pp.oiShort) x price ∧
    w'.pool.skewSnap = w.pool.skewSnap - |mulT (pp.oiLong - pp.oiShort) price| +
      |mulT (pp.oiLong - pp.oiShort + x) price| ∧
    ∃ pp', w'.pool.positions.get p = some pp' ∧ pp'.MarkedAt price ∧
      pp'.oiLong - pp'.oiShort = pp.oiLong - pp.oiShort + x ∧ pp'.indexes = pp.indexes := by
  unfold openPart at h
  split at h
  · obtain ⟨pc, pr, pp', -, hpr, hpp', -, -, -, -, -, hpool, -⟩ := openPosition_ok h
    rw [hp] at hpr; cases hpr
    rw [hpp] at hpp'; cases hpp'
    have hk := opened_skew pp x (mulT x price + fee)
    have hc : (pp.opened x (mulT x price + fee)).cost = pp.cost + (mulT x price + fee) := by
      unfold PoolPosition.opened; split <;> rfl
    refine ⟨?_, ?_, (pp.opened x (mulT x price + fee)).snapAt price, ?_, snapAt_marked _ _, hk, ?_⟩
    · rw [hpool]
      unfold VPool.worth VPool.remark PoolPosition.snapAt PoolPosition.skewAt carry
      simp only
      rw [hk, hc, hm.2]; ring
    · rw [hpool]
      unfold VPool.remark PoolPosition.snapAt PoolPosition.skewAt
      simp only
      rw [hk, hm.1]; ring
    · rw [hpool]; exact AMap.get_set_self _ _ _
    · unfold PoolPosition.opened PoolPosition.snapAt PoolPosition.indexes; split <;> rfl
  · rename_i hx
    simp only [ne_eq, not_not] at hx
    simp only [pure_ok, Prod.mk.injEq] at h
    obtain ⟨rfl, rfl⟩ := h
    subst hx
    refine ⟨?_, ?_, pp, hpp, hm, by ring, rfl⟩
    · unfold carry; rw [mulT_zero_left]; simp
    · simp

theorem settleFees_worth {ex : ExchangeConfig} {w w' : W} {fee : Dec} {f : FeeSplit}
    (h : settleFeesReferral ex w fee = Except.ok (w', f)) :
    w'.pool.worth = w.pool.worth - fee - f.pool ∧ w'.pool.skewSnap = w.pool.skewSnap ∧
    w'.pool.positions = w.pool.positions ∧ f.pool + f.protocol + f.treasury + f.referral = -fee := by
  obtain ⟨e1, -, -, e4⟩ := settleFeesReferral_ok h
  rw [e1, e4]
  refine ⟨?_, rfl, rfl, ?_⟩
  · unfold VPool.worth; simp only; ring
  · simp only; ring

theorem settleFunding_worth {w w' : W} {p : PairId} {n : Dec} (h : settleFunding w p = Except.ok (w', n)) :
    w'.pool.worth = w.pool.worth ∧ w'.pool.skewSnap = w.pool.skewSnap ∧ w'.pool.positions = w.pool.positions := by
  obtain ⟨_, -, -, e, -⟩ := settleFunding_ok h
  rw [e]
  refine ⟨?_, rfl, rfl⟩
  unfold VPool.worth; simp only; ring

/-! ## Specification -/

/-- What a position has gained at the mark, before the fee of closing it: its value less its cost less the funding it owes. -/
def Market.gain (m : Market) (p : PairId) (pos : AccountPosition) : Dec :=
  mulT pos.amount (m.price p) - pos.cost - pos.fundingDue (m.pool p)

/-- What an account is worth at the mark, besides its collateral: its balance plus the gains of its positions. -/
def State.equity (s : State) (acc : Account) : Dec := acc.vb + acc.positions.sum s.market.gain

/-! ## The account's side -/

theorem AMap.sum_except {K V : Type} [DecidableEq K] {f : K → V → Int} {m m' : AMap K V} {k : K}
    (h : ∀ q, q ≠ k → m.get q = m'.get q) : m.sum f - m.term f k = m'.sum f - m'.term f k := by
  rw [← AMap.sum_erase, ← AMap.sum_erase]
  refine AMap.sum_ext (fun q => ?_)
  rw [AMap.get_erase, AMap.get_erase]
  split
  · rfl
  · rename_i hq; exact h q (fun e => hq e.symm)

theorem fundingDue_congr {pp pp' : PoolPosition} (h : pp'.fundingData = pp.fundingData) (pos : AccountPosition) :
    pos.fundingDue pp' = pos.fundingDue pp := by
  simp only [PoolPosition.fundingData, Prod.mk.injEq] at h
  unfold AccountPosition.fundingDue
  rw [h.1, h.2.1]

/-- The account's side of a trade in one pair. -/
theorem trade_equity {env : Env} {s s' s1 : State} {a : Addr} {acc acc' : Account} {ids : List PairId}
    {u : Option PriceUpdate} {c : Ctx} {w0 w : W} (hrun : KeeperRun env s s' a acc acc' ids u s1 c w0 w) (h0 : s.NoEmpty)
    (hids : ∀ p, acc.positions.has p = true → p ∈ ids) {p : PairId} {v : VPool} {b : Bool} {x funding cl op fee : Dec}
    (hup : updatePair c w0.pool p = Except.ok (v, b)) (hcoh : PoolCoh s.now v) (hone : OneSettled c w0 w p x funding)
    (hset : w.Settled p) (hsame : v.SameFunding w.pool) (hx : c.orc.prices.get p = some x)
    (hpos : ∀ q, q ≠ p → w.acc.positions.get q = w0.acc.positions.get q)
    (hvb : w.acc.vb - (w.acc.position p).cost =
      w0.acc.vb - (w0.acc.position p).cost + funding - mulT cl x - mulT op x - fee)
    (hsz : (w.acc.position p).amount = (w0.acc.position p).amount + cl + op) :
    s'.equity acc' = (s1.midway v).equity acc - fee - carry (acc.size p) cl x - carry (acc.size p + cl) op x ∧
    (s1.midway v).equity acc = s'.equity acc := by
  have hprice : ∀ q, s'.market.price q = (s1.midway v).market.price q := by
    intro q; unfold State.market State.midway; rw [hrun.oracle]
  have hpx : s'.market.price p = x := (hrun.price hx).1
  have hnow : (s1.midway v).now = s.now := (keeperLoad_state hrun.load).2.1
  have hv1 : ∀ q pp, v.positions.get q = some pp → (s1.midway v).market.pool q = pp := by
    intro q pp hq
    change (s1.midway v).pool.position (s1.midway v).now q = pp
    rw [hnow]; exact hcoh q pp hq
  have hw1 : ∀ q pp, w.pool.positions.get q = some pp → s'.market.pool q = pp := fun q pp hq => hrun.poolPos hq
  have hdue : ∀ q pos, w0.acc.positions.get q = some pos → s'.market.gain q pos = (s1.midway v).market.gain q pos := by
    intro q pos hq
    unfold Market.gain
    rw [hprice]
    congr 1
    have hin : q ∈ ids := hids q (by rw [AMap.has_iff, ← hrun.pos0]; exact ⟨pos, hq⟩)
    have hl := hrun.loaded hin
    have hvq : ∃ pp, v.positions.get q = some pp := by
      obtain ⟨⟨_, pp1, _, _, -, g2, -⟩, g5⟩ := updatePair_accrued hup
      by_cases e : q = p
      · subst e; exact ⟨pp1, g2⟩
      · rw [g5 q e]; exact ⟨_, hl⟩
    obtain ⟨pp, hvq⟩ := hvq
    obtain ⟨pp', h1, h2⟩ := hsame.get hvq
    rw [hv1 q pp hvq, hw1 q pp' h1]
    exact fundingDue_congr h2 pos
  have hsum : acc'.positions.sum s'.market.gain = w.acc.positions.sum s'.market.gain := by
    refine AMap.sum_of_filter (hrun.positions h0) (fun q pos hq hz => ?_)
    have hz : pos.amount = 0 := by simpa using hz
    have hc := (hrun.coh h0).zero q pos hq hz
    unfold Market.gain AccountPosition.fundingDue
    rw [hz, hc]; simp [mulT_zero_left]
  have hexc := AMap.sum_except (f := s'.market.gain) hpos
  have hold : w0.acc.positions.sum s'.market.gain = w0.acc.positions.sum (s1.midway v).market.gain :=
    AMap.sum_congr hdue
  have hterm : w0.acc.positions.term s'.market.gain p = mulT (w0.acc.position p).amount x - (w0.acc.position p).cost + funding := by
    obtain ⟨pp, pp', d, -, g2, -, -, g5⟩ := hone.accrued
    unfold AMap.term VAccount.position AMap.getD
    cases hq : w0.acc.positions.get p with
    | none => rw [hq] at g5; simp [g5, AccountPosition.zero, mulT_zero_left]
    | some pos =>
      rw [hq] at g5
      simp only [Option.getD_some, Market.gain, hpx, hw1 p pp' g2]
      rw [g5, Option.elim_some, fundingOwed_eq]; ring
  have hterm' : w.acc.positions.term s'.market.gain p = mulT (w.acc.position p).amount x - (w.acc.position p).cost := by
    obtain ⟨pp, g1, g2, g3⟩ := hset
    unfold AMap.term
    unfold VAccount.position AMap.getD at g2 g3 ⊢
    cases hq : w.acc.positions.get p with
    | none => simp [AccountPosition.zero, mulT_zero_left]
    | some pos =>
      rw [hq] at g2 g3
      simp only [Option.getD_some] at g2 g3
      simp only [Option.getD_some, Market.gain, hpx, hw1 p pp g1]
      have : pos.fundingDue pp = 0 := by
        unfold AccountPosition.fundingDue
        rcases lt_trichotomy pos.amount 0 with hz | hz | hz
        · rw [if_neg (by omega), g3 hz]; simp [mulT_zero_right]
        · rw [hz]; simp [mulT_zero_left]
        · rw [if_pos hz, g2 hz]; simp [mulT_zero_right]
      rw [this]; ring
  have e1 : acc.positions = w0.acc.positions := hrun.pos0.symm
  have e2 : acc.vb = w0.acc.vb := hrun.vb0.symm
  unfold State.equity
  refine ⟨?_, by rw [e1, hold]⟩
  rw [hrun.vb, hsum]
  rw [e1, e2, ← hold]
  rw [hterm, hterm'] at hexc
  rw [← hrun.size0]
  unfold carry
  rw [hsz] at hexc
  linarith

/-! ## The pool's side -/

theorem midway_marked {c : Ctx} {v v' : VPool} {p : PairId} {b : Bool} (h : updatePair c v p = Except.ok (v', b)) :
    ∃ pp x, v'.positions.get p = some pp ∧ c.orc.prices.get p = some x ∧ pp.MarkedAt x := by
  have hf := fold_kept (c := c) [p] (v := v) (v' := v') (by
    simp only [List.foldlM_cons, List.foldlM_nil, bind_ok, pure_ok]
    exact ⟨v', ⟨(v', b), h, rfl⟩, rfl⟩)
  obtain ⟨⟨_, pp, _, _, -, g2, -⟩, -⟩ := updatePair_accrued h
  obtain ⟨x, hx, hm⟩ := hf.2.2.2 p (by simp) pp g2
  exact ⟨pp, x, g2, hx, hm⟩

theorem midway_value {s1 : State} {v : VPool} (h : v.base = v.comp.baseTokens) :
    (s1.midway v).pool.value = v.worth ∧ (s1.midway v).pool.skewRatio = divT v.skewSnap (max v.worth ONE) := by
  unfold Pool.skewRatio Pool.value VPool.worth State.midway VPool.realize
  rw [h]; exact ⟨rfl, rfl⟩

/-- One pair brought up to date. -/
theorem one_refreshed {env : Env} {s s1 : State} {ids : List PairId} {u : Option PriceUpdate} {c : Ctx} {pool v : VPool}
    (hr : Reach env s) (hk : keeperLoad env s ids u = Except.ok (s1, c, pool)) {p : PairId} (hp : p ∈ ids) {b : Bool}
    (hup : updatePair c pool p = Except.ok (v, b)) :
    s.Refreshed (s1.midway v) u [p] ∧ PoolCoh s.now v ∧ v.base = v.comp.baseTokens := by
  have hfold : [p].foldlM (fun pool p => do let r ← updatePair c pool p; pure r.1) pool = Except.ok v := by
    simp only [List.foldlM_cons, List.foldlM_nil, bind_ok, pure_ok]
    exact ⟨v, ⟨(v, b), hup, rfl⟩, rfl⟩
  obtain ⟨h1, h2⟩ := midway_refreshed hr hk (l := [p]) (by simpa using hp) (by simp) hfold
  refine ⟨h1, h2, ?_⟩
  obtain ⟨-, -, -, -, -, rfl, -⟩ := keeperLoad_ok hk
  obtain ⟨_, _, _, _, _, _, _, -, -, -, -, -, -, rfl, -⟩ := updatePair_ok hup
  rfl

theorem run_collateral {env : Env} {s s' s1 : State} {a : Addr} {acc acc' : Account} {ids : List PairId}
    {u : Option PriceUpdate} {c : Ctx} {w0 w : W} (hrun : KeeperRun env s s' a acc acc' ids u s1 c w0 w)
    (h : w.acc.collPart = w0.acc.collPart) : acc'.collateralBalances = acc.collateralBalances := by
  rw [(realize_coll hrun.real).2]
  rw [hrun.collPart0] at h
  simp only [VAccount.collPart, Account.collPart, Prod.mk.injEq] at h
  exact h.2.1

/-- **C55, orders.** Executing an order changes what the account is worth at the mark by the fee it reports and nothing else,
and what the pool is worth by the part of the fee it keeps and nothing else, both up to 2·10⁻¹⁸; `s1` is the state with the prices
of the call recorded and the pair brought up to date, at whose prices and funding the account is worth the same as at those after the call. -/
theorem c55_order {env : Env} {cl : Caller} {s s' : State} {a : Addr} {i : Nat} {u : Option PriceUpdate} {o : Out}
    {e : MarginOrderEv} {acc acc' : Account} (h0 : Reach env s)
    (h : step env cl s (.processRequest a i u) = Except.ok (s', o)) (he : o.ev = .order e)
    (ha : s.accounts.get a = some acc) (ha' : s'.accounts.get a = some acc') :
    ∃ s1, s.Refreshed s1 u [e.pair] ∧
      |s'.equity acc' - (s1.equity acc - e.fees.total)| ≤ 2 ∧
      |s'.pool.value - (s1.pool.value - e.fees.pool)| ≤ 2 ∧ acc'.collateralBalances = acc.collateralBalances ∧
      s1.equity acc = s'.equity acc := by
  have hx : o.ev ≠ .expired := by intro hx; rw [hx] at he; cases he
  obtain ⟨acc0, acc1, kr, ids, s1, c, w0, w, out, hrun, -, hpid, hids, hex, hev, -, -⟩ := run_execute (step_body h) hx
  have hb := hrun.before
  rw [ha] at hb; cases hb
  have hb := hrun.after
  rw [ha'] at hb; cases hb
  rcases executeRequest_ok hex with ⟨q, tokens, -, -, ho⟩ | ⟨q, e', hq, hmo, ho⟩
  · rw [hev, ho] at he; cases he
  rw [hev, ho] at he; cases he
  have hpin := hpid q hq
  obtain ⟨hone, hsets, hparts⟩ := (⟨marginOrder_settled hmo, marginOrder_settles hmo, order_parts hmo⟩ : _ ∧ _ ∧ _)
  obtain ⟨price, pool, b, w1, funding, close, op, w2, pnl, fee, ok, w3, fees, a1, a2, hpr, hlim, hup, hf,
    hsp, hxo, hok, hok', hfee, ha1, ha2, hw', hint, rfl⟩ := marginOrder_ok hmo
  obtain ⟨wc, f1, f2, hc, ho', rfl⟩ := executeOrder_ok hxo
  have hup' := hup
  rw [hrun.pool0] at hup'
  obtain ⟨r1, r2, r3⟩ := one_refreshed h0 hrun.load hpin hup'
  obtain ⟨pp, x, g1, g2, g3⟩ := midway_marked hup
  rw [hpr] at g2; cases g2
  have ht : fees.total = f1 + f2 := by
    obtain ⟨-, -, -, rfl⟩ := settleFeesReferral_ok hfee
    unfold FeeSplit.total; ring
  obtain ⟨m1, m2, m3⟩ := settleFunding_worth hf
  obtain ⟨k1, k2, pp1, k3, k4, k5, -⟩ := closePart_worth hc hpr (by rw [m3]; exact g1) g3
  obtain ⟨l1, l2, pp2, l3, l4, l5, -⟩ := openPart_worth ho' hpr k3 k4
  obtain ⟨n1, n2, n3, n4⟩ := settleFees_worth hfee
  have hch := (c21_order_charge h0 h (e := _) (by rw [hev, ho]) ha ha').1
  have key := trade_equity hrun (reach_noEmpty h0) hids hup r2 hone (hsets.done q.pair (by simp)) (by
      have t1 := settleFunding_sameFunding hf
      have t2 := (executeOrder_sameFunding hxo).1
      have t3 := (settleFees_sameFunding hfee).1
      rw [hw']; exact (t1.trans t2).trans t3) hpr hparts.pos
    (cl := close) (op := op) (fee := f1 + f2) (by
      rw [hrun.vb, ← hrun.vb0, ← hrun.cost0, hrun.cost (reach_noEmpty h0)] at hch
      simp only at hch ⊢
      rw [hch, ht]) hparts.amount
  refine ⟨s1.midway pool, r1, ?_, ?_, ?_, key.2⟩
  · rw [key.1]
    · simp only
      rw [ht]
      have s1' := carry_small (acc.size q.pair) close price
      have s2' := carry_small (acc.size q.pair + close) op price
      rw [abs_le] at s1' s2' ⊢
      constructor <;> linarith [s1'.1, s1'.2, s2'.1, s2'.2]
  · rw [(midway_value r3).1]
    have hval : s'.pool.value = w.pool.worth := by
      rw [hrun.pool]
      have e1 := hparts.base
      have e2 := hparts.comp
      rw [hrun.pool0] at e1 e2
      unfold Pool.value VPool.worth VPool.realize
      rw [e1, e2]; rfl
    rw [hval, hw']
    simp only
    rw [n1, l1, k1, m1]
    simp only
    have s1' := carry_small (pp.oiLong - pp.oiShort) close price
    have s2' := carry_small (pp1.oiLong - pp1.oiShort) op price
    rw [abs_le] at s1' s2' ⊢
    constructor <;> linarith [s1'.1, s1'.2, s2'.1, s2'.2]
  · exact run_collateral hrun (marginOrder_collPart hmo)

/-- **C55, auto-deleverage.** The same holds for a forced close. -/
theorem c55_adl {env : Env} {cl : Caller} {s s' : State} {a : Addr} {p : PairId} {u : Option PriceUpdate} {o : Out}
    {e : AdlEv} {acc acc' : Account} (h0 : Reach env s)
    (h : step env cl s (.autoDeleverage a p u) = Except.ok (s', o)) (he : o.ev = .adl e)
    (ha : s.accounts.get a = some acc) (ha' : s'.accounts.get a = some acc') :
    ∃ s1, s.Refreshed s1 u [p] ∧
      |s'.equity acc' - (s1.equity acc - e.fees.total)| ≤ 1 ∧
      |s'.pool.value - (s1.pool.value - e.fees.pool)| ≤ 1 ∧ acc'.collateralBalances = acc.collateralBalances ∧
      s1.equity acc = s'.equity acc := by
  obtain ⟨acc0, acc1, ids, s1, c, w0, w, e', hrun, hids, hl, rfl⟩ := run_adl (step_body h)
  cases he
  have hb := hrun.before
  rw [ha] at hb; cases hb
  have hb := hrun.after
  rw [ha'] at hb; cases hb
  have hpin : p ∈ ids := by rw [hids]; exact mem_insertId.mpr (Or.inl rfl)
  have ht := autoDeleverage_touches hl
  have hone := autoDeleverage_settled hl
  have hsets := autoDeleverage_settles hl
  obtain ⟨pool, b, w1, funding, ratio0, price, pct, thr, w2, pnl, fee, fees, ratio1, hup, hf, -, -, hpr, hne, -, -, -, -,
    hcl, hfee, -, -, rfl⟩ := autoDeleverage_ok hl
  have hc : closePart c w1 p (-(w1.acc.position p).amount) = Except.ok (w2, pnl, fee) := by
    unfold closePart; rw [if_pos (by simpa using hne)]; exact hcl
  have hup' := hup
  rw [hrun.pool0] at hup'
  obtain ⟨r1, r2, r3⟩ := one_refreshed h0 hrun.load hpin hup'
  obtain ⟨pp, x, g1, g2, g3⟩ := midway_marked hup
  rw [hpr] at g2; cases g2
  have htot : fees.total = fee := by
    obtain ⟨-, -, -, rfl⟩ := settleFeesReferral_ok hfee
    unfold FeeSplit.total; ring
  obtain ⟨m1, m2, m3⟩ := settleFunding_worth hf
  obtain ⟨k1, k2, pp1, k3, k4, k5, -⟩ := closePart_worth hc hpr (by rw [m3]; exact g1) g3
  obtain ⟨n1, n2, n3, n4⟩ := settleFees_worth hfee
  have hfp := settleFunding_position hf
  have hs := settleFees_same hfee
  simp only at hfp
  have key := trade_equity hrun (reach_noEmpty h0) (p := p) (cl := -(w1.acc.position p).amount) (op := 0) (fee := fee)
      ?hids hup r2 hone (hsets.done p (by simp)) ?hsame hpr ht.pos ?hvb ?hsz
  refine ⟨s1.midway pool, r1, ?_, ?_, run_collateral hrun ht.collPart, key.2⟩
  · rw [key.1]
    · simp only
      rw [htot]
      have s1' := carry_small (acc.size p) (-(w1.acc.position p).amount) price
      have s2' : carry (acc.size p + -(w1.acc.position p).amount) 0 price = 0 := by
        unfold carry; rw [mulT_zero_left]; simp
      rw [s2']
      rw [abs_le] at s1' ⊢
      constructor <;> linarith [s1'.1, s1'.2]
  · rw [(midway_value r3).1]
    have hval : s'.pool.value = w.pool.worth := by
      rw [hrun.pool]
      have e1 := ht.base
      have e2 := ht.comp
      rw [hrun.pool0] at e1 e2
      unfold Pool.value VPool.worth VPool.realize
      rw [e1, e2]; rfl
    rw [hval, n1, k1, m1]
    simp only
    have s1' := carry_small (pp.oiLong - pp.oiShort) (-(w1.acc.position p).amount) price
    rw [abs_le] at s1' ⊢
    constructor <;> linarith [s1'.1, s1'.2]
  case hids =>
    intro q hq
    rw [hids]
    exact mem_insertId.mpr (Or.inr (by rw [AMap.mem_keys, ← AMap.has_iff]; exact hq))
  case hsame =>
    have t1 := settleFunding_sameFunding hf
    have t2 := (closePosition_sameFunding hcl).1
    have t3 := (settleFees_sameFunding hfee).1
    exact (t1.trans t2).trans t3
  case hvb =>
    obtain ⟨c1, -⟩ := closePart_net hc hpr
    obtain ⟨_, -, -, -, hfa, -⟩ := settleFunding_ok hf
    have fv : w1.acc.vb = w0.acc.vb + funding := by rw [hfa]
    rw [hs.2.2.1, position_congr (v := w2.acc) (by rw [hs.1])]
    simp only
    rw [c1, fv, hfp.2, mulT_zero_left]
    ring
  case hsz =>
    rw [position_congr (v := w2.acc) (by rw [hs.1]), (closePart_position hc).1, hfp.1]
    ring

/-- **C55, liquidity providers are not diluted by trading.** The pool is worth at least as much after an order as before it,
at the same prices and with the same funding accrued, up to 2·10⁻¹⁸, and there are as many LP tokens. -/
theorem c55_pool {env : Env} {cl : Caller} {s s' : State} {a : Addr} {i : Nat} {u : Option PriceUpdate} {o : Out}
    {e : MarginOrderEv} (h0 : Reach env s)
    (h : step env cl s (.processRequest a i u) = Except.ok (s', o)) (he : o.ev = .order e) :
    ∃ s1, s.Refreshed s1 u [e.pair] ∧ s1.pool.value ≤ s'.pool.value + 2 ∧ s'.lpSupply = s1.lpSupply := by
  have hs := c21_fee_split (f := e.fees) h0 h (by rw [he]; rfl)
  have hx : o.ev ≠ .expired := by intro hx; rw [hx] at he; cases he
  obtain ⟨acc, acc', kr, ids, s2, c, w0, w, out, hrun, -⟩ := run_execute (step_body h) hx
  obtain ⟨s1, h1, -, h3, -⟩ := c55_order h0 h he hrun.before hrun.after
  refine ⟨s1, h1, ?_, ?_⟩
  · have := hs.pool
    have := hs.nonneg.1
    rw [abs_le] at h3
    linarith [h3.1, h3.2]
  · rw [hrun.lp, h1.same]

namespace Scn

/-- The hypotheses are met by an order that opens a position of two and by one that is closed by force. -/
example : ∃ s' o, step env anyone (after ordered [.tick 1030]) (.processRequest 100 0 none) = Except.ok (s', o) ∧
    (match o.ev with | .order e => decide (0 < e.fees.total ∧ 0 < -e.fees.pool ∧ e.amountOpen = d 2) | _ => false) = true :=
  stepped (by decide +kernel)

end Scn

end Perp
