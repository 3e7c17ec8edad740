import Verif.Liquidation

/-!
# Auto-deleveraging (C28, C29)
-/

namespace Perp

/-! ## Specification -/

/-- Absolute skew of a pair at a price. -/
def State.skewOf (s : State) (p : PairId) (price : Dec) : Dec :=
  |mulT ((s.pool.position s.now p).oiLong - (s.pool.position s.now p).oiShort) price|

/-- Profit of the pool from a pair at a price. -/
def State.poolPnl (s : State) (p : PairId) (price : Dec) : Dec :=
  (s.pool.position s.now p).cost - mulT ((s.pool.position s.now p).oiLong - (s.pool.position s.now p).oiShort) price

/-- The skew ratio of the pool in `s` once pair `p` is marked to `price` and `accrued` of funding is added: total
absolute skew over pool value (at least one). -/
def State.markedRatio (s : State) (p : PairId) (price accrued : Dec) : Dec :=
  divT (s.pool.skewAbsSnap - (s.pool.position s.now p).skewAbsSnap + s.skewOf p price)
    (max (s.pool.value - (s.pool.position s.now p).pnlSnap + s.poolPnl p price + accrued) ONE)

/-- The profitability threshold at a skew ratio: `-u³ - b·u` with `u = (ratio - offset)/a`, every operation truncated. -/
def adlLine (ex : ExchangeConfig) (ratio : Dec) : Dec :=
  let u := divT ratio ex.adlA - divT ex.adlOffset ex.adlA;
  -(mulT (mulT u u) u) - mulT ex.adlB u

theorem adlThreshold_ok {ex : ExchangeConfig} {r t : Dec} (h : adlThreshold ex r = Except.ok t) :
    t = adlLine ex r ∧ ex.adlA ≠ 0 := by
  simp only [adlThreshold, bind_ok, ddiv_ok, dsub_ok, dmul_ok, dneg_ok] at h
  obtain ⟨_, ⟨h0, -, rfl⟩, _, ⟨-, -, rfl⟩, _, ⟨-, rfl⟩, _, ⟨-, rfl⟩, _, ⟨-, rfl⟩, _, ⟨-, rfl⟩, _, ⟨-, rfl⟩, -, rfl⟩ := h
  exact ⟨rfl, h0⟩

/-! ## The threshold falls as skew rises -/

theorem divT_mono {a b c : Int} (h : a ≤ b) (hc : 0 < c) : divT a c ≤ divT b c := by
  unfold divT
  exact Int.tdiv_le_tdiv hc (Int.mul_le_mul_of_nonneg_right h ONE_pos.le)

theorem mulT_mono_nonneg {a b c d : Int} (h : a ≤ b) (h' : c ≤ d) (ha : 0 ≤ a) (hd : 0 ≤ d) : mulT a c ≤ mulT b d :=
  le_trans (by rw [mulT_comm a, mulT_comm a]; exact mulT_mono_left h' ha) (mulT_mono_left h hd)

theorem cube_mono {u v : Int} (h : u ≤ v) : mulT (mulT u u) u ≤ mulT (mulT v v) v := by
  have pos : ∀ {u v : Int}, 0 ≤ u → u ≤ v → mulT (mulT u u) u ≤ mulT (mulT v v) v := by
    intro u v hu h
    have h1 := mulT_mono_nonneg h h hu (hu.trans h)
    exact mulT_mono_nonneg h1 h (mulT_nonneg hu hu) (hu.trans h)
  have sgn : ∀ {u : Int}, 0 ≤ u → 0 ≤ mulT (mulT u u) u := fun hu => mulT_nonneg (mulT_nonneg hu hu) hu
  have odd : ∀ u : Int, mulT (mulT (-u) (-u)) (-u) = -mulT (mulT u u) u := by
    intro u; rw [mulT_neg_right (-u) u, mulT_neg_left u u, neg_neg, mulT_neg_right]
  by_cases hu : 0 ≤ u
  · exact pos hu h
  · by_cases hv : 0 ≤ v
    · have h1 := sgn (u := -u) (by omega)
      have h2 := sgn hv
      rw [odd] at h1
      omega
    · have := pos (u := -v) (v := -u) (by omega) (by omega)
      rw [odd, odd] at this
      omega

theorem adlLine_anti {ex : ExchangeConfig} (ha : 0 < ex.adlA) (hb : 0 ≤ ex.adlB) {r r' : Dec} (h : r ≤ r') :
    adlLine ex r' ≤ adlLine ex r := by
  unfold adlLine
  simp only
  have h1 := divT_mono h ha
  generalize divT ex.adlOffset ex.adlA = k at *
  have h2 := cube_mono (u := divT r ex.adlA - k) (v := divT r' ex.adlA - k) (by omega)
  have h3 := mulT_mono_left (a := divT r ex.adlA - k) (b := divT r' ex.adlA - k) (c := ex.adlB) (by omega) hb
  rw [mulT_comm _ ex.adlB, mulT_comm _ ex.adlB] at h3
  omega

/-! ## C28 -/

/-- The ratio the call looks at first is the one of the specification. -/
theorem adl_ratio0 {env : Env} {s s' : State} {a : Addr} {acc acc' : Account} {ids : List PairId}
    {u : Option PriceUpdate} {s1 : State} {c : Ctx} {w0 w : W} (hrun : KeeperRun env s s' a acc acc' ids u s1 c w0 w)
    {p : PairId} {pool : VPool} {b : Bool} {w1 : W} {funding ratio price : Dec}
    (hup : updatePair c w0.pool p = Except.ok (pool, b)) (hf : settleFunding { w0 with pool } p = Except.ok (w1, funding))
    (hr : skewRatio w1.pool = Except.ok ratio) (hp : c.orc.prices.get p = some price)
    (hun : s'.pool.unrealizedFunding = w1.pool.unreal) :
    ratio = s.markedRatio p price (s'.pool.unrealizedFunding - s.pool.unrealizedFunding - funding) := by
  obtain ⟨pc, pr, pp0, pp1, dp, sec, per, -, hpr, hg, -, -, hfu, hpool, -⟩ := updatePair_ok hup
  rw [hp] at hpr; cases hpr
  obtain ⟨pp, -, -, hw1, -, -⟩ := settleFunding_ok hf
  have k0 := hrun.poolPos0 hg
  rw [skewRatio_ok hr, hw1]
  rw [hun, hw1]
  simp only
  rw [hpool]
  simp only
  rw [hrun.pool0]
  unfold State.markedRatio State.skewOf State.poolPnl
  rw [k0]
  simp only [VPool.new, Pool.value, PoolPosition.skewAt]
  congr 1
  · ring
  · congr 1; ring

/-- **C28.** `auto_deleverage` succeeds only if the skew ratio of the pool, marked to the current price and with funding
accrued until now, exceeds the cap; it closes the account's whole (non-empty) position in the pair; and the skew ratio
of the resulting pool is strictly lower. -/
theorem c28_adl {env : Env} {cl : Caller} {s s' : State} {a : Addr} {p : PairId} {u : Option PriceUpdate} {o : Out}
    {acc : Account} (h0 : Reach env s)
    (h : step env cl s (.autoDeleverage a p u) = Except.ok (s', o)) (ha : s.accounts.get a = some acc) :
    ∃ e accrued, o.ev = .adl e ∧ s'.market.price p = e.price ∧
      s'.pool.unrealizedFunding = s.pool.unrealizedFunding + accrued + e.funding ∧
      s.config.exchange.decompress.skewRatioCap < s.markedRatio p e.price accrued ∧
      s'.pool.skewRatio < s.markedRatio p e.price accrued ∧
      acc.size p ≠ 0 ∧ e.amountClose = -acc.size p ∧
      ∃ acc', s'.accounts.get a = some acc' ∧ acc'.positions.get p = none ∧
        ∀ q, q ≠ p → acc'.size q = acc.size q ∧ acc'.costOf q = acc.costOf q := by
  have hstep := h
  obtain ⟨acc0, acc', ids, s1, c, w0, w, e, hrun, -, hl, rfl⟩ := run_adl (step_body h)
  have hb := hrun.before
  rw [ha] at hb; cases hb
  obtain ⟨g1, g2, -, -⟩ := c21_adl_charge h0 hstep rfl ha hrun.after
  obtain ⟨pool, b, w1, funding, ratio0, price, pct, thr, w2, pnl, fee, fees, ratio1, hup, hf, hr0, hcap, hpr, hne, -, -, -, -,
    hcl, hfee, hr1, hlt, rfl⟩ := autoDeleverage_ok hl
  have f1' := settleFunding_position hf
  obtain ⟨e1, -, e3, -⟩ := settleFeesReferral_ok hfee
  obtain ⟨pc, pr, pp, -, -, hpp, -, -, -, -, -, -, hpool, hacc, -⟩ := closePosition_ok hcl
  have ht := autoDeleverage_touches hl
  have hun : s'.pool.unrealizedFunding = w1.pool.unreal := by
    rw [hrun.pool]
    show w.pool.unreal = _
    rw [e1, hpool]
    rfl
  refine ⟨_, s'.pool.unrealizedFunding - s.pool.unrealizedFunding - funding, rfl, (hrun.price hpr).1, ?_, ?_, ?_, ?_, g1, acc', hrun.after, g2, ?_⟩
  · simp only; ring
  · simp only
    rw [← adl_ratio0 hrun hup hf hr0 hpr hun, ← hrun.ex]; exact hcap
  · simp only
    rw [← adl_ratio0 hrun hup hf hr0 hpr hun]
    refine lt_of_eq_of_lt ?_ hlt
    have hcomp : w.pool.comp = s.pool := by rw [ht.comp, hrun.pool0]; rfl
    have hbase : w.pool.base = s.pool.baseTokens := by rw [ht.base, hrun.pool0]; rfl
    rw [skewRatio_ok hr1]
    unfold Pool.skewRatio Pool.value
    rw [hrun.pool]
    simp only [VPool.realize, hcomp]
    rw [← hbase]
  · rw [f1'.1, hrun.size0] at hne; exact hne
  · intro q hq
    have hpos : w.acc.position q = w0.acc.position q := position_congr (ht.pos q hq)
    rw [hrun.size (reach_noEmpty h0), hrun.cost (reach_noEmpty h0), hpos, hrun.size0, hrun.cost0]
    exact ⟨rfl, rfl⟩

/-! ## C29 -/

/-- Profit of a position at a price (before fees) relative to the size of its cost. -/
def relativeProfit (size cost price : Dec) : Dec := divT (mulT size price - cost) |cost|

theorem divT_neg_right (a b : Int) : divT a (-b) = -divT a b := by
  unfold divT; rw [Int.tdiv_neg]

/-- What the code compares: profit over *signed* cost against the threshold at the skew ratio found. -/
theorem adl_compares {env : Env} {cl : Caller} {s s' : State} {a : Addr} {p : PairId} {u : Option PriceUpdate} {o : Out}
    {e : AdlEv} {acc : Account} {accrued : Dec}
    (h : step env cl s (.autoDeleverage a p u) = Except.ok (s', o)) (he : o.ev = .adl e)
    (ha : s.accounts.get a = some acc)
    (hac : s'.pool.unrealizedFunding = s.pool.unrealizedFunding + accrued + e.funding) :
    e.pnlPercent = divT (mulT (acc.size p) e.price - acc.costOf p) (acc.costOf p) ∧
    e.threshold = adlLine s.config.exchange.decompress (s.markedRatio p e.price accrued) ∧
    e.threshold < e.pnlPercent ∧ acc.costOf p ≠ 0 ∧ s.config.exchange.decompress.adlA ≠ 0 := by
  obtain ⟨acc0, acc', ids, s1, c, w0, w, e', hrun, -, hl, rfl⟩ := run_adl (step_body h)
  cases he
  have hb := hrun.before
  rw [ha] at hb; cases hb
  obtain ⟨pool, b, w1, funding, ratio0, price, pct, thr, w2, pnl, fee, fees, ratio1, hup, hf, hr0, hcap, hpr, hne, hc, hpct, hthr, hgt,
    hcl, hfee, hr1, hlt, rfl⟩ := autoDeleverage_ok hl
  have f1' := settleFunding_position hf
  obtain ⟨e1, -, e3, -⟩ := settleFeesReferral_ok hfee
  obtain ⟨pc, pr, pp, -, -, hpp, -, -, -, -, -, -, hpool, hacc, -⟩ := closePosition_ok hcl
  have hun : s'.pool.unrealizedFunding = w1.pool.unreal := by
    rw [hrun.pool]
    show w.pool.unreal = _
    rw [e1, hpool]
    rfl
  have hr := adl_ratio0 hrun hup hf hr0 hpr hun
  simp only at hac ⊢
  rw [hac, show s.pool.unrealizedFunding + accrued + funding - s.pool.unrealizedFunding - funding = accrued by ring] at hr
  obtain ⟨t1, t2⟩ := adlThreshold_ok hthr
  rw [f1'.2, f1'.1, hrun.size0, hrun.cost0] at hpct
  rw [f1'.2, hrun.cost0] at hc
  rw [hrun.ex, hr] at t1
  rw [hrun.ex] at t2
  exact ⟨hpct, t1, hgt, hc, t2⟩

/-- **C29, positions bought at a cost (partial: long positions).** If the cost of the position is positive, as that of
every long position is, a successful `auto_deleverage` means that its profit relative to its cost exceeds the threshold
at the skew ratio found.  Missing: short positions, for which the opposite holds (`c29_negative_cost_reversed`). -/
theorem c29_ranked_partial {env : Env} {cl : Caller} {s s' : State} {a : Addr} {p : PairId} {u : Option PriceUpdate} {o : Out}
    {e : AdlEv} {acc : Account} {accrued : Dec}
    (h : step env cl s (.autoDeleverage a p u) = Except.ok (s', o)) (he : o.ev = .adl e)
    (ha : s.accounts.get a = some acc)
    (hac : s'.pool.unrealizedFunding = s.pool.unrealizedFunding + accrued + e.funding) (hc : 0 < acc.costOf p) :
    adlLine s.config.exchange.decompress (s.markedRatio p e.price accrued) <
      relativeProfit (acc.size p) (acc.costOf p) e.price := by
  obtain ⟨h1, h2, h3, -, -⟩ := adl_compares h he ha hac
  unfold relativeProfit
  rw [abs_of_pos hc, ← h1, ← h2]; exact h3

/-- The defect: for a position of negative cost (a short position) a successful `auto_deleverage` means that its
relative profit is *below* the negated threshold. -/
theorem c29_negative_cost_reversed {env : Env} {cl : Caller} {s s' : State} {a : Addr} {p : PairId} {u : Option PriceUpdate} {o : Out}
    {e : AdlEv} {acc : Account} {accrued : Dec}
    (h : step env cl s (.autoDeleverage a p u) = Except.ok (s', o)) (he : o.ev = .adl e)
    (ha : s.accounts.get a = some acc)
    (hac : s'.pool.unrealizedFunding = s.pool.unrealizedFunding + accrued + e.funding) (hc : acc.costOf p < 0) :
    relativeProfit (acc.size p) (acc.costOf p) e.price <
      -adlLine s.config.exchange.decompress (s.markedRatio p e.price accrued) := by
  obtain ⟨h1, h2, h3, -, -⟩ := adl_compares h he ha hac
  unfold relativeProfit
  rw [abs_of_neg hc, divT_neg_right, ← h1, ← h2]; omega

/-- **C29, the threshold falls as skew rises.** In every reachable state in which the threshold is defined at all
(`adl_a` is not zero), a higher skew ratio has a threshold at most as high. -/
theorem c29_threshold_falls {env : Env} {s : State} (h0 : Reach env s) (hA : s.config.exchange.decompress.adlA ≠ 0)
    {r r' : Dec} (h : r ≤ r') :
    adlLine s.config.exchange.decompress r' ≤ adlLine s.config.exchange.decompress r := by
  have hv := (reach_inForce h0).exchange
  rw [ExchangeConfig.validate, decide_eq_true_eq] at hv
  obtain ⟨-, -, -, va, vb, -⟩ := hv
  exact adlLine_anti (by omega) vb h

namespace Scn

/-- Account 100 is alone in pair 1 with a position of `x` opened at 50000. -/
def skewed (x : Dec) : State :=
  after ready [.marginOrderRequest none 100 (order 1 x) [] [] STATUS_ACTIVE, .tick 1030, .processRequest 100 0 none, .tick 1040]

theorem skewed_reach (x : Dec) : Reach env (skewed x) := after_reach ready_reach _

def adlAt (price : Dec) : Op := .autoDeleverage 100 1 (some (prices 1040 price (d 2000) (d 5 2)))

/-- A winning long position (2.9 opened at 50000) is deleveraged at 60000: relative profit about 0.1986. -/
example : Reach env (skewed (d 29 1)) ∧ ∃ s' o, step env anyone (skewed (d 29 1)) (adlAt (d 60000)) = Except.ok (s', o) ∧
    ∃ e, o.ev = .adl e ∧ 0 < e.pnl ∧ e.threshold < e.pnlPercent := by
  refine ⟨skewed_reach _, ?_⟩
  obtain ⟨s', o, h, hp⟩ := stepped (s := skewed (d 29 1)) (op := adlAt (d 60000))
    (P := fun _ o => (match o.ev with | .adl e => decide (0 < e.pnl ∧ e.threshold < e.pnlPercent) | _ => false) = true)
    (by decide +kernel)
  refine ⟨s', o, h, ?_⟩
  split at hp
  · rename_i e he
    exact ⟨e, he, of_decide_eq_true hp⟩
  · cases hp

end Scn

/-- The defect is reachable: there is a reachable state of some deployment in which a short position that is losing money
(its relative profit is negative, far below the positive threshold) is closed by `auto_deleverage`.  So C29 cannot be
proved for short positions. -/
theorem c29_losing_short_deleveraged : ∃ (env : Env) (cl : Caller) (s s' : State) (a : Addr) (p : PairId)
    (u : Option PriceUpdate) (o : Out) (acc : Account) (e : AdlEv),
    Reach env s ∧ step env cl s (.autoDeleverage a p u) = Except.ok (s', o) ∧ o.ev = .adl e ∧
    s.accounts.get a = some acc ∧ acc.size p < 0 ∧ 0 < e.threshold ∧
    relativeProfit (acc.size p) (acc.costOf p) e.price < 0 := by
  obtain ⟨acc, ha, hacc⟩ := Scn.tested (s := Scn.skewed (Scn.d (-29) 1)) (a := 100)
    (P := fun acc => acc.size 1 < 0 ∧ relativeProfit (acc.size 1) (acc.costOf 1) (Scn.d 65000) < 0) (by decide +kernel)
  obtain ⟨s', o, h, hp⟩ := Scn.stepped (s := Scn.skewed (Scn.d (-29) 1)) (op := Scn.adlAt (Scn.d 65000))
    (P := fun _ o => (match o.ev with | .adl e => decide (e.price = Scn.d 65000 ∧ 0 < e.threshold) | _ => false) = true)
    (by decide +kernel)
  split at hp
  · rename_i e he
    obtain ⟨h1, h2⟩ := of_decide_eq_true hp
    refine ⟨Scn.env, Scn.anyone, _, s', 100, 1, _, o, acc, e, Scn.skewed_reach _, h, he, ha, hacc.1, h2, ?_⟩
    rw [h1]; exact hacc.2
  · cases hp

end Perp
