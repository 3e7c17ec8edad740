import Verif.Funding
import Verif.Validated

/-!
# C42–C44: what a pair update charges, in which direction, and what it earns the keeper

`State.Brought s s' p` says what bringing a pair up to date does to its funding data; `step_accrued` shows that every
successful call brings exactly the pairs of `Op.updates` up to date and leaves the funding data of every other pair alone.
-/

namespace Perp

/-- The pair's funding data in `s'` is the one of `s` brought up to date at the price recorded in `s'`; `d` is what the pool
books as funding to come. -/
def State.Brought (s s' : State) (p : PairId) (d : Dec) : Prop :=
  ∃ x pp1, s.config.pairs.get p = some x ∧ 0 < s'.market.price p ∧
    fundingStep x.decompress
      { (s.pool.position s.now p).snapAt (s'.market.price p) with lastPrice := s'.market.price p, lastUpdate := s.now }
      (s'.market.price p) ((s.pool.position s.now p).skewAt (s'.market.price p))
      |(s.pool.position s.now p).skewAt (s'.market.price p)|
      (divT (ofInt (s.now - (s.pool.position s.now p).lastUpdate)) YEAR) = Except.ok (pp1, d) ∧
    (s'.pool.position s.now p).fundingData = pp1.fundingData

theorem brought_of {env : Env} {s s' s1 : State} {ids : List PairId} {u : Option PriceUpdate} {c : Ctx} {pool0 v : VPool}
    (hk : keeperLoad env s ids u = Except.ok (s1, c, pool0)) (ho : s'.oracle = s1.oracle)
    (hp : s'.pool = v.realize) (hcoh : PoolCoh s.now v) {p : PairId} {pp pp' : PoolPosition} {price d : Dec}
    (h0 : (VPool.new s.pool s.now ids).positions.get p = some pp) (h1 : v.positions.get p = some pp')
    (ha : Accrued c pp pp' p price d) : price = s'.market.price p ∧ State.Brought s s' p d := by
  obtain ⟨pc, pp1, a1, a2, a3, a4⟩ := ha
  obtain ⟨-, hnow, hcfg, -, -, -, -⟩ := keeperLoad_ok hk
  obtain ⟨-, x, hx, rfl⟩ := (VConfig.new_ok hcfg).2.2.2 p pc a1
  obtain ⟨g0, t, ht, -⟩ := (keeperLoad_prices hk).1 p price a2
  have e1 : s'.market.price p = price := by
    unfold State.market
    simp only [ho, ht, Option.map_some, Option.getD_some]
  have e2 : pp = s.pool.position s.now p := by
    simp only [VPool.new, AMap.get_build] at h0
    split at h0
    · cases h0; rfl
    · cases h0
  have e3 : s'.pool.position s.now p = pp' := by
    unfold Pool.position
    rw [hp]
    exact hcoh p pp' h1
  refine ⟨e1.symm, x, pp1, hx, by rw [e1]; exact g0, ?_, by rw [e3]; exact a4⟩
  rw [e1, ← e2, ← hnow]
  exact a3

theorem kept_of {s s' : State} {ids : List PairId} {v : VPool}
    (hp : s'.pool = v.realize) (hcoh : PoolCoh s.now v) (hc : v.comp.positions = s.pool.positions) {q : PairId}
    (h : (v.positions.get q).map PoolPosition.fundingData
      = ((VPool.new s.pool s.now ids).positions.get q).map PoolPosition.fundingData) :
    (s'.pool.position s.now q).fundingData = (s.pool.position s.now q).fundingData := by
  have hnew : (VPool.new s.pool s.now ids).positions.get q = if q ∈ ids then some (s.pool.position s.now q) else none := by
    simp only [VPool.new, AMap.get_build]
  have e : s'.pool.position s.now q = (v.realPositions.get q).getD (PoolPosition.dflt s.now) := by
    unfold Pool.position; rw [hp]; rfl
  rw [hnew] at h
  cases hg : v.positions.get q with
  | some pp' =>
    rw [e, hcoh q pp' hg]
    rw [hg] at h
    split at h
    · simpa using h
    · cases h
  | none =>
    rw [e, VPool.realPositions_get, hg, hc]
    simp only [Option.none_or, ite_self]
    rfl

theorem AllAccrued.step {env : Env} {s s' s1 : State} {ids l : List PairId} {u : Option PriceUpdate} {c : Ctx}
    {pool0 v : VPool} (ha : AllAccrued c (VPool.new s.pool s.now ids) v l)
    (hk : keeperLoad env s ids u = Except.ok (s1, c, pool0)) (ho : s'.oracle = s1.oracle)
    (hp : s'.pool = v.realize) (hcoh : PoolCoh s.now v) (hc : v.comp.positions = s.pool.positions) :
    (∀ p ∈ l, ∃ d, State.Brought s s' p d) ∧
    ∀ q, q ∉ l → (s'.pool.position s.now q).fundingData = (s.pool.position s.now q).fundingData := by
  constructor
  · intro p hp'
    obtain ⟨pp, pp', price, d, h1, h2, h3⟩ := ha.1 p hp'
    exact ⟨d, (brought_of hk ho hp hcoh h1 h2 h3).2⟩
  · intro q hq
    exact kept_of hp hcoh hc (ha.2 q hq)

theorem OneSettled.all {c : Ctx} {w w' : W} {p : PairId} {price funding : Dec} (h : OneSettled c w w' p price funding) :
    AllAccrued c w.pool w'.pool [p] := by
  obtain ⟨⟨pp, pp', d, h1, h2, h3, -⟩, h5⟩ := h
  constructor
  · intro q hq
    rw [List.mem_singleton] at hq
    subst hq
    exact ⟨pp, pp', price, d, h1, h2, h3⟩
  · intro q hq
    exact h5 q (by simpa using hq)

theorem comp_path {ex : ExchangeConfig} {w w' : W} {x : Dec} (h : WPath ex w w' x) :
    w'.pool.comp.positions = w.pool.comp.positions :=
  h.keep (P := fun v => v.pool.comp.positions = w.pool.comp.positions)
    (fun _ _ _ hs e => hs.compPositions.trans e) rfl

theorem KeeperRun.accrued {env : Env} {s s' : State} {a : Addr} {acc acc' : Account} {ids l : List PairId}
    {u : Option PriceUpdate} {s1 : State} {c : Ctx} {w0 w : W} (h : KeeperRun env s s' a acc acc' ids u s1 c w0 w)
    (ha : AllAccrued c w0.pool w.pool l) :
    (∀ p ∈ l, ∃ d, State.Brought s s' p d) ∧
    ∀ q, q ∉ l → (s'.pool.position s.now q).fundingData = (s.pool.position s.now q).fundingData := by
  rw [h.pool0] at ha
  refine ha.step h.load h.oracle h.pool (poolCoh_path h.path (by rw [h.pool0]; exact poolCoh_new _ _ _)) ?_
  rw [comp_path h.path, h.pool0]
  rfl

theorem step_accrued {env : Env} {cl : Caller} {s s' : State} {op : Op} {o : Out}
    (h : step env cl s op = Except.ok (s', o)) :
    (∀ p ∈ op.updates s o, ∃ d, State.Brought s s' p d) ∧
    ∀ q, q ∉ op.updates s o → (s'.pool.position s.now q).fundingData = (s.pool.position s.now q).fundingData := by
  have hb := step_body h
  have quiet : s'.pool.positions = s.pool.positions → op.updates s o = [] →
      (∀ p ∈ op.updates s o, ∃ d, State.Brought s s' p d) ∧
      ∀ q, q ∉ op.updates s o → (s'.pool.position s.now q).fundingData = (s.pool.position s.now q).fundingData := by
    intro e hu
    rw [hu]
    refine ⟨by simp, fun q _ => ?_⟩
    unfold Pool.position
    rw [e]
  by_cases hm : op.marks = true
  · cases op <;> first | exact (Bool.false_ne_true hm).elim | skip
    case processRequest a i u =>
      by_cases hx : o.ev = .expired
      · refine quiet ?_ (by simp [Op.updates, hx])
        obtain ⟨v, v1, r, expired, cfg, -, -, -, -, -, hh⟩ := processRequest_ok hb
        rcases hh with ⟨-, acc, refs, -, rfl, -⟩ | ⟨-, s1, c, w, out, acc, refs, -, hex, -, -, ho⟩
        · rfl
        · rw [ho] at hx
          rcases executeRequest_ok hex with ⟨_, _, -, -, rfl⟩ | ⟨_, _, -, -, rfl⟩ <;> cases hx
      · obtain ⟨acc, acc', kr, ids, s1, c, w0, w, out, hk, -, -, -, hex, hev, -, -⟩ := run_execute hb hx
        rcases executeRequest_ok hex with ⟨rc, tokens, -, hrm, ho⟩ | ⟨mo, e, -, hrm, ho⟩
        · have hp := removeCollateral_pool hrm
          have hu : Op.updates s (.processRequest a i u) o = [] := by simp [Op.updates, hev, ho]
          rw [hu]
          refine hk.accrued (l := []) ⟨by simp, fun q _ => ?_⟩
          rw [hp.1]
        · have hpr : e.pair = mo.pair := (order_parts hrm).pair
          have hu : Op.updates s (.processRequest a i u) o = [mo.pair] := by simp [Op.updates, hev, ho, hpr]
          rw [hu]
          exact hk.accrued (marginOrder_settled hrm).all
    case liquidate a b u =>
      obtain ⟨acc, acc', ids, s1, c, w0, w, tokens, e, hk, -, -, hx, -⟩ := run_liquidate hb
      have hu : Op.updates s (.liquidate a b u) o = w0.acc.positions.keys := by
        simp [Op.updates, hk.before, hk.pos0]
      rw [hu]
      exact hk.accrued (liquidate_accrued hx)
    case autoDeleverage a p u =>
      obtain ⟨acc, acc', ids, s1, c, w0, w, e, hk, -, hx, -⟩ := run_adl hb
      exact hk.accrued (autoDeleverage_settled hx).all
    case updatePairs ids u =>
      obtain ⟨s1, c, pool, flags, n, hk, hx, -, he, -⟩ := opUpdatePairs_ok hb
      have hp := updatePairsLoop_path (ex := c.cfg.ex) (acc := default) (d := s.dist) _ hx
      refine (loop_accrued _ (List.nodup_dedup ids) hx).step hk (by rw [he]) (by rw [he])
        (poolCoh_path hp (poolCoh_new _ _ _)) ?_
      exact comp_path hp
  · have hm : op.marks = false := by simpa using hm
    exact quiet (body_pool_positions hb hm) (by cases op <;> first | rfl | cases hm)

/-! ## Specification of the funding of one pair -/

/-- Years, rounded down to 18 decimals, since a pair was last brought up to date. -/
def PoolPosition.years (pp : PoolPosition) (now : Int) : Dec := divT (ofInt (now - pp.lastUpdate)) YEAR

/-- Upper bound of the integral rate: the value of the long side. -/
def PoolPosition.rateHi (pp : PoolPosition) (price : Dec) : Dec := mulT pp.oiLong price

/-- Lower bound of the integral rate: minus the value of the short side. -/
def PoolPosition.rateLo (pp : PoolPosition) (price : Dec) : Dec := -mulT pp.oiShort price

/-- A number moved into the bounds of the integral rate. -/
def PoolPosition.boundRate (pp : PoolPosition) (price x : Dec) : Dec := max (pp.rateLo price) (min x (pp.rateHi price))

/-- The yearly funding flow between the two sides, positive if the longs pay: a part proportional to the skew and a part
proportional to the bounded integral rate. -/
def PoolPosition.yearlyRate (pp : PoolPosition) (pc : PairConfig) (price rate2 : Dec) : Dec :=
  mulT (pp.skewAt price) pc.funding1 + mulT (pp.boundRate price rate2) pc.funding2

/-- The charge per unit of open interest that the pool takes from both sides. -/
def PoolPosition.poolCharge (pp : PoolPosition) (pc : PairConfig) (price years : Dec) : Dec :=
  divT (mulT (mulT (mulT (pp.oiLong + pp.oiShort) price) pc.fundingPool0 + mulT |pp.skewAt price| pc.fundingPool1) years)
    (pp.oiLong + pp.oiShort)

/-- The part of a rate that is left after the excess over a bound has decayed for some time. -/
def PairConfig.decayed (pc : PairConfig) (years rate bound : Dec) : Dec :=
  rate - mulT (rate - bound) (min (mulT pc.funding2Decay years) ONE)

/-- How the integral rate moves: inside its bounds it follows the skew and stops at the bounds; outside it decays toward
the bound it exceeds, and may follow the skew only inward. -/
structure IntegralMove (pc : PairConfig) (pp : PoolPosition) (price years rate rate' : Dec) : Prop where
  inside : pp.rateLo price ≤ rate → rate ≤ pp.rateHi price →
    rate' = pp.boundRate price (rate + mulT (mulT (pp.skewAt price) pc.funding2Delta) years)
  above : pp.rateHi price < rate →
    rate' = max (pp.rateLo price)
      (pc.decayed years rate (pp.rateHi price) + min 0 (mulT (mulT (pp.skewAt price) pc.funding2Delta) years))
  below : rate < pp.rateLo price →
    rate' = min (pp.rateHi price)
      (pc.decayed years rate (pp.rateLo price) + max 0 (mulT (mulT (pp.skewAt price) pc.funding2Delta) years))

/-- The funding between the sides: the payers pay `F` in all, the receivers get `F` less the pool's share of it, and both
sides pay the pool charge. -/
structure SideFlow (pc : PairConfig) (pp : PoolPosition) (rate years charge dLong dShort : Dec) : Prop where
  longsPay : 0 < rate →
    dLong = charge + divT (mulT rate years) pp.oiLong ∧
    dShort = charge - divT (mulT rate years - mulT (mulT rate years) pc.fundingShare) pp.oiShort
  shortsPay : rate ≤ 0 →
    dShort = charge + divT (mulT (-rate) years) pp.oiShort ∧
    dLong = charge - divT (mulT (-rate) years - mulT (mulT (-rate) years) pc.fundingShare) pp.oiLong

/-- What a pair update does to the funding data of a pair whose clock was behind. -/
structure FundingMove (pc : PairConfig) (pp : PoolPosition) (price years : Dec) (pp' : PoolPosition) (d : Dec) : Prop where
  integral : IntegralMove pc pp price years pp.funding2Rate pp'.funding2Rate
  flow : pp.oiLong ≠ 0 → pp.oiShort ≠ 0 →
    SideFlow pc pp (pp.yearlyRate pc price pp'.funding2Rate) years (pp.poolCharge pc price years)
      (pp'.fundingLongIndex - pp.fundingLongIndex) (pp'.fundingShortIndex - pp.fundingShortIndex)
  pool : pp.oiLong ≠ 0 → pp.oiShort ≠ 0 →
    d = mulT (mulT (mulT (pp.oiLong + pp.oiShort) price) pc.fundingPool0 + mulT |pp.skewAt price| pc.fundingPool1) years
      + mulT (mulT |pp.yearlyRate pc price pp'.funding2Rate| years) pc.fundingShare
  empty : pp.oiLong = 0 ∨ pp.oiShort = 0 →
    pp'.fundingLongIndex = pp.fundingLongIndex ∧ pp'.fundingShortIndex = pp.fundingShortIndex ∧ d = 0

theorem divT_neg_left (a b : Int) : divT (-a) b = -divT a b := by
  unfold divT; rw [Int.neg_mul, Int.neg_tdiv]

theorem decayed_bounds {pc : PairConfig} {years rate bound : Dec} (hk : 0 ≤ pc.funding2Decay) (hy : 0 ≤ years) :
    (bound ≤ rate → bound ≤ pc.decayed years rate bound ∧ pc.decayed years rate bound ≤ rate) ∧
    (rate ≤ bound → rate ≤ pc.decayed years rate bound ∧ pc.decayed years rate bound ≤ bound) := by
  have hm0 : 0 ≤ min (mulT pc.funding2Decay years) ONE := le_min (mulT_nonneg hk hy) ONE_pos.le
  have hm1 : min (mulT pc.funding2Decay years) ONE ≤ ONE := min_le_right _ _
  unfold PairConfig.decayed
  constructor
  · intro h
    have h1 := mulT_nonneg (sub_nonneg.mpr h) hm0
    have h2 := mulT_le_self (sub_nonneg.mpr h) hm1 hm0
    omega
  · intro h
    have h1 := mulT_nonneg (sub_nonneg.mpr h) hm0
    have h2 := mulT_le_self (sub_nonneg.mpr h) hm1 hm0
    have e : rate - bound = -(bound - rate) := by ring
    rw [e, mulT_neg_left]
    omega

theorem decayRate_ok {pc : PairConfig} {period rate bound x : Dec} (h : decayRate pc period rate bound = Except.ok x) :
    x = pc.decayed period rate bound := by
  simp only [decayRate, bind_ok, dsub_ok, dmul_ok] at h
  obtain ⟨_, ⟨-, rfl⟩, _, ⟨-, rfl⟩, _, ⟨-, rfl⟩, -, rfl⟩ := h
  rfl

theorem funding2Next_ok {pc : PairConfig} {period rate delta lo hi x : Dec} (hk : 0 ≤ pc.funding2Decay) (hy : 0 ≤ period)
    (hlh : lo ≤ hi) (h : funding2Next pc period rate delta lo hi = Except.ok x) :
    (lo ≤ rate → rate ≤ hi → x = max lo (min (rate + delta) hi)) ∧
    (hi < rate → x = max lo (pc.decayed period rate hi + min 0 delta)) ∧
    (rate < lo → x = min hi (pc.decayed period rate lo + max 0 delta)) := by
  unfold funding2Next at h
  split at h
  · rename_i h1
    have hd := ((decayed_bounds (bound := hi) (rate := rate) hk hy).1 h1.le).1
    simp only [bind_ok] at h
    obtain ⟨q, hq, h⟩ := h
    have hq := decayRate_ok hq
    subst hq
    refine ⟨fun _ h2 => by omega, fun _ => ?_, fun h2 => by omega⟩
    split at h
    · rename_i h3
      simp only [bind_ok, dadd_ok, pure_ok] at h
      obtain ⟨_, ⟨-, rfl⟩, rfl⟩ := h
      rw [min_eq_right h3.le]
      split <;> omega
    · rename_i h3
      simp only [pure_ok] at h
      rw [← h]
      omega
  · rename_i h0
    split at h
    · rename_i h1
      have hd := ((decayed_bounds (bound := lo) (rate := rate) hk hy).2 h1.le).2
      simp only [bind_ok] at h
      obtain ⟨q, hq, h⟩ := h
      have hq := decayRate_ok hq
      subst hq
      refine ⟨fun h2 _ => by omega, fun h2 => by omega, fun _ => ?_⟩
      split at h
      · rename_i h3
        simp only [bind_ok, dadd_ok, pure_ok] at h
        obtain ⟨_, ⟨-, rfl⟩, rfl⟩ := h
        split <;> omega
      · rename_i h3
        simp only [pure_ok] at h
        rw [← h]
        omega
    · rename_i h1
      simp only [bind_ok, dadd_ok, pure_ok] at h
      obtain ⟨_, ⟨-, rfl⟩, rfl⟩ := h
      refine ⟨fun _ _ => ?_, fun h2 => by omega, fun h2 => by omega⟩
      split
      · omega
      · split <;> omega

theorem fundingSides_ok {pc : PairConfig} {pp : PoolPosition} {period rate charge li si share : Dec}
    (h : fundingSides pc pp.oiLong pp.oiShort period rate = Except.ok (li, si, share)) :
    SideFlow pc pp rate period charge (li + charge) (si + charge) ∧
    share = mulT (mulT |rate| period) pc.fundingShare := by
  unfold fundingSides at h
  split at h
  · rename_i h0
    simp only [bind_ok, dmul_ok, ddiv_ok, dsub_ok, dneg_ok, pure_ok, Prod.mk.injEq] at h
    obtain ⟨_, ⟨-, rfl⟩, _, ⟨-, -, rfl⟩, _, ⟨-, rfl⟩, _, ⟨-, rfl⟩, _, ⟨-, rfl⟩, _, ⟨-, -, rfl⟩, rfl, rfl, rfl⟩ := h
    refine ⟨⟨fun _ => ⟨by ring, ?_⟩, fun h1 => absurd h0 (not_lt.mpr h1)⟩, by rw [abs_of_pos h0]⟩
    rw [divT_neg_left]; ring
  · rename_i h0
    simp only [bind_ok, dmul_ok, ddiv_ok, dsub_ok, dneg_ok, pure_ok, Prod.mk.injEq] at h
    obtain ⟨_, ⟨-, rfl⟩, _, ⟨-, rfl⟩, _, ⟨-, -, rfl⟩, _, ⟨-, rfl⟩, _, ⟨-, rfl⟩, _, ⟨-, rfl⟩, _, ⟨-, -, rfl⟩, rfl, rfl, rfl⟩ := h
    refine ⟨⟨fun h1 => absurd h1 h0, fun _ => ⟨by ring, ?_⟩⟩, by rw [abs_of_nonpos (not_lt.mp h0)]⟩
    rw [divT_neg_left]; ring

theorem fundingUpdate_ok {pc : PairConfig} {pp pp0 pp' : PoolPosition} {price period d : Dec}
    (hoL : pp.oiLong = pp0.oiLong) (hoS : pp.oiShort = pp0.oiShort) (hL : pp.fundingLongIndex = pp0.fundingLongIndex)
    (hS : pp.fundingShortIndex = pp0.fundingShortIndex) (hR : pp.funding2Rate = pp0.funding2Rate)
    (hk : 0 ≤ pc.funding2Decay) (hy : 0 ≤ period) (hl0 : 0 ≤ pp0.oiLong) (hs0 : 0 ≤ pp0.oiShort) (hp : 0 ≤ price)
    (h : fundingUpdate pc pp price (pp0.skewAt price) |pp0.skewAt price| period = Except.ok (pp', d)) :
    FundingMove pc pp0 price period pp' d := by
  simp only [fundingUpdate, bind_ok, dmul_ok, dneg_ok] at h
  obtain ⟨_, ⟨-, rfl⟩, _, ⟨-, rfl⟩, _, ⟨-, rfl⟩, _, ⟨-, rfl⟩, _, ⟨-, rfl⟩, rate, hrate, h⟩ := h
  rw [hoL, hoS, hR, mulT_neg_left] at hrate
  have hlh : -mulT pp0.oiShort price ≤ mulT pp0.oiLong price := by
    have := mulT_nonneg hl0 hp; have := mulT_nonneg hs0 hp; omega
  obtain ⟨i1, i2, i3⟩ := funding2Next_ok hk hy hlh hrate
  have hint : IntegralMove pc pp0 price period pp0.funding2Rate rate := ⟨i1, i2, i3⟩
  rw [hoL, hoS] at h
  split at h
  · rename_i hne
    simp only [bind_ok, pure_ok, dadd_ok, Prod.mk.injEq] at h
    obtain ⟨a, ha, _, ⟨-, rfl⟩, _, ⟨-, rfl⟩, rfl, rfl⟩ := h
    simp only [accrue, bind_ok, pure_ok, dadd_ok, dmul_ok, ddiv_ok, dclamp_ok, mulT_neg_left] at ha
    obtain ⟨_, ⟨-, rfl⟩, _, ⟨-, rfl⟩, _, ⟨-, rfl⟩, _, ⟨-, rfl⟩, ⟨li, si, share⟩, hs, _, ⟨-, rfl⟩, _, ⟨-, rfl⟩, _, ⟨-, rfl⟩,
      _, ⟨-, rfl⟩, _, ⟨-, rfl⟩, _, ⟨-, rfl⟩, _, ⟨-, -, rfl⟩, _, ⟨-, rfl⟩, _, ⟨-, rfl⟩, _, ⟨-, rfl⟩, rfl⟩ := ha
    obtain ⟨f1, f2⟩ := fundingSides_ok (charge := pp0.poolCharge pc price period) hs
    refine ⟨hint, fun _ _ => ?_, fun _ _ => ?_, fun he => absurd he (by tauto)⟩
    · simp only [hL, hS, add_sub_cancel_left]
      exact f1
    · rw [f2]; rfl
  · rename_i hne
    simp only [pure_ok, Prod.mk.injEq] at h
    obtain ⟨rfl, rfl⟩ := h
    refine ⟨hint, fun h1 h2 => absurd ⟨h1, h2⟩ hne, fun h1 h2 => absurd ⟨h1, h2⟩ hne, fun _ => ⟨hL, hS, rfl⟩⟩

/-! ## The clock of a pair -/

theorem Brought.stamp {s s' : State} {p : PairId} {d : Dec} (h : State.Brought s s' p d) :
    (s'.pool.position s.now p).lastUpdate = s.now ∧ (s'.pool.position s.now p).lastPrice = s'.market.price p ∧
    0 < s'.market.price p := by
  obtain ⟨x, pp1, -, h0, hf, he⟩ := h
  have h1 := fundingStep_only hf
  simp only [PoolPosition.fundingData, Prod.mk.injEq] at he
  rw [he.2.2.2.2, he.2.2.2.1, h1]
  exact ⟨rfl, rfl, h0⟩

theorem step_clock {env : Env} {cl : Caller} {s s' : State} {op : Op} {o : Out}
    (h : step env cl s op = Except.ok (s', o)) : s.now ≤ s'.now := by
  rcases (body_admin (step_body h)).now with e | ⟨-, e, -⟩
  · rw [e]
  · exact e

theorem position_stored {pl : Pool} {p : PairId} (h : pl.positions.get p ≠ none) (t t' : Int) :
    pl.position t p = pl.position t' p := by
  unfold Pool.position
  cases hg : pl.positions.get p with
  | none => exact absurd hg h
  | some pp => rfl

/-- In every reachable state a pair was last brought up to date at a positive price and not in the future. -/
theorem reach_clock {env : Env} {s : State} (h : Reach env s) (p : PairId) :
    (s.pool.position s.now p).lastUpdate ≤ s.now ∧ 0 < (s.pool.position s.now p).lastPrice := by
  have dflt : ∀ {s : State}, s.pool.positions.get p = none →
      (s.pool.position s.now p).lastUpdate ≤ s.now ∧ 0 < (s.pool.position s.now p).lastPrice := by
    intro s hg
    unfold Pool.position
    rw [hg]
    exact ⟨le_refl _, ONE_pos⟩
  induction h with
  | init hg => exact dflt (by rw [hg.pool]; rfl)
  | @step s s' cl op o hr hs ih =>
    by_cases hg : s'.pool.positions.get p = none
    · exact dflt hg
    · have hn := step_clock hs
      rw [position_stored hg s'.now s.now]
      by_cases hu : p ∈ op.updates s o
      · obtain ⟨d, hb⟩ := (step_accrued hs).1 p hu
        have := Brought.stamp hb
        omega
      · have e := (step_accrued hs).2 p hu
        simp only [PoolPosition.fundingData, Prod.mk.injEq] at e
        rw [e.2.2.2.2, e.2.2.2.1]
        omega

theorem updates_now {env : Env} {cl : Caller} {s s' : State} {op : Op} {o : Out}
    (h : step env cl s op = Except.ok (s', o)) {p : PairId} (hp : p ∈ op.updates s o) : s'.now = s.now := by
  rcases (body_admin (step_body h)).now with e | ⟨e, -, -⟩
  · exact e
  · rw [e] at hp; cases hp

theorem years_pos {n : Int} (h : 0 < n) : 0 < divT (ofInt n) YEAR := by
  unfold divT ofInt YEAR
  have e : n * ONE * ONE = (n * ONE) * ONE := rfl
  have h2 : (31536000 * ONE) ≤ n * ONE * ONE := by
    have : (31536000 : Int) ≤ n * ONE := by unfold ONE; omega
    exact Int.mul_le_mul_of_nonneg_right this ONE_pos.le
  have h3 : (0 : Int) < 31536000 * ONE := by unfold ONE; norm_num
  have h4 : (1 : Int) ≤ (n * ONE * ONE).tdiv (31536000 * ONE) := by
    rw [Int.tdiv_eq_ediv_of_nonneg (by omega)]
    exact (Int.le_ediv_iff_mul_le h3).mpr (by omega)
  omega

/-- **Specification.** What bringing a pair up to date does to its funding data, between state `s` and state `s'`: `d` is
what the pool books as funding to come. -/
structure PairBrought (s s' : State) (p : PairId) (d : Dec) : Prop where
  price : 0 < s'.market.price p
  stamped : (s'.pool.position s'.now p).lastUpdate = s'.now ∧ (s'.pool.position s'.now p).lastPrice = s'.market.price p
  still : (s.pool.position s.now p).lastUpdate = s.now →
    (s'.pool.position s'.now p).fundingLongIndex = (s.pool.position s.now p).fundingLongIndex ∧
    (s'.pool.position s'.now p).fundingShortIndex = (s.pool.position s.now p).fundingShortIndex ∧
    (s'.pool.position s'.now p).funding2Rate = (s.pool.position s.now p).funding2Rate ∧ d = 0
  moved : (s.pool.position s.now p).lastUpdate ≠ s.now →
    0 < (s.pool.position s.now p).years s.now ∧
    FundingMove (s.market.pair p) (s.pool.position s.now p) (s'.market.price p) ((s.pool.position s.now p).years s.now)
      (s'.pool.position s'.now p) d
  pair : ∃ x, s.config.pairs.get p = some x
  close : |ONE * d
      - ((s.pool.position s.now p).oiLong
            * ((s'.pool.position s'.now p).fundingLongIndex - (s.pool.position s.now p).fundingLongIndex)
          + (s.pool.position s.now p).oiShort
            * ((s'.pool.position s'.now p).fundingShortIndex - (s.pool.position s.now p).fundingShortIndex))|
    ≤ 2 * ((s.pool.position s.now p).oiLong + (s.pool.position s.now p).oiShort)

theorem FundingMove.congr {pc : PairConfig} {pp pp1 pp2 : PoolPosition} {price years d : Dec}
    (h : FundingMove pc pp price years pp1 d) (e : pp2.fundingData = pp1.fundingData) :
    FundingMove pc pp price years pp2 d := by
  simp only [PoolPosition.fundingData, Prod.mk.injEq] at e
  obtain ⟨h1, h2, h3, h4⟩ := h
  rw [← e.2.2.1] at h1 h2 h3
  rw [← e.1, ← e.2.1] at h2 h4
  exact ⟨h1, h2, h3, h4⟩

theorem brought_spec {env : Env} {s s' : State} {p : PairId} {d : Dec} (hr : Reach env s) (hn : s'.now = s.now)
    (h : State.Brought s s' p d) : PairBrought s s' p d := by
  have hst := Brought.stamp h
  obtain ⟨x, pp1, hx, h0, hf, he⟩ := h
  have hc := reach_clock hr p
  have hoi := reach_oi_nonneg hr s.now p
  have hb := ((reach_inForce hr).pairs p x hx).2.1
  have hpc : s.market.pair p = x.decompress := by
    unfold State.market
    simp only [hx, Option.map_some, Option.getD_some]
  rw [← hn] at hst he
  refine ⟨h0, ⟨by rw [hst.1], hst.2.1⟩, fun hl => ?_, fun hl => ?_, ⟨x, hx⟩, ?_⟩
  rotate_left 2
  · have hcl := fundingStep_close hf
    simp only [PoolPosition.fundingData, Prod.mk.injEq] at he
    have hon := fundingStep_only hf
    have e1 : pp1.oiLong = (s.pool.position s.now p).oiLong := by rw [hon]; rfl
    have e2 : pp1.oiShort = (s.pool.position s.now p).oiShort := by rw [hon]; rfl
    rw [he.1, he.2.1]
    unfold PoolPosition.charged at hcl
    rw [e1, e2] at hcl
    simp only [PoolPosition.snapAt] at hcl
    rw [abs_of_nonneg hoi.1, abs_of_nonneg hoi.2] at hcl
    refine le_trans (le_of_eq ?_) hcl
    congr 1
    ring
  · rw [hl, sub_self] at hf
    have : divT (ofInt 0) YEAR = 0 := by decide +kernel
    rw [this] at hf
    simp only [fundingStep, ne_eq, not_true, if_false, pure_ok, Prod.mk.injEq] at hf
    obtain ⟨rfl, rfl⟩ := hf
    simp only [PoolPosition.fundingData, Prod.mk.injEq] at he
    exact ⟨he.1, he.2.1, he.2.2.1, rfl⟩
  · have hy : 0 < (s.pool.position s.now p).years s.now := years_pos (by omega)
    refine ⟨hy, ?_⟩
    rw [hpc]
    have hf' : fundingStep x.decompress
      { (s.pool.position s.now p).snapAt (s'.market.price p) with lastPrice := s'.market.price p, lastUpdate := s.now }
      (s'.market.price p) ((s.pool.position s.now p).skewAt (s'.market.price p))
      |(s.pool.position s.now p).skewAt (s'.market.price p)| ((s.pool.position s.now p).years s.now)
        = Except.ok (pp1, d) := hf
    unfold fundingStep at hf'
    rw [if_pos hy.ne'] at hf'
    have hd : 0 ≤ x.decompress.funding2Decay := hb.funding2Decay
    refine FundingMove.congr (pp1 := pp1) ?_ he
    refine fundingUpdate_ok ?_ ?_ ?_ ?_ ?_ hd hy.le hoi.1 hoi.2 h0.le hf' <;> rfl

/-- Every pair a call brings up to date follows `PairBrought`; every other pair keeps its funding data. -/
theorem c43_update {env : Env} {cl : Caller} {s s' : State} {op : Op} {o : Out} (hr : Reach env s)
    (h : step env cl s op = Except.ok (s', o)) :
    (∀ p ∈ op.updates s o, ∃ d, PairBrought s s' p d) ∧
    ∀ q, q ∉ op.updates s o →
      (s'.pool.position s.now q).fundingLongIndex = (s.pool.position s.now q).fundingLongIndex ∧
      (s'.pool.position s.now q).fundingShortIndex = (s.pool.position s.now q).fundingShortIndex ∧
      (s'.pool.position s.now q).funding2Rate = (s.pool.position s.now q).funding2Rate ∧
      (s'.pool.position s.now q).lastPrice = (s.pool.position s.now q).lastPrice ∧
      (s'.pool.position s.now q).lastUpdate = (s.pool.position s.now q).lastUpdate := by
  constructor
  · intro p hp
    obtain ⟨d, hb⟩ := (step_accrued h).1 p hp
    exact ⟨d, brought_spec hr (updates_now h hp) hb⟩
  · intro q hq
    have e := (step_accrued h).2 q hq
    simpa only [PoolPosition.fundingData, Prod.mk.injEq] using e

/-! ## C43: direction, bounds, and when nothing accrues -/

theorem poolCharge_nonneg {pc : PairConfig} {pp : PoolPosition} {price years : Dec} (hb : pc.Bounded)
    (hl : 0 ≤ pp.oiLong) (hs : 0 ≤ pp.oiShort) (hne : pp.oiLong ≠ 0) (hp : 0 ≤ price) (hy : 0 ≤ years) :
    0 ≤ pp.poolCharge pc price years := by
  unfold PoolPosition.poolCharge
  refine divT_nonneg (mulT_nonneg (add_nonneg (mulT_nonneg (mulT_nonneg (by omega) hp) hb.fundingPool0.1)
    (mulT_nonneg (abs_nonneg _) hb.fundingPool1.1)) hy) (by omega)

/-- One side pays `P` per unit and the other receives `Q` per unit: the payers pay at least what the receivers get, up to
rounding, and the receivers get at least nine tenths of it, up to rounding. -/
structure Pays (oiPay oiGet P Q : Dec) : Prop where
  pay : 0 ≤ P
  get : 0 ≤ Q
  covers : oiGet * Q < oiPay * P + oiPay
  most : 9 * (oiPay * P) < 10 * (oiGet * Q + oiGet)

theorem pays_mk {F share : Dec} {oiPay oiGet : Dec} (hF : 0 ≤ F) (h1 : 0 < oiPay) (h2 : 0 < oiGet) {k : Dec}
    (hk : 0 ≤ k ∧ k ≤ decLit 1 1) (hs : share = mulT F k) : Pays oiPay oiGet (divT F oiPay) (divT (F - share) oiGet) := by
  have hk1 : (10 : Int) * k ≤ ONE := by
    have e : decLit 1 1 * 10 = ONE := by decide +kernel
    omega
  have hs0 : 0 ≤ share := by rw [hs]; exact mulT_nonneg hF hk.1
  have hs1 : 10 * share ≤ F := by
    have := mulT_mul_le hF hk.1
    rw [← hs] at this
    have h3 : 10 * (F * k) ≤ F * ONE := by
      have := Int.mul_le_mul_of_nonneg_left hk1 hF
      have e : F * (10 * k) = 10 * (F * k) := by ring
      omega
    have h4 : (10 * share) * ONE ≤ F * ONE := by
      have e : (10 * share) * ONE = 10 * (share * ONE) := by ring
      omega
    exact le_of_mul_le_mul_right h4 ONE_pos
  have hx : 0 ≤ F - share := by omega
  have p1 := divT_mul_le hF h1
  have p2 := lt_divT_mul hF h1
  have q1 := divT_mul_le hx h2
  have q2 := lt_divT_mul hx h2
  have e1 : oiPay * divT F oiPay = divT F oiPay * oiPay := mul_comm _ _
  have e2 : oiGet * divT (F - share) oiGet = divT (F - share) oiGet * oiGet := mul_comm _ _
  have hm : (F - share) * ONE ≤ F * ONE := Int.mul_le_mul_of_nonneg_right (by omega) ONE_pos.le
  have hm2 : 9 * (F * ONE) ≤ 10 * ((F - share) * ONE) := by
    have : 9 * F * ONE ≤ 10 * (F - share) * ONE := Int.mul_le_mul_of_nonneg_right (by omega) ONE_pos.le
    have a1 : 9 * F * ONE = 9 * (F * ONE) := by ring
    have a2 : 10 * (F - share) * ONE = 10 * ((F - share) * ONE) := by ring
    omega
  refine ⟨divT_nonneg hF h1, divT_nonneg hx h2, by omega, by omega⟩

/-- **C43 (direction).** Whenever a call brings a pair with positions on both sides up to date after some time, both sides
pay a non-negative charge to the pool, and in addition: if the funding rate is positive the longs pay and the shorts
receive; if it is not, the shorts pay and the longs receive.  What the receivers get is covered by what the payers pay and
is at least nine tenths of it, up to one last digit per unit of open interest. -/
theorem c43_direction {env : Env} {cl : Caller} {s s' : State} {op : Op} {o : Out} {p : PairId} (hr : Reach env s)
    (h : step env cl s op = Except.ok (s', o)) (hp : p ∈ op.updates s o) {pp pp' : PoolPosition}
    (hpp : s.pool.position s.now p = pp) (hpp' : s'.pool.position s'.now p = pp') (ht : pp.lastUpdate ≠ s.now)
    (hl : pp.oiLong ≠ 0) (hs : pp.oiShort ≠ 0) :
    ∃ charge, 0 ≤ charge ∧ charge = pp.poolCharge (s.market.pair p) (s'.market.price p) (pp.years s.now) ∧
      (0 < pp.yearlyRate (s.market.pair p) (s'.market.price p) pp'.funding2Rate →
        Pays pp.oiLong pp.oiShort (pp'.fundingLongIndex - pp.fundingLongIndex - charge)
          (charge - (pp'.fundingShortIndex - pp.fundingShortIndex))) ∧
      (pp.yearlyRate (s.market.pair p) (s'.market.price p) pp'.funding2Rate ≤ 0 →
        Pays pp.oiShort pp.oiLong (pp'.fundingShortIndex - pp.fundingShortIndex - charge)
          (charge - (pp'.fundingLongIndex - pp.fundingLongIndex))) := by
  obtain ⟨d, hb⟩ := (c43_update hr h).1 p hp
  obtain ⟨x, hx⟩ := hb.pair
  have hbd : (s.market.pair p).Bounded := by
    have e : s.market.pair p = x.decompress := by
      unfold State.market
      simp only [hx, Option.map_some, Option.getD_some]
    rw [e]; exact ((reach_inForce hr).pairs p x hx).2.1
  have hoi := reach_oi_nonneg hr s.now p
  have hm := hb.moved
  rw [hpp, hpp'] at hm
  rw [hpp] at hoi
  obtain ⟨hy, hmv⟩ := hm ht
  have hf := hmv.flow hl hs
  have h1 : 0 < pp.oiLong := by omega
  have h2 : 0 < pp.oiShort := by omega
  refine ⟨_, poolCharge_nonneg hbd hoi.1 hoi.2 hl hb.price.le hy.le, rfl, fun h0 => ?_, fun h0 => ?_⟩
  · obtain ⟨e1, e2⟩ := hf.longsPay h0
    rw [e1, e2, add_sub_cancel_left, sub_sub_cancel]
    exact pays_mk (mulT_nonneg h0.le hy.le) h1 h2 hbd.fundingShare rfl
  · obtain ⟨e1, e2⟩ := hf.shortsPay h0
    rw [e1, e2, add_sub_cancel_left, sub_sub_cancel]
    exact pays_mk (mulT_nonneg (by omega) hy.le) h2 h1 hbd.fundingShare rfl

/-- **C43 (bounds of the integral rate).** Only bringing a pair up to date changes its integral rate.  The new rate is
between minus the value of the short side and the value of the long side if the old one was; an old rate outside these
bounds moves toward them and never past the opposite one. -/
theorem c43_integral {env : Env} {cl : Caller} {s s' : State} {op : Op} {o : Out} (p : PairId) (hr : Reach env s)
    (h : step env cl s op = Except.ok (s', o)) {pp pp' : PoolPosition} {price : Dec}
    (hpp : s.pool.position s.now p = pp) (hpp' : s'.pool.position s.now p = pp') (hpr : s'.market.price p = price) :
    (p ∉ op.updates s o → pp'.funding2Rate = pp.funding2Rate) ∧
    (pp.lastUpdate = s.now → pp'.funding2Rate = pp.funding2Rate) ∧
    (p ∈ op.updates s o → pp.lastUpdate ≠ s.now →
      (pp.rateLo price ≤ pp.funding2Rate → pp.funding2Rate ≤ pp.rateHi price →
        pp.rateLo price ≤ pp'.funding2Rate ∧ pp'.funding2Rate ≤ pp.rateHi price) ∧
      (pp.rateHi price < pp.funding2Rate → pp.rateLo price ≤ pp'.funding2Rate ∧ pp'.funding2Rate ≤ pp.funding2Rate) ∧
      (pp.funding2Rate < pp.rateLo price → pp.funding2Rate ≤ pp'.funding2Rate ∧ pp'.funding2Rate ≤ pp.rateHi price)) := by
  subst hpp hpp' hpr
  have hu := c43_update hr h
  refine ⟨fun hq => (hu.2 p hq).2.2.1, fun ht => ?_, fun hp ht => ?_⟩
  · by_cases hp : p ∈ op.updates s o
    · obtain ⟨d, hb⟩ := hu.1 p hp
      have := (hb.still ht).2.2.1
      rwa [updates_now h hp] at this
    · exact (hu.2 p hp).2.2.1
  · obtain ⟨d, hb⟩ := hu.1 p hp
    obtain ⟨x, hx⟩ := hb.pair
    have hbd : (s.market.pair p).Bounded := by
      have e : s.market.pair p = x.decompress := by
        unfold State.market
        simp only [hx, Option.map_some, Option.getD_some]
      rw [e]; exact ((reach_inForce hr).pairs p x hx).2.1
    have hoi := reach_oi_nonneg hr s.now p
    have hm := hb.moved ht
    rw [updates_now h hp] at hm
    obtain ⟨hy, hi, -, -, -⟩ := hm
    have hhi : 0 ≤ (s.pool.position s.now p).rateHi (s'.market.price p) := mulT_nonneg hoi.1 hb.price.le
    have hlo : (s.pool.position s.now p).rateLo (s'.market.price p) ≤ 0 := by
      have := mulT_nonneg hoi.2 hb.price.le
      unfold PoolPosition.rateLo
      omega
    refine ⟨fun h1 h2 => ?_, fun h1 => ?_, fun h1 => ?_⟩
    · rw [hi.inside h1 h2]
      unfold PoolPosition.boundRate
      omega
    · rw [hi.above h1]
      have := (decayed_bounds (pc := s.market.pair p) (years := (s.pool.position s.now p).years s.now)
        hbd.funding2Decay hy.le).1 h1.le
      omega
    · rw [hi.below h1]
      have := (decayed_bounds (pc := s.market.pair p) (years := (s.pool.position s.now p).years s.now)
        hbd.funding2Decay hy.le).2 h1.le
      omega

/-- **C43 (no funding).** A pair with an empty side, or that was already brought up to date in the same second, keeps both
funding indexes in every call. -/
theorem c43_no_funding {env : Env} {cl : Caller} {s s' : State} {op : Op} {o : Out} (p : PairId) (hr : Reach env s)
    (h : step env cl s op = Except.ok (s', o)) {pp pp' : PoolPosition}
    (hpp : s.pool.position s.now p = pp) (hpp' : s'.pool.position s.now p = pp')
    (hq : pp.oiLong = 0 ∨ pp.oiShort = 0 ∨ pp.lastUpdate = s.now) :
    pp'.fundingLongIndex = pp.fundingLongIndex ∧ pp'.fundingShortIndex = pp.fundingShortIndex := by
  subst hpp hpp'
  have hu := c43_update hr h
  by_cases hp : p ∈ op.updates s o
  · obtain ⟨d, hb⟩ := hu.1 p hp
    have hn := updates_now h hp
    by_cases ht : (s.pool.position s.now p).lastUpdate = s.now
    · have := hb.still ht
      rw [hn] at this
      exact ⟨this.1, this.2.1⟩
    · have := (hb.moved ht).2.empty (by tauto)
      rw [hn] at this
      exact ⟨this.1, this.2.1⟩
  · exact ⟨(hu.2 p hp).1, (hu.2 p hp).2.1⟩

/-! ## C42: what is booked and what is settled -/

/-- **Specification.** The funding a call settles with the account it works on, as its event reports it: positive if the
account receives it. -/
def Ev.settledFunding : Ev → Dec
  | .order e => e.funding
  | .liquidate e => e.funding
  | .adl e => e.funding
  | _ => 0

/-- What a run books as funding to come for the pairs it brings up to date, and what else it adds. -/
def Booked (c : Ctx) (v v' : VPool) (l : List PairId) (x : Dec) : Prop :=
  ∃ d : PairId → Dec, (∀ p ∈ l, ∃ pp pp' price, v.positions.get p = some pp ∧ v'.positions.get p = some pp' ∧
      Accrued c pp pp' p price (d p)) ∧
    v'.unreal = v.unreal + (l.map d).sum + x

theorem Booked.same {c : Ctx} {v v1 v' : VPool} {l : List PairId} {x y : Dec} (h : Booked c v v1 l x)
    (h2 : v1.SameFunding v') (hu : v'.unreal = v1.unreal + y) : Booked c v v' l (x + y) := by
  obtain ⟨d, h1, h3⟩ := h
  refine ⟨d, fun p hp => ?_, by rw [hu, h3]; ring⟩
  obtain ⟨pp, pp1, price, g1, g2, ⟨pc, z, a1, a2, a3, a4⟩⟩ := h1 p hp
  obtain ⟨pp', g3, g4⟩ := h2.get g2
  exact ⟨pp, pp', price, g1, g3, ⟨pc, z, a1, a2, a3, g4.trans a4⟩⟩

theorem booked_cons {c : Ctx} {v v1 v' : VPool} {p : PairId} {b : Bool} {l : List PairId} (hn : p ∉ l)
    (h1 : updatePair c v p = Except.ok (v1, b)) (h2 : Booked c v1 v' l 0) (h3 : AllAccrued c v1 v' l) :
    Booked c v v' (p :: l) 0 := by
  obtain ⟨⟨pp, pp1, price, d0, g1, g2, g3, g4⟩, g5⟩ := updatePair_accrued h1
  obtain ⟨d, hd, hu⟩ := h2
  refine ⟨fun q => if q = p then d0 else d q, fun q hq => ?_, ?_⟩
  · by_cases e : q = p
    · subst e
      have := h3.2 q hn
      rw [g2, Option.map_some, Option.map_eq_some_iff] at this
      obtain ⟨pp', a, b⟩ := this
      obtain ⟨pc, x, a1, a2, a3, a4⟩ := g3
      simp only [if_true]
      exact ⟨pp, pp', price, g1, a, ⟨pc, x, a1, a2, a3, b.trans a4⟩⟩
    · obtain ⟨qq, qq', pr, a1, a2, a3⟩ := hd q (by simpa [e] using hq)
      simp only [if_neg e]
      exact ⟨qq, qq', pr, by rw [← g5 q e]; exact a1, a2, a3⟩
  · have e : l.map (fun q => if q = p then d0 else d q) = l.map d := by
      apply List.map_congr_left
      intro q hq
      rw [if_neg (by intro e; subst e; exact hn hq)]
    rw [List.map_cons, List.sum_cons, e, hu, g4]
    simp only [if_true]
    ring

theorem loop_booked {c : Ctx} : ∀ (l : List PairId) {v v' : VPool} {flags : List Bool}, l.Nodup →
    updatePairsLoop c v l = Except.ok (v', flags) → Booked c v v' l 0 := by
  intro l
  induction l with
  | nil =>
    intro v v' flags _ h
    simp only [updatePairsLoop, Except.ok.injEq, Prod.mk.injEq] at h
    rw [← h.1]; exact ⟨fun _ => 0, by simp, by simp⟩
  | cons p l ih =>
    intro v v' flags hn h
    simp only [updatePairsLoop, bind_ok, pure_ok, Prod.mk.injEq] at h
    obtain ⟨⟨v2, b⟩, h1, ⟨p2, bs⟩, h2, rfl, -⟩ := h
    rw [List.nodup_cons] at hn
    exact booked_cons hn.1 h1 (ih hn.2 h2) (loop_accrued _ hn.2 h2)

theorem fold_booked {c : Ctx} : ∀ (l : List PairId) {v v' : VPool}, l.Nodup →
    l.foldlM (fun pool p => do let r ← updatePair c pool p; pure r.1) v = Except.ok v' → Booked c v v' l 0 := by
  intro l
  induction l with
  | nil =>
    intro v v' _ h
    simp only [List.foldlM_nil, pure_ok] at h
    rw [← h]; exact ⟨fun _ => 0, by simp, by simp⟩
  | cons p l ih =>
    intro v v' hn h
    simp only [List.foldlM_cons, bind_ok, pure_ok] at h
    obtain ⟨v1, ⟨⟨v2, b⟩, h1, rfl⟩, h2⟩ := h
    rw [List.nodup_cons] at hn
    have h2' : l.foldlM (fun pool p => do let r ← updatePair c pool p; pure r.1) v2 = Except.ok v' := by
      simpa only [bind_ok, pure_ok] using h2
    exact booked_cons hn.1 h1 (ih hn.2 h2') (fold_accrued _ hn.2 h2')

/-- The funding of an account settled by a run: booked, charged to the account's positions, and nothing left owed. -/
structure Settles (c : Ctx) (w w' : W) (l : List PairId) (f : Dec) : Prop where
  booked : Booked c w.pool w'.pool l f
  owed : f = -(l.map (fun p => (w.acc.positions.get p).elim 0
    (fundingOwed ((w'.pool.positions.get p).getD (PoolPosition.dflt c.now))))).sum
  done : ∀ p ∈ l, w'.Settled p

theorem openPosition_settled {c : Ctx} {w w' : W} {p : PairId} {x fee : Dec}
    (h : openPosition c w p x = Except.ok (w', fee)) : w'.Settled p := by
  obtain ⟨pc, price, pp, -, -, hpp, -, -, -, -, -, h1, h2, -⟩ := openPosition_ok h
  obtain ⟨i1, i2⟩ := opened_index pp x (mulT x price + fee) price
  have hpos : w'.acc.position p =
      { amount := (w.acc.position p).amount + x
        cost := (w.acc.position p).cost + (mulT x price + fee)
        fundingIndex := if (w.acc.position p).amount + x > 0 then pp.fundingLongIndex else pp.fundingShortIndex } := by
    rw [h2]; simp [VAccount.position, AMap.getD, VAccount.setPosition]
  refine ⟨_, by rw [h1]; exact AMap.get_set_self _ _ _, ?_, ?_⟩
  · rw [hpos, i1]
    intro hp
    exact if_pos hp
  · rw [hpos, i2]
    intro hp
    simp only at hp
    exact if_neg (by omega)

theorem settled_congr {w w' : W} {p : PairId} (h1 : w'.pool.positions = w.pool.positions)
    (h2 : w'.acc.positions = w.acc.positions) (h : w.Settled p) : w'.Settled p := by
  obtain ⟨pp, h3, h4, h5⟩ := h
  have e : w'.acc.position p = w.acc.position p := position_congr (by rw [h2])
  exact ⟨pp, by rw [h1]; exact h3, by rw [e]; exact h4, by rw [e]; exact h5⟩

theorem OneSettled.settles {c : Ctx} {w w' : W} {p : PairId} {price f : Dec} (h : OneSettled c w w' p price f)
    (hs : w'.Settled p) : Settles c w w' [p] f := by
  obtain ⟨⟨pp, pp', d, h1, h2, h3, h4, h5⟩, -⟩ := h
  refine ⟨⟨fun _ => d, fun q hq => ?_, by simpa using h4⟩, ?_, fun q hq => ?_⟩
  · rw [List.mem_singleton] at hq
    subst hq
    exact ⟨pp, pp', price, h1, h2, h3⟩
  · simp only [List.map_cons, List.map_nil, List.sum_cons, List.sum_nil, add_zero, h2, Option.getD_some]
    exact h5
  · rw [List.mem_singleton] at hq
    subst hq
    exact hs

theorem marginOrder_settles {c : Ctx} {w w' : W} {r : MarginOrderReq} {e : MarginOrderEv}
    (h : marginOrder c w r = Except.ok (w', e)) : Settles c w w' [r.pair] e.funding := by
  have h0 := marginOrder_settled h
  refine h0.settles ?_
  obtain ⟨price, pool, b, w1, funding, close, op, w2, pnl, fee, ok, w3, fees, a1, a2, -, -, hup, hf,
    -, hx, -, -, hfee, ha1, ha2, hw', -, -⟩ := marginOrder_ok h
  obtain ⟨wc, f1, f2, hc, ho, rfl⟩ := executeOrder_ok hx
  obtain ⟨-, hs⟩ := settleFunding_gap hf
  have g3 : wc.Settled r.pair := by
    unfold closePart at hc
    split at hc
    · exact (closePosition_gap hc hs).2
    · simp only [pure_ok, Prod.mk.injEq] at hc
      rw [← hc.1]; exact hs
  have g4 : w2.Settled r.pair := by
    unfold openPart at ho
    split at ho
    · exact openPosition_settled ho
    · simp only [pure_ok, Prod.mk.injEq] at ho
      rw [← ho.1]; exact g3
  have g5 := settleFees_same hfee
  refine settled_congr ?_ ?_ g4
  · rw [hw']; exact g5.2.2.2.2.2
  · rw [hw']
    exact ((trySetStatus_reqOnly ha2).same.1.trans (trySetStatus_reqOnly ha1).same.1).trans g5.1

theorem autoDeleverage_settles {c : Ctx} {w w' : W} {p : PairId} {e : AdlEv}
    (h : autoDeleverage c w p = Except.ok (w', e)) : Settles c w w' [p] e.funding := by
  have h0 := autoDeleverage_settled h
  refine h0.settles ?_
  obtain ⟨pool, b, w1, funding, ratio0, price, pct, thr, w2, pnl, fee, fees, ratio1, hup, hf, -, -, -,
    -, -, -, -, -, hcl, hfee, -, -, -⟩ := autoDeleverage_ok h
  obtain ⟨-, hs⟩ := settleFunding_gap hf
  have g5 := settleFees_same hfee
  exact settled_congr g5.2.2.2.2.2 g5.1 (closePosition_gap hcl hs).2

theorem liquidate_settles {c : Ctx} {w w' : W} {pay : Bucket} {bs : List Bucket} {e : LiquidateEv}
    (h : liquidate c w pay = Except.ok (w', bs, e)) : Settles c w w' w.acc.positions.keys e.funding := by
  obtain ⟨w1, lp, lc, value, acc, tokens, taken, pool, w2, w3, loss, w4, fees, -, hlp, -, -, -, -, hwd, -, hp,
    hs, hwo, hfee, rfl, -, rfl⟩ := liquidate_ok h
  obtain ⟨p1, p2, p3, h1, h2, h3, rfl⟩ := liquidatePositions_ok hlp
  have a1 := fold_booked _ w.acc.positions.keys_nodup h1
  have a2 := liqLoop_sameFunding _ h2
  have u2 := (liqLoop_gap _ h2).1
  have a3 : p2.SameFunding p3 := fun q => snaps_sameFunding _ h3 q
  have u3 : p3.unreal = p2.unreal - lp.funding := by
    have : ∀ (l : List PairId) {v v' : VPool}, l.foldlM (updatePairSnaps c) v = Except.ok v' → v'.unreal = v.unreal := by
      intro l v v' hh
      refine foldlM_rel (P := fun a b : VPool => b.unreal = a.unreal) (fun _ => rfl)
        (fun a b c h1 h2 => h2.trans h1) (fun a b p h => ?_) _ hh
      obtain ⟨price, pp, -, -, rfl⟩ := updatePairSnaps_ok h
      rfl
    exact this _ h3
  have a4 : p3.SameFunding w2.pool := by rw [settleAccount_ok hs, VPool.deposit_ok hp]; exact fun _ => rfl
  have u4 : w2.pool.unreal = p3.unreal := by rw [settleAccount_ok hs, VPool.deposit_ok hp]
  have q4 : w2.acc.positions = w.acc.noPositions.positions := by
    have hc := withdrawCollateral_collOnly hwd
    rw [settleAccount_ok hs]
    simp only; rw [hc]
  have a5 : w2.pool.SameFunding w3.pool := by obtain ⟨-, rfl⟩ := writeOff_ok hwo; exact fun _ => rfl
  have u5 : w3.pool.unreal = w2.pool.unreal := by obtain ⟨-, rfl⟩ := writeOff_ok hwo; rfl
  have q5 : w3.acc.positions = w2.acc.positions := by obtain ⟨-, rfl⟩ := writeOff_ok hwo; rfl
  have a6 := settleFees_sameFunding hfee
  have q6 := (settleFees_same hfee).1
  have chain : p1.SameFunding w4.pool := ((((show p1.SameFunding p2 from a2).trans a3).trans a4).trans a5).trans a6.1
  have hb : Booked c w.pool w4.pool w.acc.positions.keys (0 + -lp.funding) :=
    a1.same chain (by
      have u2 : p2.unreal = p1.unreal := u2
      rw [a6.2, u5, u4, u3, u2]; ring)
  rw [zero_add] at hb
  refine ⟨hb, ?_, fun p hp' => ?_⟩
  · obtain ⟨-, -, t3, -⟩ := liqLoop_value (p1 := p1) _ w.acc.positions.nodup (fun e _ => rfl) h2
    simp only [zero_add] at t3
    show -lp.funding = _
    rw [t3, AMap.keys, List.map_map]
    congr 2
    apply List.map_congr_left
    rintro ⟨q, pos⟩ hq
    have hg : w.acc.positions.get q = some pos := AMap.get_mem hq
    simp only [Function.comp, hg, Option.elim_some, Ctx.market]
    have hc := chain q
    cases g1 : p1.positions.get q with
    | none =>
      rw [g1, Option.map_none, Option.map_eq_none_iff] at hc
      rw [hc]
    | some pp =>
      obtain ⟨pp', g2, g3⟩ := chain.get g1
      rw [g2]
      simp only [Option.getD_some]
      exact (fundingOwed_congr g3 pos).symm
  · obtain ⟨d, hd, -⟩ := hb
    obtain ⟨pp, pp', price, -, g2, -⟩ := hd p hp'
    have e0 : (w4.acc.updateValidStart.position p).amount = 0 := by
      have e1 : w4.acc.updateValidStart.positions = w.acc.noPositions.positions := by
        show w4.acc.positions = _
        rw [q6, q5, q4]
      unfold VAccount.position AMap.getD
      rw [e1]
      simp only [VAccount.noPositions, AMap.get_mapV]
      cases w.acc.positions.get p <;> rfl
    refine ⟨pp', g2, fun h' => ?_, fun h' => ?_⟩ <;> (simp only at h'; omega)

/-- **Specification.** The funding an account owes in one pair at the indexes of a state, in units of 10⁻³⁶. -/
def State.debtIn (s : State) (acc : Account) (p : PairId) : Int :=
  (acc.positions.get p).elim 0 (AccountPosition.debt (s.pool.position s.now p))

/-- The account a keeper call settles the funding of. -/
def Op.settlesAccount : Op → Option Addr
  | .processRequest a _ _ => some a
  | .liquidate a _ _ => some a
  | .autoDeleverage a _ _ => some a
  | _ => none

theorem owed_sum {pp : PairId → PoolPosition} {pos : PairId → Option AccountPosition} (l : List PairId) :
    |ONE * (l.map (fun p => (pos p).elim 0 (fundingOwed (pp p)))).sum
      - (l.map (fun p => (pos p).elim 0 (AccountPosition.debt (pp p)))).sum| ≤ ONE * l.length := by
  induction l with
  | nil => simp
  | cons p l ih =>
    simp only [List.map_cons, List.sum_cons, List.length_cons]
    have h1 : |ONE * (pos p).elim 0 (fundingOwed (pp p)) - (pos p).elim 0 (AccountPosition.debt (pp p))| ≤ ONE := by
      cases pos p with
      | none => simp [ONE_pos.le]
      | some x => exact (fundingOwed_close (pp p) x).le
    rw [abs_le] at h1 ih ⊢
    push_cast
    constructor <;> linarith [h1.1, h1.2, ih.1, ih.2]

theorem KeeperRun.settles {env : Env} {s s' : State} {a : Addr} {acc acc' : Account} {ids l : List PairId}
    {u : Option PriceUpdate} {s1 : State} {c : Ctx} {w0 w : W} {f : Dec} (h : KeeperRun env s s' a acc acc' ids u s1 c w0 w)
    (hr : Reach env s) (hs : Settles c w0 w l f) :
    (∃ d : PairId → Dec, (∀ p ∈ l, State.Brought s s' p (d p)) ∧
      s'.pool.unrealizedFunding = s.pool.unrealizedFunding + (l.map d).sum + f) ∧
    |ONE * -f - (l.map (s'.debtIn acc)).sum| ≤ ONE * l.length ∧
    ∀ p ∈ l, s'.debtIn acc' p = 0 := by
  have hcoh := poolCoh_path h.path (show PoolCoh s.now w0.pool by rw [h.pool0]; exact poolCoh_new _ _ _)
  obtain ⟨⟨d, hd, hu⟩, ho, hdone⟩ := hs
  refine ⟨⟨d, fun p hp => ?_, ?_⟩, ?_, fun p hp => ?_⟩
  · obtain ⟨pp, pp', price, h1, h2, h3⟩ := hd p hp
    rw [h.pool0] at h1
    exact (brought_of h.load h.oracle h.pool hcoh h1 h2 h3).2
  · have e1 : s'.pool.unrealizedFunding = w.pool.unreal := by rw [h.pool]; rfl
    have e2 : s.pool.unrealizedFunding = w0.pool.unreal := by rw [h.pool0]; rfl
    rw [e1, e2, hu]
  · have e : (l.map (fun p => (w0.acc.positions.get p).elim 0
        (fundingOwed ((w.pool.positions.get p).getD (PoolPosition.dflt c.now)))))
        = l.map (fun p => (acc.positions.get p).elim 0 (fundingOwed (s'.pool.position s'.now p))) := by
      apply List.map_congr_left
      intro p hp
      obtain ⟨pp, pp', price, h1, h2, h3⟩ := hd p hp
      rw [h2, h.pos0, h.poolPos h2]
      rfl
    rw [ho, neg_neg, e]
    exact owed_sum l
  · obtain ⟨pp, hpp, hl, hsh⟩ := hdone p hp
    unfold State.debtIn
    rw [h.positions (reach_noEmpty hr), h.poolPos hpp]
    unfold VAccount.position AMap.getD at hl hsh
    cases hg : w.acc.positions.get p with
    | none => rfl
    | some x =>
      rw [hg] at hl hsh
      simp only [Option.getD_some] at hl hsh
      rw [Option.filter_some]
      split
      · simp only [Option.elim_some]
        unfold AccountPosition.debt
        split
        · rename_i hx; rw [hl hx]; ring
        · rename_i hx hx'
          have : x.amount ≠ 0 := by simpa using hx
          rw [hsh (by omega)]; ring
      · rfl

/-- Computations whose result reports no settled funding. -/
def NoSettled (m : R (State × Out)) : Prop := ∀ r, m = Except.ok r → r.2.ev.settledFunding = 0

theorem NoSettled.bind {α : Type} {m : R α} {g : α → R (State × Out)} (h : ∀ x, NoSettled (g x)) :
    NoSettled (m >>= g) := by
  intro r hr
  rw [bind_ok] at hr
  obtain ⟨x, -, hx⟩ := hr
  exact h x r hx

theorem NoSettled.pure {s : State} {o : Out} (h : o.ev.settledFunding = 0) : NoSettled (Pure.pure (s, o)) := by
  intro r hr
  rw [pure_ok] at hr
  rw [← hr]; exact h

theorem noSettled {env : Env} {cl : Caller} {s s' : State} {op : Op} {o : Out}
    (h : body env cl s op = Except.ok (s', o)) (hm : op.marks = false) : o.ev.settledFunding = 0 := by
  refine (?_ : NoSettled (body env cl s op)) _ h
  cases op <;> first | (cases hm; done) | skip
  case addLiquidity b =>
    rintro ⟨x, y⟩ hb
    obtain ⟨ev, pool, pool', hev, -⟩ := opAddLiquidity_fees hb
    simp only [hev]; rfl
  case removeLiquidity b =>
    rintro ⟨x, y⟩ hb
    obtain ⟨ev, pool, pool', hev, -⟩ := opRemoveLiquidity_fees hb
    simp only [hev]; rfl
  all_goals
    simp only [body]
    repeat (first | exact NoSettled.pure rfl | (refine NoSettled.bind ?_; intro _) | split)

/-- **C42 (settlement).** A call books the funding of every pair it brings up to date once, and moves exactly the funding it
reports between that account and the funding the pool still has to come.  What it reports is the account's debt in those
pairs, up to 10⁻¹⁸ for each pair, and afterwards the account owes nothing in them. -/
theorem c42_settlement {env : Env} {cl : Caller} {s s' : State} {op : Op} {o : Out} (hr : Reach env s)
    (h : step env cl s op = Except.ok (s', o)) :
    (∃ d : PairId → Dec, (∀ p ∈ op.updates s o, PairBrought s s' p (d p)) ∧
      s'.pool.unrealizedFunding = s.pool.unrealizedFunding + ((op.updates s o).map d).sum + o.ev.settledFunding) ∧
    (∀ a acc acc', op.settlesAccount = some a → s.accounts.get a = some acc → s'.accounts.get a = some acc' →
      |ONE * -o.ev.settledFunding - ((op.updates s o).map (s'.debtIn acc)).sum| ≤ ONE * (op.updates s o).length ∧
      ∀ p ∈ op.updates s o, s'.debtIn acc' p = 0) := by
  have hb := step_body h
  have main : ∀ {a : Addr} {acc acc' : Account} {ids : List PairId} {u : Option PriceUpdate} {s1 : State} {c : Ctx}
      {w0 w : W} (_ : KeeperRun env s s' a acc acc' ids u s1 c w0 w) (_ : op.settlesAccount = some a)
      (_ : Settles c w0 w (op.updates s o) o.ev.settledFunding),
      (∃ d : PairId → Dec, (∀ p ∈ op.updates s o, PairBrought s s' p (d p)) ∧
        s'.pool.unrealizedFunding = s.pool.unrealizedFunding + ((op.updates s o).map d).sum + o.ev.settledFunding) ∧
      (∀ a acc acc', op.settlesAccount = some a → s.accounts.get a = some acc → s'.accounts.get a = some acc' →
        |ONE * -o.ev.settledFunding - ((op.updates s o).map (s'.debtIn acc)).sum| ≤ ONE * (op.updates s o).length ∧
        ∀ p ∈ op.updates s o, s'.debtIn acc' p = 0) := by
    intro a acc acc' ids u s1 c w0 w hk ha hs
    obtain ⟨⟨d, h1, h2⟩, h3, h4⟩ := hk.settles hr hs
    refine ⟨⟨d, fun p hp => brought_spec hr hk.now (h1 p hp), h2⟩, ?_⟩
    intro b acc0 acc0' hb0 hb1 hb2
    rw [ha] at hb0; cases hb0
    rw [hk.before] at hb1; cases hb1
    rw [hk.after] at hb2; cases hb2
    exact ⟨h3, h4⟩
  have quiet : s'.pool.unrealizedFunding = s.pool.unrealizedFunding → op.updates s o = [] → o.ev.settledFunding = 0 →
      (∃ d : PairId → Dec, (∀ p ∈ op.updates s o, PairBrought s s' p (d p)) ∧
        s'.pool.unrealizedFunding = s.pool.unrealizedFunding + ((op.updates s o).map d).sum + o.ev.settledFunding) ∧
      (∀ a acc acc', op.settlesAccount = some a → s.accounts.get a = some acc → s'.accounts.get a = some acc' →
        |ONE * -o.ev.settledFunding - ((op.updates s o).map (s'.debtIn acc)).sum| ≤ ONE * (op.updates s o).length ∧
        ∀ p ∈ op.updates s o, s'.debtIn acc' p = 0) := by
    intro e hu he
    rw [hu, he]
    exact ⟨⟨fun _ => 0, by simp, by simp [e]⟩, fun _ _ _ _ _ _ => by simp⟩
  by_cases hm : op.marks = true
  · cases op <;> first | exact (Bool.false_ne_true hm).elim | skip
    case processRequest a i u =>
      by_cases hx : o.ev = .expired
      · refine quiet ?_ (by simp [Op.updates, hx]) (by rw [hx]; rfl)
        obtain ⟨v, v1, r, expired, cfg, -, -, -, -, -, hh⟩ := processRequest_ok hb
        rcases hh with ⟨-, acc, refs, -, rfl, -⟩ | ⟨-, s1, c, w, out, acc, refs, -, hex, -, -, ho⟩
        · rfl
        · rw [ho] at hx
          rcases executeRequest_ok hex with ⟨_, _, -, -, rfl⟩ | ⟨_, _, -, -, rfl⟩ <;> cases hx
      · obtain ⟨acc, acc', kr, ids, s1, c, w0, w, out, hk, -, -, -, hex, hev, -, -⟩ := run_execute hb hx
        rcases executeRequest_ok hex with ⟨rc, tokens, -, hrm, ho⟩ | ⟨mo, e, -, hrm, ho⟩
        · refine quiet ?_ (by simp [Op.updates, hev, ho]) (by rw [hev, ho]; rfl)
          have e1 : s'.pool.unrealizedFunding = w.pool.unreal := by rw [hk.pool]; rfl
          have e2 : s.pool.unrealizedFunding = w0.pool.unreal := by rw [hk.pool0]; rfl
          rw [e1, e2, removeCollateral_unreal hrm]
        · have hpr : e.pair = mo.pair := (order_parts hrm).pair
          have hu : Op.updates s (.processRequest a i u) o = [mo.pair] := by simp [Op.updates, hev, ho, hpr]
          refine main hk rfl ?_
          rw [hu, hev, ho]
          exact marginOrder_settles hrm
    case liquidate a b u =>
      obtain ⟨acc, acc', ids, s1, c, w0, w, tokens, e, hk, -, -, hx, ho⟩ := run_liquidate hb
      have hu : Op.updates s (.liquidate a b u) o = w0.acc.positions.keys := by
        simp [Op.updates, hk.before, hk.pos0]
      refine main hk rfl ?_
      rw [hu, ho]
      exact liquidate_settles hx
    case autoDeleverage a p u =>
      obtain ⟨acc, acc', ids, s1, c, w0, w, e, hk, -, hx, ho⟩ := run_adl hb
      refine main hk rfl ?_
      rw [ho]
      exact autoDeleverage_settles hx
    case updatePairs ids u =>
      obtain ⟨s1, c, pool, flags, n, hk, hx, -, he, ho⟩ := opUpdatePairs_ok hb
      have hp := updatePairsLoop_path (ex := c.cfg.ex) (acc := default) (d := s.dist) _ hx
      obtain ⟨d, hd, hu⟩ := loop_booked _ (List.nodup_dedup ids) hx
      refine ⟨⟨d, fun p hp' => ?_, ?_⟩, fun _ _ _ ha => by cases ha⟩
      · obtain ⟨pp, pp', price, h1, h2, h3⟩ := hd p hp'
        have hkk := (keeperLoad_ok hk).2.2.2.2.2.2
        exact brought_spec hr (by rw [he]; simp only; rw [hkk])
          (brought_of hk (by rw [he]) (by rw [he]) (poolCoh_path hp (poolCoh_new _ _ _)) h1 h2 h3).2
      · rw [ho, he]
        simp only [Op.updates, Ev.settledFunding]
        exact hu
  · have hm : op.marks = false := by simpa using hm
    refine quiet (body_pool_unreal hb hm) (by cases op <;> first | rfl | cases hm) ?_
    exact noSettled hb hm

/-! ## C44: pair-update rewards -/

/-- **Specification.** Bringing the pair up to date earns a reward: its update period has passed since it was last brought up
to date, or its price has moved by at least the configured ratio since then. -/
def State.rewardDue (s s' : State) (p : PairId) : Prop :=
  (s.market.pair p).updatePeriodSeconds ≤ s.now - (s.pool.position s.now p).lastUpdate ∨
  (s.market.pair p).updatePriceDeltaRatio
    ≤ divT |s'.market.price p - (s.pool.position s.now p).lastPrice| (s.pool.position s.now p).lastPrice

instance (s s' : State) (p : PairId) : Decidable (s.rewardDue s' p) := by unfold State.rewardDue; infer_instance

theorem loop_flags {c : Ctx} {g : PairId → Bool} : ∀ (l : List PairId) {v v' : VPool} {flags : List Bool}, l.Nodup →
    updatePairsLoop c v l = Except.ok (v', flags) →
    (∀ p ∈ l, ∀ pc price pp0, c.cfg.pairs.get p = some pc → c.orc.prices.get p = some price →
      v.positions.get p = some pp0 →
      g p = decide (c.now - pp0.lastUpdate ≥ pc.updatePeriodSeconds ∨
        divT |price - pp0.lastPrice| pp0.lastPrice ≥ pc.updatePriceDeltaRatio)) →
    flags = l.map g := by
  intro l
  induction l with
  | nil =>
    intro v v' flags _ h _
    simp only [updatePairsLoop, Except.ok.injEq, Prod.mk.injEq] at h
    rw [← h.2]; rfl
  | cons p l ih =>
    intro v v' flags hn h hg
    simp only [updatePairsLoop, bind_ok, pure_ok, Prod.mk.injEq] at h
    obtain ⟨⟨v2, b⟩, h1, ⟨p2, bs⟩, h2, -, rfl⟩ := h
    rw [List.nodup_cons] at hn
    obtain ⟨pc, price, pp0, pp1, dPool, seconds, period, hpc, hpr, hpp, rfl, rfl, hf, rfl, -, rfl⟩ := updatePair_ok h1
    rw [List.map_cons, hg p (List.mem_cons_self ..) pc price pp0 hpc hpr hpp]
    congr 1
    refine ih hn.2 h2 ?_
    intro q hq pc' price' pp' e1 e2 e3
    refine hg q (List.mem_cons_of_mem _ hq) pc' price' pp' e1 e2 ?_
    rw [← e3]
    refine (AMap.get_set_ne _ _ ?_).symm
    intro e; subst e; exact hn.1 hq

/-- **C44.** `update_pairs` mints and pays exactly one reward token for each distinct pair whose reward is due, and nothing
else. -/
theorem c44_reward {env : Env} {cl : Caller} {s s' : State} {ids : List PairId} {u : Option PriceUpdate} {o : Out}
    (h : step env cl s (.updatePairs ids u) = Except.ok (s', o)) :
    o.reward = ONE * (ids.dedup.filter (fun p => decide (s.rewardDue s' p))).length ∧
    s'.rewardSupply = s.rewardSupply + o.reward := by
  obtain ⟨s1, c, pool, flags, n, hk, hx, hn, he, ho⟩ := opUpdatePairs_ok (step_body h)
  have hl := keeperLoad_ok hk
  have hfl : flags = ids.dedup.map (fun p => decide (s.rewardDue s' p)) := by
    refine loop_flags _ (List.nodup_dedup ids) hx ?_
    intro p hp pc price pp0 e1 e2 e3
    obtain ⟨-, hnow, hcfg, -, -, -, -⟩ := hl
    obtain ⟨-, x, hx', rfl⟩ := (VConfig.new_ok hcfg).2.2.2 p pc e1
    obtain ⟨g0, t, ht, -⟩ := (keeperLoad_prices hk).1 p price e2
    have e4 : s'.market.price p = price := by
      unfold State.market
      rw [he]
      simp only [ht, Option.map_some, Option.getD_some]
    have e5 : pp0 = s.pool.position s.now p := by
      simp only [VPool.new, AMap.get_build] at e3
      rw [if_pos hp] at e3
      cases e3; rfl
    have e6 : s.market.pair p = x.decompress := by
      unfold State.market
      simp only [hx', Option.map_some, Option.getD_some]
    rw [decide_eq_decide, e5, hnow, ← e6, ← e4]
    rfl
  have hcount : ∀ (l : List PairId) (g : PairId → Bool), ((l.map g).filter (fun b => b)).length = (l.filter g).length := by
    intro l g
    rw [List.filter_map, List.length_map]
    rfl
  refine ⟨?_, by rw [ho, he]⟩
  rw [ho, hn, hfl, hcount]
  unfold ofInt
  exact mul_comm _ _

/-- **C44 (repeats), under the hypothesis that the update periods in force are positive.** Once a pair has been brought up to
date, bringing it up to date again in the same second at the same price is never rewarded.  The hypothesis is needed:
`c44_period_zero`. -/
theorem c44_repeat_partial {env : Env} {cl cl' : Caller} {s s1 s2 : State} {op : Op} {o1 o2 : Out} {ids : List PairId}
    {u : Option PriceUpdate} (hr : Reach env s) (h1 : step env cl s op = Except.ok (s1, o1))
    (h2 : step env cl' s1 (.updatePairs ids u) = Except.ok (s2, o2))
    (hsub : ∀ p ∈ ids, p ∈ op.updates s o1 ∧ s2.market.price p = s1.market.price p ∧
      0 < (s1.market.pair p).updatePeriodSeconds) :
    o2.reward = 0 ∧ s2.rewardSupply = s1.rewardSupply := by
  obtain ⟨e1, e2⟩ := c44_reward h2
  have hr1 : Reach env s1 := .step hr h1
  have : ids.dedup.filter (fun p => decide (s1.rewardDue s2 p)) = [] := by
    rw [List.filter_eq_nil_iff]
    intro p hp
    obtain ⟨hu, hpr, hper⟩ := hsub p (List.mem_dedup.mp hp)
    obtain ⟨d, hb⟩ := (c43_update hr h1).1 p hu
    obtain ⟨d', hb'⟩ := (c43_update hr1 h2).1 p hp
    obtain ⟨x, hx⟩ := hb'.pair
    have hbd : 0 < (s1.market.pair p).updatePriceDeltaRatio := by
      have e : s1.market.pair p = x.decompress := by
        unfold State.market
        simp only [hx, Option.map_some, Option.getD_some]
      rw [e]; exact ((reach_inForce hr1).pairs p x hx).2.1.deltaRatio
    rw [decide_eq_true_eq]
    unfold State.rewardDue
    rw [hb.stamped.1, hb.stamped.2, hpr, sub_self, sub_self]
    have hz : divT |(0 : Int)| (s1.market.price p) = 0 := by simp [divT]
    rw [hz]
    simp only [not_or, not_le]
    exact ⟨hper, hbd⟩
  rw [this] at e1
  simp only [List.length_nil, Nat.cast_zero, mul_zero] at e1
  exact ⟨e1, by rw [e2, e1, add_zero]⟩

/-- A pair whose submitted update period is 65536 seconds, which is stored as zero. -/
def zeroPeriod : PairConfig := { Scn.pairCfg 3 with updatePeriodSeconds := 65536 }

/-- The keeper brings that pair up to date three times in the same second at the same price. -/
def rewarded : State := Scn.after Scn.genesis
  [ .oracleAddKey 0 77, .updatePairConfigs [zeroPeriod],
    .oraclePush { prices := [⟨3, Scn.d 1, 1000⟩], sig := 77, keyId := 0 },
    .updatePairs [3] none, .updatePairs [3] none ]

/-- **C44 fails for repeats** if the pair was configured with a validated update period that is a multiple of 65536 seconds:
a third call in the same second at the same price still earns a reward. -/
theorem c44_period_zero : zeroPeriod.validate = true ∧ Reach Scn.env rewarded ∧ rewarded.rewardSupply = 2 * ONE ∧
    (rewarded.pool.position rewarded.now 3).lastUpdate = rewarded.now ∧
    ∃ s' o, step Scn.env Scn.anyone rewarded (.updatePairs [3] none) = Except.ok (s', o) ∧
      (s'.now = rewarded.now ∧ s'.market.price 3 = rewarded.market.price 3 ∧ o.reward = ONE) := by
  refine ⟨by decide +kernel, Scn.after_reach (.init Scn.genesis_ok) _, by decide +kernel, by decide +kernel, ?_⟩
  exact Scn.stepped (P := fun s' o => s'.now = rewarded.now ∧ s'.market.price 3 = rewarded.market.price 3 ∧ o.reward = ONE)
    (by decide +kernel)

/-! ## The theorems apply -/

/-- An hour and a half after both sides traded, at a price 2% higher. -/
def later : State := Scn.after Scn.open_ [.tick 6430, .oraclePush (Scn.prices 6430 (Scn.d 51000) (Scn.d 2000) (Scn.d 5 2))]

theorem later_reach : Reach Scn.env later := Scn.after_reach Scn.open_reach _

/-- C43 and C44 apply to a pair with two longs and one short: the longs pay, the shorts receive less than the pool charge,
and the two distinct pairs named (one of them twice) earn one reward each. -/
example : Reach Scn.env later ∧ (later.pool.position later.now 1).oiLong = 2 * ONE ∧
    (later.pool.position later.now 1).oiShort = ONE ∧ (later.pool.position later.now 1).lastUpdate ≠ later.now ∧
    ∃ s' o, step Scn.env Scn.anyone later (.updatePairs [1, 2, 1] none) = Except.ok (s', o) ∧
      ((1 ∈ Op.updates later (.updatePairs [1, 2, 1] none) o) ∧
       0 < (later.pool.position later.now 1).yearlyRate (later.market.pair 1) (s'.market.price 1)
          (s'.pool.position s'.now 1).funding2Rate ∧
       0 < (s'.pool.position s'.now 1).fundingLongIndex - (later.pool.position later.now 1).fundingLongIndex ∧
       (s'.pool.position s'.now 1).fundingShortIndex < (later.pool.position later.now 1).fundingShortIndex ∧
       later.rewardDue s' 1 ∧ o.reward = 2 * ONE) :=
  ⟨later_reach, by decide +kernel, by decide +kernel, by decide +kernel, Scn.stepped (by decide +kernel)⟩

/-- C42 applies: the long account closes half its position and pays funding, which the pool no longer expects. -/
def closing : State := Scn.after later
  [.marginOrderRequest none 100 (Scn.order 1 (Scn.d (-1)) true) [] [] STATUS_ACTIVE, .tick 6440]

theorem closing_reach : Reach Scn.env closing := Scn.after_reach later_reach _

example : ∃ s' o, step Scn.env Scn.anyone closing (.processRequest 100 3 none) = Except.ok (s', o) ∧
    (o.ev.settledFunding < 0 ∧ Op.updates closing (.processRequest 100 3 none) o = [1] ∧
      Op.settlesAccount (.processRequest 100 3 none) = some 100 ∧
      (closing.accounts.get 100).elim 0 (fun acc => s'.debtIn acc 1) > 0 ∧
      (s'.accounts.get 100).elim 1 (fun acc => s'.debtIn acc 1) = 0) :=
  Scn.stepped (by decide +kernel)

/-- C44 (repeats) applies: the second update in the same second earns nothing. -/
example : ∃ s1 o1, step Scn.env Scn.anyone later (.updatePairs [1] none) = Except.ok (s1, o1) ∧
    (o1.reward = ONE ∧ (∃ s2 o2, step Scn.env Scn.anyone s1 (.updatePairs [1] none) = Except.ok (s2, o2) ∧
      (o2.reward = 0 ∧ s2.market.price 1 = s1.market.price 1 ∧ 0 < (s1.market.pair 1).updatePeriodSeconds))) := by
  obtain ⟨s1, o1, h, h1, h2⟩ := Scn.stepped (s := later) (op := .updatePairs [1] none)
    (P := fun s1 o1 => o1.reward = ONE ∧ Scn.trial s1 (.updatePairs [1] none)
      (fun s2 o2 => decide (o2.reward = 0 ∧ s2.market.price 1 = s1.market.price 1 ∧
        0 < (s1.market.pair 1).updatePeriodSeconds)) = true) (by decide +kernel)
  exact ⟨s1, o1, h, h1, Scn.stepped h2⟩

end Perp
