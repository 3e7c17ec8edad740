import Verif.FundingRate
import Mathlib.Algebra.BigOperators.Group.Finset.Basic
import Mathlib.Data.Finset.Card

/-!
# The schedule of the keepers decides nothing (C70)

Several keepers call `update_pairs` in the same second, in any order, for overlapping sets of pairs.  At given prices the pool ends
up the same whatever the schedule, everything else stays as it was, and (if the update periods in force are positive) the rewards
paid in total are the same: one for each pair that was due.
-/

namespace Perp

/-! ## Specification -/

/-- Calls of `update_pairs` by anybody, one after the other, with or without price updates, each of which is made at the prices `P`;
the list collects the pairs asked for. -/
inductive Upkeep (env : Env) (P : PairId → Dec) : State → List PairId → State → Prop where
  | start {s : State} : Upkeep env P s [] s
  | call {s t t' : State} {l ids : List PairId} {cl : Caller} {u : Option PriceUpdate} {o : Out} :
      Upkeep env P s l t → step env cl t (.updatePairs ids u) = Except.ok (t', o) →
      (∀ p ∈ ids, t'.market.price p = P p) → Upkeep env P s (l ++ ids) t'

/-- The same contents. -/
structure Pool.Equal (a b : Pool) : Prop where
  positions : ∀ p, a.positions.get p = b.positions.get p
  base : a.baseTokens = b.baseTokens
  vb : a.vb = b.vb
  unreal : a.unrealizedFunding = b.unrealizedFunding
  skew : a.skewAbsSnap = b.skewAbsSnap
  pnl : a.pnlSnap = b.pnlSnap

/-- The pair has not been updated for its update period, or its price has moved by its update ratio. -/
def State.DueAt (s : State) (P : PairId → Dec) (p : PairId) : Prop :=
  (s.market.pair p).updatePeriodSeconds ≤ s.now - (s.pool.position s.now p).lastUpdate ∨
  (s.market.pair p).updatePriceDeltaRatio ≤
    divT |P p - (s.pool.position s.now p).lastPrice| (s.pool.position s.now p).lastPrice

instance (s : State) (P : PairId → Dec) (p : PairId) : Decidable (s.DueAt P p) := by unfold State.DueAt; infer_instance

/-! ## One pair -/

/-- Bringing a pair of `s` up to date at a price. -/
def State.bringing (s : State) (P : PairId → Dec) (p : PairId) : R (PoolPosition × Dec) :=
  fundingStep (s.market.pair p)
    { (s.pool.position s.now p).snapAt (P p) with lastPrice := P p, lastUpdate := s.now } (P p)
    ((s.pool.position s.now p).skewAt (P p)) |(s.pool.position s.now p).skewAt (P p)|
    (divT (ofInt (s.now - (s.pool.position s.now p).lastUpdate)) YEAR)

/-- Its result. -/
def State.brought (s : State) (P : PairId → Dec) (p : PairId) : PoolPosition × Dec :=
  match s.bringing P p with
  | .ok r => r
  | .error _ => (s.pool.position s.now p, 0)

theorem brought_eq {s : State} {P : PairId → Dec} {p : PairId} {r : PoolPosition × Dec} (h : s.bringing P p = Except.ok r) :
    s.brought P p = r := by
  unfold State.brought; rw [h]

/-- A pair that has been brought up to date is up to date. -/
theorem brought_fix {s : State} {P : PairId → Dec} {p : PairId} (h : s.bringing P p = Except.ok (s.brought P p)) :
    { ((s.brought P p).1).snapAt (P p) with lastPrice := P p, lastUpdate := s.now } = (s.brought P p).1 ∧
    ((s.brought P p).1).lastUpdate = s.now ∧ ((s.brought P p).1).lastPrice = P p ∧
    |((s.brought P p).1).skewAt (P p)| = ((s.brought P p).1).skewAbsSnap ∧
    ((s.brought P p).1).cost - ((s.brought P p).1).skewAt (P p) = ((s.brought P p).1).pnlSnap := by
  have ho := fundingStep_only (pp' := (s.brought P p).1) (d := (s.brought P p).2) h
  unfold FundingOnly at ho
  generalize (s.brought P p).1 = x at ho
  rw [ho]
  simp [PoolPosition.snapAt, PoolPosition.skewAt]

/-! ## The pool -/

/-- The pool of `s` with the pairs in `F` brought up to date. -/
structure Kept (s : State) (P : PairId → Dec) (F : Finset PairId) (pool : Pool) : Prop where
  ok : ∀ p ∈ F, s.bringing P p = Except.ok (s.brought P p)
  pos : ∀ p, pool.positions.get p = if p ∈ F then some (s.brought P p).1 else s.pool.positions.get p
  base : pool.baseTokens = s.pool.baseTokens
  vb : pool.vb = s.pool.vb
  unreal : pool.unrealizedFunding = s.pool.unrealizedFunding + ∑ p ∈ F, (s.brought P p).2
  skew : pool.skewAbsSnap = s.pool.skewAbsSnap +
    ∑ p ∈ F, (|(s.pool.position s.now p).skewAt (P p)| - (s.pool.position s.now p).skewAbsSnap)
  pnl : pool.pnlSnap = s.pool.pnlSnap +
    ∑ p ∈ F, ((s.pool.position s.now p).cost - (s.pool.position s.now p).skewAt (P p) - (s.pool.position s.now p).pnlSnap)

/-- The buffered pool while the pairs `ids` are being brought up to date, those in `F0` having been so before. -/
structure Midst (s : State) (P : PairId → Dec) (F0 : Finset PairId) (ids : List PairId) (t : Pool) (v : VPool) : Prop where
  ok : ∀ p ∈ F0 ∪ v.updated.toFinset, s.bringing P p = Except.ok (s.brought P p)
  comp : v.comp = t
  pos : ∀ p, v.positions.get p =
    if p ∈ ids then some (if p ∈ F0 ∪ v.updated.toFinset then (s.brought P p).1 else s.pool.position s.now p) else none
  sub : ∀ p ∈ v.updated, p ∈ ids
  vb : v.vb = s.pool.vb
  unreal : v.unreal = s.pool.unrealizedFunding + ∑ p ∈ F0 ∪ v.updated.toFinset, (s.brought P p).2
  skew : v.skewSnap = s.pool.skewAbsSnap +
    ∑ p ∈ F0 ∪ v.updated.toFinset, (|(s.pool.position s.now p).skewAt (P p)| - (s.pool.position s.now p).skewAbsSnap)
  pnl : v.pnlSnap = s.pool.pnlSnap + ∑ p ∈ F0 ∪ v.updated.toFinset,
    ((s.pool.position s.now p).cost - (s.pool.position s.now p).skewAt (P p) - (s.pool.position s.now p).pnlSnap)

theorem kept_position {s : State} {P : PairId → Dec} {F : Finset PairId} {pool : Pool} (h : Kept s P F pool) (p : PairId) :
    pool.position s.now p = if p ∈ F then (s.brought P p).1 else s.pool.position s.now p := by
  unfold Pool.position
  rw [h.pos p]
  split <;> rfl

theorem midst_new {s : State} {P : PairId → Dec} {F : Finset PairId} {t : Pool} (h : Kept s P F t) (ids : List PairId) :
    Midst s P F ids t (VPool.new t s.now ids) := by
  have e : F ∪ (VPool.new t s.now ids).updated.toFinset = F := by simp [VPool.new]
  refine ⟨by rw [e]; exact h.ok, rfl, fun p => ?_, by simp [VPool.new], h.vb, by rw [e]; exact h.unreal, by rw [e]; exact h.skew,
    by rw [e]; exact h.pnl⟩
  rw [e, ← kept_position h p]
  simp only [VPool.new, AMap.get_build]

theorem midst_kept {s : State} {P : PairId → Dec} {F : Finset PairId} {ids : List PairId} {t : Pool} {v : VPool}
    (h0 : Kept s P F t) (h : Midst s P F ids t v) : Kept s P (F ∪ v.updated.toFinset) v.realize := by
  refine ⟨h.ok, fun p => ?_, ?_, h.vb, h.unreal, h.skew, h.pnl⟩
  · show v.realPositions.get p = _
    rw [VPool.realPositions_get, h.pos p, h.comp, h0.pos p]
    by_cases hu : p ∈ v.updated
    · have hm : p ∈ F ∪ v.updated.toFinset := by simp [hu]
      rw [if_pos hu, if_pos (h.sub p hu)]
      simp only [hm, if_true, Option.some_or]
    · rw [if_neg hu]
      simp [hu]
  · show v.comp.baseTokens = _
    rw [h.comp]; exact h0.base

/-- One more pair. -/
theorem midst_step {s : State} {P : PairId → Dec} {F : Finset PairId} {ids : List PairId} {t : Pool} {c : Ctx} {v v' : VPool}
    {p : PairId} {b : Bool} (h : Midst s P F ids t v) (hp : p ∈ ids) (hnow : c.now = s.now)
    (hcfg : c.cfg.pairs.get p = some (s.market.pair p)) (hprice : c.orc.prices.get p = some (P p))
    (hx : updatePair c v p = Except.ok (v', b)) :
    Midst s P F ids t v' ∧ F ∪ v'.updated.toFinset = insert p (F ∪ v.updated.toFinset) ∧
    (p ∉ F ∪ v.updated.toFinset → b = decide (s.DueAt P p)) ∧
    (p ∈ F ∪ v.updated.toFinset → 0 < (s.market.pair p).updatePeriodSeconds → 0 < (s.market.pair p).updatePriceDeltaRatio →
      b = false) := by
  obtain ⟨pc, price, pp0, pp1, d, seconds, period, h1, h2, h3, rfl, rfl, hf, rfl, -, hb⟩ := updatePair_ok hx
  rw [hcfg] at h1; cases h1
  rw [hprice] at h2; cases h2
  rw [h.pos p, if_pos hp] at h3
  have hup : F ∪ (p :: v.updated).toFinset = insert p (F ∪ v.updated.toFinset) := by
    rw [List.toFinset_cons, Finset.union_insert]
  by_cases hF : p ∈ F ∪ v.updated.toFinset
  · rw [if_pos hF] at h3
    cases h3
    have hok := h.ok p hF
    obtain ⟨e1, e2, e3, e4, e5⟩ := brought_fix hok
    have hz : divT (ofInt (c.now - (s.brought P p).1.lastUpdate)) YEAR = 0 := by
      rw [e2, hnow, sub_self]; decide
    rw [hz, hnow, e1] at hf
    simp only [fundingStep, ne_eq, not_true_eq_false, if_false, pure_ok, Prod.mk.injEq] at hf
    obtain ⟨rfl, rfl⟩ := hf
    have hin : insert p (F ∪ v.updated.toFinset) = F ∪ v.updated.toFinset := Finset.insert_eq_of_mem hF
    refine ⟨⟨?_, h.comp, fun q => ?_, ?_, h.vb, ?_, ?_, ?_⟩, hup, fun hn => absurd hF hn, fun _ hper hrat => ?_⟩
    · show ∀ p' ∈ F ∪ (p :: v.updated).toFinset, _
      rw [hup, hin]; exact h.ok
    · show (v.positions.set p _).get q = if q ∈ ids then some (if q ∈ F ∪ (p :: v.updated).toFinset then _ else _) else none
      rw [hup, hin, AMap.get_set]
      split
      · rename_i e; subst e
        rw [if_pos hp, if_pos hF]
      · exact h.pos q
    · intro q hq
      rcases List.mem_cons.mp hq with rfl | hq
      · exact hp
      · exact h.sub q hq
    · show v.unreal + 0 = _ + ∑ p ∈ F ∪ (p :: v.updated).toFinset, _
      rw [hup, hin, add_zero]; exact h.unreal
    · show v.skewSnap + _ = _ + ∑ p ∈ F ∪ (p :: v.updated).toFinset, _
      rw [hup, hin, e4, sub_self, add_zero]; exact h.skew
    · show v.pnlSnap + _ = _ + ∑ p ∈ F ∪ (p :: v.updated).toFinset, _
      rw [hup, hin, e5, sub_self, add_zero]; exact h.pnl
    · rw [hb, e2, e3, hnow, sub_self, sub_self, decide_eq_false_iff_not]
      have : divT |(0 : Int)| (P p) = 0 := by simp [divT]
      rw [this]
      omega
  · rw [if_neg hF] at h3
    cases h3
    rw [hnow] at hf hb
    have hbr : s.bringing P p = Except.ok (pp1, d) := hf
    have hbe := brought_eq hbr
    refine ⟨⟨?_, h.comp, fun q => ?_, ?_, h.vb, ?_, ?_, ?_⟩, hup, fun _ => hb, fun hn => absurd hn hF⟩
    · show ∀ p' ∈ F ∪ (p :: v.updated).toFinset, _
      rw [hup]
      intro q hq
      rcases Finset.mem_insert.mp hq with rfl | hq
      · rw [hbe]; exact hbr
      · exact h.ok q hq
    · show (v.positions.set p _).get q = if q ∈ ids then some (if q ∈ F ∪ (p :: v.updated).toFinset then _ else _) else none
      rw [hup, AMap.get_set]
      split
      · rename_i e; subst e
        rw [if_pos hp, if_pos (Finset.mem_insert_self _ _), hbe]
      · rename_i e
        rw [h.pos q]
        have : q ∈ insert p (F ∪ v.updated.toFinset) ↔ q ∈ F ∪ v.updated.toFinset := by
          rw [Finset.mem_insert]
          exact ⟨fun x => x.resolve_left (fun x => e x.symm), .inr⟩
        simp only [this]
    · intro q hq
      rcases List.mem_cons.mp hq with rfl | hq
      · exact hp
      · exact h.sub q hq
    · show v.unreal + d = _ + ∑ p ∈ F ∪ (p :: v.updated).toFinset, _
      rw [hup, Finset.sum_insert hF, h.unreal, hbe]; ring
    · show v.skewSnap + _ = _ + ∑ p ∈ F ∪ (p :: v.updated).toFinset, _
      rw [hup, Finset.sum_insert hF, h.skew]; ring
    · show v.pnlSnap + _ = _ + ∑ p ∈ F ∪ (p :: v.updated).toFinset, _
      rw [hup, Finset.sum_insert hF, h.pnl]; ring

/-- All pairs of a call. -/
theorem midst_loop {s : State} {P : PairId → Dec} {F : Finset PairId} {ids : List PairId} {t : Pool} {c : Ctx}
    (hnow : c.now = s.now) (hcfg : ∀ p ∈ ids, c.cfg.pairs.get p = some (s.market.pair p))
    (hprice : ∀ p ∈ ids, c.orc.prices.get p = some (P p)) :
    ∀ {l : List PairId} {v v' : VPool} {flags : List Bool}, (∀ p ∈ l, p ∈ ids) → Midst s P F ids t v →
      updatePairsLoop c v l = Except.ok (v', flags) →
      Midst s P F ids t v' ∧ F ∪ v'.updated.toFinset = (F ∪ v.updated.toFinset) ∪ l.toFinset ∧
      ((∀ p ∈ l, 0 < (s.market.pair p).updatePeriodSeconds ∧ 0 < (s.market.pair p).updatePriceDeltaRatio) →
        ((flags.filter (fun b => b)).length : Int) + ((F ∪ v.updated.toFinset).filter (fun p => s.DueAt P p)).card =
          ((F ∪ v'.updated.toFinset).filter (fun p => s.DueAt P p)).card) := by
  intro l
  induction l with
  | nil =>
    intro v v' flags _ h hx
    simp only [updatePairsLoop, Except.ok.injEq, Prod.mk.injEq] at hx
    obtain ⟨rfl, rfl⟩ := hx
    exact ⟨h, by simp, fun _ => by simp⟩
  | cons p l ih =>
    intro v v' flags hl h hx
    simp only [updatePairsLoop, bind_ok, pure_ok, Prod.mk.injEq] at hx
    obtain ⟨⟨v1, b⟩, hb, ⟨v2, bs⟩, hx, rfl, rfl⟩ := hx
    have hp := hl p (by simp)
    obtain ⟨h1, e1, f1, f2⟩ := midst_step h hp hnow (hcfg p hp) (hprice p hp) hb
    obtain ⟨h2, e2, f3⟩ := ih (fun q hq => hl q (by simp [hq])) h1 hx
    refine ⟨h2, ?_, fun hpos => ?_⟩
    · rw [e2, e1, List.toFinset_cons, Finset.insert_union, Finset.union_insert]
    · have := f3 (fun q hq => hpos q (by simp [hq]))
      rw [← this, e1]
      obtain ⟨g1, g2⟩ := hpos p (by simp)
      by_cases hF : p ∈ F ∪ v.updated.toFinset
      · rw [f2 hF g1 g2, Finset.insert_eq_of_mem hF]
        simp
      · rw [f1 hF, Finset.filter_insert]
        by_cases hd : s.DueAt P p
        · rw [if_pos hd, Finset.card_insert_of_notMem (by simp [Finset.mem_filter]; intro x; exact absurd x (by simpa using hF))]
          simp only [hd, decide_true, List.filter_cons, if_true, List.length_cons]
          push_cast; ring
        · rw [if_neg hd]
          simp [hd]

/-! ## The calls -/

/-- Everything after some upkeep. -/
structure Kept' (s : State) (P : PairId → Dec) (F : Finset PairId) (t : State) : Prop where
  pool : Kept s P F t.pool
  rest : t = { s with pool := t.pool, oracle := t.oracle, rewardSupply := t.rewardSupply }
  reward : (∀ p ∈ F, 0 < (s.market.pair p).updatePeriodSeconds ∧ 0 < (s.market.pair p).updatePriceDeltaRatio) →
    t.rewardSupply = s.rewardSupply + ONE * (F.filter (fun p => s.DueAt P p)).card

theorem upkeep_kept {env : Env} {P : PairId → Dec} {s t : State} {l : List PairId} (h : Upkeep env P s l t) :
    Kept' s P l.toFinset t := by
  induction h with
  | start => exact ⟨⟨by simp, by simp, rfl, rfl, by simp, by simp, by simp⟩, rfl, by simp⟩
  | @call t t' l ids cl u o h hs hpr ih =>
    obtain ⟨s1, c, pool, flags, n, hk, hx, hn, he, ho⟩ := opUpdatePairs_ok (step_body hs)
    obtain ⟨-, hnow, hcfg, -, -, -, hs1⟩ := keeperLoad_ok hk
    have en : t.now = s.now := by rw [ih.rest]
    have ec : t.config = s.config := by rw [ih.rest]
    have hcfg' : ∀ p ∈ ids.dedup, c.cfg.pairs.get p = some (s.market.pair p) := by
      intro p hp
      obtain ⟨x, hx1, hx2⟩ := (VConfig.new_ok hcfg).2.2.1 p hp
      rw [hx2]
      unfold State.market
      rw [ec] at hx1
      simp only [hx1, Option.map_some, Option.getD_some]
    have hprice : ∀ p ∈ ids.dedup, c.orc.prices.get p = some (P p) := by
      intro p hp
      obtain ⟨x, hx1, -, g0, tm, ht, -⟩ := (keeperLoad_prices hk).2.1 p hp
      rw [hx1, ← hpr p (List.mem_dedup.mp hp)]
      unfold State.market
      rw [he]
      simp only [ht, Option.map_some, Option.getD_some]
    rw [en] at hx
    obtain ⟨m1, m2, m3⟩ := midst_loop (hnow.trans en) hcfg' hprice (fun p hp => hp) (midst_new ih.pool ids.dedup) hx
    have hk' := midst_kept ih.pool m1
    have e0 : l.toFinset ∪ (VPool.new t.pool s.now ids.dedup).updated.toFinset = l.toFinset := by simp [VPool.new]
    rw [e0] at m2 m3
    have hd : ids.dedup.toFinset = ids.toFinset := by ext; simp
    have hap : l.toFinset ∪ ids.toFinset = (l ++ ids).toFinset := by rw [List.toFinset_append]
    rw [hd, hap] at m2
    rw [m2] at hk' m3
    refine ⟨by rw [he]; exact hk', ?_, fun hpos => ?_⟩
    · rw [he, hs1, ih.rest]
    · have r1 := ih.reward (fun p hp => hpos p (by simp at hp ⊢; exact .inl hp))
      have r2 := m3 (fun p hp => hpos p (by simp at hp ⊢; exact .inr hp))
      rw [he]
      show t.rewardSupply + n = _
      rw [hn, ← r2, r1]
      unfold ofInt
      ring

theorem Kept.same {s : State} {P : PairId → Dec} {F : Finset PairId} {a b : Pool} (ha : Kept s P F a) (hb : Kept s P F b) :
    a.Equal b :=
  ⟨fun p => by rw [ha.pos, hb.pos], by rw [ha.base, hb.base], by rw [ha.vb, hb.vb], by rw [ha.unreal, hb.unreal],
    by rw [ha.skew, hb.skew], by rw [ha.pnl, hb.pnl]⟩

theorem upkeep_positive {env : Env} {P : PairId → Dec} {s t : State} {l : List PairId} (hr : Reach env s)
    (h : Upkeep env P s l t) : ∀ p ∈ l, 0 < (s.market.pair p).updatePriceDeltaRatio := by
  induction h with
  | start => simp
  | @call t t' l ids cl u o h hs hpr ih =>
    intro p hp
    rcases List.mem_append.mp hp with hp | hp
    · exact ih p hp
    · obtain ⟨s1, c, pool, flags, n, hk, hx, hn, he, ho⟩ := opUpdatePairs_ok (step_body hs)
      obtain ⟨-, hnow, hcfg, -, -, -, hs1⟩ := keeperLoad_ok hk
      have ec : t.config = s.config := by rw [(upkeep_kept h).rest]
      obtain ⟨x, hx1, hx2⟩ := (VConfig.new_ok hcfg).2.2.1 p (List.mem_dedup.mpr hp)
      rw [ec] at hx1
      have e : s.market.pair p = x.decompress := by
        unfold State.market
        simp only [hx1, Option.map_some, Option.getD_some]
      rw [e]; exact ((reach_inForce hr).pairs p x hx1).2.1.deltaRatio

/-! ## C70 -/

/-- **C70, the schedule decides nothing.** Whoever updates the pairs of a second, in how many calls, in which order and how often:
if the calls are made at the same prices and for the same pairs, the pool ends up the same; nothing but the pool, the oracle's prices
and the supply of reward tokens has changed; and (if the update periods in force are positive) the rewards are the same in total. -/
theorem c70_schedule {env : Env} {P : PairId → Dec} {s t t' : State} {l l' : List PairId} (hr : Reach env s)
    (h : Upkeep env P s l t) (h' : Upkeep env P s l' t') (hl : ∀ p, p ∈ l ↔ p ∈ l') :
    t.pool.Equal t'.pool ∧
    t = { s with pool := t.pool, oracle := t.oracle, rewardSupply := t.rewardSupply } ∧
    t' = { s with pool := t'.pool, oracle := t'.oracle, rewardSupply := t'.rewardSupply } ∧
    ((∀ p ∈ l, 0 < (s.market.pair p).updatePeriodSeconds) → t.rewardSupply = t'.rewardSupply) := by
  have e : l.toFinset = l'.toFinset := by ext p; simpa using hl p
  have k := upkeep_kept h
  have k' := upkeep_kept h'
  rw [← e] at k'
  refine ⟨k.pool.same k'.pool, k.rest, k'.rest, fun hpos => ?_⟩
  have hp : ∀ p ∈ l.toFinset, 0 < (s.market.pair p).updatePeriodSeconds ∧ 0 < (s.market.pair p).updatePriceDeltaRatio :=
    fun p hp => ⟨hpos p (by simpa using hp), upkeep_positive hr h p (by simpa using hp)⟩
  rw [k.reward hp, k'.reward hp]

/-- **C70, the rewards of a second.** However the calls are arranged, exactly one reward token is paid for each different pair that was
due when the second began (if the update periods in force are positive: otherwise C44's `c44_period_zero`). -/
theorem c70_rewards {env : Env} {P : PairId → Dec} {s t : State} {l : List PairId} (hr : Reach env s)
    (h : Upkeep env P s l t) (hpos : ∀ p ∈ l, 0 < (s.market.pair p).updatePeriodSeconds) :
    t.rewardSupply = s.rewardSupply + ONE * (l.dedup.filter (fun p => s.DueAt P p)).length := by
  rw [(upkeep_kept h).reward (fun p hp => ⟨hpos p (by simpa using hp), upkeep_positive hr h p (by simpa using hp)⟩)]
  have e : (l.toFinset.filter (fun p => s.DueAt P p)).card = (l.dedup.filter (fun p => s.DueAt P p)).length := by
    rw [← List.toFinset_card_of_nodup ((List.nodup_dedup l).filter _)]
    congr 1
    ext p; simp
  rw [e]

/-- **C70, updating again changes nothing.** Updating pairs that have been updated in the same second at the same prices leaves the
pool as it is. -/
theorem c70_again {env : Env} {P : PairId → Dec} {s t t' : State} {l ids : List PairId} {cl : Caller} {u : Option PriceUpdate} {o : Out}
    (hr : Reach env s) (h : Upkeep env P s l t) (hs : step env cl t (.updatePairs ids u) = Except.ok (t', o))
    (hp : ∀ p ∈ ids, t'.market.price p = P p ∧ p ∈ l) :
    t'.pool.Equal t.pool ∧ ((∀ p ∈ l, 0 < (s.market.pair p).updatePeriodSeconds) → o.reward = 0) := by
  have h' : Upkeep env P s (l ++ ids) t' := .call h hs (fun p hx => (hp p hx).1)
  obtain ⟨h1, -, -, h2⟩ := c70_schedule hr h' h (fun p => by
    rw [List.mem_append]; exact ⟨fun x => x.elim id (fun x => (hp p x).2), .inl⟩)
  refine ⟨h1, fun hpos => ?_⟩
  have e := h2 (fun p hx => (List.mem_append.mp hx).elim (hpos p) (fun x => hpos p (hp p x).2))
  have := (c44_reward hs).2
  omega

end Perp
