import Verif.Outcome

/-!
# C73: the order and the grouping of upkeep do not matter

Whoever brings pairs up to date in one second, in whatever order, in however many calls and however often: the ledger is in the
end the same, except for the number of reward tokens.
-/

namespace Perp

/-! ## Passing the same prices again -/

theorem keeperLoad_again {env : Env} {m : State} {u : Option PriceUpdate} (h : m.oracle.maybePush env u = Except.ok m.oracle)
    (ids : List PairId) : keeperLoad env m ids u = keeperLoad env m ids none := by
  unfold keeperLoad VOracle.new
  rw [h]
  rfl

theorem step_again {env : Env} {m : State} {u : Option PriceUpdate} (h : m.oracle.maybePush env u = Except.ok m.oracle)
    (cl : Caller) (op : Op) : step env cl m (op.given u) = step env cl m (op.given none) := by
  have hk := keeperLoad_again h
  cases op <;> try rfl
  case processRequest a i _ =>
    have : body env cl m (.processRequest a i u) = body env cl m (.processRequest a i none) := by
      simp only [body, processRequest, processBody, hk]
    unfold step
    simp only [Op.given, this]; rfl
  case swapDebt a r b _ =>
    have : body env cl m (.swapDebt a r b u) = body env cl m (.swapDebt a r b none) := by
      simp only [body, opSwapDebt, hk]
    unfold step
    simp only [Op.given, this]; rfl
  case liquidate a b _ =>
    have : body env cl m (.liquidate a b u) = body env cl m (.liquidate a b none) := by
      simp only [body, opLiquidate, hk]
    unfold step
    simp only [Op.given, this]; rfl
  case autoDeleverage a p _ =>
    have : body env cl m (.autoDeleverage a p u) = body env cl m (.autoDeleverage a p none) := by
      simp only [body, opAutoDeleverage, hk]
    unfold step
    simp only [Op.given, this]; rfl
  case updatePairs l _ =>
    have : body env cl m (.updatePairs l u) = body env cl m (.updatePairs l none) := by
      simp only [body, opUpdatePairs, hk]
    unfold step
    simp only [Op.given, this]; rfl

theorem upkeeps_pushed {env : Env} {ids : List PairId} {u : Option PriceUpdate} {s m : State} (h : Upkeeps env ids u s m) :
    s.oracle.maybePush env u = Except.ok m.oracle := by
  induction h with
  | first hl hs =>
    obtain ⟨s1, c, pool, flags, n, hk, -, -, rfl, -⟩ := opUpdatePairs_ok (step_body hs)
    obtain ⟨-, -, -, hpush, -⟩ := keeperLoad_ok hk
    exact hpush
  | more _ hl hs ih =>
    obtain ⟨s1, c, pool, flags, n, hk, -, -, rfl, -⟩ := opUpdatePairs_ok (step_body hs)
    obtain ⟨-, -, -, hpush, -⟩ := keeperLoad_ok hk
    simp only [Oracle.maybePush, pure_ok] at hpush
    rw [ih]; exact congrArg Except.ok hpush

/-- **C73, the prices.** After upkeep with a price update it makes no difference to any call whether it passes the update again. -/
theorem c73_same_news {env : Env} {cl : Caller} {ids : List PairId} {u : Option PriceUpdate} {s m : State}
    (h : Upkeeps env ids u s m) (op : Op) : step env cl m (op.given u) = step env cl m (op.given none) := by
  refine step_again ?_ cl op
  have hp := upkeeps_pushed h
  cases u with
  | none => rfl
  | some u =>
    obtain ⟨key, k1, k2, k3⟩ := Oracle.push_ok hp
    have hn := pushes_noop u.prices m.oracle.prices (by rw [k3]; exact pushes_cover u.prices _)
    change m.oracle.push env u = _
    simp only [Oracle.push, bind_ok, pure_ok, expect_ok, require_ok]
    refine ⟨key, by rw [k3]; exact k1, (), k2, ?_⟩
    rw [hn]

/-! ## Runs of upkeep -/

/-- **Specification.** Calls of `update_pairs` in one second, by anyone, one after the other, on the pairs `l` all together. The
first one passes the price update `u`; the others pass it again or pass none. -/
inductive UpkeepRun (env : Env) (u : Option PriceUpdate) (s : State) : List PairId → State → Prop
  | first {cl : Caller} {l : List PairId} {m : State} {o : Out} :
      step env cl s (.updatePairs l u) = Except.ok (m, o) → UpkeepRun env u s l m
  | more {cl : Caller} {l l' : List PairId} {m m' : State} {o : Out} {u' : Option PriceUpdate} : UpkeepRun env u s l m →
      u' = u ∨ u' = none → step env cl m (.updatePairs l' u') = Except.ok (m', o) → UpkeepRun env u s (l ++ l') m'

theorem UpkeepRun.upkeeps {env : Env} {u : Option PriceUpdate} {s m : State} {l : List PairId} (h : UpkeepRun env u s l m) :
    Upkeeps env l u s m := by
  have mono : ∀ {l L : List PairId} {m : State}, Upkeeps env l u s m → (∀ p ∈ l, p ∈ L) → Upkeeps env L u s m := by
    intro l L m h hs
    induction h with
    | first hl h => exact .first (fun p hp => hs p (hl p hp)) h
    | more _ hl h ih => exact .more ih (fun p hp => hs p (hl p hp)) h
  induction h with
  | first h => exact .first (fun _ h => h) h
  | @more cl l l' m m' o u' _ hu h ih =>
    refine .more (cl := cl) (o := o) (mono ih (fun p hp => List.mem_append_left _ hp)) (fun p hp => List.mem_append_right _ hp) ?_
    rcases hu with rfl | rfl
    · rw [← h]; exact (c73_same_news ih (.updatePairs l' none)).symm
    · exact h

/-- A round of upkeep is one of the pairs that were up to date, too. -/
theorem Refreshed.widen {env : Env} {s m b : State} {u : Option PriceUpdate} {l l' L : List PairId} (hrm : Reach env m)
    (hm : s.Upkept m u l) (hb : m.Refreshed b none l') (hn' : l'.Nodup) (hn : L.Nodup) (hs : ∀ p ∈ l', p ∈ L)
    (hL : ∀ p ∈ L, p ∈ l ∨ p ∈ l') : m.Refreshed b none L := by
  obtain ⟨dm, hdm, -⟩ := hm.pairs
  obtain ⟨db, hdb, hub⟩ := hb.pairs
  have em := hm.same
  have nm : m.now = s.now := by have := congrArg State.now em; exact this
  have mc : m.config = s.config := by have := congrArg State.config em; exact this
  have nb : b.now = m.now := by rw [hb.same]
  have hprices : b.oracle.prices = m.oracle.prices := hb.prices
  have hprice : b.market.price = m.market.price := by funext p; simp only [State.market, hprices]
  refine ⟨hb.same, hb.prices, ⟨fun p => if p ∈ l' then db p else 0, fun p hp => ?_, ?_⟩, fun p hp => ?_, hb.sizes,
    fun p hp => hb.rest p (fun h => hp (hs p h)), hb.tokens, hb.snaps⟩
  · by_cases hi : p ∈ l'
    · simp only [if_pos hi]; exact hdb p hi
    · simp only [if_neg hi]
      have hd := hdm p ((hL p hp).resolve_right hi)
      have hk := hb.rest p hi
      have hst := hd.stamped
      have hpr := hd.price
      change (m.pool.position m.now p).lastUpdate = m.now ∧ (m.pool.position m.now p).lastPrice = m.market.price p at hst
      change 0 < m.market.price p at hpr
      refine ⟨by rw [hprice]; exact hpr, ?_, fun _ => ?_, fun h => absurd hst.1 h, ?_, ?_⟩
      · rw [nb, hk, hprice]; exact hst
      · rw [nb, hk]; exact ⟨rfl, rfl, rfl, rfl⟩
      · rw [mc]; exact hd.pair
      · rw [nb, hk]
        simp only [sub_self, mul_zero, add_zero, abs_zero]
        have ho := reach_oi_nonneg hrm m.now p
        have := ho.1
        have := ho.2
        omega
  · rw [hub, sum_part hn hn' hs]
    congr 1
    have e1 : l'.map (fun p => if p ∈ l' then db p else 0) = l'.map db := List.map_congr_left (fun p hp => if_pos hp)
    have e2 : L.map (fun p => if p ∈ l' then 0 else if p ∈ l' then db p else 0) = L.map (fun _ => (0 : Int)) :=
      List.map_congr_left (fun p _ => by split <;> rfl)
    rw [e1, e2]; simp
  · by_cases hi : p ∈ l'
    · exact hb.marked p hi
    · have := hm.marked p ((hL p hp).resolve_right hi)
      change (m.pool.position s.now p).MarkedAt (m.market.price p) at this
      rw [hb.rest p hi, hprice, nm]; exact this

theorem Refreshed.perm {s a : State} {u : Option PriceUpdate} {l l' : List PairId} (hp : l.Perm l') (h : s.Refreshed a u l) :
    s.Refreshed a u l' := by
  obtain ⟨d, h1, h2⟩ := h.pairs
  exact ⟨h.same, h.prices, ⟨d, fun p hq => h1 p (hp.mem_iff.mpr hq), by rw [h2, (hp.map d).sum_eq]⟩,
    fun p hq => h.marked p (hp.mem_iff.mpr hq), h.sizes, fun p hq => h.rest p (fun hh => hq (hp.mem_iff.mp hh)), h.tokens, h.snaps⟩

/-- What a run of upkeep leads to. -/
structure Brought (s m : State) (u : Option PriceUpdate) (l : List PairId) : Prop where
  upkept : s.Upkept m u l.dedup
  stored : ∀ q ∈ l, (m.pool.positions.get q).isSome

theorem round_stored {env : Env} {cl : Caller} {s m : State} {l : List PairId} {u : Option PriceUpdate} {o : Out}
    (hs : step env cl s (.updatePairs l u) = Except.ok (m, o)) :
    (∀ q ∈ l, (m.pool.positions.get q).isSome) ∧ ∀ q, (s.pool.positions.get q).isSome → (m.pool.positions.get q).isSome := by
  obtain ⟨s1, c, pool, flags, n, hk, hx, -, rfl, -⟩ := opUpdatePairs_ok (step_body hs)
  have hf := updatePairsLoop_fold _ hx
  obtain ⟨f1, f2, f3, -⟩ := fold_kept _ hf
  obtain ⟨g1, g2⟩ := fold_rest _ hf
  obtain ⟨d, d1, -⟩ := fold_unreal _ (List.nodup_dedup l) hf
  have h1 : ∀ q ∈ l, (pool.realPositions.get q).isSome := by
    intro q hq
    have hq := List.mem_dedup.mpr hq
    obtain ⟨pp, pp', price, -, y, -⟩ := d1 q hq
    rw [VPool.realPositions_get, if_pos ((g2 q).mpr (Or.inr hq)), y]; rfl
  refine ⟨h1, fun q hq => ?_⟩
  by_cases hi : q ∈ l
  · exact h1 q hi
  · change (pool.realPositions.get q).isSome
    rw [VPool.realPositions_get, if_neg, f2]
    · exact hq
    · rw [g2]
      rintro (h | h)
      · cases h
      · exact hi (List.mem_dedup.mp h)

theorem UpkeepRun.brought {env : Env} {u : Option PriceUpdate} {s m : State} {l : List PairId} (hr : Reach env s)
    (h : UpkeepRun env u s l m) : Brought s m u l := by
  induction h with
  | first h => exact ⟨(updatePairs_upkept hr h).1, (round_stored h).1⟩
  | @more cl l l' m m' o u' h0 hu h ih =>
    have hrm := (upkeeps_reach hr h0.upkeeps).1
    replace h : step env cl m (.updatePairs l' none) = Except.ok (m', o) := by
      rcases hu with rfl | rfl
      · rw [← h]; exact (c73_same_news h0.upkeeps (.updatePairs l' none)).symm
      · exact h
    have hu := (updatePairs_upkept hrm h).1
    have hw := Refreshed.widen (L := (l ++ l').dedup) hrm ih.upkept hu (List.nodup_dedup l') (List.nodup_dedup _)
      (fun p hp => List.mem_dedup.mpr (List.mem_append_right _ (List.mem_dedup.mp hp)))
      (fun p hp => by
        rw [List.mem_dedup, List.mem_append] at hp
        rw [List.mem_dedup, List.mem_dedup]; exact hp)
    have ht := ih.upkept.trans hr (List.nodup_dedup (l ++ l')) (List.nodup_dedup l)
      (fun p hp => List.mem_dedup.mpr (List.mem_append_left _ (List.mem_dedup.mp hp))) hw
    refine ⟨ht, fun q hq => ?_⟩
    rcases List.mem_append.mp hq with hq | hq
    · exact (round_stored h).2 q (ih.stored q hq)
    · exact (round_stored h).1 q hq

/-- **C73.** The order and the grouping of upkeep do not matter: two runs of upkeep of the same pairs, in the same second and with
the same prices, leave the same ledger behind, except for the number of reward tokens. -/
theorem c73_confluent {env : Env} {u : Option PriceUpdate} {s m m' : State} {l l' : List PairId} (hr : Reach env s)
    (h : UpkeepRun env u s l m) (h' : UpkeepRun env u s l' m') (hl : ∀ p, p ∈ l ↔ p ∈ l') :
    m.Same (m'.rewardsAs m.rewardSupply) := by
  have b := h.brought hr
  have b' := h'.brought hr
  have f := upkeeps_frame hr h.upkeeps
  have f' := upkeeps_frame hr h'.upkeeps
  have hn : (m.rewardsAs s.rewardSupply).now = s.now := by rw [b.upkept.same]
  have hn' : (m'.rewardsAs s.rewardSupply).now = s.now := by rw [b'.upkept.same]
  have hw : s.Refreshed (m'.rewardsAs s.rewardSupply) u l.dedup := by
    refine Refreshed.perm ?_ b'.upkept
    refine (List.perm_ext_iff_of_nodup (List.nodup_dedup _) (List.nodup_dedup _)).mpr (fun p => ?_)
    rw [List.mem_dedup, List.mem_dedup]; exact (hl p).symm
  have ha := Refreshed.unique b.upkept hw
  obtain ⟨t1, t2⟩ := Refreshed.totals b.upkept hw
  have hpos : ∀ p, m.pool.position s.now p = m'.pool.position s.now p := by
    intro p
    have := ha.positions p
    rw [hn, hn'] at this
    exact this
  have hp : m.pool.Same m'.pool := by
    refine ⟨fun q => ?_, f.base.trans f'.base.symm, ?_, t1, ha.skew, t2⟩
    · by_cases hq : q ∈ l
      · obtain ⟨x, hx⟩ := Option.isSome_iff_exists.mp (b.stored q hq)
        obtain ⟨y, hy⟩ := Option.isSome_iff_exists.mp (b'.stored q ((hl q).mp hq))
        have := hpos q
        unfold Pool.position at this
        rw [hx, hy] at this
        rw [hx, hy]; exact congrArg some this
      · rw [f.kept q hq, f'.kept q (fun h => hq ((hl q).mpr h))]
    · have k1 := b.upkept.tokens.2
      have k2 := b'.upkept.tokens.2
      exact k1.trans k2.symm
  have ho : m.oracle = m'.oracle := by
    have e1 : m.oracle.prices = m'.oracle.prices := f.prices.trans f'.prices.symm
    have e2 : m.oracle.keys = m'.oracle.keys := f.keys.trans f'.keys.symm
    cases hx : m.oracle
    cases hy : m'.oracle
    rw [hx, hy] at e1 e2
    simp only at e1 e2
    rw [e1, e2]
  have key : m'.rewardsAs m.rewardSupply = { m with pool := m'.pool } := by
    rw [f'.same, f.same, ← ho]; rfl
  rw [key]
  refine ⟨rfl, rfl, rfl, rfl, rfl, ⟨fun _ => rfl, fun _ => rfl⟩, ⟨rfl, fun _ => rfl, fun _ => rfl⟩, fun k => ?_, hp,
    fun _ => rfl, ⟨fun _ => rfl, fun _ => rfl, fun _ => rfl⟩, rfl, rfl, fun _ => rfl, rfl, rfl, rfl, rfl⟩
  change Option.Rel Account.Same (m.accounts.get k) (m.accounts.get k)
  cases m.accounts.get k with
  | none => exact Option.Rel.none
  | some a => exact Option.Rel.some (Account.Same.refl a)

end Perp
