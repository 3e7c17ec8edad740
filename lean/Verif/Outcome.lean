import Verif.Upfront
import Verif.OrderOps

/-!
# C72: bringing the books up to date first changes no outcome

An order, a liquidation or a deleveraging that goes through leaves the same ledger behind, and pays the same, whether or not the
pairs that it brings up to date were brought up to date first in the same second.
-/

namespace Perp

/-! ## What upkeep leaves alone -/

theorem fold_rest {c : Ctx} : ∀ (l : List PairId) {v v' : VPool},
    l.foldlM (fun pool p => do let r ← updatePair c pool p; pure r.1) v = Except.ok v' →
    v'.base = v.base ∧ (∀ q, q ∈ v'.updated ↔ q ∈ v.updated ∨ q ∈ l) := by
  intro l
  induction l with
  | nil =>
    intro v v' h
    simp only [List.foldlM_nil, pure_ok] at h
    subst h; exact ⟨rfl, by simp⟩
  | cons p l ih =>
    intro v v' h
    simp only [List.foldlM_cons, bind_ok, pure_ok] at h
    obtain ⟨v1, ⟨⟨v2, b⟩, h1, rfl⟩, h2⟩ := h
    obtain ⟨i1, i2⟩ := ih (by simpa only [bind_ok, pure_ok] using h2)
    rw [updatePair_store, bind_ok] at h1
    obtain ⟨r, hr, h1⟩ := h1
    have hkey := markSlot_key hr
    have hs := (VPool.store_ok h1).2.1
    simp only [VPool.rest, restAdd, Prod.mk.injEq] at hs
    obtain ⟨-, s2, s3, -⟩ := hs
    refine ⟨i1.trans s3, fun q => ?_⟩
    rw [i2, ← List.mem_toFinset, s2, hkey, Finset.mem_insert, List.mem_toFinset, List.mem_cons]
    tauto

/-- What rounds of upkeep leave alone, and that they are one round. -/
structure Rounds (s m : State) (u : Option PriceUpdate) (ids : List PairId) : Prop where
  same : m = { s with oracle := m.oracle, pool := m.pool, rewardSupply := m.rewardSupply }
  prices : m.oracle.prices = s.pricesWith u
  keys : m.oracle.keys = s.oracle.keys
  kept : ∀ q, q ∉ ids → m.pool.positions.get q = s.pool.positions.get q
  base : m.pool.baseTokens = s.pool.baseTokens
  vb : m.pool.vb = s.pool.vb
  once : ∀ (b : State) (L : List PairId), L.Nodup → (∀ p ∈ ids, p ∈ L) → m.Refreshed b none L →
    s.Refreshed (b.rewardsAs s.rewardSupply) u L

theorem round_frame {env : Env} {cl : Caller} {s m : State} {l : List PairId} {u : Option PriceUpdate} {o : Out}
    (hr : Reach env s) (hs : step env cl s (.updatePairs l u) = Except.ok (m, o)) : Rounds s m u l := by
  have hup := (updatePairs_upkept hr hs).1
  obtain ⟨s1, c, pool, flags, n, hk, hx, -, rfl, -⟩ := opUpdatePairs_ok (step_body hs)
  obtain ⟨-, -, -, hpush, -, -, e⟩ := keeperLoad_ok hk
  have hf := updatePairsLoop_fold _ hx
  obtain ⟨f1, f2, f3, -⟩ := fold_kept _ hf
  obtain ⟨g1, g2⟩ := fold_rest _ hf
  obtain ⟨p1, p2⟩ := maybePush_prices hpush
  refine ⟨?_, p1, p2, fun q hq => ?_, ?_, hup.tokens.2, fun b L hn hL hb => ?_⟩
  · conv_lhs => rw [e]
  · change pool.realPositions.get q = _
    rw [VPool.realPositions_get, if_neg, f2]
    · rfl
    · rw [g2]
      rintro (h | h)
      · cases h
      · exact hq (List.mem_dedup.mp h)
  · change pool.comp.baseTokens = _
    rw [f2]; rfl
  · exact hup.trans hr hn (List.nodup_dedup l) (fun p hp => hL p (List.mem_dedup.mp hp)) hb

theorem upkeeps_frame {env : Env} {ids : List PairId} {u : Option PriceUpdate} {s m : State} (hr : Reach env s)
    (h : Upkeeps env ids u s m) : Rounds s m u ids := by
  induction h with
  | first hl hs =>
    have h := round_frame hr hs
    exact ⟨h.same, h.prices, h.keys, fun q hq => h.kept q (fun hh => hq (hl q hh)), h.base, h.vb,
      fun b L hn hL hb => h.once b L hn (fun p hp => hL p (hl p hp)) hb⟩
  | more h0 hl hs ih =>
    obtain ⟨i1, -⟩ := upkeeps_reach hr h0
    have h := round_frame i1 hs
    refine ⟨?_, h.prices.trans ih.prices, h.keys.trans ih.keys, fun q hq => ?_, h.base.trans ih.base,
      h.vb.trans ih.vb, fun b L hn hL hb => ?_⟩
    · conv_lhs => rw [h.same, ih.same]
    · rw [h.kept q (fun hh => hq (hl q hh)), ih.kept q hq]
    · have h1 := h.once b L hn (fun p hp => hL p (hl p hp)) hb
      have h2 := ih.once _ L hn hL h1
      exact h2

/-! ## Bringing up to date leads to the same -/

theorem Refreshed.totals {s a b : State} {u : Option PriceUpdate} {ids : List PairId} (ha : s.Refreshed a u ids)
    (hb : s.Refreshed b u ids) : a.pool.unrealizedFunding = b.pool.unrealizedFunding ∧ a.pool.pnlSnap = b.pool.pnlSnap := by
  have na : a.now = s.now := by rw [ha.same]
  have nb : b.now = s.now := by rw [hb.same]
  obtain ⟨da, hda, hua⟩ := ha.pairs
  obtain ⟨db, hdb, hub⟩ := hb.pairs
  have hpos := (Refreshed.unique ha hb).positions
  rw [na, nb] at hpos
  refine ⟨?_, ?_⟩
  · rw [hua, hub]
    congr 2
    exact List.map_congr_left (fun p hp => (Refreshed.pair_unique ha hb hp hp (hda p hp) (hdb p hp)).2)
  · rw [ha.snaps.2, hb.snaps.2]
    exact AMap.sum_padded (z := PoolPosition.dflt s.now) rfl hpos

theorem Ctx.Same.refl (c : Ctx) : c.Same c := ⟨rfl, rfl, ⟨rfl, fun _ => rfl, fun _ => rfl⟩, fun _ => rfl, fun _ => rfl⟩

theorem VAccount.Same.refl (v : VAccount) : v.Same v :=
  ⟨rfl, Account.Same.refl _, fun _ => rfl, fun _ => rfl, rfl, rfl, rfl, rfl, rfl, rfl, fun _ => rfl, rfl, rfl, rfl, rfl, rfl⟩

section
variable {env : Env} {s m s1 m1 : State} {u : Option PriceUpdate} {ids l : List PairId} {c c' : Ctx} {pool pool' : VPool}

/-- The two calls see the same configuration and prices. -/
theorem Rounds.ctx {own : List PairId} (h : Rounds s m u own) (hk : keeperLoad env s ids u = Except.ok (s1, c, pool))
    (hk' : keeperLoad env m ids none = Except.ok (m1, c', pool')) : c' = c ∧ s1.oracle = m.oracle ∧ m1.oracle = m.oracle := by
  obtain ⟨a1, a2, a3, a4, ⟨f, a5, a6⟩, -, -⟩ := keeperLoad_ok hk
  obtain ⟨b1, b2, b3, b4, ⟨f', b5, b6⟩, -, -⟩ := keeperLoad_ok hk'
  have mc : m.config = s.config := by rw [h.same]
  have mn : m.now = s.now := by rw [h.same]
  obtain ⟨p1, p2⟩ := maybePush_prices a4
  have ho : s1.oracle = m.oracle := by
    have e1 : s1.oracle.prices = m.oracle.prices := p1.trans h.prices.symm
    have e2 : s1.oracle.keys = m.oracle.keys := p2.trans h.keys.symm
    cases hx : s1.oracle
    cases hy : m.oracle
    rw [hx, hy] at e1 e2
    simp only at e1 e2
    rw [e1, e2]
  have hm : m1.oracle = m.oracle := by
    simp only [Oracle.maybePush, pure_ok] at b4
    exact b4.symm
  rw [mc] at b3
  have hcfg : c'.cfg = c.cfg := by rw [b3] at a3; exact Except.ok.inj a3
  rw [hcfg, a5] at b5
  cases b5
  have horc : c'.orc = c.orc := by
    simp only [VOracle.new, Oracle.maybePush, bind_ok, pure_ok, Prod.mk.injEq] at a6 b6
    obtain ⟨o, x1, raw, x2, pr, x3, x4, x5⟩ := a6
    obtain ⟨o', y1, raw', y2, pr', y3, y4, y5⟩ := b6
    subst x4
    rw [← y1, ← ho, hcfg, x2] at y2
    cases y2
    rw [mn, hcfg, x3] at y3
    cases y3
    rw [← x5, ← y5, hcfg]
  refine ⟨?_, ho, hm⟩
  cases c
  cases c'
  simp only at a1 a2 b1 b2 hcfg horc
  rw [a1, a2, b1, b2, mn, hcfg, horc]

/-- After bringing the pairs up to date the two calls have the same pool before them. -/
theorem Rounds.brought {own : List PairId} (hr : Reach env s) (hrm : Reach env m) (h : Rounds s m u own)
    (hk : keeperLoad env s ids u = Except.ok (s1, c, pool)) (hk' : keeperLoad env m ids none = Except.ok (m1, c', pool'))
    (hl : ∀ p ∈ l, p ∈ ids) (hn : l.Nodup) (hown : ∀ p ∈ own, p ∈ l) {v v' : VPool}
    (hv : l.foldlM (fun pool p => do let r ← updatePair c pool p; pure r.1) pool = Except.ok v)
    (hv' : l.foldlM (fun pool p => do let r ← updatePair c' pool p; pure r.1) pool' = Except.ok v') : v.Same v' := by
  have mn : m.now = s.now := by rw [h.same]
  obtain ⟨r1, coh⟩ := midway_refreshed hr hk hl hn hv
  obtain ⟨r2, coh'⟩ := midway_refreshed hrm hk' hl hn hv'
  have r3 := h.once _ l hn hown r2
  have halike := Refreshed.unique r1 r3
  obtain ⟨t1, t2⟩ := Refreshed.totals r1 r3
  obtain ⟨-, -, -, -, -, rfl, e⟩ := keeperLoad_ok hk
  obtain ⟨-, -, -, -, -, rfl, e'⟩ := keeperLoad_ok hk'
  obtain ⟨f1, f2, f3, -⟩ := fold_kept l hv
  obtain ⟨f1', f2', f3', -⟩ := fold_kept l hv'
  obtain ⟨g1, g2⟩ := fold_rest l hv
  obtain ⟨g1', g2'⟩ := fold_rest l hv'
  have n1 : (s1.midway v).now = s.now := by rw [r1.same]
  have n2 : ((m1.midway v').rewardsAs s.rewardSupply).now = s.now := by rw [r3.same]
  have hpos : ∀ p, v.realize.position s.now p = v'.realize.position s.now p := by
    intro p
    have := halike.positions p
    rw [n1, n2] at this
    exact this
  obtain ⟨d, d1, -⟩ := fold_unreal l hn hv
  obtain ⟨d', d1', -⟩ := fold_unreal l hn hv'
  have hup : ∀ q, q ∈ v.updated ↔ q ∈ l := by
    intro q; rw [g2]; constructor
    · rintro (x | x)
      · cases x
      · exact x
    · exact Or.inr
  have hup' : ∀ q, q ∈ v'.updated ↔ q ∈ l := by
    intro q; rw [g2']; constructor
    · rintro (x | x)
      · cases x
      · exact x
    · exact Or.inr
  refine ⟨?_, fun q hq => ?_, fun q => ?_, ?_, ?_, ?_, t1, halike.skew, t2⟩
  · rw [f2, f2']; exact h.base.symm
  · have hq' : q ∉ l := by
      intro hh
      obtain ⟨pp, pp', price, -, y, -⟩ := d1 q hh
      exact hq ⟨(hup q).mpr hh, by rw [y]; rfl⟩
    rw [f2, f2']
    exact (h.kept q (fun hh => hq' (hown q hh))).symm
  · by_cases hq : q ∈ l
    · obtain ⟨pp, pp', price, -, y, -⟩ := d1 q hq
      obtain ⟨qq, qq', price', -, z, -⟩ := d1' q hq
      have k1 := coh q _ y
      have k2 := coh' q _ z
      rw [mn] at k2
      have k3 := hpos q
      change (v.realPositions.get q).getD _ = (v'.realPositions.get q).getD _ at k3
      rw [y, z, ← k1, ← k2, k3]
    · rw [f1 q hq, f1' q hq]
      simp only [VPool.new, AMap.get_build, Pool.position, mn, h.kept q (fun hh => hq (hown q hh))]
  · ext q
    rw [List.mem_toFinset, List.mem_toFinset, hup, hup']
  · rw [g1, g1']; exact h.base.symm
  · have := halike.same
    have k1 := r1.tokens.2
    have k2 := r3.tokens.2
    change v.vb = _ at k1
    change v'.vb = _ at k2
    rw [k1, k2]

end

/-! ## The outcome -/

/-- Storing the results of the two calls leads to the same ledger. -/
theorem Rounds.stored {s m s1 m1 : State} {u : Option PriceUpdate} {own : List PairId} (h : Rounds s m u own)
    (e1 : s1 = { s with oracle := s1.oracle }) (e2 : m1 = { m with oracle := m1.oracle }) (h1 : s1.oracle = m.oracle)
    (h2 : m1.oracle = m.oracle) {w w' : W} (hw : w.Same w') {acc acc' : Account} {refs refs' : AMap RefId ReferralData}
    (hz : Realizes s w.acc acc refs) (hz' : Realizes m w'.acc acc' refs') (x y : Dec) :
    ({ s1.realized w acc refs with rewardSupply := x } : State).Same
      (({ m1.realized w' acc' refs' with rewardSupply := y } : State).rewardsAs x) := by
  have hm := h.same
  have hacc := hw.acc.realize.both _ _ hz.1 hz'.1
  have hrf : m.referrals = s.referrals := by rw [hm]
  have hrefs := (hw.acc.realizeReferral (AMap.Same.refl s.referrals)).both _ _ hz.2 (by rw [← hrf]; exact hz'.2)
  rw [e1, e2, h1, h2]
  have key : ({ ({ m with oracle := m.oracle } : State).realized w' acc' refs' with rewardSupply := y } : State).rewardsAs x =
      { s with oracle := m.oracle, pool := w'.pool.realize, accounts := s.accounts.set w'.acc.addr acc', referrals := refs',
               dist := w'.dist, rewardSupply := x } := by
    rw [hm]; rfl
  rw [key]
  refine ⟨rfl, rfl, rfl, rfl, rfl, ⟨fun _ => rfl, fun _ => rfl⟩, ⟨rfl, fun _ => rfl, fun _ => rfl⟩, ?_, hw.pool.realize, hrefs,
    ?_, hw.dist, rfl, fun _ => rfl, rfl, rfl, rfl, rfl⟩
  · change (s.accounts.set w.acc.addr acc).Rel Account.Same (s.accounts.set w'.acc.addr acc')
    rw [hw.acc.addr]
    refine AMap.Rel.set (fun k => ?_) _ hacc
    cases s.accounts.get k with
    | none => exact Option.Rel.none
    | some a => exact Option.Rel.some (Account.Same.refl a)
  · exact ⟨fun _ => rfl, fun _ => rfl, fun _ => rfl⟩

theorem Agree.of_ok {α β : Type} {r : α → β → Prop} {x : R α} {y : R β} {a : α} {b : β} (h1 : x = Except.ok a)
    (h2 : y = Except.ok b) (h : r a b) : Agree r x y := by
  rw [h1, h2]; exact Agree.pure h

theorem one_fold {c : Ctx} {pool v : VPool} {p : PairId} {b : Bool} (h : updatePair c pool p = Except.ok (v, b)) :
    [p].foldlM (fun pool p => do let r ← updatePair c pool p; pure r.1) pool = Except.ok v := by
  simp only [List.foldlM_cons, List.foldlM_nil, bind_ok, pure_ok]
  exact ⟨v, ⟨(v, b), h, rfl⟩, rfl⟩

section
variable {env : Env} {s m s' m' : State} {u : Option PriceUpdate} {own : List PairId} {o o' : Out}

theorem Rounds.load (h : Rounds s m u own) (a : Addr) : m.load a = s.load a := by
  unfold State.load; rw [h.same]

theorem Rounds.liquidate (hr : Reach env s) (hrm : Reach env m) (h : Rounds s m u own) {a : Addr} {b : Bucket}
    (hown : ∀ acc, s.accounts.get a = some acc → ∀ p ∈ own, p ∈ acc.positions.keys)
    (h1 : opLiquidate env s a b u = Except.ok (s', o)) (h2 : opLiquidate env m a b none = Except.ok (m', o')) :
    s'.Same (m'.rewardsAs s'.rewardSupply) ∧ o.Same o' ∧ m'.rewardSupply - m.rewardSupply = s'.rewardSupply - s.rewardSupply := by
  obtain ⟨v, s1, c, w, tk, e, acc, refs, -, hv, hk, hx, hz, -, rfl, rfl⟩ := opLiquidate_ok h1
  obtain ⟨v', m1, c', w', tk', e', acc', refs', -, hv', hk', hx', hz', -, rfl, rfl⟩ := opLiquidate_ok h2
  rw [h.load, hv] at hv'
  cases hv'
  obtain ⟨rfl, o1, o2⟩ := h.ctx hk hk'
  have hd : m.dist = s.dist := by rw [h.same]
  have hpos : ∀ p ∈ own, p ∈ v.positions.keys := by
    obtain ⟨ac, rd, ha, -, hve⟩ := load_ok hv
    rw [hve]; exact hown ac ha
  have y := hx
  have y' := hx'
  simp only [Perp.liquidate, bind_ok] at y y'
  obtain ⟨-, -, ⟨w1, lp⟩, y, -⟩ := y
  obtain ⟨-, -, ⟨w1', lp'⟩, y', -⟩ := y'
  obtain ⟨p1, -, -, y, -⟩ := liquidatePositions_ok y
  obtain ⟨p1', -, -, y', -⟩ := liquidatePositions_ok y'
  have hb := h.brought hr hrm hk hk' (l := v.positions.keys) (fun _ hp => hp) (AMap.keys_nodup _) hpos y y'
  obtain ⟨q1, q2, q3⟩ := (liquidate_brought (Ctx.Same.refl c') (VAccount.Same.refl v) hd.symm b
    (Agree.of_ok y y' hb)).both _ _ hx hx'
  obtain ⟨-, -, -, -, -, -, e1⟩ := keeperLoad_ok hk
  obtain ⟨-, -, -, -, -, -, e2⟩ := keeperLoad_ok hk'
  refine ⟨h.stored e1 e2 o1 o2 q1 hz hz' _ _, { Out.Same.refl _ with buckets := q2, ev := .liquidation q3 }, ?_⟩
  simp only [add_sub_cancel_left]

theorem Rounds.adl (hr : Reach env s) (hrm : Reach env m) (h : Rounds s m u own) {a : Addr} {p : PairId}
    (hown : ∀ q ∈ own, q = p)
    (h1 : opAutoDeleverage env s a p u = Except.ok (s', o)) (h2 : opAutoDeleverage env m a p none = Except.ok (m', o')) :
    s'.Same (m'.rewardsAs s'.rewardSupply) ∧ o.Same o' ∧ m'.rewardSupply - m.rewardSupply = s'.rewardSupply - s.rewardSupply := by
  obtain ⟨v, s1, c, w, e, acc, refs, hv, hk, hx, hz, -, rfl, rfl⟩ := opAutoDeleverage_ok h1
  obtain ⟨v', m1, c', w', e', acc', refs', hv', hk', hx', hz', -, rfl, rfl⟩ := opAutoDeleverage_ok h2
  rw [h.load, hv] at hv'
  cases hv'
  obtain ⟨rfl, o1, o2⟩ := h.ctx hk hk'
  have hd : m.dist = s.dist := by rw [h.same]
  have y := hx
  have y' := hx'
  simp only [autoDeleverage, bind_ok] at y y'
  obtain ⟨⟨u1, b1⟩, y, -⟩ := y
  obtain ⟨⟨u1', b1'⟩, y', -⟩ := y'
  have hb := h.brought hr hrm hk hk' (l := [p]) (fun q hq => by rw [List.mem_singleton.mp hq]; exact mem_insertId.mpr (Or.inl rfl))
    (List.nodup_singleton _) (fun q hq => List.mem_singleton.mpr (hown q hq)) (one_fold y) (one_fold y')
  obtain ⟨q1, q2⟩ := (autoDeleverage_brought (Ctx.Same.refl c') (VAccount.Same.refl v) hd.symm p
    (Agree.of_ok y y' hb)).both _ _ hx hx'
  obtain ⟨-, -, -, -, -, -, e1⟩ := keeperLoad_ok hk
  obtain ⟨-, -, -, -, -, -, e2⟩ := keeperLoad_ok hk'
  simp only at q2
  subst q2
  refine ⟨h.stored e1 e2 o1 o2 q1 hz hz' _ _, Out.Same.refl _, ?_⟩
  simp only [add_sub_cancel_left]

theorem Rounds.order (hr : Reach env s) (hrm : Reach env m) (h : Rounds s m u own) {a : Addr} {i : Nat}
    (hown : ∀ (acc : Account) (kr : KeeperRequest), s.accounts.get a = some acc → acc.requests[i]? = some kr →
      ∀ q, kr.request = .marginOrder q → ∀ p ∈ own, p = q.pair) {e : MarginOrderEv} (ht : o.ev = .order e)
    (h1 : processRequest env s a i u = Except.ok (s', o)) (h2 : processRequest env m a i none = Except.ok (m', o')) :
    s'.Same (m'.rewardsAs s'.rewardSupply) ∧ o.Same o' ∧ m'.rewardSupply - m.rewardSupply = s'.rewardSupply - s.rewardSupply := by
  obtain ⟨v, v1, r, ex, cfg, hv, hp, hcfg, -, -, hcase⟩ := processRequest_ok h1
  obtain ⟨v', v1', r', ex', cfg', hv', hp', hcfg', -, -, hcase'⟩ := processRequest_ok h2
  have mn : m.now = s.now := by rw [h.same]
  have mc : m.config = s.config := by rw [h.same]
  rw [h.load, hv] at hv'
  cases hv'
  rw [mn, hp] at hp'
  cases hp'
  rw [mc, hcfg] at hcfg'
  cases hcfg'
  rcases hcase with ⟨-, acc, refs, -, -, ho⟩ | ⟨he, s1, c, w, out, acc, refs, hk, hx, hz, rfl, rfl⟩
  · rw [ho] at ht; cases ht
  rcases hcase' with ⟨he', -⟩ | ⟨-, m1, c', w', out', acc', refs', hk', hx', hz', rfl, rfl⟩
  · rw [he] at he'; cases he'
  obtain ⟨rfl, o1, o2⟩ := h.ctx hk hk'
  have hd : m.dist = s.dist := by rw [h.same]
  cases r with
  | removeCollateral q =>
    simp only [executeRequest, bind_ok, pure_ok, Prod.mk.injEq] at hx
    obtain ⟨x, -, -, rfl⟩ := hx
    cases ht
  | marginOrder q =>
    have hq : ∀ p ∈ own, p = q.pair := by
      obtain ⟨kr, st, -, hkr, -, -, -, -, hrk, -⟩ := processRequest_virtual_ok hp
      obtain ⟨acc0, ha0, hreq⟩ := keeperRequest_load hv hkr
      exact hown acc0 kr ha0 hreq q hrk.symm
    simp only [executeRequest, bind_ok, pure_ok, Prod.mk.injEq] at hx hx'
    obtain ⟨⟨x, ev⟩, hx, rfl, rfl⟩ := hx
    obtain ⟨⟨x', ev'⟩, hx', rfl, rfl⟩ := hx'
    have y := hx
    have y' := hx'
    simp only [marginOrder, bind_ok] at y y'
    obtain ⟨-, -, -, -, ⟨u1, b1⟩, y, -⟩ := y
    obtain ⟨-, -, -, -, ⟨u1', b1'⟩, y', -⟩ := y'
    have hb := h.brought hr hrm hk hk' (l := [q.pair])
      (fun p hp => by rw [List.mem_singleton.mp hp]; exact mem_insertId.mpr (Or.inl rfl))
      (List.nodup_singleton _) (fun p hp => List.mem_singleton.mpr (hq p hp)) (one_fold y) (one_fold y')
    obtain ⟨q1, q2⟩ := (marginOrder_brought (Ctx.Same.refl c') (VAccount.Same.refl v1) hd.symm rfl
      (Agree.of_ok y y' hb)).both _ _ hx hx'
    obtain ⟨-, -, -, -, -, -, e1⟩ := keeperLoad_ok hk
    obtain ⟨-, -, -, -, -, -, e2⟩ := keeperLoad_ok hk'
    simp only at q2
    subst q2
    refine ⟨h.stored e1 e2 o1 o2 q1 hz hz' _ _, Out.Same.refl _, ?_⟩
    simp only [add_sub_cancel_left]

end

/-- **C72, the outcome.** However often, and by whomever, the pairs that an order, a liquidation or a deleveraging brings up to
date are brought up to date first in the same second: when the call goes through, with the price update before the upkeep and
without it after, it pays and reports the same, and leaves the same ledger behind, except for the reward tokens that the upkeep
minted. -/
theorem c72_outcome {env : Env} {cl cl' : Caller} {s m s' m' : State} {ids : List PairId} {u : Option PriceUpdate} {op : Op}
    {o o' : Out} (hr : Reach env s) (hu : Upkeeps env ids u s m) (hc : op.Covers s ids)
    (ht : (∃ e, o.ev = .order e) ∨ (∃ e, o.ev = .liquidate e) ∨ ∃ e, o.ev = .adl e)
    (h1 : step env cl s (op.given u) = Except.ok (s', o)) (h2 : step env cl' m (op.given none) = Except.ok (m', o')) :
    s'.Same (m'.rewardsAs s'.rewardSupply) ∧ o.Same o' ∧
      m'.rewardSupply - m.rewardSupply = s'.rewardSupply - s.rewardSupply := by
  have h := upkeeps_frame hr hu
  have hrm := (upkeeps_reach hr hu).1
  replace h1 := step_body h1
  replace h2 := step_body h2
  cases op <;> try exact hc.elim
  case processRequest a i _ =>
    rcases ht with ⟨e, ht⟩ | ⟨e, ht⟩ | ⟨e, ht⟩
    · refine h.order hr hrm (fun acc kr ha hk q hq => ?_) ht h1 h2
      have := hc acc kr ha hk
      rw [hq] at this
      exact this
    all_goals
      obtain ⟨v, v1, r, ex, cfg, -, -, -, -, -, hcase⟩ := processRequest_ok h1
      rcases hcase with ⟨-, acc, refs, -, -, rfl⟩ | ⟨-, s1, c, w, out, acc, refs, -, hx, -, -, rfl⟩
      · cases ht
      · cases r <;> simp only [executeRequest, bind_ok, pure_ok, Prod.mk.injEq] at hx <;> obtain ⟨x, -, -, rfl⟩ := hx <;> cases ht
  case swapDebt a r b _ =>
    obtain ⟨_, _, _, _, _, _, _, _, _, -, -, -, -, -, -, rfl⟩ := opSwapDebt_ok h1
    rcases ht with ⟨e, ht⟩ | ⟨e, ht⟩ | ⟨e, ht⟩ <;> cases ht
  case liquidate a b _ =>
    exact h.liquidate hr hrm (fun acc ha p hp => AMap.mem_keys.mpr (hc acc ha p hp)) h1 h2
  case autoDeleverage a p _ => exact h.adl hr hrm hc h1 h2
  case updatePairs l _ =>
    obtain ⟨_, _, _, _, _, -, -, -, -, rfl⟩ := opUpdatePairs_ok h1
    rcases ht with ⟨e, ht⟩ | ⟨e, ht⟩ | ⟨e, ht⟩ <;> cases ht

/-- **C72, upkeep itself.** Bringing pairs up to date, after part of them has been brought up to date in the same second, leaves
behind the same ledger as bringing them up to date at once, except for the number of reward tokens. -/
theorem c72_upkeep {env : Env} {cl cl' : Caller} {s m s' m' : State} {ids l : List PairId} {u : Option PriceUpdate} {o o' : Out}
    (hr : Reach env s) (hu : Upkeeps env ids u s m) (hl : ∀ p ∈ ids, p ∈ l)
    (h1 : step env cl s (.updatePairs l u) = Except.ok (s', o)) (h2 : step env cl' m (.updatePairs l none) = Except.ok (m', o')) :
    s'.Same (m'.rewardsAs s'.rewardSupply) := by
  have h := upkeeps_frame hr hu
  have hrm := (upkeeps_reach hr hu).1
  obtain ⟨s1, c, pool, flags, n, hk, hx, -, rfl, -⟩ := opUpdatePairs_ok (step_body h1)
  obtain ⟨m1, c', pool', flags', n', hk', hx', -, rfl, -⟩ := opUpdatePairs_ok (step_body h2)
  obtain ⟨-, o1, o2⟩ := h.ctx hk hk'
  have hb := h.brought hr hrm hk hk' (l := l.dedup) (fun _ hp => hp) (List.nodup_dedup l)
    (fun p hp => List.mem_dedup.mpr (hl p hp)) (updatePairsLoop_fold _ hx) (updatePairsLoop_fold _ hx')
  obtain ⟨-, -, -, -, -, -, e1⟩ := keeperLoad_ok hk
  obtain ⟨-, -, -, -, -, -, e2⟩ := keeperLoad_ok hk'
  rw [e1, e2, o1, o2]
  have key : ({ ({ m with oracle := m.oracle } : State) with pool := pool'.realize, rewardSupply := m.rewardSupply + n' } :
      State).rewardsAs (s.rewardSupply + n) =
      { s with oracle := m.oracle, pool := pool'.realize, rewardSupply := s.rewardSupply + n } := by
    rw [h.same]; rfl
  change State.Same _ (({ ({ m with oracle := m.oracle } : State) with pool := pool'.realize, rewardSupply := m.rewardSupply + n' } :
      State).rewardsAs (s.rewardSupply + n))
  rw [key]
  refine ⟨rfl, rfl, rfl, rfl, rfl, ⟨fun _ => rfl, fun _ => rfl⟩, ⟨rfl, fun _ => rfl, fun _ => rfl⟩, fun k => ?_, hb.realize,
    fun _ => rfl, ⟨fun _ => rfl, fun _ => rfl, fun _ => rfl⟩, rfl, rfl, fun _ => rfl, rfl, rfl, rfl, rfl⟩
  change Option.Rel Account.Same (s.accounts.get k) (s.accounts.get k)
  cases s.accounts.get k with
  | none => exact Option.Rel.none
  | some a => exact Option.Rel.some (Account.Same.refl a)

end Perp
