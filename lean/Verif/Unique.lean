import Verif.RefusalsAll

/-!
# There is only one way to bring a pair up to date

`State.Refreshed` describes by equations what a keeper call looks at. The equations determine it: two states that satisfy them
show the same market and the same pool.
-/

namespace Perp

theorem IntegralMove.unique {pc : PairConfig} {pp : PoolPosition} {price years rate x y : Dec}
    (hx : IntegralMove pc pp price years rate x) (hy : IntegralMove pc pp price years rate y) : x = y := by
  by_cases h1 : pp.rateHi price < rate
  · rw [hx.above h1, hy.above h1]
  · by_cases h2 : rate < pp.rateLo price
    · rw [hx.below h2, hy.below h2]
    · rw [hx.inside (not_lt.mp h2) (not_lt.mp h1), hy.inside (not_lt.mp h2) (not_lt.mp h1)]

theorem SideFlow.unique {pc : PairConfig} {pp : PoolPosition} {rate years charge a b a' b' : Dec}
    (h : SideFlow pc pp rate years charge a b) (h' : SideFlow pc pp rate years charge a' b') : a = a' ∧ b = b' := by
  by_cases hr : 0 < rate
  · obtain ⟨h1, h2⟩ := h.longsPay hr
    obtain ⟨h3, h4⟩ := h'.longsPay hr
    rw [h1, h2, h3, h4]; exact ⟨rfl, rfl⟩
  · obtain ⟨h1, h2⟩ := h.shortsPay (not_lt.mp hr)
    obtain ⟨h3, h4⟩ := h'.shortsPay (not_lt.mp hr)
    rw [h1, h2, h3, h4]; exact ⟨rfl, rfl⟩

theorem FundingMove.unique {pc : PairConfig} {pp a b : PoolPosition} {price years x y : Dec}
    (ha : FundingMove pc pp price years a x) (hb : FundingMove pc pp price years b y) :
    a.funding2Rate = b.funding2Rate ∧ a.fundingLongIndex = b.fundingLongIndex ∧ a.fundingShortIndex = b.fundingShortIndex ∧
    x = y := by
  have hr := ha.integral.unique hb.integral
  refine ⟨hr, ?_⟩
  by_cases hz : pp.oiLong = 0 ∨ pp.oiShort = 0
  · obtain ⟨a1, a2, a3⟩ := ha.empty hz
    obtain ⟨b1, b2, b3⟩ := hb.empty hz
    rw [a1, a2, a3, b1, b2, b3]; exact ⟨rfl, rfl, rfl⟩
  · rw [not_or] at hz
    have hf := ha.flow hz.1 hz.2
    rw [hr] at hf
    obtain ⟨h1, h2⟩ := hf.unique (hb.flow hz.1 hz.2)
    refine ⟨by omega, by omega, ?_⟩
    rw [ha.pool hz.1 hz.2, hb.pool hz.1 hz.2, hr]

/-- Sums over two maps that agree up to entries that count nothing. -/
theorem AMap.sum_padded {K V : Type} [DecidableEq K] {f : V → Int} {z : V} (hz : f z = 0) {m m' : AMap K V}
    (h : ∀ k, (m.get k).getD z = (m'.get k).getD z) : m.sum (fun _ x => f x) = m'.sum (fun _ x => f x) := by
  let P : V → Bool := fun x => decide (f x ≠ 0)
  have hP : ∀ x, P x = false → f x = 0 := fun x hx => by simpa [P] using hx
  have hzP : P z = false := by simp [P, hz]
  rw [← AMap.sum_filterV (P := P) (m := m) (fun k v _ hv => hP v hv), ← AMap.sum_filterV (P := P) (m := m') (fun k v _ hv => hP v hv)]
  refine AMap.sum_ext (fun k => ?_)
  rw [AMap.get_filterV, AMap.get_filterV]
  have hk := h k
  cases hm : m.get k with
  | none =>
    cases hm' : m'.get k with
    | none => rfl
    | some y =>
      rw [hm, hm'] at hk
      simp only [Option.getD_none, Option.getD_some] at hk
      rw [← hk]; simp [Option.filter, hzP]
  | some x =>
    cases hm' : m'.get k with
    | none =>
      rw [hm, hm'] at hk
      simp only [Option.getD_none, Option.getD_some] at hk
      rw [hk]; simp [Option.filter, hzP]
    | some y =>
      rw [hm, hm'] at hk
      simp only [Option.getD_some] at hk
      rw [hk]

/-- What two states that are brought up to date in the same way agree in. -/
structure State.Alike (a b : State) : Prop where
  same : a = { b with oracle := a.oracle, pool := a.pool }
  market : a.market = b.market
  positions : ∀ p, a.pool.position a.now p = b.pool.position b.now p
  value : a.pool.value = b.pool.value
  skew : a.pool.skewAbsSnap = b.pool.skewAbsSnap

theorem Refreshed.unique {s a b : State} {u : Option PriceUpdate} {ids : List PairId} (ha : s.Refreshed a u ids)
    (hb : s.Refreshed b u ids) : a.Alike b := by
  have na : a.now = s.now := by rw [ha.same]
  have nb : b.now = s.now := by rw [hb.same]
  have hprice : a.market.price = b.market.price := by
    funext p; simp only [State.market, ha.prices, hb.prices]
  obtain ⟨da, hda, hua⟩ := ha.pairs
  obtain ⟨db, hdb, hub⟩ := hb.pairs
  have key : ∀ p, a.pool.position s.now p = b.pool.position s.now p ∧ (p ∈ ids → da p = db p) := by
    intro p
    by_cases hp : p ∈ ids
    swap
    · exact ⟨by rw [ha.rest p hp, hb.rest p hp], fun h => absurd h hp⟩
    have h1 := hda p hp
    have h2 := hdb p hp
    have hf : (a.pool.position s.now p).fundingLongIndex = (b.pool.position s.now p).fundingLongIndex ∧
        (a.pool.position s.now p).fundingShortIndex = (b.pool.position s.now p).fundingShortIndex ∧
        (a.pool.position s.now p).funding2Rate = (b.pool.position s.now p).funding2Rate ∧ da p = db p := by
      by_cases hl : (s.pool.position s.now p).lastUpdate = s.now
      · obtain ⟨x1, x2, x3, x4⟩ := h1.still hl
        obtain ⟨y1, y2, y3, y4⟩ := h2.still hl
        rw [na] at x1 x2 x3
        rw [nb] at y1 y2 y3
        rw [x1, x2, x3, x4, y1, y2, y3, y4]; exact ⟨rfl, rfl, rfl, rfl⟩
      · have x := (h1.moved hl).2
        have y := (h2.moved hl).2
        rw [na, hprice] at x
        rw [nb] at y
        obtain ⟨z1, z2, z3, z4⟩ := x.unique y
        exact ⟨z2, z3, z1, z4⟩
    refine ⟨?_, fun _ => hf.2.2.2⟩
    obtain ⟨a1, a2, a3⟩ := ha.sizes p
    obtain ⟨b1, b2, b3⟩ := hb.sizes p
    have a4 := ha.marked p hp
    have b4 := hb.marked p hp
    have a5 := h1.stamped
    have b5 := h2.stamped
    rw [na] at a5
    rw [nb] at b5
    rw [← hprice] at b4 b5
    obtain ⟨a6, a7⟩ := a4
    obtain ⟨b6, b7⟩ := b4
    rw [a1, a2] at a6
    rw [b1, b2] at b6
    rw [a1, a2, a3] at a7
    rw [b1, b2, b3] at b7
    obtain ⟨f1, f2, f3, -⟩ := hf
    rw [PoolPosition.mk.injEq]
    exact ⟨by rw [a1, b1], by rw [a2, b2], by rw [a3, b3], by rw [a6, b6], by rw [a7, b7], f3, f1, f2, by rw [a5.1, b5.1],
      by rw [a5.2, b5.2]⟩
  have hpos : ∀ p, a.pool.position s.now p = b.pool.position s.now p := fun p => (key p).1
  have hskew : a.pool.skewAbsSnap = b.pool.skewAbsSnap := by
    rw [ha.snaps.1, hb.snaps.1]
    exact AMap.sum_padded (z := PoolPosition.dflt s.now) rfl hpos
  have hpnl : a.pool.pnlSnap = b.pool.pnlSnap := by
    rw [ha.snaps.2, hb.snaps.2]
    exact AMap.sum_padded (z := PoolPosition.dflt s.now) rfl hpos
  have hunr : a.pool.unrealizedFunding = b.pool.unrealizedFunding := by
    rw [hua, hub]
    congr 2
    exact List.map_congr_left (fun p hp => (key p).2 hp)
  refine ⟨?_, ?_, fun p => by rw [na, nb]; exact hpos p, ?_, hskew⟩
  · rw [ha.same, hb.same]
  · rw [Market.mk.injEq]
    refine ⟨?_, hprice, ?_, ?_, ?_⟩
    · simp only [State.market]; rw [ha.same, hb.same]
    · funext p; simp only [State.market]; rw [ha.same, hb.same]
    · funext p; simp only [State.market]; rw [ha.same, hb.same]
    · funext p; simp only [State.market]; rw [na, nb]; exact hpos p
  · unfold Pool.value
    rw [ha.tokens.1, hb.tokens.1, ha.tokens.2, hb.tokens.2, hunr, hpnl]

namespace State.Alike

variable {a b : State}

theorem config (h : a.Alike b) : a.config = b.config := by rw [h.same]
theorem referrals (h : a.Alike b) : a.referrals = b.referrals := by rw [h.same]
theorem now (h : a.Alike b) : a.now = b.now := by rw [h.same]
theorem rebate (h : a.Alike b) (acc : Account) : a.rebateOf acc = b.rebateOf acc := by
  unfold State.rebateOf; rw [h.referrals]
theorem accountValue (h : a.Alike b) (acc : Account) : a.accountValue acc = b.accountValue acc := by
  unfold State.accountValue; rw [h.market, h.rebate]
theorem maintenance (h : a.Alike b) (acc : Account) : a.maintenanceMargin acc = b.maintenanceMargin acc := by
  unfold State.maintenanceMargin; rw [h.market]
theorem netOi (h : a.Alike b) (p : PairId) : a.netOi p = b.netOi p := by
  unfold State.netOi; rw [h.positions]
theorem tradeFee (h : a.Alike b) (acc : Account) (p : PairId) : a.tradeFee acc p = b.tradeFee acc p := by
  funext x y z; unfold State.tradeFee; rw [h.market, h.rebate, h.config]
theorem orderFee (h : a.Alike b) (acc : Account) (p : PairId) (cl op : Dec) : a.orderFee acc p cl op = b.orderFee acc p cl op := by
  unfold State.orderFee; rw [h.market, h.tradeFee, h.netOi]
theorem feeKept (h : a.Alike b) (acc : Account) (x : Dec) : a.feeKept acc x = b.feeKept acc x := by
  unfold State.feeKept State.referralPart; rw [h.config, h.referrals]
theorem ratio (h : a.Alike b) : a.pool.skewRatio = b.pool.skewRatio := by
  unfold Pool.skewRatio; rw [h.skew, h.value]
theorem ratioAfter (h : a.Alike b) (acc : Account) (p : PairId) (cl op : Dec) :
    a.ratioAfter acc p cl op = b.ratioAfter acc p cl op := by
  unfold State.ratioAfter; rw [h.skew, h.value, h.netOi, h.market, h.feeKept, h.orderFee]
theorem accountAfter (h : a.Alike b) (acc : Account) (p : PairId) (cl op : Dec) :
    a.accountAfter acc p cl op = b.accountAfter acc p cl op := by
  unfold State.accountAfter; rw [h.market, h.tradeFee, h.netOi]
theorem traded_market (h : a.Alike b) (p : PairId) (cl op : Dec) : (a.traded p cl op).market = (b.traded p cl op).market := by
  have hm := h.market
  rw [Market.mk.injEq] at hm ⊢
  refine ⟨hm.1, hm.2.1, hm.2.2.1, hm.2.2.2.1, ?_⟩
  funext q
  simp only [State.market, State.traded, Pool.position]
  have hq := h.positions q
  have hp := h.positions p
  unfold Pool.position at hq hp
  rw [AMap.get_set, AMap.get_set]
  split
  · simp only [Option.getD_some]; rw [hp]
  · exact hq
theorem traded_value (h : a.Alike b) (p : PairId) (cl op : Dec) (acc : Account) :
    (a.traded p cl op).accountValue acc = (b.traded p cl op).accountValue acc := by
  unfold State.accountValue
  rw [h.traded_market]
  congr 1
  exact h.rebate acc
theorem traded_margin (h : a.Alike b) (p : PairId) (cl op : Dec) (acc : Account) :
    (a.traded p cl op).initialMargin acc = (b.traded p cl op).initialMargin acc := by
  unfold State.initialMargin; rw [h.traded_market]

end State.Alike
end Perp
