import Verif.Collateral

/-!
# Executed orders and withdrawals: C16, C22, C23, C24, C26, C27
-/

namespace Perp

/-! ## From the working state to the stored state -/

theorem refOk_path {refs : AMap RefId ReferralData} {ex : ExchangeConfig} {w w' : W} {x : Dec}
    (h : WPath ex w w' x) (h0 : RefOk refs w.acc) : RefOk refs w'.acc :=
  h.keep (P := fun w => RefOk refs w.acc) (fun _ _ _ hs => refOk_step hs) h0

section
variable {env : Env} {s s' : State} {a : Addr} {acc acc' : Account} {ids : List PairId}
    {u : Option PriceUpdate} {s1 : State} {c : Ctx} {w0 w : W}

theorem KeeperRun.coh (h : KeeperRun env s s' a acc acc' ids u s1 c w0 w) (h0 : s.NoEmpty) : AccCoh w.acc := by
  refine accCoh_path h.path ⟨?_, ?_, ?_, ?_⟩
  · intro q _; rw [h.pos0, h.comp0]
  · intro q hq; rw [h.comp0]; rw [h.pos0] at hq; exact hq
  · intro q x hq; rw [h.comp0] at hq; exact h0 a acc h.before q x hq
  · intro q x hq hz; rw [h.pos0] at hq; exact absurd hz (h0 a acc h.before q x hq)

/-- The stored positions are the non-empty ones of the working state. -/
theorem KeeperRun.positions (h : KeeperRun env s s' a acc acc' ids u s1 c w0 w) (h0 : s.NoEmpty) (q : PairId) :
    acc'.positions.get q = (w.acc.positions.get q).filter (fun x => decide (x.amount ≠ 0)) := by
  obtain ⟨_, -, hacc⟩ := realize_ok h.real
  rw [hacc]
  exact (h.coh h0).real q

theorem KeeperRun.size (h : KeeperRun env s s' a acc acc' ids u s1 c w0 w) (h0 : s.NoEmpty) (q : PairId) :
    acc'.size q = (w.acc.position q).amount := by
  unfold Account.size VAccount.position
  rw [h.positions h0]
  cases hq : w.acc.positions.get q with
  | none => simp [AMap.getD, hq, AccountPosition.zero]
  | some x =>
    by_cases hz : x.amount = 0
    · simp [AMap.getD, hq, Option.filter, hz]
    · simp [AMap.getD, hq, Option.filter, hz]

theorem KeeperRun.cost (h : KeeperRun env s s' a acc acc' ids u s1 c w0 w) (h0 : s.NoEmpty) (q : PairId) :
    acc'.costOf q = (w.acc.position q).cost := by
  unfold Account.costOf VAccount.position
  rw [h.positions h0]
  cases hq : w.acc.positions.get q with
  | none => simp [AMap.getD, hq, AccountPosition.zero]
  | some x =>
    by_cases hz : x.amount = 0
    · have := (h.coh h0).zero q x hq hz
      simp [AMap.getD, hq, Option.filter, hz, this]
    · simp [AMap.getD, hq, Option.filter, hz]

theorem KeeperRun.size0 (h : KeeperRun env s s' a acc acc' ids u s1 c w0 w) (q : PairId) :
    (w0.acc.position q).amount = acc.size q := by
  unfold Account.size VAccount.position
  rw [h.pos0]
  cases hq : acc.positions.get q <;> simp [AMap.getD, hq, AccountPosition.zero]

theorem KeeperRun.cost0 (h : KeeperRun env s s' a acc acc' ids u s1 c w0 w) (q : PairId) :
    (w0.acc.position q).cost = acc.costOf q := by
  unfold Account.costOf VAccount.position
  rw [h.pos0]
  cases hq : acc.positions.get q <;> simp [AMap.getD, hq, AccountPosition.zero]

/-- The stored pool position of a pair the call loaded. -/
theorem KeeperRun.poolPos (h : KeeperRun env s s' a acc acc' ids u s1 c w0 w) {q : PairId} {pp : PoolPosition}
    (hq : w.pool.positions.get q = some pp) : s'.pool.position s'.now q = pp := by
  have := poolCoh_path h.path (by rw [h.pool0]; exact poolCoh_new s.pool s.now ids) q pp hq
  unfold Pool.position
  rw [h.pool, h.now]
  exact this

theorem KeeperRun.poolPos0 (h : KeeperRun env s s' a acc acc' ids u s1 c w0 w) {q : PairId} {pp : PoolPosition}
    (hq : w0.pool.positions.get q = some pp) : s.pool.position s.now q = pp := by
  rw [h.pool0] at hq
  simp only [VPool.new, AMap.get_build] at hq
  split at hq
  · cases hq; rfl
  · cases hq

theorem KeeperRun.loaded (h : KeeperRun env s s' a acc acc' ids u s1 c w0 w) {q : PairId} (hq : q ∈ ids) :
    w0.pool.positions.get q = some (s.pool.position s.now q) := by
  rw [h.pool0]
  simp only [VPool.new, AMap.get_build]
  rw [if_pos hq]

theorem KeeperRun.rebate (h : KeeperRun env s s' a acc acc' ids u s1 c w0 w) : s'.rebateOf acc' = w.acc.rebate := by
  have hr := refOk_path h.path h.ref0
  have hid : acc'.referralId = w.acc.referralId := by
    obtain ⟨_, -, hacc⟩ := realize_ok h.real
    have e1 := h.path.frame.2.1
    have e2 := congrArg Account.referralId h.path.frame.2.2.2.1
    rw [hacc, e1, h.rid0]
    simpa [h.comp0] using e2
  have hrefs := h.refs
  unfold State.rebateOf VAccount.rebate
  rw [hid]
  unfold VAccount.realizeReferral at hrefs
  rcases hr with ⟨h1, h2, h3⟩ | ⟨r, d, d0, h1, h2, h3, h4, h5⟩
  · rw [h1, h2]; rfl
  · rw [h1, h2]
    simp only [Option.bind_some]
    split at hrefs
    · simp only [bind_ok, expect_ok, pure_ok] at hrefs
      obtain ⟨r', hr', d', hd', old, hold, hs⟩ := hrefs
      rw [h1] at hr'; cases hr'
      rw [h2] at hd'; cases hd'
      rw [← hs, AMap.get_set_self]
      rw [h3] at hold; cases hold
      rw [h4]
    · rename_i hf
      simp only [pure_ok] at hrefs
      rw [← hrefs, h3, h5 (by simpa using hf)]

theorem KeeperRun.feeds (h : KeeperRun env s s' a acc acc' ids u s1 c w0 w) : c.Feeds := by
  obtain ⟨-, -, -, -, ⟨feeds, -, ho⟩, -, -⟩ := keeperLoad_ok h.load
  exact (VOracle.new_ok ho).1

theorem KeeperRun.price (h : KeeperRun env s s' a acc acc' ids u s1 c w0 w) {p : PairId} {x : Dec}
    (hx : c.orc.prices.get p = some x) : s'.market.price p = x ∧ 0 < x := by
  obtain ⟨h0, t, ht, -⟩ := (keeperLoad_prices h.load).1 p x hx
  refine ⟨?_, h0⟩
  unfold State.market
  simp only [h.oracle, ht, Option.map_some, Option.getD_some]

theorem KeeperRun.pair (h : KeeperRun env s s' a acc acc' ids u s1 c w0 w) {p : PairId} {pc : PairConfig}
    (hx : c.cfg.pairs.get p = some pc) : s'.market.pair p = pc := by
  obtain ⟨-, -, hcfg, -, -, -, -⟩ := keeperLoad_ok h.load
  obtain ⟨-, -, -, h4⟩ := VConfig.new_ok hcfg
  obtain ⟨-, x, hx', rfl⟩ := h4 p pc hx
  unfold State.market
  simp only [h.config, hx', Option.map_some, Option.getD_some]

theorem KeeperRun.ex (h : KeeperRun env s s' a acc acc' ids u s1 c w0 w) : c.cfg.ex = s.config.exchange.decompress := by
  obtain ⟨-, -, hcfg, -, -, -, -⟩ := keeperLoad_ok h.load
  exact (VConfig.new_ok hcfg).1

theorem KeeperRun.coll (h : KeeperRun env s s' a acc acc' ids u s1 c w0 w) (r : Res) :
    c.cfg.colls.get r = (s.config.collaterals.get r).map CollateralConfigC.decompress := by
  obtain ⟨-, -, hcfg, -, -, -, -⟩ := keeperLoad_ok h.load
  rw [(VConfig.new_ok hcfg).2.1, AMap.get_mapV]

/-- The market the call works with is the market of the resulting state. -/
theorem KeeperRun.agree (h : KeeperRun env s s' a acc acc' ids u s1 c w0 w) {pos : AMap PairId AccountPosition}
    {bal : AMap Res Dec} (hk : ∀ p x, pos.get p = some x → c.Known w.pool p)
    (hc : ∀ r x cc, bal.get r = some x → c.cfg.colls.get r = some cc → ∃ y, c.orc.prices.get cc.pairId = some y) :
    (c.market w.pool).Agree s'.market pos bal where
  ex := by simp only [Ctx.market, State.market, h.config]; exact h.ex
  price p x hp := by
    obtain ⟨-, ⟨y, hy⟩, -⟩ := hk p x hp
    rw [(h.price hy).1]
    simp only [Ctx.market, hy, Option.getD_some]
  pair p x hp := by
    obtain ⟨⟨y, hy⟩, -, -⟩ := hk p x hp
    rw [h.pair hy]
    simp only [Ctx.market, hy, Option.getD_some]
  pool p x hp := by
    obtain ⟨-, -, y, hy⟩ := hk p x hp
    have := h.poolPos hy
    simp only [Ctx.market, State.market, hy, Option.getD_some, this]
  coll r x hr := by
    simp only [Ctx.market, State.market, h.config]; exact h.coll r
  collPrice r x cc hr hcc := by
    have e : c.cfg.colls.get r = some cc := by
      rw [h.coll]; simpa only [State.market, h.config] using hcc
    obtain ⟨y, hy⟩ := hc r x cc hr e
    rw [(h.price hy).1]
    simp only [Ctx.market, hy, Option.getD_some]

/-- If the working state passes the margin check, the stored account has its initial margin. -/
theorem KeeperRun.margin (h : KeeperRun env s s' a acc acc' ids u s1 c w0 w) (h0 : s.NoEmpty)
    (hcoll : CollInv env w.acc.collPart)
    (hi : assertAccountIntegrity c w.pool w.acc = Except.ok ()) : s'.initialMargin acc' ≤ s'.accountValue acc' := by
  obtain ⟨h1, h2, h3⟩ := assertAccountIntegrity_ok h.feeds hi
  have ha := h.agree (pos := w.acc.positions) (bal := w.acc.collateralBalances) h2 h3
  rw [ha.margin, ha.value] at h1
  have hb : acc'.collateralBalances = w.acc.collateralBalances := by
    rw [(realize_coll h.real).2]; exact hcoll.same.symm
  have hvb : acc'.vb = w.acc.vb := by
    obtain ⟨_, -, hacc⟩ := realize_ok h.real
    rw [hacc]
  unfold State.initialMargin State.accountValue
  rw [h.rebate, hb, hvb]
  have hz := (h.coh h0).zero
  have e1 : acc'.positions.sum (s'.market.posMargin PairConfig.marginInitial) =
      w.acc.positions.sum (s'.market.posMargin PairConfig.marginInitial) :=
    AMap.sum_of_filter (h.positions h0) (fun k v hk hv => Market.posMargin_empty _ _ _ (by simpa using hv))
  have e2 : acc'.positions.sum (s'.market.pnl w.acc.rebate) = w.acc.positions.sum (s'.market.pnl w.acc.rebate) :=
    AMap.sum_of_filter (h.positions h0) (fun k v hk hv => by
      have : v.amount = 0 := by simpa using hv
      exact Market.pnl_empty _ _ _ this (hz k v hk this))
  unfold Market.margin Market.value at *
  rw [e1, e2]
  exact h1

end

end Perp
