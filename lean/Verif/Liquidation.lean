import Verif.Fees
import Verif.Scenario

/-!
# Liquidation (C18, C19)
-/

namespace Perp

/-! ## Specification -/

/-- The market a keeper call that starts in `s` and ends in `s'` values an account with: the prices and configuration of
the end state, the open interest before the call, and the funding accrued until now (the call brings the funding
indexes up to date and records them). -/
def Market.during (s s' : State) : Market :=
  { s'.market with
    pool := fun p =>
      { s.pool.position s.now p with
        fundingLongIndex := (s'.pool.position s'.now p).fundingLongIndex
        fundingShortIndex := (s'.pool.position s'.now p).fundingShortIndex } }

/-! ## What a pass over the pool keeps -/

/-- A view of the pool positions. -/
def VPool.view {α : Type} (f : PoolPosition → α) (v : VPool) (p : PairId) : Option α := (v.positions.get p).map f

theorem view_set {α : Type} {f : PoolPosition → α} {v : VPool} {p : PairId} {a b : PoolPosition}
    (hg : v.positions.get p = some a) (hf : f b = f a) (q : PairId) :
    ((v.positions.set p b).get q).map f = (v.positions.get q).map f := by
  rw [AMap.get_set]
  split
  · rename_i e; subst e; rw [hg]; simp [hf]
  · rfl

def PoolPosition.size (x : PoolPosition) : Dec × Dec × Dec := (x.oiLong, x.oiShort, x.cost)
def PoolPosition.indexes (x : PoolPosition) : Dec × Dec := (x.fundingLongIndex, x.fundingShortIndex)

theorem updatePair_size {c : Ctx} {v v' : VPool} {p : PairId} {b : Bool} (h : updatePair c v p = Except.ok (v', b)) :
    v'.view PoolPosition.size = v.view PoolPosition.size := by
  obtain ⟨pc, price, pp0, pp1, dp, sec, per, -, -, hg, -, -, hf, rfl, -⟩ := updatePair_ok h
  have := fundingStep_only hf
  funext q
  refine view_set hg ?_ q
  unfold FundingOnly at this
  rw [this]; rfl

theorem updatePairs_size {c : Ctx} (l : List PairId) : ∀ {v v' : VPool},
    l.foldlM (fun pool p => do let r ← updatePair c pool p; pure r.1) v = Except.ok v' →
    v'.view PoolPosition.size = v.view PoolPosition.size := by
  induction l with
  | nil => intro v v' h; simp only [List.foldlM_nil, pure_ok] at h; rw [h]
  | cons p l ih =>
    intro v v' h
    simp only [List.foldlM_cons, bind_ok, pure_ok] at h
    obtain ⟨v1, ⟨r, hr, rfl⟩, h2⟩ := h
    exact (ih (by simpa only [bind_ok, pure_ok] using h2)).trans (updatePair_size (b := r.2) hr)

theorem closed_indexes (x : PoolPosition) (a b : Dec) : (x.closed a b).indexes = x.indexes := by
  unfold PoolPosition.closed; split <;> rfl

theorem liqLoop_indexes {c : Ctx} {rebate : Dec} (l : List (PairId × AccountPosition)) :
    ∀ {t t' : VPool × LiqTotals}, l.foldlM (liquidateOne c rebate) t = Except.ok t' →
    t'.1.view PoolPosition.indexes = t.1.view PoolPosition.indexes := by
  induction l with
  | nil => intro t t' h; simp only [List.foldlM_nil, pure_ok] at h; rw [h]
  | cons e l ih =>
    intro t t' h
    simp only [List.foldlM_cons, bind_ok] at h
    obtain ⟨t1, h1, h2⟩ := h
    obtain ⟨pc, price, pp, -, -, hg, e1, -⟩ := liquidateOne_ok h1
    refine (ih h2).trans ?_
    rw [e1]
    funext q
    exact view_set hg (closed_indexes ..) q

theorem snaps_indexes {c : Ctx} (l : List PairId) : ∀ {v v' : VPool},
    l.foldlM (updatePairSnaps c) v = Except.ok v' →
    v'.view PoolPosition.indexes = v.view PoolPosition.indexes := by
  induction l with
  | nil => intro v v' h; simp only [List.foldlM_nil, pure_ok] at h; rw [h]
  | cons p l ih =>
    intro v v' h
    simp only [List.foldlM_cons, bind_ok] at h
    obtain ⟨v1, h1, h2⟩ := h
    obtain ⟨price, pp, -, hg, rfl⟩ := updatePairSnaps_ok h1
    refine (ih h2).trans ?_
    funext q
    exact view_set hg (show (pp.snapAt price).indexes = pp.indexes from rfl) q

/-- Both passes leave the component (and with it the vault) alone. -/
theorem updatePairs_comp {c : Ctx} (l : List PairId) : ∀ {v v' : VPool},
    l.foldlM (fun pool p => do let r ← updatePair c pool p; pure r.1) v = Except.ok v' → v'.comp = v.comp := by
  induction l with
  | nil => intro v v' h; simp only [List.foldlM_nil, pure_ok] at h; rw [h]
  | cons p l ih =>
    intro v v' h
    simp only [List.foldlM_cons, bind_ok, pure_ok] at h
    obtain ⟨v1, ⟨⟨r, b⟩, hr, rfl⟩, h2⟩ := h
    refine (ih (by simpa only [bind_ok, pure_ok] using h2)).trans ?_
    obtain ⟨pc, price, pp0, pp1, dp, sec, per, -, -, -, -, -, -, rfl, -⟩ := updatePair_ok hr
    rfl

theorem snaps_comp {c : Ctx} (l : List PairId) : ∀ {v v' : VPool},
    l.foldlM (updatePairSnaps c) v = Except.ok v' → v'.comp = v.comp := by
  induction l with
  | nil => intro v v' h; simp only [List.foldlM_nil, pure_ok] at h; rw [h]
  | cons p l ih =>
    intro v v' h
    simp only [List.foldlM_cons, bind_ok] at h
    obtain ⟨v1, h1, h2⟩ := h
    obtain ⟨price, pp, -, -, rfl⟩ := updatePairSnaps_ok h1
    exact (ih h2).trans rfl

theorem liqLoop_comp {c : Ctx} {rebate : Dec} (l : List (PairId × AccountPosition)) :
    ∀ {t t' : VPool × LiqTotals}, l.foldlM (liquidateOne c rebate) t = Except.ok t' → t'.1.comp = t.1.comp := by
  induction l with
  | nil => intro t t' h; simp only [List.foldlM_nil, pure_ok] at h; rw [h]
  | cons e l ih =>
    intro t t' h
    simp only [List.foldlM_cons, bind_ok] at h
    obtain ⟨t1, h1, h2⟩ := h
    obtain ⟨pc, price, pp, -, -, -, e1, -⟩ := liquidateOne_ok h1
    rw [ih h2, e1]; rfl

/-! ## The totals of a liquidation -/

theorem liqLoop_value {c : Ctx} {rebate : Dec} {p1 : VPool} (l : List (PairId × AccountPosition)) :
    ∀ {t t' : VPool × LiqTotals}, (l.map Prod.fst).Nodup →
    (∀ e ∈ l, t.1.positions.get e.1 = p1.positions.get e.1) →
    l.foldlM (liquidateOne c rebate) t = Except.ok t' →
    t'.2.pnl = t.2.pnl + (l.map (fun e => (c.market p1).pnl rebate e.1 e.2)).sum ∧
    t'.2.margin = t.2.margin + (l.map (fun e => (c.market p1).posMargin PairConfig.marginMaintenance e.1 e.2)).sum ∧
    t'.2.funding = t.2.funding + (l.map (fun e => fundingOwed ((c.market p1).pool e.1) e.2)).sum ∧
    ∀ e ∈ l, c.Known p1 e.1 := by
  induction l with
  | nil => intro t t' _ _ h; simp only [List.foldlM_nil, pure_ok] at h; subst h; simp
  | cons e l ih =>
    intro t t' hn hg h
    simp only [List.foldlM_cons, bind_ok] at h
    obtain ⟨t1, h1, h2⟩ := h
    obtain ⟨pc, price, pp, hpc, hpr, hpp, e1, e2⟩ := liquidateOne_ok h1
    simp only [List.map_cons, List.nodup_cons] at hn
    obtain ⟨i1, i2, i3, i4⟩ := ih hn.2 (fun x hx => by
      rw [e1]
      show (t.1.positions.set e.1 _).get x.1 = _
      rw [AMap.get_set_ne]
      · exact hg x (List.mem_cons_of_mem _ hx)
      · intro hh; exact hn.1 (List.mem_map.mpr ⟨x, hx, hh.symm⟩)) h2
    have hpp' : p1.positions.get e.1 = some pp := (hg e (List.mem_cons_self ..)).symm.trans hpp
    rw [e2] at i1 i2 i3
    simp only [List.map_cons, List.sum_cons, Market.pnl_eq, Market.posMargin, Ctx.market, hpc, hpr, hpp', Option.getD_some,
      mulT_neg_left, abs_neg] at i1 i2 i3 ⊢
    refine ⟨?_, ?_, ?_, ?_⟩
    · rw [i1]; ring
    · rw [i2]; ring
    · rw [i3]; ring
    · intro x hx
      rcases List.mem_cons.mp hx with rfl | hx
      · exact ⟨⟨pc, hpc⟩, ⟨price, hpr⟩, ⟨pp, hpp'⟩⟩
      · exact i4 x hx

/-- The collateral that counts: the configured one. -/
def Ctx.counted (c : Ctx) (e : Res × Dec) : Bool := (c.cfg.colls.get e.1).isSome

theorem liquidateCollateral_ok {c : Ctx} (hf : c.Feeds) (pool : VPool) {a : VAccount} {t : LiqColl}
    (h : liquidateCollateral c a = Except.ok t) :
    t.valueDiscounted = a.collateralBalances.sum (c.market pool).collValue ∧
    t.margin = a.collateralBalances.sum (c.market pool).collMargin ∧
    t.amounts = a.collateralBalances.entries.filter c.counted ∧
    ∀ r x cc, a.collateralBalances.get r = some x → c.cfg.colls.get r = some cc →
      ∃ y, c.orc.prices.get cc.pairId = some y := by
  unfold liquidateCollateral at h
  have key : ∀ (l : List (Res × Dec)) (t0 t : LiqColl),
      l.foldlM (liquidateCollateralOne c) t0 = Except.ok t →
      t.valueDiscounted = t0.valueDiscounted + (l.map (fun e => (c.market pool).collValue e.1 e.2)).sum ∧
      t.margin = t0.margin + (l.map (fun e => (c.market pool).collMargin e.1 e.2)).sum ∧
      t.amounts = t0.amounts ++ l.filter c.counted ∧
      ∀ e ∈ l, ∀ cc, c.cfg.colls.get e.1 = some cc → ∃ y, c.orc.prices.get cc.pairId = some y := by
    intro l
    induction l with
    | nil =>
      intro t0 t h
      simp only [List.foldlM_nil, pure_ok] at h
      subst h
      simp
    | cons e l ih =>
      intro t0 t h
      simp only [List.foldlM_cons, bind_ok] at h
      obtain ⟨t1, h1, h2⟩ := h
      obtain ⟨a1, a2, a3, a4⟩ := ih t1 t h2
      unfold liquidateCollateralOne at h1
      cases hc : c.cfg.colls.get e.1 with
      | none =>
        rw [hc] at h1
        simp only [pure_ok] at h1
        subst h1
        refine ⟨?_, ?_, ?_, ?_⟩
        · rw [a1]; simp [Market.collValue, Ctx.market, hc]
        · rw [a2]; simp [Market.collMargin, Ctx.market, hc]
        · rw [a3]; simp [Ctx.counted, hc]
        · intro x hx cc hcc
          rcases List.mem_cons.mp hx with rfl | hx
          · rw [hc] at hcc; cases hcc
          · exact a4 x hx cc hcc
      | some cc =>
        rw [hc] at h1
        simp only [bind_ok, pure_ok, dmul_ok, dadd_ok] at h1
        obtain ⟨price, hp, _, ⟨-, rfl⟩, _, ⟨-, rfl⟩, _, ⟨-, rfl⟩, _, ⟨-, rfl⟩, _, ⟨-, rfl⟩, _, ⟨-, rfl⟩, rfl⟩ := h1
        have hp' := hf.price hc hp
        refine ⟨?_, ?_, ?_, ?_⟩
        · rw [a1]; simp only [List.map_cons, List.sum_cons, Market.collValue, Ctx.market, hc, hp', Option.getD_some]; ring
        · rw [a2]; simp only [List.map_cons, List.sum_cons, Market.collMargin, Ctx.market, hc, hp', Option.getD_some]; ring
        · rw [a3]; simp [Ctx.counted, hc]
        · intro x hx cc' hcc
          rcases List.mem_cons.mp hx with rfl | hx
          · rw [hc] at hcc; cases hcc; exact ⟨price, hp'⟩
          · exact a4 x hx cc' hcc
  obtain ⟨h1, h2, h3, h4⟩ := key _ _ _ h
  refine ⟨by rw [h1]; simp [AMap.sum], by rw [h2]; simp [AMap.sum], by rw [h3]; simp, ?_⟩
  intro r x cc hp hcc
  exact h4 (r, x) ((AMap.get_eq_some).mp hp) cc hcc

/-! ## Taking whole balances -/

theorem amountFor_whole {g : Nat} {x : Dec} (h : x % (g : Int) = 0) : amountFor g x .toZero = x := by
  unfold amountFor
  simp only
  exact Int.tdiv_mul_cancel (Int.dvd_of_emod_eq_zero h)

/-- Withdrawing the whole balance of some resources hands out exactly that and removes the entries. -/
theorem take_whole {env : Env} {cs : List (Res × Dec)} :
    ∀ {bs : List Bucket} {a b : AMap Res Dec × AMap Res Dec × AMap Res Dec}, CollTake env a b cs bs →
    (cs.map Prod.fst).Nodup → (∀ c ∈ cs, a.2.1.get c.1 = some c.2 ∧ c.2 % (env.gran c.1 : Int) = 0) →
    bs = cs.map (fun c => (⟨c.1, c.2⟩ : Bucket)) ∧
    ∀ r, b.2.1.get r = if r ∈ cs.map Prod.fst then none else a.2.1.get r := by
  induction cs with
  | nil =>
    rintro bs ⟨a1, a2, a3⟩ ⟨b1, b2, b3⟩ ⟨h1, h2, h3⟩ _ _
    simp only [vaultTakeBatch, Except.ok.injEq, Prod.mk.injEq] at h3
    obtain ⟨rfl, rfl⟩ := h3
    simp only [balanceSubBatch, List.foldlM_nil, pure_ok] at h2
    subst h2
    exact ⟨rfl, fun r => by simp⟩
  | cons c cs ih =>
    rintro bs ⟨a1, a2, a3⟩ ⟨b1, b2, b3⟩ ⟨h1, h2, h3⟩ hn hw
    simp only [vaultTakeBatch, bind_ok, pure_ok, Prod.mk.injEq] at h3
    obtain ⟨⟨c3, x⟩, hv, ⟨d3, bs'⟩, hv', rfl, rfl⟩ := h3
    simp only [balanceSubBatch, List.foldlM_cons, bind_ok] at h1 h2
    obtain ⟨c1, h1, h1'⟩ := h1
    obtain ⟨c2, h2, h2'⟩ := h2
    obtain ⟨hr, ham, -, -, -, -⟩ := vaultTake_get hv
    obtain ⟨hb, hmod⟩ := hw c (List.mem_cons_self ..)
    rw [amountFor_whole hmod] at ham
    obtain ⟨y, hy, hget⟩ := balanceSub_get h2
    simp only at hb hy hget
    rw [hr, hb] at hy
    cases hy
    rw [← ham] at hget
    simp only [sub_self, if_true, hr] at hget
    simp only [List.map_cons, List.nodup_cons] at hn
    obtain ⟨i1, i2⟩ := ih (a := (c1, c2, c3)) (b := (b1, b2, d3)) ⟨h1', h2', hv'⟩ hn.2 (fun z hz => by
      refine ⟨?_, (hw z (List.mem_cons_of_mem _ hz)).2⟩
      show c2.get z.1 = _
      rw [hget, if_neg]
      · exact (hw z (List.mem_cons_of_mem _ hz)).1
      · intro e; exact hn.1 (List.mem_map.mpr ⟨z, hz, e.symm⟩))
    refine ⟨?_, ?_⟩
    · rw [i1]
      simp only [List.map_cons, List.cons.injEq, and_true]
      obtain ⟨xr, xa⟩ := x
      simp only at hr ham
      rw [hr, ham]
    · intro r
      rw [i2 r]
      simp only [List.map_cons, List.mem_cons]
      by_cases e : r = c.1
      · subst e
        simp only [true_or, if_true]
        split
        · rfl
        · show c2.get _ = none
          rw [hget, if_pos rfl]
      · by_cases e2 : r ∈ cs.map Prod.fst
        · simp [e2]
        · simp only [e2, e, if_false, or_self]
          show c2.get r = _
          rw [hget, if_neg (fun h => e h.symm)]

theorem KeeperRun.rebate0 {env : Env} {s s' : State} {a : Addr} {acc acc' : Account} {ids : List PairId}
    {u : Option PriceUpdate} {s1 : State} {c : Ctx} {w0 w : W} (h : KeeperRun env s s' a acc acc' ids u s1 c w0 w) :
    s.rebateOf acc = w0.acc.rebate := by
  unfold State.rebateOf VAccount.rebate
  rw [← h.rid0]
  rcases h.ref0 with ⟨h1, h2, h3⟩ | ⟨r, d, d0, h1, h2, h3, h4, h5⟩
  · rw [h1, h2]; rfl
  · rw [h1, h2]
    rw [Option.bind_some, h3]
    show ONE - d0.feeRebate = ONE - d.feeRebate
    rw [h4]

/-! ## The theorems -/

/-- The market of the positions pass is the one of the specification. -/
theorem liquidation_market {env : Env} {s s' : State} {a : Addr} {acc acc' : Account} {ids : List PairId}
    {u : Option PriceUpdate} {s1 : State} {c : Ctx} {w0 w : W} (hrun : KeeperRun env s s' a acc acc' ids u s1 c w0 w)
    {p1 : VPool} {pos : AMap PairId AccountPosition} {bal : AMap Res Dec}
    (h1 : p1.view PoolPosition.size = w0.pool.view PoolPosition.size)
    (h2 : w.pool.view PoolPosition.indexes = p1.view PoolPosition.indexes)
    (hk : ∀ p x, pos.get p = some x → c.Known p1 p)
    (hc : ∀ r x cc, bal.get r = some x → c.cfg.colls.get r = some cc → ∃ y, c.orc.prices.get cc.pairId = some y)
    (f : PairConfig → Dec) (rebate vb : Dec) :
    (c.market p1).value rebate pos bal vb = (Market.during s s').value rebate pos bal vb ∧
    (c.market p1).margin f pos bal = (Market.during s s').margin f pos bal ∧
    pos.sum ((c.market p1).pnl rebate) = pos.sum ((Market.during s s').pnl rebate) ∧
    bal.sum (c.market p1).collValue = bal.sum (Market.during s s').collValue := by
  have hpnl : ∀ p x, pos.get p = some x → (c.market p1).pnl rebate p x = (Market.during s s').pnl rebate p x := by
    intro p x hp
    obtain ⟨⟨pc, hpc⟩, ⟨y, hy⟩, pp, hpp⟩ := hk p x hp
    have e1 : w0.pool.view PoolPosition.size p = some pp.size := by rw [← h1]; simp [VPool.view, hpp]
    have e2 : w.pool.view PoolPosition.indexes p = some pp.indexes := by rw [h2]; simp [VPool.view, hpp]
    simp only [VPool.view, Option.map_eq_some_iff] at e1 e2
    obtain ⟨q1, g1, s1'⟩ := e1
    obtain ⟨q2, g2, s2'⟩ := e2
    have k1 := hrun.poolPos0 g1
    have k2 := hrun.poolPos g2
    have hex : (Market.during s s').ex = c.cfg.ex := by
      show s'.market.ex = _
      rw [hrun.ex]; simp only [State.market, hrun.config]
    have hp1 : (Market.during s s').price p = y := (hrun.price hy).1
    have hp2 : (Market.during s s').pair p = pc := hrun.pair hpc
    have hq : (Market.during s s').pool p = { q1 with fundingLongIndex := q2.fundingLongIndex, fundingShortIndex := q2.fundingShortIndex } := by
      simp only [Market.during, k1, k2]
    simp only [PoolPosition.size, PoolPosition.indexes, Prod.mk.injEq] at s1' s2'
    simp only [Market.pnl_eq, hex, hp1, hp2, hq]
    simp only [Ctx.market, hpc, hy, hpp, Option.getD_some, feeOf, rawFee, fundingOwed, s1'.1, s1'.2.1, s2'.1, s2'.2]
  have hmar : ∀ p x, pos.get p = some x → (c.market p1).posMargin f p x = (Market.during s s').posMargin f p x := by
    intro p x hp
    obtain ⟨⟨pc, hpc⟩, ⟨y, hy⟩, -⟩ := hk p x hp
    have hp1 : (Market.during s s').price p = y := (hrun.price hy).1
    have hp2 : (Market.during s s').pair p = pc := hrun.pair hpc
    simp only [Market.posMargin, hp1, hp2]
    simp only [Ctx.market, hpc, hy, Option.getD_some]
  have hcol : ∀ r, (Market.during s s').coll r = c.cfg.colls.get r := by
    intro r
    rw [hrun.coll]
    simp only [Market.during, State.market, hrun.config]
  have hcv : ∀ r x, bal.get r = some x → (c.market p1).collValue r x = (Market.during s s').collValue r x ∧
      (c.market p1).collMargin r x = (Market.during s s').collMargin r x := by
    intro r x hr
    simp only [Market.collValue, Market.collMargin, hcol]
    show (match c.cfg.colls.get r with | some cc => _ | none => _) = _ ∧ (match c.cfg.colls.get r with | some cc => _ | none => _) = _
    cases hcc : c.cfg.colls.get r with
    | none => exact ⟨rfl, rfl⟩
    | some cc =>
      obtain ⟨y, hy⟩ := hc r x cc hr hcc
      have hp1 : (Market.during s s').price cc.pairId = y := (hrun.price hy).1
      simp only [hp1]
      simp only [Ctx.market, hy, Option.getD_some, and_self]
  have s1 := AMap.sum_congr hpnl
  have s2 := AMap.sum_congr hmar
  have s3 := AMap.sum_congr (fun r x hr => (hcv r x hr).1)
  have s4 := AMap.sum_congr (fun r x hr => (hcv r x hr).2)
  refine ⟨?_, ?_, s1, s3⟩
  · unfold Market.value; rw [s1, s3]
  · unfold Market.margin; rw [s2, s4]

theorem credited_parts (v : VAccount) (x : Dec) :
    (v.credited x).vb = v.vb ∧ (v.credited x).positions = v.positions := by
  unfold VAccount.credited; split <;> exact ⟨rfl, rfl⟩

/-- **C19, only below maintenance margin.** A liquidation succeeds only if the account's value (profit of its positions
after closing fees and accrued funding, discounted collateral, virtual balance) is below its maintenance margin, both
at the prices in force after the call; and these are the numbers it reports. -/
theorem c19_only_below_maintenance {env : Env} {cl : Caller} {s s' : State} {a : Addr} {b : Bucket}
    {u : Option PriceUpdate} {o : Out} {acc : Account}
    (h : step env cl s (.liquidate a b u) = Except.ok (s', o)) (ha : s.accounts.get a = some acc) :
    (Market.during s s').value (s.rebateOf acc) acc.positions acc.collateralBalances acc.vb <
      (Market.during s s').margin PairConfig.marginMaintenance acc.positions acc.collateralBalances ∧
    ∃ e, o.ev = .liquidate e ∧
      e.accountValue = (Market.during s s').value (s.rebateOf acc) acc.positions acc.collateralBalances acc.vb ∧
      e.margin = (Market.during s s').margin PairConfig.marginMaintenance acc.positions acc.collateralBalances := by
  obtain ⟨acc0, acc', ids, s1, c, w0, w, tokens, e, hrun, -, -, hl, rfl⟩ := run_liquidate (step_body h)
  have hb := hrun.before
  rw [ha] at hb; cases hb
  obtain ⟨w1, lp, lc, value, ac, tokens, taken, pool, w2, w3, loss, w4, fees, -, hlp, hlc, hlt, -, -, hwd, -, hdep, hst,
    hwo, hfee, rfl, -, rfl⟩ := liquidate_ok hl
  obtain ⟨p1, p2, p3, hu, hlo, hsn, rfl⟩ := liquidatePositions_ok hlp
  obtain ⟨t1, t2, -, t3⟩ := liqLoop_value (p1 := p1) _ w0.acc.positions.nodup (fun e _ => rfl) hlo
  obtain ⟨c1, c2, -, c3⟩ := liquidateCollateral_ok hrun.feeds p1 hlc
  have hpool : w4.pool.positions = p3.positions := by
    obtain ⟨e1, -, -, -⟩ := settleFeesReferral_ok hfee
    obtain ⟨-, rfl⟩ := writeOff_ok hwo
    have := settleAccount_ok hst
    subst this
    rw [e1]
    simp only
    rw [VPool.deposit_ok hdep]
  have hv : w4.pool.view PoolPosition.indexes = p1.view PoolPosition.indexes := by
    have h1 := snaps_indexes _ hsn
    have h2 := liqLoop_indexes _ hlo
    have : w4.pool.view PoolPosition.indexes = p3.view PoolPosition.indexes := by
      funext q; simp only [VPool.view, hpool]
    rw [this, h1]
    exact h2
  have hbal : w0.acc.noPositions.collateralBalances = acc.collateralBalances := hrun.coll0
  have hvb : w0.acc.noPositions.vb = acc.vb := hrun.vb0
  simp only at c1 c2 c3
  rw [hbal] at c1 c2 c3
  have hsum1 : lp.pnl = acc.positions.sum ((c.market p1).pnl (s.rebateOf acc)) := by
    rw [t1, hrun.rebate0, ← hrun.pos0]; simp [AMap.sum]
  have hsum2 : lp.margin = acc.positions.sum ((c.market p1).posMargin PairConfig.marginMaintenance) := by
    rw [t2, ← hrun.pos0]; simp [AMap.sum]
  obtain ⟨m1, m2, -, -⟩ := liquidation_market hrun (p1 := p1) (pos := acc.positions) (bal := acc.collateralBalances)
    (updatePairs_size _ hu) hv (fun p x hp => t3 (p, x) (by rw [hrun.pos0]; exact (AMap.get_eq_some).mp hp)) c3
    PairConfig.marginMaintenance (s.rebateOf acc) acc.vb
  have e1 : lp.pnl + lc.valueDiscounted + acc.vb =
      (Market.during s s').value (s.rebateOf acc) acc.positions acc.collateralBalances acc.vb := by
    rw [← m1, hsum1, c1]; rfl
  have e2 : lp.margin + lc.margin =
      (Market.during s s').margin PairConfig.marginMaintenance acc.positions acc.collateralBalances := by
    rw [← m2, hsum2, c2]; rfl
  simp only [hvb] at hlt ⊢
  refine ⟨?_, _, rfl, ?_, ?_⟩
  · rw [← e1, ← e2]; exact hlt
  · simp only; rw [e1]
  · simp only; rw [e2]

theorem amountFor_up {g : Nat} (hg : 0 < g) (x : Dec) :
    x ≤ amountFor g x .toInfinity ∧ amountFor g x .toInfinity < x + g := by
  unfold amountFor
  simp only
  have hg' : (0 : Int) < g := by exact_mod_cast hg
  have h1 := Int.emod_nonneg (-x) hg'.ne'
  have h2 := Int.emod_lt_of_pos (-x) hg'
  have h3 := Int.mul_ediv_add_emod (-x) (g : Int)
  constructor
  · nlinarith
  · nlinarith

/-- A resource accepted as collateral. -/
def State.accepts (s : State) (r : Res) : Bool := (s.config.collaterals.get r).isSome

/-- **C19, completeness.** A liquidation removes every position and every accepted collateral of the account (other
resources stay), hands the liquidator exactly that collateral and the change, takes for it a payment of at least its
discounted value and less than one token unit more, and leaves a virtual balance of what the account is left with,
or zero if that is a debt. -/
theorem c19_complete {env : Env} {cl : Caller} {s s' : State} {a : Addr} {b : Bucket}
    {u : Option PriceUpdate} {o : Out} {acc : Account} (h0 : Reach env s)
    (h : step env cl s (.liquidate a b u) = Except.ok (s', o)) (ha : s.accounts.get a = some acc) :
    ∃ acc' taken, s'.accounts.get a = some acc' ∧
      (∀ p, acc'.positions.get p = none) ∧
      (∀ r, acc'.collateralBalances.get r = if s.accepts r then none else acc.collateralBalances.get r) ∧
      o.buckets = (acc.collateralBalances.entries.filter (fun e => s.accepts e.1)).map (fun e => (⟨e.1, e.2⟩ : Bucket))
        ++ [⟨BASE, b.amt - taken⟩] ∧
      b.res = BASE ∧ 0 ≤ taken ∧ taken ≤ b.amt ∧
      acc.collateralBalances.sum (Market.during s s').collValue ≤ taken ∧
      taken < acc.collateralBalances.sum (Market.during s s').collValue + env.gran BASE ∧
      acc'.vb = max 0 (acc.vb + acc.positions.sum ((Market.during s s').pnl (s.rebateOf acc)) + taken) ∧
      s'.pool.baseTokens = s.pool.baseTokens + taken := by
  obtain ⟨acc0, acc', ids, s1, c, w0, w, tokens, e, hrun, -, -, hl, rfl⟩ := run_liquidate (step_body h)
  have hb := hrun.before
  rw [ha] at hb; cases hb
  obtain ⟨w1, lp, lc, value, ac, tokens, taken, pool, w2, w3, loss, w4, fees, hres, hlp, hlc, -, hval, -, hwd, htk, hdep, hst,
    hwo, hfee, rfl, rfl, rfl⟩ := liquidate_ok hl
  obtain ⟨p1, p2, p3, hu, hlo, hsn, rfl⟩ := liquidatePositions_ok hlp
  obtain ⟨t1, t2, -, t3⟩ := liqLoop_value (p1 := p1) _ w0.acc.positions.nodup (fun e _ => rfl) hlo
  obtain ⟨c1, c2, c4, c3⟩ := liquidateCollateral_ok hrun.feeds p1 hlc
  have henv : c.env = env := (keeperLoad_ok hrun.load).1
  obtain ⟨f1, -, f3, -⟩ := settleFeesReferral_ok hfee
  obtain ⟨hloss, hw3⟩ := writeOff_ok hwo
  have hw2 := settleAccount_ok hst
  have hd := VPool.deposit_ok hdep
  have hpool : w4.pool.positions = p3.positions := by
    rw [f1, hw3, hw2]
    simp only
    rw [hd]
  have hv : w4.pool.view PoolPosition.indexes = p1.view PoolPosition.indexes := by
    have h1 := snaps_indexes _ hsn
    have h2 := liqLoop_indexes _ hlo
    have : w4.pool.view PoolPosition.indexes = p3.view PoolPosition.indexes := by
      funext q; simp only [VPool.view, hpool]
    rw [this, h1]
    exact h2
  have hbal : w0.acc.noPositions.collateralBalances = acc.collateralBalances := hrun.coll0
  simp only at c1 c2 c3 c4
  rw [hbal] at c1 c2 c3 c4
  have hsum1 : lp.pnl = acc.positions.sum ((c.market p1).pnl (s.rebateOf acc)) := by
    rw [t1, hrun.rebate0, ← hrun.pos0]; simp [AMap.sum]
  obtain ⟨-, -, m3, m4⟩ := liquidation_market hrun (p1 := p1) (pos := acc.positions) (bal := acc.collateralBalances)
    (updatePairs_size _ hu) hv (fun p x hp => t3 (p, x) (by rw [hrun.pos0]; exact (AMap.get_eq_some).mp hp)) c3
    PairConfig.marginMaintenance (s.rebateOf acc) acc.vb
  rw [m4] at c1
  rw [m3] at hsum1
  -- what is taken
  rw [takeAmount_ok] at htk
  obtain ⟨k1, k2, -, k4⟩ := htk
  have hval' : taken = value := k1.symm
  obtain ⟨u1, u2⟩ := amountFor_up (c.env.gran_pos BASE) lc.valueDiscounted
  rw [← hval, ← hval', c1] at u1 u2
  rw [henv] at u2
  -- the collateral
  have hinv := reach_collOk h0 a acc ha
  have hacc : ∀ r, (c.cfg.colls.get r).isSome = s.accepts r := by
    intro r; rw [hrun.coll]; unfold State.accepts; simp
  have hcnt : c.counted = fun e => s.accepts e.1 := by
    funext e; exact hacc e.1
  rw [hcnt] at c4
  have hsub : (lc.amounts.map Prod.fst).Nodup := by
    rw [c4]; exact List.Nodup.sublist (List.Sublist.map _ List.filter_sublist) acc.collateralBalances.nodup
  have hcp0 : w0.acc.noPositions.collPart = acc.collPart := hrun.collPart0
  have htake := withdrawCollateral_take hwd
  simp only [hcp0, henv] at htake
  obtain ⟨b1, b2⟩ := take_whole htake hsub (fun z hz => by
    rw [c4] at hz
    have hz := (AMap.get_eq_some).mpr (List.mem_of_mem_filter hz)
    exact ⟨hz, hinv.whole _ _ hz⟩)
  have hcomp : w4.acc.comp.collateralBalances = ac.comp.collateralBalances := by
    have := congrArg (fun x => x.2.1) ((settleFees_touches 0 hfee).collPart)
    simp only [VAccount.collPart] at this
    rw [this, hw3, hw2]
  have hb2 : acc'.collateralBalances = ac.comp.collateralBalances := by
    rw [(realize_coll hrun.real).2]; exact hcomp
  refine ⟨acc', taken, hrun.after, ?_, ?_, ?_, hres, k2, k4, u1, u2, ?_, ?_⟩
  · intro p
    have hz : w4.acc.positions = w0.acc.noPositions.positions := by
      rw [f3, (credited_parts _ _).2, hw3, hw2]
      simp only
      have := withdrawCollateral_collOnly hwd
      unfold CollOnly at this
      rw [this]
    rw [hrun.positions (reach_noEmpty h0)]
    show (w4.acc.positions.get p).filter _ = none
    rw [hz]
    simp only [VAccount.noPositions, AMap.get_mapV]
    cases w0.acc.positions.get p with
    | none => rfl
    | some x => simp [AccountPosition.zero, Option.filter]
  · intro r
    rw [hb2]
    have := b2 r
    simp only [VAccount.collPart, Account.collPart] at this
    rw [this, c4]
    by_cases hr : s.accepts r = true
    · simp only [hr, if_true]
      split
      · rfl
      · rename_i hn
        cases hg : acc.collateralBalances.get r with
        | none => rfl
        | some x =>
          exact absurd (List.mem_map.mpr ⟨(r, x), List.mem_filter.mpr ⟨(AMap.get_eq_some).mp hg, hr⟩, rfl⟩) hn
    · simp only [hr]
      split
      · rename_i hm
        obtain ⟨z, hz, rfl⟩ := List.mem_map.mp hm
        exact absurd (List.mem_filter.mp hz).2 hr
      · rfl
  · simp only
    rw [b1, c4]
  · rw [hrun.vb]
    show w4.acc.vb = _
    have hva : ac.vb = acc.vb := by
      have := withdrawCollateral_collOnly hwd
      unfold CollOnly at this
      rw [this]
      exact hrun.vb0
    rw [f3, (credited_parts _ _).1, hw3]
    simp only
    rw [hloss, hw2, hsum1]
    simp only
    rw [hva, hval']
    omega
  · rw [hrun.pool]
    show w4.pool.comp.baseTokens = _
    rw [f1, hw3, hw2]
    simp only
    rw [hd]
    simp only
    rw [snaps_comp _ hsn]
    simp only
    rw [liqLoop_comp _ hlo]
    simp only
    rw [updatePairs_comp _ hu, hrun.pool0]
    rfl

/-! ## C18: a healthy account cannot be liquidated -/

theorem updatePairs_fresh {c : Ctx} (l : List PairId) : ∀ {v v' : VPool},
    (∀ p ∈ l, ∀ pp, v.positions.get p = some pp → pp.lastUpdate = c.now) →
    l.foldlM (fun pool p => do let r ← updatePair c pool p; pure r.1) v = Except.ok v' →
    v'.view PoolPosition.indexes = v.view PoolPosition.indexes := by
  induction l with
  | nil => intro v v' _ h; simp only [List.foldlM_nil, pure_ok] at h; rw [h]
  | cons p l ih =>
    intro v v' hf h
    simp only [List.foldlM_cons, bind_ok, pure_ok] at h
    obtain ⟨v1, ⟨⟨r, b⟩, hr, rfl⟩, h2⟩ := h
    obtain ⟨pc, price, pp0, pp1, dp, sec, per, -, -, hg, hsec, hper, hfu, rfl, -⟩ := updatePair_ok hr
    have h0 := hf p (List.mem_cons_self ..) pp0 hg
    have hz : per = 0 := by
      rw [hper, hsec, h0, sub_self]
      simp [divT, ofInt]
    rw [hz] at hfu
    unfold fundingStep at hfu
    rw [if_neg (by simp)] at hfu
    simp only [pure_ok, Prod.mk.injEq] at hfu
    obtain ⟨rfl, rfl⟩ := hfu
    refine (ih ?_ (by simpa only [bind_ok, pure_ok] using h2)).trans ?_
    · intro q hq pp hpp
      rw [AMap.get_set] at hpp
      split at hpp
      · cases hpp; rfl
      · exact hf q (List.mem_cons_of_mem _ hq) pp hpp
    · funext q
      exact view_set hg (show PoolPosition.indexes { pp0.snapAt price with lastPrice := price, lastUpdate := c.now } = pp0.indexes from rfl) q

theorem AMap.sum_le {K V : Type} [DecidableEq K] {f g : K → V → Int} {m : AMap K V}
    (h : ∀ k v, m.get k = some v → f k v ≤ g k v) : m.sum f ≤ m.sum g := by
  unfold AMap.sum
  have key : ∀ l : List (K × V), (∀ e ∈ l, f e.1 e.2 ≤ g e.1 e.2) →
      (l.map (fun e => f e.1 e.2)).sum ≤ (l.map (fun e => g e.1 e.2)).sum := by
    intro l
    induction l with
    | nil => intro _; exact le_refl _
    | cons e l ih =>
      intro h
      have h1 := h e (List.mem_cons_self ..)
      have h2 := ih (fun x hx => h x (List.mem_cons_of_mem _ hx))
      simp only [List.map_cons, List.sum_cons]
      omega
  exact key _ (fun e he => h e.1 e.2 (AMap.get_mem he))

/-- If the funding of all pairs in which the account holds a position is up to date, a liquidation uses the funding
indexes already recorded. -/
theorem during_fresh {env : Env} {cl : Caller} {s s' : State} {a : Addr} {b : Bucket}
    {u : Option PriceUpdate} {o : Out} {acc : Account}
    (h : step env cl s (.liquidate a b u) = Except.ok (s', o)) (ha : s.accounts.get a = some acc)
    (hf : ∀ p pos, acc.positions.get p = some pos → (s.pool.position s.now p).lastUpdate = s.now)
    {p : PairId} {pos : AccountPosition} (hp : acc.positions.get p = some pos) :
    (Market.during s s').pool p = s.pool.position s.now p := by
  obtain ⟨acc0, acc', ids, s1, c, w0, w, tokens, e, hrun, -, hids, hl, rfl⟩ := run_liquidate (step_body h)
  have hb := hrun.before
  rw [ha] at hb; cases hb
  have hnow : c.now = s.now := (keeperLoad_ok hrun.load).2.1
  obtain ⟨w1, lp, lc, value, ac, tokens, taken, pool, w2, w3, loss, w4, fees, -, hlp, hlc, hlt, -, -, hwd, -, hdep, hst,
    hwo, hfee, rfl, -, rfl⟩ := liquidate_ok hl
  obtain ⟨p1, p2, p3, hu, hlo, hsn, rfl⟩ := liquidatePositions_ok hlp
  have hpool : w4.pool.positions = p3.positions := by
    obtain ⟨e1, -, -, -⟩ := settleFeesReferral_ok hfee
    obtain ⟨-, rfl⟩ := writeOff_ok hwo
    have := settleAccount_ok hst
    subst this
    rw [e1]
    simp only
    rw [VPool.deposit_ok hdep]
  have hv : w4.pool.view PoolPosition.indexes = w0.pool.view PoolPosition.indexes := by
    have h1 := snaps_indexes _ hsn
    have h2 := liqLoop_indexes _ hlo
    have h3 := updatePairs_fresh _ (fun q hq pp hpp => by
      rw [← hrun.poolPos0 hpp, hnow]
      rw [hrun.pos0, AMap.mem_keys] at hq
      obtain ⟨x, hx⟩ := hq
      exact hf q x hx) hu
    have : w4.pool.view PoolPosition.indexes = p3.view PoolPosition.indexes := by
      funext q; simp only [VPool.view, hpool]
    rw [this, h1]
    exact h2.trans h3
  have hmem : p ∈ ids := by
    rw [hids, AMap.mem_keys]; exact ⟨pos, hp⟩
  have g0 := hrun.loaded hmem
  have e2 : w4.pool.view PoolPosition.indexes p = some (s.pool.position s.now p).indexes := by
    rw [hv]; simp only [VPool.view, g0, Option.map_some]
  simp only [VPool.view, Option.map_eq_some_iff] at e2
  obtain ⟨q2, g2, s2⟩ := e2
  have k2 := hrun.poolPos g2
  simp only [PoolPosition.indexes, Prod.mk.injEq] at s2
  simp only [Market.during, k2, s2.1, s2.2]

/-- The maintenance margins in force do not exceed the initial margins, for the pairs an account is invested in. -/
def State.MarginsOrdered (s : State) (acc : Account) : Prop :=
  ∀ p pos, acc.positions.get p = some pos → (s.market.pair p).marginMaintenance ≤ (s.market.pair p).marginInitial

/-- The funding of every pair an account is invested in is up to date. -/
def State.FundingCurrent (s : State) (acc : Account) : Prop :=
  ∀ p pos, acc.positions.get p = some pos → (s.pool.position s.now p).lastUpdate = s.now

/-- **C18.** If an account's value is at least its initial margin, the funding of its pairs is up to date and the
maintenance margins in force do not exceed the initial ones, then no liquidation at the same prices (and time)
succeeds. -/
theorem c18_healthy_not_liquidatable {env : Env} {cl : Caller} {s s' : State} {a : Addr} {b : Bucket}
    {u : Option PriceUpdate} {o : Out} {acc : Account} (ha : s.accounts.get a = some acc)
    (hm : s.initialMargin acc ≤ s.accountValue acc) (hf : s.FundingCurrent acc) (ho : s.MarginsOrdered acc)
    (hp : s'.oracle.prices = s.oracle.prices) :
    step env cl s (.liquidate a b u) ≠ Except.ok (s', o) := by
  intro h
  obtain ⟨hlt, -⟩ := c19_only_below_maintenance h ha
  have hcfg : s'.config = s.config := by
    obtain ⟨acc0, acc', ids, s1, c, w0, w, tokens, e, hrun, -, -, hl, rfl⟩ := run_liquidate (step_body h)
    exact hrun.config
  have hag : (Market.during s s').Agree s.market acc.positions acc.collateralBalances := by
    have hpr : ∀ q, (Market.during s s').price q = s.market.price q := by
      intro q; simp only [Market.during, State.market, hp]
    constructor
    · simp only [Market.during, State.market, hcfg]
    · intro p x _; exact hpr p
    · intro p x _; simp only [Market.during, State.market, hcfg]
    · intro p x hx; exact during_fresh h ha hf hx
    · intro r x _; simp only [Market.during, State.market, hcfg]
    · intro r x cc _ _; exact hpr _
  rw [hag.value, hag.margin] at hlt
  unfold State.accountValue State.initialMargin at hm
  have : s.market.margin PairConfig.marginMaintenance acc.positions acc.collateralBalances ≤
      s.market.margin PairConfig.marginInitial acc.positions acc.collateralBalances := by
    unfold Market.margin
    have := AMap.sum_le (m := acc.positions) (f := s.market.posMargin PairConfig.marginMaintenance)
      (g := s.market.posMargin PairConfig.marginInitial) (fun p x hx => by
        unfold Market.posMargin
        rw [mulT_comm _ (PairConfig.marginMaintenance _), mulT_comm _ (PairConfig.marginInitial _)]
        exact mulT_mono_left (ho p x hx) (abs_nonneg _))
    omega
  omega

/-- Without a price update the prices are those already stored. -/
theorem liquidate_no_update {env : Env} {cl : Caller} {s s' : State} {a : Addr} {b : Bucket} {o : Out}
    (h : step env cl s (.liquidate a b none) = Except.ok (s', o)) : s'.oracle.prices = s.oracle.prices := by
  obtain ⟨acc0, acc', ids, s1, c, w0, w, tokens, e, hrun, -, -, hl, rfl⟩ := run_liquidate (step_body h)
  rw [hrun.oracle]
  have := (keeperLoad_ok hrun.load).2.2.2.1
  simp only [Oracle.maybePush, pure_ok] at this
  rw [← this]

/-- **C18, right after an order.** An order that opens exposure leaves the account in a state in which it cannot be
liquidated at the same prices, under the same two provisos. -/
theorem c18_not_liquidatable_after_order {env : Env} {cl cl' : Caller} {s s' : State} {a : Addr} {i : Nat}
    {u : Option PriceUpdate} {o : Out} {acc acc' : Account} {p : PairId} (h0 : Reach env s)
    (h : step env cl s (.processRequest a i u) = Except.ok (s', o)) (ha : s.accounts.get a = some acc)
    (ha' : s'.accounts.get a = some acc') (hp : ¬ Shrunk (acc.size p) (acc'.size p))
    (hf : s'.FundingCurrent acc') (ho : s'.MarginsOrdered acc') (b : Bucket) (r : State × Out) :
    step env cl' s' (.liquidate a b none) ≠ Except.ok r := by
  intro hl
  exact c18_healthy_not_liquidatable (s' := r.1) (o := r.2) ha' (c16_open_needs_margin h0 h ha ha' hp) hf ho
    (liquidate_no_update hl) hl

/-! ## The hypotheses are met -/

namespace Scn

/-- The price of pair 1 falls from 50000 to 44000. -/
def crash : PriceUpdate := prices 1040 (d 44000) (d 2000) (d 5 2)

/-- Account 100 (long 2) is liquidated at 44000: the liquidator pays 2250 for 50000 tokens worth 2500 and gets the change
back; about 52 are left for the account. -/
example : ∃ s' o, step env anyone (after open_ [.tick 1040]) (.liquidate 100 ⟨BASE, d 3000⟩ (some crash)) = Except.ok (s', o) ∧
    o.buckets = [⟨10, d 50000⟩, ⟨BASE, d 750⟩] ∧ (s'.accounts.get 100).map Account.vb = some 51997860645591741576 :=
  stepped (P := fun s' o => o.buckets = [⟨10, d 50000⟩, ⟨BASE, d 750⟩] ∧
    (s'.accounts.get 100).map Account.vb = some 51997860645591741576) (by decide +kernel)

/-- At the old price the account is healthy, its funding is current and the margins are ordered. -/
example : ∃ acc, open_.accounts.get 100 = some acc ∧ open_.initialMargin acc ≤ open_.accountValue acc ∧
    acc.positions.entries ≠ [] ∧ open_.FundingCurrent acc ∧ open_.MarginsOrdered acc := by
  have h : ∃ acc, open_.accounts.get 100 = some acc ∧ open_.initialMargin acc ≤ open_.accountValue acc ∧
      acc.positions.entries ≠ [] ∧ ∀ e ∈ acc.positions.entries, (open_.pool.position open_.now e.1).lastUpdate = open_.now ∧
        (open_.market.pair e.1).marginMaintenance ≤ (open_.market.pair e.1).marginInitial :=
    tested (P := fun acc => open_.initialMargin acc ≤ open_.accountValue acc ∧
      acc.positions.entries ≠ [] ∧ ∀ e ∈ acc.positions.entries, (open_.pool.position open_.now e.1).lastUpdate = open_.now ∧
        (open_.market.pair e.1).marginMaintenance ≤ (open_.market.pair e.1).marginInitial) (by decide +kernel)
  obtain ⟨acc, h1, h2, h3, h4⟩ := h
  exact ⟨acc, h1, h2, h3, fun p x hx => (h4 (p, x) ((AMap.get_eq_some).mp hx)).1,
    fun p x hx => (h4 (p, x) ((AMap.get_eq_some).mp hx)).2⟩

end Scn
end Perp
