import Verif.Attribution
import Verif.Liquidity
import Verif.Tokens
import Verif.Guarded

/-!
# Where the pool's profit and loss comes from (C65)

Whatever happens on the ledger, what the pool is worth changes for these reasons only: pairs are brought up to date (the price
moved, funding accrued), liquidity is added or removed, the pool keeps its part of a fee, or it bears the debt of a liquidated
account.  While the market stands still nobody but a liquidated debtor can take anything from the liquidity providers.
-/

namespace Perp

/-! ## Specification -/

/-- What a call pays into the pool (positive) or takes from it (negative): liquidity added, less the shares of protocol and
treasury in its fee; liquidity removed, likewise; the pool's part of the fee of an order, a forced close or a liquidation; the
debt that a liquidation leaves to the pool. -/
def Op.poolFlow (op : Op) (o : Out) : Dec :=
  match o.ev with
  | .liquidity e =>
    (match op with
      | .addLiquidity b => b.amt
      | _ => -totalOf o.buckets BASE) + e.fees.protocol + e.fees.treasury
  | .order e => -e.fees.pool
  | .adl e => -e.fees.pool
  | .liquidate e => -e.fees.pool + e.poolLoss
  | _ => 0

/-- Units of the last decimal place that rounding may move: two for an order, one for each position closed by force. -/
def Op.poolRounds (s : State) (op : Op) (o : Out) : Nat :=
  match o.ev with
  | .order _ => 2
  | .adl _ => 1
  | .liquidate _ => (op.updates s o).length
  | _ => 0

/-- The pool keeps what cannot be paid out, or is paid too much, because tokens have a smallest amount. -/
def Op.poolDust (env : Env) (op : Op) : Nat :=
  match op with
  | .collectTreasury | .collectFeeDelegator | .collectReferralRewards _ | .swapProtocolFee _ | .swapDebt .. => env.gran BASE
  | _ => 0

/-- The funding that accrues to the pool when a pair is brought up to date at a price: none in the second in which it was
brought up to date before, nor while one of the sides is empty; otherwise the pool's charge on open interest and skew, and its
share of what the two sides pay each other at the rate reached. -/
def PoolPosition.accrual (pp : PoolPosition) (pc : PairConfig) (price rate : Dec) (now : Int) : Dec :=
  if pp.lastUpdate = now ∨ pp.oiLong = 0 ∨ pp.oiShort = 0 then 0
  else mulT (mulT (mulT (pp.oiLong + pp.oiShort) price) pc.fundingPool0 + mulT |pp.skewAt price| pc.fundingPool1) (pp.years now)
    + mulT (mulT |pp.yearlyRate pc price rate| (pp.years now)) pc.fundingShare

/-- What the pool gains when the pairs `ids` are brought up to date between `s` and `s'`: for each, what its side of the book
gains from the price since it was last marked, and the funding that accrues to it. -/
def State.poolGain (s s' : State) (ids : List PairId) : Dec :=
  (ids.map (fun p => (s.pool.position s.now p).cost - mulT (s.netOi p) (s'.market.price p) - (s.pool.position s.now p).pnlSnap
    + (s.pool.position s.now p).accrual (s.market.pair p) (s'.market.price p) (s'.pool.position s'.now p).funding2Rate s.now)).sum

/-- Every pair has been brought up to date in this second, at the present price. -/
def State.Settled (s : State) : Prop :=
  ∀ p, (s.pool.position s.now p).lastUpdate = s.now ∧ (s.pool.position s.now p).MarkedAt (s.market.price p)

/-- What a call may take from the pool: liquidity removed with its fee, and the debt that a liquidation leaves. -/
def Op.poolTakes (op : Op) (o : Out) : Dec :=
  match o.ev with
  | .liquidity e =>
    (match op with
      | .addLiquidity _ => 0
      | _ => totalOf o.buckets BASE - e.fees.protocol - e.fees.treasury)
  | .liquidate e => -e.poolLoss
  | _ => 0

/-! ## What bringing pairs up to date is worth -/

theorem AMap.term_erase {K V : Type} [DecidableEq K] (f : K → V → Int) (m : AMap K V) (k q : K) :
    (m.erase k).term f q = if q = k then 0 else m.term f q := by
  unfold AMap.term
  rw [AMap.get_erase]
  by_cases h : q = k
  · rw [if_pos h.symm, if_pos h]
  · rw [if_neg (fun e => h e.symm), if_neg h]

theorem AMap.sum_terms {K V : Type} [DecidableEq K] {f : K → V → Int} : ∀ (l : List K) {m m' : AMap K V},
    (∀ k, k ∉ l → m.get k = none) → (∀ k, m.term f k = m'.term f k) → m.sum f = m'.sum f := by
  intro l
  induction l with
  | nil =>
    intro m m' h1 h2
    rw [AMap.sum_zero (m := m) (fun k v hk => by rw [h1 k (by simp)] at hk; cases hk),
      AMap.sum_zero (m := m') (fun k v hk => ?_)]
    have := h2 k
    unfold AMap.term at this
    rw [h1 k (by simp), hk] at this
    exact this.symm
  | cons k l ih =>
    intro m m' h1 h2
    have := ih (m := m.erase k) (m' := m'.erase k) (fun q hq => by
      rw [AMap.get_erase]
      split
      · rfl
      · rename_i hne
        exact h1 q (by simp [hq, Ne.symm hne])) (fun q => by rw [AMap.term_erase, AMap.term_erase, h2 q])
    rw [AMap.sum_erase, AMap.sum_erase, h2 k] at this
    omega

theorem AMap.sum_outside {K V : Type} [DecidableEq K] {f : K → V → Int} : ∀ (l : List K) {m m' : AMap K V}, l.Nodup →
    (∀ k, k ∉ l → m.term f k = m'.term f k) → m.sum f - (l.map (m.term f)).sum = m'.sum f - (l.map (m'.term f)).sum := by
  intro l
  induction l with
  | nil =>
    intro m m' _ h
    simp only [List.map_nil, List.sum_nil, Int.sub_zero]
    exact AMap.sum_terms m.keys (fun k hk => by
      cases hg : m.get k with
      | none => rfl
      | some v => exact absurd (AMap.mem_keys.mpr ⟨v, hg⟩) hk) (fun k => h k (by simp))
  | cons p l ih =>
    intro m m' hn h
    rw [List.nodup_cons] at hn
    have key : ∀ x : AMap K V, x.sum f - ((p :: l).map (x.term f)).sum =
        (x.erase p).sum f - (l.map ((x.erase p).term f)).sum := by
      intro x
      rw [AMap.sum_erase, List.map_cons, List.sum_cons]
      rw [List.map_congr_left (f := (x.erase p).term f) (g := x.term f) (fun q hq => by
        rw [AMap.term_erase, if_neg (fun (e : q = p) => hn.1 (e ▸ hq))])]
      omega
    rw [key, key]
    refine ih hn.2 (fun k hk => ?_)
    rw [AMap.term_erase, AMap.term_erase]
    split
    · rfl
    · rename_i hne
      exact h k (by simp [hne, hk])

theorem pool_term (pl : Pool) (now : Int) (p : PairId) :
    pl.positions.term (fun _ x => x.pnlSnap) p = (pl.position now p).pnlSnap := by
  unfold AMap.term Pool.position
  cases pl.positions.get p <;> rfl

theorem accrual_of {s s1 : State} {p : PairId} {d : Dec} (h : PairBrought s s1 p d) :
    d = (s.pool.position s.now p).accrual (s.market.pair p) (s1.market.price p) (s1.pool.position s1.now p).funding2Rate s.now := by
  unfold PoolPosition.accrual
  by_cases h1 : (s.pool.position s.now p).lastUpdate = s.now
  · rw [if_pos (Or.inl h1)]; exact (h.still h1).2.2.2
  · obtain ⟨-, hm⟩ := h.moved h1
    by_cases h2 : (s.pool.position s.now p).oiLong = 0 ∨ (s.pool.position s.now p).oiShort = 0
    · rw [if_pos (Or.inr h2)]; exact (hm.empty h2).2.2
    · rw [if_neg (by rintro (e | e); exacts [h1 e, h2 e])]
      rw [not_or] at h2
      exact hm.pool h2.1 h2.2

theorem integral_unique {pc : PairConfig} {pp : PoolPosition} {price years rate x y : Dec}
    (h : IntegralMove pc pp price years rate x) (h' : IntegralMove pc pp price years rate y) : x = y := by
  by_cases h1 : pp.rateHi price < rate
  · rw [h.above h1, h'.above h1]
  · by_cases h2 : rate < pp.rateLo price
    · rw [h.below h2, h'.below h2]
    · rw [h.inside (not_lt.mp h2) (not_lt.mp h1), h'.inside (not_lt.mp h2) (not_lt.mp h1)]

/-- The funding booked depends on the price only. -/
theorem accrual_unique {s s1 s2 : State} {p : PairId} {d e : Dec} (h : PairBrought s s1 p d) (h' : PairBrought s s2 p e)
    (hp : s1.market.price p = s2.market.price p) : d = e := by
  rw [accrual_of h, accrual_of h', hp]
  unfold PoolPosition.accrual
  by_cases h1 : (s.pool.position s.now p).lastUpdate = s.now
  · rw [if_pos (Or.inl h1), if_pos (Or.inl h1)]
  · have m1 := (h.moved h1).2.integral
    have m2 := (h'.moved h1).2.integral
    rw [hp] at m1
    rw [integral_unique m1 m2]

theorem market_value {env : Env} {s s1 : State} {u : Option PriceUpdate} {ids : List PairId} (h0 : Reach env s) (hn : ids.Nodup)
    (h : s.Refreshed s1 u ids) : s1.pool.value = s.pool.value + s.poolGain s1 ids := by
  obtain ⟨d, h1, h2⟩ := h.pairs
  have hsum := AMap.sum_outside (f := fun _ (x : PoolPosition) => x.pnlSnap) ids (m := s1.pool.positions) (m' := s.pool.positions)
    hn (fun p hp => by rw [pool_term _ s.now, pool_term _ s.now, h.rest p hp])
  rw [← h.snaps.2, ← (c04_aggregate_snapshots h0).2] at hsum
  rw [List.map_congr_left (g := fun p => (s.pool.position s.now p).cost - mulT (s.netOi p) (s1.market.price p)) (fun p hp => by
    rw [pool_term _ s.now, (h.marked p hp).2, (h.sizes p).1, (h.sizes p).2.1, (h.sizes p).2.2]
    rfl)] at hsum
  rw [List.map_congr_left (f := s.pool.positions.term (fun _ x => x.pnlSnap)) (g := fun p => (s.pool.position s.now p).pnlSnap)
    (fun p _ => pool_term _ s.now p)] at hsum
  have hg : s.poolGain s1 ids =
      (ids.map (fun p => (s.pool.position s.now p).cost - mulT (s.netOi p) (s1.market.price p))).sum
        - (ids.map (fun p => (s.pool.position s.now p).pnlSnap)).sum + (ids.map d).sum := by
    unfold State.poolGain
    clear hsum h h2 hn
    induction ids with
    | nil => rfl
    | cons p l ih =>
      simp only [List.map_cons, List.sum_cons]
      rw [ih (fun q hq => h1 q (by simp [hq])), ← accrual_of (h1 p (by simp))]; ring
  rw [hg]
  unfold Pool.value
  rw [h2, h.tokens.1, h.tokens.2]
  linarith

/-- **C65, a market that stands still.** Bringing pairs up to date again in the same second at the same price is worth nothing. -/
theorem c65_still {s s' : State} {ids : List PairId}
    (hs : ∀ p ∈ ids, (s.pool.position s.now p).lastUpdate = s.now ∧ (s.pool.position s.now p).MarkedAt (s'.market.price p)) :
    s.poolGain s' ids = 0 := by
  unfold State.poolGain
  rw [List.map_congr_left (g := fun _ => (0 : Int)) (fun p hp => ?_)]
  · simp
  · obtain ⟨a, b⟩ := hs p hp
    unfold PoolPosition.accrual
    rw [b.2, if_pos (Or.inl a)]
    unfold State.netOi; ring

/-! ## One call -/

theorem removeCollateral_worth {c : Ctx} {w w' : W} {r : RemoveCollateralReq} {tokens : List Bucket}
    (h : removeCollateral c w r = Except.ok (w', tokens)) (hb : w.pool.base = w.pool.comp.baseTokens) :
    w'.pool.worth = w.pool.worth ∧ w'.pool.base = w'.pool.comp.baseTokens := by
  obtain ⟨claims, t, acc, bs, -, ht, hw, -, -, rfl, -⟩ := removeCollateral_ok h
  have := foldlM_rel (P := fun a b : W × List Bucket × List (Res × Dec) => b.1.pool.worth = a.1.pool.worth ∧
      (a.1.pool.base = a.1.pool.comp.baseTokens → b.1.pool.base = b.1.pool.comp.baseTokens))
    (fun _ => ⟨rfl, id⟩) (fun a b c h1 h2 => ⟨h2.1.trans h1.1, fun h => h2.2 (h1.2 h)⟩)
    (fun a b d h => by
      rcases claimOne_ok h with ⟨-, -, -, pool, x, w, hp, hw, rfl⟩ | ⟨-, -, rfl⟩
      · obtain ⟨-, rfl⟩ := VPool.withdraw_ok hp
        rw [settleAccount_ok hw]
        refine ⟨?_, fun h => ?_⟩
        · unfold VPool.worth; simp only; ring
        · simp only; rw [h]
      · exact ⟨rfl, id⟩) _ ht
  exact ⟨this.1, this.2 hb⟩

theorem refreshed_nothing {env : Env} {s : State} (h0 : Reach env s) : s.Refreshed s none [] where
  same := rfl
  prices := rfl
  pairs := ⟨fun _ => 0, by simp, by simp⟩
  marked := by simp
  sizes := fun _ => ⟨rfl, rfl, rfl⟩
  rest := fun _ _ => rfl
  tokens := ⟨rfl, rfl⟩
  snaps := c04_aggregate_snapshots h0

/-- Prices after a keeper's call are the stored ones with the update pushed. -/
theorem keeper_prices {env : Env} {s s1 : State} {u : Option PriceUpdate} {ids : List PairId} {c : Ctx} {pool : VPool}
    (h : keeperLoad env s ids u = Except.ok (s1, c, pool)) : s1.oracle.prices = s.pricesWith u :=
  (maybePush_prices (keeperLoad_ok h).2.2.2.1).1

theorem same_price {s1 s' : State} (h : s1.oracle.prices = s'.oracle.prices) (p : PairId) :
    s1.market.price p = s'.market.price p := by
  unfold State.market
  simp only [h]

theorem updates_loop {c : Ctx} : ∀ (l : List PairId) {v v' : VPool} {flags : List Bool},
    updatePairsLoop c v l = Except.ok (v', flags) →
    l.foldlM (fun pool p => do let r ← updatePair c pool p; pure r.1) v = Except.ok v' := by
  intro l
  induction l with
  | nil =>
    intro v v' flags h
    simp only [updatePairsLoop, Except.ok.injEq, Prod.mk.injEq] at h
    simp only [List.foldlM_nil, pure_ok, h.1]
  | cons p l ih =>
    intro v v' flags h
    simp only [updatePairsLoop, bind_ok, pure_ok, Prod.mk.injEq] at h
    obtain ⟨⟨v2, b⟩, h1, ⟨p2, bs⟩, h2, rfl, -⟩ := h
    simp only [List.foldlM_cons, bind_ok, pure_ok]
    exact ⟨v2, ⟨⟨v2, b⟩, h1, rfl⟩, by simpa only [bind_ok, pure_ok] using ih h2⟩

/-- Methods that mark no pair move the pool's value only by tokens and its balance. -/
theorem unmarked_value {env : Env} {cl : Caller} {s s' : State} {op : Op} {o : Out} (h0 : Reach env s)
    (h : step env cl s op = Except.ok (s', o)) (hn : op.marks = false) :
    s'.pool.value = s.pool.value + (s'.pool.baseTokens - s.pool.baseTokens) + (s'.pool.vb - s.pool.vb) := by
  have hb := step_body h
  have h1 := body_pool_unreal hb hn
  have h2 := (c04_aggregate_snapshots (h0.step h)).2
  rw [body_pool_positions hb hn, ← (c04_aggregate_snapshots h0).2] at h2
  unfold Pool.value
  rw [h1, h2]; ring

/-- Methods that charge no fee report none. -/
theorem feeless {env : Env} {cl : Caller} {s s' : State} {op : Op} {o : Out} (h : body env cl s op = Except.ok (s', o))
    (hn : op.marks = false) (hl : ∀ b, op ≠ .addLiquidity b) (hr : ∀ b, op ≠ .removeLiquidity b) : o.ev.fees = none := by
  suffices H : NoFees (body env cl s op) from H _ h
  cases op <;> first | (cases hn; done) | (exact absurd rfl (hl _)) | (exact absurd rfl (hr _)) | skip
  all_goals
    simp only [body]
    repeat (first | exact NoFees.pure rfl | (refine NoFees.bind ?_; intro _) | split)

theorem flow_none {op : Op} {o : Out} (h : o.ev.fees = none) : op.poolFlow o = 0 := by
  unfold Op.poolFlow
  cases he : o.ev <;> rw [he] at h <;> first | rfl | (cases h; done)

/-- What the methods that mark no pair do to the pool's tokens and balance. -/
theorem unmarked_flow {env : Env} {cl : Caller} {s s' : State} {op : Op} {o : Out} (h0 : Reach env s)
    (h : step env cl s op = Except.ok (s', o)) (hn : op.marks = false) :
    op.poolFlow o ≤ (s'.pool.baseTokens - s.pool.baseTokens) + (s'.pool.vb - s.pool.vb) ∧
    (s'.pool.baseTokens - s.pool.baseTokens) + (s'.pool.vb - s.pool.vb) ≤ op.poolFlow o + op.poolDust env := by
  have hb := step_body h
  have dust : (0 : Int) ≤ op.poolDust env := Int.natCast_nonneg _
  by_cases hl : ∃ b, op = .addLiquidity b
  · obtain ⟨b, rfl⟩ := hl
    obtain ⟨cfg, fee, lp, price, -, -, -, -, -, -, hs, -, -, ev, he, -⟩ := opAddLiquidity_ok hb
    have hd := (c21_fee_split h0 h (f := ev.fees) (by rw [he]; rfl)).dist
    have e1 : s'.pool.baseTokens = s.pool.baseTokens + b.amt := by rw [hs]
    have e2 : s'.pool.vb = s.pool.vb + ev.fees.protocol + ev.fees.treasury := by
      have p1 := congrArg FeeDist.protocol hd
      have p2 := congrArg FeeDist.treasury hd
      rw [hs] at p1 p2 ⊢
      simp only at p1 p2 ⊢
      linarith
    unfold Op.poolFlow
    rw [he]
    simp only
    constructor <;> linarith
  by_cases hr : ∃ b, op = .removeLiquidity b
  · obtain ⟨b, rfl⟩ := hr
    obtain ⟨cfg, price, value, fee, x, -, -, -, -, -, -, -, -, -, hs, -, hbk, -, -, ev, he, -⟩ := opRemoveLiquidity_ok hb
    have hd := (c21_fee_split h0 h (f := ev.fees) (by rw [he]; rfl)).dist
    have e1 : s'.pool.baseTokens = s.pool.baseTokens - x := by rw [hs]
    have e2 : s'.pool.vb = s.pool.vb + ev.fees.protocol + ev.fees.treasury := by
      have p1 := congrArg FeeDist.protocol hd
      have p2 := congrArg FeeDist.treasury hd
      rw [hs] at p1 p2 ⊢
      simp only at p1 p2 ⊢
      linarith
    have e3 : totalOf o.buckets BASE = x := by rw [hbk]; simp [totalOf]
    unfold Op.poolFlow
    rw [he]
    simp only
    constructor <;> linarith
  have hf : op.poolFlow o = 0 := flow_none (feeless hb hn (fun b e => hl ⟨b, e⟩) (fun b e => hr ⟨b, e⟩))
  rw [hf]
  have same : s'.pool = s.pool → _ := fun (e : s'.pool = s.pool) => (show
      0 ≤ (s'.pool.baseTokens - s.pool.baseTokens) + (s'.pool.vb - s.pool.vb) ∧
      (s'.pool.baseTokens - s.pool.baseTokens) + (s'.pool.vb - s.pool.vb) ≤ 0 + op.poolDust env by
    rw [e]; constructor <;> linarith)
  by_cases ho : op.offPool = true
  · exact same (body_off hb ho).1
  by_cases hh : op.holder = true
  · have : ∃ a, op.account = some a := by cases op <;> first | exact ⟨_, rfl⟩ | (cases hh; done)
    obtain ⟨a, ha⟩ := this
    rcases body_account hb ha with ⟨_, -, acc, hacc⟩ | ⟨_, _, _, ⟨_, _, _, e⟩, -⟩
    · obtain ⟨acc', he⟩ := holder_effect hb ha hh hacc
      exact same he.pool
    · rw [e] at hh; cases hh
  have received : ∀ x, s'.pool = s.pool.received x → 
      0 ≤ (s'.pool.baseTokens - s.pool.baseTokens) + (s'.pool.vb - s.pool.vb) ∧
      (s'.pool.baseTokens - s.pool.baseTokens) + (s'.pool.vb - s.pool.vb) ≤ 0 + op.poolDust env := by
    intro x e
    rw [e]; unfold Pool.received; simp only
    constructor <;> linarith
  have collect : ∀ x, s.feeBalance op = some x → op.poolDust env = env.gran BASE →
      0 ≤ (s'.pool.baseTokens - s.pool.baseTokens) + (s'.pool.vb - s.pool.vb) ∧
      (s'.pool.baseTokens - s.pool.baseTokens) + (s'.pool.vb - s.pool.vb) ≤ 0 + op.poolDust env := by
    intro x e e'
    obtain ⟨⟨paid, rest, -, h1, h2, -, -, h3, h4, -⟩, -⟩ := c32_paid_once h0 h e
    rw [e']
    constructor <;> linarith
  cases op <;> first | (cases hn; done) | (exact absurd rfl ho) | (exact absurd rfl hh) | (exact absurd ⟨_, rfl⟩ hl) |
    (exact absurd ⟨_, rfl⟩ hr) | (exact collect _ rfl rfl) | skip
  case createAccount a oath rule t code =>
    obtain ⟨acc', extra, rid, -, -, hs, -⟩ := c60_create_account h
    exact received (totalOf (t ++ extra) BASE) (by rw [hs])
  case addCollateral oath a t =>
    obtain ⟨acc, acc', -, -, hs, -⟩ := c60_add_collateral h
    exact received (totalOf t BASE) (by rw [hs])
  case swapDebt a r b u =>
    rcases body_account hb rfl with ⟨_, -, acc, hacc⟩ | ⟨_, _, _, ⟨_, _, _, e⟩, -⟩
    · obtain ⟨-, -, acc', got, repaid, taken, -, -, -, -, -, -, -, -, -, h1, h2, -, h3, h4, -⟩ := c30_swap_debt h0 h hacc
      rw [h3, h4]
      have : (Op.poolDust env (.swapDebt a r b u) : Int) = env.gran BASE := rfl
      rw [this]
      constructor <;> linarith
    · cases e
  case collectReferralRewards id =>
    obtain ⟨d, y, hd, -⟩ := (c60_collect (env := env) (cl := cl) (s := s) (s' := s') (o := o)).2.2 id h
    exact collect d.balance (by simp only [State.feeBalance, hd, Option.map_some]) rfl

/-- Whatever call succeeds, there is the state `s1` in which just the pairs that the call deals with have
been brought up to date, at the prices after the call, and the pool is worth afterwards what it is worth in `s1` plus what the
call pays into it, up to the rounding of trades; what else rounding leaves over, the pool keeps. -/
theorem pool_call {env : Env} {cl : Caller} {s s' : State} {op : Op} {o : Out} (h0 : Reach env s)
    (h : step env cl s op = Except.ok (s', o)) :
    ∃ s1 u, s.Refreshed s1 u (op.updates s o) ∧ (∀ p ∈ op.updates s o, s1.market.price p = s'.market.price p) ∧
      s1.pool.value + op.poolFlow o - op.poolRounds s o ≤ s'.pool.value ∧
      s'.pool.value ≤ s1.pool.value + op.poolFlow o + op.poolRounds s o + op.poolDust env := by
  have hb := step_body h
  have dust : (0 : Int) ≤ op.poolDust env := Int.natCast_nonneg _
  have rnd : (0 : Int) ≤ op.poolRounds s o := Int.natCast_nonneg _
  have idle : op.updates s o = [] → s.pool.value + op.poolFlow o ≤ s'.pool.value →
      s'.pool.value ≤ s.pool.value + op.poolFlow o + op.poolDust env →
      ∃ s1 u, s.Refreshed s1 u (op.updates s o) ∧ (∀ p ∈ op.updates s o, s1.market.price p = s'.market.price p) ∧
      s1.pool.value + op.poolFlow o - op.poolRounds s o ≤ s'.pool.value ∧
      s'.pool.value ≤ s1.pool.value + op.poolFlow o + op.poolRounds s o + op.poolDust env := by
    intro h1 h2 h3
    exact ⟨s, none, by rw [h1]; exact refreshed_nothing h0, by rw [h1]; simp, by linarith, by linarith⟩
  by_cases hm : op.marks = false
  · have hval := unmarked_value h0 h hm
    have hup : op.updates s o = [] := by cases op <;> first | rfl | (cases hm; done)
    obtain ⟨h1, h2⟩ := unmarked_flow h0 h hm
    exact idle hup (by linarith) (by linarith)
  · cases op <;> first | (exact absurd rfl hm) | skip
    case processRequest a i u =>
      by_cases hx : o.ev = .expired
      · obtain ⟨v, v1, r, expired, cfg, hv, hpr, -, -, -, hh⟩ := processRequest_ok hb
        have hf : Op.poolFlow (.processRequest a i u) o = 0 := flow_none (by rw [hx]; rfl)
        have hpool : s'.pool = s.pool := by
          rcases hh with ⟨-, acc, refs, -, hs, -⟩ | ⟨-, s1, c, w, out, acc, refs, hr⟩
          · rw [hs]; rfl
          · obtain ⟨-, hex, -, -, ho⟩ := hr
            rcases executeRequest_ok hex with ⟨q, tokens, -, -, e⟩ | ⟨q, e, -, -, e⟩ <;> rw [ho, e] at hx <;> cases hx
        refine idle (by simp only [Op.updates, hx]) ?_ ?_ <;> rw [hf, hpool] <;> linarith
      obtain ⟨acc, acc', kr, ids, s1, c, w0, w, out, hrun, -, -, -, hex, hev, -, -⟩ := run_execute hb hx
      rcases executeRequest_ok hex with ⟨q, tokens, -, hrc, ho⟩ | ⟨q, e, -, hmo, ho⟩
      · have he : o.ev = .removeCollateral q.target tokens := by rw [hev, ho]
        have hf : Op.poolFlow (.processRequest a i u) o = 0 := flow_none (by rw [he]; rfl)
        obtain ⟨k1, k2⟩ := removeCollateral_worth hrc (by rw [hrun.pool0]; rfl)
        have hval : s'.pool.value = s.pool.value := by
          have e : w.pool.realize.value = w0.pool.worth := (midway_value (s1 := s) k2).1.trans k1
          rw [hrun.pool, e, hrun.pool0]
          rfl
        refine idle (by simp only [Op.updates, he]) ?_ ?_ <;> rw [hf, hval] <;> linarith
      · have he : o.ev = .order e := by rw [hev, ho]
        obtain ⟨s2, r1, -, r2, -⟩ := c55_order h0 h he hrun.before hrun.after
        have hup : Op.updates s (.processRequest a i u) o = [e.pair] := by simp only [Op.updates, he]
        have hfl : Op.poolFlow (.processRequest a i u) o = -e.fees.pool := by simp only [Op.poolFlow, he]
        have hro : (Op.poolRounds s (.processRequest a i u) o : Int) = 2 := by simp only [Op.poolRounds, he]; rfl
        rw [abs_le] at r2
        refine ⟨s2, u, by rw [hup]; exact r1, fun p _ => same_price ?_ p, ?_, ?_⟩
        · rw [r1.prices, hrun.oracle, keeper_prices hrun.load]
        · rw [hfl, hro]; linarith
        · rw [hfl, hro]; linarith
    case liquidate a b u =>
      obtain ⟨acc, acc', ids, s1, c, w0, w, tokens, e, hrun, -, hids, -, ho⟩ := run_liquidate hb
      have he : o.ev = .liquidate e := by rw [ho]
      obtain ⟨s2, taken, r1, -, -, -, -, -, r2, -⟩ := c55_liquidation h0 h he hrun.before hrun.after
      have hup : Op.updates s (.liquidate a b u) o = acc.positions.keys := by simp only [Op.updates, hrun.before, Option.elim_some]
      have hfl : Op.poolFlow (.liquidate a b u) o = -e.fees.pool + e.poolLoss := by simp only [Op.poolFlow, he]
      have hro : (Op.poolRounds s (.liquidate a b u) o : Int) = acc.positions.keys.length := by
        simp only [Op.poolRounds, he, hup]
      rw [abs_le] at r2
      refine ⟨s2, u, by rw [hup]; exact r1, fun p _ => same_price ?_ p, ?_, ?_⟩
      · rw [r1.prices, hrun.oracle, keeper_prices hrun.load]
      · rw [hfl, hro]; linarith
      · rw [hfl, hro]; linarith
    case autoDeleverage a p u =>
      obtain ⟨acc, acc', ids, s1, c, w0, w, e, hrun, -, -, ho⟩ := run_adl hb
      have he : o.ev = .adl e := by rw [ho]
      obtain ⟨s2, r1, -, r2, -⟩ := c55_adl h0 h he hrun.before hrun.after
      have hfl : Op.poolFlow (.autoDeleverage a p u) o = -e.fees.pool := by simp only [Op.poolFlow, he]
      have hro : (Op.poolRounds s (.autoDeleverage a p u) o : Int) = 1 := by simp only [Op.poolRounds, he]; rfl
      rw [abs_le] at r2
      refine ⟨s2, u, r1, fun p _ => same_price ?_ p, ?_, ?_⟩
      · rw [r1.prices, hrun.oracle, keeper_prices hrun.load]
      · rw [hfl, hro]; linarith
      · rw [hfl, hro]; linarith
    case updatePairs ids u =>
      obtain ⟨s1, c, pool, flags, n, hk, hl, -, hs, ho⟩ := opUpdatePairs_ok hb
      have hfl : Op.poolFlow (.updatePairs ids u) o = 0 := flow_none (by rw [ho]; rfl)
      have r1 := (midway_refreshed h0 hk (fun _ hp => hp) (List.nodup_dedup ids) (updates_loop _ hl)).1
      have e : s'.pool = (s1.midway pool).pool := by rw [hs]; rfl
      refine ⟨s1.midway pool, u, r1, fun p _ => same_price ?_ p, ?_, ?_⟩
      · rw [hs]; rfl
      · rw [hfl, e]; linarith
      · rw [hfl, e]; linarith

/-- **C65, one call.** Whatever call succeeds, the pool is worth afterwards what it was worth before, plus what it gains in the
pairs that the call brings up to date, plus what the call pays into it, up to the rounding of trades; what else rounding leaves
over, the pool keeps. -/
theorem c65_call {env : Env} {cl : Caller} {s s' : State} {op : Op} {o : Out} (h0 : Reach env s)
    (h : step env cl s op = Except.ok (s', o)) :
    s.pool.value + s.poolGain s' (op.updates s o) + op.poolFlow o - op.poolRounds s o ≤ s'.pool.value ∧
    s'.pool.value ≤ s.pool.value + s.poolGain s' (op.updates s o) + op.poolFlow o + op.poolRounds s o + op.poolDust env := by
  obtain ⟨s1, u, r, hp, h1, h2⟩ := pool_call h0 h
  have hn : (op.updates s o).Nodup := by
    cases op <;> simp only [Op.updates, List.nodup_nil]
    case processRequest => split <;> simp
    case liquidate a b u => cases s.accounts.get a <;> simp [AMap.keys_nodup]
    case autoDeleverage => simp
    case updatePairs ids u => exact List.nodup_dedup _
  have hg : s.poolGain s1 (op.updates s o) = s.poolGain s' (op.updates s o) := by
    obtain ⟨d, hd, -⟩ := r.pairs
    unfold State.poolGain
    congr 1
    refine List.map_congr_left (fun p hpp => ?_)
    obtain ⟨e, he⟩ := (c43_update h0 h).1 p hpp
    rw [← accrual_of (hd p hpp), ← accrual_of he, hp p hpp, accrual_unique (hd p hpp) he (hp p hpp)]
  have := market_value h0 hn r
  rw [hg] at this
  constructor <;> linarith

/-- **C65, who can take.** Except for removed liquidity and the debts left by liquidations, every call pays into the pool or
leaves it as it is (unless the fee for adding liquidity is more than what is added). -/
theorem c65_flow {env : Env} {cl : Caller} {s s' : State} {op : Op} {o : Out} (h0 : Reach env s)
    (h : step env cl s op = Except.ok (s', o))
    (hf : ∀ b e, op = .addLiquidity b → o.ev = .liquidity e → e.fees.total ≤ b.amt) : -op.poolTakes o ≤ op.poolFlow o := by
  have hp : ∀ f, o.ev.fees = some f → 0 ≤ -f.pool ∧ -f.protocol - f.treasury ≤ f.total := by
    intro f hx
    have hs := c21_fee_split h0 h hx
    have h1 := hs.pool
    have h2 := hs.nonneg
    refine ⟨by omega, ?_⟩
    unfold FeeSplit.total at *
    omega
  unfold Op.poolTakes Op.poolFlow
  cases he : o.ev with
  | liquidity e =>
    have hx := hp e.fees (by rw [he]; rfl)
    simp only
    cases op <;> simp only <;> try omega
    case addLiquidity b =>
      have := hf b e rfl he
      omega
  | order e => have := hp e.fees (by rw [he]; rfl); simp only; omega
  | adl e => have := hp e.fees (by rw [he]; rfl); simp only; omega
  | liquidate e => have := hp e.fees (by rw [he]; rfl); simp only; omega
  | _ => simp

/-! ## Histories -/

/-- A history of calls by anybody, with the payments into the pool, its gains in the market, and the allowed rounding. -/
inductive PoolCareer (env : Env) (s : State) : Dec → Dec → Nat → Nat → State → Prop
  | start : PoolCareer env s 0 0 0 0 s
  | call {f g : Dec} {n d : Nat} {s1 s2 : State} {cl : Caller} {op : Op} {o : Out} : PoolCareer env s f g n d s1 →
      step env cl s1 op = Except.ok (s2, o) →
      PoolCareer env s (f + op.poolFlow o) (g + s1.poolGain s2 (op.updates s1 o)) (n + op.poolRounds s1 o) (d + op.poolDust env) s2

theorem PoolCareer.reach {env : Env} {s s' : State} {f g : Dec} {n d : Nat} (h0 : Reach env s) (h : PoolCareer env s f g n d s') :
    Reach env s' := by
  induction h with
  | start => exact h0
  | call _ hs ih => exact ih.step hs

/-- **C65, histories.** The pool's profit over any history is what it gained in the market while holding the other side of the
book, plus what was paid in. -/
theorem c65_history {env : Env} {s s' : State} {f g : Dec} {n d : Nat} (h0 : Reach env s) (h : PoolCareer env s f g n d s') :
    s.pool.value + g + f - n ≤ s'.pool.value ∧ s'.pool.value ≤ s.pool.value + g + f + n + d := by
  induction h with
  | start => constructor <;> simp
  | call hc hs ih =>
    obtain ⟨h1, h2⟩ := c65_call (hc.reach h0) hs
    push_cast
    constructor <;> linarith [ih.1, ih.2]

/-! ## While the market stands still -/

/-- Calls within one second at unchanged prices keep every pair up to date. -/
theorem settled_step {env : Env} {cl : Caller} {s s' : State} {op : Op} {o : Out} (h0 : Reach env s)
    (h : step env cl s op = Except.ok (s', o)) (hn : s'.now = s.now) (hp : ∀ p, s'.market.price p = s.market.price p)
    (hs : s.Settled) : s'.Settled := by
  intro p
  obtain ⟨h1, h2⟩ := c43_update h0 h
  constructor
  · by_cases hu : p ∈ op.updates s o
    · obtain ⟨d, hd⟩ := h1 p hu
      exact hd.stamped.1
    · rw [hn, (h2 p hu).2.2.2.2]; exact (hs p).1
  · by_cases hc : s'.pool.positions.get p = s.pool.positions.get p
    · have : s'.pool.position s'.now p = s.pool.position s.now p := by unfold Pool.position; rw [hc, hn]
      rw [this, hp]; exact (hs p).2
    · obtain ⟨pp, price, t, g1, g2, g3⟩ := c04_touched_pairs_marked h (Or.inr hc)
      have e1 : s'.pool.position s'.now p = pp := by unfold Pool.position; rw [g1]; rfl
      have e2 : s'.market.price p = price := by unfold State.market; simp only [g2]; rfl
      rw [e1, e2]; exact g3

/-- A history of calls within one second at unchanged prices. -/
inductive PoolStill (env : Env) (s : State) : Dec → Nat → Nat → State → Prop
  | start : PoolStill env s 0 0 0 s
  | call {f : Dec} {n d : Nat} {s1 s2 : State} {cl : Caller} {op : Op} {o : Out} : PoolStill env s f n d s1 →
      step env cl s1 op = Except.ok (s2, o) → s2.now = s1.now → (∀ p, s2.market.price p = s1.market.price p) →
      PoolStill env s (f + op.poolFlow o) (n + op.poolRounds s1 o) (d + op.poolDust env) s2

/-- **C65, nobody takes from the pool while the market stands still.** If every pair is up to date, then whatever calls anybody
makes while the clock and the prices stand still, the pool is worth what it was worth plus what was paid in. -/
theorem c65_still_history {env : Env} {s s' : State} {f : Dec} {n d : Nat} (h0 : Reach env s) (hs : s.Settled)
    (h : PoolStill env s f n d s') :
    (s.pool.value + f - n ≤ s'.pool.value ∧ s'.pool.value ≤ s.pool.value + f + n + d) ∧ s'.Settled := by
  suffices H : Reach env s' ∧ (s.pool.value + f - n ≤ s'.pool.value ∧ s'.pool.value ≤ s.pool.value + f + n + d) ∧ s'.Settled from H.2
  induction h with
  | start => exact ⟨h0, by constructor <;> simp, hs⟩
  | @call f n d s1 s2 cl op o hc hst hn hp ih =>
    obtain ⟨r, ⟨i1, i2⟩, i3⟩ := ih
    obtain ⟨h1, h2⟩ := c65_call r hst
    have hg : s1.poolGain s2 (op.updates s1 o) = 0 := c65_still (fun p _ => by
      rw [hp p]; exact i3 p)
    rw [hg] at h1 h2
    push_cast
    exact ⟨r.step hst, ⟨by linarith, by linarith⟩, settled_step r hst hn hp i3⟩

theorem liquidity_op {env : Env} {cl : Caller} {s s' : State} {op : Op} {o : Out} {e : LiquidityEv}
    (h : body env cl s op = Except.ok (s', o)) (he : o.ev = .liquidity e) :
    (∃ b, op = .addLiquidity b) ∨ ∃ b, op = .removeLiquidity b := by
  by_contra hc
  rw [not_or] at hc
  by_cases hm : op.marks = false
  · have := feeless h hm (fun b e => hc.1 ⟨b, e⟩) (fun b e => hc.2 ⟨b, e⟩)
    rw [he] at this; cases this
  · cases op <;> first | (exact absurd rfl hm) | skip
    case processRequest a i u =>
      obtain ⟨acc, acc', kr, ids, s1, c, w0, w, out, -, -, -, -, hex, hev, -, -⟩ :=
        run_execute h (by rw [he]; intro x; cases x)
      rcases executeRequest_ok hex with ⟨q, tokens, -, -, ho⟩ | ⟨q, e, -, -, ho⟩ <;> rw [hev, ho] at he <;> cases he
    case liquidate a b u =>
      obtain ⟨acc, acc', ids, s1, c, w0, w, tokens, e, -, -, -, -, ho⟩ := run_liquidate h
      rw [ho] at he; cases he
    case autoDeleverage a p u =>
      obtain ⟨acc, acc', ids, s1, c, w0, w, e, -, -, -, ho⟩ := run_adl h
      rw [ho] at he; cases he
    case updatePairs ids u =>
      obtain ⟨s1, c, pool, flags, n, -, -, -, -, ho⟩ := opUpdatePairs_ok h
      rw [ho] at he; cases he

/-- **C65, one LP token.** While the market stands still, a call that neither removes all LP tokens nor leaves a debt to the
pool costs the holders of LP tokens nothing but the rounding of trades: adding and removing liquidity does not lower the
published price, and all other calls leave the number of LP tokens and at least the value of the pool. -/
theorem c65_lp_holders {env : Env} {cl : Caller} {s s' : State} {op : Op} {o : Out} (h0 : Reach env s) (hs : s.Settled)
    (h : step env cl s op = Except.ok (s', o)) (hp : ∀ p, s'.market.price p = s.market.price p)
    (hd : ∀ e, o.ev = .liquidate e → e.poolLoss = 0)
    (hV : ONE ≤ s.pool.value) (hS : s.lpSupply ≠ 0) (hS' : s'.lpSupply ≠ 0)
    (hfee : s.config.exchange.decompress.feeLiquidityAdd ≤ ONE)
    (hfee' : s.config.exchange.decompress.feeLiquidityRemove ≤ ONE) :
    s.lpPrice ≤ s'.lpPrice ∨ (s'.lpSupply = s.lpSupply ∧ s.pool.value - op.poolRounds s o ≤ s'.pool.value) := by
  by_cases hop : ∃ b, op = .addLiquidity b ∨ op = .removeLiquidity b
  · exact Or.inl (c31_price_never_falls h0 h hop hV hS hS' hfee hfee')
  · right
    have hl : ∀ b, op ≠ .addLiquidity b := fun b e => hop ⟨b, Or.inl e⟩
    have hr : ∀ b, op ≠ .removeLiquidity b := fun b e => hop ⟨b, Or.inr e⟩
    refine ⟨((body_apart (step_body h)).lp).resolve_right (by rintro (⟨b, e⟩ | ⟨b, e⟩); exacts [hl b e, hr b e]), ?_⟩
    have h1 := (c65_call h0 h).1
    have h2 := c65_flow h0 h (fun b _ e => absurd e (hl b))
    rw [c65_still (fun p _ => by rw [hp p]; exact hs p)] at h1
    have h3 : op.poolTakes o = 0 := by
      unfold Op.poolTakes
      cases he : o.ev with
      | liquidity e =>
        rcases liquidity_op (step_body h) he with ⟨b, e⟩ | ⟨b, e⟩
        · exact absurd e (hl b)
        · exact absurd e (hr b)
      | liquidate e => simp only [hd e he, neg_zero]
      | _ => rfl
    linarith

end Perp
