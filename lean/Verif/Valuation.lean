import Verif.Placement

/-!
# What an account is worth

The specification (`Market`, `Market.value`, `Market.margin`) and the proof that the code's valuation computes it.
-/

namespace Perp

deriving instance Inhabited for PairConfig

namespace AMap
variable {K V : Type} [DecidableEq K]

/-- Keep the entries whose value satisfies a test (specification only). -/
def filterV (P : V → Bool) (m : AMap K V) : AMap K V :=
  ⟨m.entries.filter (fun e => P e.2), m.nodup.sublist (List.filter_sublist.map _)⟩

theorem lget_filter (P : V → Bool) (k : K) (l : List (K × V)) (h : (l.map Prod.fst).Nodup) :
    lget k (l.filter (fun e => P e.2)) = (lget k l).filter P := by
  induction l with
  | nil => rfl
  | cons x l ih =>
    obtain ⟨k', v⟩ := x
    simp only [List.map_cons, List.nodup_cons] at h
    simp only [List.filter_cons]
    by_cases hk : k' = k
    · subst hk
      have hn : lget k' l = none := lget_eq_none.mpr h.1
      by_cases hp : P v = true
      · simp [hp, lget, Option.filter]
      · simp [hp, lget, ih h.2, hn, Option.filter]
    · by_cases hp : P v = true
      · simp [hp, lget, hk, ih h.2]
      · simp [hp, lget, hk, ih h.2]

theorem get_filterV (P : V → Bool) (m : AMap K V) (k : K) : (m.filterV P).get k = (m.get k).filter P :=
  lget_filter P k m.entries m.nodup

theorem sum_filterV {P : V → Bool} {f : K → V → Int} {m : AMap K V}
    (h : ∀ k v, m.get k = some v → P v = false → f k v = 0) : (m.filterV P).sum f = m.sum f := by
  have h' : ∀ e ∈ m.entries, P e.2 = false → f e.1 e.2 = 0 := fun e he => h e.1 e.2 (get_mem he)
  have key : ∀ l : List (K × V), (∀ e ∈ l, P e.2 = false → f e.1 e.2 = 0) →
      ((l.filter (fun e => P e.2)).map (fun e => f e.1 e.2)).sum = (l.map (fun e => f e.1 e.2)).sum := by
    intro l
    induction l with
    | nil => intro _; rfl
    | cons x l ih =>
      intro h'
      have ih := ih (fun e he => h' e (List.mem_cons_of_mem _ he))
      by_cases hp : P x.2 = true
      · simp only [List.filter_cons, hp, if_true, List.map_cons, List.sum_cons, ih]
      · have := h' x (List.mem_cons_self ..) (by simpa using hp)
        simp only [List.filter_cons, hp, Bool.false_eq_true, if_false, List.map_cons, List.sum_cons, ih, this, zero_add]
  exact key _ h'

theorem sum_of_filter {P : V → Bool} {f : K → V → Int} {m m' : AMap K V}
    (hg : ∀ k, m'.get k = (m.get k).filter P) (h : ∀ k v, m.get k = some v → P v = false → f k v = 0) :
    m'.sum f = m.sum f := by
  rw [← sum_filterV h]
  exact sum_ext (fun k => by rw [hg, get_filterV])

end AMap

/-! ## Specification -/

/-- The fee for moving `amount` of a pair at `price` when longs exceed shorts by `skew`:
`(|v|·fee0 + v·(2·skew·price + v)·fee1)·multiplier`, at least nothing and at most `|v|·feeMax`, with `v = amount·price`.
(`v·(2k + v) = (k + v)² - k²` is the growth of the squared skew.) -/
def tradeFee (feeMax fee0 fee1 multiplier price skew amount : Dec) : Dec :=
  max 0 (min
    (mulT (mulT |mulT amount price| fee0 +
      mulT (mulT (mulT amount price) (2 * mulT skew price + mulT amount price)) fee1) multiplier)
    (mulT |mulT amount price| feeMax))

/-- Funding an account owes on a position: its size times the growth of its side's index since it was last settled. -/
def AccountPosition.fundingDue (pos : AccountPosition) (pp : PoolPosition) : Dec :=
  mulT |pos.amount| ((if pos.amount > 0 then pp.fundingLongIndex else pp.fundingShortIndex) - pos.fundingIndex)

theorem fundingOwed_eq (pp : PoolPosition) (pos : AccountPosition) : fundingOwed pp pos = pos.fundingDue pp := by
  unfold fundingOwed AccountPosition.fundingDue
  split
  · rename_i h; rw [abs_of_pos h]
  · rename_i h; rw [abs_of_nonpos (not_lt.mp h)]

/-- The data an account is valued with: prices, the configuration in force and the pool's state per pair. -/
structure Market where
  ex : ExchangeConfig
  price : PairId → Dec
  pair : PairId → PairConfig
  coll : Res → Option CollateralConfig
  pool : PairId → PoolPosition

/-- Profit from closing a whole position at the market price: its value less its cost, the closing fee and the funding
owed. -/
def Market.pnl (m : Market) (rebate : Dec) (p : PairId) (pos : AccountPosition) : Dec :=
  mulT pos.amount (m.price p) - pos.cost
    - tradeFee m.ex.feeMax (m.pair p).fee0 (m.pair p).fee1 rebate (m.price p)
        ((m.pool p).oiLong - (m.pool p).oiShort) (-pos.amount)
    - pos.fundingDue (m.pool p)

theorem feeOf_tradeFee {ex : ExchangeConfig} {pc : PairConfig} {pp : PoolPosition} {rebate price amount : Dec} :
    feeOf ex pc pp rebate price (mulT amount price) =
      tradeFee ex.feeMax pc.fee0 pc.fee1 rebate price (pp.oiLong - pp.oiShort) amount := rfl

theorem Market.pnl_eq (m : Market) (rebate : Dec) (p : PairId) (pos : AccountPosition) :
    m.pnl rebate p pos = mulT pos.amount (m.price p) - pos.cost
      - feeOf m.ex (m.pair p) (m.pool p) rebate (m.price p) (-mulT pos.amount (m.price p)) - fundingOwed (m.pool p) pos := by
  unfold Market.pnl
  rw [fundingOwed_eq, ← mulT_neg_left, feeOf_tradeFee]

/-- Margin required for a position: a fraction of its absolute value. -/
def Market.posMargin (m : Market) (f : PairConfig → Dec) (p : PairId) (pos : AccountPosition) : Dec :=
  mulT |mulT pos.amount (m.price p)| (f (m.pair p))

/-- Discounted value of an amount of collateral; collateral that is not configured is worth nothing. -/
def Market.collValue (m : Market) (r : Res) (x : Dec) : Dec :=
  match m.coll r with
  | some cc => mulT (mulT x (m.price cc.pairId)) cc.discount
  | none => 0

/-- Margin required for holding collateral. -/
def Market.collMargin (m : Market) (r : Res) (x : Dec) : Dec :=
  match m.coll r with
  | some cc => mulT (mulT x (m.price cc.pairId)) cc.margin
  | none => 0

/-- Account value: profit of all positions plus discounted collateral plus virtual balance. -/
def Market.value (m : Market) (rebate : Dec) (pos : AMap PairId AccountPosition) (bal : AMap Res Dec) (vb : Dec) : Dec :=
  pos.sum (m.pnl rebate) + bal.sum m.collValue + vb

/-- Margin requirement, `f` selecting initial or maintenance margin. -/
def Market.margin (m : Market) (f : PairConfig → Dec) (pos : AMap PairId AccountPosition) (bal : AMap Res Dec) : Dec :=
  pos.sum (m.posMargin f) + bal.sum m.collMargin

/-- The market in a state. -/
def State.market (s : State) : Market where
  ex := s.config.exchange.decompress
  price p := ((s.oracle.prices.get p).map Prod.fst).getD 0
  pair p := ((s.config.pairs.get p).map PairConfigC.decompress).getD default
  coll r := (s.config.collaterals.get r).map CollateralConfigC.decompress
  pool p := s.pool.position s.now p

/-- The fee multiplier of an account in a state: one minus the rebate of its referral. -/
def State.rebateOf (s : State) (acc : Account) : Dec :=
  match acc.referralId.bind s.referrals.get with
  | some d => ONE - d.feeRebate
  | none => ONE

/-- The value of an account in a state. -/
def State.accountValue (s : State) (acc : Account) : Dec :=
  s.market.value (s.rebateOf acc) acc.positions acc.collateralBalances acc.vb

/-- Its initial and maintenance margin requirements. -/
def State.initialMargin (s : State) (acc : Account) : Dec :=
  s.market.margin PairConfig.marginInitial acc.positions acc.collateralBalances

def State.maintenanceMargin (s : State) (acc : Account) : Dec :=
  s.market.margin PairConfig.marginMaintenance acc.positions acc.collateralBalances

/-! ## The code computes it -/

/-- The market seen by a call. -/
def Ctx.market (c : Ctx) (pool : VPool) : Market where
  ex := c.cfg.ex
  price p := (c.orc.prices.get p).getD 0
  pair p := (c.cfg.pairs.get p).getD default
  coll r := c.cfg.colls.get r
  pool p := (pool.positions.get p).getD (PoolPosition.dflt c.now)

/-- The call's price table maps every configured collateral to its feed. -/
def Ctx.Feeds (c : Ctx) : Prop := c.orc.resMap = c.cfg.colls.mapV (fun _ cc => cc.pairId)

theorem Ctx.Feeds.price {c : Ctx} (h : c.Feeds) {r : Res} {cc : CollateralConfig} (hr : c.cfg.colls.get r = some cc)
    {x : Dec} (hx : c.orc.priceResource r = Except.ok x) : c.orc.prices.get cc.pairId = some x := by
  simp only [VOracle.priceResource, bind_ok, expect_ok, VOracle.price_ok] at hx
  obtain ⟨p, hp, hx⟩ := hx
  rw [h, AMap.get_mapV, hr] at hp
  simp only [Option.map_some, Option.some.injEq] at hp
  rw [hp]; exact hx

/-- Everything needed to value a position is available. -/
def Ctx.Known (c : Ctx) (pool : VPool) (p : PairId) : Prop :=
  (∃ pc, c.cfg.pairs.get p = some pc) ∧ (∃ x, c.orc.prices.get p = some x) ∧ ∃ pp, pool.positions.get p = some pp

theorem valuePositions_ok {c : Ctx} {pool : VPool} {a : VAccount} {t : Dec × Dec}
    (h : valuePositions c pool a = Except.ok t) :
    t.1 = a.positions.sum ((c.market pool).pnl a.rebate) ∧
    t.2 = a.positions.sum ((c.market pool).posMargin PairConfig.marginInitial) ∧
    ∀ p pos, a.positions.get p = some pos → c.Known pool p := by
  simp only [valuePositions, bind_ok] at h
  obtain ⟨rb, hrb, h⟩ := h
  have hrb := feeRebate_ok hrb
  subst hrb
  have key : ∀ (l : List (PairId × AccountPosition)) (t0 t : Dec × Dec),
      l.foldlM (valuePosition c pool a.rebate) t0 = Except.ok t →
      t.1 = t0.1 + (l.map (fun e => (c.market pool).pnl a.rebate e.1 e.2)).sum ∧
      t.2 = t0.2 + (l.map (fun e => (c.market pool).posMargin PairConfig.marginInitial e.1 e.2)).sum ∧
      ∀ e ∈ l, c.Known pool e.1 := by
    intro l
    induction l with
    | nil =>
      intro t0 t h
      simp only [List.foldlM_nil, pure_ok] at h
      subst h
      simp
    | cons e l ih =>
      intro t0 t h
      simp only [List.foldlM_cons, bind_ok] at h
      obtain ⟨t1, h1, h2⟩ := h
      obtain ⟨a1, a2, a3⟩ := ih t1 t h2
      simp only [valuePosition, bind_ok, pure_ok, VPool.position_ok, VOracle.price_ok, VConfig.pair_ok,
        dneg_ok, dmul_ok, dabs_ok, dsub_ok, dadd_ok] at h1
      obtain ⟨pc, hpc, price, hprice, _, ⟨-, rfl⟩, _, ⟨-, rfl⟩, _, ⟨-, rfl⟩, pp, hpp, fee, hfee, fund, hfund,
        _, ⟨-, rfl⟩, _, ⟨-, rfl⟩, _, ⟨-, rfl⟩, _, ⟨-, rfl⟩, _, ⟨-, rfl⟩, _, ⟨-, rfl⟩, _, ⟨-, rfl⟩, rfl⟩ := h1
      obtain ⟨rfl, -⟩ := calculateFee_ok hfee
      have hfund := positionFunding_ok hfund
      subst hfund
      refine ⟨?_, ?_, ?_⟩
      · rw [a1]
        simp only [List.map_cons, List.sum_cons, Market.pnl_eq, Ctx.market, hpc, hprice, hpp, Option.getD_some,
          mulT_neg_left]
        ring
      · rw [a2]
        simp only [List.map_cons, List.sum_cons, Market.posMargin, Ctx.market, hpc, hprice, Option.getD_some,
          mulT_neg_left, abs_neg]
        ring
      · intro x hx
        rcases List.mem_cons.mp hx with rfl | hx
        · exact ⟨⟨pc, hpc⟩, ⟨price, hprice⟩, ⟨pp, hpp⟩⟩
        · exact a3 x hx
  obtain ⟨h1, h2, h3⟩ := key _ _ _ h
  refine ⟨by rw [h1]; simp [AMap.sum], by rw [h2]; simp [AMap.sum], ?_⟩
  intro p pos hp
  exact h3 (p, pos) ((AMap.get_eq_some).mp hp)

theorem valueCollateral_ok {c : Ctx} (hf : c.Feeds) (pool : VPool) {a : VAccount} {t : Dec × Dec}
    (h : valueCollateral c a = Except.ok t) :
    t.1 = a.collateralBalances.sum (c.market pool).collValue ∧
    t.2 = a.collateralBalances.sum (c.market pool).collMargin ∧
    ∀ r x cc, a.collateralBalances.get r = some x → c.cfg.colls.get r = some cc →
      ∃ y, c.orc.prices.get cc.pairId = some y := by
  unfold valueCollateral at h
  have key : ∀ (l : List (Res × Dec)) (t0 t : Dec × Dec),
      l.foldlM (valueCollateralOne c) t0 = Except.ok t →
      t.1 = t0.1 + (l.map (fun e => (c.market pool).collValue e.1 e.2)).sum ∧
      t.2 = t0.2 + (l.map (fun e => (c.market pool).collMargin e.1 e.2)).sum ∧
      ∀ e ∈ l, ∀ cc, c.cfg.colls.get e.1 = some cc → ∃ y, c.orc.prices.get cc.pairId = some y := by
    intro l
    induction l with
    | nil =>
      intro t0 t h
      simp only [List.foldlM_nil, pure_ok] at h
      subst h
      simp
    | cons e l ih =>
      intro t0 t h
      simp only [List.foldlM_cons, bind_ok] at h
      obtain ⟨t1, h1, h2⟩ := h
      obtain ⟨a1, a2, a3⟩ := ih t1 t h2
      unfold valueCollateralOne at h1
      cases hc : c.cfg.colls.get e.1 with
      | none =>
        rw [hc] at h1
        simp only [pure_ok] at h1
        subst h1
        refine ⟨?_, ?_, ?_⟩
        · rw [a1]; simp [Market.collValue, Ctx.market, hc]
        · rw [a2]; simp [Market.collMargin, Ctx.market, hc]
        · intro x hx cc hcc
          rcases List.mem_cons.mp hx with rfl | hx
          · rw [hc] at hcc; cases hcc
          · exact a3 x hx cc hcc
      | some cc =>
        rw [hc] at h1
        simp only [bind_ok, pure_ok, dmul_ok, dadd_ok] at h1
        obtain ⟨price, hp, _, ⟨-, rfl⟩, _, ⟨-, rfl⟩, _, ⟨-, rfl⟩, _, ⟨-, rfl⟩, _, ⟨-, rfl⟩, rfl⟩ := h1
        have hp' := hf.price hc hp
        refine ⟨?_, ?_, ?_⟩
        · rw [a1]; simp only [List.map_cons, List.sum_cons, Market.collValue, Ctx.market, hc, hp', Option.getD_some]; ring
        · rw [a2]; simp only [List.map_cons, List.sum_cons, Market.collMargin, Ctx.market, hc, hp', Option.getD_some]; ring
        · intro x hx cc' hcc
          rcases List.mem_cons.mp hx with rfl | hx
          · rw [hc] at hcc; cases hcc; exact ⟨price, hp'⟩
          · exact a3 x hx cc' hcc
  obtain ⟨h1, h2, h3⟩ := key _ _ _ h
  refine ⟨by rw [h1]; simp [AMap.sum], by rw [h2]; simp [AMap.sum], ?_⟩
  intro r x cc hp hcc
  exact h3 (r, x) ((AMap.get_eq_some).mp hp) cc hcc

theorem assertAccountIntegrity_ok {c : Ctx} (hf : c.Feeds) {pool : VPool} {a : VAccount}
    (h : assertAccountIntegrity c pool a = Except.ok ()) :
    (c.market pool).margin PairConfig.marginInitial a.positions a.collateralBalances ≤
      (c.market pool).value a.rebate a.positions a.collateralBalances a.vb ∧
    (∀ p pos, a.positions.get p = some pos → c.Known pool p) ∧
    ∀ r x cc, a.collateralBalances.get r = some x → c.cfg.colls.get r = some cc →
      ∃ y, c.orc.prices.get cc.pairId = some y := by
  simp only [assertAccountIntegrity, bind_ok, dadd_ok, require_ok, decide_eq_true_eq] at h
  obtain ⟨t, ht, t', ht', _, ⟨-, rfl⟩, _, ⟨-, rfl⟩, _, ⟨-, rfl⟩, h⟩ := h
  obtain ⟨a1, a2, a3⟩ := valuePositions_ok ht
  obtain ⟨b1, b2, b3⟩ := valueCollateral_ok hf pool ht'
  refine ⟨?_, a3, b3⟩
  rw [a1, a2, b1, b2] at h
  exact h

/-! ## Two markets that agree on what an account holds -/

structure Market.Agree (m m' : Market) (pos : AMap PairId AccountPosition) (bal : AMap Res Dec) : Prop where
  ex : m.ex = m'.ex
  price : ∀ p x, pos.get p = some x → m.price p = m'.price p
  pair : ∀ p x, pos.get p = some x → m.pair p = m'.pair p
  pool : ∀ p x, pos.get p = some x → m.pool p = m'.pool p
  coll : ∀ r x, bal.get r = some x → m.coll r = m'.coll r
  collPrice : ∀ r x cc, bal.get r = some x → m'.coll r = some cc → m.price cc.pairId = m'.price cc.pairId

theorem Market.Agree.value {m m' : Market} {pos : AMap PairId AccountPosition} {bal : AMap Res Dec}
    (h : m.Agree m' pos bal) (rebate vb : Dec) : m.value rebate pos bal vb = m'.value rebate pos bal vb := by
  unfold Market.value
  congr 2
  · refine AMap.sum_congr (fun p x hx => ?_)
    simp only [Market.pnl_eq, h.ex, h.price p x hx, h.pair p x hx, h.pool p x hx]
  · refine AMap.sum_congr (fun r x hx => ?_)
    simp only [Market.collValue, h.coll r x hx]
    cases hc : m'.coll r with
    | none => rfl
    | some cc => simp only [h.collPrice r x cc hx hc]

theorem Market.Agree.margin {m m' : Market} {pos : AMap PairId AccountPosition} {bal : AMap Res Dec}
    (h : m.Agree m' pos bal) (f : PairConfig → Dec) : m.margin f pos bal = m'.margin f pos bal := by
  unfold Market.margin
  congr 1
  · refine AMap.sum_congr (fun p x hx => ?_)
    simp only [Market.posMargin, h.price p x hx, h.pair p x hx]
  · refine AMap.sum_congr (fun r x hx => ?_)
    simp only [Market.collMargin, h.coll r x hx]
    cases hc : m'.coll r with
    | none => rfl
    | some cc => simp only [h.collPrice r x cc hx hc]

/-- Empty positions do not count. -/
theorem Market.pnl_empty (m : Market) (rebate : Dec) (p : PairId) {pos : AccountPosition} (h : pos.amount = 0)
    (hc : pos.cost = 0) : m.pnl rebate p pos = 0 := by
  rw [Market.pnl_eq]; unfold feeOf fundingOwed rawFee
  simp [h, hc, mulT_zero_left]

theorem Market.posMargin_empty (m : Market) (f : PairConfig → Dec) (p : PairId) {pos : AccountPosition} (h : pos.amount = 0) :
    m.posMargin f p pos = 0 := by
  unfold Market.posMargin
  simp [h, mulT_zero_left]

end Perp
