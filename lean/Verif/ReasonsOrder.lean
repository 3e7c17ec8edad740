import Verif.ReasonsTrade

/-!
# C54 for orders: why an order is refused when it is executed
-/

namespace Perp

/-! ## Specification: what an order would do -/

/-- The part of an order that closes a position of `size`: never more than the position. -/
def closingPart (size amount : Dec) : Dec :=
  if 0 < size ∧ amount < 0 then max amount (-size) else if size < 0 ∧ 0 < amount then min amount (-size) else 0

/-- The part of an order that opens: what is left, unless it may only reduce. -/
def openingPart (size amount : Dec) (reduceOnly : Bool) : Dec :=
  if reduceOnly then 0 else amount - closingPart size amount

/-- The open interest of a pair after closing `cl` (negative: of longs) and opening `op` (positive: of longs). -/
def PoolPosition.traded (pp : PoolPosition) (cl op : Dec) : PoolPosition :=
  { pp with oiLong := pp.oiLong + min cl 0 + max op 0, oiShort := pp.oiShort - max cl 0 - min op 0 }

/-- The state with the open interest of one pair after a trade. -/
def State.traded (s : State) (p : PairId) (cl op : Dec) : State :=
  { s with pool := { s.pool with positions := s.pool.positions.set p ((s.pool.position s.now p).traded cl op) } }

/-- The account after closing `cl` and opening `op` of a pair at the price of the state: the funding of the position is settled,
what is closed is realised at its share of the cost, and what is opened costs its value and the fee. -/
def State.accountAfter (s : State) (acc : Account) (p : PairId) (cl op : Dec) : Account :=
  let pos := acc.positions.getD p AccountPosition.zero
  let price := s.market.price p
  let released := mulT (divT (-cl) pos.amount) pos.cost
  { acc with
    positions := acc.positions.set p
      { amount := pos.amount + cl + op
        cost := pos.cost - released + (mulT op price + s.tradeFee acc p price (s.netOi p + cl) op)
        fundingIndex := if pos.amount + cl + op > 0 then (s.market.pool p).fundingLongIndex
                        else (s.market.pool p).fundingShortIndex }
    vb := acc.vb - pos.fundingDue (s.market.pool p)
      + (-mulT cl price - released - s.tradeFee acc p price (s.netOi p) cl) }

/-- **Specification.** Why an order can be refused when it is executed. `s1` is the state with the new prices and the pair of the
order brought up to date. -/
def OrderRefused (env : Env) (s : State) (acc : Account) (q : MarginOrderReq) (u : Option PriceUpdate) : Err → Prop
  | .priceLimit => ∃ x t, (s.pricesWith u).get q.pair = some (x, t) ∧ ¬ q.priceLimit.Holds x
  | .slippageLimit => ∃ s1, s.Refreshed s1 u [q.pair] ∧
      let cl := closingPart (acc.size q.pair) q.amount
      let op := openingPart (acc.size q.pair) q.amount q.reduceOnly
      ¬ q.slippageLimit.Holds (s1.orderFee acc q.pair cl op) (mulT (s1.market.price q.pair) |cl + op|)
  | .pairOiTooHigh => ∃ s1, s.Refreshed s1 u [q.pair] ∧
      let cl := closingPart (acc.size q.pair) q.amount
      let op := openingPart (acc.size q.pair) q.amount q.reduceOnly
      let pp := (s1.pool.position s1.now q.pair).traded cl op
      (0 < op ∧ (s1.market.pair q.pair).oiMax < pp.oiLong) ∨ (op < 0 ∧ (s1.market.pair q.pair).oiMax < pp.oiShort)
  | .positionsTooMany => ∃ s1, s.Refreshed s1 u [q.pair] ∧
      let cl := closingPart (acc.size q.pair) q.amount
      let op := openingPart (acc.size q.pair) q.amount q.reduceOnly
      op ≠ 0 ∧ s.config.exchange.decompress.positionsMax < (s1.accountAfter acc q.pair cl op).positions.size
  | .insufficientMargin => ∃ s1, s.Refreshed s1 u [q.pair] ∧
      let cl := closingPart (acc.size q.pair) q.amount
      let op := openingPart (acc.size q.pair) q.amount q.reduceOnly
      op ≠ 0 ∧ (s1.traded q.pair cl op).accountValue (s1.accountAfter acc q.pair cl op) <
        (s1.traded q.pair cl op).initialMargin (s1.accountAfter acc q.pair cl op)
  | .skewTooHigh => ∃ s1, s.Refreshed s1 u [q.pair] ∧
      let cl := closingPart (acc.size q.pair) q.amount
      let op := openingPart (acc.size q.pair) q.amount q.reduceOnly
      s.config.exchange.decompress.skewRatioCap ≤ s1.ratioAfter acc q.pair cl op ∧
      |mulT (s1.netOi q.pair) (s1.market.price q.pair)| ≤ |mulT (s1.netOi q.pair + cl + op) (s1.market.price q.pair)|
  | .missingRequest => ∃ j, (j ∈ q.activate ∨ j ∈ q.cancel) ∧ acc.requests.length ≤ j
  | e => PricesRefused env s (insertId acc.positions.keys q.pair) u e

/-! ## The margin check -/

theorem assertAccountIntegrity_fails {c : Ctx} {pool : VPool} {a : VAccount} {ids : List PairId} {P : Err → Prop}
    (h : c.Ready ids) (hf : c.Feeds) (hh : pool.Has ids) (hids : ∀ p ∈ a.positions.keys, p ∈ ids) (hP : P .arithmetic)
    (hm : (∀ p pos, a.positions.get p = some pos → c.Known pool p) →
      (∀ r x cc, a.collateralBalances.get r = some x → c.cfg.colls.get r = some cc →
        ∃ y, c.orc.prices.get cc.pairId = some y) →
      (c.market pool).value a.rebate a.positions a.collateralBalances a.vb <
        (c.market pool).margin PairConfig.marginInitial a.positions a.collateralBalances → P .insufficientMargin) :
    Fails P (assertAccountIntegrity c pool a) := by
  unfold assertAccountIntegrity
  refine fails_bind ((valuePositions_errs h hh hids).arithmetic hP) (fun vp hvp => ?_)
  refine fails_bind ((valueCollateral_errs h).arithmetic hP) (fun vc hvc => ?_)
  obtain ⟨a1, a2, a3⟩ := valuePositions_ok hvp
  obtain ⟨b1, b2, b3⟩ := valueCollateral_ok hf pool hvc
  refine fails_bind ((errs_dadd (l := arith) (by decide) _ _).arithmetic hP) (fun v1 hv1 => ?_)
  refine fails_bind ((errs_dadd (l := arith) (by decide) _ _).arithmetic hP) (fun v2 hv2 => ?_)
  refine fails_bind ((errs_dadd (l := arith) (by decide) _ _).arithmetic hP) (fun m hm' => ?_)
  rw [dadd_ok] at hv1 hv2 hm'
  obtain ⟨-, rfl⟩ := hv1
  obtain ⟨-, rfl⟩ := hv2
  obtain ⟨-, rfl⟩ := hm'
  refine fails_check (fun hn => hm a3 b3 ?_)
  rw [a1, a2, b1, b2] at hn
  exact not_le.mp hn

/-- The market after a trade, seen in the middle of a call and in the specification. -/
theorem traded_value {env : Env} {s s1 : State} {ids : List PairId} {u : Option PriceUpdate} {c : Ctx} {pool v v' : VPool}
    (hk : keeperLoad env s ids u = Except.ok (s1, c, pool)) (hcoh : PoolCoh s.now v) {p : PairId} {pp pp2 : PoolPosition}
    {cl op : Dec} (hpp : v.positions.get p = some pp) (hpp2 : v'.positions.get p = some pp2)
    (hrest : ∀ q, q ≠ p → v'.positions.get q = v.positions.get q)
    (hl : pp2.oiLong = (pp.traded cl op).oiLong) (hs : pp2.oiShort = (pp.traded cl op).oiShort)
    (hi : pp2.indexes = pp.indexes)
    {pos : AMap PairId AccountPosition} {bal : AMap Res Dec} (hkn : ∀ p x, pos.get p = some x → c.Known v' p)
    (hc : ∀ r x cc, bal.get r = some x → c.cfg.colls.get r = some cc → ∃ y, c.orc.prices.get cc.pairId = some y)
    (rb vb : Dec) :
    (c.market v').value rb pos bal vb = ((s1.midway v).traded p cl op).market.value rb pos bal vb ∧
    (c.market v').margin PairConfig.marginInitial pos bal =
      ((s1.midway v).traded p cl op).market.margin PairConfig.marginInitial pos bal := by
  have hnow : (s1.midway v).now = s.now := (keeperLoad_state hk).2.1
  have hag := midway_agree (v := v) (pos := pos) (bal := bal) hk hcoh (fun q x hq => by
    obtain ⟨e1, e2, y, hy⟩ := hkn q x hq
    refine ⟨e1, e2, ?_⟩
    by_cases hqp : q = p
    · subst hqp; exact ⟨pp, hpp⟩
    · rw [hrest q hqp] at hy; exact ⟨y, hy⟩) hc
  have hpos : ∀ q x, pos.get q = some x →
      (((s1.midway v).traded p cl op).market.pool q).oiLong = ((c.market v').pool q).oiLong ∧
      (((s1.midway v).traded p cl op).market.pool q).oiShort = ((c.market v').pool q).oiShort ∧
      (((s1.midway v).traded p cl op).market.pool q).fundingLongIndex = ((c.market v').pool q).fundingLongIndex ∧
      (((s1.midway v).traded p cl op).market.pool q).fundingShortIndex = ((c.market v').pool q).fundingShortIndex := by
    intro q x hq
    by_cases hqp : q = p
    · subst hqp
      have e1 : (c.market v').pool q = pp2 := by simp only [Ctx.market, hpp2, Option.getD_some]
      have e2 : ((s1.midway v).traded q cl op).market.pool q = pp.traded cl op := by
        have : (s1.midway v).pool.position (s1.midway v).now q = pp := by rw [hnow]; exact hcoh q pp hpp
        change (((s1.midway v).pool.positions.set q (((s1.midway v).pool.position (s1.midway v).now q).traded cl op)).get q).getD _ = _
        rw [AMap.get_set_self, this]; rfl
      rw [e1, e2, hl, hs]
      unfold PoolPosition.indexes at hi
      simp only [Prod.mk.injEq] at hi
      refine ⟨rfl, rfl, ?_, ?_⟩
      · rw [hi.1]; rfl
      · rw [hi.2]; rfl
    · have e1 : (c.market v').pool q = (c.market v).pool q := by simp only [Ctx.market, hrest q hqp]
      have e2 : ((s1.midway v).traded p cl op).market.pool q = (s1.midway v).market.pool q := by
        change (((s1.midway v).pool.positions.set p _).get q).getD _ = ((s1.midway v).pool.positions.get q).getD _
        rw [AMap.get_set_ne _ _ (Ne.symm hqp)]; rfl
      rw [e1, e2, hag.pool q x hq]; exact ⟨rfl, rfl, rfl, rfl⟩
  have hcoll : bal.sum (c.market v').collValue = bal.sum ((s1.midway v).traded p cl op).market.collValue ∧
      bal.sum (c.market v').collMargin = bal.sum ((s1.midway v).traded p cl op).market.collMargin := by
    constructor <;> refine AMap.sum_congr (fun r x hr => ?_)
    · have a1 : ((s1.midway v).traded p cl op).market.coll r = (s1.midway v).market.coll r := rfl
      have a2 := hag.coll r x hr
      have a3 : (c.market v').coll r = (c.market v).coll r := rfl
      unfold Market.collValue
      rw [a3, a2, a1]
      cases hm : (s1.midway v).market.coll r with
      | none => rfl
      | some cc => 
        have := hag.collPrice r x cc hr hm
        change mulT (mulT x ((c.market v).price cc.pairId)) _ = mulT (mulT x ((s1.midway v).market.price cc.pairId)) _
        rw [this]
    · have a1 : ((s1.midway v).traded p cl op).market.coll r = (s1.midway v).market.coll r := rfl
      have a2 := hag.coll r x hr
      have a3 : (c.market v').coll r = (c.market v).coll r := rfl
      unfold Market.collMargin
      rw [a3, a2, a1]
      cases hm : (s1.midway v).market.coll r with
      | none => rfl
      | some cc => 
        have := hag.collPrice r x cc hr hm
        change mulT (mulT x ((c.market v).price cc.pairId)) _ = mulT (mulT x ((s1.midway v).market.price cc.pairId)) _
        rw [this]
  have hprice : ∀ q x, pos.get q = some x → (c.market v').price q = ((s1.midway v).traded p cl op).market.price q :=
    fun q x hq => hag.price q x hq
  have hpair : ∀ q x, pos.get q = some x → (c.market v').pair q = ((s1.midway v).traded p cl op).market.pair q :=
    fun q x hq => hag.pair q x hq
  have hex : (c.market v').ex = ((s1.midway v).traded p cl op).market.ex := hag.ex
  constructor
  · unfold Market.value
    rw [hcoll.1]
    congr 2
    refine AMap.sum_congr (fun q x hq => ?_)
    obtain ⟨z1, z2, z3, z4⟩ := hpos q x hq
    simp only [Market.pnl_eq, hprice q x hq, hpair q x hq, hex, feeOf, rawFee, fundingOwed, z1, z2, z3, z4]
  · unfold Market.margin
    rw [hcoll.2]
    congr 1
    refine AMap.sum_congr (fun q x hq => ?_)
    simp only [Market.posMargin, hprice q x hq, hpair q x hq]

/-! ## Closing and opening -/

/-- The working state after the funding of a position has been settled and a part of it closed. -/
structure Reduced (c : Ctx) (w : W) (p : PairId) (pp : PoolPosition) (pc : PairConfig) (x cl fee : Dec) (w2 : W) : Prop where
  pool : ∃ pp2, w2.pool.positions.get p = some pp2 ∧ (∀ q, q ≠ p → w2.pool.positions.get q = w.pool.positions.get q) ∧
    pp2.oiLong = pp.oiLong + min cl 0 ∧ pp2.oiShort = pp.oiShort - max cl 0 ∧ pp2.indexes = pp.indexes
  positions : ∀ y, w2.acc.positions.set p y = w.acc.positions.set p y
  amount : (w2.acc.position p).amount = (w.acc.position p).amount + cl
  cost : (w2.acc.position p).cost = (w.acc.position p).cost - mulT (divT (-cl) (w.acc.position p).amount) (w.acc.position p).cost
  vb : w2.acc.vb = w.acc.vb - (w.acc.position p).fundingDue pp
    + (-mulT cl x - mulT (divT (-cl) (w.acc.position p).amount) (w.acc.position p).cost - fee)
  fee : fee = tradeFee c.cfg.ex.feeMax pc.fee0 pc.fee1 w.acc.rebate x (pp.oiLong - pp.oiShort) cl
  balances : w2.acc.collateralBalances = w.acc.collateralBalances
  rebate : w2.acc.rebate = w.acc.rebate
  referral : ∀ f, referralPart c.cfg.ex w2.acc f = referralPart c.cfg.ex w.acc f
  requests : w2.acc.reqPart = w.acc.reqPart

theorem zero_fundingDue (pp : PoolPosition) : AccountPosition.zero.fundingDue pp = 0 := by
  unfold AccountPosition.fundingDue AccountPosition.zero
  simp [mulT_zero_left]

theorem reduced_mk {c : Ctx} {w w1 w2 : W} {p : PairId} {pp : PoolPosition} {pc : PairConfig} {x n cl pnl fee : Dec}
    (hpp : w.pool.positions.get p = some pp) (hpc : c.cfg.pairs.get p = some pc) (hx : c.orc.prices.get p = some x)
    (hf : settleFunding w p = Except.ok (w1, n)) (hc : closePart c w1 p cl = Except.ok (w2, pnl, fee)) :
    Reduced c w p pp pc x cl fee w2 := by
  obtain ⟨pp', hpp', hn, hpool, hacc, -⟩ := settleFunding_ok hf
  rw [hpp] at hpp'; cases hpp'
  obtain ⟨s1, s2⟩ := settleFunding_position hf
  have hvb : w1.acc.vb = w.acc.vb - (w.acc.position p).fundingDue pp := by
    rw [hacc]
    simp only
    rw [hn]
    unfold VAccount.position AMap.getD
    cases w.acc.positions.get p with
    | none => simp [zero_fundingDue]
    | some y => simp only [Option.elim_some, Option.getD_some, fundingOwed_eq]; ring
  have hset : ∀ y, w1.acc.positions.set p y = w.acc.positions.set p y := by
    intro y
    rw [hacc]
    simp only
    split
    · rw [AMap.set_set]
    · rfl
  have hpos1 : w1.pool.positions = w.pool.positions := by rw [hpool]
  have hreb1 : w1.acc.rebate = w.acc.rebate := by rw [hacc]; rfl
  have href1 : ∀ f, referralPart c.cfg.ex w1.acc f = referralPart c.cfg.ex w.acc f := by intro f; rw [hacc]; rfl
  have hreq1 : w1.acc.reqPart = w.acc.reqPart := by rw [hacc]; rfl
  have hcb1 : w1.acc.collateralBalances = w.acc.collateralBalances := by rw [hacc]
  by_cases hcl : cl = 0
  · subst hcl
    unfold closePart at hc
    rw [if_neg (by simp)] at hc
    simp only [pure_ok, Prod.mk.injEq] at hc
    obtain ⟨rfl, rfl, rfl⟩ := hc
    have hz : mulT (divT (-0) (w.acc.position p).amount) (w.acc.position p).cost = 0 := by
      simp [divT, mulT_zero_left]
    refine ⟨⟨pp, by rw [hpos1]; exact hpp, fun q _ => by rw [hpos1], by simp, by simp, rfl⟩, hset, by rw [s1, add_zero], ?_, ?_,
      ?_, hcb1, hreb1, href1, hreq1⟩
    · rw [hz, s2, sub_zero]
    · rw [hz, hvb, mulT_zero_left]; simp
    · rw [tradeFee_zero]
  · unfold closePart at hc
    rw [if_pos hcl] at hc
    obtain ⟨pc', x', pp', hpc', hx', hpp', -, -, -, hfee, -, hpnl, hpool2, hacc2, -⟩ := closePosition_ok hc
    rw [hpc] at hpc'; cases hpc'
    rw [hx] at hx'; cases hx'
    rw [hpos1, hpp] at hpp'; cases hpp'
    have hcc : closedCost (w1.acc.position p) cl = mulT (divT (-cl) (w.acc.position p).amount) (w.acc.position p).cost := by
      unfold closedCost; rw [s1, s2]
    have hp2 : (w2.acc.position p).amount = (w1.acc.position p).amount + cl ∧
        (w2.acc.position p).cost = (w1.acc.position p).cost - closedCost (w1.acc.position p) cl := by
      obtain ⟨a1, a2⟩ := closePart_position (c := c) (w := w1) (w' := w2) (p := p) (x := cl) (pnl := pnl) (fee := fee)
        (by unfold closePart; rw [if_pos hcl]; exact hc)
      rw [if_neg hcl] at a2
      exact ⟨a1, a2⟩
    refine ⟨⟨(pp.closed cl (closedCost (w1.acc.position p) cl)).snapAt x, ?_, ?_, ?_, ?_, ?_⟩, ?_, ?_, ?_, ?_, ?_, ?_, ?_, ?_, ?_⟩
    · rw [hpool2]; unfold VPool.remark; simp only; rw [AMap.get_set_self]
    · intro q hq
      rw [hpool2]; unfold VPool.remark; simp only; rw [AMap.get_set_ne _ _ (Ne.symm hq), hpos1]
    · unfold PoolPosition.closed PoolPosition.snapAt
      split
      · rename_i hlt; simp only; rw [min_eq_left hlt.le]
      · rename_i hge; simp only; rw [min_eq_right (not_lt.mp hge), add_zero]
    · unfold PoolPosition.closed PoolPosition.snapAt
      split
      · rename_i hlt; simp only; rw [max_eq_right hlt.le, sub_zero]
      · rename_i hge; simp only; rw [max_eq_left (not_lt.mp hge)]
    · unfold PoolPosition.closed PoolPosition.snapAt PoolPosition.indexes
      split <;> rfl
    · intro y
      rw [hacc2]
      unfold VAccount.setPosition
      simp only
      rw [AMap.set_set, hset]
    · rw [hp2.1, s1]
    · rw [hp2.2, s2, hcc]
    · rw [hacc2]
      simp only
      rw [hvb, hpnl, hcc]
    · rw [hfee, feeOf_tradeFee, hreb1]
    · rw [hacc2]; exact hcb1
    · rw [← hreb1, hacc2]; rfl
    · intro f; rw [← href1, hacc2]; rfl
    · rw [← hreq1, hacc2]; rfl

theorem openPosition_fails {c : Ctx} {w : W} {ids : List PairId} {P : Err → Prop} (h : c.Ready ids) (hf : c.Feeds)
    (hh : w.pool.Has ids) (hids : ∀ p ∈ w.acc.positions.keys, p ∈ ids) {p : PairId} (hp : p ∈ ids) {op : Dec}
    (hsign : 0 ≤ (w.acc.position p).amount.sign * op.sign) (hP : P .arithmetic) {pc : PairConfig} {x : Dec} {pp : PoolPosition}
    (hpc : c.cfg.pairs.get p = some pc) (hx : c.orc.prices.get p = some x) (hpp : w.pool.positions.get p = some pp)
    {fee : Dec} (hfee : fee = tradeFee c.cfg.ex.feeMax pc.fee0 pc.fee1 w.acc.rebate x (pp.oiLong - pp.oiShort) op)
    {pos : AccountPosition} (hpos : pos =
      { amount := (w.acc.position p).amount + op
        cost := (w.acc.position p).cost + (mulT op x + fee)
        fundingIndex := if (w.acc.position p).amount + op > 0 then pp.fundingLongIndex else pp.fundingShortIndex })
    (hoi : (0 < op ∧ pc.oiMax < pp.oiLong + op) ∨ (¬ 0 < op ∧ pc.oiMax < pp.oiShort - op) → P .pairOiTooHigh)
    (hmany : c.cfg.ex.positionsMax < (w.acc.positions.set p pos).size → P .positionsTooMany)
    (hm : (∀ q y, (w.acc.positions.set p pos).get q = some y →
        c.Known (w.pool.remark p pp (pp.opened op (mulT op x + fee)) x) q) →
      (∀ r y cc, w.acc.collateralBalances.get r = some y → c.cfg.colls.get r = some cc →
        ∃ z, c.orc.prices.get cc.pairId = some z) →
      (c.market (w.pool.remark p pp (pp.opened op (mulT op x + fee)) x)).value w.acc.rebate (w.acc.positions.set p pos)
          w.acc.collateralBalances w.acc.vb <
        (c.market (w.pool.remark p pp (pp.opened op (mulT op x + fee)) x)).margin PairConfig.marginInitial
          (w.acc.positions.set p pos) w.acc.collateralBalances → P .insufficientMargin) :
    Fails P (openPosition c w p op) := by
  unfold openPosition
  refine fails_bind ((cfgPair_errs h hp).arithmetic hP) (fun pc' hpc' => ?_)
  rw [VConfig.pair_ok, hpc] at hpc'; cases hpc'
  refine fails_bind ((feeRebate_errs _).arithmetic hP) (fun rb hrb => ?_)
  have hrb := feeRebate_ok hrb
  subst hrb
  refine fails_bind ((orcPrice_errs h hp).arithmetic hP) (fun price hprice => ?_)
  rw [VOracle.price_ok, hx] at hprice; cases hprice
  refine fails_bind ((errs_dmul (l := arith) (by decide) _ _).arithmetic hP) (fun value hval => ?_)
  rw [dmul_ok] at hval
  obtain ⟨-, rfl⟩ := hval
  refine fails_bind ((poolPosition_errs hh hp).arithmetic hP) (fun pp' hpp' => ?_)
  rw [VPool.position_ok, hpp] at hpp'; cases hpp'
  refine fails_bind ((errs_require_true (l := arith) (by simpa using hsign)).arithmetic hP) (fun _ _ => ?_)
  refine fails_bind ((calculateFee_errs _ _ _ _ _ _).arithmetic hP) (fun fee' hfee' => ?_)
  obtain ⟨hfee', -⟩ := calculateFee_ok hfee'
  rw [feeOf_tradeFee, ← hfee] at hfee'
  have hfee' := hfee'.symm
  subst hfee'
  refine fails_bind ((errs_dadd (l := arith) (by decide) _ _).arithmetic hP) (fun cost hcost => ?_)
  rw [dadd_ok] at hcost
  obtain ⟨-, rfl⟩ := hcost
  refine fails_bind ?_ (fun pp2 hpp2 => ?_)
  · unfold openPool
    refine fails_bind ?_ (fun _ _ => fails_bind ((errs_dadd (l := arith) (by decide) _ _).arithmetic hP) (fun _ _ => fails_pure _))
    unfold openSide
    split
    · rename_i hlt
      refine fails_bind ((errs_dadd (l := arith) (by decide) _ _).arithmetic hP) (fun oi hoi' => ?_)
      rw [dadd_ok] at hoi'
      obtain ⟨-, rfl⟩ := hoi'
      exact fails_bind (fails_check (fun hn => hoi (Or.inl ⟨hlt, not_le.mp hn⟩))) (fun _ _ => fails_pure _)
    · rename_i hlt
      refine fails_bind ((errs_dsub (l := arith) (by decide) _ _).arithmetic hP) (fun oi hoi' => ?_)
      rw [dsub_ok] at hoi'
      obtain ⟨-, rfl⟩ := hoi'
      exact fails_bind (fails_check (fun hn => hoi (Or.inr ⟨hlt, not_le.mp hn⟩))) (fun _ _ => fails_pure _)
  obtain ⟨hopen, -⟩ := openPool_ok hpp2
  subst hopen
  refine fails_bind ((errs_dadd (l := arith) (by decide) _ _).arithmetic hP) (fun am ham => ?_)
  refine fails_bind ((errs_dadd (l := arith) (by decide) _ _).arithmetic hP) (fun co hco => ?_)
  rw [dadd_ok] at ham hco
  obtain ⟨-, rfl⟩ := ham
  obtain ⟨-, rfl⟩ := hco
  have hset : (w.pool.setPosition p (pp.opened op (mulT op x + fee))).Has ids := hh.set rfl
  refine fails_bind ((updatePairSnaps_errs h hset hp).arithmetic hP) (fun pool hpool => ?_)
  have hhas := updatePairSnaps_has hpool hset
  have hsnap := setThenSnap_ok (old := pp) (by unfold PoolPosition.opened; split <;> rfl)
    (by unfold PoolPosition.opened; split <;> rfl) hpool
  obtain ⟨price', hprice', rfl⟩ := hsnap
  rw [hx] at hprice'; cases hprice'
  have hacc : (if (w.acc.position p).amount + op > 0 then (pp.opened op (mulT op x + fee)).fundingLongIndex
      else (pp.opened op (mulT op x + fee)).fundingShortIndex) =
      if (w.acc.position p).amount + op > 0 then pp.fundingLongIndex else pp.fundingShortIndex := by
    unfold PoolPosition.opened; split <;> split <;> rfl
  simp only [hacc]
  rw [← hpos]
  refine fails_bind (fails_check (fun hn => hmany (not_le.mp hn))) (fun _ _ => ?_)
  refine fails_bind (assertAccountIntegrity_fails h hf hhas (keys_set_subset hids hp) hP hm) (fun _ _ => fails_pure _)

/-! ## Orders -/

theorem trySetStatus_fails {v : VAccount} {is : List Nat} {st : Status} {P : Err → Prop}
    (hst : st = STATUS_ACTIVE ∨ st = STATUS_CANCELLED) (hP : P .arithmetic)
    (hm : ∀ j ∈ is, v.comp.requests.length ≤ j → P .missingRequest) : Fails P (v.trySetStatus is st) := by
  unfold VAccount.trySetStatus
  refine fails_bind ?_ (fun ph _ => fails_bind ?_ (fun krs _ => ?_))
  · rcases hst with rfl | rfl <;> exact fails_of_ok ⟨_, rfl⟩
  · refine fails_buildM (fun k hk => ?_)
    unfold VAccount.keeperRequest
    split
    · exact fails_pure _
    · refine fails_expect (fun hn => hm k hk ?_)
      exact List.getElem?_eq_none_iff.mp hn
  · refine Errs.arithmetic (errs_foldlM' (fun e _ w => ?_)) hP
    unfold VAccount.trySetOne
    split
    · exact errs_pure _
    · exact errs_bind (moveActive_errs _ _ _ _) (fun _ _ => errs_pure _)

theorem split_spec {x amount cl op : Dec} {ro : Bool} (h : splitOrder x amount ro = Except.ok (cl, op)) :
    cl = closingPart x amount ∧ op = openingPart x amount ro := by
  obtain ⟨h1, h2⟩ := splitOrder_ok h
  have : cl = closingPart x amount := by rw [h1]; rfl
  refine ⟨this, ?_⟩
  rw [h2, this]; rfl

theorem slippage_refused {l : SlippageLimit} {fee value : Dec} (hf : fee ≤ DMAX)
    (h : l.compare fee value = Except.ok false) : ¬ l.Holds fee value := by
  cases l with
  | none =>
    simp only [SlippageLimit.compare, SlippageLimit.allowed, bind_ok, pure_ok, Except.ok.injEq] at h
    obtain ⟨a, ha, h⟩ := h
    rw [← ha] at h
    simp [hf] at h
  | percent l =>
    simp only [SlippageLimit.compare, SlippageLimit.allowed, bind_ok, pure_ok, dmul_ok, ddiv_ok] at h
    obtain ⟨_, ⟨_, ⟨-, rfl⟩, -, -, rfl⟩, h⟩ := h
    rw [decide_eq_false_iff_not] at h
    exact h
  | absolute l =>
    simp only [SlippageLimit.compare, SlippageLimit.allowed, bind_ok, pure_ok, Except.ok.injEq] at h
    obtain ⟨a, ha, h⟩ := h
    rw [← ha, decide_eq_false_iff_not] at h
    exact h

section
variable {env : Env} {s s1 : State} {ids : List PairId} {u : Option PriceUpdate} {c : Ctx} {pool v : VPool}

theorem marginOrder_fails {a : Addr} {va v1 : VAccount} {acc : Account} {q : MarginOrderReq} {d : FeeDist} (hr : Reach env s)
    (hk : keeperLoad env s ids u = Except.ok (s1, c, pool)) (hv : s.load a = Except.ok va)
    (ha : s.accounts.get a = some acc) (hro : ReqOnly va v1) (hids : ∀ p ∈ acc.positions.keys, p ∈ ids) (hp : q.pair ∈ ids) :
    Fails (OrderRefused env s acc q u) (marginOrder c { pool, acc := v1, dist := d } q) := by
  obtain ⟨h, hh⟩ := keeperLoad_ready hk
  have hf := keeperLoad_feeds hk
  obtain ⟨-, -, hcfg, -, -, -, -⟩ := keeperLoad_ok hk
  obtain ⟨e1, -, -, e4⟩ := VConfig.new_ok hcfg
  obtain ⟨k1, k2, -, -, k5, -⟩ := keeperLoad_state hk
  have hP : OrderRefused env s acc q u .arithmetic := trivial
  obtain ⟨x, hx⟩ := h.price q.pair hp
  obtain ⟨pc, hpc⟩ := h.pair q.pair hp
  have hreb : v1.rebate = va.rebate := by unfold ReqOnly at hro; rw [hro]; rfl
  have hrefp : ∀ f, referralPart c.cfg.ex v1 f = referralPart c.cfg.ex va f := by
    intro f; unfold ReqOnly at hro; rw [hro]; rfl
  have hstored : va.positions = acc.positions ∧ va.collateralBalances = acc.collateralBalances ∧ va.vb = acc.vb ∧
      va.comp = acc := by
    obtain ⟨acc', rd, ha', -, hv'⟩ := load_ok hv
    rw [ha] at ha'; cases ha'
    rw [hv']; exact ⟨rfl, rfl, rfl, rfl⟩
  have hv1 : v1.positions = acc.positions ∧ v1.collateralBalances = acc.collateralBalances ∧ v1.vb = acc.vb ∧ v1.comp = acc := by
    unfold ReqOnly at hro; rw [hro]; exact hstored
  have hposn : ∀ p, v1.position p = acc.positions.getD p AccountPosition.zero := by
    intro p; unfold VAccount.position; rw [hv1.1]
  have hsize : acc.size q.pair = (acc.positions.getD q.pair AccountPosition.zero).amount := by
    unfold Account.size AMap.getD
    cases acc.positions.get q.pair <;> rfl
  unfold marginOrder
  refine fails_bind ((orcPrice_errs h hp).arithmetic hP) (fun price hprice => ?_)
  rw [VOracle.price_ok, hx] at hprice; cases hprice
  refine fails_bind (fails_require (fun hn => ?_)) (fun _ _ => ?_)
  · obtain ⟨-, t, ht, -⟩ := (keeperLoad_prices hk).1 q.pair x hx
    obtain ⟨-, -, -, hpush, -, -, e⟩ := keeperLoad_ok hk
    have : s1.oracle.prices = s.pricesWith u := (maybePush_prices hpush).1
    rw [this] at ht
    refine ⟨x, t, ht, fun hh => ?_⟩
    rw [← priceLimit_holds, hn] at hh; cases hh
  refine fails_bind ((updatePair_errs h hh hp).arithmetic hP) (fun r hu => ?_)
  obtain ⟨v, b⟩ := r
  have hu' : v.Has ids := updatePair_has hu hh
  obtain ⟨hrf, hcoh, hbase⟩ := one_refreshed hr hk hp hu
  obtain ⟨pp, x', hpp, hx', hmk⟩ := midway_marked hu
  rw [hx] at hx'; cases hx'
  obtain ⟨q1, q2, q3, q4⟩ := midway_quote hk hcoh hpp hpc hx hv ha
  obtain ⟨w1, w2⟩ := midway_value (s1 := s1) hbase
  have hmp : (s1.midway v).market.pool q.pair = pp := by
    change (s1.midway v).pool.position (s1.midway v).now q.pair = pp
    rw [show (s1.midway v).now = s.now from k2]; exact hcoh q.pair pp hpp
  have hpo : (s1.midway v).pool.position (s1.midway v).now q.pair = pp := hmp
  have hpair : (s1.midway v).market.pair q.pair = pc := by
    obtain ⟨-, z, hz, rfl⟩ := e4 q.pair pc hpc
    simp only [State.market, State.midway, k1, hz, Option.map_some, Option.getD_some]
  refine fails_bind ((settleFunding_errs (w := { pool := v, acc := v1, dist := d }) hu' hp).arithmetic hP) (fun y hy => ?_)
  obtain ⟨wa, funding⟩ := y
  obtain ⟨ky1, ky2⟩ := settleFunding_keys hy hp (ids := ids) (by intro p hp; rw [hv1.1] at hp; exact hids p hp)
  obtain ⟨m1, m2, m3⟩ := settleFunding_worth hy
  simp only at m1 m2 m3
  have hfp := (settleFunding_position hy).1
  have hwa : wa.pool.Has ids := by intro p hp; rw [ky2]; exact hu' p hp
  simp only
  refine fails_bind (Errs.arithmetic (by unfold splitOrder closeAmount openAmount; errs) hP) (fun y hsp => ?_)
  obtain ⟨cl, op⟩ := y
  change splitOrder (wa.acc.position q.pair).amount _ _ = _ at hsp
  have hsigns := splitOrder_signs hsp
  rw [hfp] at hsp
  have hsp' : cl = closingPart (acc.size q.pair) q.amount ∧ op = openingPart (acc.size q.pair) q.amount q.reduceOnly := by
    rw [hsize, ← hposn]; exact split_spec hsp
  obtain ⟨hcl, hop⟩ := hsp'
  simp only
  have hclose : ∀ wb pnl f1, closePart c wa q.pair cl = Except.ok (wb, pnl, f1) →
      Reduced c { pool := v, acc := v1, dist := d } q.pair pp pc x cl f1 wb ∧ wb.pool.Has ids ∧
      (∀ p ∈ wb.acc.positions.keys, p ∈ ids) := by
    intro wb pnl f1 hc
    refine ⟨reduced_mk hpp hpc hx hy hc, ?_⟩
    unfold closePart at hc
    split at hc
    · exact ⟨closePosition_has hc hwa, closePosition_keys hp hc ky1⟩
    · cases hc; exact ⟨hwa, ky1⟩
  have hexec : Fails (OrderRefused env s acc q u) (executeOrder c wa q.pair cl op) := by
    unfold executeOrder
    refine fails_bind ?_ (fun r hc => fails_bind ?_ (fun _ _ =>
      fails_bind ((errs_dadd (l := arith) (by decide) _ _).arithmetic hP) (fun _ _ => fails_pure _)))
    · unfold closePart
      split
      · exact (closePosition_errs h hwa hp hsigns.1 hsigns.2.1).arithmetic hP
      · exact fails_pure _
    · obtain ⟨wb, pnl, f1⟩ := r
      obtain ⟨hred, hwb, hkb⟩ := hclose wb pnl f1 hc
      unfold openPart
      split
      · rename_i hop0
        obtain ⟨pp2, g1, g2, g3, g4, g5⟩ := hred.pool
        have hnet : pp2.oiLong - pp2.oiShort = pp.oiLong - pp.oiShort + cl := by
          rw [g3, g4]
          rcases le_total cl 0 with hle | hle
          · rw [min_eq_left hle, max_eq_right hle]; ring
          · rw [min_eq_right hle, max_eq_left hle]; ring
        have hfee2 : tradeFee c.cfg.ex.feeMax pc.fee0 pc.fee1 wb.acc.rebate x (pp2.oiLong - pp2.oiShort) op =
            (s1.midway v).tradeFee acc q.pair x ((s1.midway v).netOi q.pair + cl) op := by
          rw [q3, q2, hnet, hred.rebate]
          exact congrArg (fun z => tradeFee _ _ _ z _ _ _) hreb
        have hidx : pp2.fundingLongIndex = pp.fundingLongIndex ∧ pp2.fundingShortIndex = pp.fundingShortIndex := by
          unfold PoolPosition.indexes at g5; simpa using g5
        have hafter : ∀ z, wb.acc.positions.set q.pair z = acc.positions.set q.pair z := by
          intro z; rw [hred.positions]; simp only; rw [hv1.1]
        have hpos : ({ amount := (wb.acc.position q.pair).amount + op
                       cost := (wb.acc.position q.pair).cost + (mulT op x +
                         tradeFee c.cfg.ex.feeMax pc.fee0 pc.fee1 wb.acc.rebate x (pp2.oiLong - pp2.oiShort) op)
                       fundingIndex := if (wb.acc.position q.pair).amount + op > 0 then pp2.fundingLongIndex
                                       else pp2.fundingShortIndex } : AccountPosition) =
            { amount := (acc.positions.getD q.pair AccountPosition.zero).amount + cl + op
              cost := (acc.positions.getD q.pair AccountPosition.zero).cost -
                mulT (divT (-cl) (acc.positions.getD q.pair AccountPosition.zero).amount)
                  (acc.positions.getD q.pair AccountPosition.zero).cost +
                (mulT op x + (s1.midway v).tradeFee acc q.pair x ((s1.midway v).netOi q.pair + cl) op)
              fundingIndex := if (acc.positions.getD q.pair AccountPosition.zero).amount + cl + op > 0 then
                  pp.fundingLongIndex else pp.fundingShortIndex } := by
          rw [hfee2, hred.amount, hred.cost, hidx.1, hidx.2]
          simp only [hposn]
        have haa : (s1.midway v).accountAfter acc q.pair cl op =
            { acc with
              positions := wb.acc.positions.set q.pair
                { amount := (wb.acc.position q.pair).amount + op
                  cost := (wb.acc.position q.pair).cost + (mulT op x +
                    tradeFee c.cfg.ex.feeMax pc.fee0 pc.fee1 wb.acc.rebate x (pp2.oiLong - pp2.oiShort) op)
                  fundingIndex := if (wb.acc.position q.pair).amount + op > 0 then pp2.fundingLongIndex
                                  else pp2.fundingShortIndex }
              vb := wb.acc.vb } := by
          rw [hpos, hafter, hred.vb, hred.fee]
          unfold State.accountAfter
          simp only [q1, q2, q3, hmp, hposn, hv1.2.2.1, hreb]
        refine openPosition_fails h hf hwb hkb hp (by rw [(closePart_position hc).1]; exact hsigns.2.2 hop0) hP hpc hx g1
          (fee := tradeFee c.cfg.ex.feeMax pc.fee0 pc.fee1 wb.acc.rebate x (pp2.oiLong - pp2.oiShort) op) rfl rfl
          (fun hbad => ?_) (fun hbad => ?_) (fun hkn hcc hbad => ?_)
        · refine ⟨s1.midway v, hrf, ?_⟩
          simp only [← hcl, ← hop, hpo, hpair, PoolPosition.traded]
          rcases hbad with ⟨b1, b2⟩ | ⟨b1, b2⟩
          · left; rw [g3] at b2; rw [max_eq_left b1.le]; exact ⟨b1, b2⟩
          · right
            have hneg : op < 0 := lt_of_le_of_ne (not_lt.mp b1) hop0
            rw [g4] at b2; rw [min_eq_left hneg.le]; exact ⟨hneg, b2⟩
        · refine ⟨s1.midway v, hrf, ?_⟩
          simp only [← hcl, ← hop]
          refine ⟨hop0, ?_⟩
          rw [haa, ← e1]; exact hbad
        · refine ⟨s1.midway v, hrf, ?_⟩
          simp only [← hcl, ← hop]
          refine ⟨hop0, ?_⟩
          have hcb : wb.acc.collateralBalances = acc.collateralBalances := by rw [hred.balances]; exact hv1.2.1
          have hsides : ∀ z y, (((pp2.opened op z).snapAt y).oiLong = (pp.traded cl op).oiLong) ∧
              (((pp2.opened op z).snapAt y).oiShort = (pp.traded cl op).oiShort) ∧
              (((pp2.opened op z).snapAt y).indexes = pp.indexes) := by
            intro z y
            unfold PoolPosition.opened PoolPosition.snapAt PoolPosition.traded PoolPosition.indexes
            unfold PoolPosition.indexes at g5
            split
            · rename_i hpos'
              simp only [max_eq_left (le_of_lt hpos'), min_eq_right (le_of_lt hpos'), g3, g4, sub_zero]
              exact ⟨trivial, trivial, g5⟩
            · rename_i hpos'
              simp only [max_eq_right (not_lt.mp hpos'), min_eq_left (not_lt.mp hpos'), g3, g4, add_zero]
              exact ⟨trivial, trivial, g5⟩
          obtain ⟨i1, i2, i3⟩ := hsides (mulT op x +
            tradeFee c.cfg.ex.feeMax pc.fee0 pc.fee1 wb.acc.rebate x (pp2.oiLong - pp2.oiShort) op) x
          obtain ⟨t1, t2⟩ := traded_value hk hcoh hpp (AMap.get_set_self _ _ _)
            (fun p hp => by
              rw [show (wb.pool.remark q.pair pp2 _ x).positions = wb.pool.positions.set q.pair _ from rfl,
                AMap.get_set_ne _ _ (Ne.symm hp)]
              exact g2 p hp) i1 i2 i3 hkn hcc wb.acc.rebate wb.acc.vb
          rw [t1, t2] at hbad
          have hrb : ((s1.midway v).traded q.pair cl op).rebateOf ((s1.midway v).accountAfter acc q.pair cl op) =
              wb.acc.rebate := by
            rw [hred.rebate]
            simp only
            rw [hreb, ← load_rebateOf hv ha]
            unfold State.rebateOf State.midway State.traded State.accountAfter
            simp only [k5]
          unfold State.accountValue State.initialMargin
          rw [hrb, haa]
          simp only
          rw [← hcb]
          exact hbad
      · exact fails_pure _
  refine fails_bind hexec (fun z hz => ?_)
  obtain ⟨wc, pnl, fee⟩ := z
  obtain ⟨wb, f1, f2, hc1, hc2, hfsum⟩ := executeOrder_ok hz
  have hfmax : fee ≤ DMAX := by
    simp only [executeOrder, bind_ok, pure_ok, dadd_ok, Prod.mk.injEq] at hz
    obtain ⟨_, -, _, -, f, ⟨hin, rfl⟩, -, -, rfl⟩ := hz
    exact (inRange_iff.mp hin).2
  obtain ⟨hred, -, -⟩ := hclose wb pnl f1 hc1
  obtain ⟨a1, a2, pp2, a3, a4, a5, -⟩ := closePart_worth hc1 hx (by rw [m3]; exact hpp) hmk
  obtain ⟨b1, b2, -⟩ := openPart_worth hc2 hx a3 a4
  have hff : f1 = (s1.midway v).tradeFee acc q.pair x ((s1.midway v).netOi q.pair) cl ∧
      f2 = (s1.midway v).tradeFee acc q.pair x ((s1.midway v).netOi q.pair + cl) op := by
    constructor
    · rw [hred.fee, q3, q2]; exact congrArg (fun z => tradeFee _ _ _ z _ _ _) hreb
    · rw [q3, q2]
      unfold openPart at hc2
      split at hc2
      · obtain ⟨pc', pr, pp', hpc', hpr, hpp', -, hf2, -⟩ := openPosition_ok hc2
        rw [hx] at hpr; cases hpr
        rw [hpc] at hpc'; cases hpc'
        rw [a3] at hpp'; cases hpp'
        rw [hf2, feeOf_tradeFee, hred.rebate, a5]
        exact congrArg (fun z => tradeFee _ _ _ z _ _ _) hreb
      · rename_i hz
        cases hc2
        have : op = 0 := by simpa using hz
        rw [this, tradeFee_zero]
  have hfee : fee = (s1.midway v).orderFee acc q.pair cl op := by
    unfold State.orderFee; rw [q1, ← hff.1, ← hff.2, hfsum]
  simp only
  refine fails_bind ((errs_dadd (l := arith) (by decide) _ _).arithmetic hP) (fun tot htot => ?_)
  rw [dadd_ok] at htot
  obtain ⟨-, rfl⟩ := htot
  refine fails_bind ((errs_dabs (l := arith) (by decide) _).arithmetic hP) (fun ab hab => ?_)
  rw [dabs_ok] at hab
  obtain ⟨-, rfl⟩ := hab
  refine fails_bind ((errs_dmul (l := arith) (by decide) _ _).arithmetic hP) (fun tv htv => ?_)
  rw [dmul_ok] at htv
  obtain ⟨-, rfl⟩ := htv
  refine fails_bind (Errs.arithmetic (by unfold SlippageLimit.compare SlippageLimit.allowed; errs) hP) (fun ok hok => ?_)
  refine fails_bind (fails_require (fun hn => ?_)) (fun _ _ => ?_)
  · subst hn
    refine ⟨s1.midway v, hrf, ?_⟩
    simp only [← hcl, ← hop]
    rw [← hfee, q1, add_comm cl op]
    exact slippage_refused hfmax hok
  refine fails_bind ((settleFeesReferral_errs _ _ _).arithmetic hP) (fun y hsf => ?_)
  obtain ⟨wd, fees⟩ := y
  obtain ⟨n1, n2, n3, -⟩ := settleFees_worth hsf
  obtain ⟨-, -, hacc3, hsplit⟩ := settleFeesReferral_ok hsf
  have hcomp : wd.acc.comp.requests = acc.requests := by
    have t1 : wd.acc.reqPart = wc.acc.reqPart := by rw [hacc3]; unfold VAccount.credited; split <;> rfl
    have t2 : wc.acc.reqPart = wb.acc.reqPart := by
      unfold openPart at hc2
      split at hc2
      · obtain ⟨_, _, _, -, -, -, -, -, -, -, -, -, hacc, -⟩ := openPosition_ok hc2
        rw [hacc]; rfl
      · cases hc2; rfl
    have t3 := t1.trans (t2.trans hred.requests)
    have : wd.acc.comp.requests = v1.comp.requests := by
      have := congrArg (fun z => z.2.2.1) t3
      exact this
    rw [this, hv1.2.2.2]
  simp only
  refine fails_bind (trySetStatus_fails (Or.inl rfl) hP (fun j hj hl => ?_)) (fun ve hve => ?_)
  · rw [hcomp] at hl; exact ⟨j, Or.inl hj, hl⟩
  refine fails_bind (trySetStatus_fails (Or.inr rfl) hP (fun j hj hl => ?_)) (fun vf hvf => ?_)
  · have := trySetStatus_reqOnly hve
    unfold ReqOnly at this
    rw [this] at hl
    simp only at hl
    rw [hcomp] at hl; exact ⟨j, Or.inr hj, hl⟩
  refine fails_bind ((errs_dsub (l := arith) (by decide) _ _).arithmetic hP) (fun ds hds => ?_)
  rw [dsub_ok] at hds
  obtain ⟨-, rfl⟩ := hds
  refine fails_bind ?_ (fun _ _ => fails_bind ((errs_dadd (l := arith) (by decide) _ _).arithmetic hP) (fun _ _ => fails_pure _))
  unfold assertPoolIntegrity
  refine fails_bind ((skewRatio_errs _).arithmetic hP) (fun ratio hratio => fails_check (fun hn => ?_))
  refine ⟨s1.midway v, hrf, ?_⟩
  simp only [← hcl, ← hop]
  have hkept : -fees.pool = (s1.midway v).feeKept acc fee := by
    rw [q4, hsplit]
    have : referralPart c.cfg.ex wc.acc fee = referralPart c.cfg.ex va fee := by
      rw [← hrefp, ← hred.referral]
      unfold openPart at hc2
      split at hc2
      · obtain ⟨_, _, _, -, -, -, -, -, -, -, -, -, hacc, -⟩ := openPosition_ok hc2
        rw [hacc]; rfl
      · cases hc2; rfl
    rw [this]; ring
  push Not at hn
  obtain ⟨hn1, hn2⟩ := hn
  have hskew : wd.pool.skewSnap = v.skewSnap - |mulT (pp.oiLong - pp.oiShort) x| + |mulT (pp.oiLong - pp.oiShort + cl + op) x| := by
    rw [n2, b2, a2, a5, m2]; ring
  constructor
  · rw [← e1]
    refine le_trans hn1 (le_of_eq ?_)
    rw [skewRatio_ok hratio]
    have e : wd.pool.base + wd.pool.vb + wd.pool.unreal + wd.pool.pnlSnap = wd.pool.worth := rfl
    rw [e]
    unfold State.ratioAfter
    rw [q1, q2, ← hfee, ← hkept, w1, hskew, n1, b1, a1, m1, a5, hfsum]
    have e3 : (s1.midway v).pool.skewAbsSnap = v.skewSnap := rfl
    rw [e3]
    congr 2
    ring
  · rw [q1, q2]
    rw [hskew, m2] at hn2
    linarith

end

end Perp
