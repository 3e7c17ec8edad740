import Verif.Marks

/-!
# Executed margin orders: C16, C22, C23, C24, C26
-/

namespace Perp

/-! ## The stages of an order -/

theorem setPosition_position (v : VAccount) (p q : PairId) (x : AccountPosition) :
    (v.setPosition p x).position q = if p = q then x else v.position q := by
  unfold VAccount.position VAccount.setPosition AMap.getD
  simp only [AMap.get_set]
  split <;> simp

theorem position_congr {v v' : VAccount} {q : PairId} (h : v'.positions.get q = v.positions.get q) :
    v'.position q = v.position q := by
  unfold VAccount.position AMap.getD; rw [h]

theorem settleFunding_position {w w' : W} {p : PairId} {n : Dec} (h : settleFunding w p = Except.ok (w', n)) :
    (w'.acc.position p).amount = (w.acc.position p).amount ∧ (w'.acc.position p).cost = (w.acc.position p).cost := by
  obtain ⟨pp, -, -, -, ha, -⟩ := settleFunding_ok h
  unfold VAccount.position
  rw [ha]
  cases hq : w.acc.positions.get p with
  | none => simp [AMap.getD, hq]
  | some x => simp [AMap.getD, AMap.get_set_self, hq, settledPos]

theorem closePart_position {c : Ctx} {w w' : W} {p : PairId} {x pnl fee : Dec}
    (h : closePart c w p x = Except.ok (w', pnl, fee)) :
    (w'.acc.position p).amount = (w.acc.position p).amount + x ∧
    (w'.acc.position p).cost = (w.acc.position p).cost - (if x = 0 then 0 else closedCost (w.acc.position p) x) := by
  unfold closePart at h
  split at h
  · rename_i hx
    obtain ⟨_, _, _, -, -, -, -, -, -, -, -, -, -, ha, -⟩ := closePosition_ok h
    have : w'.acc.position p = (w.acc.setPosition p
        { w.acc.position p with
          amount := (w.acc.position p).amount + x
          cost := (w.acc.position p).cost - closedCost (w.acc.position p) x }).position p :=
      position_congr (by rw [ha])
    rw [this, setPosition_position]
    simp [hx]
  · rename_i hx
    simp only [pure_ok, Prod.mk.injEq] at h
    obtain ⟨rfl, -, -⟩ := h
    have : x = 0 := by simpa using hx
    simp [this]

theorem openPart_position {c : Ctx} {w w' : W} {p : PairId} {x fee : Dec}
    (h : openPart c w p x = Except.ok (w', fee)) :
    (w'.acc.position p).amount = (w.acc.position p).amount + x := by
  unfold openPart at h
  split at h
  · obtain ⟨_, _, _, -, -, -, -, -, -, -, -, -, ha, -⟩ := openPosition_ok h
    rw [ha, setPosition_position]
    simp
  · rename_i hx
    simp only [pure_ok, Prod.mk.injEq] at h
    obtain ⟨rfl, -⟩ := h
    have : x = 0 := by simpa using hx
    simp [this]

theorem settleFees_same {ex : ExchangeConfig} {w w' : W} {fee : Dec} {f : FeeSplit}
    (h : settleFeesReferral ex w fee = Except.ok (w', f)) :
    w'.acc.positions = w.acc.positions ∧ w'.acc.collateralBalances = w.acc.collateralBalances ∧
    w'.acc.vb = w.acc.vb ∧ w'.acc.rebate = w.acc.rebate ∧ w'.acc.feeRebate = w.acc.feeRebate ∧
    w'.pool.positions = w.pool.positions := by
  obtain ⟨hp, -, ha, -⟩ := settleFeesReferral_ok h
  have e : w'.acc = { w.acc with referralData := w'.acc.referralData
                                 referralRewarded := w'.acc.referralRewarded } := by
    rw [ha, credited_acc]
  refine ⟨by rw [e], by rw [e], by rw [e], ?_, ?_, by rw [hp]⟩
  · clear e; rw [ha]; unfold VAccount.rebate VAccount.credited
    cases hd : w.acc.referralData <;> simp [hd]
  · clear e; rw [ha]; unfold VAccount.feeRebate VAccount.credited
    cases hd : w.acc.referralData <;> simp [hd]

theorem ReqOnly.same {a b : VAccount} (h : ReqOnly a b) :
    b.positions = a.positions ∧ b.collateralBalances = a.collateralBalances ∧ b.vb = a.vb ∧ b.rebate = a.rebate ∧
    b.feeRebate = a.feeRebate := by
  unfold ReqOnly at h
  rw [h]
  exact ⟨rfl, rfl, rfl, rfl, rfl⟩

/-- The margin check looks only at positions, collateral, virtual balance, rebate and the pool's positions. -/
theorem integrity_congr {c : Ctx} {pool pool' : VPool} {v v' : VAccount} (h1 : v'.positions = v.positions)
    (h2 : v'.collateralBalances = v.collateralBalances) (h3 : v'.vb = v.vb) (h4 : v'.feeRebate = v.feeRebate)
    (h5 : pool'.positions = pool.positions) :
    assertAccountIntegrity c pool' v' = assertAccountIntegrity c pool v := by
  have e : ∀ r, valuePosition c pool' r = valuePosition c pool r := by
    intro r
    funext t x
    simp only [valuePosition, VPool.position, h5]
  simp only [assertAccountIntegrity, valuePositions, valueCollateral, h1, h2, h3, h4, e]

/-- The pool's total skew moves with the snapshot of one pair. -/
def SkewMove (p : PairId) (v v' : VPool) : Prop :=
  ∃ pp pp', v.positions.get p = some pp ∧ v'.positions.get p = some pp' ∧
    v'.skewSnap - v.skewSnap = pp'.skewAbsSnap - pp.skewAbsSnap

theorem SkewMove.trans {p : PairId} {a b c : VPool} (h1 : SkewMove p a b) (h2 : SkewMove p b c) : SkewMove p a c := by
  obtain ⟨x, y, e1, e2, e3⟩ := h1
  obtain ⟨y', z, f1, f2, f3⟩ := h2
  rw [e2] at f1; cases f1
  exact ⟨x, z, e1, f2, by omega⟩

theorem closePart_skew {c : Ctx} {w w' : W} {p : PairId} {x pnl fee : Dec} {pp : PoolPosition}
    (hpp : w.pool.positions.get p = some pp) (h : closePart c w p x = Except.ok (w', pnl, fee)) :
    SkewMove p w.pool w'.pool := by
  unfold closePart at h
  split at h
  · obtain ⟨pc, price, pp, -, hp, hpp', -, -, -, -, -, -, hw, -⟩ := closePosition_ok h
    refine ⟨pp, _, hpp', by rw [hw]; exact AMap.get_set_self _ _ _, ?_⟩
    rw [hw]; simp only [VPool.remark]; ring
  · simp only [pure_ok, Prod.mk.injEq] at h
    rw [← h.1]; exact ⟨pp, pp, hpp, hpp, by ring⟩

theorem openPart_skew {c : Ctx} {w w' : W} {p : PairId} {x fee : Dec} {pp : PoolPosition}
    (hpp : w.pool.positions.get p = some pp) (h : openPart c w p x = Except.ok (w', fee)) :
    SkewMove p w.pool w'.pool := by
  unfold openPart at h
  split at h
  · obtain ⟨pc, price, pp, -, hp, hpp', -, -, -, -, -, hw, -⟩ := openPosition_ok h
    refine ⟨pp, _, hpp', by rw [hw]; exact AMap.get_set_self _ _ _, ?_⟩
    rw [hw]; simp only [VPool.remark]; ring
  · simp only [pure_ok, Prod.mk.injEq] at h
    rw [← h.1]; exact ⟨pp, pp, hpp, hpp, by ring⟩

/-- An order executed by a call, stage by stage. -/
structure OrderParts (c : Ctx) (w w' : W) (r : MarginOrderReq) (e : MarginOrderEv) : Prop where
  pair : e.pair = r.pair
  price : c.orc.prices.get r.pair = some e.price
  limit : r.priceLimit.compare e.price = true
  split : splitOrder (w.acc.position r.pair).amount r.amount r.reduceOnly = Except.ok (e.amountClose, e.amountOpen)
  amount : (w'.acc.position r.pair).amount = (w.acc.position r.pair).amount + e.amountClose + e.amountOpen
  slip : ∃ ok, r.slippageLimit.compare (-(e.fees.pool + e.fees.protocol + e.fees.treasury + e.fees.referral))
    (mulT e.price |e.amountOpen + e.amountClose|) = Except.ok ok ∧ ok = true
  opened : e.amountOpen ≠ 0 → assertAccountIntegrity c w'.pool w'.acc = Except.ok () ∧
    w'.acc.positions.size ≤ c.cfg.ex.positionsMax ∧ ∃ pc pp, c.cfg.pairs.get r.pair = some pc ∧
      w'.pool.positions.get r.pair = some pp ∧ (e.amountOpen > 0 → pp.oiLong ≤ pc.oiMax) ∧
      (e.amountOpen < 0 → pp.oiShort ≤ pc.oiMax)
  base : w'.pool.base = w.pool.base
  comp : w'.pool.comp = w.pool.comp
  pos : ∀ q, q ≠ r.pair → w'.acc.positions.get q = w.acc.positions.get q
  pool : ∀ q, q ≠ r.pair → w'.pool.positions.get q = w.pool.positions.get q
  coll : w'.acc.collPart = w.acc.collPart
  skew : ∃ pp pp', w.pool.positions.get r.pair = some pp ∧ w'.pool.positions.get r.pair = some pp' ∧
    (divT w'.pool.skewSnap (max (w'.pool.base + w'.pool.vb + w'.pool.unreal + w'.pool.pnlSnap) ONE) < c.cfg.ex.skewRatioCap ∨
      |mulT (pp'.oiLong - pp'.oiShort) e.price| < |mulT (pp.oiLong - pp.oiShort) e.price|)

theorem order_parts {c : Ctx} {w w' : W} {r : MarginOrderReq} {e : MarginOrderEv}
    (h : marginOrder c w r = Except.ok (w', e)) : OrderParts c w w' r e := by
  have hcoll := marginOrder_collPart h
  obtain ⟨w3', a1', a2', ht, ha1', ha2', ht'⟩ := marginOrder_touches h
  obtain ⟨price, pool, b, w1, funding, close, op, w2, pnl, fee, ok, w3, fees, a1, a2, hpr, hlim, hup, hf,
    hsp, hx, hok, hok', hfee, ha1, ha2, hw', hint, rfl⟩ := marginOrder_ok h
  obtain ⟨wc, f1, f2, hc, ho, rfl⟩ := executeOrder_ok hx
  have hfp := settleFunding_position hf
  simp only at hfp
  rw [hfp.1] at hsp
  have hs := settleFees_same hfee
  have q1 := (trySetStatus_reqOnly ha1).same
  have q2 := (trySetStatus_reqOnly ha2).same
  have hpos : w'.acc.positions = w2.acc.positions := by
    rw [hw']; exact (q2.1.trans q1.1).trans hs.1
  have hsum : -(fees.pool + fees.protocol + fees.treasury + fees.referral) = f1 + f2 := by
    obtain ⟨-, -, -, rfl⟩ := settleFeesReferral_ok hfee
    simp only; ring
  refine ⟨rfl, hpr, hlim, hsp, ?_, ⟨ok, by simp only; rw [hsum]; exact hok, hok'⟩, ?_, ?_, ?_, ?_, ?_, hcoll, ?_⟩
  · rw [position_congr (v := w2.acc) (by rw [hpos]), openPart_position ho, (closePart_position hc).1, hfp.1]
  · intro hne
    simp only at hne
    unfold openPart at ho
    rw [if_pos hne] at ho
    obtain ⟨pc, pr, pp, hpc, -, hpp, -, -, -, h1, h2, hpool, -, -, hsz, hi⟩ := openPosition_ok ho
    refine ⟨?_, by rw [hpos]; exact hsz, pc, (pp.opened op (mulT op pr + f2)).snapAt pr, hpc, ?_, ?_, ?_⟩
    · rw [← hi, hw']
      refine integrity_congr ((q2.1.trans q1.1).trans hs.1) ((q2.2.1.trans q1.2.1).trans hs.2.1)
        ((q2.2.2.1.trans q1.2.2.1).trans hs.2.2.1) ((q2.2.2.2.2.trans q1.2.2.2.2).trans hs.2.2.2.2.1) hs.2.2.2.2.2
    · rw [hw', hs.2.2.2.2.2, hpool]
      simp only [VPool.remark, AMap.get_set_self]
    · intro hp; simpa [PoolPosition.opened, PoolPosition.snapAt, hp] using h1 hp
    · intro hp
      have hp' : ¬ op > 0 := not_lt.mpr (le_of_lt hp)
      simpa [PoolPosition.opened, PoolPosition.snapAt, hp'] using h2 hp'
  · rw [ht']; exact ht.base
  · rw [ht']; exact ht.comp
  · intro q hq
    rw [ht', ← ht.pos q hq]
    simp only
    rw [(trySetStatus_reqOnly ha2').same.1, (trySetStatus_reqOnly ha1').same.1]
  · intro q hq
    rw [ht', ← ht.pool q hq]
  · obtain ⟨pc, price', pp0, pp1, dPool, seconds, period, -, hp', hpp, -, -, hfs, hpool, -⟩ := updatePair_ok hup
    rw [hpr] at hp'; cases hp'
    have hfs := fundingStep_only hfs
    obtain ⟨ppf, -, -, hwf, -⟩ := settleFunding_ok hf
    have g1 : w1.pool.positions.get r.pair = some pp1 := by
      rw [hwf, hpool]; exact AMap.get_set_self _ _ _
    have m1 : pp1.skewAbsSnap = |mulT (pp0.oiLong - pp0.oiShort) price| := by
      unfold FundingOnly at hfs
      rw [hfs]
      rfl
    obtain ⟨x, y, e1, e2, e3⟩ := closePart_skew g1 hc
    rw [g1] at e1; cases e1
    obtain ⟨y', z, f1, f2, f3⟩ := openPart_skew e2 ho
    rw [e2] at f1; cases f1
    have ez : z.skewAbsSnap = |mulT (z.oiLong - z.oiShort) price| ∨ z = pp1 := by
      unfold openPart at ho
      split at ho
      · obtain ⟨pc, price', pp, -, hp, hpp', -, -, -, -, -, hw, -⟩ := openPosition_ok ho
        rw [hpr] at hp; cases hp
        rw [hw] at f2
        simp only [VPool.remark, AMap.get_set_self, Option.some.injEq] at f2
        rw [← f2]; exact .inl rfl
      · simp only [pure_ok, Prod.mk.injEq] at ho
        rw [← ho.1, e2] at f2
        cases f2
        unfold closePart at hc
        split at hc
        · obtain ⟨pc, price', pp, -, hp, hpp', -, -, -, -, -, -, hw, -⟩ := closePosition_ok hc
          rw [hpr] at hp; cases hp
          rw [hw] at e2
          simp only [VPool.remark, AMap.get_set_self, Option.some.injEq] at e2
          rw [← e2]; exact .inl rfl
        · simp only [pure_ok, Prod.mk.injEq] at hc
          rw [← hc.1, g1] at e2
          cases e2
          exact .inr rfl
    have m1' : pp1.oiLong = pp0.oiLong ∧ pp1.oiShort = pp0.oiShort := by
      unfold FundingOnly at hfs
      rw [hfs]
      exact ⟨rfl, rfl⟩
    refine ⟨pp0, z, hpp, ?_, ?_⟩
    · rw [hw']; simp only; rw [hs.2.2.2.2.2]; exact f2
    · rcases assertPoolIntegrity_ok hint with h1 | h1
      · exact .inl h1
      · refine .inr ?_
        have e4 : w'.pool.skewSnap = w2.pool.skewSnap := by
          rw [hw']; simp only; rw [(settleFeesReferral_ok hfee).1]
        rw [e4] at h1
        have ez' : z.skewAbsSnap = |mulT (z.oiLong - z.oiShort) price| := by
          rcases ez with ez | rfl
          · exact ez
          · rw [m1, m1'.1, m1'.2]
        simp only
        omega

/-! ## An executed order, from stored state to stored state -/

theorem run_order {env : Env} {cl : Caller} {s s' : State} {a : Addr} {i : Nat} {u : Option PriceUpdate} {o : Out}
    {acc : Account} {kr : KeeperRequest} {r : MarginOrderReq}
    (h : body env cl s (.processRequest a i u) = Except.ok (s', o)) (ha : s.accounts.get a = some acc)
    (hk : acc.requests[i]? = some kr) (hr : kr.request = .marginOrder r) (hx : o.ev ≠ .expired) :
    ∃ acc' ids s1 c w0 w e, KeeperRun env s s' a acc acc' ids u s1 c w0 w ∧ OrderParts c w0 w r e ∧
      o.ev = .order e ∧ r.pair ∈ ids ∧ o.given = [] := by
  obtain ⟨acc0, acc', kr', ids, s1, c, w0, w, out, hrun, hkr, hids, -, hex, hev, hpd, hbk⟩ := run_execute h hx
  have e := hrun.before
  rw [ha] at e; cases e
  rw [hk] at hkr; cases hkr
  rw [hr] at hex
  rcases executeRequest_ok hex with ⟨q, tokens, hq, -, -⟩ | ⟨q, e, hq, hmo, ho⟩
  · cases hq
  · cases hq
    refine ⟨acc', ids, s1, c, w0, w, e, hrun, order_parts hmo, by rw [hev, ho], hids r hr, ?_⟩
    simp [Out.given, hpd, hbk, ho]

theorem splitOrder_ok {x amount close op : Dec} {ro : Bool} (h : splitOrder x amount ro = Except.ok (close, op)) :
    close = (if x > 0 ∧ amount < 0 then max amount (-x) else if x < 0 ∧ amount > 0 then min amount (-x) else 0) ∧
    op = (if ro then 0 else amount - close) := by
  simp only [splitOrder, bind_ok, pure_ok, Prod.mk.injEq] at h
  obtain ⟨cl, hc, op', ho, rfl, rfl⟩ := h
  constructor
  · unfold closeAmount at hc
    split at hc
    · rename_i h1
      simp only [bind_ok, dneg_ok, pure_ok] at hc
      obtain ⟨_, ⟨-, rfl⟩, rfl⟩ := hc
      rw [if_pos h1]
    · rename_i h1
      rw [if_neg h1]
      split at hc
      · rename_i h2
        simp only [bind_ok, dneg_ok, pure_ok] at hc
        obtain ⟨_, ⟨-, rfl⟩, rfl⟩ := hc
        rw [if_pos h2]
      · rename_i h2
        simp only [pure_ok] at hc
        rw [if_neg h2, hc]
  · unfold openAmount at ho
    split at ho
    · rename_i h1
      simp only [pure_ok] at ho
      rw [if_pos h1, ho]
    · rename_i h1
      simp only [dsub_ok] at ho
      rw [if_neg h1, ← ho.2]

/-! ## C22 -/

/-- **Specification of C22**: the size of a position after an order. -/
def orderResult (x amount : Int) (reduceOnly : Bool) : Int :=
  if reduceOnly then
    if 0 < x ∧ amount < 0 then max (x + amount) 0
    else if x < 0 ∧ 0 < amount then min (x + amount) 0
    else x
  else x + amount

/-- The size `y` is `x` or closer to zero on the same side. -/
def Shrunk (x y : Int) : Prop := (0 ≤ y ∧ y ≤ x) ∨ (x ≤ y ∧ y ≤ 0)

/-- **C22.** An executed order leaves exactly the specified position size. -/
theorem c22_order_size {env : Env} {cl : Caller} {s s' : State} {a : Addr} {i : Nat} {u : Option PriceUpdate} {o : Out}
    {acc : Account} {kr : KeeperRequest} {r : MarginOrderReq} (h0 : Reach env s)
    (h : step env cl s (.processRequest a i u) = Except.ok (s', o)) (ha : s.accounts.get a = some acc)
    (hk : acc.requests[i]? = some kr) (hr : kr.request = .marginOrder r) (hx : o.ev ≠ .expired) :
    ∃ acc', s'.accounts.get a = some acc' ∧
      acc'.size r.pair = orderResult (acc.size r.pair) r.amount r.reduceOnly := by
  obtain ⟨acc', ids, s1, c, w0, w, e, hrun, hp, -, -⟩ := run_order (step_body h) ha hk hr hx
  refine ⟨acc', hrun.after, ?_⟩
  rw [hrun.size (reach_noEmpty h0), hp.amount]
  have hs := hp.split
  rw [hrun.size0] at *
  obtain ⟨e1, e2⟩ := splitOrder_ok hs
  unfold orderResult
  cases hro : r.reduceOnly
  · rw [e2, hro]; simp only [Bool.false_eq_true, if_false]; ring
  · rw [e2, e1, hro]
    simp only [if_true, add_zero]
    split_ifs <;> omega

/-- What the specification says of reduce-only orders: never larger, never flipped, and an order of the opposite sign
closes exactly the smaller of its amount and the position. -/
theorem c22_reduce_only (x amount : Int) :
    Shrunk x (orderResult x amount true) ∧
    ((0 < x ∧ amount < 0) ∨ (x < 0 ∧ 0 < amount) → |orderResult x amount true| = |x| - min |amount| |x|) := by
  unfold orderResult Shrunk
  simp only [if_true]
  constructor
  · split_ifs <;> omega
  · rintro (⟨h1, h2⟩ | ⟨h1, h2⟩)
    · rw [if_pos ⟨h1, h2⟩, abs_of_pos h1, abs_of_neg h2, abs_of_nonneg (by omega)]
      omega
    · rw [if_neg (by omega), if_pos ⟨h1, h2⟩, abs_of_neg h1, abs_of_pos h2, abs_of_nonpos (by omega)]
      omega

/-! ## C16 -/

/-- If a request that was processed left the account with exposure it did not have before, then the value of the
account in the resulting state, at the resulting prices, covers its initial margin. -/
theorem c16_open_needs_margin {env : Env} {cl : Caller} {s s' : State} {a : Addr} {i : Nat} {u : Option PriceUpdate}
    {o : Out} {acc acc' : Account} {p : PairId} (h0 : Reach env s)
    (h : step env cl s (.processRequest a i u) = Except.ok (s', o)) (ha : s.accounts.get a = some acc)
    (ha' : s'.accounts.get a = some acc') (hp : ¬ Shrunk (acc.size p) (acc'.size p)) :
    s'.initialMargin acc' ≤ s'.accountValue acc' := by
  have hb := step_body h
  have refl : ∀ x, Shrunk x x := fun x => by unfold Shrunk; omega
  by_cases hx : o.ev = .expired
  · exfalso
    apply hp
    obtain ⟨v, v1, r, expired, cfg, hv, hpr, -, -, -, hh⟩ := processRequest_ok hb
    rcases hh with ⟨-, acc1, refs, hre, rfl, -⟩ | ⟨-, s1, c, w, out, acc1, refs, -, hex, -, -, ho⟩
    · obtain ⟨hre, -⟩ := hre
      have hq := processRequest_reqOnly hpr
      obtain ⟨accv, rd, hg, -, hv'⟩ := load_ok hv
      rw [ha] at hg; cases hg
      have hadd : v1.addr = a := by unfold ReqOnly at hq; rw [hq, hv']
      simp only [State.realizedAcc, hadd, AMap.get_set_self, Option.some.injEq] at ha'
      subst ha'
      obtain ⟨rq, -, hacc⟩ := realize_ok hre
      have : acc1.positions = acc.positions := by
        rw [hacc]
        simp only
        rw [realPositions_none (by unfold ReqOnly at hq; rw [hq, hv'])]
        unfold ReqOnly at hq; rw [hq, hv']
      unfold Account.size
      rw [this]; exact refl _
    · rw [ho] at hx
      rcases executeRequest_ok hex with ⟨_, _, -, -, rfl⟩ | ⟨_, _, -, -, rfl⟩ <;> cases hx
  · obtain ⟨acc0, acc1, kr, ids, s1, c, w0, w, out, hk, hkr, -, -, hex, -, -, -⟩ := run_execute hb hx
    have e := hk.before
    rw [ha] at e; cases e
    have e := hk.after
    rw [ha'] at e; cases e
    have hci : CollInv env acc.collPart := reach_collOk h0 a acc ha
    rcases executeRequest_ok hex with ⟨rc, tokens, -, hr, -⟩ | ⟨mo, e, hreq, hr, -⟩
    · exfalso
      apply hp
      rw [hk.size (reach_noEmpty h0), ← hk.size0, position_congr (by rw [(removeCollateral_pool hr).2.2.2.1])]
      exact refl _
    · have hpt := order_parts hr
      by_cases ho : e.amountOpen = 0
      · exfalso
        apply hp
        rw [hk.size (reach_noEmpty h0), ← hk.size0]
        by_cases hq : p = mo.pair
        · subst hq
          rw [hpt.amount, ho]
          have := (splitOrder_ok hpt.split).1
          unfold Shrunk
          rw [this]
          split_ifs <;> omega
        · rw [position_congr (hpt.pos p hq)]
          exact refl _
      · refine hk.margin (reach_noEmpty h0) ?_ (hpt.opened ho).1
        rw [hpt.coll, hk.collPart0]; exact hci

/-! ## C23 -/

/-- **Specification of C23**: price limits. -/
def PriceLimit.Holds : PriceLimit → Int → Prop
  | .none, _ => True
  | .gte l, x => l ≤ x
  | .lte l, x => x ≤ l

/-- **Specification of C23**: slippage limits, for a fee on a trade of the given value. -/
def SlippageLimit.Holds : SlippageLimit → Int → Int → Prop
  | .none, _, _ => True
  | .percent l, fee, value => fee ≤ divT (mulT value l) (100 * ONE)
  | .absolute l, fee, _ => fee ≤ l

/-- The total trading fee of an order (the event reports fees as negative amounts). -/
def MarginOrderEv.fee (e : MarginOrderEv) : Int := -(e.fees.pool + e.fees.protocol + e.fees.treasury + e.fees.referral)

theorem priceLimit_holds {l : PriceLimit} {x : Dec} : l.compare x = true ↔ l.Holds x := by
  cases l <;> simp [PriceLimit.compare, PriceLimit.Holds]

theorem slippage_holds {l : SlippageLimit} {fee value : Dec} (h : l.compare fee value = Except.ok true) :
    l.Holds fee value := by
  cases l with
  | none => trivial
  | percent l =>
    simp only [SlippageLimit.compare, SlippageLimit.allowed, bind_ok, pure_ok, dmul_ok, ddiv_ok, decide_eq_true_eq] at h
    obtain ⟨_, ⟨_, ⟨-, rfl⟩, -, -, rfl⟩, h⟩ := h
    exact h
  | absolute l =>
    simp only [SlippageLimit.compare, SlippageLimit.allowed, bind_ok, pure_ok, Except.ok.injEq, exists_eq_left',
      decide_eq_true_eq] at h
    exact h

/-- **C23.** An executed order was executed at the price now stored in the oracle, which satisfies its price limit, and its
total fee satisfies its slippage limit on the traded value. -/
theorem c23_limits {env : Env} {cl : Caller} {s s' : State} {a : Addr} {i : Nat} {u : Option PriceUpdate} {o : Out}
    {acc : Account} {kr : KeeperRequest} {r : MarginOrderReq} (h0 : Reach env s)
    (h : step env cl s (.processRequest a i u) = Except.ok (s', o)) (ha : s.accounts.get a = some acc)
    (hk : acc.requests[i]? = some kr) (hr : kr.request = .marginOrder r) (hx : o.ev ≠ .expired) :
    ∃ acc' e t, s'.accounts.get a = some acc' ∧ o.ev = .order e ∧ s'.oracle.prices.get r.pair = some (e.price, t) ∧
      r.priceLimit.Holds e.price ∧
      r.slippageLimit.Holds e.fee (mulT e.price |acc'.size r.pair - acc.size r.pair|) := by
  obtain ⟨acc', ids, s1, c, w0, w, e, hrun, hp, hev, -⟩ := run_order (step_body h) ha hk hr hx
  obtain ⟨-, t, ht, -⟩ := (keeperLoad_prices hrun.load).1 _ _ hp.price
  obtain ⟨ok, hok, rfl⟩ := hp.slip
  refine ⟨acc', e, t, hrun.after, hev, by rw [hrun.oracle]; exact ht, priceLimit_holds.mp hp.limit, ?_⟩
  have := slippage_holds hok
  rw [hrun.size (reach_noEmpty h0), hp.amount, hrun.size0,
    show acc.size r.pair + e.amountClose + e.amountOpen - acc.size r.pair = e.amountOpen + e.amountClose by ring]
  exact this

/-- **C23, no limit.** An order with limits is executed exactly when the same order without limits is executed with the same
result and that result passes both limits: absent limits never reject, and limits reject nothing that satisfies them. -/
theorem c23_only_limits_reject {c : Ctx} {w w' : W} {r : MarginOrderReq} {e : MarginOrderEv} :
    marginOrder c w r = Except.ok (w', e) ↔
      marginOrder c w { r with priceLimit := .none, slippageLimit := .none } = Except.ok (w', e) ∧
      r.priceLimit.Holds e.price ∧
      r.slippageLimit.compare e.fee (mulT e.price |e.amountOpen + e.amountClose|) = Except.ok true := by
  constructor
  · intro h
    have hp := order_parts h
    refine ⟨?_, priceLimit_holds.mp hp.limit, by obtain ⟨ok, h1, rfl⟩ := hp.slip; exact h1⟩
    simp only [marginOrder, bind_ok, pure_ok, VOracle.price_ok, require_ok, Prod.mk.injEq] at h ⊢
    obtain ⟨price, hprice, x1, hlim, u, hup, ⟨w1, funding⟩, hf, ⟨close, op⟩, hsp, ⟨w2, pnl, fee⟩, hx,
      t1, ht1, t2, ht2, t3, ht3, ok, hok, x2, hok', rest⟩ := h
    refine ⟨price, hprice, x1, rfl, u, hup, ⟨w1, funding⟩, hf, ⟨close, op⟩, hsp, ⟨w2, pnl, fee⟩, hx,
      t1, ht1, t2, ht2, t3, ht3, true, ?_, x2, rfl, rest⟩
    simp only [executeOrder, bind_ok, pure_ok, Prod.mk.injEq, dadd_ok] at hx
    obtain ⟨_, -, _, -, _, ⟨hin, rfl⟩, -, -, rfl⟩ := hx
    simp only [SlippageLimit.compare, SlippageLimit.allowed, bind_ok, pure_ok, Except.ok.injEq, exists_eq_left',
      decide_eq_true_eq]
    exact (inRange_iff.mp hin).2
  · rintro ⟨h, hl, hs⟩
    simp only [marginOrder, bind_ok, pure_ok, VOracle.price_ok, require_ok, Prod.mk.injEq] at h ⊢
    obtain ⟨price, hprice, x1, hlim, u, hup, ⟨w1, funding⟩, hf, ⟨close, op⟩, hsp, ⟨w2, pnl, fee⟩, hx,
      t1, ht1, t2, ht2, t3, ht3, ok, hok, x2, hok', ⟨w3, fees⟩, hfee, a1, ha1, a2, ha2, t4, ht4, x3, hint, tp, htp,
      hw, rfl⟩ := h
    refine ⟨price, hprice, x1, priceLimit_holds.mpr hl, u, hup, ⟨w1, funding⟩, hf, ⟨close, op⟩, hsp, ⟨w2, pnl, fee⟩, hx,
      t1, ht1, t2, ht2, t3, ht3, true, ?_, x2, rfl, ⟨w3, fees⟩, hfee, a1, ha1, a2, ha2, t4, ht4, x3, hint, tp, htp,
      hw, rfl⟩
    obtain ⟨-, -, -, rfl⟩ := settleFeesReferral_ok hfee
    simp only [dadd_ok, dabs_ok, dmul_ok] at ht1 ht2 ht3
    obtain ⟨-, rfl⟩ := ht1
    obtain ⟨-, rfl⟩ := ht2
    obtain ⟨-, rfl⟩ := ht3
    rw [← hs]
    congr 1
    simp only [MarginOrderEv.fee]
    ring

/-! ## C24 -/

/-- **C24.** Executing an order leaves every other account, every other pair (of the pool and of the account) and the
account's collateral as they were, and hands out no tokens. -/
theorem c24_order_is_local {env : Env} {cl : Caller} {s s' : State} {a : Addr} {i : Nat} {u : Option PriceUpdate} {o : Out}
    {acc : Account} {kr : KeeperRequest} {r : MarginOrderReq} (h0 : Reach env s)
    (h : step env cl s (.processRequest a i u) = Except.ok (s', o)) (ha : s.accounts.get a = some acc)
    (hk : acc.requests[i]? = some kr) (hr : kr.request = .marginOrder r) (hx : o.ev ≠ .expired) :
    (∀ b, b ≠ a → s'.accounts.get b = s.accounts.get b) ∧
    (∀ q, q ≠ r.pair → s'.pool.positions.get q = s.pool.positions.get q) ∧
    (∃ acc', s'.accounts.get a = some acc' ∧ acc'.collateralBalances = acc.collateralBalances ∧
      acc'.collateral = acc.collateral ∧ (∀ q, q ≠ r.pair → acc'.positions.get q = acc.positions.get q)) ∧
    s'.pool.baseTokens = s.pool.baseTokens ∧ o.given = [] := by
  obtain ⟨acc0, acc', kr', ids, s1, c, w0, w, out, hrun, hkr, hids, -, hex, hev, hpd, hbk⟩ := run_execute (step_body h) hx
  have e := hrun.before
  rw [ha] at e; cases e
  rw [hk] at hkr; cases hkr
  rw [hr] at hex
  rcases executeRequest_ok hex with ⟨q, tokens, hq, -, -⟩ | ⟨q, e, hq, hmo, ho⟩
  · cases hq
  cases hq
  have hp := order_parts hmo
  have hcomp : w.pool.comp = s.pool := by rw [hp.comp, hrun.pool0]; rfl
  refine ⟨hrun.others, ?_, ⟨acc', hrun.after, ?_, ?_, ?_⟩, ?_, ?_⟩
  · intro q hq
    rw [hrun.pool]
    simp only [VPool.realize]
    rw [VPool.realPositions_get, hcomp]
    have : q ∉ w.pool.updated := by
      obtain ⟨w3, a1, a2, ht, -, -, rfl⟩ := marginOrder_touches hmo
      rw [ht.upd q hq, hrun.pool0]
      simp [VPool.new]
    rw [if_neg this]
  · rw [(realize_coll hrun.real).2]
    have := congrArg (fun x => x.2.1) (hp.coll.trans hrun.collPart0)
    exact this
  · rw [(realize_coll hrun.real).1]
    have := congrArg (fun x => x.2.2) (hp.coll.trans hrun.collPart0)
    exact this
  · intro q hq
    rw [hrun.positions (reach_noEmpty h0), hp.pos q hq, hrun.pos0]
    cases hg : acc.positions.get q with
    | none => rfl
    | some x =>
      have := reach_noEmpty h0 a acc ha q x hg
      simp [Option.filter, this]
  · rw [hrun.pool]
    simp only [VPool.realize]
    rw [hcomp]
  · simp [Out.given, hpd, hbk, ho]

/-- **C24, withdrawals.** Executing a withdrawal leaves every other account and every position as they were. -/
theorem c24_withdrawal_is_local {env : Env} {cl : Caller} {s s' : State} {a : Addr} {i : Nat} {u : Option PriceUpdate} {o : Out}
    {acc : Account} {kr : KeeperRequest} {r : RemoveCollateralReq} (h0 : Reach env s)
    (h : step env cl s (.processRequest a i u) = Except.ok (s', o)) (ha : s.accounts.get a = some acc)
    (hk : acc.requests[i]? = some kr) (hr : kr.request = .removeCollateral r) (hx : o.ev ≠ .expired) :
    (∀ b, b ≠ a → s'.accounts.get b = s.accounts.get b) ∧ s'.pool.positions = s.pool.positions ∧
    ∃ acc', s'.accounts.get a = some acc' ∧ ∀ q, acc'.positions.get q = acc.positions.get q := by
  obtain ⟨acc0, acc', kr', ids, s1, c, w0, w, out, hrun, hkr, hids, -, hex, hev, hpd, hbk⟩ := run_execute (step_body h) hx
  have e := hrun.before
  rw [ha] at e; cases e
  rw [hk] at hkr; cases hkr
  rw [hr] at hex
  rcases executeRequest_ok hex with ⟨q, tokens, hq, hrc, -⟩ | ⟨q, e, hq, hmo, ho⟩
  · cases hq
    obtain ⟨-, h2, h3, h4, -⟩ := removeCollateral_pool hrc
    refine ⟨hrun.others, ?_, acc', hrun.after, ?_⟩
    · rw [hrun.pool]
      simp only [VPool.realize]
      rw [realPositions_untouched (by rw [h2, hrun.pool0]; rfl), h3, hrun.pool0]; rfl
    · intro q
      rw [hrun.positions (reach_noEmpty h0), h4, hrun.pos0]
      cases hg : acc.positions.get q with
      | none => rfl
      | some x =>
        have := reach_noEmpty h0 a acc ha q x hg
        simp [Option.filter, this]
  · cases hq

/-! ## C27 -/

/-- **C27, orders.** After an executed order the skew ratio of the pool is below the cap, or the order strictly reduced the
absolute skew of its pair at the price used. -/
theorem c27_order_skew {env : Env} {cl : Caller} {s s' : State} {a : Addr} {i : Nat} {u : Option PriceUpdate} {o : Out}
    {acc : Account} {kr : KeeperRequest} {r : MarginOrderReq}
    (h : step env cl s (.processRequest a i u) = Except.ok (s', o)) (ha : s.accounts.get a = some acc)
    (hk : acc.requests[i]? = some kr) (hr : kr.request = .marginOrder r) (hx : o.ev ≠ .expired) :
    s'.pool.skewRatio < s'.config.exchange.decompress.skewRatioCap ∨
    ∃ price t, s'.oracle.prices.get r.pair = some (price, t) ∧
      |mulT ((s'.pool.position s'.now r.pair).oiLong - (s'.pool.position s'.now r.pair).oiShort) price| <
      |mulT ((s.pool.position s.now r.pair).oiLong - (s.pool.position s.now r.pair).oiShort) price| := by
  obtain ⟨acc', ids, s1, c, w0, w, e, hrun, hp, hev, hids, -⟩ := run_order (step_body h) ha hk hr hx
  obtain ⟨pp, pp', h1, h2, h3⟩ := hp.skew
  rcases h3 with h3 | h3
  · left
    have hcomp : w.pool.comp = s.pool := by rw [hp.comp, hrun.pool0]; rfl
    have hbase : w.pool.base = s.pool.baseTokens := by rw [hp.base, hrun.pool0]; rfl
    rw [hrun.ex] at h3
    unfold Pool.skewRatio Pool.value
    rw [hrun.pool, hrun.config]
    simp only [VPool.realize, hcomp]
    rw [← hbase]; exact h3
  · right
    obtain ⟨-, t, ht, -⟩ := (keeperLoad_prices hrun.load).1 _ _ hp.price
    refine ⟨e.price, t, by rw [hrun.oracle]; exact ht, ?_⟩
    rw [hrun.poolPos h2, hrun.poolPos0 h1]; exact h3

/-- **C27, withdrawals of liquidity.** After `remove_liquidity` the skew ratio is below the cap. -/
theorem c27_remove_liquidity_skew {env : Env} {cl : Caller} {s s' : State} {b : Bucket} {o : Out}
    (h : step env cl s (.removeLiquidity b) = Except.ok (s', o)) :
    s'.pool.skewRatio < s'.config.exchange.decompress.skewRatioCap := by
  obtain ⟨cfg, price, value, fee, x, hc, -, -, -, -, -, -, -, -, hs, hlt, -⟩ := opRemoveLiquidity_ok (step_body h)
  rw [VConfig.new_ex hc] at hlt
  rw [hs] at hlt ⊢
  exact hlt

end Perp
