import Verif.SpecOps

/-!
# Every method as a path of elementary effects

The internal methods of the exchange only ever do a handful of elementary things to the working state.
`WStep` lists them with their exact effects, `WPath` composes them, and this file shows that every
internal method is such a path.  Invariants are then proved once per elementary effect.
-/

namespace Perp

/-- Elementary effects on the working state.  The last argument is the amount of fee oath paid. -/
inductive WStep (ex : ExchangeConfig) : W → W → Dec → Prop where
  /-- virtual balance moves between pool and account -/
  | settle (w : W) (x : Dec) :
      WStep ex w { w with pool := { w.pool with vb := w.pool.vb - x }
                          acc := { w.acc with vb := w.acc.vb + x } } 0
  /-- base tokens enter (or leave) the pool vault -/
  | base (w : W) (x : Dec) :
      WStep ex w { w with pool := { w.pool with
        base := w.pool.base + x
        comp := { w.pool.comp with baseTokens := w.pool.comp.baseTokens + x } } } 0
  /-- a trading fee is split -/
  | fees {w w' : W} {fee : Dec} {f : FeeSplit} : 0 ≤ fee →
      settleFeesReferral ex w fee = Except.ok (w', f) → WStep ex w w' 0
  /-- the pool's unrealised funding changes -/
  | unreal (w : W) (x : Dec) :
      WStep ex w { w with pool := { w.pool with unreal := w.pool.unreal + x } } 0
  /-- a pair is marked to market; funding may accrue -/
  | mark (w : W) (p : PairId) {pp pp' : PoolPosition} (price d : Dec) :
      w.pool.positions.get p = some pp →
      pp'.oiLong = pp.oiLong → pp'.oiShort = pp.oiShort → pp'.cost = pp.cost →
      pp'.skewAbsSnap = |pp.skewAt price| → pp'.pnlSnap = pp.cost - pp.skewAt price →
      WStep ex w { w with pool := { w.pool with
        positions := w.pool.positions.set p pp'
        updated := p :: w.pool.updated
        skewSnap := w.pool.skewSnap + (pp'.skewAbsSnap - pp.skewAbsSnap)
        pnlSnap := w.pool.pnlSnap + (pp'.pnlSnap - pp.pnlSnap)
        unreal := w.pool.unreal + d } } 0
  /-- every position of the account is marked for writing -/
  | touch (w : W) : WStep ex w { w with acc := w.acc.touchAll } 0
  /-- the funding index of one position is brought up to date -/
  | fund (w : W) (p : PairId) {pp : PoolPosition} {pos : AccountPosition} :
      w.pool.positions.get p = some pp → w.acc.positions.get p = some pos →
      p ∈ w.acc.positionsUpdated →
      WStep ex w { w with acc := { w.acc with
        positions := w.acc.positions.set p (settledPos pp pos) } } 0
  /-- the account's position in a pair changes, together with the pool's totals -/
  | trade (w : W) (p : PairId) {pp pp' : PoolPosition} (new : AccountPosition) (price : Dec) :
      w.pool.positions.get p = some pp →
      pp'.oiLong = pp.oiLong + (max new.amount 0 - max (w.acc.position p).amount 0) →
      pp'.oiShort = pp.oiShort + (max (-new.amount) 0 - max (-(w.acc.position p).amount) 0) →
      pp'.cost = pp.cost + (new.cost - (w.acc.position p).cost) →
      (new.amount = 0 → new.cost = 0) →
      WStep ex w { w with pool := w.pool.remark p pp pp' price
                          acc := w.acc.setPosition p new } 0
  /-- one position is liquidated -/
  | liq (w : W) (p : PairId) {pp : PoolPosition} {pos : AccountPosition} :
      w.pool.positions.get p = some pp → w.acc.positions.get p = some pos →
      p ∈ w.acc.positionsUpdated →
      WStep ex w { w with
        pool := w.pool.setPosition p (pp.closed (-pos.amount) pos.cost)
        acc := { w.acc with positions := w.acc.positions.set p AccountPosition.zero } } 0
  | deposit {w : W} {acc : VAccount} {bs : List Bucket} :
      w.acc.depositCollateral bs = Except.ok acc → WStep ex w { w with acc } 0
  | withdraw {w : W} {env : Env} {acc : VAccount} {claims : List (Res × Dec)} {bs : List Bucket} :
      w.acc.withdrawCollateral env claims .toZero = Except.ok (acc, bs) → WStep ex w { w with acc } 0
  | push {w : W} {now : Int} {r : Request} {delay expiry : Nat} {st : Status} {eff : List Addr}
      {acc : VAccount} :
      w.acc.pushRequest now r delay expiry st eff = Except.ok acc → WStep ex w { w with acc } 0
  | setStatus {w : W} {is : List Nat} {st : Status} {acc : VAccount} :
      st = STATUS_ACTIVE ∨ st = STATUS_CANCELLED →
      w.acc.trySetStatus is st = Except.ok acc → WStep ex w { w with acc } 0
  | cancel {w : W} {is : List Nat} {acc : VAccount} :
      w.acc.cancelRequests is = Except.ok acc → WStep ex w { w with acc } 0
  | process {w : W} {now : Int} {i : Nat} {acc : VAccount} {r : Request} {e : Bool} :
      w.acc.processRequest now i = Except.ok (acc, r, e) → WStep ex w { w with acc } 0
  | invalidate (w : W) : WStep ex w { w with acc := w.acc.updateValidStart } 0
  /-- a fee oath is charged to the account -/
  | oath (w : W) (x : Dec) : 0 ≤ x → WStep ex w { w with acc := { w.acc with vb := w.acc.vb - x } } x

/-- A sequence of elementary effects. -/
inductive WPath (ex : ExchangeConfig) : W → W → Dec → Prop where
  | refl (w : W) : WPath ex w w 0
  | tail {a b c : W} {x y : Dec} : WPath ex a b x → WStep ex b c y → WPath ex a c (x + y)

theorem WPath.trans {ex : ExchangeConfig} {a b c : W} {x y : Dec} (h1 : WPath ex a b x)
    (h2 : WPath ex b c y) : WPath ex a c (x + y) := by
  induction h2 with
  | refl => simpa using h1
  | tail _ hs ih => rw [← add_assoc]; exact ih.tail hs

theorem WPath.trans0 {ex : ExchangeConfig} {a b c : W} (h1 : WPath ex a b 0)
    (h2 : WPath ex b c 0) : WPath ex a c 0 := by simpa using h1.trans h2

theorem WStep.path {ex : ExchangeConfig} {a b : W} {x : Dec} (h : WStep ex a b x) : WPath ex a b x := by
  simpa using (WPath.refl a).tail h

/-- Paths of several effects without oath, over a monadic left fold. -/
theorem foldlM_path {ex : ExchangeConfig} {α : Type} {f : W → α → R W} {l : List α} {w w' : W}
    (hf : ∀ w w' a, f w a = Except.ok w' → WPath ex w w' 0)
    (h : l.foldlM f w = Except.ok w') : WPath ex w w' 0 := by
  induction l generalizing w with
  | nil =>
    simp only [List.foldlM_nil, pure_ok] at h
    subst h; exact .refl _
  | cons a l ih =>
    simp only [List.foldlM_cons, bind_ok] at h
    obtain ⟨w1, h1, h2⟩ := h
    exact (hf _ _ _ h1).trans0 (ih h2)

theorem settleAccount_path {ex : ExchangeConfig} {w w' : W} {x : Dec}
    (h : settleAccount w x = Except.ok w') : WPath ex w w' 0 := by
  rw [settleAccount_ok h]; exact (WStep.settle w x).path

theorem deposit_path {ex : ExchangeConfig} {w : W} {pool : VPool} {x : Dec}
    (h : w.pool.deposit x = Except.ok pool) : WPath ex w { w with pool } 0 := by
  rw [VPool.deposit_ok h]; exact (WStep.base w x).path

theorem withdraw_path {ex : ExchangeConfig} {env : Env} {w : W} {pool : VPool} {a x : Dec} {st : Strategy}
    (h : w.pool.withdraw env a st = Except.ok (pool, x)) : WPath ex w { w with pool } 0 := by
  rw [(VPool.withdraw_ok h).2]; exact (WStep.base w (-x)).path

theorem updatePairSnaps_path {ex : ExchangeConfig} {c : Ctx} {w : W} {pool : VPool} {p : PairId}
    (h : updatePairSnaps c w.pool p = Except.ok pool) : WPath ex w { w with pool } 0 := by
  obtain ⟨price, pp, -, hpp, rfl⟩ := updatePairSnaps_ok h
  have := (WStep.mark (ex := ex) w p (pp' := pp.snapAt price) price 0 hpp rfl rfl rfl rfl rfl).path
  simpa using this

theorem updatePair_path {ex : ExchangeConfig} {c : Ctx} {w : W} {pool : VPool} {p : PairId} {b : Bool}
    (h : updatePair c w.pool p = Except.ok (pool, b)) : WPath ex w { w with pool } 0 := by
  obtain ⟨pc, price, pp0, pp1, d, sec, per, -, -, hpp, -, -, hf, rfl, -, -⟩ := updatePair_ok h
  have ho := fundingStep_only hf
  unfold FundingOnly at ho
  have := (WStep.mark (ex := ex) w p (pp' := pp1) price d hpp (by rw [ho]; rfl) (by rw [ho]; rfl)
    (by rw [ho]; rfl) (by rw [ho]; rfl) (by rw [ho]; rfl)).path
  have e1 : pp1.skewAbsSnap = |pp0.skewAt price| := by rw [ho]; rfl
  have e2 : pp1.pnlSnap = pp0.cost - pp0.skewAt price := by rw [ho]; rfl
  rw [e1, e2] at this
  exact this

theorem settleFunding_path {ex : ExchangeConfig} {w w' : W} {p : PairId} {n : Dec}
    (h : settleFunding w p = Except.ok (w', n)) : WPath ex w w' 0 := by
  obtain ⟨pp, hpp, -, hpool, hacc, hd⟩ := settleFunding_ok h
  have h1 := (WStep.touch (ex := ex) w).path
  have h2 : WPath ex { w with acc := w.acc.touchAll }
      { w with acc := { w.acc.touchAll with
        positions := match w.acc.positions.get p with
          | some pos => w.acc.positions.set p (settledPos pp pos)
          | none => w.acc.positions } } 0 := by
    cases hg : w.acc.positions.get p with
    | none => exact .refl _
    | some pos =>
      refine (WStep.fund (ex := ex) { w with acc := w.acc.touchAll } p (pos := pos) hpp hg ?_).path
      simp [VAccount.touchAll, AMap.mem_keys, hg]
  have h3 := fun w => (WStep.unreal (ex := ex) w n).path
  have h4 := fun w => (WStep.settle (ex := ex) w n).path
  have := ((h1.trans0 h2).trans0 (h3 _)).trans0 (h4 _)
  convert this using 1
  cases w'
  simp only at hpool hacc hd
  subst hpool hacc hd
  rfl

theorem sign_cases {a b : Int} : 0 ≤ a.sign * b.sign ↔ (0 ≤ a ∧ 0 ≤ b) ∨ (a ≤ 0 ∧ b ≤ 0) := by
  rcases lt_trichotomy a 0 with h | h | h <;> rcases lt_trichotomy b 0 with h' | h' | h' <;>
    simp [Int.sign_eq_neg_one_of_neg, Int.sign_eq_one_of_pos, h, h'] <;> omega

theorem sign_cases' {a b : Int} : a.sign * b.sign ≤ 0 ↔ (0 ≤ a ∧ b ≤ 0) ∨ (a ≤ 0 ∧ 0 ≤ b) := by
  rcases lt_trichotomy a 0 with h | h | h <;> rcases lt_trichotomy b 0 with h' | h' | h' <;>
    simp [Int.sign_eq_neg_one_of_neg, Int.sign_eq_one_of_pos, h, h'] <;> omega

/-- Opening, as a change of the account position and of the pool totals. -/
theorem openPosition_path {ex : ExchangeConfig} {c : Ctx} {w w' : W} {p : PairId} {amount fee : Dec}
    (h0 : amount ≠ 0) (h : openPosition c w p amount = Except.ok (w', fee)) : WPath ex w w' 0 := by
  obtain ⟨pc, price, pp, -, -, hpp, hsign, -, -, -, -, hpool, hacc, hd, -, -⟩ := openPosition_ok h
  have hs := sign_cases.mp hsign
  generalize hnew : ({ amount := (w.acc.position p).amount + amount
                       cost := (w.acc.position p).cost + (mulT amount price + fee)
                       fundingIndex := if (w.acc.position p).amount + amount > 0 then pp.fundingLongIndex
                          else pp.fundingShortIndex } : AccountPosition) = new at hacc
  have ea : new.amount = (w.acc.position p).amount + amount := by rw [← hnew]
  have ec : new.cost = (w.acc.position p).cost + (mulT amount price + fee) := by rw [← hnew]
  have := (WStep.trade (ex := ex) w p (pp' := pp.opened amount (mulT amount price + fee)) new price hpp
    ?_ ?_ ?_ ?_).path
  · convert this using 1
    cases w'; simp only at hpool hacc hd; subst hpool hacc hd; rfl
  · rw [ea]; unfold PoolPosition.opened
    split
    · simp only; omega
    · simp only; omega
  · rw [ea]; unfold PoolPosition.opened
    split
    · simp only; omega
    · simp only; omega
  · rw [ec]; simp
  · rw [ea]; omega

theorem closedCost_all {pos : AccountPosition} (h : pos.amount ≠ 0) :
    closedCost pos (-pos.amount) = pos.cost := by
  unfold closedCost
  rw [neg_neg, divT_self h, mulT_one_left]

theorem closePosition_path {ex : ExchangeConfig} {c : Ctx} {w w' : W} {p : PairId}
    {amount pnl fee : Dec} (h : closePosition c w p amount = Except.ok (w', pnl, fee)) :
    WPath ex w w' 0 := by
  obtain ⟨pc, price, pp, -, -, hpp, hne, hsign, habs, -, -, -, hpool, hacc, hd⟩ := closePosition_ok h
  have hs := sign_cases'.mp hsign
  generalize hnew : ({ w.acc.position p with
          amount := (w.acc.position p).amount + amount
          cost := (w.acc.position p).cost - closedCost (w.acc.position p) amount } : AccountPosition) = new
    at hacc
  have ea : new.amount = (w.acc.position p).amount + amount := by rw [← hnew]
  have ec : new.cost = (w.acc.position p).cost - closedCost (w.acc.position p) amount := by rw [← hnew]
  have habs' : (0 ≤ (w.acc.position p).amount ∧ 0 ≤ (w.acc.position p).amount + amount ∧ amount ≤ 0) ∨
      ((w.acc.position p).amount ≤ 0 ∧ (w.acc.position p).amount + amount ≤ 0 ∧ 0 ≤ amount) := by
    rcases hs with ⟨h1, h2⟩ | ⟨h1, h2⟩
    · rw [abs_of_nonpos h2, abs_of_nonneg h1] at habs; left; omega
    · rw [abs_of_nonneg h2, abs_of_nonpos h1] at habs; right; omega
  have := (WStep.trade (ex := ex) w p
    (pp' := pp.closed amount (closedCost (w.acc.position p) amount)) new price hpp ?_ ?_ ?_ ?_).path
  · have := this.trans0 (WStep.settle (ex := ex) _ pnl).path
    convert this using 1
    cases w'; simp only at hpool hacc hd; subst hpool hacc hd; rfl
  · rw [ea]; unfold PoolPosition.closed
    split
    · simp only; omega
    · simp only; omega
  · rw [ea]; unfold PoolPosition.closed
    split
    · simp only; omega
    · simp only; omega
  · rw [ec]; simp; ring
  · rw [ea, ec]
    intro h0
    have : amount = -(w.acc.position p).amount := by omega
    rw [this, closedCost_all hne, sub_self]

theorem closePart_path {ex : ExchangeConfig} {c : Ctx} {w w' : W} {p : PairId} {x pnl fee : Dec}
    (h : closePart c w p x = Except.ok (w', pnl, fee)) : WPath ex w w' 0 := by
  unfold closePart at h
  split at h
  · exact closePosition_path h
  · simp only [pure_ok, Prod.mk.injEq] at h
    rw [h.1]; exact .refl _

theorem openPart_path {ex : ExchangeConfig} {c : Ctx} {w w' : W} {p : PairId} {x fee : Dec}
    (h : openPart c w p x = Except.ok (w', fee)) : WPath ex w w' 0 := by
  unfold openPart at h
  split at h
  · rename_i h0; exact openPosition_path h0 h
  · simp only [pure_ok, Prod.mk.injEq] at h
    rw [h.1]; exact .refl _

theorem feeOf_nonneg (ex : ExchangeConfig) (pc : PairConfig) (pp : PoolPosition) (a b v : Dec) :
    0 ≤ feeOf ex pc pp a b v := le_max_left _ _

theorem closePart_fee {c : Ctx} {w w' : W} {p : PairId} {x pnl fee : Dec}
    (h : closePart c w p x = Except.ok (w', pnl, fee)) : 0 ≤ fee := by
  unfold closePart at h
  split at h
  · obtain ⟨pc, price, pp, -, -, -, -, -, -, rfl, -⟩ := closePosition_ok h
    exact feeOf_nonneg _ _ _ _ _ _
  · simp only [pure_ok, Prod.mk.injEq] at h
    rw [← h.2.2]

theorem openPart_fee {c : Ctx} {w w' : W} {p : PairId} {x fee : Dec}
    (h : openPart c w p x = Except.ok (w', fee)) : 0 ≤ fee := by
  unfold openPart at h
  split at h
  · obtain ⟨pc, price, pp, -, -, -, -, rfl, -⟩ := openPosition_ok h
    exact feeOf_nonneg _ _ _ _ _ _
  · simp only [pure_ok, Prod.mk.injEq] at h
    rw [← h.2]

theorem executeOrder_ok {c : Ctx} {w w' : W} {p : PairId} {close op pnl fee : Dec}
    (h : executeOrder c w p close op = Except.ok (w', pnl, fee)) :
    ∃ w1 f1 f2, closePart c w p close = Except.ok (w1, pnl, f1) ∧
      openPart c w1 p op = Except.ok (w', f2) ∧ fee = f1 + f2 := by
  simp only [executeOrder, bind_ok, pure_ok, dadd_ok, Prod.mk.injEq] at h
  obtain ⟨⟨w1, pnl1, f1⟩, h1, ⟨w2, f2⟩, h2, _, ⟨-, rfl⟩, rfl, rfl, rfl⟩ := h
  exact ⟨w1, f1, f2, h1, h2, rfl⟩

theorem executeOrder_path {ex : ExchangeConfig} {c : Ctx} {w w' : W} {p : PairId}
    {close op pnl fee : Dec}
    (h : executeOrder c w p close op = Except.ok (w', pnl, fee)) : WPath ex w w' 0 ∧ 0 ≤ fee := by
  obtain ⟨w1, f1, f2, h1, h2, rfl⟩ := executeOrder_ok h
  exact ⟨(closePart_path h1).trans0 (openPart_path h2), add_nonneg (closePart_fee h1) (openPart_fee h2)⟩

/-- `_margin_order`: the successful run, stage by stage. -/
theorem marginOrder_ok {c : Ctx} {w w' : W} {r : MarginOrderReq} {e : MarginOrderEv}
    (h : marginOrder c w r = Except.ok (w', e)) :
    ∃ price pool b w1 funding close op w2 pnl fee ok w3 fees a1 a2,
      c.orc.prices.get r.pair = some price ∧ r.priceLimit.compare price = true ∧
      updatePair c w.pool r.pair = Except.ok (pool, b) ∧
      settleFunding { w with pool } r.pair = Except.ok (w1, funding) ∧
      splitOrder (w1.acc.position r.pair).amount r.amount r.reduceOnly = Except.ok (close, op) ∧
      executeOrder c w1 r.pair close op = Except.ok (w2, pnl, fee) ∧
      r.slippageLimit.compare fee (mulT price |op + close|) = Except.ok ok ∧ ok = true ∧
      settleFeesReferral c.cfg.ex w2 fee = Except.ok (w3, fees) ∧
      w3.acc.trySetStatus r.activate STATUS_ACTIVE = Except.ok a1 ∧
      a1.trySetStatus r.cancel STATUS_CANCELLED = Except.ok a2 ∧
      w' = { w3 with acc := a2 } ∧
      assertPoolIntegrity c.cfg w'.pool (w'.pool.skewSnap - w1.pool.skewSnap) = Except.ok () ∧
      e = { pair := r.pair, price, amountClose := close, amountOpen := op, pnl := pnl + funding,
            funding, fees } := by
  simp only [marginOrder, bind_ok, pure_ok, VOracle.price_ok, require_ok, dadd_ok, dsub_ok, dabs_ok,
    dmul_ok, Prod.mk.injEq] at h
  obtain ⟨price, hprice, -, hlim, ⟨pool, b⟩, hup, ⟨w1, funding⟩, hf, ⟨close, op⟩, hsp, ⟨w2, pnl, fee⟩, hx,
    _, ⟨-, rfl⟩, _, ⟨-, rfl⟩, _, ⟨-, rfl⟩, ok, hok, -, hok', ⟨w3, fees⟩, hfee, a1, ha1, a2, ha2,
    _, ⟨-, rfl⟩, ⟨⟩, hint, _, ⟨-, rfl⟩, rfl, rfl⟩ := h
  exact ⟨price, pool, b, w1, funding, close, op, w2, pnl, fee, ok, w3, fees, a1, a2, hprice, hlim, hup, hf,
    hsp, hx, hok, hok', hfee, ha1, ha2, rfl, hint, rfl⟩

theorem marginOrder_path {c : Ctx} {w w' : W} {r : MarginOrderReq} {e : MarginOrderEv}
    (h : marginOrder c w r = Except.ok (w', e)) : WPath c.cfg.ex w w' 0 := by
  obtain ⟨price, pool, b, w1, funding, close, op, w2, pnl, fee, ok, w3, fees, a1, a2, -, -, hup, hf,
    -, hx, -, -, hfee, ha1, ha2, rfl, -, -⟩ := marginOrder_ok h
  obtain ⟨hx, h0⟩ := executeOrder_path (ex := c.cfg.ex) hx
  have h1 := (updatePair_path (ex := c.cfg.ex) hup).trans0 (settleFunding_path hf)
  have h2 := (h1.trans0 hx).trans0 (WStep.fees h0 hfee).path
  have h3 := h2.trans0 (WStep.setStatus (Or.inl rfl) ha1).path
  exact h3.trans0 (WStep.setStatus (w := { w3 with acc := a1 }) (Or.inr rfl) ha2).path

theorem autoDeleverage_ok {c : Ctx} {w w' : W} {p : PairId} {e : AdlEv}
    (h : autoDeleverage c w p = Except.ok (w', e)) :
    ∃ pool b w1 funding ratio0 price pct thr w2 pnl fee fees ratio1,
      updatePair c w.pool p = Except.ok (pool, b) ∧
      settleFunding { w with pool } p = Except.ok (w1, funding) ∧
      skewRatio w1.pool = Except.ok ratio0 ∧ ratio0 > c.cfg.ex.skewRatioCap ∧
      c.orc.prices.get p = some price ∧ (w1.acc.position p).amount ≠ 0 ∧
      (w1.acc.position p).cost ≠ 0 ∧
      pct = divT (mulT (w1.acc.position p).amount price - (w1.acc.position p).cost)
              (w1.acc.position p).cost ∧
      adlThreshold c.cfg.ex ratio0 = Except.ok thr ∧ pct > thr ∧
      closePosition c w1 p (-(w1.acc.position p).amount) = Except.ok (w2, pnl, fee) ∧
      settleFeesReferral c.cfg.ex w2 fee = Except.ok (w', fees) ∧
      skewRatio w'.pool = Except.ok ratio1 ∧ ratio1 < ratio0 ∧
      e = { pair := p, price, amountClose := -(w1.acc.position p).amount, pnl := pnl + funding, funding,
            fees, pnlPercent := pct, threshold := thr } := by
  simp only [autoDeleverage, bind_ok, pure_ok, VOracle.price_ok, require_ok, decide_eq_true_eq, dadd_ok,
    dsub_ok, ddiv_ok, dmul_ok, dneg_ok, Prod.mk.injEq] at h
  obtain ⟨⟨pool, b⟩, hup, ⟨w1, funding⟩, hf, ratio0, hr0, -, hcap, price, hprice, -, hne, _, ⟨-, rfl⟩,
    _, ⟨-, rfl⟩, _, ⟨hc, -, rfl⟩, thr, hthr, -, hpct, _, ⟨-, rfl⟩, ⟨w2, pnl, fee⟩, hcl, ⟨w3, fees⟩, hfee,
    ratio1, hr1, -, hlt, _, ⟨-, rfl⟩, rfl, rfl⟩ := h
  exact ⟨pool, b, w1, funding, ratio0, price, _, thr, w2, pnl, fee, fees, ratio1, hup, hf, hr0, hcap, hprice,
    hne, hc, rfl, hthr, hpct, hcl, hfee, hr1, hlt, rfl⟩

theorem closePosition_fee {c : Ctx} {w w' : W} {p : PairId} {x pnl fee : Dec}
    (h : closePosition c w p x = Except.ok (w', pnl, fee)) : 0 ≤ fee := by
  obtain ⟨pc, price, pp, -, -, -, -, -, -, rfl, -⟩ := closePosition_ok h
  exact feeOf_nonneg _ _ _ _ _ _

theorem autoDeleverage_path {c : Ctx} {w w' : W} {p : PairId} {e : AdlEv}
    (h : autoDeleverage c w p = Except.ok (w', e)) : WPath c.cfg.ex w w' 0 := by
  obtain ⟨pool, b, w1, funding, ratio0, price, pct, thr, w2, pnl, fee, fees, ratio1, hup, hf, -, -, -,
    -, -, -, -, -, hcl, hfee, -, -, -⟩ := autoDeleverage_ok h
  have h1 := (updatePair_path (ex := c.cfg.ex) hup).trans0 (settleFunding_path hf)
  exact (h1.trans0 (closePosition_path hcl)).trans0 (WStep.fees (closePosition_fee hcl) hfee).path

/-! ## Collateral -/

theorem addBase_path {ex : ExchangeConfig} {w w' : W} {b : Bucket}
    (h : addBase w b = Except.ok w') : WPath ex w w' 0 := by
  simp only [addBase, bind_ok] at h
  obtain ⟨pool, hp, hs⟩ := h
  exact (deposit_path hp).trans0 (settleAccount_path hs)

theorem addCollateral_ok {cfg : VConfig} {w w' : W} {tokens : List Bucket}
    (h : addCollateral cfg w tokens = Except.ok w') :
    ∃ w1 acc, (tokens.filter (fun b => b.res = BASE)).foldlM addBase w = Except.ok w1 ∧
      (∀ b ∈ tokens, b.res ≠ BASE → cfg.colls.has b.res = true) ∧
      w1.acc.depositCollateral (tokens.filter (fun b => b.res ≠ BASE)) = Except.ok acc ∧
      acc.collateralBalances.size ≤ cfg.ex.collateralsMax ∧ w' = { w1 with acc } := by
  simp only [addCollateral, bind_ok, pure_ok, require_ok, assertCollateralsLimit, decide_eq_true_eq] at h
  obtain ⟨w1, h1, -, hall, acc, hd, -, hlim, rfl⟩ := h
  refine ⟨w1, acc, h1, ?_, hd, hlim, rfl⟩
  intro b hb hne
  have := List.all_eq_true.mp hall b (by simp [hb, hne])
  simpa using this

theorem addCollateral_path {ex : ExchangeConfig} {cfg : VConfig} {w w' : W} {tokens : List Bucket}
    (h : addCollateral cfg w tokens = Except.ok w') : WPath ex w w' 0 := by
  obtain ⟨w1, acc, h1, -, hd, -, rfl⟩ := addCollateral_ok h
  exact (foldlM_path (fun _ _ _ => addBase_path) h1).trans0 (WStep.deposit hd).path

theorem claimOne_ok {env : Env} {t t' : W × List Bucket × List (Res × Dec)} {e : Res × Dec}
    (h : claimOne env t e = Except.ok t') :
    (e.1 = BASE ∧ e.2 ≤ t.1.acc.vb ∧ e.2 ≤ t.1.pool.base ∧ ∃ pool x w,
      t.1.pool.withdraw env e.2 .toZero = Except.ok (pool, x) ∧
      settleAccount { t.1 with pool } (-x) = Except.ok w ∧
      t' = (w, t.2.1 ++ [⟨BASE, x⟩], t.2.2)) ∨
    (e.1 ≠ BASE ∧ e.2 ≤ t.1.acc.collateralAmount e.1 ∧ t' = (t.1, t.2.1, t.2.2 ++ [e])) := by
  unfold claimOne at h
  split at h
  · rename_i hb
    simp only [bind_ok, pure_ok, require_ok, decide_eq_true_eq, dneg_ok] at h
    obtain ⟨-, h1, -, h2, ⟨pool, x⟩, hp, _, ⟨-, rfl⟩, w, hw, rfl⟩ := h
    exact Or.inl ⟨hb, h1, h2, pool, x, w, hp, hw, rfl⟩
  · rename_i hb
    simp only [bind_ok, pure_ok, require_ok, decide_eq_true_eq] at h
    obtain ⟨-, h1, rfl⟩ := h
    exact Or.inr ⟨hb, h1, rfl⟩

theorem claimOne_path {ex : ExchangeConfig} {env : Env} {t t' : W × List Bucket × List (Res × Dec)}
    {e : Res × Dec} (h : claimOne env t e = Except.ok t') : WPath ex t.1 t'.1 0 := by
  rcases claimOne_ok h with ⟨-, -, -, pool, x, w, hp, hw, rfl⟩ | ⟨-, -, rfl⟩
  · exact (withdraw_path hp).trans0 (settleAccount_path hw)
  · exact .refl _

theorem claims_path {ex : ExchangeConfig} {env : Env} {l : List (Res × Dec)}
    {t t' : W × List Bucket × List (Res × Dec)}
    (h : l.foldlM (claimOne env) t = Except.ok t') : WPath ex t.1 t'.1 0 := by
  induction l generalizing t with
  | nil =>
    simp only [List.foldlM_nil, pure_ok] at h
    subst h; exact .refl _
  | cons a l ih =>
    simp only [List.foldlM_cons, bind_ok] at h
    obtain ⟨w1, h1, h2⟩ := h
    exact (claimOne_path h1).trans0 (ih h2)

theorem removeCollateral_ok {c : Ctx} {w w' : W} {r : RemoveCollateralReq} {tokens : List Bucket}
    (h : removeCollateral c w r = Except.ok (w', tokens)) :
    ∃ claims t acc bs, r.claims.foldlM addClaim AMap.empty = Except.ok claims ∧
      claims.entries.foldlM (claimOne c.env) (w, [], []) = Except.ok t ∧
      t.1.acc.withdrawCollateral c.env t.2.2 .toZero = Except.ok (acc, bs) ∧
      c.env.isWallet r.target = true ∧
      assertAccountIntegrity c t.1.pool acc = Except.ok () ∧
      w' = { t.1 with acc } ∧ tokens = t.2.1 ++ bs := by
  simp only [removeCollateral, bind_ok, pure_ok, require_ok, Prod.mk.injEq] at h
  obtain ⟨claims, hc, t, ht, ⟨acc, bs⟩, hw, -, hwal, ⟨⟩, hi, rfl, rfl⟩ := h
  exact ⟨claims, t, acc, bs, hc, ht, hw, hwal, hi, rfl, rfl⟩

theorem removeCollateral_path {ex : ExchangeConfig} {c : Ctx} {w w' : W} {r : RemoveCollateralReq}
    {tokens : List Bucket} (h : removeCollateral c w r = Except.ok (w', tokens)) : WPath ex w w' 0 := by
  obtain ⟨claims, t, acc, bs, -, ht, hw, -, -, rfl, -⟩ := removeCollateral_ok h
  exact (claims_path (ex := ex) ht).trans0 (WStep.withdraw hw).path

theorem executeRequest_path {c : Ctx} {w w' : W} {r : Request} {o : Out}
    (h : executeRequest c w r = Except.ok (w', o)) : WPath c.cfg.ex w w' 0 := by
  rcases executeRequest_ok h with ⟨q, tokens, -, hr, -⟩ | ⟨q, e, -, hr, -⟩
  · exact removeCollateral_path hr
  · exact marginOrder_path hr

theorem swapDebtAmounts_ok {pay debt avail pr amount value : Dec}
    (h : swapDebtAmounts pay debt avail pr = Except.ok (amount, value)) :
    pr ≠ 0 ∧ ((divT (min pay debt) pr > avail ∧ amount = avail ∧ value = mulT avail pr) ∨
      (divT (min pay debt) pr ≤ avail ∧ amount = divT (min pay debt) pr ∧ value = min pay debt)) := by
  simp only [swapDebtAmounts, bind_ok, ddiv_ok] at h
  obtain ⟨x, ⟨hne, -, rfl⟩, h⟩ := h
  refine ⟨hne, ?_⟩
  split at h
  · rename_i hgt
    simp only [bind_ok, pure_ok, dmul_ok, Prod.mk.injEq] at h
    obtain ⟨_, ⟨-, rfl⟩, rfl, rfl⟩ := h
    exact Or.inl ⟨hgt, rfl, rfl⟩
  · rename_i hgt
    simp only [pure_ok, Prod.mk.injEq] at h
    exact Or.inr ⟨not_lt.mp hgt, h.1.symm, h.2.symm⟩

theorem swapDebt_ok {c : Ctx} {w w' : W} {res : Res} {pay token rest : Bucket} {e : SwapDebtEv}
    (h : swapDebt c w res pay = Except.ok (w', token, rest, e)) :
    ∃ cc pr priceRes amount value taken pool w1 acc bs,
      pay.res = BASE ∧ w.acc.vb < 0 ∧ c.cfg.colls.get res = some cc ∧
      c.orc.priceResource res = Except.ok pr ∧
      priceRes = mulT pr (mulT cc.discount (decLit 1 1) + decLit 9 1) ∧
      swapDebtAmounts pay.amt (-w.acc.vb) (w.acc.collateralAmount res) priceRes
        = Except.ok (amount, value) ∧
      takeAmount (c.env.gran BASE) pay.amt value .toInfinity = Except.ok taken ∧
      w.pool.deposit taken = Except.ok pool ∧
      settleAccount { w with pool } value = Except.ok w1 ∧
      w1.acc.withdrawCollateral c.env [(res, amount)] .toZero = Except.ok (acc, bs) ∧
      bs.getLast? = some token ∧ w' = { w1 with acc } ∧ rest = ⟨BASE, pay.amt - taken⟩ ∧
      e = { resource := res, amount := token.amt, price := priceRes } := by
  simp only [swapDebt, assertValidCollateral, bind_ok, pure_ok, require_ok, decide_eq_true_eq, expect_ok,
    dmul_ok, dadd_ok, dneg_ok, Prod.mk.injEq] at h
  obtain ⟨-, hb, -, -, -, hvb, cc, hcc, _, ⟨-, rfl⟩, _, ⟨-, rfl⟩, _, ⟨-, rfl⟩, pr, hpr, _, ⟨-, rfl⟩,
    ⟨amount, value⟩, ham, taken, htk, pool, hp, w1, hw1, ⟨acc, bs⟩, hwd, token', htok, rfl, rfl, rfl, rfl⟩ := h
  exact ⟨cc, pr, _, amount, value, taken, pool, w1, acc, bs, hb, hvb, hcc, hpr, rfl, ham, htk, hp, hw1, hwd,
    htok, rfl, rfl, rfl⟩

theorem swapDebt_path {ex : ExchangeConfig} {c : Ctx} {w w' : W} {res : Res} {pay token rest : Bucket}
    {e : SwapDebtEv} (h : swapDebt c w res pay = Except.ok (w', token, rest, e)) : WPath ex w w' 0 := by
  obtain ⟨cc, pr, priceRes, amount, value, taken, pool, w1, acc, bs, -, -, -, -, -, -, -, hp, hs, hwd, -, rfl,
    -, -⟩ := swapDebt_ok h
  exact ((deposit_path hp).trans0 (settleAccount_path hs)).trans0 (WStep.withdraw hwd).path

/-! ## Liquidation -/

theorem liquidateOne_ok {c : Ctx} {rebate : Dec} {t t' : VPool × LiqTotals}
    {e : PairId × AccountPosition} (h : liquidateOne c rebate t e = Except.ok t') :
    ∃ pc price pp, c.cfg.pairs.get e.1 = some pc ∧ c.orc.prices.get e.1 = some price ∧
      t.1.positions.get e.1 = some pp ∧
      t'.1 = t.1.setPosition e.1 (pp.closed (-e.2.amount) e.2.cost) ∧
      t'.2 = { pnl := t.2.pnl + (-mulT (-e.2.amount) price - e.2.cost
                        - feeOf c.cfg.ex pc pp rebate price (mulT (-e.2.amount) price)
                        - fundingOwed pp e.2)
               margin := t.2.margin + mulT |mulT (-e.2.amount) price| pc.marginMaintenance
               funding := t.2.funding + fundingOwed pp e.2
               fee := t.2.fee + feeOf c.cfg.ex pc pp rebate price (mulT (-e.2.amount) price) } := by
  simp only [liquidateOne, bind_ok, pure_ok, VPool.position_ok, VOracle.price_ok, VConfig.pair_ok,
    dneg_ok, dmul_ok, dabs_ok, dsub_ok, dadd_ok] at h
  obtain ⟨pc, hpc, price, hprice, _, ⟨-, rfl⟩, _, ⟨-, rfl⟩, _, ⟨-, rfl⟩, pp, hpp, fee, hfee, fund, hfund, pp',
    hliq, _, ⟨-, rfl⟩, _, ⟨-, rfl⟩, _, ⟨-, rfl⟩, _, ⟨-, rfl⟩, _, ⟨-, rfl⟩, _, ⟨-, rfl⟩, _, ⟨-, rfl⟩,
    _, ⟨-, rfl⟩, _, ⟨-, rfl⟩, rfl⟩ := h
  obtain ⟨rfl, -⟩ := calculateFee_ok hfee
  have hfund := positionFunding_ok hfund
  have hliq := liqPool_ok hliq
  subst hfund hliq
  exact ⟨pc, price, pp, hpc, hprice, hpp, rfl, rfl⟩

theorem liqLoop_path {ex : ExchangeConfig} {c : Ctx} {rebate : Dec} {d : FeeDist}
    (l : List (PairId × AccountPosition)) :
    ∀ {t t' : VPool × LiqTotals} {acc : VAccount},
    (l.map Prod.fst).Nodup →
    (∀ e ∈ l, acc.positions.get e.1 = some e.2 ∧ e.1 ∈ acc.positionsUpdated) →
    l.foldlM (liquidateOne c rebate) t = Except.ok t' →
    WPath ex { pool := t.1, acc, dist := d }
      { pool := t'.1
        acc := { acc with positions := l.foldl (fun m e => m.set e.1 AccountPosition.zero) acc.positions }
        dist := d } 0 := by
  induction l with
  | nil =>
    intro t t' acc _ _ h
    simp only [List.foldlM_nil, pure_ok] at h
    subst h; exact .refl _
  | cons e l ih =>
    intro t t' acc hn hg h
    simp only [List.foldlM_cons, bind_ok] at h
    obtain ⟨t1, h1, h2⟩ := h
    obtain ⟨pc, price, pp, -, -, hpp, e1, -⟩ := liquidateOne_ok h1
    obtain ⟨hge, hue⟩ := hg e (List.mem_cons_self ..)
    have s1 := (WStep.liq (ex := ex) { pool := t.1, acc, dist := d } e.1 hpp hge hue).path
    simp only [List.map_cons, List.nodup_cons] at hn
    have s2 := ih (t := t1) (acc := { acc with positions := acc.positions.set e.1 AccountPosition.zero })
      hn.2 (by
        intro e' he'
        have hne : e.1 ≠ e'.1 := by
          intro heq; exact hn.1 (heq ▸ List.mem_map_of_mem he')
        obtain ⟨a, b⟩ := hg e' (List.mem_cons_of_mem _ he')
        exact ⟨by simp only [AMap.get_set_ne _ _ hne, a], b⟩) h2
    rw [e1] at s2
    exact s1.trans0 s2

theorem liqLoop_totals {c : Ctx} {rebate : Dec} (l : List (PairId × AccountPosition)) :
    ∀ {t t' : VPool × LiqTotals}, l.foldlM (liquidateOne c rebate) t = Except.ok t' →
    t.2.fee ≤ t'.2.fee := by
  induction l with
  | nil =>
    intro t t' h
    simp only [List.foldlM_nil, pure_ok] at h
    subst h; exact le_refl _
  | cons e l ih =>
    intro t t' h
    simp only [List.foldlM_cons, bind_ok] at h
    obtain ⟨t1, h1, h2⟩ := h
    obtain ⟨pc, price, pp, -, -, -, -, e2⟩ := liquidateOne_ok h1
    have := ih h2
    rw [e2] at this
    have := feeOf_nonneg c.cfg.ex pc pp rebate price (mulT (-e.2.amount) price)
    simp only at *
    omega

theorem updatePairs_path {ex : ExchangeConfig} {c : Ctx} {acc : VAccount} {d : FeeDist} (l : List PairId) :
    ∀ {pool pool' : VPool},
    l.foldlM (fun pool p => do let r ← updatePair c pool p; pure r.1) pool = Except.ok pool' →
    WPath ex { pool, acc, dist := d } { pool := pool', acc, dist := d } 0 := by
  induction l with
  | nil =>
    intro pool pool' h
    simp only [List.foldlM_nil, pure_ok] at h
    subst h; exact .refl _
  | cons p l ih =>
    intro pool pool' h
    simp only [List.foldlM_cons, bind_ok, pure_ok] at h
    obtain ⟨p1, ⟨⟨p2, b⟩, h1, rfl⟩, h2⟩ := h
    exact (updatePair_path (w := { pool, acc, dist := d }) h1).trans0 (ih h2)

theorem updateSnaps_path {ex : ExchangeConfig} {c : Ctx} {acc : VAccount} {d : FeeDist} (l : List PairId) :
    ∀ {pool pool' : VPool}, l.foldlM (updatePairSnaps c) pool = Except.ok pool' →
    WPath ex { pool, acc, dist := d } { pool := pool', acc, dist := d } 0 := by
  induction l with
  | nil =>
    intro pool pool' h
    simp only [List.foldlM_nil, pure_ok] at h
    subst h; exact .refl _
  | cons p l ih =>
    intro pool pool' h
    simp only [List.foldlM_cons, bind_ok] at h
    obtain ⟨p1, h1, h2⟩ := h
    exact (updatePairSnaps_path (w := { pool, acc, dist := d }) h1).trans0 (ih h2)

/-- The account after all its positions have been liquidated. -/
def VAccount.noPositions (v : VAccount) : VAccount :=
  { v.touchAll with positions := v.positions.mapV (fun _ _ => AccountPosition.zero) }

theorem liquidatePositions_ok {c : Ctx} {w w' : W} {tot : LiqTotals}
    (h : liquidatePositions c w = Except.ok (w', tot)) :
    ∃ p1 p2 p3,
      w.acc.positions.keys.foldlM (fun pool p => do let r ← updatePair c pool p; pure r.1) w.pool
        = Except.ok p1 ∧
      w.acc.positions.entries.foldlM (liquidateOne c w.acc.rebate) (p1, ⟨0, 0, 0, 0⟩)
        = Except.ok (p2, tot) ∧
      w.acc.positions.keys.foldlM (updatePairSnaps c) { p2 with unreal := p2.unreal - tot.funding }
        = Except.ok p3 ∧
      w' = { pool := p3, acc := w.acc.noPositions, dist := w.dist } := by
  simp only [liquidatePositions, bind_ok, pure_ok, dneg_ok, Prod.mk.injEq] at h
  obtain ⟨rb, hrb, p1, h1, ⟨p2, tot'⟩, h2, _, ⟨-, rfl⟩, p4, h4, p3, h3, rfl, rfl⟩ := h
  have hrb := feeRebate_ok hrb
  have h4 := VPool.addUnreal_ok h4
  subst hrb h4
  refine ⟨p1, p2, p3, ?_, h2, ?_, rfl⟩
  · simpa only [bind_ok, pure_ok] using h1
  · rw [sub_eq_add_neg]; exact h3

theorem liquidatePositions_path {ex : ExchangeConfig} {c : Ctx} {w w' : W} {tot : LiqTotals}
    (h : liquidatePositions c w = Except.ok (w', tot)) : WPath ex w w' 0 ∧ 0 ≤ tot.fee := by
  obtain ⟨p1, p2, p3, h1, h2, h3, rfl⟩ := liquidatePositions_ok h
  refine ⟨?_, liqLoop_totals _ h2⟩
  have a1 := updatePairs_path (ex := ex) (acc := w.acc) (d := w.dist) _ h1
  have a2 := (WStep.touch (ex := ex) { pool := p1, acc := w.acc, dist := w.dist }).path
  have a3 := liqLoop_path (ex := ex) (d := w.dist) _ (acc := w.acc.touchAll) w.acc.positions.nodup (by
    intro e he
    exact ⟨AMap.get_mem he, by
      simp only [VAccount.touchAll, List.mem_append]
      exact Or.inl (List.mem_map_of_mem he)⟩) h2
  have e : w.acc.touchAll.positions = w.acc.positions := rfl
  rw [e, AMap.foldl_set_entries (fun _ _ => AccountPosition.zero)] at a3
  have a4 := (WStep.unreal (ex := ex) { pool := p2, acc := w.acc.noPositions, dist := w.dist }
    (-tot.funding)).path
  have a5 := updateSnaps_path (ex := ex) (acc := w.acc.noPositions) (d := w.dist) _ h3
  exact (((a1.trans0 a2).trans0 a3).trans0 a4).trans0 a5

theorem writeOff_ok {w w' : W} {loss : Dec} (h : writeOff w = Except.ok (w', loss)) :
    loss = min w.acc.vb 0 ∧
    w' = { w with pool := { w.pool with vb := w.pool.vb + loss }, acc := { w.acc with vb := w.acc.vb - loss } } := by
  unfold writeOff at h
  split at h
  · rename_i hlt
    simp only [bind_ok, pure_ok, dneg_ok, Prod.mk.injEq] at h
    obtain ⟨_, ⟨-, rfl⟩, w1, hw, rfl, rfl⟩ := h
    have hw := settleAccount_ok hw
    subst hw
    refine ⟨by omega, ?_⟩
    simp [sub_eq_add_neg]
  · rename_i hlt
    simp only [pure_ok, Prod.mk.injEq] at h
    obtain ⟨rfl, rfl⟩ := h
    exact ⟨by omega, by simp⟩

theorem writeOff_path {ex : ExchangeConfig} {w w' : W} {loss : Dec}
    (h : writeOff w = Except.ok (w', loss)) : WPath ex w w' 0 := by
  obtain ⟨-, rfl⟩ := writeOff_ok h
  have := (WStep.settle (ex := ex) w (-loss)).path
  simpa [sub_eq_add_neg] using this

/-- `_liquidate`, stage by stage. -/
theorem liquidate_ok {c : Ctx} {w w' : W} {pay : Bucket} {bs : List Bucket} {e : LiquidateEv}
    (h : liquidate c w pay = Except.ok (w', bs, e)) :
    ∃ w1 lp lc value acc tokens taken pool w2 w3 loss w4 fees,
      pay.res = BASE ∧
      liquidatePositions c w = Except.ok (w1, lp) ∧
      liquidateCollateral c w1.acc = Except.ok lc ∧
      lp.pnl + lc.valueDiscounted + w1.acc.vb < lp.margin + lc.margin ∧
      value = amountFor (c.env.gran BASE) lc.valueDiscounted .toInfinity ∧
      value ≤ pay.amt ∧
      w1.acc.withdrawCollateral c.env lc.amounts .toZero = Except.ok (acc, tokens) ∧
      takeAmount (c.env.gran BASE) pay.amt value .exact = Except.ok taken ∧
      w1.pool.deposit taken = Except.ok pool ∧
      settleAccount { w1 with pool, acc } (lp.pnl + value) = Except.ok w2 ∧
      writeOff w2 = Except.ok (w3, loss) ∧
      settleFeesReferral c.cfg.ex w3 lp.fee = Except.ok (w4, fees) ∧
      w' = { w4 with acc := w4.acc.updateValidStart } ∧
      bs = tokens ++ [⟨BASE, pay.amt - taken⟩] ∧
      e = { accountValue := lp.pnl + lc.valueDiscounted + w1.acc.vb, margin := lp.margin + lc.margin
            virtualBalance := w1.acc.vb, positionsPnl := lp.pnl, collateralAmounts := lc.amounts
            collateralValue := lc.value, collateralValueDiscounted := lc.valueDiscounted
            funding := -lp.funding, fees, poolLoss := loss } := by
  simp only [liquidate, bind_ok, pure_ok, require_ok, decide_eq_true_eq, dadd_ok, dneg_ok,
    Prod.mk.injEq] at h
  obtain ⟨-, hb, ⟨w1, lp⟩, hlp, lc, hlc, _, ⟨-, rfl⟩, _, ⟨-, rfl⟩, _, ⟨-, rfl⟩, -, hlt, -, hval,
    ⟨acc, tokens⟩, hwd, taken, htk, pool, hp, _, ⟨-, rfl⟩, w2, hs, ⟨w3, loss⟩, hwo, ⟨w4, fees⟩, hfee,
    _, ⟨-, rfl⟩, rfl, rfl, rfl⟩ := h
  exact ⟨w1, lp, lc, _, acc, tokens, taken, pool, w2, w3, loss, w4, fees, hb, hlp, hlc, hlt, rfl, hval, hwd, htk,
    hp, hs, hwo, hfee, rfl, rfl, rfl⟩

theorem liquidate_path {c : Ctx} {w w' : W} {pay : Bucket} {bs : List Bucket} {e : LiquidateEv}
    (h : liquidate c w pay = Except.ok (w', bs, e)) : WPath c.cfg.ex w w' 0 := by
  obtain ⟨w1, lp, lc, value, acc, tokens, taken, pool, w2, w3, loss, w4, fees, -, hlp, -, -, -, -, hwd, -, hp,
    hs, hwo, hfee, rfl, -, -⟩ := liquidate_ok h
  obtain ⟨a1, hfee0⟩ := liquidatePositions_path (ex := c.cfg.ex) hlp
  have a2 := a1.trans0 (WStep.withdraw hwd).path
  have a3 := a2.trans0 (deposit_path (w := { w1 with acc }) hp)
  have a4 := a3.trans0 (settleAccount_path hs)
  have a5 := a4.trans0 (writeOff_path hwo)
  have a6 := a5.trans0 (WStep.fees hfee0 hfee).path
  exact a6.trans0 (WStep.invalidate w4).path

end Perp
