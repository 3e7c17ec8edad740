import Verif.Order
import Verif.Book

/-!
# Iteration order (C62): the internal methods

Two working states with the same content, in whatever order their maps are stored, stay so under every
internal method of the exchange.
-/

namespace Perp

/-! ## The same content -/

/-- Two pools with the same content. -/
structure Pool.Same (p p' : Pool) : Prop where
  positions : p.positions.Same p'.positions
  baseTokens : p.baseTokens = p'.baseTokens
  vb : p.vb = p'.vb
  unrealizedFunding : p.unrealizedFunding = p'.unrealizedFunding
  skewAbsSnap : p.skewAbsSnap = p'.skewAbsSnap
  pnlSnap : p.pnlSnap = p'.pnlSnap

/-- What a request asks for, with its claims and effects as collections without an order. -/
def Request.canon : Request →
    (Addr × Multiset (Res × Dec)) ⊕ (PairId × Dec × Bool × PriceLimit × SlippageLimit × Multiset Nat × Multiset Nat)
  | .removeCollateral r => .inl (r.target, (r.claims : Multiset (Res × Dec)))
  | .marginOrder r => .inr (r.pair, r.amount, r.reduceOnly, r.priceLimit, r.slippageLimit,
      (r.activate : Multiset Nat), (r.cancel : Multiset Nat))

/-- The content of a stored request. -/
def KeeperRequest.canon (k : KeeperRequest) := (k.request.canon, k.submission, k.expiry, k.status, k.effected)

/-- Two accounts with the same content. -/
structure Account.Same (a a' : Account) : Prop where
  collateral : a.collateral.Same a'.collateral
  collateralBalances : a.collateralBalances.Same a'.collateralBalances
  positions : a.positions.Same a'.positions
  vb : a.vb = a'.vb
  requests : a.requests.map KeeperRequest.canon = a'.requests.map KeeperRequest.canon
  active : a.active = a'.active
  validStart : a.validStart = a'.validStart
  referralId : a.referralId = a'.referralId
  level1 : a.level1 = a'.level1
  level2 : a.level2 = a'.level2
  level3 : a.level3 = a'.level3

/-- Two loaded pools with the same content. The stored positions (`comp`) matter where no loaded one will replace them. -/
structure VPool.Same (v v' : VPool) : Prop where
  comp : v.comp.baseTokens = v'.comp.baseTokens
  kept : ∀ q, ¬ (q ∈ v.updated ∧ (v.positions.get q).isSome) → v.comp.positions.get q = v'.comp.positions.get q
  positions : v.positions.Same v'.positions
  updated : v.updated.toFinset = v'.updated.toFinset
  base : v.base = v'.base
  vb : v.vb = v'.vb
  unreal : v.unreal = v'.unreal
  skewSnap : v.skewSnap = v'.skewSnap
  pnlSnap : v.pnlSnap = v'.pnlSnap

/-- The buffered requests without order. -/
def VAccount.changes (v : VAccount) := v.requestUpdates.mapV fun _ k => KeeperRequest.canon k

/-- Two loaded accounts with the same content. -/
structure VAccount.Same (v v' : VAccount) : Prop where
  addr : v.addr = v'.addr
  comp : v.comp.Same v'.comp
  positions : v.positions.Same v'.positions
  collateralBalances : v.collateralBalances.Same v'.collateralBalances
  vb : v.vb = v'.vb
  validStart : v.validStart = v'.validStart
  requestsLen : v.requestsLen = v'.requestsLen
  activeLen : v.activeLen = v'.activeLen
  positionsUpdated : v.positionsUpdated.toFinset = v'.positionsUpdated.toFinset
  requestAdditions : v.requestAdditions.map KeeperRequest.canon = v'.requestAdditions.map KeeperRequest.canon
  requestUpdates : v.changes.Same v'.changes
  activeAdditions : v.activeAdditions.toFinset = v'.activeAdditions.toFinset
  activeRemovals : v.activeRemovals.toFinset = v'.activeRemovals.toFinset
  referralId : v.referralId = v'.referralId
  referralData : v.referralData = v'.referralData
  referralRewarded : v.referralRewarded = v'.referralRewarded

/-- Two working states with the same content. -/
structure W.Same (w w' : W) : Prop where
  pool : w.pool.Same w'.pool
  acc : w.acc.Same w'.acc
  dist : w.dist = w'.dist

/-- Two loaded configurations with the same content. -/
structure VConfig.Same (c c' : VConfig) : Prop where
  ex : c.ex = c'.ex
  pairs : c.pairs.Same c'.pairs
  colls : c.colls.Same c'.colls

/-- The same configuration and prices. -/
structure Ctx.Same (c c' : Ctx) : Prop where
  env : c.env = c'.env
  now : c.now = c'.now
  cfg : c.cfg.Same c'.cfg
  prices : c.orc.prices.Same c'.orc.prices
  resMap : c.orc.resMap.Same c'.orc.resMap

theorem Pool.Same.refl (p : Pool) : p.Same p := ⟨fun _ => rfl, rfl, rfl, rfl, rfl, rfl⟩

/-! ## Reads -/

theorem VConfig.Same.pair {c c' : VConfig} (h : c.Same c') (p : PairId) : c.pair p = c'.pair p := by
  unfold VConfig.pair; rw [h.pairs p]

theorem Ctx.Same.pair {c c' : Ctx} (h : c.Same c') (p : PairId) : c.cfg.pair p = c'.cfg.pair p := h.cfg.pair p

theorem Ctx.Same.price {c c' : Ctx} (h : c.Same c') (p : PairId) : c.orc.price p = c'.orc.price p := by
  unfold VOracle.price; rw [h.prices p]

theorem Ctx.Same.priceResource {c c' : Ctx} (h : c.Same c') (r : Res) :
    c.orc.priceResource r = c'.orc.priceResource r := by
  unfold VOracle.priceResource
  rw [h.resMap r]
  simp only [h.price]

theorem VPool.Same.position {v v' : VPool} (h : v.Same v') (p : PairId) : v.position p = v'.position p := by
  unfold VPool.position; rw [h.positions p]

theorem VPool.Same.poolValue {v v' : VPool} (h : v.Same v') : Perp.poolValue v = Perp.poolValue v' := by
  unfold Perp.poolValue; rw [h.base, h.vb, h.unreal, h.pnlSnap]

theorem VPool.Same.skewRatio {v v' : VPool} (h : v.Same v') : Perp.skewRatio v = Perp.skewRatio v' := by
  unfold Perp.skewRatio; rw [h.poolValue, h.skewSnap]

theorem VAccount.Same.position {v v' : VAccount} (h : v.Same v') (p : PairId) : v.position p = v'.position p := by
  unfold VAccount.position; exact h.positions.getD p _

theorem VAccount.Same.feeRebate {v v' : VAccount} (h : v.Same v') : v.feeRebate = v'.feeRebate := by
  unfold VAccount.feeRebate; rw [h.referralData]

theorem VAccount.Same.feeShareReferral {v v' : VAccount} (h : v.Same v') : v.feeShareReferral = v'.feeShareReferral := by
  unfold VAccount.feeShareReferral; rw [h.referralData]

theorem VAccount.Same.collateralAmount {v v' : VAccount} (h : v.Same v') (r : Res) :
    v.collateralAmount r = v'.collateralAmount r := h.collateralBalances.getD r _

/-! ## Single updates -/

theorem VPool.Same.setPosition {v v' : VPool} (h : v.Same v') (p : PairId) (x : PoolPosition) :
    (v.setPosition p x).Same (v'.setPosition p x) :=
  { h with
    positions := h.positions.set p x
    kept := fun q hq => h.kept q (fun hh => hq ⟨List.mem_cons_of_mem _ hh.1, by
      change ((v.positions.set p x).get q).isSome = true
      rw [AMap.get_set]; split
      · rfl
      · exact hh.2⟩)
    updated := by simp only [VPool.setPosition, List.toFinset_cons, h.updated] }

theorem VPool.Same.deposit {v v' : VPool} (h : v.Same v') (x : Dec) : Agree VPool.Same (v.deposit x) (v'.deposit x) := by
  unfold VPool.deposit
  rw [h.base, h.comp]
  refine Agree.bind_same fun a _ => Agree.bind_same fun b _ => Agree.pure ?_
  exact { h with base := rfl, comp := rfl }

theorem VPool.Same.withdraw {v v' : VPool} (h : v.Same v') (env : Env) (x : Dec) (st : Strategy) :
    Agree (fun r r' => r.1.Same r'.1 ∧ r.2 = r'.2) (v.withdraw env x st) (v'.withdraw env x st) := by
  unfold VPool.withdraw
  rw [h.base, h.comp]
  refine Agree.bind_same fun a _ => Agree.bind_same fun b _ => Agree.bind_same fun _ _ => Agree.pure ?_
  exact ⟨{ h with base := rfl, comp := rfl }, rfl⟩

theorem VPool.Same.addVb {v v' : VPool} (h : v.Same v') (x : Dec) : Agree VPool.Same (v.addVb x) (v'.addVb x) := by
  unfold VPool.addVb
  rw [h.vb]
  exact Agree.bind_same fun a _ => Agree.pure { h with vb := rfl }

theorem VPool.Same.addUnreal {v v' : VPool} (h : v.Same v') (x : Dec) :
    Agree VPool.Same (v.addUnreal x) (v'.addUnreal x) := by
  unfold VPool.addUnreal
  rw [h.unreal]
  exact Agree.bind_same fun a _ => Agree.pure { h with unreal := rfl }

theorem VPool.Same.addSkew {v v' : VPool} (h : v.Same v') (x : Dec) :
    Agree VPool.Same (v.addSkew x) (v'.addSkew x) := by
  unfold VPool.addSkew
  rw [h.skewSnap]
  exact Agree.bind_same fun a _ => Agree.pure { h with skewSnap := rfl }

theorem VPool.Same.addPnl {v v' : VPool} (h : v.Same v') (x : Dec) :
    Agree VPool.Same (v.addPnl x) (v'.addPnl x) := by
  unfold VPool.addPnl
  rw [h.pnlSnap]
  exact Agree.bind_same fun a _ => Agree.pure { h with pnlSnap := rfl }

theorem VAccount.Same.addVb {v v' : VAccount} (h : v.Same v') (x : Dec) :
    Agree VAccount.Same (v.addVb x) (v'.addVb x) := by
  unfold VAccount.addVb
  rw [h.vb]
  exact Agree.bind_same fun a _ => Agree.pure { h with vb := rfl }

theorem VAccount.Same.setPosition {v v' : VAccount} (h : v.Same v') (p : PairId) (x : AccountPosition) :
    (v.setPosition p x).Same (v'.setPosition p x) :=
  { h with
    positions := h.positions.set p x
    positionsUpdated := by simp only [VAccount.setPosition, List.toFinset_cons, h.positionsUpdated] }

theorem AMap.Same.keysFinset {K V : Type} [DecidableEq K] {m m' : AMap K V} (h : m.Same m') :
    m.keys.toFinset = m'.keys.toFinset := List.toFinset_eq_of_perm _ _ h.keys

theorem VAccount.Same.touchAll {v v' : VAccount} (h : v.Same v') : v.touchAll.Same v'.touchAll :=
  { h with
    positionsUpdated := by
      simp only [VAccount.touchAll, List.toFinset_append, h.positionsUpdated, h.positions.keysFinset] }

theorem VAccount.Same.rewardReferral {v v' : VAccount} (h : v.Same v') (x : Dec) :
    Agree VAccount.Same (v.rewardReferral x) (v'.rewardReferral x) := by
  unfold VAccount.rewardReferral
  rw [h.referralData]
  cases v'.referralData with
  | none => exact Agree.pure h
  | some d =>
    exact Agree.bind_same fun a _ => Agree.bind_same fun b _ =>
      Agree.pure { h with referralData := rfl, referralRewarded := rfl }

theorem W.Same.settleAccount {w w' : W} (h : w.Same w') (x : Dec) :
    Agree W.Same (Perp.settleAccount w x) (Perp.settleAccount w' x) := by
  unfold Perp.settleAccount
  refine Agree.bind_same fun n _ => ?_
  refine Agree.bind (h.pool.addVb n) fun p p' _ _ hp => ?_
  refine Agree.bind (h.acc.addVb x) fun a a' _ _ ha => Agree.pure ?_
  exact { h with pool := hp, acc := ha }

theorem VPool.Same.settleFeesBasic {v v' : VPool} (h : v.Same v') (ex : ExchangeConfig) (d : FeeDist) (x : Dec) :
    Agree (fun r r' => r.1.Same r'.1 ∧ r.2 = r'.2) (Perp.settleFeesBasic ex v d x) (Perp.settleFeesBasic ex v' d x) := by
  unfold Perp.settleFeesBasic
  iterate 6 refine Agree.bind_same fun _ _ => ?_
  refine Agree.bind (h.addVb _) fun p p' _ _ hp => ?_
  iterate 4 refine Agree.bind_same fun _ _ => ?_
  exact Agree.pure ⟨hp, rfl⟩

theorem W.Same.settleFeesReferral {w w' : W} (h : w.Same w') (ex : ExchangeConfig) (x : Dec) :
    Agree (fun r r' => r.1.Same r'.1 ∧ r.2 = r'.2) (Perp.settleFeesReferral ex w x)
      (Perp.settleFeesReferral ex w' x) := by
  unfold Perp.settleFeesReferral
  rw [h.acc.feeShareReferral, h.dist]
  iterate 10 refine Agree.bind_same fun _ _ => ?_
  refine Agree.bind (h.pool.addVb _) fun p p' _ _ hp => ?_
  refine Agree.bind_same fun _ _ => ?_
  refine Agree.bind (h.acc.rewardReferral _) fun a a' _ _ ha => ?_
  iterate 4 refine Agree.bind_same fun _ _ => ?_
  exact Agree.pure ⟨⟨hp, ha, rfl⟩, rfl⟩

theorem VAccount.Same.settlePosition {v v' : VAccount} (h : v.Same v') (pp : PoolPosition) (p : PairId) :
    Agree (fun r r' => r.1.Same r'.1 ∧ r.2 = r'.2) (Perp.settlePosition pp v p) (Perp.settlePosition pp v' p) := by
  unfold Perp.settlePosition
  rw [h.positions p]
  cases v'.positions.get p with
  | none => exact Agree.pure ⟨h, rfl⟩
  | some pos =>
    exact Agree.bind_same fun f _ => Agree.pure ⟨{ h with positions := h.positions.set p _ }, rfl⟩

theorem W.Same.settleFunding {w w' : W} (h : w.Same w') (p : PairId) :
    Agree (fun r r' => r.1.Same r'.1 ∧ r.2 = r'.2) (Perp.settleFunding w p) (Perp.settleFunding w' p) := by
  unfold Perp.settleFunding
  rw [h.pool.position]
  refine Agree.bind_same fun pp _ => ?_
  refine Agree.bind (h.acc.touchAll.settlePosition pp p) fun r r' _ _ hr => ?_
  obtain ⟨a, f⟩ := r
  obtain ⟨a', f'⟩ := r'
  obtain ⟨ha, hf⟩ := hr
  simp only at ha hf
  subst hf
  refine Agree.bind_same fun n _ => ?_
  refine Agree.bind (h.pool.addUnreal n) fun q q' _ _ hq => ?_
  refine Agree.bind (W.Same.settleAccount (w := { w with pool := q, acc := a }) (w' := { w' with pool := q', acc := a' })
    ⟨hq, ha, h.dist⟩ n) fun x x' _ _ hx => ?_
  exact Agree.pure ⟨hx, rfl⟩

/-! ## Valuation -/

/-- The contribution of one position: exchange.rs:2642-2660 without the running totals -/
def posValue (c : Ctx) (pool : VPool) (rebate : Dec) (e : PairId × AccountPosition) : R (Dec × Dec) := do
  let pc ← c.cfg.pair e.1
  let price ← c.orc.price e.1
  let n ← dneg e.2.amount
  let value ← dmul n price
  let valueAbs ← dabs value
  let pp ← pool.position e.1
  let fee ← calculateFee c.cfg.ex pc pp rebate price value
  let funding ← positionFunding pp e.2
  let nv ← dneg value
  let a ← dsub nv e.2.cost
  let b ← dsub a fee
  let pnl ← dsub b funding
  let margin ← dmul valueAbs pc.marginInitial
  pure (pnl, margin)

/-- Adding a contribution to two running totals. -/
def addTwo (t k : Dec × Dec) : R (Dec × Dec) := do
  let a ← dadd t.1 k.1
  let b ← dadd t.2 k.2
  pure (a, b)

theorem valuePosition_eq (c : Ctx) (pool : VPool) (rebate : Dec) (t : Dec × Dec) (e : PairId × AccountPosition) :
    valuePosition c pool rebate t e = posValue c pool rebate e >>= addTwo t := by
  simp only [valuePosition, posValue, addTwo, bind_assoc, pure_bind]

theorem addTwo_ok {t k r : Dec × Dec} (h : addTwo t k = Except.ok r) : r = (t.1 + k.1, t.2 + k.2) := by
  simp only [addTwo, bind_ok, pure_ok, dadd_ok] at h
  obtain ⟨_, ⟨-, rfl⟩, _, ⟨-, rfl⟩, rfl⟩ := h
  rfl

theorem addTwo_errs (t k : Dec × Dec) : Errs arith (addTwo t k) := by unfold addTwo; errs

theorem valuePositions_agree {c c' : Ctx} {pool pool' : VPool} {a a' : VAccount} (hc : c.Same c')
    (hp : pool.Same pool') (ha : a.Same a') :
    Agree (fun r r' => r = r') (valuePositions c pool a) (valuePositions c' pool' a') := by
  unfold valuePositions
  rw [ha.feeRebate]
  refine Agree.bind_same fun rebate _ => ?_
  refine accum_perm (g := posValue c pool rebate) (g' := posValue c' pool' rebate) addTwo (rest := fun t => t)
    (add := fun t k => (t.1 + k.1, t.2 + k.2)) (fun a b d => by simp only [Int.add_right_comm]) (fun _ _ _ h => addTwo_ok h) addTwo_errs
    ha.positions.perm (valuePosition_eq c pool rebate) (valuePosition_eq c' pool' rebate) (fun e _ => ?_) rfl
  unfold posValue
  rw [hc.pair, hc.price, hp.position, hc.cfg.ex]

/-- The contribution of one collateral: exchange.rs:2747-2755 without the running totals -/
def collValue (c : Ctx) (e : Res × Dec) : R (Option (Dec × Dec)) :=
  match c.cfg.colls.get e.1 with
  | some cc => do
      let price ← c.orc.priceResource e.1
      let value ← dmul e.2 price
      let vd ← dmul value cc.discount
      let margin ← dmul value cc.margin
      pure (some (vd, margin))
  | none => pure none

/-- Adding an optional contribution. -/
def addMaybe (t : Dec × Dec) : Option (Dec × Dec) → R (Dec × Dec)
  | some k => addTwo t k
  | none => pure t

theorem valueCollateral_agree {c c' : Ctx} {a a' : VAccount} (hc : c.Same c') (ha : a.Same a') :
    Agree (fun r r' => r = r') (valueCollateral c a) (valueCollateral c' a') := by
  unfold valueCollateral
  have eqn : ∀ c : Ctx, ∀ t e, valueCollateralOne c t e = collValue c e >>= addMaybe t := by
    intro c t e
    unfold valueCollateralOne collValue
    cases c.cfg.colls.get e.1 with
    | none => rfl
    | some cc => simp only [addMaybe, addTwo, bind_assoc, pure_bind]
  refine accum_perm (g := collValue c) (g' := collValue c') addMaybe (rest := fun t => t)
    (add := fun t k => (t.1 + (k.getD (0, 0)).1, t.2 + (k.getD (0, 0)).2)) (fun a b d => by simp only [Int.add_right_comm]) (fun t k r h => ?_)
    (fun t k => ?_)
    ha.collateralBalances.perm (eqn c) (eqn c') (fun e _ => ?_) rfl
  · cases k with
    | none =>
      cases h
      simp only [Option.getD_none, Int.add_zero]
    | some k => exact addTwo_ok h
  · cases k with
    | none => exact errs_pure _
    | some k => exact addTwo_errs _ _
  · unfold collValue
    rw [hc.cfg.colls e.1, hc.priceResource]

theorem assertAccountIntegrity_agree {c c' : Ctx} {pool pool' : VPool} {a a' : VAccount} (hc : c.Same c')
    (hp : pool.Same pool') (ha : a.Same a') :
    Agree (fun _ _ => True) (assertAccountIntegrity c pool a) (assertAccountIntegrity c' pool' a') := by
  unfold assertAccountIntegrity
  refine Agree.bind (valuePositions_agree hc hp ha) fun r r' _ _ hr => ?_
  subst hr
  refine Agree.bind (valueCollateral_agree hc ha) fun t t' _ _ ht => ?_
  subst ht
  rw [ha.vb]
  iterate 3 refine Agree.bind_same fun _ _ => ?_
  exact Agree.refl fun _ => trivial

/-! ## Marking to market, opening, closing -/

theorem updatePair_agree {c c' : Ctx} {pool pool' : VPool} (hc : c.Same c') (hp : pool.Same pool') (p : PairId) :
    Agree (fun r r' => r.1.Same r'.1 ∧ r.2 = r'.2) (updatePair c pool p) (updatePair c' pool' p) := by
  unfold updatePair
  rw [hc.pair, hc.price, hp.position, hc.now]
  iterate 10 refine Agree.bind_same fun _ _ => ?_
  refine Agree.bind ((hp.setPosition p _).addSkew _) fun q q' _ _ hq => ?_
  refine Agree.bind (hq.addPnl _) fun q q' _ _ hq => ?_
  refine Agree.bind (hq.addUnreal _) fun q q' _ _ hq => ?_
  exact Agree.pure ⟨hq, rfl⟩

theorem updatePairSnaps_agree {c c' : Ctx} {pool pool' : VPool} (hc : c.Same c') (hp : pool.Same pool') (p : PairId) :
    Agree VPool.Same (updatePairSnaps c pool p) (updatePairSnaps c' pool' p) := by
  unfold updatePairSnaps
  rw [hc.price, hp.position]
  iterate 3 refine Agree.bind_same fun _ _ => ?_
  refine Agree.bind ((hp.setPosition p _).addSkew _) fun q q' _ _ hq => ?_
  exact hq.addPnl _

theorem Agree.unit {γ δ : Type} {r : Unit → Unit → Prop} {q : γ → δ → Prop} {x y : R Unit} {f : R γ} {g : R δ}
    (h : Agree r x y) (hf : Agree q f g) : Agree q (x >>= fun _ => f) (y >>= fun _ => g) :=
  Agree.bind h fun _ _ _ _ _ => hf

theorem openPosition_agree {c c' : Ctx} {w w' : W} (hc : c.Same c') (hw : w.Same w') (p : PairId) (x : Dec) :
    Agree (fun r r' => r.1.Same r'.1 ∧ r.2 = r'.2) (openPosition c w p x) (openPosition c' w' p x) := by
  unfold openPosition
  rw [hc.pair, hc.price, hw.pool.position, hw.acc.feeRebate, hw.acc.position, hc.cfg.ex]
  iterate 5 refine Agree.bind_same fun _ _ => ?_
  refine Agree.require rfl fun _ => ?_
  iterate 5 refine Agree.bind_same fun _ _ => ?_
  refine Agree.bind (updatePairSnaps_agree hc (hw.pool.setPosition p _) p) fun q q' _ _ hq => ?_
  have ha : ∀ z, (w.acc.setPosition p z).Same (w'.acc.setPosition p z) := fun z => hw.acc.setPosition p z
  refine Agree.require ?_ fun _ => ?_
  · rw [(ha _).positions.size, hc.cfg.ex]
  · refine Agree.unit (assertAccountIntegrity_agree hc hq (ha _)) ?_
    exact Agree.pure ⟨⟨hq, ha _, hw.dist⟩, rfl⟩

theorem closePosition_agree {c c' : Ctx} {w w' : W} (hc : c.Same c') (hw : w.Same w') (p : PairId) (x : Dec) :
    Agree (fun r r' => r.1.Same r'.1 ∧ r.2 = r'.2) (closePosition c w p x) (closePosition c' w' p x) := by
  unfold closePosition
  rw [hc.pair, hc.price, hw.pool.position, hw.acc.feeRebate, hw.acc.position, hc.cfg.ex]
  iterate 5 refine Agree.bind_same fun _ _ => ?_
  refine Agree.require rfl fun _ => ?_
  refine Agree.require rfl fun _ => ?_
  iterate 10 refine Agree.bind_same fun _ _ => ?_
  refine Agree.bind (W.Same.settleAccount (w := { w with pool := w.pool.setPosition p _, acc := w.acc.setPosition p _ })
    (w' := { w' with pool := w'.pool.setPosition p _, acc := w'.acc.setPosition p _ })
    ⟨hw.pool.setPosition p _, hw.acc.setPosition p _, hw.dist⟩ _) fun y y' _ _ hy => ?_
  refine Agree.bind (updatePairSnaps_agree hc hy.pool p) fun q q' _ _ hq => ?_
  exact Agree.pure ⟨⟨hq, hy.acc, hy.dist⟩, rfl⟩

theorem closePart_agree {c c' : Ctx} {w w' : W} (hc : c.Same c') (hw : w.Same w') (p : PairId) (x : Dec) :
    Agree (fun r r' => r.1.Same r'.1 ∧ r.2 = r'.2) (closePart c w p x) (closePart c' w' p x) := by
  unfold closePart
  split
  · exact closePosition_agree hc hw p x
  · exact Agree.pure ⟨hw, rfl⟩

theorem openPart_agree {c c' : Ctx} {w w' : W} (hc : c.Same c') (hw : w.Same w') (p : PairId) (x : Dec) :
    Agree (fun r r' => r.1.Same r'.1 ∧ r.2 = r'.2) (openPart c w p x) (openPart c' w' p x) := by
  unfold openPart
  split
  · exact openPosition_agree hc hw p x
  · exact Agree.pure ⟨hw, rfl⟩

theorem executeOrder_agree {c c' : Ctx} {w w' : W} (hc : c.Same c') (hw : w.Same w') (p : PairId) (x y : Dec) :
    Agree (fun r r' => r.1.Same r'.1 ∧ r.2 = r'.2) (executeOrder c w p x y) (executeOrder c' w' p x y) := by
  unfold executeOrder
  refine Agree.bind (closePart_agree hc hw p x) fun r r' _ _ hr => ?_
  rw [hr.2]
  refine Agree.bind (openPart_agree hc hr.1 p y) fun t t' _ _ ht => ?_
  rw [ht.2]
  refine Agree.bind_same fun _ _ => ?_
  exact Agree.pure ⟨ht.1, rfl⟩

/-! ## Loops over the pool positions -/

/-- What a loop over pool positions leaves alone or adds to. -/
def VPool.held (v : VPool) : Dec × (PairId → Option (Option PoolPosition)) :=
  (v.comp.baseTokens, fun q => if q ∈ v.updated ∧ (v.positions.get q).isSome then none else some (v.comp.positions.get q))

def VPool.rest (v : VPool) :=
  (v.held, v.updated.toFinset, v.base, v.vb, v.unreal, v.skewSnap, v.pnlSnap)

theorem VPool.same_obs {v v' : VPool} : v.Same v' ↔ v.positions.get = v'.positions.get ∧ v.rest = v'.rest := by
  constructor
  · intro h
    refine ⟨funext h.positions, ?_⟩
    simp only [VPool.rest, VPool.held, Prod.mk.injEq]
    refine ⟨⟨h.comp, funext fun q => ?_⟩, h.updated, h.base, h.vb, h.unreal, h.skewSnap, h.pnlSnap⟩
    have hm : q ∈ v.updated ↔ q ∈ v'.updated := by rw [← List.mem_toFinset, ← List.mem_toFinset, h.updated]
    by_cases hq : q ∈ v.updated ∧ (v.positions.get q).isSome
    · rw [if_pos hq, if_pos ⟨hm.mp hq.1, by rw [← h.positions q]; exact hq.2⟩]
    · rw [if_neg hq, if_neg (fun k => hq ⟨hm.mpr k.1, by rw [h.positions q]; exact k.2⟩), h.kept q hq]
  · rintro ⟨h, h2⟩
    simp only [VPool.rest, VPool.held, Prod.mk.injEq] at h2
    obtain ⟨⟨a1, a2⟩, a7, a8, a9, a10, a11, a12⟩ := h2
    refine ⟨a1, fun q hq => ?_, congrFun h, a7, a8, a9, a10, a11, a12⟩
    have hm : q ∈ v.updated ↔ q ∈ v'.updated := by rw [← List.mem_toFinset, ← List.mem_toFinset, a7]
    have := congrFun a2 q
    rw [if_neg hq, if_neg (fun k => hq ⟨hm.mpr k.1, by rw [h]; exact k.2⟩)] at this
    exact Option.some.inj this

theorem VPool.held_set (v : VPool) (p : PairId) (x : PoolPosition) :
    (v.setPosition p x).held = (v.held.1, fun q => if q = p then none else v.held.2 q) := by
  simp only [VPool.held, VPool.setPosition, Prod.mk.injEq, true_and]
  funext q
  by_cases h : q = p
  · subst h; simp [AMap.get_set_self]
  · simp [h, AMap.get_set_ne _ _ (fun e : p = q => h e.symm)]

/-- What marking a pair does, given its slot: exchange.rs:2483-2603 -/
def markSlot (c : Ctx) (p : PairId) (slot : Option PoolPosition) :
    R (Option PoolPosition × PairId × Dec × Dec × Dec × Bool) := do
  let pc ← c.cfg.pair p
  let price ← c.orc.price p
  let pp0 ← expect slot .missingPoolPosition
  let s ← snapPosition pp0 price
  let periodSeconds ← addSeconds c.now (-pp0.lastUpdate)
  let period ← ddiv (ofInt periodSeconds) YEAR
  let d ← dsub price pp0.lastPrice
  let da ← dabs d
  let ratio ← ddiv da pp0.lastPrice
  let pp1 : PoolPosition := { s.pp with lastPrice := price, lastUpdate := c.now }
  let r ← fundingStep pc pp1 price s.skew s.skewAbs period
  pure (some r.1, p, s.dSkew, s.dPnl, r.2, decide (periodSeconds ≥ pc.updatePeriodSeconds ∨ ratio ≥ pc.updatePriceDeltaRatio))

/-- Storing the slot and adding to the totals of the pool. -/
def VPool.store (v : VPool) (r : Option PoolPosition × PairId × Dec × Dec × Dec × Bool) : R (VPool × Bool) :=
  match r.1 with
  | none => .error .arithmetic
  | some x => do
      let v ← (v.setPosition r.2.1 x).addSkew r.2.2.1
      let v ← v.addPnl r.2.2.2.1
      let v ← v.addUnreal r.2.2.2.2.1
      pure (v, r.2.2.2.2.2)

theorem updatePair_store (c : Ctx) (v : VPool) (p : PairId) :
    updatePair c v p = markSlot c p (v.positions.get p) >>= v.store := by
  simp only [updatePair, markSlot, VPool.position, VPool.store, bind_assoc, pure_bind]

/-- How the totals of the pool move. -/
def restAdd (c : Dec × (PairId → Option (Option PoolPosition))) (x : PairId × Dec × Dec × Dec × Bool)
    (t : Finset PairId × Dec × Dec × Dec × Dec × Dec) :
    (Dec × (PairId → Option (Option PoolPosition))) × Finset PairId × Dec × Dec × Dec × Dec × Dec :=
  ((c.1, fun q => if q = x.1 then none else c.2 q), insert x.1 t.1, t.2.1, t.2.2.1, t.2.2.2.1 + x.2.2.2.1,
    t.2.2.2.2.1 + x.2.1, t.2.2.2.2.2 + x.2.2.1)

theorem get_set_update {K V : Type} [DecidableEq K] (m : AMap K V) (k : K) (v : V) :
    (m.set k v).get = Function.update m.get k (some v) := by
  funext q
  rw [AMap.get_set, Function.update_apply]
  by_cases h : k = q
  · subst h; simp
  · have : ¬ q = k := fun e => h e.symm
    simp [h, this]

theorem VPool.store_ok {v v1 : VPool} {r : Option PoolPosition × PairId × Dec × Dec × Dec × Bool} {b : Bool}
    (h : v.store r = Except.ok (v1, b)) :
    v1.positions.get = Function.update v.positions.get r.2.1 r.1 ∧ v1.rest = restAdd v.held r.2 v.rest.2 ∧
      b = r.2.2.2.2.2 := by
  obtain ⟨o, p, ds, dp, du, f⟩ := r
  cases o with
  | none => cases h
  | some x =>
    simp only [VPool.store, VPool.addSkew, VPool.addPnl, VPool.addUnreal, bind_ok, pure_ok, dadd_ok, Prod.mk.injEq] at h
    obtain ⟨_, ⟨_, ⟨-, rfl⟩, rfl⟩, _, ⟨_, ⟨-, rfl⟩, rfl⟩, _, ⟨_, ⟨-, rfl⟩, rfl⟩, rfl, rfl⟩ := h
    refine ⟨get_set_update _ _ _, ?_, rfl⟩
    have hh := v.held_set p x
    simp only [VPool.rest, restAdd, VPool.setPosition, List.toFinset_cons] at hh ⊢
    rw [← hh]; rfl

theorem VPool.store_errs (v : VPool) (r : Option PoolPosition × PairId × Dec × Dec × Dec × Bool) :
    Errs arith (v.store r) := by
  unfold VPool.store
  split
  · intro e h; cases h; simp [arith]
  · have a1 := fun v x => addSkew_errs v x
    have a2 := fun v x => addPnl_errs v x
    have a3 := fun v x => addUnreal_errs v x
    refine errs_bind (a1 _ _) fun _ _ => errs_bind (a2 _ _) fun _ _ => errs_bind (a3 _ _) fun _ _ => errs_pure _

theorem markSlot_same {c c' : Ctx} (hc : c.Same c') (p : PairId) (slot : Option PoolPosition) :
    markSlot c' p slot = markSlot c p slot := by
  unfold markSlot
  rw [hc.pair, hc.price, hc.now]

theorem restAdd_comm (c : (Dec × (PairId → Option (Option PoolPosition))) ×
      Finset PairId × Dec × Dec × Dec × Dec × Dec) (x y : PairId × Dec × Dec × Dec × Bool) :
    restAdd (restAdd c.1 x c.2).1 y (restAdd c.1 x c.2).2 = restAdd (restAdd c.1 y c.2).1 x (restAdd c.1 y c.2).2 := by
  simp only [restAdd, Finset.insert_comm y.1 x.1, Int.add_right_comm, Prod.mk.injEq, and_true, true_and]
  funext q
  split <;> split <;> rfl

theorem markSlot_key {c : Ctx} {p : PairId} {slot : Option PoolPosition} {r : Option PoolPosition × PairId × Dec × Dec × Dec × Bool}
    (h : markSlot c p slot = Except.ok r) : r.2.1 = p := by
  simp only [markSlot, bind_ok, pure_ok] at h
  obtain ⟨_, -, _, -, _, -, _, -, _, -, _, -, _, -, _, -, _, -, _, -, rfl⟩ := h
  rfl

/-- Marking the pairs of a list, collecting the rewards due. -/
def markAll (c : Ctx) (t : VPool × List Bool) (p : PairId) : R (VPool × List Bool) := do
  let r ← updatePair c t.1 p
  pure (r.1, t.2 ++ [r.2])

theorem markAll_agree {c c' : Ctx} {pool pool' : VPool} (hc : c.Same c') (hp : pool.Same pool') {ids ids' : List PairId}
    (hl : ids.Perm ids') (hn : ids.Nodup) :
    Agree (fun r r' => r.1.Same r'.1 ∧ r.2.Perm r'.2) (ids.foldlM (markAll c) (pool, []))
      (ids'.foldlM (markAll c') (pool', [])) := by
  obtain ⟨h1, h2⟩ := VPool.same_obs.mp hp
  have put_ok : ∀ (t : VPool × List Bool) r t1,
      (do let q ← t.1.store r; pure (q.1, t.2 ++ [q.2]) : R (VPool × List Bool)) = Except.ok t1 →
      t1.1.positions.get = Function.update t.1.positions.get r.2.1 r.1 ∧
        (t1.1.rest, (t1.2 : Multiset Bool)) = (restAdd t.1.rest.1 r.2 t.1.rest.2, (t.2 : Multiset Bool) + {r.2.2.2.2.2}) := by
    intro t r t1 h
    simp only [bind_ok, pure_ok] at h
    obtain ⟨⟨v, b⟩, h, rfl⟩ := h
    obtain ⟨q1, q2, q3⟩ := VPool.store_ok h
    refine ⟨q1, ?_⟩
    subst q3
    simp only [q2, ← Multiset.coe_add, Multiset.coe_singleton]
    rfl
  refine (keyed_agree (η := id) (η' := id) (fun p : PairId => p) (markSlot c)
    (fun (b : _ × Multiset Bool) x => (restAdd b.1.1 x b.1.2, b.2 + {x.2.2.2.2}))
    (fun b x y => by
      simp only [restAdd_comm b.1 x y, Multiset.add_assoc, Multiset.add_comm {x.2.2.2.2} {y.2.2.2.2}])
    (fun t : VPool × List Bool => t.1.positions.get) (fun t => (t.1.rest, (t.2 : Multiset Bool)))
    (fun t : VPool × List Bool => t.1.positions.get) (fun t => (t.1.rest, (t.2 : Multiset Bool)))
    (f := markAll c) (f' := markAll c') (a := (pool, [])) (a' := (pool', []))
    (by simpa using hl) (by simpa using hn) (fun p _ => ?_) (fun p _ => ?_) h1 (by simp only [h2])).mono ?_
  · refine Pass.of (fun t r => do let q ← t.1.store r; pure (q.1, t.2 ++ [q.2])) (fun t => ?_) (fun t r t1 hg h => ?_)
      (fun t r => errs_bind (VPool.store_errs _ _) fun _ _ => errs_pure _)
    · simp only [markAll, updatePair_store, bind_assoc, id_eq]
    · have := put_ok t r t1 h
      rwa [markSlot_key hg] at this
  · refine Pass.of (fun t r => do let q ← t.1.store r; pure (q.1, t.2 ++ [q.2])) (fun t => ?_) (fun t r t1 hg h => ?_)
      (fun t r => errs_bind (VPool.store_errs _ _) fun _ _ => errs_pure _)
    · simp only [markAll, updatePair_store, bind_assoc, id_eq, markSlot_same hc]
    · have := put_ok t r t1 h
      rwa [markSlot_key hg] at this
  · rintro ⟨v, l⟩ ⟨v', l'⟩ ⟨q1, q2⟩
    simp only [Prod.mk.injEq, Multiset.coe_eq_coe] at q2
    exact ⟨VPool.same_obs.mpr ⟨q1, q2.1⟩, q2.2⟩

/-- The loop over the pairs of an account in a liquidation: exchange.rs:2680-2683 -/
theorem markLoop_agree {c c' : Ctx} {pool pool' : VPool} (hc : c.Same c') (hp : pool.Same pool') {ids ids' : List PairId}
    (hl : ids.Perm ids') (hn : ids.Nodup) :
    Agree VPool.Same (ids.foldlM (fun pool p => do let r ← updatePair c pool p; pure r.1) pool)
      (ids'.foldlM (fun pool p => do let r ← updatePair c' pool p; pure r.1) pool') := by
  have proj : ∀ (c : Ctx) (ids : List PairId) (pool : VPool) (fl : List Bool),
      ids.foldlM (fun pool p => do let r ← updatePair c pool p; pure r.1) pool =
        (do let r ← ids.foldlM (markAll c) (pool, fl); pure r.1 : R VPool) := by
    intro c ids
    induction ids with
    | nil => intro pool fl; rfl
    | cons p ids ih =>
      intro pool fl
      simp only [List.foldlM_cons, markAll, bind_assoc, pure_bind]
      refine bind_congr fun r => ?_
      exact ih r.1 _
  rw [proj c ids pool [], proj c' ids' pool' []]
  exact Agree.bind (markAll_agree hc hp hl hn) fun r r' _ _ h => Agree.pure h.1

/-- Marking without funding, given the slot: exchange.rs:2605-2628 -/
def snapSlot (c : Ctx) (p : PairId) (slot : Option PoolPosition) :
    R (Option PoolPosition × PairId × Dec × Dec × Dec × Bool) := do
  let price ← c.orc.price p
  let pp ← expect slot .missingPoolPosition
  let s ← snapPosition pp price
  pure (some s.pp, p, s.dSkew, s.dPnl, 0, false)

/-- Storing without touching the unrealised funding. -/
def VPool.storeSnap (v : VPool) (r : Option PoolPosition × PairId × Dec × Dec × Dec × Bool) : R VPool :=
  match r.1 with
  | none => .error .arithmetic
  | some x => do
      let v ← (v.setPosition r.2.1 x).addSkew r.2.2.1
      v.addPnl r.2.2.2.1

theorem updatePairSnaps_store (c : Ctx) (v : VPool) (p : PairId) :
    updatePairSnaps c v p = snapSlot c p (v.positions.get p) >>= v.storeSnap := by
  simp only [updatePairSnaps, snapSlot, VPool.position, VPool.storeSnap, bind_assoc, pure_bind]

theorem snapLoop_agree {c c' : Ctx} {pool pool' : VPool} (hc : c.Same c') (hp : pool.Same pool') {ids ids' : List PairId}
    (hl : ids.Perm ids') (hn : ids.Nodup) :
    Agree VPool.Same (ids.foldlM (updatePairSnaps c) pool) (ids'.foldlM (updatePairSnaps c') pool') := by
  obtain ⟨h1, h2⟩ := VPool.same_obs.mp hp
  have same : ∀ p slot, snapSlot c' p slot = snapSlot c p slot := by
    intro p slot; unfold snapSlot; rw [hc.price]
  have put_ok : ∀ (v : VPool) p r v1, snapSlot c p (v.positions.get p) = Except.ok r → v.storeSnap r = Except.ok v1 →
      v1.positions.get = Function.update v.positions.get p r.1 ∧ v1.rest = restAdd v.rest.1 r.2 v.rest.2 := by
    intro v p r v1 hg h
    simp only [snapSlot, bind_ok, pure_ok] at hg
    obtain ⟨_, -, _, -, s, -, rfl⟩ := hg
    simp only [VPool.storeSnap, VPool.addSkew, VPool.addPnl, bind_ok, pure_ok, dadd_ok] at h
    obtain ⟨_, ⟨_, ⟨-, rfl⟩, rfl⟩, _, ⟨-, rfl⟩, rfl⟩ := h
    refine ⟨get_set_update _ _ _, ?_⟩
    have hh := v.held_set p s.pp
    simp only [VPool.rest, restAdd, VPool.setPosition, List.toFinset_cons, Int.add_zero] at hh ⊢
    rw [← hh]; rfl
  have errs : ∀ (v : VPool) r, Errs arith (v.storeSnap r) := by
    intro v r
    unfold VPool.storeSnap
    split
    · intro e h; cases h; simp [arith]
    · exact errs_bind (addSkew_errs _ _) fun _ _ => addPnl_errs _ _
  refine (keyed_agree (η := id) (η' := id) (fun p : PairId => p) (snapSlot c)
    (fun b x => restAdd b.1 x b.2) (fun b x y => restAdd_comm b x y)
    (fun v : VPool => v.positions.get) VPool.rest (fun v : VPool => v.positions.get) VPool.rest
    (f := updatePairSnaps c) (f' := updatePairSnaps c') (a := pool) (a' := pool')
    (by simpa using hl) (by simpa using hn) (fun p _ => ?_) (fun p _ => ?_) h1 h2).mono ?_
  · exact Pass.of VPool.storeSnap (fun v => updatePairSnaps_store c v p) (fun v r v1 hg h => put_ok v p r v1 hg h) errs
  · exact Pass.of VPool.storeSnap (fun v => by rw [updatePairSnaps_store, same]; rfl)
      (fun v r v1 hg h => put_ok v p r v1 hg h) errs
  · exact fun v v' h => VPool.same_obs.mpr h

/-- Liquidating one position, given its slot: exchange.rs:2692-2723 -/
def liqSlot (c : Ctx) (rebate : Dec) (e : PairId × AccountPosition) (slot : Option PoolPosition) :
    R (Option PoolPosition × PairId × LiqTotals) := do
  let pc ← c.cfg.pair e.1
  let price ← c.orc.price e.1
  let n ← dneg e.2.amount
  let value ← dmul n price
  let valueAbs ← dabs value
  let pp ← expect slot .missingPoolPosition
  let fee ← calculateFee c.cfg.ex pc pp rebate price value
  let funding ← positionFunding pp e.2
  let pp ← liqPool pp e.2
  let nv ← dneg value
  let a ← dsub nv e.2.cost
  let b ← dsub a fee
  let pnl ← dsub b funding
  let margin ← dmul valueAbs pc.marginMaintenance
  pure (some pp, e.1, { pnl, margin, funding, fee })

/-- Storing the slot and adding to the totals. -/
def liqStore (t : VPool × LiqTotals) (r : Option PoolPosition × PairId × LiqTotals) : R (VPool × LiqTotals) :=
  match r.1 with
  | none => .error .arithmetic
  | some x => do
      let tf ← dadd t.2.funding r.2.2.funding
      let tp ← dadd t.2.pnl r.2.2.pnl
      let tm ← dadd t.2.margin r.2.2.margin
      let tfee ← dadd t.2.fee r.2.2.fee
      pure (t.1.setPosition r.2.1 x, { pnl := tp, margin := tm, funding := tf, fee := tfee })

theorem liquidateOne_store (c : Ctx) (rebate : Dec) (t : VPool × LiqTotals) (e : PairId × AccountPosition) :
    liquidateOne c rebate t e = liqSlot c rebate e (t.1.positions.get e.1) >>= liqStore t := by
  simp only [liquidateOne, liqSlot, VPool.position, liqStore, bind_assoc, pure_bind]

theorem liqLoop_agree {c c' : Ctx} {pool pool' : VPool} (hc : c.Same c') (hp : pool.Same pool') (rebate : Dec)
    {m m' : AMap PairId AccountPosition} (hm : m.Same m') (z : LiqTotals) :
    Agree (fun r r' => r.1.Same r'.1 ∧ r.2 = r'.2) (m.entries.foldlM (liquidateOne c rebate) (pool, z))
      (m'.entries.foldlM (liquidateOne c' rebate) (pool', z)) := by
  obtain ⟨h1, h2⟩ := VPool.same_obs.mp hp
  have same : ∀ e slot, liqSlot c' rebate e slot = liqSlot c rebate e slot := by
    intro p slot; unfold liqSlot; rw [hc.pair, hc.price, hc.cfg.ex]
  let add : _ × LiqTotals → PairId × LiqTotals → _ × LiqTotals := fun b x =>
    (restAdd (Prod.fst b.1) (x.1, 0, 0, 0, false) (Prod.snd b.1),
      { pnl := b.2.pnl + x.2.pnl, margin := b.2.margin + x.2.margin, funding := b.2.funding + x.2.funding, fee := b.2.fee + x.2.fee })
  have put_ok : ∀ (t : VPool × LiqTotals) e r t1, liqSlot c rebate e (t.1.positions.get e.1) = Except.ok r →
      liqStore t r = Except.ok t1 →
      t1.1.positions.get = Function.update t.1.positions.get e.1 r.1 ∧ (t1.1.rest, t1.2) = add (t.1.rest, t.2) r.2 := by
    intro t e r t1 hg h
    simp only [liqSlot, bind_ok, pure_ok] at hg
    obtain ⟨_, -, _, -, _, -, _, -, _, -, _, -, _, -, _, -, _, -, _, -, _, -, _, -, _, -, _, -, rfl⟩ := hg
    simp only [liqStore, bind_ok, pure_ok, dadd_ok] at h
    obtain ⟨_, ⟨-, rfl⟩, _, ⟨-, rfl⟩, _, ⟨-, rfl⟩, _, ⟨-, rfl⟩, rfl⟩ := h
    refine ⟨get_set_update _ _ _, ?_⟩
    simp only [add, VPool.rest, restAdd, VPool.held_set, Int.add_zero]
    simp only [VPool.setPosition, List.toFinset_cons]
  have errs : ∀ (t : VPool × LiqTotals) r, Errs arith (liqStore t r) := by
    intro t r
    unfold liqStore
    split
    · intro e h; cases h; simp [arith]
    · errs
  refine (keyed_agree (η := id) (η' := id) (fun e : PairId × AccountPosition => e.1) (liqSlot c rebate)
    add (fun b x y => ?_)
    (fun t : VPool × LiqTotals => t.1.positions.get) (fun t => (t.1.rest, t.2))
    (fun t : VPool × LiqTotals => t.1.positions.get) (fun t => (t.1.rest, t.2))
    (f := liquidateOne c rebate) (f' := liquidateOne c' rebate) (a := (pool, z)) (a' := (pool', z))
    (by simpa using hm.perm) (by simpa using m.nodup) (fun e _ => ?_) (fun e _ => ?_) h1 (by simp only [h2])).mono ?_
  · simp only [add, restAdd_comm b.1 (x.1, 0, 0, 0, false) (y.1, 0, 0, 0, false), Int.add_right_comm]
  · exact Pass.of liqStore (fun t => liquidateOne_store c rebate t e) (fun t r t1 hg h => put_ok t e r t1 hg h) errs
  · exact Pass.of liqStore (fun t => by rw [liquidateOne_store, same]; rfl) (fun t r t1 hg h => put_ok t e r t1 hg h) errs
  · rintro ⟨v, l⟩ ⟨v', l'⟩ ⟨q1, q2⟩
    simp only [Prod.mk.injEq] at q2
    exact ⟨VPool.same_obs.mpr ⟨q1, q2.1⟩, q2.2⟩

theorem liquidatePositions_brought {c c' : Ctx} {w w' : W} (hc : c.Same c') (ha : w.acc.Same w'.acc) (hd : w.dist = w'.dist)
    (hup : Agree VPool.Same (w.acc.positions.keys.foldlM (fun pool p => do let r ← updatePair c pool p; pure r.1) w.pool)
      (w'.acc.positions.keys.foldlM (fun pool p => do let r ← updatePair c' pool p; pure r.1) w'.pool)) :
    Agree (fun r r' => r.1.Same r'.1 ∧ r.2 = r'.2) (liquidatePositions c w) (liquidatePositions c' w') := by
  unfold liquidatePositions
  rw [ha.feeRebate]
  have hk := ha.positions.keys
  refine Agree.bind_same fun rebate _ => ?_
  refine Agree.bind hup fun q q' _ _ hq => ?_
  refine Agree.bind (liqLoop_agree hc hq rebate ha.positions _) fun r r' _ _ hr => ?_
  rw [hr.2]
  refine Agree.bind_same fun n _ => ?_
  refine Agree.bind (hr.1.addUnreal n) fun q q' _ _ hq => ?_
  refine Agree.bind (snapLoop_agree hc hq hk w.acc.positions.keys_nodup) fun x x' _ _ hx => ?_
  refine Agree.pure ⟨⟨hx, ?_, hd⟩, rfl⟩
  exact { ha.touchAll with positions := ha.positions.mapV _ }

end Perp
