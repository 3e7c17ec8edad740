import Verif.Reads
import Verif.Liquidation

/-!
# Which errors can happen

`Errs l x`: if `x` fails, the error is in the list `l`.  The lemmas follow the functions of Exchange.lean; they need that the
pairs a function works on are loaded (`Ctx.Ready`, `VPool.Has`), which the loads of the public methods establish.
-/

namespace Perp

/-- Every way in which a computation can fail is listed. -/
def Errs (l : List Err) {α : Type} (x : R α) : Prop := ∀ e, x = Except.error e → e ∈ l

theorem errs_pure {l : List Err} {α : Type} (a : α) : Errs l (pure a : R α) := by
  intro e h; cases h

theorem errs_okc {l : List Err} {α : Type} (a : α) : Errs l (Except.ok a : R α) := by
  intro e h; cases h

theorem errs_of_ok {l : List Err} {α : Type} {x : R α} (h : ∃ a, x = Except.ok a) : Errs l x := by
  obtain ⟨a, rfl⟩ := h; exact errs_okc a

theorem errs_bind {l : List Err} {α β : Type} {x : R α} {f : α → R β} (hx : Errs l x)
    (hf : ∀ a, x = Except.ok a → Errs l (f a)) : Errs l (x >>= f) := by
  intro e h
  cases hxx : x with
  | error e' =>
    rw [hxx] at h
    simp only [bind, Except.bind, Except.error.injEq] at h
    rw [← h]; exact hx e' hxx
  | ok a =>
    rw [hxx] at h
    simp only [bind, Except.bind] at h
    exact hf a hxx e h

theorem Errs.mono {l m : List Err} {α : Type} {x : R α} (h : Errs l x) (hlm : ∀ e ∈ l, e ∈ m) : Errs m x :=
  fun e he => hlm e (h e he)

theorem errs_require {l : List Err} {c : Bool} {e : Err} (h : e ∈ l) : Errs l (require c e) := by
  intro e' he; unfold require at he; split at he
  · cases he
  · cases he; exact h

theorem errs_require_true {l : List Err} {c : Bool} {e : Err} (h : c = true) : Errs l (require c e) := by
  intro e' he; rw [h] at he; cases he

theorem errs_expect {l : List Err} {α : Type} {o : Option α} {e : Err} (h : e ∈ l) : Errs l (expect o e) := by
  intro e' he
  cases o with
  | none => cases he; exact h
  | some a => cases he

theorem errs_expect_some {l : List Err} {α : Type} {o : Option α} {e : Err} (h : ∃ a, o = some a) : Errs l (expect o e) := by
  obtain ⟨a, rfl⟩ := h; exact errs_okc a

section
variable {l : List Err}

theorem errs_chk (h : Err.arithmetic ∈ l) (a : Int) : Errs l (chk a) := by
  intro e he; rw [onlyArith_chk a e he]; exact h

theorem errs_dadd (h : Err.arithmetic ∈ l) (a b : Dec) : Errs l (dadd a b) := errs_chk h _
theorem errs_dsub (h : Err.arithmetic ∈ l) (a b : Dec) : Errs l (dsub a b) := errs_chk h _
theorem errs_dneg (h : Err.arithmetic ∈ l) (a : Dec) : Errs l (dneg a) := errs_chk h _
theorem errs_dmul (h : Err.arithmetic ∈ l) (a b : Dec) : Errs l (dmul a b) := errs_chk h _
theorem errs_dabs (h : Err.arithmetic ∈ l) (a : Dec) : Errs l (dabs a) := errs_chk h _
theorem errs_ddiv (h : Err.arithmetic ∈ l) (a b : Dec) : Errs l (ddiv a b) := by
  intro e he; rw [onlyArith_ddiv a b e he]; exact h
theorem errs_uadd (h : Err.arithmetic ∈ l) (a b : Nat) : Errs l (uadd a b) := by
  intro e he; rw [onlyArith_uadd a b e he]; exact h
theorem errs_dclamp (h : Err.arithmetic ∈ l) (a b c : Dec) : Errs l (dclamp a b c) := by
  intro e he; unfold dclamp at he; split at he
  · cases he
  · cases he; exact h
theorem errs_addSeconds (h : Err.arithmetic ∈ l) (a b : Int) : Errs l (addSeconds a b) := by
  intro e he; unfold addSeconds at he; split at he
  · cases he
  · cases he; exact h
theorem errs_takeAmount (h : Err.vault ∈ l) (g : Nat) (a b : Dec) (st : Strategy) : Errs l (takeAmount g a b st) := by
  intro e he; unfold takeAmount at he; simp only at he; split at he
  · cases he
  · cases he; exact h
theorem errs_mintAmount (h : Err.vault ∈ l) (h' : Err.arithmetic ∈ l) (g : Nat) (a : Dec) : Errs l (mintAmount g a) := by
  intro e he; unfold mintAmount at he; split at he
  · split at he
    · cases he
    · cases he; exact h'
  · cases he; exact h

theorem errs_foldlM {α β : Type} (P : β → Prop) {f : β → α → R β} :
    ∀ {as : List α} {b : β}, P b → (∀ a ∈ as, ∀ b, P b → Errs l (f b a) ∧ ∀ b', f b a = Except.ok b' → P b') →
      Errs l (as.foldlM f b) := by
  intro as
  induction as with
  | nil => intro b _ _; rw [List.foldlM_nil]; exact errs_pure _
  | cons a as ih =>
    intro b hb h
    rw [List.foldlM_cons]
    obtain ⟨h1, h2⟩ := h a (by simp) b hb
    exact errs_bind h1 (fun b' hb' => ih (h2 b' hb') (fun x hx => h x (by simp [hx])))

theorem errs_foldlM' {α β : Type} {f : β → α → R β} {as : List α} {b : β} (h : ∀ a ∈ as, ∀ b, Errs l (f b a)) :
    Errs l (as.foldlM f b) :=
  errs_foldlM (fun _ => True) trivial (fun a ha b _ => ⟨h a ha b, fun _ _ => trivial⟩)

theorem foldlM_inv {α β : Type} (P : β → Prop) {f : β → α → R β} :
    ∀ {as : List α} {b b' : β}, P b → (∀ a ∈ as, ∀ b b', P b → f b a = Except.ok b' → P b') →
      as.foldlM f b = Except.ok b' → P b' := by
  intro as
  induction as with
  | nil => intro b b' hb _ h; rw [List.foldlM_nil, pure_ok] at h; exact h ▸ hb
  | cons a as ih =>
    intro b b' hb h hf
    rw [List.foldlM_cons, bind_ok] at hf
    obtain ⟨c, hc, hf⟩ := hf
    exact ih (h a (by simp) b c hb hc) (fun x hx => h x (by simp [hx])) hf

theorem errs_mapM {α β : Type} {f : α → R β} : ∀ {as : List α}, (∀ a ∈ as, Errs l (f a)) → Errs l (as.mapM f) := by
  intro as
  induction as with
  | nil => intro _; rw [List.mapM_nil]; exact errs_pure _
  | cons a as ih =>
    intro h
    rw [List.mapM_cons]
    exact errs_bind (h a (by simp)) (fun b _ => errs_bind (ih (fun x hx => h x (by simp [hx]))) (fun _ _ => errs_pure _))

theorem errs_buildM {K V : Type} [DecidableEq K] {f : K → R V} : ∀ {ks : List K}, (∀ k ∈ ks, Errs l (f k)) →
    Errs l (AMap.buildM f ks) := by
  intro ks
  induction ks with
  | nil => intro _; exact errs_okc _
  | cons k ks ih =>
    intro h
    unfold AMap.buildM
    exact errs_bind (h k (by simp)) (fun _ _ => errs_bind (ih (fun x hx => h x (by simp [hx]))) (fun _ _ => errs_pure _))

end

/-- Decompose a computation into its parts; parts that need an argument of their own are left. -/
macro "errs" : tactic => `(tactic| repeat' (with_reducible first
  | exact errs_pure _ | exact errs_okc _
  | exact errs_dadd (by decide) _ _ | exact errs_dsub (by decide) _ _ | exact errs_dneg (by decide) _
  | exact errs_dmul (by decide) _ _ | exact errs_dabs (by decide) _ | exact errs_ddiv (by decide) _ _
  | exact errs_uadd (by decide) _ _ | exact errs_dclamp (by decide) _ _ _ | exact errs_addSeconds (by decide) _ _
  | exact errs_chk (by decide) _
  | exact errs_takeAmount (by decide) _ _ _ _ | exact errs_mintAmount (by decide) (by decide) _ _
  | exact errs_require (by decide) | exact errs_expect (by decide)
  | assumption
  | refine errs_bind ?_ (fun _ _ => ?_)
  | split))

/-! ## Arithmetic only -/

/-- The error list of a purely arithmetic function. -/
abbrev arith : List Err := [.arithmetic]

theorem Errs.of_arith {l : List Err} {α : Type} {x : R α} (h : Errs arith x) (hl : Err.arithmetic ∈ l) : Errs l x :=
  h.mono (by intro e he; simp only [arith, List.mem_singleton] at he; rw [he]; exact hl)

theorem calculateFee_errs (ex : ExchangeConfig) (pc : PairConfig) (pp : PoolPosition) (a b d : Dec) :
    Errs arith (calculateFee ex pc pp a b d) := by unfold calculateFee; errs

theorem positionFunding_errs (pp : PoolPosition) (pos : AccountPosition) : Errs arith (positionFunding pp pos) := by
  unfold positionFunding; errs

theorem feeRebate_errs (v : VAccount) : Errs arith v.feeRebate := by unfold VAccount.feeRebate; errs

theorem rewardReferral_errs (v : VAccount) (x : Dec) : Errs arith (v.rewardReferral x) := by
  unfold VAccount.rewardReferral; errs

theorem addVb_errs (v : VAccount) (x : Dec) : Errs arith (v.addVb x) := by unfold VAccount.addVb; errs
theorem pool_addVb_errs (v : VPool) (x : Dec) : Errs arith (v.addVb x) := by unfold VPool.addVb; errs
theorem addUnreal_errs (v : VPool) (x : Dec) : Errs arith (v.addUnreal x) := by unfold VPool.addUnreal; errs
theorem addSkew_errs (v : VPool) (x : Dec) : Errs arith (v.addSkew x) := by unfold VPool.addSkew; errs
theorem addPnl_errs (v : VPool) (x : Dec) : Errs arith (v.addPnl x) := by unfold VPool.addPnl; errs
theorem deposit_errs (v : VPool) (x : Dec) : Errs arith (v.deposit x) := by unfold VPool.deposit; errs
theorem distribute_errs (d : FeeDist) (a b : Dec) : Errs arith (d.distribute a b) := by unfold FeeDist.distribute; errs

theorem settleAccount_errs (w : W) (x : Dec) : Errs arith (settleAccount w x) := by
  unfold settleAccount
  refine errs_bind (errs_dneg (by decide) _) (fun _ _ => errs_bind (pool_addVb_errs _ _) (fun _ _ =>
    errs_bind (addVb_errs _ _) (fun _ _ => errs_pure _)))

theorem settleFeesBasic_errs (ex : ExchangeConfig) (pool : VPool) (d : FeeDist) (x : Dec) :
    Errs arith (settleFeesBasic ex pool d x) := by
  unfold settleFeesBasic
  errs
  · exact pool_addVb_errs _ _
  · exact distribute_errs _ _ _

theorem settleFeesReferral_errs (ex : ExchangeConfig) (w : W) (x : Dec) : Errs arith (settleFeesReferral ex w x) := by
  unfold settleFeesReferral
  errs
  · exact pool_addVb_errs _ _
  · exact distribute_errs _ _ _
  · exact rewardReferral_errs _ _

theorem poolValue_errs (v : VPool) : Errs arith (poolValue v) := by unfold poolValue; errs

theorem skewRatio_errs (v : VPool) : Errs arith (skewRatio v) := by
  unfold skewRatio; errs; exact poolValue_errs v

theorem snapPosition_errs (pp : PoolPosition) (x : Dec) : Errs arith (snapPosition pp x) := by unfold snapPosition; errs

theorem decayRate_errs (pc : PairConfig) (a b d : Dec) : Errs arith (decayRate pc a b d) := by unfold decayRate; errs

theorem funding2Next_errs (pc : PairConfig) (a b d e f : Dec) : Errs arith (funding2Next pc a b d e f) := by
  unfold funding2Next; errs <;> exact decayRate_errs _ _ _ _

theorem fundingSides_errs (pc : PairConfig) (a b d e : Dec) : Errs arith (fundingSides pc a b d e) := by
  unfold fundingSides; errs

theorem accrue_errs (pc : PairConfig) (a b d e f g h i j : Dec) : Errs arith (accrue pc a b d e f g h i j) := by
  unfold accrue; errs; exact fundingSides_errs _ _ _ _ _

theorem fundingStep_errs (pc : PairConfig) (pp : PoolPosition) (a b d e : Dec) : Errs arith (fundingStep pc pp a b d e) := by
  unfold fundingStep
  split
  · unfold fundingUpdate
    errs
    · exact funding2Next_errs _ _ _ _ _ _
    · simp only
      errs
      exact accrue_errs _ _ _ _ _ _ _ _ _ _
  · exact errs_pure _

theorem adlThreshold_errs (ex : ExchangeConfig) (x : Dec) : Errs arith (adlThreshold ex x) := by unfold adlThreshold; errs

/-! ## Loaded pairs -/

/-- The context knows the configuration and a price of each of these pairs, and a price for every collateral. -/
structure Ctx.Ready (c : Ctx) (ids : List PairId) : Prop where
  pair : ∀ p ∈ ids, ∃ pc, c.cfg.pairs.get p = some pc
  price : ∀ p ∈ ids, ∃ x, c.orc.prices.get p = some x
  coll : ∀ r cc, c.cfg.colls.get r = some cc → ∃ x, c.orc.priceResource r = Except.ok x

/-- The pool object has loaded these pairs. -/
def VPool.Has (pool : VPool) (ids : List PairId) : Prop := ∀ p ∈ ids, ∃ pp, pool.positions.get p = some pp

theorem VPool.Has.set {pool : VPool} {ids : List PairId} (h : pool.Has ids) {p : PairId} {x : PoolPosition} {m : VPool}
    (hm : m.positions = pool.positions.set p x) : m.Has ids := by
  intro q hq
  rw [hm, AMap.get_set]
  split
  · exact ⟨_, rfl⟩
  · exact h q hq

theorem updatePair_has {c : Ctx} {pool pool' : VPool} {p : PairId} {b : Bool} {ids : List PairId}
    (h : updatePair c pool p = Except.ok (pool', b)) (h0 : pool.Has ids) : pool'.Has ids := by
  obtain ⟨_, _, _, _, _, _, _, -, -, -, -, -, -, rfl, -, -⟩ := updatePair_ok h
  exact h0.set rfl

theorem updatePairSnaps_has {c : Ctx} {pool pool' : VPool} {p : PairId} {ids : List PairId}
    (h : updatePairSnaps c pool p = Except.ok pool') (h0 : pool.Has ids) : pool'.Has ids := by
  obtain ⟨_, _, -, -, rfl⟩ := updatePairSnaps_ok h
  exact h0.set rfl

theorem cfgPair_errs {c : Ctx} {ids : List PairId} (h : c.Ready ids) {l : List Err} {p : PairId} (hp : p ∈ ids) :
    Errs l (c.cfg.pair p) := errs_expect_some (h.pair p hp)

theorem orcPrice_errs {c : Ctx} {ids : List PairId} (h : c.Ready ids) {l : List Err} {p : PairId} (hp : p ∈ ids) :
    Errs l (c.orc.price p) := errs_expect_some (h.price p hp)

theorem poolPosition_errs {pool : VPool} {ids : List PairId} (h : pool.Has ids) {l : List Err} {p : PairId} (hp : p ∈ ids) :
    Errs l (pool.position p) := errs_expect_some (h p hp)

theorem updatePair_errs {c : Ctx} {pool : VPool} {ids : List PairId} (h : c.Ready ids) (hh : pool.Has ids) {p : PairId}
    (hp : p ∈ ids) : Errs arith (updatePair c pool p) := by
  unfold updatePair
  errs
  · exact cfgPair_errs h hp
  · exact orcPrice_errs h hp
  · exact poolPosition_errs hh hp
  · exact snapPosition_errs _ _
  · exact fundingStep_errs _ _ _ _ _ _
  · exact addSkew_errs _ _
  · exact addPnl_errs _ _
  · exact addUnreal_errs _ _

theorem updatePairSnaps_errs {c : Ctx} {pool : VPool} {ids : List PairId} (h : c.Ready ids) (hh : pool.Has ids) {p : PairId}
    (hp : p ∈ ids) : Errs arith (updatePairSnaps c pool p) := by
  unfold updatePairSnaps
  errs
  · exact orcPrice_errs h hp
  · exact poolPosition_errs hh hp
  · exact snapPosition_errs _ _
  · exact addSkew_errs _ _
  · exact addPnl_errs _ _

theorem settleFunding_errs {w : W} {ids : List PairId} (hh : w.pool.Has ids) {p : PairId} (hp : p ∈ ids) :
    Errs arith (settleFunding w p) := by
  unfold settleFunding
  errs
  · exact poolPosition_errs hh hp
  · unfold settlePosition; errs; exact positionFunding_errs _ _
  · exact addUnreal_errs _ _
  · exact settleAccount_errs _ _

theorem valuePositions_errs {c : Ctx} {pool : VPool} {a : VAccount} {ids : List PairId} (h : c.Ready ids) (hh : pool.Has ids)
    (hids : ∀ p ∈ a.positions.keys, p ∈ ids) : Errs arith (valuePositions c pool a) := by
  unfold valuePositions
  refine errs_bind (feeRebate_errs a) (fun rb _ => errs_foldlM' (fun e he t => ?_))
  have hp : e.1 ∈ ids := hids _ (AMap.mem_keys.mpr ⟨_, AMap.get_mem he⟩)
  unfold valuePosition
  errs
  · exact cfgPair_errs h hp
  · exact orcPrice_errs h hp
  · exact poolPosition_errs hh hp
  · exact calculateFee_errs _ _ _ _ _ _
  · exact positionFunding_errs _ _

theorem valueCollateral_errs {c : Ctx} {a : VAccount} {ids : List PairId} (h : c.Ready ids) : Errs arith (valueCollateral c a) := by
  unfold valueCollateral
  refine errs_foldlM' (fun e he t => ?_)
  unfold valueCollateralOne
  split
  · rename_i cc hcc
    errs
    exact errs_of_ok (h.coll _ _ hcc)
  · exact errs_pure _

theorem assertAccountIntegrity_errs {c : Ctx} {pool : VPool} {a : VAccount} {ids : List PairId} (h : c.Ready ids)
    (hh : pool.Has ids) (hids : ∀ p ∈ a.positions.keys, p ∈ ids) :
    Errs [.insufficientMargin, .arithmetic] (assertAccountIntegrity c pool a) := by
  unfold assertAccountIntegrity
  errs
  · exact (valuePositions_errs h hh hids).of_arith (by decide)
  · exact (valueCollateral_errs h).of_arith (by decide)

theorem openPosition_errs {c : Ctx} {w : W} {ids : List PairId} (h : c.Ready ids) (hh : w.pool.Has ids)
    (hids : ∀ p ∈ w.acc.positions.keys, p ∈ ids) {p : PairId} (hp : p ∈ ids) {x : Dec}
    (hsign : 0 ≤ (w.acc.position p).amount.sign * x.sign) :
    Errs [.pairOiTooHigh, .positionsTooMany, .insufficientMargin, .arithmetic] (openPosition c w p x) := by
  unfold openPosition
  refine errs_bind (cfgPair_errs h hp) (fun pc _ => ?_)
  refine errs_bind ((feeRebate_errs _).of_arith (by decide)) (fun rb _ => ?_)
  refine errs_bind (orcPrice_errs h hp) (fun price _ => ?_)
  refine errs_bind (errs_dmul (by decide) _ _) (fun value _ => ?_)
  refine errs_bind (poolPosition_errs hh hp) (fun pp _ => ?_)
  refine errs_bind (errs_require_true (by simpa using hsign)) (fun _ _ => ?_)
  refine errs_bind ((calculateFee_errs _ _ _ _ _ _).of_arith (by decide)) (fun fee _ => ?_)
  refine errs_bind (errs_dadd (by decide) _ _) (fun cost _ => ?_)
  refine errs_bind (by unfold openPool; errs; unfold openSide; errs) (fun pp2 _ => ?_)
  refine errs_bind (errs_dadd (by decide) _ _) (fun am _ => ?_)
  refine errs_bind (errs_dadd (by decide) _ _) (fun co _ => ?_)
  have hset : (w.pool.setPosition p pp2).Has ids := hh.set rfl
  refine errs_bind ((updatePairSnaps_errs h hset hp).of_arith (by decide)) (fun pool hpool => ?_)
  refine errs_bind (errs_require (by decide)) (fun _ _ => ?_)
  refine errs_bind ((assertAccountIntegrity_errs h (updatePairSnaps_has hpool hset) ?_).mono (by decide)) (fun _ _ => errs_pure _)
  intro q hq
  obtain ⟨x, hx⟩ := AMap.mem_keys.mp hq
  change (w.acc.positions.set p _).get q = some x at hx
  rw [AMap.get_set] at hx
  split at hx
  · rename_i e; exact e ▸ hp
  · exact hids q (AMap.mem_keys.mpr ⟨x, hx⟩)

theorem closePosition_errs {c : Ctx} {w : W} {ids : List PairId} (h : c.Ready ids) (hh : w.pool.Has ids) {p : PairId}
    (hp : p ∈ ids) {x : Dec} (hsign : (w.acc.position p).amount.sign * x.sign ≤ 0) (hsize : |x| ≤ |(w.acc.position p).amount|) :
    Errs arith (closePosition c w p x) := by
  unfold closePosition
  refine errs_bind (cfgPair_errs h hp) (fun pc _ => ?_)
  refine errs_bind (feeRebate_errs _) (fun rb _ => ?_)
  refine errs_bind (orcPrice_errs h hp) (fun price _ => ?_)
  refine errs_bind (errs_dmul (by decide) _ _) (fun value _ => ?_)
  refine errs_bind (poolPosition_errs hh hp) (fun pp _ => ?_)
  refine errs_bind (errs_require_true (by simpa using hsign)) (fun _ _ => ?_)
  refine errs_bind (errs_require_true (by simpa using hsize)) (fun _ _ => ?_)
  refine errs_bind (calculateFee_errs _ _ _ _ _ _) (fun fee _ => ?_)
  refine errs_bind (errs_dneg (by decide) _) (fun _ _ => ?_)
  refine errs_bind (errs_ddiv (by decide) _ _) (fun _ _ => ?_)
  refine errs_bind (errs_dmul (by decide) _ _) (fun cost _ => ?_)
  refine errs_bind (errs_dneg (by decide) _) (fun _ _ => ?_)
  refine errs_bind (errs_dsub (by decide) _ _) (fun _ _ => ?_)
  refine errs_bind (errs_dsub (by decide) _ _) (fun pnl _ => ?_)
  refine errs_bind (by unfold closePool; errs; unfold closeSide; errs) (fun pp2 _ => ?_)
  refine errs_bind (errs_dadd (by decide) _ _) (fun am _ => ?_)
  refine errs_bind (errs_dsub (by decide) _ _) (fun co _ => ?_)
  refine errs_bind (settleAccount_errs _ _) (fun w2 hw2 => ?_)
  have hset : (w.pool.setPosition p pp2).Has ids := hh.set rfl
  have : w2.pool.Has ids := by rw [settleAccount_ok hw2]; exact hset
  exact errs_bind (updatePairSnaps_errs h this hp) (fun _ _ => errs_pure _)

/-! ## Orders -/

theorem closePosition_has {c : Ctx} {w w' : W} {p : PairId} {x pnl fee : Dec} {ids : List PairId}
    (h : closePosition c w p x = Except.ok (w', pnl, fee)) (h0 : w.pool.Has ids) : w'.pool.Has ids := by
  obtain ⟨_, _, _, -, -, -, -, -, -, -, -, -, hp, -⟩ := closePosition_ok h
  rw [hp]; exact h0.set rfl

theorem keys_set_subset {m : AMap PairId AccountPosition} {p : PairId} {x : AccountPosition} {ids : List PairId}
    (hids : ∀ q ∈ m.keys, q ∈ ids) (hp : p ∈ ids) : ∀ q ∈ (m.set p x).keys, q ∈ ids := by
  intro q hq
  obtain ⟨y, hy⟩ := AMap.mem_keys.mp hq
  rw [AMap.get_set] at hy
  split at hy
  · rename_i e; exact e ▸ hp
  · exact hids q (AMap.mem_keys.mpr ⟨y, hy⟩)

theorem closePosition_keys {c : Ctx} {w w' : W} {p : PairId} {x pnl fee : Dec} {ids : List PairId} (hp : p ∈ ids)
    (h : closePosition c w p x = Except.ok (w', pnl, fee)) (h0 : ∀ q ∈ w.acc.positions.keys, q ∈ ids) :
    ∀ q ∈ w'.acc.positions.keys, q ∈ ids := by
  obtain ⟨_, _, _, -, -, -, -, -, -, -, -, -, -, ha, -⟩ := closePosition_ok h
  rw [ha]
  exact keys_set_subset h0 hp

/-- How an order is split: the closing part never crosses zero, and what is opened has the sign of what is left. -/
theorem splitOrder_signs {x amount close op : Dec} {ro : Bool} (h : splitOrder x amount ro = Except.ok (close, op)) :
    x.sign * close.sign ≤ 0 ∧ |close| ≤ |x| ∧ (op ≠ 0 → 0 ≤ (x + close).sign * op.sign) := by
  obtain ⟨h1, h2⟩ := splitOrder_ok h
  split at h1
  · rename_i hc
    obtain ⟨hx, ha⟩ := hc
    have hneg : close < 0 := by rw [h1]; exact max_lt ha (by omega)
    refine ⟨?_, ?_, ?_⟩
    · rw [Int.sign_eq_one_of_pos hx, Int.sign_eq_neg_one_of_neg hneg]; norm_num
    · rw [abs_of_neg hneg, abs_of_pos hx]
      have : -x ≤ close := by rw [h1]; exact le_max_right _ _
      omega
    · intro hop
      rcases le_total amount (-x) with hle | hle
      · rw [max_eq_right hle] at h1; rw [h1]; simp
      · rw [max_eq_left hle] at h1
        exfalso; apply hop; rw [h2, h1]; split <;> simp
  · split at h1
    · rename_i hc
      obtain ⟨hx, ha⟩ := hc
      have hpos : 0 < close := by rw [h1]; exact lt_min ha (by omega)
      refine ⟨?_, ?_, ?_⟩
      · rw [Int.sign_eq_one_of_pos hpos, Int.sign_eq_neg_one_of_neg hx]; norm_num
      · rw [abs_of_pos hpos, abs_of_neg hx]
        rw [h1]; exact min_le_right _ _
      · intro hop
        rcases le_total amount (-x) with hle | hle
        · rw [min_eq_left hle] at h1
          exfalso; apply hop; rw [h2, h1]; split <;> simp
        · rw [min_eq_right hle] at h1; rw [h1]; simp
    · rename_i hn1 hn2
      rw [h1]
      refine ⟨by simp, by simp, fun hop => ?_⟩
      rw [h1] at h2
      split at h2
      · exact absurd h2 hop
      · rw [h2, sub_zero, add_zero]
        rcases lt_trichotomy x 0 with hx | hx | hx
        · have : amount ≤ 0 := by by_contra hh; exact hn2 ⟨hx, by omega⟩
          rcases lt_or_eq_of_le this with hh | hh
          · rw [Int.sign_eq_neg_one_of_neg hx, Int.sign_eq_neg_one_of_neg hh]; norm_num
          · rw [hh]; simp
        · rw [hx]; simp
        · have : 0 ≤ amount := by by_contra hh; exact hn1 ⟨hx, by omega⟩
          rcases lt_or_eq_of_le this with hh | hh
          · rw [Int.sign_eq_one_of_pos hx, Int.sign_eq_one_of_pos hh]; norm_num
          · rw [← hh]; simp

theorem executeOrder_errs {c : Ctx} {w : W} {ids : List PairId} (h : c.Ready ids) (hh : w.pool.Has ids)
    (hids : ∀ p ∈ w.acc.positions.keys, p ∈ ids) {p : PairId} (hp : p ∈ ids) {close op : Dec}
    (hs : (w.acc.position p).amount.sign * close.sign ≤ 0 ∧ |close| ≤ |(w.acc.position p).amount| ∧
      (op ≠ 0 → 0 ≤ ((w.acc.position p).amount + close).sign * op.sign)) :
    Errs [.pairOiTooHigh, .positionsTooMany, .insufficientMargin, .arithmetic] (executeOrder c w p close op) := by
  unfold executeOrder
  refine errs_bind ?_ (fun r hr => errs_bind ?_ (fun _ _ => errs_bind (errs_dadd (by decide) _ _) (fun _ _ => errs_pure _)))
  · unfold closePart
    split
    · exact (closePosition_errs h hh hp hs.1 hs.2.1).of_arith (by decide)
    · exact errs_pure _
  · obtain ⟨w1, pnl, fee⟩ := r
    have hpos := (closePart_position hr).1
    have h1 : w1.pool.Has ids ∧ ∀ q ∈ w1.acc.positions.keys, q ∈ ids := by
      unfold closePart at hr
      split at hr
      · exact ⟨closePosition_has hr hh, closePosition_keys hp hr hids⟩
      · cases hr; exact ⟨hh, hids⟩
    unfold openPart
    split
    · rename_i hop
      exact openPosition_errs h h1.1 h1.2 hp (by rw [hpos]; exact hs.2.2 hop)
    · exact errs_pure _

theorem moveActive_errs (v : VAccount) (i : Nat) (a b : Status) : Errs arith (v.moveActive i a b) := by
  unfold VAccount.moveActive VAccount.removeActive; errs

theorem keeperRequest_errs (v : VAccount) (i : Nat) : Errs [.missingRequest] (v.keeperRequest i) := by
  unfold VAccount.keeperRequest; errs

theorem trySetStatus_errs (v : VAccount) (is : List Nat) {st : Status} (hst : st = STATUS_ACTIVE ∨ st = STATUS_CANCELLED) :
    Errs [.missingRequest, .arithmetic] (v.trySetStatus is st) := by
  unfold VAccount.trySetStatus
  refine errs_bind ?_ (fun ph _ => errs_bind ?_ (fun krs _ => errs_foldlM' (fun e _ w => ?_)))
  · rcases hst with rfl | rfl <;> exact errs_of_ok ⟨_, rfl⟩
  · exact errs_buildM (fun k _ => (keeperRequest_errs v k).mono (by decide))
  · unfold VAccount.trySetOne
    split
    · exact errs_pure _
    · exact errs_bind ((moveActive_errs _ _ _ _).of_arith (by decide)) (fun _ _ => errs_pure _)

/-- Reasons for which executing an order can fail once it is loaded. -/
abbrev orderErrs : List Err :=
  [.priceLimit, .slippageLimit, .pairOiTooHigh, .positionsTooMany, .insufficientMargin, .skewTooHigh, .missingRequest, .arithmetic]

theorem assertPoolIntegrity_errs (cfg : VConfig) (v : VPool) (x : Dec) :
    Errs [.skewTooHigh, .arithmetic] (assertPoolIntegrity cfg v x) := by
  unfold assertPoolIntegrity; errs; exact (skewRatio_errs v).of_arith (by decide)

theorem settleFunding_keys {w w' : W} {p : PairId} {n : Dec} {ids : List PairId} (h : settleFunding w p = Except.ok (w', n))
    (hp : p ∈ ids) (hids : ∀ q ∈ w.acc.positions.keys, q ∈ ids) :
    (∀ q ∈ w'.acc.positions.keys, q ∈ ids) ∧ w'.pool.positions = w.pool.positions := by
  obtain ⟨pp, -, -, hpool, ha, -⟩ := settleFunding_ok h
  rw [ha, hpool]
  refine ⟨?_, rfl⟩
  simp only
  split
  · exact keys_set_subset hids hp
  · exact hids

theorem marginOrder_errs {c : Ctx} {w : W} {r : MarginOrderReq} {ids : List PairId} (h : c.Ready ids) (hh : w.pool.Has ids)
    (hids : ∀ p ∈ w.acc.positions.keys, p ∈ ids) (hp : r.pair ∈ ids) : Errs orderErrs (marginOrder c w r) := by
  unfold marginOrder
  refine errs_bind (orcPrice_errs h hp) (fun price _ => ?_)
  refine errs_bind (errs_require (by decide)) (fun _ _ => ?_)
  refine errs_bind ((updatePair_errs h hh hp).of_arith (by decide)) (fun u hu => ?_)
  have hu' : u.1.Has ids := updatePair_has (b := u.2) hu hh
  refine errs_bind ((settleFunding_errs (w := { w with pool := u.1 }) hu' hp).of_arith (by decide)) (fun x hx => ?_)
  obtain ⟨w1, funding⟩ := x
  obtain ⟨k1, k2⟩ := settleFunding_keys hx hp hids
  have hw1 : w1.pool.Has ids := by intro q hq; rw [k2]; exact hu' q hq
  refine errs_bind ?_ (fun y hy => ?_)
  · unfold splitOrder closeAmount openAmount; errs
  obtain ⟨close, op⟩ := y
  refine errs_bind ((executeOrder_errs h hw1 k1 hp (splitOrder_signs hy)).mono (by decide)) (fun z hz => ?_)
  obtain ⟨w2, pnl, fee⟩ := z
  refine errs_bind (errs_dadd (by decide) _ _) (fun _ _ => ?_)
  refine errs_bind (errs_dabs (by decide) _) (fun _ _ => ?_)
  refine errs_bind (errs_dmul (by decide) _ _) (fun _ _ => ?_)
  refine errs_bind ?_ (fun _ _ => ?_)
  · unfold SlippageLimit.compare SlippageLimit.allowed; errs
  refine errs_bind (errs_require (by decide)) (fun _ _ => ?_)
  refine errs_bind ((settleFeesReferral_errs _ _ _).of_arith (by decide)) (fun x3 _ => ?_)
  refine errs_bind ((trySetStatus_errs _ _ (Or.inl rfl)).mono (by decide)) (fun _ _ => ?_)
  refine errs_bind ((trySetStatus_errs _ _ (Or.inr rfl)).mono (by decide)) (fun _ _ => ?_)
  refine errs_bind (errs_dsub (by decide) _ _) (fun _ _ => ?_)
  refine errs_bind ((assertPoolIntegrity_errs _ _ _).mono (by decide)) (fun _ _ => ?_)
  exact errs_bind (errs_dadd (by decide) _ _) (fun _ _ => errs_pure _)

/-- Reasons for which an auto-deleverage can fail once it is loaded. -/
abbrev adlErrs : List Err := [.adlSkewTooLow, .adlNoPosition, .adlPnlBelowThreshold, .adlSkewNotReduced, .arithmetic]

theorem autoDeleverage_errs {c : Ctx} {w : W} {p : PairId} {ids : List PairId} (h : c.Ready ids) (hh : w.pool.Has ids)
    (hp : p ∈ ids) : Errs adlErrs (autoDeleverage c w p) := by
  unfold autoDeleverage
  refine errs_bind ((updatePair_errs h hh hp).of_arith (by decide)) (fun u hu => ?_)
  have hu' : u.1.Has ids := updatePair_has (b := u.2) hu hh
  refine errs_bind ((settleFunding_errs (w := { w with pool := u.1 }) hu' hp).of_arith (by decide)) (fun x hx => ?_)
  obtain ⟨w1, funding⟩ := x
  have hw1 : w1.pool.Has ids := by
    obtain ⟨_, -, -, e, -⟩ := settleFunding_ok hx
    intro q hq; rw [e]; exact hu' q hq
  refine errs_bind ((skewRatio_errs _).of_arith (by decide)) (fun _ _ => ?_)
  refine errs_bind (errs_require (by decide)) (fun _ _ => ?_)
  refine errs_bind (orcPrice_errs h hp) (fun price _ => ?_)
  refine errs_bind (errs_require (by decide)) (fun _ _ => ?_)
  refine errs_bind (errs_dmul (by decide) _ _) (fun _ _ => ?_)
  refine errs_bind (errs_dsub (by decide) _ _) (fun _ _ => ?_)
  refine errs_bind (errs_ddiv (by decide) _ _) (fun _ _ => ?_)
  refine errs_bind ((adlThreshold_errs _ _).of_arith (by decide)) (fun _ _ => ?_)
  refine errs_bind (errs_require (by decide)) (fun _ _ => ?_)
  refine errs_bind (errs_dneg (by decide) _) (fun cl hcl => ?_)
  rw [dneg_ok] at hcl
  obtain ⟨-, rfl⟩ := hcl
  refine errs_bind ((closePosition_errs h hw1 hp ?_ ?_).of_arith (by decide)) (fun _ _ => ?_)
  · rw [Int.sign_neg]; nlinarith [mul_self_nonneg ((w1.acc.position p).amount.sign)]
  · rw [abs_neg]
  refine errs_bind ((settleFeesReferral_errs _ _ _).of_arith (by decide)) (fun x3 _ => ?_)
  refine errs_bind ((skewRatio_errs _).of_arith (by decide)) (fun _ _ => ?_)
  refine errs_bind (errs_require (by decide)) (fun _ _ => ?_)
  exact errs_bind (errs_dadd (by decide) _ _) (fun _ _ => errs_pure _)

/-! ## Collateral -/

theorem takeAmount_down {g : Nat} (hg : 0 < g) {avail x : Dec} (h0 : 0 ≤ x) (h1 : x ≤ avail) :
    takeAmount g avail x .toZero = Except.ok (amountFor g x .toZero) := by
  rw [takeAmount_ok]
  refine ⟨rfl, ?_, ?_, ?_⟩
  · unfold amountFor; simp only
    exact mul_nonneg (Int.tdiv_nonneg h0 (by omega)) (by omega)
  · unfold amountFor; simp only; exact Int.mul_emod_left _ _
  · have hg' : (0 : Int) < g := by exact_mod_cast hg
    unfold amountFor; simp only
    rw [Int.tdiv_eq_ediv_of_nonneg h0]
    have := Int.ediv_mul_le x hg'.ne'
    omega

/-- Taking amounts of distinct resources that are all there. -/
theorem vaultTakeBatch_succeeds {env : Env} : ∀ {cs : List (Res × Dec)} {m : AMap Res Dec}, (cs.map Prod.fst).Nodup →
    (∀ e ∈ cs, 0 ≤ e.2 ∧ e.2 ≤ (m.get e.1).getD 0) →
    ∃ m' bs, vaultTakeBatch env .toZero m cs = Except.ok (m', bs) ∧ bs.map Bucket.res = cs.map Prod.fst := by
  intro cs
  induction cs with
  | nil => intro m _ _; exact ⟨m, [], rfl, rfl⟩
  | cons e cs ih =>
    intro m hn h
    rw [List.map_cons, List.nodup_cons] at hn
    obtain ⟨h0, h1⟩ := h e (by simp)
    have ht := takeAmount_down (env.gran_pos e.1) h0 h1
    have h2 := ih (m := m.set e.1 ((m.get e.1).getD 0 - amountFor (env.gran e.1) e.2 .toZero)) hn.2 ?_
    · obtain ⟨m', bs, hb, hr⟩ := h2
      refine ⟨m', ⟨e.1, amountFor (env.gran e.1) e.2 .toZero⟩ :: bs, ?_, by simp [hr]⟩
      simp only [vaultTakeBatch, vaultTake, AMap.getD, ht, bind, Except.bind, pure, Except.pure, hb]
    · intro e' he'
      have hne : e.1 ≠ e'.1 := by
        intro hh; apply hn.1; rw [hh]; exact List.mem_map.mpr ⟨e', he', rfl⟩
      rw [AMap.get_set, if_neg hne]
      exact h e' (by simp [he'])

theorem balanceSubBatch_errs : ∀ {bs : List Bucket} {m : AMap Res Dec}, (bs.map Bucket.res).Nodup →
    (∀ b ∈ bs, ∃ x, m.get b.res = some x) → Errs arith (balanceSubBatch m bs) := by
  intro bs
  induction bs with
  | nil => intro m _ _; exact errs_pure _
  | cons b bs ih =>
    intro m hn h
    rw [List.map_cons, List.nodup_cons] at hn
    unfold balanceSubBatch
    rw [List.foldlM_cons]
    refine errs_bind ?_ (fun m' hm' => ?_)
    · unfold balanceSub
      refine errs_bind (errs_expect_some (h b (by simp))) (fun _ _ => ?_)
      errs
    · obtain ⟨x, -, hg⟩ := balanceSub_get hm'
      refine ih hn.2 (fun b' hb' => ?_)
      have hne : ¬ b.res = b'.res := by
        intro hh; apply hn.1; rw [hh]; exact List.mem_map.mpr ⟨b', hb', rfl⟩
      rw [hg, if_neg hne]
      exact h b' (by simp [hb'])

theorem withdrawCollateral_errs {env : Env} {v : VAccount} (hinv : CollInv env v.collPart) {cs : List (Res × Dec)}
    (hn : (cs.map Prod.fst).Nodup) (h : ∀ e ∈ cs, 0 ≤ e.2 ∧ ∃ x, v.collateralBalances.get e.1 = some x ∧ e.2 ≤ x) :
    Errs arith (v.withdrawCollateral env cs .toZero) := by
  have hsame : v.collateralBalances = v.comp.collateralBalances := hinv.same
  have hv : ∀ e ∈ cs, 0 ≤ e.2 ∧ e.2 ≤ (v.comp.collateral.get e.1).getD 0 := by
    intro e he
    obtain ⟨h0, x, hx, hle⟩ := h e he
    refine ⟨h0, ?_⟩
    have := hinv.vault e.1
    simp only [VAccount.collPart] at this
    rw [← hsame, hx] at this
    rw [← this]; exact hle
  obtain ⟨m', bs, hb, hr⟩ := vaultTakeBatch_succeeds (env := env) hn hv
  unfold VAccount.withdrawCollateral
  refine errs_bind (errs_of_ok ⟨_, hb⟩) (fun r hr' => ?_)
  rw [hb] at hr'; cases hr'
  have hb' : ∀ b ∈ bs, ∃ x, v.collateralBalances.get b.res = some x := by
    intro b hb
    have : b.res ∈ bs.map Bucket.res := List.mem_map.mpr ⟨b, hb, rfl⟩
    rw [hr] at this
    obtain ⟨e, he, hee⟩ := List.mem_map.mp this
    obtain ⟨-, x, hx, -⟩ := h e he
    exact ⟨x, hee ▸ hx⟩
  refine errs_bind (balanceSubBatch_errs (by rw [hr]; exact hn) (by rw [← hsame]; exact hb')) (fun _ _ => ?_)
  exact errs_bind (balanceSubBatch_errs (by rw [hr]; exact hn) hb') (fun _ _ => errs_pure _)

/-! ## Liquidation -/

theorem liquidateOne_has {c : Ctx} {rb : Dec} {t t' : VPool × LiqTotals} {e : PairId × AccountPosition} {ids : List PairId}
    (h : liquidateOne c rb t e = Except.ok t') (h0 : t.1.Has ids) : t'.1.Has ids := by
  obtain ⟨_, _, _, -, -, -, hp, -⟩ := liquidateOne_ok h
  rw [hp]; exact h0.set rfl

theorem liquidatePositions_errs {c : Ctx} {w : W} {ids : List PairId} (h : c.Ready ids) (hh : w.pool.Has ids)
    (hids : ∀ p ∈ w.acc.positions.keys, p ∈ ids) : Errs arith (liquidatePositions c w) := by
  unfold liquidatePositions
  refine errs_bind (feeRebate_errs _) (fun rb _ => ?_)
  refine errs_bind ?_ (fun p1 hp1 => ?_)
  · refine errs_foldlM (fun pool => pool.Has ids) hh (fun p hp pool hpool => ⟨?_, ?_⟩)
    · exact errs_bind (updatePair_errs h hpool (hids p hp)) (fun _ _ => errs_pure _)
    · intro pool' hpool'
      simp only [bind_ok, pure_ok] at hpool'
      obtain ⟨⟨q, b⟩, hq, rfl⟩ := hpool'
      exact updatePair_has hq hpool
  have h1 : p1.Has ids := by
    refine foldlM_inv (fun pool => pool.Has ids) hh (fun p hp pool pool' hpool hpool' => ?_) hp1
    simp only [bind_ok, pure_ok] at hpool'
    obtain ⟨⟨q, b⟩, hq, rfl⟩ := hpool'
    exact updatePair_has hq hpool
  refine errs_bind ?_ (fun r hr => ?_)
  · refine errs_foldlM (fun t => t.1.Has ids) h1 (fun e he t ht => ⟨?_, fun t' ht' => liquidateOne_has ht' ht⟩)
    have hp : e.1 ∈ ids := hids _ (AMap.mem_keys.mpr ⟨_, AMap.get_mem he⟩)
    unfold liquidateOne
    errs
    · exact cfgPair_errs h hp
    · exact orcPrice_errs h hp
    · exact poolPosition_errs ht hp
    · exact calculateFee_errs _ _ _ _ _ _
    · exact positionFunding_errs _ _
    · unfold liqPool liqSide; errs
  have h2 : r.1.Has ids :=
    foldlM_inv (fun t : VPool × LiqTotals => t.1.Has ids) (b := (p1, ⟨0, 0, 0, 0⟩)) h1
      (fun e he t t' ht ht' => liquidateOne_has ht' ht) hr
  simp only
  refine errs_bind (errs_dneg (by decide) _) (fun _ _ => ?_)
  refine errs_bind (addUnreal_errs _ _) (fun p3 hp3 => ?_)
  have h3 : p3.Has ids := by rw [VPool.addUnreal_ok hp3]; exact h2
  refine errs_bind ?_ (fun _ _ => errs_pure _)
  exact errs_foldlM (fun pool => pool.Has ids) h3 (fun p hp pool hpool =>
    ⟨updatePairSnaps_errs h hpool (hids p hp), fun _ hq => updatePairSnaps_has hq hpool⟩)

theorem liquidateCollateral_errs {c : Ctx} {a : VAccount} {ids : List PairId} (h : c.Ready ids) :
    Errs arith (liquidateCollateral c a) := by
  unfold liquidateCollateral
  refine errs_foldlM' (fun e he t => ?_)
  unfold liquidateCollateralOne
  split
  · rename_i cc hcc
    errs
    exact errs_of_ok (h.coll _ _ hcc)
  · exact errs_pure _

/-- Reasons for which a liquidation can fail once it is loaded. -/
abbrev liquidationErrs : List Err := [.invalidPaymentToken, .sufficientMargin, .insufficientPayment, .arithmetic]

theorem liquidate_errs {c : Ctx} {w : W} {b : Bucket} {ids : List PairId} (h : c.Ready ids) (hf : c.Feeds)
    (hh : w.pool.Has ids) (hids : ∀ p ∈ w.acc.positions.keys, p ∈ ids) (hcoll : CollInv c.env w.acc.collPart)
    (hprice : ∀ p x, c.orc.prices.get p = some x → 0 < x) (hdisc : ∀ r cc, c.cfg.colls.get r = some cc → 0 ≤ cc.discount) :
    Errs liquidationErrs (liquidate c w b) := by
  unfold liquidate
  refine errs_bind (errs_require (by decide)) (fun _ _ => ?_)
  refine errs_bind ((liquidatePositions_errs h hh hids).of_arith (by decide)) (fun x hx => ?_)
  obtain ⟨w1, lp⟩ := x
  obtain ⟨p1, p2, p3, -, -, -, rfl⟩ := liquidatePositions_ok hx
  refine errs_bind ((liquidateCollateral_errs h).of_arith (by decide)) (fun lc hlc => ?_)
  obtain ⟨c1, -, c3, c4⟩ := liquidateCollateral_ok hf p1 hlc
  simp only
  refine errs_bind (errs_dadd (by decide) _ _) (fun _ _ => ?_)
  refine errs_bind (errs_dadd (by decide) _ _) (fun _ _ => ?_)
  refine errs_bind (errs_dadd (by decide) _ _) (fun _ _ => ?_)
  refine errs_bind (errs_require (by decide)) (fun _ _ => ?_)
  refine errs_bind (errs_require (by decide)) (fun _ hpay => ?_)
  rw [require_ok, decide_eq_true_eq] at hpay
  have hbal : ∀ r x, w.acc.collateralBalances.get r = some x → 0 ≤ x := by
    intro r x hx
    have e : w.acc.collateralBalances = w.acc.comp.collateralBalances := hcoll.same
    exact hcoll.nonneg r x (by rw [e] at hx; exact hx)
  refine errs_bind (Errs.of_arith (l := liquidationErrs) (withdrawCollateral_errs (v := w.acc.noPositions) (show CollInv c.env w.acc.noPositions.collPart from hcoll)
    (cs := lc.amounts) ?_ ?_) (by decide)) (fun y hy => ?_)
  · rw [c3]
    exact (w.acc.collateralBalances.nodup).sublist (List.filter_sublist.map _)
  · intro e he
    rw [c3] at he
    have hg : w.acc.collateralBalances.get e.1 = some e.2 := AMap.get_mem (List.mem_of_mem_filter he)
    exact ⟨hbal _ _ hg, e.2, hg, le_refl _⟩
  obtain ⟨acc2, bs⟩ := y
  have hnn : 0 ≤ lc.valueDiscounted := by
    rw [c1]
    refine AMap.sum_nonneg (fun r x hx => ?_)
    unfold Market.collValue
    cases hcc : (c.market p1).coll r with
    | none => exact le_refl _
    | some cc =>
      have hcc' : c.cfg.colls.get r = some cc := hcc
      obtain ⟨y, hy⟩ := c4 r x cc hx hcc'
      refine mulT_nonneg (mulT_nonneg (hbal r x hx) ?_) (hdisc r cc hcc')
      have : (c.market p1).price cc.pairId = y := by
        change (c.orc.prices.get cc.pairId).getD 0 = y
        rw [hy]; rfl
      rw [this]; exact (hprice _ _ hy).le
  refine errs_bind (errs_of_ok ⟨amountFor (c.env.gran BASE) lc.valueDiscounted .toInfinity, ?_⟩) (fun taken _ => ?_)
  · rw [takeAmount_ok]
    refine ⟨rfl, ?_, ?_, hpay⟩
    · have := (amountFor_up (c.env.gran_pos BASE) lc.valueDiscounted).1
      exact le_trans hnn this
    · unfold amountFor; simp only; exact Int.mul_emod_left _ _
  refine errs_bind ((deposit_errs _ _).of_arith (by decide)) (fun _ _ => ?_)
  refine errs_bind (errs_dadd (by decide) _ _) (fun _ _ => ?_)
  refine errs_bind ((settleAccount_errs _ _).of_arith (by decide)) (fun _ _ => ?_)
  refine errs_bind ?_ (fun _ _ => ?_)
  · unfold writeOff; errs; exact (settleAccount_errs _ _).of_arith (by decide)
  refine errs_bind ((settleFeesReferral_errs _ _ _).of_arith (by decide)) (fun _ _ => ?_)
  simp only
  exact errs_bind (errs_dneg (by decide) _) (fun _ _ => errs_pure _)

end Perp
