import Verif.OrderG

/-!
# Iteration order (C62): the ledger state, loading and storing
-/

namespace Perp

/-- Two oracles with the same content. -/
structure Oracle.Same (o o' : Oracle) : Prop where
  keys : o.keys.Same o'.keys
  prices : o.prices.Same o'.prices

/-- Two stored configurations with the same content. -/
structure Config.Same (c c' : Config) : Prop where
  exchange : c.exchange = c'.exchange
  pairs : c.pairs.Same c'.pairs
  collaterals : c.collaterals.Same c'.collaterals

/-- Two ledger states with the same content, in whatever order their maps are stored. -/
structure State.Same (s s' : State) : Prop where
  now : s.now = s'.now
  authority : s.authority = s'.authority
  roles : s.roles = s'.roles
  oracleOwner : s.oracleOwner = s'.oracleOwner
  delegatorOwner : s.delegatorOwner = s'.delegatorOwner
  oracle : s.oracle.Same s'.oracle
  config : s.config.Same s'.config
  accounts : s.accounts.Rel Account.Same s'.accounts
  pool : s.pool.Same s'.pool
  referrals : s.referrals.Same s'.referrals
  refgen : s.refgen.Same s'.refgen
  dist : s.dist = s'.dist
  delegator : s.delegator = s'.delegator
  perms : s.perms.Same s'.perms
  lpSupply : s.lpSupply = s'.lpSupply
  oathSupply : s.oathSupply = s'.oathSupply
  rewardSupply : s.rewardSupply = s'.rewardSupply
  recoveryKeys : s.recoveryKeys = s'.recoveryKeys

/-- The same event up to the order of the tokens and collaterals it lists. -/
inductive Ev.Same : Ev → Ev → Prop where
  | same (e : Ev) : Ev.Same e e
  | withdrawal (a : Addr) {l l' : List Bucket} : l.Perm l' → Ev.Same (.removeCollateral a l) (.removeCollateral a l')
  | liquidation {e e' : LiquidateEv} : e.canon = e'.canon → Ev.Same (.liquidate e) (.liquidate e')

/-- The same outcome up to the order of what is returned. -/
structure Out.Same (o o' : Out) : Prop where
  buckets : o.buckets.Perm o'.buckets
  paid : o.paid.Perm o'.paid
  burnt : o.burnt = o'.burnt
  reward : o.reward = o'.reward
  indexes : o.indexes = o'.indexes
  flags : o.flags.Perm o'.flags
  ev : o.ev.Same o'.ev

theorem Out.Same.refl (o : Out) : o.Same o := ⟨.refl _, .refl _, rfl, rfl, rfl, .refl _, .same _⟩

/-- The same call up to the order of what it passes as a map, a set, or a list of requests. -/
inductive Op.Same : Op → Op → Prop where
  | same (op : Op) : Op.Same op op
  | codes (id : RefId) (t : List Bucket) {h h' : AMap Hash (List (Res × Dec) × Nat)} : h.Same h' →
      Op.Same (.createReferralCodes id t h) (.createReferralCodes id t h')
  | codesFrom (id : RefId) (i : Nat) {h h' : List Hash} : (∀ x, x ∈ h ↔ x ∈ h') →
      Op.Same (.createReferralCodesFromAllocation id i h) (.createReferralCodesFromAllocation id i h')
  | pairs {l l' : List PairId} (u : Option PriceUpdate) : (∀ x, x ∈ l ↔ x ∈ l') →
      Op.Same (.updatePairs l u) (.updatePairs l' u)
  | cancel (o : Option Bucket) (a : Addr) {l l' : List Nat} : l.Perm l' →
      Op.Same (.cancelRequests o a l) (.cancelRequests o a l')
  | withdraw (o : Option Bucket) (e : Nat) (a t : Addr) {c c' : List (Res × Dec)} : c.Perm c' →
      Op.Same (.removeCollateralRequest o e a t c) (.removeCollateralRequest o e a t c')
  | order (o : Option Bucket) (a : Addr) (x : OrderArgs) {p p' q q' : List RequestIndexRef} (st : Status) :
      p.Perm p' → q.Perm q' → Op.Same (.marginOrderRequest o a x p q st) (.marginOrderRequest o a x p' q' st)

/-! ## Configuration and prices -/

theorem Config.Same.pair {c c' : Config} (h : c.Same c') (p : PairId) : c.pair p = c'.pair p := by
  unfold Config.pair; rw [h.pairs p]

theorem VConfig.new_agree {c c' : Config} (h : c.Same c') {ids ids' : List PairId} (hi : ∀ p, p ∈ ids ↔ p ∈ ids') :
    Agree VConfig.Same (VConfig.new c ids) (VConfig.new c' ids') := by
  unfold VConfig.new
  refine Agree.bind (AMap.buildM_agree hi fun p _ => h.pair p) fun m m' _ _ hm => ?_
  exact Agree.pure ⟨by rw [h.exchange], hm, h.collaterals.mapV _⟩

theorem pairFeeds_agree {c c' : VConfig} (h : c.Same c') {ids ids' : List PairId} (hi : ∀ p, p ∈ ids ↔ p ∈ ids') :
    Agree AMap.Same (pairFeeds c ids) (pairFeeds c' ids') := by
  unfold pairFeeds
  exact AMap.buildM_agree hi fun p _ => by rw [h.pair p]

theorem pairFeedsNoMaxAge_same {ids ids' : List PairId} (hi : ∀ p, p ∈ ids ↔ p ∈ ids') :
    (pairFeedsNoMaxAge ids).Same (pairFeedsNoMaxAge ids') := AMap.build_same hi fun _ _ => rfl

theorem mergeFeed_slots (m : AMap PairId Int) (e : Res × CollateralConfig) :
    (mergeFeed m e).get = Function.update m.get e.2.pairId
      (some (match m.get e.2.pairId with | some a => min a e.2.priceAgeMax | none => e.2.priceAgeMax)) := by
  unfold mergeFeed
  cases hg : m.get e.2.pairId with
  | none => simp only [get_set_update]
  | some a =>
    simp only
    split
    · rw [get_set_update, min_eq_right (by omega)]
    · rw [min_eq_left (by omega), ← hg, Function.update_eq_self]

theorem mergeFeeds_same {m m' : AMap PairId Int} (hm : m.Same m') {c c' : AMap Res CollateralConfig} (hc : c.Same c') :
    (mergeFeeds m c).Same (mergeFeeds m' c') := by
  let ψ : (PairId → Option Int) → Res × CollateralConfig → PairId → Option Int := fun f e =>
    Function.update f e.2.pairId (some (match f e.2.pairId with | some a => min a e.2.priceAgeMax | none => e.2.priceAgeMax))
  have sim : ∀ (l : List (Res × CollateralConfig)) (m : AMap PairId Int), (l.foldl mergeFeed m).get = l.foldl ψ m.get := by
    intro l
    induction l with
    | nil => intro m; rfl
    | cons e l ih => intro m; rw [List.foldl_cons, List.foldl_cons, ih, mergeFeed_slots]
  intro k
  unfold mergeFeeds
  rw [sim, sim, show m.get = m'.get from funext hm]
  refine congrFun (foldl_same hc.perm (fun x _ y _ b => ?_) _) k
  simp only [ψ]
  by_cases hxy : x.2.pairId = y.2.pairId
  · rw [hxy]
    simp only [Function.update_self, Function.update_idem]
    cases b y.2.pairId with
    | none => simp [min_comm]
    | some a => simp only [min_assoc, min_comm x.2.priceAgeMax]
  · rw [Function.update_of_ne (fun h => hxy h.symm), Function.update_of_ne hxy, Function.update_comm hxy]

theorem Oracle.pushOne_same {m m' : AMap PairId (Dec × Int)} (h : m.Same m') (p : Price) :
    (Oracle.pushOne m p).Same (Oracle.pushOne m' p) := by
  unfold Oracle.pushOne
  rw [h p.pair]
  cases m'.get p.pair with
  | none => exact h.set _ _
  | some o =>
    simp only
    split
    · exact h.set _ _
    · exact h

theorem Oracle.Same.push {o o' : Oracle} (h : o.Same o') (env : Env) (u : PriceUpdate) :
    Agree Oracle.Same (o.push env u) (o'.push env u) := by
  unfold Oracle.push
  rw [h.keys u.keyId]
  refine Agree.bind_same fun k _ => Agree.require rfl fun _ => Agree.pure ⟨h.keys, ?_⟩
  have : ∀ (l : List Price) {m m' : AMap PairId (Dec × Int)}, m.Same m' →
      (l.foldl Oracle.pushOne m).Same (l.foldl Oracle.pushOne m') := by
    intro l
    induction l with
    | nil => intro m m' h; exact h
    | cons p l ih => intro m m' h; exact ih (Oracle.pushOne_same h p)
  exact this u.prices h.prices

theorem Oracle.Same.maybePush {o o' : Oracle} (h : o.Same o') (env : Env) (u : Option PriceUpdate) :
    Agree Oracle.Same (o.maybePush env u) (o'.maybePush env u) := by
  unfold Oracle.maybePush
  cases u with
  | none => exact Agree.pure h
  | some u => exact h.push env u

theorem VOracle.new_agree (env : Env) (now : Int) {o o' : Oracle} (ho : o.Same o') {c c' : AMap Res CollateralConfig}
    (hc : c.Same c') {f f' : AMap PairId Int} (hf : f.Same f') (u : Option PriceUpdate) :
    Agree (fun x x' => x.1.Same x'.1 ∧ x.2.prices.Same x'.2.prices ∧ x.2.resMap.Same x'.2.resMap)
      (VOracle.new env now o c f u) (VOracle.new env now o' c' f' u) := by
  unfold VOracle.new
  have hm := mergeFeeds_same hf hc
  have hk : ∀ p, p ∈ (mergeFeeds f c).keys ↔ p ∈ (mergeFeeds f' c').keys := fun p => hm.keys.mem_iff
  refine Agree.bind (ho.maybePush env u) fun x x' _ _ hx => ?_
  refine Agree.bind (AMap.buildM_agree hk fun p _ => by rw [hx.prices p]) fun r r' _ _ hr => ?_
  refine Agree.bind (AMap.buildM_agree hk fun p _ => ?_) fun q q' _ _ hq => Agree.pure ⟨hx, hq, hc.mapV _⟩
  unfold checkPrice
  rw [hr p, hm p]

/-! ## Loading -/

theorem VPool.new_same {p p' : Pool} (h : p.Same p') (now : Int) {ids ids' : List PairId} (hi : ∀ q, q ∈ ids ↔ q ∈ ids') :
    (VPool.new p now ids).Same (VPool.new p' now ids') := by
  refine ⟨h.baseTokens, fun q _ => h.positions q, AMap.build_same hi fun q _ => ?_, rfl, h.baseTokens, h.vb, h.unrealizedFunding, h.skewAbsSnap, h.pnlSnap⟩
  unfold Pool.position
  rw [h.positions q]

theorem State.Same.load {s s' : State} (h : s.Same s') (a : Addr) : Agree VAccount.Same (s.load a) (s'.load a) := by
  unfold State.load VAccount.new
  refine Agree.expect (h.accounts a) fun x x' _ _ hx => ?_
  have : loadReferral s.referrals x.referralId = loadReferral s'.referrals x'.referralId := by
    unfold loadReferral
    rw [hx.referralId]
    cases x'.referralId with
    | none => rfl
    | some r => simp only [h.referrals r]
  rw [this]
  refine Agree.bind_same fun d _ => Agree.pure ⟨rfl, hx, hx.positions, hx.collateralBalances, hx.vb, hx.validStart, ?_, ?_,
    rfl, rfl, fun _ => rfl, rfl, rfl, hx.referralId, rfl, rfl⟩
  · simpa using congrArg List.length hx.requests
  · rw [hx.active]

theorem oathLoad_agree (env : Env) {s s' : State} (h : s.Same s') {ids ids' : List PairId} (hi : ∀ q, q ∈ ids ↔ q ∈ ids') :
    Agree (fun x x' => x.1.Same x'.1 ∧ x.2.Same x'.2) (oathLoad env s ids) (oathLoad env s' ids') := by
  unfold oathLoad
  rw [h.now]
  refine Agree.bind (VConfig.new_agree h.config hi) fun c c' _ _ hc => ?_
  refine Agree.bind (VOracle.new_agree env _ h.oracle hc.colls (pairFeedsNoMaxAge_same hi) none) fun o o' _ _ ho => ?_
  exact Agree.pure ⟨⟨rfl, rfl, hc, ho.2.1, ho.2.2⟩, VPool.new_same h.pool _ hi⟩

theorem keeperLoad_agree (env : Env) {s s' : State} (h : s.Same s') {ids ids' : List PairId} (hi : ∀ q, q ∈ ids ↔ q ∈ ids')
    (u : Option PriceUpdate) :
    Agree (fun x x' => x.1.Same x'.1 ∧ x.2.1.Same x'.2.1 ∧ x.2.2.Same x'.2.2) (keeperLoad env s ids u)
      (keeperLoad env s' ids' u) := by
  unfold keeperLoad
  rw [h.now]
  refine Agree.bind (VConfig.new_agree h.config hi) fun c c' _ _ hc => ?_
  refine Agree.bind (pairFeeds_agree hc hi) fun f f' _ _ hf => ?_
  refine Agree.bind (VOracle.new_agree env _ h.oracle hc.colls hf u) fun o o' _ _ ho => ?_
  exact Agree.pure ⟨{ h with oracle := ho.1, now := rfl }, ⟨rfl, rfl, hc, ho.2.1, ho.2.2⟩, VPool.new_same h.pool _ hi⟩

theorem okBucket_same (env : Env) {s s' : State} (h : s.Same s') : okBucket env s = okBucket env s' := by
  funext b
  unfold okBucket
  rw [h.lpSupply, h.oathSupply]

theorem State.Same.burnOath {s s' : State} (h : s.Same s') (env : Env) (b : Bucket) :
    Agree State.Same (s.burnOath env b) (s'.burnOath env b) := by
  unfold State.burnOath
  rw [okBucket_same env h]
  exact Agree.require rfl fun _ => Agree.pure { h with oathSupply := by simp only [h.oathSupply] }

theorem payOath_agree (env : Env) {s s' : State} (h : s.Same s') {v v' : VAccount} (hv : v.Same v') (oath : Option Bucket)
    {ids ids' : List PairId} (hi : ∀ q, q ∈ ids ↔ q ∈ ids') (plain : List PairId) :
    Agree (fun x x' => x.1.Same x'.1 ∧ x.2.1.Same x'.2.1 ∧ x.2.2.Same x'.2.2) (payOath env s v oath ids plain)
      (payOath env s' v' oath ids' plain) := by
  unfold payOath
  cases oath with
  | none => exact Agree.bind (VConfig.new_agree h.config fun _ => Iff.rfl) fun c c' _ _ hc => Agree.pure ⟨h, hv, hc⟩
  | some b =>
    refine Agree.bind (oathLoad_agree env h hi) fun x x' _ _ hx => ?_
    refine Agree.bind (settleFeeOath_agree hx.1 hx.2 hv b) fun y y' _ _ hy => ?_
    exact Agree.bind (h.burnOath env b) fun t t' _ _ ht => Agree.pure ⟨ht, hy, hx.1.cfg⟩

/-! ## Storing -/

theorem State.Same.commit {s s' : State} (h : s.Same s') {w w' : W} (hw : w.Same w') :
    Agree State.Same (s.commit w) (s'.commit w') := by
  unfold State.commit
  refine Agree.bind hw.acc.realize fun a a' _ _ ha => Agree.bind (hw.acc.realizeReferral h.referrals) fun r r' _ _ hr => ?_
  rw [hw.acc.addr, hw.dist]
  exact Agree.pure { h with pool := hw.pool.realize, accounts := h.accounts.set _ ha, referrals := hr, dist := rfl }

theorem State.Same.commitAcc {s s' : State} (h : s.Same s') {v v' : VAccount} (hv : v.Same v') :
    Agree State.Same (s.commitAcc v) (s'.commitAcc v') := by
  unfold State.commitAcc
  refine Agree.bind hv.realize fun a a' _ _ ha => Agree.bind (hv.realizeReferral h.referrals) fun r r' _ _ hr => ?_
  rw [hv.addr]
  exact Agree.pure { h with accounts := h.accounts.set _ ha, referrals := hr }

theorem State.Same.mintReward {s s' : State} (h : s.Same s') (env : Env) (x : Dec) :
    Agree State.Same (s.mintReward env x) (s'.mintReward env x) := by
  unfold State.mintReward
  rw [h.rewardSupply]
  exact Agree.bind_same fun _ _ => Agree.bind_same fun _ _ => Agree.pure { h with rewardSupply := rfl }

/-! ## Rules -/

theorem permsModify_same (f : Permissions → Permissions) {m m' : AMap Rule Permissions} (h : m.Same m') (r : Rule) :
    (permsModify f m r).Same (permsModify f m' r) := by
  unfold permsModify permsOf
  rw [h.getD]
  exact h.set _ _

theorem permsFold_same (f : Permissions → Permissions) : ∀ (l : List Rule) {m m' : AMap Rule Permissions}, m.Same m' →
    (l.foldl (permsModify f) m).Same (l.foldl (permsModify f) m') := by
  intro l
  induction l with
  | nil => intro m m' h; exact h
  | cons r l ih => intro m m' h; exact ih (permsModify_same f h r)

theorem Account.Same.rule {a a' : Account} (h : a.Same a') (l : Level) : a.rule l = a'.rule l := by
  cases l
  · exact h.level1
  · exact h.level2
  · exact h.level3

theorem Account.Same.setRule {a a' : Account} (h : a.Same a') (l : Level) (r : Rule) : (a.setRule l r).Same (a'.setRule l r) := by
  cases l
  · exact { h with level1 := rfl }
  · exact { h with level2 := rfl }
  · exact { h with level3 := rfl }

theorem setAuth_same {m m' : AMap Rule Permissions} (h : m.Same m') {v v' : VAccount} (hv : v.Same v') (l : Level) (r : Rule) :
    (setAuth m v l r).1.Same (setAuth m' v' l r).1 ∧ (setAuth m v l r).2.Same (setAuth m' v' l r).2 := by
  unfold setAuth
  refine ⟨?_, { hv with comp := hv.comp.setRule l r }⟩
  simp only [hv.addr, hv.comp.rule l]
  exact permsFold_same _ _ (permsModify_same _ (permsFold_same _ _ (permsModify_same _ h _)) _)

theorem verifyLevel_same (cl : Caller) {v v' : VAccount} (hv : v.Same v') (l : Level) : verifyLevel cl v l = verifyLevel cl v' l := by
  unfold verifyLevel; rw [hv.comp.rule l]

theorem VAccount.Same.positionIds {v v' : VAccount} (hv : v.Same v') (p : PairId) : p ∈ v.positionIds ↔ p ∈ v'.positionIds :=
  hv.positions.keys.mem_iff

theorem insertId_same {l l' : List PairId} (h : ∀ q, q ∈ l ↔ q ∈ l') (p q : PairId) : q ∈ insertId l p ↔ q ∈ insertId l' p := by
  have : ∀ l : List PairId, q ∈ insertId l p ↔ q ∈ l ∨ q = p := by
    intro l
    unfold insertId
    split
    · next hp => exact ⟨.inl, fun h => h.elim id fun e => e ▸ hp⟩
    · simp
  rw [this, this, h]

end Perp
