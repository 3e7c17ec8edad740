import Verif.Errs
import Verif.ReqProps

/-!
# Why a call can fail (C53)

The keeper methods, the settlement of expired requests and the payouts fail only for the reasons listed; the internal errors
of the code (an object that was not loaded, an index out of bounds, a missing referral) do not occur in reachable states.
-/

namespace Perp

/-! ## Loads -/

/-- Reasons for which the prices a keeper method needs can be refused. -/
abbrev oracleErrs : List Err := [.badKey, .badSignature, .missingPair, .invalidPrice, .priceTooOld, .arithmetic]

theorem VOracle.new_errs (env : Env) (now : Int) (o : Oracle) (colls : AMap Res CollateralConfig) (pf : AMap PairId Int)
    (u : Option PriceUpdate) : Errs oracleErrs (VOracle.new env now o colls pf u) := by
  unfold VOracle.new
  refine errs_bind ?_ (fun _ _ => errs_bind ?_ (fun _ _ => errs_bind ?_ (fun _ _ => errs_pure _)))
  · cases u with
    | none => exact errs_pure _
    | some u =>
      refine errs_bind (errs_expect (by decide)) (fun _ _ => errs_bind (errs_require (by decide)) (fun _ _ => errs_pure _))
  · exact errs_buildM (fun _ _ => errs_expect (by decide))
  · refine errs_buildM (fun _ _ => ?_)
    unfold checkPrice
    refine errs_bind (errs_expect (by decide)) (fun _ _ => errs_bind (errs_expect (by decide)) (fun _ _ => ?_))
    refine errs_bind (errs_addSeconds (by decide) _ _) (fun _ _ => errs_bind (errs_require (by decide)) (fun _ _ => ?_))
    exact errs_bind (errs_require (by decide)) (fun _ _ => errs_pure _)

theorem pairFeeds_total {cfg : VConfig} {ids : List PairId} (h : ∀ p ∈ ids, ∃ x, cfg.pairs.get p = some x) :
    ∃ f, pairFeeds cfg ids = Except.ok f := by
  have : Errs [] (pairFeeds cfg ids) := by
    refine errs_buildM (fun p hp => errs_bind ?_ (fun _ _ => errs_pure _))
    exact errs_expect_some (h p hp)
  cases hx : pairFeeds cfg ids with
  | ok f => exact ⟨f, rfl⟩
  | error e => exact absurd (this e hx) (by simp)

theorem keeperLoad_errs {env : Env} {s : State} {ids : List PairId} {u : Option PriceUpdate}
    (h : ∀ p ∈ ids, ∃ x, s.config.pairs.get p = some x) : Errs oracleErrs (keeperLoad env s ids u) := by
  unfold keeperLoad
  refine errs_bind (errs_of_ok (VConfig.new_total h)) (fun cfg hcfg => ?_)
  refine errs_bind (errs_of_ok (pairFeeds_total (fun p hp => ?_))) (fun _ _ => ?_)
  · obtain ⟨x, -, hx⟩ := (VConfig.new_ok hcfg).2.2.1 p hp
    exact ⟨_, hx⟩
  exact errs_bind (VOracle.new_errs _ _ _ _ _ _) (fun _ _ => errs_pure _)

theorem keeperLoad_ready {env : Env} {s s1 : State} {ids : List PairId} {u : Option PriceUpdate} {c : Ctx} {pool : VPool}
    (h : keeperLoad env s ids u = Except.ok (s1, c, pool)) : c.Ready ids ∧ pool.Has ids := by
  obtain ⟨-, h1, h2⟩ := keeperLoad_prices h
  obtain ⟨-, -, hcfg, -, -, rfl, -⟩ := keeperLoad_ok h
  obtain ⟨-, hcolls, hpairs, -⟩ := VConfig.new_ok hcfg
  refine ⟨⟨fun p hp => ?_, fun p hp => ?_, fun r cc hr => ?_⟩, fun p hp => ?_⟩
  · obtain ⟨x, -, hx⟩ := hpairs p hp; exact ⟨_, hx⟩
  · obtain ⟨x, hx, -⟩ := h1 p hp; exact ⟨x, hx⟩
  · rw [hcolls, AMap.get_mapV] at hr
    cases hg : s.config.collaterals.get r with
    | none => rw [hg] at hr; cases hr
    | some x =>
      obtain ⟨y, hy, -⟩ := h2 r x hg
      exact ⟨y, hy⟩
  · change ∃ pp, (AMap.build (s.pool.position s.now) ids).get p = some pp
    rw [AMap.get_build, if_pos hp]; exact ⟨_, rfl⟩

theorem load_errs {env : Env} {s : State} (h : Reach env s) (a : Addr) : Errs [.invalidMarginAccount] (s.load a) := by
  cases ha : s.accounts.get a with
  | some acc => exact errs_of_ok (State.load_total h ha)
  | none =>
    intro e he
    simp only [State.load, VAccount.new, ha, expect, bind, Except.bind] at he
    cases he; simp

/-! ## Writing back -/

theorem realize_total {v : VAccount} (h : RInv v) : ∃ acc, v.realize = Except.ok acc := by
  have key : ∀ (es : List (Nat × KeeperRequest)) (l : List KeeperRequest), (∀ e ∈ es, e.1 < l.length) →
      ∃ l', es.foldlM requestUpdate l = Except.ok l' := by
    intro es
    induction es with
    | nil => intro l _; exact ⟨l, rfl⟩
    | cons e es ih =>
      intro l hl
      obtain ⟨l', hl'⟩ := ih (l.set e.1 e.2) (fun e' he' => by rw [List.length_set]; exact hl e' (by simp [he']))
      refine ⟨l', ?_⟩
      rw [List.foldlM_cons]
      simp only [requestUpdate, require, decide_eq_true (hl e (by simp)), if_true, bind, Except.bind, pure, Except.pure]
      exact hl'
  obtain ⟨l', hl'⟩ := key v.requestUpdates.entries (v.comp.requests ++ v.requestAdditions) (fun e he => by
    have := h.upd e.1 e.2 (AMap.get_mem he)
    rw [h.len] at this
    rw [List.length_append]; omega)
  unfold VAccount.realize
  rw [hl']
  exact ⟨_, rfl⟩

theorem realizeReferral_total {refs : AMap RefId ReferralData} {v : VAccount} (h : RefOk refs v) :
    ∃ refs', v.realizeReferral refs = Except.ok refs' := by
  unfold VAccount.realizeReferral
  rcases h with ⟨-, -, h⟩ | ⟨r, d, d0, h1, h2, h3, -⟩
  · rw [h]; exact ⟨_, rfl⟩
  · split
    · simp only [h1, h2, h3, expect, bind, Except.bind]; exact ⟨_, rfl⟩
    · exact ⟨_, rfl⟩

theorem commit_total {s : State} {w : W} (h1 : RInv w.acc) (h2 : RefOk s.referrals w.acc) : ∃ s', s.commit w = Except.ok s' := by
  obtain ⟨acc, ha⟩ := realize_total h1
  obtain ⟨refs, hr⟩ := realizeReferral_total h2
  unfold State.commit
  rw [ha, hr]; exact ⟨_, rfl⟩

theorem commitAcc_total {s : State} {v : VAccount} (h1 : RInv v) (h2 : RefOk s.referrals v) :
    ∃ s', s.commitAcc v = Except.ok s' := by
  obtain ⟨acc, ha⟩ := realize_total h1
  obtain ⟨refs, hr⟩ := realizeReferral_total h2
  unfold State.commitAcc
  rw [ha, hr]; exact ⟨_, rfl⟩

/-- The keeper rewards — the configured amount, and the unit that `update_pairs` pays — are amounts the reward token can
represent. -/
structure State.RewardWhole (env : Env) (s : State) : Prop where
  reward : s.config.exchange.decompress.rewardKeeper % (env.gran KEEPER_REWARD : Int) = 0
  unit : ONE % (env.gran KEEPER_REWARD : Int) = 0

theorem mintReward_errs {env : Env} {s : State} {x : Dec} (h0 : 0 ≤ x) (h1 : x % (env.gran KEEPER_REWARD : Int) = 0) :
    Errs arith (s.mintReward env x) := by
  unfold State.mintReward
  refine errs_bind ?_ (fun _ _ => errs_bind (errs_dadd (by decide) _ _) (fun _ _ => errs_pure _))
  unfold mintAmount
  rw [if_pos ⟨h0, h1⟩]
  split
  · exact errs_pure _
  · intro e he; cases he; decide

/-! ## Keeper methods -/

theorem loaded_ids {env : Env} {s : State} (h : Reach env s) {a : Addr} {v : VAccount} (hv : s.load a = Except.ok v) :
    ∀ p ∈ v.positionIds, ∃ x, s.config.pairs.get p = some x := by
  obtain ⟨acc, rd, ha, -, rfl⟩ := load_ok hv
  intro p hp
  obtain ⟨pos, hpos⟩ := AMap.mem_keys.mp hp
  exact (reach_resolves h).position a acc p pos ha hpos

theorem keeper_commit {s s1 : State} {env : Env} {ids : List PairId} {u : Option PriceUpdate} {c : Ctx} {pool : VPool} {w : W}
    (hk : keeperLoad env s ids u = Except.ok (s1, c, pool)) (h1 : RInv w.acc) (h2 : RefOk s.referrals w.acc) :
    ∃ s', s1.commit w = Except.ok s' := by
  refine commit_total h1 ?_
  rw [(keeperLoad_ok hk).2.2.2.2.2.2]; exact h2

theorem keeper_mint {env : Env} {s : State} (h : Reach env s) (hw : s.RewardWhole env) {ids : List PairId} {c : VConfig}
    (hc : VConfig.new s.config ids = Except.ok c) (s2 : State) : Errs arith (s2.mintReward env c.ex.rewardKeeper) := by
  rw [(VConfig.new_ok hc).1]
  exact mintReward_errs (c46_exchange_in_force h).2.2.2.2.2.2.2.2.2.2.2.2.2.2.2 hw.reward

/-- Errors of the part of `liquidate` before the account is judged. -/
theorem liquidate_body_errs {env : Env} {s : State} (h : Reach env s) (hw : s.RewardWhole env) (a : Addr) (b : Bucket)
    (u : Option PriceUpdate) {l : List Err} (hl : ∀ e ∈ liquidationErrs, e ∈ l)
    (hb : Errs l (require (okBucket env s b) .badBucket)) (hv : Errs l (s.load a))
    (hk : ∀ v, s.load a = Except.ok v → Errs l (keeperLoad env s v.positionIds u)) : Errs l (opLiquidate env s a b u) := by
  unfold opLiquidate
  have har : Err.arithmetic ∈ l := hl _ (by decide)
  refine errs_bind hb (fun _ _ => errs_bind hv (fun v hv => errs_bind (hk v hv) (fun r hr => ?_)))
  obtain ⟨s1, c, pool⟩ := r
  obtain ⟨hready, hhas⟩ := keeperLoad_ready hr
  obtain ⟨henv, -, hcfg, -, ⟨feeds, hf, ho⟩, hpool, hs1⟩ := keeperLoad_ok hr
  obtain ⟨hres, -, hval⟩ := VOracle.new_ok ho
  obtain ⟨acc, rd, ha, -, hv'⟩ := load_ok hv
  have hcoll : CollInv c.env v.collPart := by
    rw [henv, hv']
    have := reach_collOk h a acc ha
    exact this
  refine errs_bind ((liquidate_errs hready hres (w := { pool, acc := v, dist := s1.dist }) hhas (fun p hp => hp) hcoll
    (fun p x hx => (hval p x hx).1) (fun r cc hr => ?_)).mono hl) (fun x hx => ?_)
  · rw [(VConfig.new_ok hcfg).2.1, AMap.get_mapV] at hr
    cases hg : s.config.collaterals.get r with
    | none => rw [hg] at hr; cases hr
    | some y =>
      rw [hg] at hr; cases hr
      have := (c46_collateral_in_force_partial h hg).1
      change 0 ≤ y.decompress.discount
      simp only [ONE] at this; omega
  obtain ⟨w, tokens, e⟩ := x
  obtain ⟨va, e1, hwa⟩ := liquidate_reqPart hx
  have hinv := updateValidStart_inv (rinv_congr e1 (load_rinv hv (reach_requestsOk h)).1)
  rw [← hwa] at hinv
  refine errs_bind (errs_of_ok (keeper_commit hr hinv (refOk_path (liquidate_path hx) (load_refOk hv)))) (fun s2 _ => ?_)
  exact errs_bind ((keeper_mint h hw hcfg s2).of_arith har) (fun _ _ => errs_pure _)

theorem adl_body_errs {env : Env} {s : State} (h : Reach env s) (hw : s.RewardWhole env) (a : Addr) (p : PairId)
    (u : Option PriceUpdate) {l : List Err} (hl : ∀ e ∈ adlErrs, e ∈ l) (hv : Errs l (s.load a))
    (hk : ∀ v, s.load a = Except.ok v → Errs l (keeperLoad env s (insertId v.positionIds p) u)) :
    Errs l (opAutoDeleverage env s a p u) := by
  unfold opAutoDeleverage
  have har : Err.arithmetic ∈ l := hl _ (by decide)
  refine errs_bind hv (fun v hv => errs_bind (hk v hv) (fun r hr => ?_))
  obtain ⟨s1, c, pool⟩ := r
  obtain ⟨hready, hhas⟩ := keeperLoad_ready hr
  obtain ⟨-, -, hcfg, -, -, -, -⟩ := keeperLoad_ok hr
  refine errs_bind ((autoDeleverage_errs hready (w := { pool, acc := v, dist := s1.dist }) hhas
    (mem_insertId.mpr (Or.inl rfl))).mono hl) (fun x hx => ?_)
  obtain ⟨w, e⟩ := x
  have hinv := rinv_congr (autoDeleverage_touches hx).reqPart (load_rinv hv (reach_requestsOk h)).1
  refine errs_bind (errs_of_ok (keeper_commit hr hinv (refOk_path (autoDeleverage_path hx) (load_refOk hv)))) (fun s2 _ => ?_)
  exact errs_bind ((keeper_mint h hw hcfg s2).of_arith har) (fun _ _ => errs_pure _)

/-- Reasons for which a withdrawal can fail once it is loaded. -/
abbrev withdrawalErrs : List Err :=
  [.insufficientBalance, .insufficientPoolTokens, .vault, .invalidAccount, .insufficientMargin, .arithmetic]

theorem removeCollateral_errs {c : Ctx} {w : W} {q : RemoveCollateralReq} {ids : List PairId} (h : c.Ready ids)
    (hh : w.pool.Has ids) (hids : ∀ p ∈ w.acc.positions.keys, p ∈ ids) : Errs withdrawalErrs (removeCollateral c w q) := by
  unfold removeCollateral
  refine errs_bind (errs_foldlM' (fun e _ m => ?_)) (fun claims _ => ?_)
  · unfold addClaim; errs
  refine errs_bind (errs_foldlM' (fun e _ t => ?_)) (fun t ht => ?_)
  · unfold claimOne
    errs
    · unfold VPool.withdraw; errs
    · exact (settleAccount_errs _ _).of_arith (by decide)
  have hkeep : t.1.pool.positions = w.pool.positions ∧ t.1.acc.positions = w.acc.positions := by
    refine foldlM_rel (P := fun a b : W × List Bucket × List (Res × Dec) =>
      b.1.pool.positions = a.1.pool.positions ∧ b.1.acc.positions = a.1.acc.positions)
      (fun _ => ⟨rfl, rfl⟩) (fun a b c h1 h2 => ⟨h2.1.trans h1.1, h2.2.trans h1.2⟩) ?_ _ ht
    intro t e t' h
    rcases claimOne_ok h with ⟨-, -, -, pool, x, w, hp, hw, rfl⟩ | ⟨-, -, rfl⟩
    · obtain ⟨-, -, rfl⟩ := VPool.withdraw_ok hp
      obtain ⟨-, -, rfl⟩ := settleAccount_ok hw
      exact ⟨rfl, rfl⟩
    · exact ⟨rfl, rfl⟩
  refine errs_bind ?_ (fun x hx => ?_)
  · unfold VAccount.withdrawCollateral balanceSubBatch balanceSub
    refine errs_bind ?_ (fun _ _ => ?_)
    · have : ∀ (cs : List (Res × Dec)) (m : AMap Res Dec), Errs withdrawalErrs (vaultTakeBatch c.env .toZero m cs) := by
        intro cs
        induction cs with
        | nil => intro m; exact errs_okc _
        | cons e cs ih =>
          intro m
          unfold vaultTakeBatch vaultTake
          errs
          exact ih _
      exact this _ _
    · refine errs_bind (errs_foldlM' (fun b _ m => ?_)) (fun _ _ => errs_bind (errs_foldlM' (fun b _ m => ?_)) (fun _ _ => errs_pure _))
      · errs
      · errs
  refine errs_bind (errs_require (by decide)) (fun _ _ => ?_)
  refine errs_bind ((assertAccountIntegrity_errs h ?_ ?_).mono (by decide)) (fun _ _ => errs_pure _)
  · unfold VPool.Has; rw [hkeep.1]; exact hh
  · have := withdrawCollateral_collOnly hx
    unfold CollOnly at this
    rw [this]; rw [← hkeep.2] at hids; exact hids

/-- Errors of recording that a request is processed. -/
abbrev processErrs : List Err := [.processBeforeStart, .missingRequest, .processNotActive, .processBeforeSubmission, .arithmetic]

theorem processRequest_virtual_errs (v : VAccount) (now : Int) (i : Nat) : Errs processErrs (v.processRequest now i) := by
  unfold VAccount.processRequest
  errs
  · exact (keeperRequest_errs v i).mono (by decide)
  · unfold processStatus; errs
  · unfold VAccount.removeActive; errs

theorem process_pairs {env : Env} {s : State} (h : Reach env s) {a : Addr} {v v1 : VAccount} {i : Nat} {r : Request} {e : Bool}
    (hv : s.load a = Except.ok v) (hp : v.processRequest s.now i = Except.ok (v1, r, e)) :
    ∀ p ∈ requestPairs v1 r, ∃ x, s.config.pairs.get p = some x := by
  obtain ⟨kr, st, -, hk, -, -, -, hv1, rfl, -⟩ := processRequest_virtual_ok hp
  obtain ⟨acc, ha, hr⟩ := keeperRequest_load hv hk
  have hpos : v1.positionIds = v.positionIds := by rw [hv1]; rfl
  intro p hp
  cases hq : kr.request with
  | removeCollateral q =>
    rw [hq] at hp; simp only [requestPairs, hpos] at hp
    exact loaded_ids h hv p hp
  | marginOrder q =>
    rw [hq] at hp; simp only [requestPairs, hpos, mem_insertId] at hp
    rcases hp with rfl | hp
    · exact (reach_resolves h).order a acc i kr _ ha hr (by rw [hq]; rfl)
    · exact loaded_ids h hv p hp

theorem executeRequest_errs {c : Ctx} {w : W} {r : Request} (h : c.Ready (requestPairs w.acc r))
    (hh : w.pool.Has (requestPairs w.acc r)) {l : List Err} (hl : ∀ e ∈ orderErrs, (∃ q, r = .marginOrder q) → e ∈ l)
    (hl' : ∀ e ∈ withdrawalErrs, (∃ q, r = .removeCollateral q) → e ∈ l) : Errs l (executeRequest c w r) := by
  cases r with
  | removeCollateral q =>
    exact errs_bind ((removeCollateral_errs h hh (fun p hp => hp)).mono (fun e he => hl' e he ⟨q, rfl⟩)) (fun _ _ => errs_pure _)
  | marginOrder q =>
    refine errs_bind ((marginOrder_errs h hh (fun p hp => mem_insertId.mpr (Or.inr hp)) (mem_insertId.mpr (Or.inl rfl))).mono
      (fun e he => hl e he ⟨q, rfl⟩)) (fun _ _ => errs_pure _)

theorem executeRequest_rinv {c : Ctx} {w w' : W} {r : Request} {o : Out} (h : executeRequest c w r = Except.ok (w', o))
    (h0 : RInv w.acc) : RInv w'.acc := by
  rcases executeRequest_ok h with ⟨q, tokens, rfl, hrm, rfl⟩ | ⟨q, e, rfl, hmo, rfl⟩
  · exact rinv_congr (removeCollateral_reqPart hrm) h0
  · obtain ⟨w3, a1, a2, ht, h2, h3, rfl⟩ := marginOrder_touches hmo
    exact (trySetStatus_inv (trySetStatus_inv (rinv_congr ht.reqPart h0) (Or.inl rfl) h2).1 (Or.inr rfl) h3).1

/-- `process_request`, with separate lists for orders and withdrawals. -/
theorem process_body_errs {env : Env} {s : State} (h : Reach env s) (hw : s.RewardWhole env) (a : Addr) (i : Nat)
    (u : Option PriceUpdate) {l : List Err} (hv : Errs l (s.load a)) (har : Err.arithmetic ∈ l)
    (hp : ∀ v, s.load a = Except.ok v → Errs l (v.processRequest s.now i))
    (hk : ∀ v v1 r, s.load a = Except.ok v → v.processRequest s.now i = Except.ok (v1, r, false) →
      Errs l (keeperLoad env s (requestPairs v1 r) u))
    (hx : ∀ v v1 r, s.load a = Except.ok v → v.processRequest s.now i = Except.ok (v1, r, false) →
      (∀ e ∈ orderErrs, (∃ q, r = .marginOrder q) → e ∈ l) ∧ ∀ e ∈ withdrawalErrs, (∃ q, r = .removeCollateral q) → e ∈ l) :
    Errs l (processRequest env s a i u) := by
  unfold processRequest
  refine errs_bind hv (fun v hv => errs_bind (hp v hv) (fun x hpr => ?_))
  obtain ⟨v1, r, expired⟩ := x
  have hids := process_pairs h hv hpr
  refine errs_bind (errs_of_ok (VConfig.new_total hids)) (fun cfg hcfg => ?_)
  have hi := (load_rinv hv (reach_requestsOk h)).1
  obtain ⟨hi1, honly, -⟩ := processRequest_inv hi hpr
  have href : RefOk s.referrals v1 := by
    have := load_refOk hv
    unfold ReqOnly at honly; rw [honly]; exact this
  refine errs_bind ?_ (fun y _ => errs_bind ((keeper_mint h hw hcfg y.1).of_arith har) (fun _ _ => errs_pure _))
  unfold processBody
  cases expired with
  | true =>
    rw [if_pos rfl]
    exact errs_bind (errs_of_ok (commitAcc_total hi1 href)) (fun _ _ => errs_pure _)
  | false =>
    rw [if_neg (by simp)]
    refine errs_bind (hk v v1 r hv hpr) (fun z hz => ?_)
    obtain ⟨s1, c, pool⟩ := z
    obtain ⟨hready, hhas⟩ := keeperLoad_ready hz
    obtain ⟨e1, e2⟩ := hx v v1 r hv hpr
    refine errs_bind (executeRequest_errs (w := { pool, acc := v1, dist := s1.dist }) hready hhas e1 e2) (fun t ht => ?_)
    obtain ⟨w, out⟩ := t
    refine errs_bind (errs_of_ok (keeper_commit hz (executeRequest_rinv ht hi1)
      (refOk_path (executeRequest_path ht) href))) (fun _ _ => errs_pure _)

theorem updatePairs_body_errs {env : Env} {s : State} (hw : s.RewardWhole env) (ids : List PairId)
    (u : Option PriceUpdate) {l : List Err} (har : Err.arithmetic ∈ l) (hk : Errs l (keeperLoad env s ids.dedup u)) :
    Errs l (opUpdatePairs env s ids u) := by
  unfold opUpdatePairs
  refine errs_bind hk (fun z hz => ?_)
  obtain ⟨s1, c, pool⟩ := z
  obtain ⟨hready, hhas⟩ := keeperLoad_ready hz
  have key : ∀ (ps : List PairId) (pool : VPool), (∀ p ∈ ps, p ∈ ids.dedup) → pool.Has ids.dedup →
      Errs arith (updatePairsLoop c pool ps) := by
    intro ps
    induction ps with
    | nil => intro _ _ _; exact errs_okc _
    | cons p ps ih =>
      intro pool hp hh
      refine errs_bind (updatePair_errs hready hh (hp p (by simp))) (fun x hx => ?_)
      exact errs_bind (ih x.1 (fun q hq => hp q (by simp [hq])) (updatePair_has (b := x.2) hx hh)) (fun _ _ => errs_pure _)
  refine errs_bind ((key ids.dedup pool (fun _ hp => hp) hhas).of_arith har) (fun y _ => ?_)
  refine errs_bind ((mintReward_errs ?_ ?_).of_arith har) (fun _ _ => errs_pure _)
  · unfold ofInt ONE; positivity
  · unfold ofInt
    obtain ⟨k, hk⟩ := Int.dvd_of_emod_eq_zero hw.unit
    rw [hk, mul_left_comm]; exact Int.mul_emod_right _ _

/-! ## Usable prices -/

theorem mergeFeedsL_from (l : List (Res × CollateralConfig)) : ∀ (f : AMap PairId Int) (p : PairId) (b : Int),
    (l.foldl mergeFeed f).get p = some b → f.get p = some b ∨ ∃ e ∈ l, e.2.pairId = p ∧ e.2.priceAgeMax = b := by
  induction l with
  | nil => intro f p b h; exact Or.inl h
  | cons x l ih =>
    intro f p b h
    rcases ih _ p b h with h | ⟨e, he, h⟩
    · unfold mergeFeed at h
      split at h
      · split at h
        · rw [AMap.get_set] at h
          split at h
          · rename_i hp; cases h; exact Or.inr ⟨x, by simp, hp, rfl⟩
          · exact Or.inl h
        · exact Or.inl h
      · rw [AMap.get_set] at h
        split at h
        · rename_i hp; cases h; exact Or.inr ⟨x, by simp, hp, rfl⟩
        · exact Or.inl h
    · exact Or.inr ⟨e, by simp [he], h⟩

/-- The oracle holds, for each of these pairs and for the feed of every configured collateral, a positive price that is young
enough. -/
structure State.PricesReady (s : State) (ids : List PairId) : Prop where
  pairs : ∀ p ∈ ids, ∃ x, Usable s s.oracle.prices (s.pairAge p) p x
  colls : ∀ r cc, s.config.collaterals.get r = some cc → ∃ x, Usable s s.oracle.prices none cc.pairId x

theorem keeperLoad_ready_errs {env : Env} {s : State} {ids : List PairId} (hc : ∀ p ∈ ids, ∃ x, s.config.pairs.get p = some x)
    (hp : s.PricesReady ids) : Errs arith (keeperLoad env s ids none) := by
  unfold keeperLoad
  refine errs_bind (errs_of_ok (VConfig.new_total hc)) (fun cfg hcfg => ?_)
  obtain ⟨-, hcolls, hpairs, -⟩ := VConfig.new_ok hcfg
  refine errs_bind (errs_of_ok (pairFeeds_total (fun p hp => ?_))) (fun feeds hfeeds => ?_)
  · obtain ⟨x, -, hx⟩ := hpairs p hp
    exact ⟨_, hx⟩
  have key : ∀ p b, (mergeFeeds feeds cfg.colls).get p = some b →
      ∃ x t, s.oracle.prices.get p = some (x, t) ∧ 0 < x ∧ s.now - t < b := by
    intro p b hb
    rcases mergeFeedsL_from _ _ _ _ hb with h | ⟨e, he, rfl, rfl⟩
    · obtain ⟨hin, hv⟩ := AMap.buildM_get hfeeds h
      simp only [bind_ok, pure_ok, VConfig.pair_ok] at hv
      obtain ⟨pc, hpc, rfl⟩ := hv
      obtain ⟨x, h0, t, ht, ha, -⟩ := hp.pairs p hin
      obtain ⟨y, hy, hy'⟩ := hpairs p hin
      rw [hpc] at hy'; cases hy'
      exact ⟨x, t, ht, h0, ha _ (by unfold State.pairAge; rw [hy]; rfl)⟩
    · have hg := AMap.get_mem he
      rw [hcolls, AMap.get_mapV] at hg
      cases hr : s.config.collaterals.get e.1 with
      | none => rw [hr] at hg; cases hg
      | some cc =>
        rw [hr] at hg
        simp only [Option.map_some, Option.some.injEq] at hg
        obtain ⟨x, h0, t, ht, -, ha⟩ := hp.colls e.1 cc hr
        rw [← hg]
        exact ⟨x, t, ht, h0, ha e.1 cc hr rfl⟩
  refine errs_bind ?_ (fun _ _ => errs_pure _)
  unfold VOracle.new
  refine errs_bind (errs_of_ok ⟨s.oracle, rfl⟩) (fun o ho => ?_)
  cases ho
  refine errs_bind ?_ (fun raw hraw => ?_)
  · refine errs_buildM (fun p hp => errs_expect_some ?_)
    obtain ⟨b, hb⟩ := AMap.mem_keys.mp hp
    obtain ⟨x, t, ht, -⟩ := key p b hb
    exact ⟨_, ht⟩
  refine errs_bind (errs_buildM (fun p hp => ?_)) (fun _ _ => errs_pure _)
  obtain ⟨b, hb⟩ := AMap.mem_keys.mp hp
  obtain ⟨x, t, ht, h0, hlt⟩ := key p b hb
  have hg : raw.get p = some (x, t) := by
    obtain ⟨v, hv, hg⟩ := (AMap.buildM_ok hraw).1 p hp
    rw [expect_ok, ht] at hv
    rw [hg, hv]
  unfold checkPrice
  rw [hg, hb]
  refine errs_bind (errs_okc _) (fun y hy => ?_)
  cases hy
  refine errs_bind (errs_okc _) (fun y hy => ?_)
  cases hy
  refine errs_bind (errs_addSeconds (by decide) _ _) (fun m hm => ?_)
  rw [addSeconds_ok] at hm
  refine errs_bind (errs_require_true ?_) (fun _ _ => errs_bind (errs_require_true ?_) (fun _ _ => errs_pure _))
  · rw [decide_eq_true_eq]
    have := hm.2
    change t > m
    omega
  · rw [decide_eq_true_eq]; exact h0

/-! ## Headline theorems -/

/-- A call by someone who has the role, while the exchange holds its authority. -/
structure Permitted (cl : Caller) (s : State) (op : Op) : Prop where
  role : ∀ r, op.role = some r → (s.roles r).sat cl.pf = true
  owner : ∀ r, op.ownerRule s = some r → r.sat cl.pf = true
  authority : op.authorized = true → 1 ≤ s.authority

theorem step_permitted {env : Env} {cl : Caller} {s : State} {op : Op} (h : Permitted cl s op) :
    step env cl s op = body env cl s op := by
  unfold step
  have h1 : checkRole cl s op = Except.ok () := by
    unfold checkRole
    cases hr : op.role with
    | none => rfl
    | some r => simp only; rw [h.role r hr]; rfl
  have h2 : checkOwner cl s op = Except.ok () := by
    unfold checkOwner
    cases hr : op.ownerRule s with
    | none => rfl
    | some r => simp only; rw [h.owner r hr]; rfl
  have h3 : checkAuthority s op = Except.ok () := by
    unfold checkAuthority
    split
    · rename_i ha; rw [decide_eq_true (h.authority ha)]; rfl
    · rfl
  rw [h1, h2, h3]; rfl

/-- A call that is not permitted fails for that reason. -/
theorem step_not_permitted {env : Env} {cl : Caller} {s : State} {op : Op} (h : ¬ Permitted cl s op) :
    step env cl s op = Except.error .role ∨ step env cl s op = Except.error .authority := by
  unfold step
  cases h1 : checkRole cl s op with
  | error e =>
    left
    unfold checkRole at h1
    cases hr : op.role with
    | none => rw [hr] at h1; cases h1
    | some r =>
      rw [hr] at h1
      simp only [require] at h1
      split at h1
      · cases h1
      · cases h1; rfl
  | ok x =>
    cases h2 : checkOwner cl s op with
    | error e =>
      left
      unfold checkOwner at h2
      cases hr : op.ownerRule s with
      | none => rw [hr] at h2; cases h2
      | some r =>
        rw [hr] at h2
        simp only [require] at h2
        split at h2
        · cases h2
        · cases h2; rfl
    | ok y =>
      cases h3 : checkAuthority s op with
      | error e =>
        right
        unfold checkAuthority at h3
        split at h3
        · simp only [require] at h3
          split at h3
          · cases h3
          · cases h3; rfl
        · cases h3
      | ok z =>
        exfalso
        apply h
        refine ⟨fun r hr => ?_, fun r hr => ?_, fun ha => ?_⟩
        · unfold checkRole at h1; rw [hr] at h1; simpa [require_ok] using h1
        · unfold checkOwner at h2; rw [hr] at h2; simpa [require_ok] using h2
        · unfold checkAuthority at h3; rw [if_pos ha] at h3; simpa [require_ok] using h3

/-- **C53, liquidation.** In every reachable state, a permitted liquidation of an existing account with prices that are
already on the ledger can only fail because the account has enough margin, because the payment is not enough (or not in
base tokens), or by arithmetic overflow. -/
theorem c53_liquidation {env : Env} {cl : Caller} {s : State} (h : Reach env s) (hw : s.RewardWhole env) {a : Addr}
    {acc : Account} {b : Bucket} {e : Err} (hp : Permitted cl s (.liquidate a b none)) (ha : s.accounts.get a = some acc)
    (hb : okBucket env s b = true) (hprices : s.PricesReady acc.positions.keys)
    (hs : step env cl s (.liquidate a b none) = Except.error e) :
    e ∈ [Err.invalidPaymentToken, .sufficientMargin, .insufficientPayment, .arithmetic] := by
  rw [step_permitted hp] at hs
  refine liquidate_body_errs h hw a b none (l := liquidationErrs) (fun _ h => h) (errs_require_true hb)
    (errs_of_ok (State.load_total h ha)) (fun v hv => ?_) e hs
  have hids := loaded_ids h hv
  obtain ⟨acc', rd, ha', -, rfl⟩ := load_ok hv
  rw [ha] at ha'; cases ha'
  exact (keeperLoad_ready_errs hids hprices).of_arith (by decide)

/-- Recording a due request as processed does not fail. -/
theorem process_total {env : Env} {s : State} (h : Reach env s) {a : Addr} {acc : Account} {i : Nat} {r : KeeperRequest}
    {v : VAccount} (ha : s.accounts.get a = some acc) (hr : acc.requests[i]? = some r) (hi : acc.validStart ≤ i)
    (hsub : r.submission < s.now)
    (hst : r.status = STATUS_ACTIVE ∨ (r.status = STATUS_DORMANT ∧ r.expiry ≤ s.now)) (hv : s.load a = Except.ok v) :
    ∃ v1, v.processRequest s.now i = Except.ok (v1, r.request, decide (s.now ≥ r.expiry)) := by
  obtain ⟨acc2, rd, ha2, -, rfl⟩ := load_ok hv
  rw [ha] at ha2; cases ha2
  have hpend : pending r.status = true := by
    rw [pending_iff]; rcases hst with h | ⟨h, -⟩
    · exact Or.inl h
    · exact Or.inr h
  have hin : i ∈ acc.active := (c13_active_exact h ha i).mpr ⟨hi, r, hr, pending_iff.mp hpend⟩
  have hcard : 0 < acc.active.card := Finset.card_pos.mpr ⟨i, hin⟩
  have hps : ∃ st, processStatus s.now r = Except.ok st := by
    unfold processStatus
    split
    · rw [hpend]; exact ⟨_, rfl⟩
    · rcases hst with h | ⟨-, h⟩
      · rw [decide_eq_true h]; exact ⟨_, rfl⟩
      · exact absurd h (by omega)
  obtain ⟨st, hps⟩ := hps
  unfold VAccount.processRequest
  simp only [VAccount.keeperRequest, AMap.get_empty, hr, expect, hps, VAccount.removeActive, require, decide_eq_true hcard,
    decide_eq_true (show i ≥ acc.validStart from hi), decide_eq_true (show s.now > r.submission from hsub), if_true, bind,
    Except.bind, pure, Except.pure]
  exact ⟨_, rfl⟩

/-- **C53, orders.** A permitted `process_request` of an order that is active, due and not expired, with prices on the
ledger, can only fail for the documented reasons: the price or slippage limit, open interest, the number of positions,
the margin, the skew cap, an order it refers to that does not exist, or overflow. -/
theorem c53_order {env : Env} {cl : Caller} {s : State} (h : Reach env s) (hw : s.RewardWhole env) {a : Addr} {acc : Account}
    {i : Nat} {r : KeeperRequest} {q : MarginOrderReq} {e : Err} (hp : Permitted cl s (.processRequest a i none))
    (ha : s.accounts.get a = some acc) (hr : acc.requests[i]? = some r) (hq : r.request = .marginOrder q)
    (hst : r.status = STATUS_ACTIVE) (hi : acc.validStart ≤ i) (hsub : r.submission < s.now)
    (hprices : s.PricesReady (insertId acc.positions.keys q.pair))
    (hs : step env cl s (.processRequest a i none) = Except.error e) :
    e ∈ [Err.priceLimit, .slippageLimit, .pairOiTooHigh, .positionsTooMany, .insufficientMargin, .skewTooHigh,
      .missingRequest, .arithmetic] := by
  rw [step_permitted hp] at hs
  have hreq : ∀ v v1 r', s.load a = Except.ok v → v.processRequest s.now i = Except.ok (v1, r', false) →
      r' = .marginOrder q ∧ v1.positionIds = acc.positions.keys := by
    intro v v1 r' hv hpr
    obtain ⟨kr, st, -, hk, -, -, -, hv1, rfl, -⟩ := processRequest_virtual_ok hpr
    obtain ⟨acc', ha', hr'⟩ := keeperRequest_load hv hk
    obtain ⟨acc2, rd, ha2, -, rfl⟩ := load_ok hv
    rw [ha] at ha' ha2; cases ha'; cases ha2
    rw [hr] at hr'; cases hr'
    exact ⟨hq, by rw [hv1]; rfl⟩
  refine process_body_errs h hw a i none (l := orderErrs) (errs_of_ok (State.load_total h ha)) (by decide) ?_ ?_ ?_ e hs
  · intro v hv
    obtain ⟨v1, hv1⟩ := process_total h ha hr hi hsub (Or.inl hst) hv
    exact errs_of_ok ⟨_, hv1⟩
  · intro v v1 r' hv hpr
    obtain ⟨rfl, hpos⟩ := hreq v v1 r' hv hpr
    have hids := process_pairs h hv hpr
    refine (keeperLoad_ready_errs hids ?_).of_arith (by decide)
    simp only [requestPairs, hpos]; exact hprices
  · intro v v1 r' hv hpr
    obtain ⟨rfl, -⟩ := hreq v v1 r' hv hpr
    exact ⟨fun e he _ => he, fun e he ⟨q', hq'⟩ => by cases hq'⟩

/-- **C53, withdrawals.** Likewise for a withdrawal: not enough balance, not enough base tokens in the pool, an amount the
vaults refuse (a negative claim), a target that is not a wallet, not enough margin, or overflow. -/
theorem c53_withdrawal {env : Env} {cl : Caller} {s : State} (h : Reach env s) (hw : s.RewardWhole env) {a : Addr}
    {acc : Account} {i : Nat} {r : KeeperRequest} {q : RemoveCollateralReq} {e : Err}
    (hp : Permitted cl s (.processRequest a i none))
    (ha : s.accounts.get a = some acc) (hr : acc.requests[i]? = some r) (hq : r.request = .removeCollateral q)
    (hst : r.status = STATUS_ACTIVE) (hi : acc.validStart ≤ i) (hsub : r.submission < s.now)
    (hprices : s.PricesReady acc.positions.keys)
    (hs : step env cl s (.processRequest a i none) = Except.error e) :
    e ∈ [Err.insufficientBalance, .insufficientPoolTokens, .vault, .invalidAccount, .insufficientMargin, .arithmetic] := by
  rw [step_permitted hp] at hs
  have hreq : ∀ v v1 r', s.load a = Except.ok v → v.processRequest s.now i = Except.ok (v1, r', false) →
      r' = .removeCollateral q ∧ v1.positionIds = acc.positions.keys := by
    intro v v1 r' hv hpr
    obtain ⟨kr, st, -, hk, -, -, -, hv1, rfl, -⟩ := processRequest_virtual_ok hpr
    obtain ⟨acc', ha', hr'⟩ := keeperRequest_load hv hk
    obtain ⟨acc2, rd, ha2, -, rfl⟩ := load_ok hv
    rw [ha] at ha' ha2; cases ha'; cases ha2
    rw [hr] at hr'; cases hr'
    exact ⟨hq, by rw [hv1]; rfl⟩
  refine process_body_errs h hw a i none (l := withdrawalErrs) (errs_of_ok (State.load_total h ha)) (by decide) ?_ ?_ ?_ e hs
  · intro v hv
    obtain ⟨v1, hv1⟩ := process_total h ha hr hi hsub (Or.inl hst) hv
    exact errs_of_ok ⟨_, hv1⟩
  · intro v v1 r' hv hpr
    obtain ⟨rfl, hpos⟩ := hreq v v1 r' hv hpr
    have hids := process_pairs h hv hpr
    refine (keeperLoad_ready_errs hids ?_).of_arith (by decide)
    simp only [requestPairs, hpos]; exact hprices
  · intro v v1 r' hv hpr
    obtain ⟨rfl, -⟩ := hreq v v1 r' hv hpr
    exact ⟨fun e he hq' => (by obtain ⟨_, hq'⟩ := hq'; cases hq'), fun e he _ => he⟩

/-- **C53, auto-deleverage.** -/
theorem c53_adl {env : Env} {cl : Caller} {s : State} (h : Reach env s) (hw : s.RewardWhole env) {a : Addr} {acc : Account}
    {p : PairId} {e : Err} (hp : Permitted cl s (.autoDeleverage a p none)) (ha : s.accounts.get a = some acc)
    (hpc : ∃ x, s.config.pairs.get p = some x) (hprices : s.PricesReady (insertId acc.positions.keys p))
    (hs : step env cl s (.autoDeleverage a p none) = Except.error e) :
    e ∈ [Err.adlSkewTooLow, .adlNoPosition, .adlPnlBelowThreshold, .adlSkewNotReduced, .arithmetic] := by
  rw [step_permitted hp] at hs
  refine adl_body_errs h hw a p none (l := adlErrs) (fun _ h => h) (errs_of_ok (State.load_total h ha)) (fun v hv => ?_) e hs
  have hids := loaded_ids h hv
  obtain ⟨acc', rd, ha', -, rfl⟩ := load_ok hv
  rw [ha] at ha'; cases ha'
  refine (keeperLoad_ready_errs (fun q hq => ?_) hprices).of_arith (by decide)
  rcases mem_insertId.mp hq with rfl | hq
  · exact hpc
  · exact hids q hq

/-- **C53, update of pairs.** With prices on the ledger, `update_pairs` of configured pairs fails only by overflow. -/
theorem c53_update_pairs {env : Env} {cl : Caller} {s : State} (hw : s.RewardWhole env) {ids : List PairId} {e : Err}
    (hp : Permitted cl s (.updatePairs ids none)) (hpc : ∀ p ∈ ids, ∃ x, s.config.pairs.get p = some x)
    (hprices : s.PricesReady ids) (hs : step env cl s (.updatePairs ids none) = Except.error e) : e = .arithmetic := by
  rw [step_permitted hp] at hs
  have := updatePairs_body_errs hw ids none (l := arith) (by decide)
    (keeperLoad_ready_errs (fun p hp => hpc p (List.mem_dedup.mp hp))
      ⟨fun p hp => hprices.pairs p (List.mem_dedup.mp hp), hprices.colls⟩) e hs
  simpa using this

/-- **C53, expired requests.** A pending request whose expiry has passed can always be cleared by `process_request`, whatever
the prices and the state of the account — unless the supply of reward tokens overflows or the reward is more than can be minted at
once. -/
theorem c53_expired {env : Env} {cl : Caller} {s : State} (h : Reach env s) (hw : s.RewardWhole env) {a : Addr} {acc : Account}
    {i : Nat} {r : KeeperRequest} {u : Option PriceUpdate} (hp : Permitted cl s (.processRequest a i u))
    (ha : s.accounts.get a = some acc) (hr : acc.requests[i]? = some r)
    (hst : r.status = STATUS_ACTIVE ∨ r.status = STATUS_DORMANT) (hi : acc.validStart ≤ i) (hsub : r.submission < s.now)
    (hexp : r.expiry ≤ s.now) (hsupply : s.rewardSupply + s.config.exchange.decompress.rewardKeeper ≤ DMAX)
    (hsup0 : 0 ≤ s.rewardSupply) (hcap : s.config.exchange.decompress.rewardKeeper ≤ MAX_MINT) :
    ∃ s' o, step env cl s (.processRequest a i u) = Except.ok (s', o) ∧ o.ev = .expired ∧
      ∃ acc', s'.accounts.get a = some acc' ∧ acc'.requests[i]? = some { r with status := STATUS_EXPIRED } := by
  rw [step_permitted hp]
  change ∃ s' o, processRequest env s a i u = Except.ok (s', o) ∧ _
  obtain ⟨v, hv⟩ := State.load_total h ha
  obtain ⟨v1, hv1⟩ := process_total h ha hr hi hsub (hst.imp id (fun h => ⟨h, hexp⟩)) hv
  rw [decide_eq_true hexp] at hv1
  obtain ⟨cfg, hcfg⟩ := VConfig.new_total (process_pairs h hv hv1)
  obtain ⟨hi0, acc0, hg, -, hreqs, -, -, haddr, -⟩ := load_rinv hv (reach_requestsOk h)
  rw [ha] at hg; cases hg
  obtain ⟨hi1, honly, -, -, kr, hkr, -, -, hcase, -⟩ := processRequest_inv hi0 hv1
  have href : RefOk s.referrals v1 := by
    have := load_refOk hv
    unfold ReqOnly at honly; rw [honly]; exact this
  have haddr1 : v1.addr = a := by unfold ReqOnly at honly; rw [honly]; exact haddr
  obtain ⟨acc', hacc⟩ := realize_total hi1
  obtain ⟨refs, hrefs⟩ := realizeReferral_total href
  have hr0 : 0 ≤ s.config.exchange.decompress.rewardKeeper := (c46_exchange_in_force h).2.2.2.2.2.2.2.2.2.2.2.2.2.2.2
  have hDM : DMIN ≤ 0 := by decide
  have hmint : ∀ s2 : State, s2.rewardSupply = s.rewardSupply → ∃ s3, s2.mintReward env cfg.ex.rewardKeeper = Except.ok s3 ∧
      s3.accounts = s2.accounts := by
    intro s2 h2
    rw [(VConfig.new_ok hcfg).1]
    have hm : mintAmount (env.gran KEEPER_REWARD) s.config.exchange.decompress.rewardKeeper
        = Except.ok s.config.exchange.decompress.rewardKeeper := by
      rw [mintAmount_ok]
      exact ⟨hr0, hw.reward, hcap, rfl⟩
    have hd : dadd s2.rewardSupply s.config.exchange.decompress.rewardKeeper
        = Except.ok (s2.rewardSupply + s.config.exchange.decompress.rewardKeeper) := by
      rw [dadd_ok]
      exact ⟨by rw [inRange_iff, h2]; constructor <;> omega, rfl⟩
    unfold State.mintReward
    rw [hm]
    simp only [bind, Except.bind]
    rw [hd]
    exact ⟨_, rfl, rfl⟩
  have hcommit : s.commitAcc v1 = Except.ok { s with accounts := s.accounts.set v1.addr acc', referrals := refs } := by
    unfold State.commitAcc
    rw [hacc, hrefs]; rfl
  obtain ⟨s3, hs3, hacc3⟩ := hmint { s with accounts := s.accounts.set v1.addr acc', referrals := refs } rfl
  refine ⟨s3, { ev := .expired, reward := cfg.ex.rewardKeeper }, ?_, rfl, acc', ?_, ?_⟩
  · unfold processRequest processBody
    simp only [hv, hv1, hcfg, hcommit, hs3, bind, Except.bind, pure, Except.pure, if_true]
  · rw [hacc3, haddr1]; simp
  · rw [(realize_rinv hi1 hacc).2.1]
    rw [hreqs, hr] at hkr; cases hkr
    rcases hcase with ⟨h, -⟩ | ⟨-, -, -, h⟩
    · cases h
    · exact h

theorem cancelOne_total {v : VAccount} {e : Nat × KeeperRequest} (hp : pending e.2.status = true) (hl : 0 < v.activeLen) :
    ∃ v', v.cancelOne e = Except.ok v' ∧ v'.activeLen + 1 = v.activeLen := by
  have hph : statusPhases STATUS_CANCELLED = Except.ok [STATUS_ACTIVE, STATUS_DORMANT] := by
    simp [statusPhases, STATUS_ACTIVE, STATUS_CANCELLED, STATUS_EXECUTED]
  have hin : e.2.status ∈ [STATUS_ACTIVE, STATUS_DORMANT] := by
    rcases pending_iff.mp hp with h | h <;> simp [h]
  have hc : pending STATUS_CANCELLED = false := by decide
  unfold VAccount.cancelOne VAccount.moveActive VAccount.removeActive
  simp only [hph, hp, hc, require, decide_eq_true hin, decide_eq_true hl, if_true, bind, Except.bind, pure, Except.pure]
  refine ⟨_, rfl, ?_⟩
  simp only
  omega

theorem cancelAll_total : ∀ (es : List (Nat × KeeperRequest)) {v : VAccount}, (∀ e ∈ es, pending e.2.status = true) →
    es.length ≤ v.activeLen → ∃ v', es.foldlM VAccount.cancelOne v = Except.ok v' := by
  intro es
  induction es with
  | nil => intro v _ _; exact ⟨v, rfl⟩
  | cons e es ih =>
    intro v hp hl
    rw [List.length_cons] at hl
    obtain ⟨v1, h1, hl1⟩ := cancelOne_total (hp e (by simp)) (v := v) (by omega)
    obtain ⟨v2, h2⟩ := ih (v := v1) (fun x hx => hp x (by simp [hx])) (by omega)
    exact ⟨v2, by rw [List.foldlM_cons, h1]; exact h2⟩

/-- **C53, cancelling.** The holder of an account can always cancel pending requests that are still valid — whatever the
prices, the pool and the other requests — and each of them is then cancelled. -/
theorem c53_cancel {env : Env} {cl : Caller} {s : State} (h : Reach env s) {a : Addr} {acc : Account} {is : List Nat}
    (hp : Permitted cl s (.cancelRequests none a is)) (ha : s.accounts.get a = some acc)
    (hauth : acc.level3.sat cl.pf = true)
    (hreq : ∀ i ∈ is, acc.validStart ≤ i ∧ ∃ r : KeeperRequest, acc.requests[i]? = some r ∧
      (r.status = STATUS_ACTIVE ∨ r.status = STATUS_DORMANT)) :
    ∃ s' o, step env cl s (.cancelRequests none a is) = Except.ok (s', o) ∧ ∃ acc', s'.accounts.get a = some acc' ∧
      ∀ i ∈ is, ∃ r : KeeperRequest, acc.requests[i]? = some r ∧ acc'.requests[i]? = some { r with status := STATUS_CANCELLED } := by
  rw [step_permitted hp]
  change ∃ s' o, opCancelRequests env cl s none a is = Except.ok (s', o) ∧ _
  obtain ⟨v, hv⟩ := State.load_total h ha
  obtain ⟨hi0, acc0, hg, hcomp, hreqs, -, -, haddr, hact, -⟩ := load_rinv hv (reach_requestsOk h)
  rw [ha] at hg; cases hg
  have hverify : verifyLevel cl v .l3 = Except.ok () := by
    unfold verifyLevel; rw [hcomp]
    change require (acc.level3.sat cl.pf) .role = _
    rw [hauth]; rfl
  obtain ⟨cfg, hcfg⟩ := VConfig.new_total (c := s.config) (ids := []) (by simp)
  have hoath : payOath env s v none v.positionIds [] = Except.ok (s, v, cfg) := by
    unfold payOath; rw [hcfg]; rfl
  have hkr : ∀ i ∈ is, ∃ r, v.keeperRequest i = Except.ok r := by
    intro i hi
    obtain ⟨-, r, hr, -⟩ := hreq i hi
    obtain ⟨acc2, rd, ha2, -, rfl⟩ := load_ok hv
    rw [ha] at ha2; cases ha2
    exact ⟨r, by simp only [VAccount.keeperRequest, AMap.get_empty, hr, expect]⟩
  have hkrs : ∃ krs, v.keeperRequests is = Except.ok krs := by
    have : Errs [] (v.keeperRequests is) := errs_buildM (fun i hi => errs_of_ok (hkr i hi))
    cases hx : v.keeperRequests is with
    | ok f => exact ⟨f, rfl⟩
    | error e => exact absurd (this e hx) (by simp)
  obtain ⟨krs, hkrs⟩ := hkrs
  have hent := keeperRequests_entries hi0 hkrs
  have hmem : ∀ e ∈ krs.entries, e.1 ∈ acc.active ∧ pending e.2.status = true := by
    intro e he
    have hin : e.1 ∈ is := (keeperRequests_keys hkrs e.1).mp (List.mem_map.mpr ⟨e, he, rfl⟩)
    obtain ⟨hge, r, hr, hst⟩ := hreq e.1 hin
    have h1 := (hent e he).1
    rw [hreqs, hr] at h1; cases h1
    exact ⟨(c13_active_exact h ha e.1).mpr ⟨hge, e.2, hr, hst⟩, pending_iff.mpr hst⟩
  have hlen : krs.entries.length ≤ v.activeLen := by
    rw [hact]
    have h1 : (krs.entries.map Prod.fst).toFinset ⊆ acc.active := by
      intro i hi
      rw [List.mem_toFinset, List.mem_map] at hi
      obtain ⟨e, he, rfl⟩ := hi
      exact (hmem e he).1
    have h2 := Finset.card_le_card h1
    rw [List.toFinset_card_of_nodup krs.nodup, List.length_map] at h2
    exact h2
  obtain ⟨v1, hv1⟩ := cancelAll_total krs.entries (v := v) (fun e he => (hmem e he).2) hlen
  have hcan : v.cancelRequests is = Except.ok v1 := by
    unfold VAccount.cancelRequests; rw [hkrs]; exact hv1
  obtain ⟨hi1, hsoft, hrest, -⟩ := cancelRequests_inv hi0 hcan
  have honly := cancelRequests_reqOnly hcan
  have href : RefOk s.referrals v1 := by
    have := load_refOk hv
    unfold ReqOnly at honly; rw [honly]; exact this
  have haddr1 : v1.addr = a := by unfold ReqOnly at honly; rw [honly]; exact haddr
  obtain ⟨acc', hacc⟩ := realize_total hi1
  obtain ⟨refs, hrefs⟩ := realizeReferral_total href
  have hcommit : s.commitAcc v1 = Except.ok { s with accounts := s.accounts.set v1.addr acc', referrals := refs } := by
    unfold State.commitAcc
    rw [hacc, hrefs]; rfl
  refine ⟨{ s with accounts := s.accounts.set v1.addr acc', referrals := refs }, {}, ?_, acc', ?_, ?_⟩
  · unfold opCancelRequests
    simp only [hv, hverify, hoath, hcan, hcommit, bind, Except.bind, pure, Except.pure]
  · rw [haddr1]; simp
  · intro i hi
    obtain ⟨hge, r, hr, hst⟩ := hreq i hi
    refine ⟨r, hr, ?_⟩
    rw [(realize_rinv hi1 hacc).2.1, hrest, hreqs, hr]
    rw [Option.map_some]
    unfold restatus
    have : r.status ∈ [STATUS_ACTIVE, STATUS_DORMANT] := by rcases hst with h | h <;> simp [h]
    rw [if_pos ⟨hi, this⟩]

end Perp
