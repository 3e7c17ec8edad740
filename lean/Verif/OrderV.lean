import Verif.OrderOps
import Verif.Getters

/-!
# Iteration order (C62): what the read methods report
-/

namespace Perp

theorem mapM_vals {α β : Type} {f : α → R β} : ∀ {l : List α} {r : List β},
    l.mapM f = Except.ok r ↔ l.map f = r.map Except.ok := by
  intro l
  induction l with
  | nil =>
    intro r
    cases r with
    | nil => exact ⟨fun _ => rfl, fun _ => rfl⟩
    | cons b r => exact ⟨fun h => (by cases h), fun h => (by cases h)⟩
  | cons e l ih =>
    intro r
    rw [List.mapM_cons]
    cases r with
    | nil =>
      simp only [bind_ok, pure_ok]
      exact ⟨fun ⟨_, _, _, _, h⟩ => (by cases h), fun h => (by cases h)⟩
    | cons b r =>
      simp only [bind_ok, pure_ok, List.map_cons, List.cons.injEq]
      constructor
      · rintro ⟨x, hx, y, hy, rfl, rfl⟩; exact ⟨hx, ih.mp hy⟩
      · rintro ⟨h1, h2⟩; exact ⟨b, h1, r, ih.mpr h2, rfl, rfl⟩

theorem mapM_succeeds {α β : Type} {f g : α → R β} {l l' : List α} (hl : l.Perm l') (hf : ∀ e ∈ l, f e = g e) {r : List β}
    (h : l.mapM f = Except.ok r) : ∃ r', l'.mapM g = Except.ok r' := by
  rw [mapM_vals] at h
  have h1 : (l'.map g).Perm (r.map Except.ok) := by
    rw [← h, List.map_congr_left hf]; exact (hl.map g).symm
  have h2 : ∀ e ∈ l', ∃ v, g e = Except.ok v := by
    intro e he
    have := h1.mem_iff.mp (List.mem_map_of_mem he)
    obtain ⟨v, _, hv⟩ := List.mem_map.mp this
    exact ⟨v, hv.symm⟩
  clear h1 hl
  induction l' with
  | nil => exact ⟨[], rfl⟩
  | cons e l' ih =>
    obtain ⟨v, hv⟩ := h2 e List.mem_cons_self
    obtain ⟨r', hr⟩ := ih fun x hx => h2 x (List.mem_cons_of_mem _ hx)
    exact ⟨v :: r', by rw [List.mapM_cons, hv, hr]; rfl⟩

/-- Mapping over a list in another order gives the same values in another order. -/
theorem mapM_agree {α β : Type} {f g : α → R β} {l l' : List α} (hl : l.Perm l') (hf : ∀ e ∈ l, f e = g e) :
    Agree List.Perm (l.mapM f) (l'.mapM g) := by
  refine ⟨fun r r' h1 h2 => ?_, fun r e h1 h2 => ?_, fun e r h1 h2 => ?_⟩
  · rw [mapM_vals] at h1 h2
    have : (r.map (Except.ok (ε := Err))).Perm (r'.map Except.ok) := by
      rw [← h1, ← h2, List.map_congr_left hf]; exact hl.map g
    have hm := this.map (fun x : R β => match x with | .ok v => [v] | .error _ => [])
    simp only [List.map_map] at hm
    have h3 := hm.flatten
    have e1 : ∀ r : List β, (List.map ((fun x : R β => match x with | .ok v => [v] | .error _ => []) ∘ Except.ok) r).flatten = r := by
      intro r; induction r with
      | nil => rfl
      | cons b r ih => simp only [List.map_cons, List.flatten_cons, ih]; rfl
    rwa [e1, e1] at h3
  · obtain ⟨r', hr⟩ := mapM_succeeds hl hf h1
    rw [hr] at h2; cases h2
  · obtain ⟨r', hr⟩ := mapM_succeeds hl.symm (fun e he => (hf e (hl.mem_iff.mpr he)).symm) h2
    rw [hr] at h1; cases h1

theorem mapM_eq {α β : Type} {f g : α → R β} {l : List α} (hf : ∀ e ∈ l, f e = g e) : l.mapM f = l.mapM g := by
  induction l with
  | nil => rfl
  | cons e l ih =>
    rw [List.mapM_cons, List.mapM_cons, hf e List.mem_cons_self, ih fun x hx => hf x (List.mem_cons_of_mem _ hx)]

/-- The same report of an account up to the order of the positions and collaterals it lists, and of the claims and
effects of the requests it lists. -/
structure AccountDetails.Same (x y : AccountDetails) : Prop where
  virtualBalance : x.virtualBalance = y.virtualBalance
  positions : x.positions.Perm y.positions
  collaterals : x.collaterals.Perm y.collaterals
  validRequestsStart : x.validRequestsStart = y.validRequestsStart
  activeRequests : x.activeRequests.map (fun e => (e.1, e.2.canon)) = y.activeRequests.map (fun e => (e.1, e.2.canon))
  requestsHistory : x.requestsHistory.map (fun e => (e.1, e.2.canon)) = y.requestsHistory.map (fun e => (e.1, e.2.canon))
  requestsLen : x.requestsLen = y.requestsLen
  referral : x.referral = y.referral

/-- **C62.** The pool's figures do not depend on the order. -/
theorem c62_pool_details {s s' : State} (h : s.Same s') : getPoolDetails s = getPoolDetails s' := by
  have hp := VPool.new_same h.pool s.now (ids := []) (ids' := []) fun _ => Iff.rfl
  have hc : VConfig.new s.config [] = Except.ok ⟨s.config.exchange.decompress, AMap.empty, s.config.collaterals.mapV fun _ x => x.decompress⟩ := rfl
  have hc' : VConfig.new s'.config [] = Except.ok ⟨s'.config.exchange.decompress, AMap.empty, s'.config.collaterals.mapV fun _ x => x.decompress⟩ := rfl
  unfold getPoolDetails
  rw [hc, hc', ← h.now, ← h.config.exchange, ← h.lpSupply]
  simp only [hp.poolValue, hp.skewRatio, hp.base, hp.vb, hp.unreal, hp.pnlSnap]
  rfl

theorem positionDetails_same {c c' : VConfig} (hc : c.Same c') {p p' : VPool} (hp : p.Same p') (e : PairId × AccountPosition) :
    positionDetails c p e = positionDetails c' p' e := by
  unfold positionDetails; rw [hc.pair, hp.position]

theorem collateralDetails_same {v v' : VAccount} (h : v.Same v') (e : Res × CollateralConfig) :
    collateralDetails v e = collateralDetails v' e := by
  unfold collateralDetails; rw [h.collateralAmount]

/-- The stored requests at one index. -/
theorem Account.Same.request {a a' : Account} (h : a.Same a') (i : Nat) :
    Option.Rel (fun x y : KeeperRequest => x.canon = y.canon) a.requests[i]? a'.requests[i]? := by
  have := congrArg (fun l => l[i]?) h.requests
  simp only [List.getElem?_map] at this
  cases h1 : a.requests[i]? <;> cases h2 : a'.requests[i]? <;> rw [h1, h2] at this
  · exact .none
  · cases this
  · cases this
  · exact .some (Option.some.inj this)

theorem activeRequests_agree {a a' : Account} (h : a.Same a') :
    Agree (fun x y => x.map (fun e : Nat × KeeperRequest => (e.1, e.2.canon)) = y.map (fun e => (e.1, e.2.canon)))
      (activeRequests a) (activeRequests a') := by
  unfold activeRequests
  rw [h.active]
  generalize descending a'.active = l
  induction l with
  | nil => exact Agree.pure rfl
  | cons i l ih =>
    rw [List.mapM_cons, List.mapM_cons, bind_assoc, bind_assoc]
    refine Agree.expect (h.request i) fun x y _ _ hxy => ?_
    rw [pure_bind, pure_bind]
    refine Agree.bind ih fun u u' _ _ hu => Agree.pure ?_
    simp only [List.map_cons, hu, hxy]

theorem requestsTail_agree {a a' : Account} (h : a.Same a') (n : Nat) (stop : Option Nat) :
    Agree (fun x y => x.map (fun e : Nat × KeeperRequest => (e.1, e.2.canon)) = y.map (fun e => (e.1, e.2.canon)))
      (requestsTail a n stop) (requestsTail a' n stop) := by
  have hl : a.requests.length = a'.requests.length := by simpa using congrArg List.length h.requests
  unfold requestsTail
  rw [hl]
  refine Agree.bind_same fun e _ => Agree.pure ?_
  have key : ∀ (x : List Nat) (y : List KeeperRequest), (x.zip y).map (fun e => (e.1, e.2.canon)) = x.zip (y.map KeeperRequest.canon) := by
    intro x y; rw [List.zip_map_right]; rfl
  simp only [key, List.map_reverse, List.map_take, List.map_drop, h.requests]

/-- **C62.** Nor does the report of an account, up to the order in which it lists positions and collaterals. -/
theorem c62_account_details {s s' : State} (h : s.Same s') (a : Addr) (n : Nat) (stop : Option Nat) :
    Agree AccountDetails.Same (getAccountDetails s a n stop) (getAccountDetails s' a n stop) := by
  unfold getAccountDetails
  refine Agree.bind (h.load a) fun v v' _ _ hv => ?_
  refine Agree.bind (VConfig.new_agree h.config hv.positionIds) fun c c' _ _ hc => ?_
  rw [h.now]
  have hp := VPool.new_same h.pool s'.now hv.positionIds
  refine Agree.bind (mapM_agree hv.positions.perm fun e _ => positionDetails_same hc hp e) fun x x' _ _ hx => ?_
  refine Agree.bind (mapM_agree hc.colls.perm fun e _ => collateralDetails_same hv e) fun y y' _ _ hy => ?_
  refine Agree.bind (activeRequests_agree hv.comp) fun z z' _ _ hz => ?_
  refine Agree.bind (requestsTail_agree hv.comp n stop) fun u u' _ _ hu => ?_
  have hr : v.referral = v'.referral := by unfold VAccount.referral; rw [hv.referralId, hv.referralData]
  rw [hr]
  refine Agree.bind_same fun r _ => Agree.pure ?_
  exact ⟨hv.vb, hx, hy, hv.validStart, hz, hu, hv.requestsLen, rfl⟩

/-- **C62.** Nor does the report of the pairs asked for. -/
theorem c62_pair_details {s s' : State} (h : s.Same s') (ids : List PairId) :
    Agree (fun x y => x = y) (getPairDetails s ids) (getPairDetails s' ids) := by
  unfold getPairDetails
  refine Agree.bind (VConfig.new_agree h.config fun _ => Iff.rfl) fun c c' _ _ hc => ?_
  rw [h.now]
  have hp := VPool.new_same h.pool s'.now (ids := ids) (ids' := ids) fun _ => Iff.rfl
  refine Agree.eq (mapM_eq fun p _ => ?_)
  unfold pairDetails
  rw [hc.pair, hp.position]

/-- **C62.** Nor do the remaining figures. -/
theorem c62_other_reads {s s' : State} (h : s.Same s') :
    (∀ id, getReferralDetails s id = getReferralDetails s' id) ∧ getExchangeConfig s = getExchangeConfig s' ∧
    getPairConfigsLen s = getPairConfigsLen s' ∧ (getCollaterals s).Perm (getCollaterals s') ∧
    (∀ r, (getCollateralConfigs s).get r = (getCollateralConfigs s').get r) ∧
    getProtocolBalance s = getProtocolBalance s' ∧ getTreasuryBalance s = getTreasuryBalance s' := by
  refine ⟨fun id => ?_, ?_, h.config.pairs.size, h.config.collaterals.keys, h.config.collaterals.mapV _, ?_, ?_⟩
  · unfold getReferralDetails; rw [h.referrals id, h.refgen.allocations id]
  · unfold getExchangeConfig; rw [h.config.exchange]
  · unfold getProtocolBalance; rw [h.dist]
  · unfold getTreasuryBalance; rw [h.dist]

end Perp
