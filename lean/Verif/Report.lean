import Verif.Indexer
import Verif.Debt
import Verif.Adl

/-!
# C66: what the execution events report is what happened

The events of a call report its result exactly once and name no account but the call's (`c66_results`,
`c66_accounts`); and the numbers and lists in them are the state's: the requests an order has activated
and cancelled, the prices of a liquidation, the tokens of a withdrawal.
-/

namespace Perp

/-! ## Specification -/

/-- The result an event reports. -/
def Event.result : Event → Option Ev
  | .liquidity e => some (.liquidity e)
  | .removeCollateral _ t m => some (.removeCollateral t (m.map (fun x => ⟨x.1, x.2⟩)))
  | .order _ e _ _ _ => some (.order e)
  | .swapDebt _ e => some (.swapDebt e)
  | .liquidate _ _ _ _ e => some (.liquidate e)
  | .adl _ e => some (.adl e)
  | .accountCreation a r => some (.created a r)
  | _ => none

/-- The results to report: none for a call that has none, or that found its request expired. -/
def Ev.announced : Ev → List Ev
  | .none => []
  | .expired => []
  | e => [e]

/-- The account an event is about. -/
def Event.account : Event → Option Addr
  | .accountCreation a _ => some a
  | .requests a _ => some a
  | .validStart a _ => some a
  | .addCollateral a _ => some a
  | .removeCollateral a _ _ => some a
  | .order a _ _ _ _ => some a
  | .swapDebt a _ => some a
  | .liquidate a _ _ _ _ => some a
  | .adl a _ => some a
  | _ => none

/-! ## Results and accounts -/

theorem requestEvents_result (v : VAccount) : v.requestEvents.filterMap Event.result = [] := by
  unfold VAccount.requestEvents; split <;> rfl

theorem pairEvents_result (v : VPool) : v.pairEvents.filterMap Event.result = [] := by
  unfold VPool.pairEvents; split <;> rfl

theorem requestEvents_account {v : VAccount} {e : Event} (h : e ∈ v.requestEvents) : e.account = some v.addr := by
  unfold VAccount.requestEvents at h
  split at h
  · cases h
  · rw [List.mem_singleton] at h; subst h; rfl

theorem pairEvents_account {v : VPool} {e : Event} (h : e ∈ v.pairEvents) : e.account = none := by
  unfold VPool.pairEvents at h
  split at h
  · cases h
  · rw [List.mem_singleton] at h; subst h; rfl

theorem buckets_back (bs : List Bucket) : (amountsOf bs).map (fun x => (⟨x.1, x.2⟩ : Bucket)) = bs := by
  unfold amountsOf
  rw [List.map_map]
  exact List.map_id' bs

/-- Every success of `x` satisfies `P`. -/
def Yields {α : Type} (P : α → Prop) (x : R α) : Prop := ∀ r, x = Except.ok r → P r

theorem yields_bind {α β : Type} {P : β → Prop} {x : R α} {f : α → R β} (h : ∀ a, Yields P (f a)) : Yields P (x >>= f) := by
  intro r hr
  obtain ⟨a, -, h2⟩ := bind_ok.mp hr
  exact h a r h2

theorem yields_pure {α : Type} {P : α → Prop} {a : α} (h : P a) : Yields P (pure a : R α) := by
  intro r hr; cases hr; exact h

/-- The calls with no result in an event. -/
def Op.resultless : Op → Bool
  | .addLiquidity _ | .removeLiquidity _ | .createAccount .. | .processRequest .. | .swapDebt .. | .liquidate ..
  | .autoDeleverage .. => false
  | _ => true

theorem resultless_ev {env : Env} {cl : Caller} {s : State} {op : Op} (hr : op.resultless = true) :
    Yields (fun r => r.2.ev = .none) (body env cl s op) := by
  cases op <;> first | (cases hr; done) | skip
  all_goals
    simp only [body, collectTreasury, collectFeeDelegator, mintReferralWithAllocation, addReferralAllocation, swapProtocolFee,
      createReferralCodes, collectReferralRewards, createRecoveryKey, addAuthRule, setLevelAuth, opAddCollateral,
      removeCollateralRequest, marginOrderRequest, marginOrderTpSlRequest, opCancelRequests, opUpdatePairs, lockFee]
    repeat first
      | exact yields_pure rfl
      | (refine yields_bind (fun _ => ?_))
      | split

/-- **C66, every result once.** The events of a call report exactly the result of the call, once. -/
theorem c66_results {env : Env} {cl : Caller} {s s' : State} {op : Op} {o : Out} {l : List Event}
    (h : stepL env cl s op = Except.ok (s', o, l)) : l.filterMap Event.result = o.ev.announced := by
  replace h := stepL_body h
  have hb := bodyL_body h
  by_cases hr : op.resultless = true
  · rw [show o.ev = .none from resultless_ev hr _ hb]
    cases op <;> first | (cases hr; done) | skip
    all_goals first
      | (simp only [bodyL, silent, announcing, bind_ok, pure_ok, Prod.mk.injEq] at h
         obtain ⟨r, hr, rfl, rfl, rfl⟩ := h
         rfl)
      | skip
    case updatePairs ids u =>
      simp only [bodyL, opUpdatePairsL, bind_ok, pure_ok, Prod.mk.injEq] at h
      obtain ⟨_, -, ⟨pool, _⟩, -, _, -, -, -, rfl⟩ := h
      exact pairEvents_result _
    case addCollateral f a t =>
      simp only [bodyL, opAddCollateralL, bind_ok, pure_ok, Prod.mk.injEq] at h
      obtain ⟨_, -, _, -, _, -, _, -, _, -, -, -, rfl⟩ := h
      simp only [List.filterMap_cons, List.filterMap_append, List.filterMap_nil, pairEvents_result, requestEvents_result, List.append_nil]
      rfl
    all_goals
      obtain ⟨acc, hacc⟩ : ∃ acc, s.accounts.get _ = some acc := by
        rcases body_account hb rfl with ⟨_, _, h⟩ | ⟨_, _, _, ⟨_, _, _, hh⟩, _⟩
        · exact h
        · cases hh
      obtain ⟨v, acc', -, -, -, rfl, -⟩ := holderL h rfl rfl hacc
      exact requestEvents_result v
  · cases op <;> first | exact absurd rfl hr | skip
    case addLiquidity b =>
      simp only [bodyL, opAddLiquidityL, bind_ok, pure_ok, Prod.mk.injEq] at h
      obtain ⟨_, -, ⟨⟩, -, ⟨pool, _, _, ev⟩, -, _, -, -, rfl, rfl⟩ := h
      simp only [List.filterMap_cons, List.filterMap_append, List.filterMap_nil, pairEvents_result, requestEvents_result, List.append_nil]
      rfl
    case removeLiquidity b =>
      simp only [bodyL, opRemoveLiquidityL, bind_ok, pure_ok, Prod.mk.injEq] at h
      obtain ⟨_, -, ⟨⟩, -, ⟨pool, _, _, ev⟩, -, -, rfl, rfl⟩ := h
      simp only [List.filterMap_cons, List.filterMap_append, List.filterMap_nil, pairEvents_result, requestEvents_result, List.append_nil]
      rfl
    case createAccount a f r t c =>
      simp only [bodyL, createAccountL, bind_ok, pure_ok, Prod.mk.injEq] at h
      obtain ⟨⟨⟩, -, ⟨⟩, -, ⟨_, rid, _⟩, -, _, -, ⟨_, w⟩, -, _, -, -, rfl, rfl⟩ := h
      simp only [List.filterMap_cons, List.filterMap_append, List.filterMap_nil, pairEvents_result, requestEvents_result, List.append_nil]
      rfl
    case swapDebt a r p u =>
      simp only [bodyL, opSwapDebtL, bind_ok, pure_ok, Prod.mk.injEq] at h
      obtain ⟨⟨⟩, -, _, -, ⟨_, _, _⟩, -, ⟨w, _, _, e⟩, -, _, -, -, rfl, rfl⟩ := h
      simp only [List.filterMap_cons, List.filterMap_append, List.filterMap_nil, pairEvents_result, requestEvents_result, List.append_nil]
      rfl
    case liquidate a p u =>
      simp only [bodyL, opLiquidateL, bind_ok, pure_ok, Prod.mk.injEq] at h
      obtain ⟨⟨⟩, -, v, -, ⟨_, c, _⟩, -, ⟨w, _, e⟩, -, _, -, _, -, -, rfl, rfl⟩ := h
      simp only [List.filterMap_cons, List.filterMap_append, List.filterMap_nil, pairEvents_result, requestEvents_result, List.append_nil]
      rfl
    case autoDeleverage a p u =>
      simp only [bodyL, opAutoDeleverageL, bind_ok, pure_ok, Prod.mk.injEq] at h
      obtain ⟨v, -, ⟨_, c, _⟩, -, ⟨w, e⟩, -, _, -, _, -, -, rfl, rfl⟩ := h
      simp only [List.filterMap_cons, List.filterMap_append, List.filterMap_nil, pairEvents_result, requestEvents_result, List.append_nil]
      rfl
    case processRequest a i u =>
      simp only [bodyL, processRequestL, bind_ok, pure_ok, Prod.mk.injEq] at h
      obtain ⟨v, -, ⟨v1, r, expired⟩, -, cfg, -, ⟨s1, out, l⟩, hpb, s3, -, -, rfl, rfl⟩ := h
      unfold processBodyL at hpb
      cases expired
      · simp only [Bool.false_eq_true, if_false, bind_ok, pure_ok, Prod.mk.injEq] at hpb
        obtain ⟨⟨s4, c, pool⟩, -, ⟨w, out', l'⟩, hx, s5, -, -, rfl, rfl⟩ := hpb
        cases r with
        | removeCollateral q =>
          simp only [executeRequestL, bind_ok, pure_ok, Prod.mk.injEq] at hx
          obtain ⟨⟨w', tokens⟩, -, -, rfl, rfl⟩ := hx
          simp only [List.filterMap_cons, List.filterMap_append, List.filterMap_nil, pairEvents_result, requestEvents_result, List.append_nil,
            Event.result, buckets_back]
          rfl
        | marginOrder q =>
          simp only [executeRequestL, bind_ok, pure_ok, Prod.mk.injEq] at hx
          obtain ⟨⟨w', e⟩, -, -, rfl, rfl⟩ := hx
          simp only [List.filterMap_cons, List.filterMap_append, List.filterMap_nil, pairEvents_result, requestEvents_result, List.append_nil]
          rfl
      · simp only [if_true, bind_ok, pure_ok, Prod.mk.injEq] at hpb
        obtain ⟨s5, -, -, rfl, rfl⟩ := hpb
        exact requestEvents_result _

theorem load_addr {s : State} {a : Addr} {v : VAccount} (h : s.load a = Except.ok v) : v.addr = a := by
  obtain ⟨_, _, -, -, rfl⟩ := load_ok h; rfl

/-- **C66, no other account.** The events of a call that are about an account are about the account the call names. -/
theorem c66_accounts {env : Env} {cl : Caller} {s s' : State} {op : Op} {o : Out} {l : List Event} {e : Event} {b : Addr}
    (h : stepL env cl s op = Except.ok (s', o, l)) (he : e ∈ l) (hb : e.account = some b) : op.account = some b := by
  replace h := stepL_body h
  have hbd := bodyL_body h
  have fin : ∀ {a : Addr} {w : W} {pre : List Event}, w.acc.addr = a → (∀ x ∈ pre, ∀ y, x.account = some y → y = a) →
      (e ∈ pre ∨ e ∈ w.pool.pairEvents ∨ e ∈ w.acc.requestEvents) → some a = some b := by
    intro a w pre ha hp hx
    rcases hx with hx | hx | hx
    · rw [hp e hx b hb]
    · rw [pairEvents_account hx] at hb; cases hb
    · rw [requestEvents_account hx, ha] at hb; exact hb
  cases op <;> first
    | (simp only [bodyL, silent, bind_ok, pure_ok, Prod.mk.injEq] at h
       obtain ⟨r, hr, rfl, rfl, rfl⟩ := h
       cases he; done)
    | (simp only [bodyL, announcing, bind_ok, pure_ok, Prod.mk.injEq] at h
       obtain ⟨r, hr, rfl, rfl, rfl⟩ := h
       rw [List.mem_singleton] at he; subst he; cases hb; done)
    | skip
  case updatePairs ids u =>
    simp only [bodyL, opUpdatePairsL, bind_ok, pure_ok, Prod.mk.injEq] at h
    obtain ⟨_, -, ⟨pool, _⟩, -, _, -, -, -, rfl⟩ := h
    rw [pairEvents_account he] at hb; cases hb
  case addLiquidity b' =>
    simp only [bodyL, opAddLiquidityL, bind_ok, pure_ok, Prod.mk.injEq] at h
    obtain ⟨_, -, ⟨⟩, -, ⟨pool, _, _, ev⟩, -, _, -, -, -, rfl⟩ := h
    rcases List.mem_cons.mp he with rfl | he
    · cases hb
    · rw [pairEvents_account he] at hb; cases hb
  case removeLiquidity b' =>
    simp only [bodyL, opRemoveLiquidityL, bind_ok, pure_ok, Prod.mk.injEq] at h
    obtain ⟨_, -, ⟨⟩, -, ⟨pool, _, _, ev⟩, -, -, -, rfl⟩ := h
    rcases List.mem_cons.mp he with rfl | he
    · cases hb
    · rw [pairEvents_account he] at hb; cases hb
  case createAccount a f r t c =>
    simp only [bodyL, createAccountL, bind_ok, pure_ok, Prod.mk.injEq] at h
    obtain ⟨⟨⟩, -, ⟨⟩, -, ⟨_, rid, ex⟩, -, v, hv, ⟨s1, w⟩, hd, _, -, -, -, rfl⟩ := h
    have ha : w.acc.addr = a := by
      obtain ⟨_, _, w0, -, h1, -, -, -, rfl, -⟩ := depositTokens_ok hd
      exact (addCollateral_path (ex := ExchangeConfig.dflt) h1).frame.1.trans (load_addr hv)
    refine fin (pre := [.addCollateral a (amountsOf (t ++ ex)), .accountCreation a rid]) ha ?_ ?_
    · intro x hx y hy
      rcases List.mem_cons.mp hx with rfl | hx
      · cases hy; rfl
      · rw [List.mem_singleton] at hx; subst hx; cases hy; rfl
    simp only [ha, List.mem_cons, List.mem_append, List.not_mem_nil, or_false] at he ⊢
    tauto
  case addCollateral f a t =>
    simp only [bodyL, opAddCollateralL, bind_ok, pure_ok, Prod.mk.injEq] at h
    obtain ⟨⟨⟩, -, v, hv, ⟨⟩, -, ⟨s1, w⟩, hd, _, -, -, -, rfl⟩ := h
    have ha : w.acc.addr = a := by
      obtain ⟨_, _, w0, -, h1, -, -, -, rfl, -⟩ := depositTokens_ok hd
      exact (addCollateral_path (ex := ExchangeConfig.dflt) h1).frame.1.trans (load_addr hv)
    refine fin (pre := [.addCollateral a (amountsOf t)]) ha (by simp [Event.account]) ?_
    simpa [ha] using he
  case swapDebt a r p u =>
    simp only [bodyL, opSwapDebtL, bind_ok, pure_ok, Prod.mk.injEq] at h
    obtain ⟨⟨⟩, -, v, hv, ⟨_, c, _⟩, -, ⟨w, _, _, e'⟩, hx, _, -, -, -, rfl⟩ := h
    have ha : w.acc.addr = a := (swapDebt_path (ex := ExchangeConfig.dflt) hx).frame.1.trans (load_addr hv)
    refine fin (pre := [.swapDebt a e']) ha (by simp [Event.account]) ?_
    simpa [ha, or_comm] using he
  case liquidate a p u =>
    simp only [bodyL, opLiquidateL, bind_ok, pure_ok, Prod.mk.injEq] at h
    obtain ⟨⟨⟩, -, v, hv, ⟨_, c, _⟩, -, ⟨w, _, e'⟩, hx, _, -, _, -, -, -, rfl⟩ := h
    have ha : w.acc.addr = a := (liquidate_path hx).frame.1.trans (load_addr hv)
    refine fin (pre := [.validStart a w.acc.validStart,
        .liquidate a (v.positions.entries.map (fun x => (x.1, x.2.amount))) (c.positionPrices v) (c.collateralPrices v) e'])
      ha (by simp [Event.account]) ?_
    simp only [ha, List.mem_cons, List.mem_append, List.not_mem_nil, or_false] at he ⊢
    tauto
  case autoDeleverage a p u =>
    simp only [bodyL, opAutoDeleverageL, bind_ok, pure_ok, Prod.mk.injEq] at h
    obtain ⟨v, hv, ⟨_, c, _⟩, -, ⟨w, e'⟩, hx, _, -, _, -, -, -, rfl⟩ := h
    have ha : w.acc.addr = a := (autoDeleverage_path hx).frame.1.trans (load_addr hv)
    refine fin (pre := [.adl a e']) ha (by simp [Event.account]) ?_
    simpa [ha, or_comm] using he
  case processRequest a i u =>
    simp only [bodyL, processRequestL, bind_ok, pure_ok, Prod.mk.injEq] at h
    obtain ⟨v, hv, ⟨v1, r, expired⟩, hpr, cfg, -, ⟨s1, out, l⟩, hpb, s3, -, -, -, rfl⟩ := h
    have hv1 : v1.addr = a := by
      have := processRequest_reqOnly hpr
      unfold ReqOnly at this
      rw [this]; exact (load_addr hv :)
    unfold processBodyL at hpb
    cases expired
    · simp only [Bool.false_eq_true, if_false, bind_ok, pure_ok, Prod.mk.injEq] at hpb
      obtain ⟨⟨s4, c, pool⟩, -, ⟨w, out', l'⟩, hx, s5, -, -, -, rfl⟩ := hpb
      have hx' : executeRequest c { pool, acc := v1, dist := s4.dist } r = Except.ok (w, out') := by
        rw [← executeRequestL_erase, hx]; rfl
      have ha : w.acc.addr = a := (executeRequest_path hx').frame.1.trans hv1
      refine fin (pre := l') ha ?_ (by simpa [or_assoc] using he)
      cases r with
      | removeCollateral q =>
        simp only [executeRequestL, bind_ok, pure_ok, Prod.mk.injEq] at hx
        obtain ⟨⟨w', tokens⟩, -, rfl, -, rfl⟩ := hx
        intro x hx y hy
        rw [List.mem_singleton] at hx; subst hx; cases hy; exact ha
      | marginOrder q =>
        simp only [executeRequestL, bind_ok, pure_ok, Prod.mk.injEq] at hx
        obtain ⟨⟨w', e⟩, -, rfl, -, rfl⟩ := hx
        intro x hx y hy
        rw [List.mem_singleton] at hx; subst hx; cases hy; exact ha
    · simp only [if_true, bind_ok, pure_ok, Prod.mk.injEq] at hpb
      obtain ⟨s5, -, -, -, rfl⟩ := hpb
      rw [requestEvents_account he, hv1] at hb; exact hb
  all_goals
    obtain ⟨acc, hacc⟩ : ∃ acc, s.accounts.get _ = some acc := by
      rcases body_account hbd rfl with ⟨_, _, h⟩ | ⟨_, _, _, ⟨_, _, _, hh⟩, _⟩
      · exact h
      · cases hh
    obtain ⟨v, acc', hB, -, -, rfl, -⟩ := holderL h rfl rfl hacc
    rw [requestEvents_account he, hB.addr] at hb; exact hb

/-! ## Effected requests -/

theorem buildM_total {K V : Type} [DecidableEq K] {f : K → R V} : ∀ {ks : List K}, (∀ k ∈ ks, ∃ v, f k = Except.ok v) →
    ∃ m, AMap.buildM f ks = Except.ok m
  | [], _ => ⟨_, rfl⟩
  | k :: ks, h => by
    obtain ⟨m, hm⟩ := buildM_total (ks := ks) (fun x hx => h x (List.mem_cons_of_mem _ hx))
    obtain ⟨v, hv⟩ := h k (List.mem_cons_self ..)
    exact ⟨_, by simp only [AMap.buildM, bind_ok, pure_ok]; exact ⟨v, hv, m, hm, rfl⟩⟩

theorem keeperRequest_total {v : VAccount} {i : Nat} (hi : RInv v) (h : i < v.requestsLen) :
    ∃ r, v.keeperRequest i = Except.ok r := by
  unfold VAccount.keeperRequest
  cases v.requestUpdates.get i with
  | some r => exact ⟨r, rfl⟩
  | none =>
    rw [hi.len] at h
    exact ⟨v.comp.requests[i], by rw [expect_ok]; exact List.getElem?_eq_getElem h⟩

theorem keeperRequests_total {v : VAccount} {is : List Nat} (hi : RInv v) (h : ∀ j ∈ is, j < v.requestsLen) :
    ∃ krs, v.keeperRequests is = Except.ok krs :=
  buildM_total (fun j hj => keeperRequest_total hi (h j hj))

theorem keeperRequests_bound {v : VAccount} {is : List Nat} {krs : AMap Nat KeeperRequest} (hi : RInv v)
    (h : v.keeperRequests is = Except.ok krs) : ∀ j ∈ is, j < v.requestsLen := by
  intro j hj
  obtain ⟨r, hr, -⟩ := (AMap.buildM_ok h).1 j hj
  exact (keeperRequest_reqs hi hr).2

/-- What is returned: the listed requests whose status is one of the phases, each once. -/
theorem effected_spec {v : VAccount} {is : List Nat} {st : Status} {ph : List Status} (hi : RInv v)
    (h : ∀ j ∈ is, j < v.requestsLen) (hph : statusPhases st = Except.ok ph) :
    (v.effected is st).Nodup ∧
    ∀ j, j ∈ v.effected is st ↔ j ∈ is ∧ ∃ q : KeeperRequest, v.reqs[j]? = some q ∧ q.status ∈ ph := by
  obtain ⟨krs, hk⟩ := keeperRequests_total hi h
  have he : v.effected is st = (krs.entries.filter (fun e => decide (e.2.status ∈ ph))).map Prod.fst := by
    unfold VAccount.effected; rw [hph, hk]
  rw [he]
  refine ⟨krs.nodup.sublist (List.filter_sublist.map _), fun j => ?_⟩
  simp only [List.mem_map, List.mem_filter, decide_eq_true_eq]
  constructor
  · rintro ⟨e, ⟨h1, h2⟩, rfl⟩
    exact ⟨(keeperRequests_keys hk _).mp (List.mem_map_of_mem h1), e.2, (keeperRequests_entries hi hk e h1).1, h2⟩
  · rintro ⟨hj, q, hq, hs⟩
    obtain ⟨e, h1, rfl⟩ := List.mem_map.mp ((keeperRequests_keys hk j).mpr hj)
    have := (keeperRequests_entries hi hk e h1).1
    rw [hq] at this; cases this
    exact ⟨e, ⟨h1, hs⟩, rfl⟩

theorem activate_total {l : List (Nat × KeeperRequest)} : ∀ (v : VAccount), ∃ v',
    l.foldlM (VAccount.trySetOne STATUS_ACTIVE [STATUS_DORMANT]) v = Except.ok v' := by
  induction l with
  | nil => intro v; exact ⟨v, rfl⟩
  | cons e l ih =>
    intro v
    simp only [List.foldlM_cons, bind_ok]
    have : ∃ v1, v.trySetOne STATUS_ACTIVE [STATUS_DORMANT] e = Except.ok v1 := by
      unfold VAccount.trySetOne VAccount.moveActive
      have hp : pending STATUS_ACTIVE = true := by decide
      rw [hp]
      split
      · exact ⟨_, rfl⟩
      · rw [if_pos rfl]; split <;> exact ⟨_, rfl⟩
    obtain ⟨v1, h1⟩ := this
    obtain ⟨v2, h2⟩ := ih v1
    exact ⟨v2, v1, h1, h2⟩

theorem phases_active : statusPhases STATUS_ACTIVE = Except.ok [STATUS_DORMANT] := rfl

theorem phases_cancelled : statusPhases STATUS_CANCELLED = Except.ok [STATUS_ACTIVE, STATUS_DORMANT] := rfl

/-- The two lists of an order: the dormant requests it names for activation, and the pending ones it names for cancellation. -/
theorem effects_spec {c : Ctx} {w w' : W} {r : MarginOrderReq} {e : MarginOrderEv} (hi : RInv w.acc)
    (h : marginOrder c w r = Except.ok (w', e)) :
    (w.acc.effects r).1.Nodup ∧ (w.acc.effects r).2.Nodup ∧
    (∀ j, j ∈ (w.acc.effects r).1 ↔
      j ∈ r.activate ∧ ∃ q : KeeperRequest, w.acc.reqs[j]? = some q ∧ q.status = STATUS_DORMANT) ∧
    (∀ j, j ∈ (w.acc.effects r).2 ↔ j ∈ r.cancel ∧ ∃ q : KeeperRequest, w.acc.reqs[j]? = some q ∧
      (q.status = STATUS_ACTIVE ∨ q.status = STATUS_DORMANT)) := by
  obtain ⟨w3, a1, a2, ht, h2, h3, -⟩ := marginOrder_touches h
  have hq := ht.reqPart
  have i3 : RInv w3.acc := rinv_congr hq hi
  have i4 := (trySetStatus_inv i3 (Or.inl rfl) h2).1
  have o1 : a1.requestsLen = w.acc.requestsLen := by
    have := trySetStatus_reqOnly h2
    unfold ReqOnly at this
    rw [this]; exact (reqPart_eq hq).2.1
  simp only [VAccount.trySetStatus, bind_ok] at h2 h3
  obtain ⟨_, -, k1, hk1, -⟩ := h2
  obtain ⟨_, -, k2, hk2, -⟩ := h3
  have b1 : ∀ j ∈ r.activate, j < w.acc.requestsLen := by
    rw [← (reqPart_eq hq).2.1]; exact keeperRequests_bound i3 hk1
  have b2 : ∀ j ∈ r.cancel, j < w.acc.requestsLen := by
    rw [← o1]; exact keeperRequests_bound i4 hk2
  obtain ⟨k, hk⟩ := keeperRequests_total hi b1
  obtain ⟨v, hv⟩ := activate_total (l := k.entries) w.acc
  have hv' : w.acc.trySetStatus r.activate STATUS_ACTIVE = Except.ok v := by
    simp only [VAccount.trySetStatus, bind_ok]
    exact ⟨_, phases_active, k, hk, hv⟩
  obtain ⟨i5, -, ph, hph, hr⟩ := trySetStatus_inv hi (Or.inl rfl) hv'
  rw [phases_active] at hph; cases hph
  have hlen : v.requestsLen = w.acc.requestsLen := by
    have := trySetStatus_reqOnly hv'
    unfold ReqOnly at this
    rw [this]
  obtain ⟨n1, m1⟩ := effected_spec hi b1 phases_active
  obtain ⟨n2, m2⟩ := effected_spec (v := v) i5 (by rw [hlen]; exact b2) phases_cancelled
  have he : (w.acc.effects r).2 = v.effected r.cancel STATUS_CANCELLED := by
    unfold VAccount.effects; rw [hv']
  refine ⟨n1, by rw [he]; exact n2, fun j => by simpa [VAccount.effects] using m1 j, fun j => ?_⟩
  rw [he, m2 j, hr j]
  refine and_congr_right fun _ => ?_
  cases hg : w.acc.reqs[j]? with
  | none => simp
  | some q =>
    simp only [Option.map_some, Option.some.injEq, exists_eq_left', List.mem_cons, List.not_mem_nil, or_false]
    unfold restatus
    split
    · rename_i hc
      have : q.status = STATUS_DORMANT := by simpa using hc.2
      simp [this]
    · rfl

/-! ## Orders -/

/-- **C66, orders.** The event of an executed order is about the account and the request of the call; it carries the request's pair
and price limit and the price now stored in the oracle, which satisfies that limit; its two amounts add up to the change of the
position; its first list names, each once, the dormant requests the order has activated, its second the pending requests it has
cancelled: the status of every other request (but the executed one) is what it was. -/
theorem c66_order {env : Env} {cl : Caller} {s s' : State} {a b : Addr} {i : Nat} {pu : Option PriceUpdate} {o : Out}
    {l : List Event} {e : MarginOrderEv} {limit : PriceLimit} {act can : List Nat} (h0 : Reach env s)
    (h : stepL env cl s (.processRequest a i pu) = Except.ok (s', o, l)) (he : Event.order b e limit act can ∈ l) :
    ∃ acc acc' kr r t, s.accounts.get a = some acc ∧ s'.accounts.get a = some acc' ∧ b = a ∧
      acc.requests[i]? = some kr ∧ kr.request = .marginOrder r ∧ e.pair = r.pair ∧ limit = r.priceLimit ∧
      s'.oracle.prices.get r.pair = some (e.price, t) ∧ limit.Holds e.price ∧
      acc'.size r.pair = acc.size r.pair + e.amountClose + e.amountOpen ∧ act.Nodup ∧ can.Nodup ∧
      (∀ j, j ∈ act ↔ j ∈ r.activate ∧ ∃ q, acc.requests[j]? = some q ∧ q.status = STATUS_DORMANT) ∧
      (∀ j, j ∈ can ↔ j ∈ r.cancel ∧ j ≠ i ∧
        ∃ q, acc.requests[j]? = some q ∧ (q.status = STATUS_ACTIVE ∨ q.status = STATUS_DORMANT)) ∧
      ∀ j q, acc.requests[j]? = some q → ∃ q', acc'.requests[j]? = some q' ∧ q'.status =
        if j = i then STATUS_EXECUTED else if j ∈ can then STATUS_CANCELLED else if j ∈ act then STATUS_ACTIVE else q.status := by
  replace h := stepL_body h
  have hb := bodyL_body h
  simp only [bodyL, processRequestL, bind_ok, pure_ok, Prod.mk.injEq] at h
  obtain ⟨v, hv, ⟨v1, r, expired⟩, hpr, cfg, -, ⟨s1, out, l⟩, hpb, s3, hm, rfl, rfl, rfl⟩ := h
  obtain ⟨-, hs'⟩ := mintReward_ok hm
  obtain ⟨hi, acc, ha, -, hreq, -⟩ := load_rinv hv (reach_requestsOk h0)
  obtain ⟨acc2, hg2, hq⟩ := body_requests hb (reach_requestsOk h0) ha
  obtain ⟨hi1, -, -, -, kr, hkr, rfl, -, hcase, hoth⟩ := processRequest_inv hi hpr
  rw [hreq] at hkr
  have nopair : ∀ {v : VPool}, Event.order b e limit act can ∉ v.pairEvents := by
    intro v hh; unfold VPool.pairEvents at hh
    split at hh
    · cases hh
    · rw [List.mem_singleton] at hh; cases hh
  have noreq : ∀ {v : VAccount}, Event.order b e limit act can ∉ v.requestEvents := by
    intro v hh; unfold VAccount.requestEvents at hh
    split at hh
    · cases hh
    · rw [List.mem_singleton] at hh; cases hh
  unfold processBodyL at hpb
  cases expired
  swap
  · simp only [if_true, bind_ok, pure_ok, Prod.mk.injEq] at hpb
    obtain ⟨s5, -, -, -, rfl⟩ := hpb
    exact absurd he noreq
  simp only [Bool.false_eq_true, if_false, bind_ok, pure_ok, Prod.mk.injEq] at hpb
  obtain ⟨⟨s4, c, pool⟩, hk, ⟨w, out', l'⟩, hx, s5, hc, rfl, rfl, rfl⟩ := hpb
  have hx' : executeRequest c { pool, acc := v1, dist := s4.dist } kr.request = Except.ok (w, out') := by
    rw [← executeRequestL_erase, hx]; rfl
  obtain ⟨acc0, acc', hrun, hB⟩ := keeper_mk hv (processRequest_reqOnly hpr) hk (executeRequest_path hx') hc hs'
  have e1 := hrun.before
  rw [ha] at e1; cases e1
  rw [hrun.after] at hg2; cases hg2
  have he' : Event.order b e limit act can ∈ l' := by
    simp only [List.mem_append] at he
    rcases he with (he | he) | he
    · exact he
    · exact absurd he nopair
    · exact absurd he noreq
  cases hreqk : kr.request with
  | removeCollateral q =>
    rw [hreqk] at hx
    simp only [executeRequestL, bind_ok, pure_ok, Prod.mk.injEq] at hx
    obtain ⟨_, -, -, -, rfl⟩ := hx
    rw [List.mem_singleton] at he'; cases he'
  | marginOrder r =>
    rw [hreqk] at hx
    simp only [executeRequestL, bind_ok, pure_ok, Prod.mk.injEq] at hx
    obtain ⟨⟨w', e2⟩, hmo, rfl, rfl, rfl⟩ := hx
    rw [List.mem_singleton] at he'
    cases he'
    have hop := order_parts hmo
    obtain ⟨-, t, ht, -⟩ := (keeperLoad_prices hk).1 _ _ hop.price
    obtain ⟨n1, n2, m1, m2⟩ := effects_spec (w := { pool, acc := v1, dist := s4.dist }) hi1 hmo
    simp only at n1 n2 m1 m2
    obtain ⟨hact, hex⟩ : kr.status = STATUS_ACTIVE ∧ v1.reqs[i]? = some { kr with status := STATUS_EXECUTED } := by
      rcases hcase with ⟨-, -, h1, h2⟩ | ⟨h1, -⟩
      · exact ⟨h1, h2⟩
      · cases h1
    have m1' : ∀ j, j ∈ (v1.effects r).1 ↔ j ∈ r.activate ∧ ∃ q, acc.requests[j]? = some q ∧ q.status = STATUS_DORMANT := by
      intro j
      rw [m1 j]
      refine and_congr_right fun _ => ?_
      by_cases hj : j = i
      · subst hj
        rw [hex, hkr]
        simp [hact, STATUS_ACTIVE, STATUS_DORMANT, STATUS_EXECUTED]
      · rw [hoth j hj, hreq]
    have m2' : ∀ j, j ∈ (v1.effects r).2 ↔ j ∈ r.cancel ∧ j ≠ i ∧
        ∃ q, acc.requests[j]? = some q ∧ (q.status = STATUS_ACTIVE ∨ q.status = STATUS_DORMANT) := by
      intro j
      rw [m2 j]
      refine and_congr_right fun _ => ?_
      by_cases hj : j = i
      · subst hj
        rw [hex]
        simp [STATUS_ACTIVE, STATUS_DORMANT, STATUS_EXECUTED]
      · rw [hoth j hj, hreq]
        simp [hj]
    refine ⟨acc, _, kr, r, t, ha, hrun.after, hB.addr, hkr, hreqk, hop.pair, rfl, by rw [hrun.oracle]; exact ht,
      priceLimit_holds.mp hop.limit, ?_, n1, n2, m1', m2', ?_⟩
    · rw [hrun.size (reach_noEmpty h0), hop.amount, hrun.size0]
    · intro j q hjq
      cases hq with
      | same _ _ _ h => exact absurd rfl (h i pu)
      | pushed _ _ _ _ _ h => exact absurd rfl (h i pu)
      | cancelled _ _ h => cases h
      | liquidated _ _ h => cases h
      | expired _ _ _ _ _ _ _ _ _ _ _ h => cases h
      | executed i' u' kr' hop' hkr' _ _ _ _ hall =>
        cases hop'
        rw [hkr] at hkr'; cases hkr'
        rw [hall j]
        by_cases hj : j = i
        · subst hj
          have hlt : j < acc.requests.length := (List.getElem?_eq_some_iff.mp hkr).1
          refine ⟨_, by rw [List.getElem?_set_self hlt]; rfl, ?_⟩
          simp [restatus, STATUS_ACTIVE, STATUS_DORMANT, STATUS_EXECUTED]
        · rw [List.getElem?_set_ne (Ne.symm hj), hjq]
          refine ⟨_, rfl, ?_⟩
          rw [if_neg hj]
          simp only [hreqk, Request.cancels, Request.activates]
          have k1 : (j ∈ (v1.effects r).1) ↔ j ∈ r.activate ∧ q.status = STATUS_DORMANT := by rw [m1' j, hjq]; simp
          have k2 : (j ∈ (v1.effects r).2) ↔ j ∈ r.cancel ∧ (q.status = STATUS_ACTIVE ∨ q.status = STATUS_DORMANT) := by
            rw [m2' j, hjq]; simp [hj]
          simp only [k1, k2]
          unfold restatus
          by_cases c1 : j ∈ r.activate ∧ q.status = STATUS_DORMANT
          · have c1' : j ∈ r.activate ∧ q.status ∈ [STATUS_DORMANT] := by simpa using c1
            rw [if_pos c1', if_pos c1]
            by_cases c2 : j ∈ r.cancel
            · simp [c2, c1.2]
            · simp [c2]
          · have c1' : ¬ (j ∈ r.activate ∧ q.status ∈ [STATUS_DORMANT]) := by simpa using c1
            rw [if_neg c1', if_neg c1]
            by_cases c2 : j ∈ r.cancel ∧ (q.status = STATUS_ACTIVE ∨ q.status = STATUS_DORMANT)
            · rw [if_pos c2, if_pos (by simpa using c2)]
            · rw [if_neg c2, if_neg (by simpa using c2)]

/-! ## Liquidations -/

theorem noEvent_pair {v : VPool} {e : Event} (h : e ∈ v.pairEvents) : ∃ l, e = .pairUpdates l := by
  unfold VPool.pairEvents at h
  split at h
  · cases h
  · rw [List.mem_singleton] at h; exact ⟨_, h⟩

theorem noEvent_request {v : VAccount} {e : Event} (h : e ∈ v.requestEvents) : ∃ a l, e = .requests a l := by
  unfold VAccount.requestEvents at h
  split at h
  · cases h
  · rw [List.mem_singleton] at h; exact ⟨_, _, h⟩

theorem priced_keys {K V : Type} (f : K → Option Dec) (l : List (K × V)) (h : ∀ e ∈ l, ∃ y, f e.1 = some y) :
    (l.filterMap (fun x => (f x.1).map (fun y => (x.1, y)))).map Prod.fst = l.map Prod.fst := by
  induction l with
  | nil => rfl
  | cons e l ih =>
    obtain ⟨y, hy⟩ := h e (List.mem_cons_self ..)
    rw [List.filterMap_cons, hy]
    simp only [Option.map_some, List.map_cons]
    rw [ih (fun x hx => h x (List.mem_cons_of_mem _ hx))]

/-- **C66, liquidations.** The event of a liquidation is about the account of the call. It lists every position the account had, with
its size, and for each of them the price now stored in the oracle; every accepted collateral balance the account had, and for each
of them the price now stored for the feed of that collateral; and it carries the account's virtual balance before the call, the
profit of its positions and the discounted value of its collateral, which with that balance make up the reported account value. -/
theorem c66_liquidation {env : Env} {cl : Caller} {s s' : State} {a b : Addr} {pay : Bucket} {pu : Option PriceUpdate} {o : Out}
    {l : List Event} {amounts prices : List (PairId × Dec)} {collPrices : List (Res × Dec)} {e : LiquidateEv} (h0 : Reach env s)
    (h : stepL env cl s (.liquidate a pay pu) = Except.ok (s', o, l))
    (he : Event.liquidate b amounts prices collPrices e ∈ l) :
    ∃ acc acc', s.accounts.get a = some acc ∧ s'.accounts.get a = some acc' ∧ b = a ∧ o.ev = .liquidate e ∧
      amounts = acc.positions.entries.map (fun x => (x.1, x.2.amount)) ∧
      prices.map Prod.fst = acc.positions.keys ∧ (∀ p x, (p, x) ∈ prices → ∃ t, s'.oracle.prices.get p = some (x, t)) ∧
      e.collateralAmounts = acc.collateralBalances.entries.filter (fun x => s.accepts x.1) ∧
      collPrices.map Prod.fst = e.collateralAmounts.map Prod.fst ∧
      (∀ r x, (r, x) ∈ collPrices → ∃ cc t, s.config.collaterals.get r = some cc ∧ s'.oracle.prices.get cc.pairId = some (x, t)) ∧
      e.virtualBalance = acc.vb ∧
      e.positionsPnl = acc.positions.sum ((Market.during s s').pnl (s.rebateOf acc)) ∧
      e.collateralValueDiscounted = acc.collateralBalances.sum (Market.during s s').collValue ∧
      e.accountValue = e.virtualBalance + e.positionsPnl + e.collateralValueDiscounted := by
  replace h := stepL_body h
  simp only [bodyL, opLiquidateL, bind_ok, pure_ok, Prod.mk.injEq] at h
  obtain ⟨⟨⟩, -, v, hv, ⟨s1, c, pool⟩, hk, ⟨w, tokens, e2⟩, hx, s2, hc, s3, hm, rfl, rfl, rfl⟩ := h
  obtain ⟨-, hs'⟩ := mintReward_ok hm
  obtain ⟨acc, acc', hrun, hB⟩ := keeper_mk hv (reqOnly_refl v) hk (liquidate_path hx) hc hs'
  have hev0 : Event.liquidate b amounts prices collPrices e = .liquidate w.acc.addr
      (v.positions.entries.map (fun x => (x.1, x.2.amount))) (c.positionPrices v) (c.collateralPrices v) e2 := by
    simp only [List.mem_cons, List.mem_append] at he
    rcases he with he | he | he | he
    · cases he
    · exact he
    · obtain ⟨_, _, h⟩ := noEvent_request he; cases h
    · obtain ⟨_, h⟩ := noEvent_pair he; cases h
  cases hev0
  obtain ⟨w1, lp, lc, value, ac, tokens, taken, pool', w2, w3, loss, w4, fees, -, hlp, hlc, -, -, -, -, -, hdep, hst,
    hwo, hfee, hw, -, hev⟩ := liquidate_ok hx
  obtain ⟨p1, p2, p3, hu, hlo, hsn, rfl⟩ := liquidatePositions_ok hlp
  have hvp : v.positions = acc.positions := hrun.pos0
  obtain ⟨t1, t2, -, t3⟩ := liqLoop_value (p1 := p1) _ v.positions.nodup (fun e _ => rfl) hlo
  obtain ⟨c1, c2, c4, c3⟩ := liquidateCollateral_ok hrun.feeds p1 hlc
  have hbal : v.noPositions.collateralBalances = acc.collateralBalances := hrun.coll0
  have hvb : v.noPositions.vb = acc.vb := hrun.vb0
  have hbal' : v.collateralBalances = acc.collateralBalances := hrun.coll0
  simp only at c1 c2 c4 c3
  rw [hbal] at c1 c2 c4 c3
  have hacc : ∀ r, (c.cfg.colls.get r).isSome = s.accepts r := by
    intro r; rw [hrun.coll]; unfold State.accepts; simp
  have hcnt : c.counted = fun e => s.accepts e.1 := by
    funext e; exact hacc e.1
  rw [hcnt] at c4
  have hea : e.collateralAmounts = acc.collateralBalances.entries.filter (fun e => s.accepts e.1) := by rw [hev]; exact c4
  have hpool : w.pool.view PoolPosition.indexes = p1.view PoolPosition.indexes := by
    have hp : w4.pool.positions = p3.positions := by
      obtain ⟨e1, -, -, -⟩ := settleFeesReferral_ok hfee
      obtain ⟨-, rfl⟩ := writeOff_ok hwo
      have := settleAccount_ok hst
      subst this
      rw [e1]
      simp only
      rw [VPool.deposit_ok hdep]
    have h1 := snaps_indexes _ hsn
    have h2 := liqLoop_indexes _ hlo
    have : w.pool.view PoolPosition.indexes = p3.view PoolPosition.indexes := by
      funext q; rw [hw]; simp only [VPool.view, hp]
    rw [this, h1]
    exact h2
  have hsum1 : lp.pnl = acc.positions.sum ((c.market p1).pnl (s.rebateOf acc)) := by
    have hr : v.rebate = s.rebateOf acc := hrun.rebate0.symm
    rw [t1]
    simp only [hr, hvp]
    simp [AMap.sum]
  obtain ⟨-, -, m3, m4⟩ := liquidation_market hrun (p1 := p1) (pos := acc.positions) (bal := acc.collateralBalances)
    (updatePairs_size _ hu) hpool (fun p x hp => t3 (p, x) (by simp only [hvp]; exact (AMap.get_eq_some).mp hp)) c3
    PairConfig.marginMaintenance (s.rebateOf acc) acc.vb
  have hpr := keeperLoad_prices hk
  refine ⟨acc, acc', hrun.before, hrun.after, hB.addr, rfl, by rw [hvp], ?_, ?_, hea, ?_, ?_, ?_, ?_, ?_, ?_⟩
  · unfold Ctx.positionPrices
    rw [priced_keys (fun p => c.orc.prices.get p) _ (fun x hx => (t3 x hx).2.1), hvp]
    rfl
  · intro p x hx
    unfold Ctx.positionPrices at hx
    obtain ⟨y, -, hy⟩ := List.mem_filterMap.mp hx
    simp only [Option.map_eq_some_iff, Prod.mk.injEq] at hy
    obtain ⟨z, hz, rfl, rfl⟩ := hy
    obtain ⟨-, t, ht, -⟩ := hpr.1 _ _ hz
    exact ⟨t, by rw [hrun.oracle]; exact ht⟩
  · unfold Ctx.collateralPrices
    rw [priced_keys (fun r => (c.orc.priceResource r).toOption), hea, hbal']
    · simp only [hacc]
    · intro x hx
      obtain ⟨hx1, hx2⟩ := List.mem_filter.mp hx
      rw [hacc] at hx2
      obtain ⟨cc, hcc⟩ := Option.isSome_iff_exists.mp hx2
      obtain ⟨y, hy, -⟩ := hpr.2.2 _ _ hcc
      exact ⟨y, by rw [hy]; rfl⟩
  · intro r x hx
    unfold Ctx.collateralPrices at hx
    obtain ⟨y, hy1, hy⟩ := List.mem_filterMap.mp hx
    simp only [Option.map_eq_some_iff, Prod.mk.injEq] at hy
    obtain ⟨z, hz, rfl, rfl⟩ := hy
    obtain ⟨-, hx2⟩ := List.mem_filter.mp hy1
    rw [hacc] at hx2
    obtain ⟨cc, hcc⟩ := Option.isSome_iff_exists.mp hx2
    obtain ⟨x', hy', hg⟩ := hpr.2.2 _ _ hcc
    rw [hy'] at hz
    cases hz
    obtain ⟨-, t, ht, -⟩ := hpr.1 _ _ hg
    exact ⟨cc, t, hcc, by rw [hrun.oracle]; exact ht⟩
  · rw [hev]; exact hvb
  · rw [hev]; exact hsum1.trans m3
  · rw [hev]; exact c1.trans m4
  · rw [hev]; simp only; ring

/-! ## Withdrawals, debt swaps and liquidity -/

/-- A reported result is the result. -/
theorem c66_reported {env : Env} {cl : Caller} {s s' : State} {op : Op} {o : Out} {l : List Event} {e : Event} {r : Ev}
    (h : stepL env cl s op = Except.ok (s', o, l)) (he : e ∈ l) (hr : e.result = some r) : o.ev = r := by
  have hm : r ∈ o.ev.announced := by
    rw [← c66_results h]
    exact List.mem_filterMap.mpr ⟨e, he, hr⟩
  unfold Ev.announced at hm
  split at hm
  · cases hm
  · cases hm
  · rw [List.mem_singleton] at hm; exact hm.symm

/-- **C66, withdrawals.** The event of a withdrawal is about the account of the call; it carries the target of the executed request,
and lists the tokens that were paid to that target: no others were paid. -/
theorem c66_withdrawal {env : Env} {cl : Caller} {s s' : State} {a b t : Addr} {i : Nat} {pu : Option PriceUpdate} {o : Out}
    {l : List Event} {amounts : List (Res × Dec)} (h0 : Reach env s)
    (h : stepL env cl s (.processRequest a i pu) = Except.ok (s', o, l)) (he : Event.removeCollateral b t amounts ∈ l) :
    ∃ acc kr q, s.accounts.get a = some acc ∧ acc.requests[i]? = some kr ∧ kr.request = .removeCollateral q ∧
      b = a ∧ t = q.target ∧ o.paid = amounts.map (fun x => (t, (⟨x.1, x.2⟩ : Bucket))) := by
  have hba : b = a := by have := c66_accounts h he rfl; cases this; rfl
  have h := stepL_body h
  simp only [bodyL, processRequestL, bind_ok, pure_ok, Prod.mk.injEq] at h
  obtain ⟨v, hv, ⟨v1, r, expired⟩, hpr, cfg, -, ⟨s1, out, l⟩, hpb, s3, hm, rfl, rfl, rfl⟩ := h
  obtain ⟨hi, acc, ha, -, hreq, -⟩ := load_rinv hv (reach_requestsOk h0)
  obtain ⟨hi1, -, -, -, kr, hkr, rfl, -, hcase, hoth⟩ := processRequest_inv hi hpr
  rw [hreq] at hkr
  unfold processBodyL at hpb
  cases expired
  swap
  · simp only [if_true, bind_ok, pure_ok, Prod.mk.injEq] at hpb
    obtain ⟨s5, -, -, -, rfl⟩ := hpb
    obtain ⟨_, _, h⟩ := noEvent_request he; cases h
  simp only [Bool.false_eq_true, if_false, bind_ok, pure_ok, Prod.mk.injEq] at hpb
  obtain ⟨⟨s4, c, pool⟩, hk, ⟨w, out', l'⟩, hx, s5, hc, rfl, rfl, rfl⟩ := hpb
  have he' : Event.removeCollateral b t amounts ∈ l' := by
    simp only [List.mem_append] at he
    rcases he with (he | he) | he
    · exact he
    · obtain ⟨_, h⟩ := noEvent_pair he; cases h
    · obtain ⟨_, _, h⟩ := noEvent_request he; cases h
  cases hreqk : kr.request with
  | marginOrder q =>
    rw [hreqk] at hx
    simp only [executeRequestL, bind_ok, pure_ok, Prod.mk.injEq] at hx
    obtain ⟨_, -, -, -, rfl⟩ := hx
    rw [List.mem_singleton] at he'; cases he'
  | removeCollateral q =>
    rw [hreqk] at hx
    simp only [executeRequestL, bind_ok, pure_ok, Prod.mk.injEq] at hx
    obtain ⟨⟨w', tokens⟩, -, -, rfl, rfl⟩ := hx
    rw [List.mem_singleton] at he'
    cases he'
    refine ⟨acc, kr, q, ha, hkr, hreqk, hba, rfl, ?_⟩
    simp [amountsOf, List.map_map, Function.comp_def]

/-- **C66, debt swaps.** The event of a debt swap is about the account and the collateral of the call; its price is the discounted
price now in force; its amount is what the caller receives and what the account gives. -/
theorem c66_swap {env : Env} {cl : Caller} {s s' : State} {a b : Addr} {r : Res} {pay : Bucket} {pu : Option PriceUpdate} {o : Out}
    {l : List Event} {e : SwapDebtEv} (h0 : Reach env s)
    (h : stepL env cl s (.swapDebt a r pay pu) = Except.ok (s', o, l)) (he : Event.swapDebt b e ∈ l) :
    ∃ acc acc' rest, s.accounts.get a = some acc ∧ s'.accounts.get a = some acc' ∧ b = a ∧ e.resource = r ∧
      e.price = s'.market.debtPrice r ∧ o.buckets = [⟨r, e.amount⟩, ⟨BASE, rest⟩] ∧
      (acc'.collateralBalances.get r).getD 0 = (acc.collateralBalances.get r).getD 0 - e.amount := by
  have hba : b = a := by have := c66_accounts h he rfl; cases this; rfl
  have hev := c66_reported h he rfl
  have hs := stepL_step h
  obtain ⟨acc, acc', s1, c, w0, w, token, rest, e', hrun, hbk, hx, rfl⟩ := run_swapDebt (step_body hs)
  cases hev
  obtain ⟨-, -, acc2, got, repaid, taken, hg2, hbuck, -, -, -, -, -, hcoll, -⟩ := c30_swap_debt h0 hs hrun.before
  rw [hrun.after] at hg2; cases hg2
  obtain ⟨cc, pr, priceRes, amount, value, taken', pool, w1, ac, bs, -, -, hcc, hpr, hprice, -, -, -, -, -,
    -, -, -, hee⟩ := swapDebt_ok hx
  have hpr' := hrun.feeds.price hcc hpr
  obtain ⟨hmp, -⟩ := hrun.price hpr'
  have hc := hrun.coll r
  rw [hcc] at hc
  have hmk : s'.market.debtPrice r = priceRes := by
    unfold Market.debtPrice
    have : s'.market.coll r = some cc := by
      unfold State.market
      simp only [hrun.config]
      exact hc.symm
    rw [this]; simp only
    rw [hmp, hprice]
  simp only [List.cons.injEq, and_true] at hbuck
  obtain ⟨e1, e2⟩ := hbuck
  have e3 : e.amount = got := by rw [hee]; simp only; rw [e1]
  refine ⟨acc, acc', pay.amt - taken, hrun.before, hrun.after, hba, by rw [hee], by rw [hmk, hee], by rw [e1, e2, e3], ?_⟩
  have := hcoll r
  rw [if_pos rfl] at this
  rw [this, e3]

/-- **C66, liquidity.** Whatever the call: a liquidity event reports the change of the LP supply and of the pool's tokens. -/
theorem c66_liquidity {env : Env} {cl : Caller} {s s' : State} {op : Op} {o : Out} {l : List Event} {e : LiquidityEv}
    (h : stepL env cl s op = Except.ok (s', o, l)) (he : Event.liquidity e ∈ l) :
    s'.lpSupply = s.lpSupply + e.lpAmount ∧ s'.pool.baseTokens = s.pool.baseTokens + e.amount := by
  have hev : o.ev = .liquidity e := c66_reported h he rfl
  have hl := stepL_body h
  have hb := bodyL_body hl
  by_cases hr : op.resultless = true
  · rw [resultless_ev hr _ hb] at hev; cases hev
  cases op <;> first | exact absurd rfl hr | skip
  case addLiquidity b =>
    obtain ⟨cfg, fee, lp, price, -, -, -, -, -, -, rfl, -, -, ev, h1, -, h2, h3⟩ := opAddLiquidity_ok hb
    rw [hev] at h1; cases h1
    rw [h2, h3]; exact ⟨rfl, rfl⟩
  case removeLiquidity b =>
    obtain ⟨cfg, price, value, fee, x, -, -, -, -, -, -, -, -, -, rfl, -, -, -, -, ev, h1, -, h2, h3⟩ := opRemoveLiquidity_ok hb
    rw [hev] at h1; cases h1
    rw [h2, h3]; simp only; constructor <;> ring
  case createAccount a f r t c =>
    simp only [bodyL, createAccountL, bind_ok, pure_ok, Prod.mk.injEq] at hl
    obtain ⟨_, -, _, -, ⟨_, rid, ex⟩, -, v, -, ⟨s1, w⟩, -, _, -, -, rfl, -⟩ := hl
    cases hev
  case swapDebt a r p u =>
    obtain ⟨acc, acc', s1, c, w0, w, token, rest, e', -, -, -, rfl⟩ := run_swapDebt hb
    cases hev
  case liquidate a p u =>
    obtain ⟨acc0, acc', ids, s1, c, w0, w, tokens, e, -, -, -, -, rfl⟩ := run_liquidate hb
    cases hev
  case autoDeleverage a p u =>
    obtain ⟨acc0, acc', ids, s1, c, w0, w, e, -, -, -, rfl⟩ := run_adl hb
    cases hev
  case processRequest a i u =>
    simp only [bodyL, processRequestL, bind_ok, pure_ok, Prod.mk.injEq] at hl
    obtain ⟨v, -, ⟨v1, r, expired⟩, -, cfg, -, ⟨s1, out, l⟩, hpb, s3, -, -, rfl, -⟩ := hl
    unfold processBodyL at hpb
    cases expired
    · simp only [Bool.false_eq_true, if_false, bind_ok, pure_ok, Prod.mk.injEq] at hpb
      obtain ⟨⟨s4, c, pool⟩, -, ⟨w, out', l'⟩, hx, s5, -, -, rfl, -⟩ := hpb
      cases r with
      | removeCollateral q =>
        simp only [executeRequestL, bind_ok, pure_ok, Prod.mk.injEq] at hx
        obtain ⟨_, -, -, rfl, -⟩ := hx
        cases hev
      | marginOrder q =>
        simp only [executeRequestL, bind_ok, pure_ok, Prod.mk.injEq] at hx
        obtain ⟨_, -, -, rfl, -⟩ := hx
        cases hev
    · simp only [if_true, bind_ok, pure_ok, Prod.mk.injEq] at hpb
      obtain ⟨s5, -, -, rfl, -⟩ := hpb
      cases hev

/-- **C66, deleveraging.** The event of an auto-deleveraging is about the account and the pair of the call, carries the price now in
force, and its amount is the whole position, which is closed. -/
theorem c66_adl {env : Env} {cl : Caller} {s s' : State} {a b : Addr} {p : PairId} {pu : Option PriceUpdate} {o : Out}
    {l : List Event} {e : AdlEv} (h0 : Reach env s)
    (h : stepL env cl s (.autoDeleverage a p pu) = Except.ok (s', o, l)) (he : Event.adl b e ∈ l) :
    ∃ acc acc', s.accounts.get a = some acc ∧ s'.accounts.get a = some acc' ∧ b = a ∧ e.pair = p ∧
      e.price = s'.market.price p ∧ acc.size p ≠ 0 ∧ e.amountClose = -acc.size p ∧ acc'.positions.get p = none := by
  have hba : b = a := by have := c66_accounts h he rfl; cases this; rfl
  have hev := c66_reported h he rfl
  have hs := stepL_step h
  obtain ⟨acc, acc', ids, s1, c, w0, w, e1, hrun, -, hx, rfl⟩ := run_adl (step_body hs)
  cases hev
  obtain ⟨e2, _, h1, h2, -, -, -, h3, h4, acc2, h5, h6, -⟩ := c28_adl h0 hs hrun.before
  cases h1
  rw [hrun.after] at h5; cases h5
  obtain ⟨_, _, _, _, _, _, _, _, _, _, _, _, _, -, -, -, -, -, -, -, -, -, -, -, -, -, -, hee⟩ := autoDeleverage_ok hx
  exact ⟨acc, acc', hrun.before, hrun.after, hba, by rw [hee], h2.symm, h3, h4, h6⟩

end Perp
