import Verif.Shape

/-!
# Frames of the elementary effects

Which fields of the loaded account each elementary effect leaves alone.
-/

namespace Perp

/-- `b` differs from `a` at most in the buffered request changes. -/
def ReqOnly (a b : VAccount) : Prop :=
  b = { a with activeLen := b.activeLen, requestAdditions := b.requestAdditions
               requestUpdates := b.requestUpdates, activeAdditions := b.activeAdditions
               activeRemovals := b.activeRemovals }

theorem ReqOnly.refl (a : VAccount) : ReqOnly a a := rfl

theorem ReqOnly.trans {a b c : VAccount} (h1 : ReqOnly a b) (h2 : ReqOnly b c) : ReqOnly a c := by
  unfold ReqOnly at *; rw [h2, h1]

/-- `b` differs from `a` at most in the recorded collateral and the collateral vaults. -/
def CollOnly (a b : VAccount) : Prop :=
  b = { a with collateralBalances := b.collateralBalances
               comp := { a.comp with collateralBalances := b.comp.collateralBalances
                                     collateral := b.comp.collateral } }

theorem foldlM_rel {α β : Type} {P : β → β → Prop} (hr : ∀ a, P a a)
    (ht : ∀ a b c, P a b → P b c → P a c) {f : β → α → R β}
    (hf : ∀ b a b', f b a = Except.ok b' → P b b') (l : List α) :
    ∀ {b b' : β}, l.foldlM f b = Except.ok b' → P b b' := by
  induction l with
  | nil =>
    intro b b' h
    simp only [List.foldlM_nil, pure_ok] at h
    subst h; exact hr _
  | cons a l ih =>
    intro b b' h
    simp only [List.foldlM_cons, bind_ok] at h
    obtain ⟨b1, h1, h2⟩ := h
    exact ht _ _ _ (hf _ _ _ h1) (ih h2)

theorem pushRequest_reqOnly {v v' : VAccount} {now : Int} {r : Request} {d e : Nat} {st : Status}
    {eff : List Addr} (h : v.pushRequest now r d e st eff = Except.ok v') : ReqOnly v v' := by
  simp only [VAccount.pushRequest, bind_ok, pure_ok, VAccount.addActive] at h
  obtain ⟨-, -, _, -, _, -, rfl⟩ := h
  rfl

theorem removeActive_ok {v v' : VAccount} {i : Nat} (h : v.removeActive i = Except.ok v') :
    0 < v.activeLen ∧
    v' = { v with activeLen := v.activeLen - 1, activeRemovals := v.activeRemovals ++ [i] } := by
  simp only [VAccount.removeActive, bind_ok, pure_ok, require_ok, decide_eq_true_eq] at h
  obtain ⟨-, h0, rfl⟩ := h
  exact ⟨h0, rfl⟩

theorem moveActive_reqOnly {v v' : VAccount} {i : Nat} {a b : Status}
    (h : v.moveActive i a b = Except.ok v') : ReqOnly v v' := by
  unfold VAccount.moveActive at h
  split at h <;> split at h
  · simp only [pure_ok] at h; subst h; rfl
  · simp only [pure_ok] at h; subst h; rfl
  · rw [(removeActive_ok h).2]; rfl
  · simp only [pure_ok] at h; subst h; rfl

theorem trySetOne_reqOnly {v v' : VAccount} {st : Status} {ph : List Status} {e : Nat × KeeperRequest}
    (h : v.trySetOne st ph e = Except.ok v') : ReqOnly v v' := by
  unfold VAccount.trySetOne at h
  split at h
  · simp only [pure_ok] at h; subst h; rfl
  · simp only [bind_ok, pure_ok] at h
    obtain ⟨v1, h1, rfl⟩ := h
    exact (moveActive_reqOnly h1).trans rfl

theorem trySetStatus_reqOnly {v v' : VAccount} {is : List Nat} {st : Status}
    (h : v.trySetStatus is st = Except.ok v') : ReqOnly v v' := by
  simp only [VAccount.trySetStatus, bind_ok] at h
  obtain ⟨ph, -, krs, -, h⟩ := h
  exact foldlM_rel ReqOnly.refl (fun _ _ _ => ReqOnly.trans) (fun _ _ _ h => trySetOne_reqOnly h) _ h

theorem cancelOne_reqOnly {v v' : VAccount} {e : Nat × KeeperRequest}
    (h : v.cancelOne e = Except.ok v') : ReqOnly v v' := by
  simp only [VAccount.cancelOne, bind_ok, pure_ok] at h
  obtain ⟨_, -, -, -, v1, h1, rfl⟩ := h
  exact (moveActive_reqOnly h1).trans rfl

theorem cancelRequests_reqOnly {v v' : VAccount} {is : List Nat}
    (h : v.cancelRequests is = Except.ok v') : ReqOnly v v' := by
  simp only [VAccount.cancelRequests, bind_ok] at h
  obtain ⟨krs, -, h⟩ := h
  exact foldlM_rel ReqOnly.refl (fun _ _ _ => ReqOnly.trans) (fun _ _ _ h => cancelOne_reqOnly h) _ h

theorem processRequest_reqOnly {v v' : VAccount} {now : Int} {i : Nat} {r : Request} {e : Bool}
    (h : v.processRequest now i = Except.ok (v', r, e)) : ReqOnly v v' := by
  simp only [VAccount.processRequest, bind_ok, pure_ok, Prod.mk.injEq] at h
  obtain ⟨-, -, kr, -, st, -, -, -, v1, h1, rfl, -⟩ := h
  rw [(removeActive_ok h1).2]; rfl

theorem depositCollateral_collOnly {v v' : VAccount} {bs : List Bucket}
    (h : v.depositCollateral bs = Except.ok v') : CollOnly v v' := by
  simp only [VAccount.depositCollateral, bind_ok, pure_ok] at h
  obtain ⟨_, -, _, -, _, -, rfl⟩ := h
  rfl

theorem withdrawCollateral_collOnly {v v' : VAccount} {env : Env} {cs : List (Res × Dec)} {st : Strategy}
    {bs : List Bucket} (h : v.withdrawCollateral env cs st = Except.ok (v', bs)) : CollOnly v v' := by
  simp only [VAccount.withdrawCollateral, bind_ok, pure_ok, Prod.mk.injEq] at h
  obtain ⟨_, -, _, -, _, -, rfl, -⟩ := h
  rfl

/-- Which fields an elementary effect can change in the account, summed up: either the account is
among these forms, or pool and distributor are untouched. -/
theorem WStep.frame {ex : ExchangeConfig} {w w' : W} {x : Dec} (h : WStep ex w w' x) :
    w'.acc.addr = w.acc.addr ∧ w'.acc.referralId = w.acc.referralId ∧
    w'.acc.requestsLen = w.acc.requestsLen ∧
    w'.acc.comp = { w.acc.comp with collateralBalances := w'.acc.comp.collateralBalances
                                    collateral := w'.acc.comp.collateral } ∧
    w'.pool.comp = { w.pool.comp with baseTokens := w'.pool.comp.baseTokens } := by
  cases h with
  | settle x => exact ⟨rfl, rfl, rfl, rfl, rfl⟩
  | base x => exact ⟨rfl, rfl, rfl, rfl, rfl⟩
  | fees h0 h =>
    obtain ⟨hp, hd, ha, -⟩ := settleFeesReferral_ok h
    rw [hp, ha]
    refine ⟨?_, ?_, ?_, ?_, rfl⟩ <;> (unfold VAccount.credited; split <;> rfl)
  | unreal x => exact ⟨rfl, rfl, rfl, rfl, rfl⟩
  | mark p price d hpp h1 h2 h3 h4 h5 => exact ⟨rfl, rfl, rfl, rfl, rfl⟩
  | touch => exact ⟨rfl, rfl, rfl, rfl, rfl⟩
  | fund p h1 h2 h3 => exact ⟨rfl, rfl, rfl, rfl, rfl⟩
  | trade p new price h1 h2 h3 h4 h5 => exact ⟨rfl, rfl, rfl, rfl, rfl⟩
  | liq p h1 h2 h3 => exact ⟨rfl, rfl, rfl, rfl, rfl⟩
  | deposit h =>
    have := depositCollateral_collOnly h
    unfold CollOnly at this
    simp only
    refine ⟨by rw [this], by rw [this], by rw [this], by rw [this], trivial⟩
  | withdraw h =>
    have := withdrawCollateral_collOnly h
    unfold CollOnly at this
    simp only
    refine ⟨by rw [this], by rw [this], by rw [this], by rw [this], trivial⟩
  | push h =>
    have := pushRequest_reqOnly h
    unfold ReqOnly at this
    simp only
    refine ⟨by rw [this], by rw [this], by rw [this], by rw [this], trivial⟩
  | setStatus h0 h =>
    have := trySetStatus_reqOnly h
    unfold ReqOnly at this
    simp only
    refine ⟨by rw [this], by rw [this], by rw [this], by rw [this], trivial⟩
  | cancel h =>
    have := cancelRequests_reqOnly h
    unfold ReqOnly at this
    simp only
    refine ⟨by rw [this], by rw [this], by rw [this], by rw [this], trivial⟩
  | process h =>
    have := processRequest_reqOnly h
    unfold ReqOnly at this
    simp only
    refine ⟨by rw [this], by rw [this], by rw [this], by rw [this], trivial⟩
  | invalidate => exact ⟨rfl, rfl, rfl, rfl, rfl⟩
  | oath x h => exact ⟨rfl, rfl, rfl, rfl, rfl⟩

theorem WPath.frame {ex : ExchangeConfig} {w w' : W} {x : Dec} (h : WPath ex w w' x) :
    w'.acc.addr = w.acc.addr ∧ w'.acc.referralId = w.acc.referralId ∧
    w'.acc.requestsLen = w.acc.requestsLen ∧
    w'.acc.comp = { w.acc.comp with collateralBalances := w'.acc.comp.collateralBalances
                                    collateral := w'.acc.comp.collateral } ∧
    w'.pool.comp = { w.pool.comp with baseTokens := w'.pool.comp.baseTokens } := by
  induction h with
  | refl => exact ⟨rfl, rfl, rfl, rfl, rfl⟩
  | tail _ hs ih =>
    obtain ⟨a1, a2, a3, a4, a5⟩ := ih
    obtain ⟨b1, b2, b3, b4, b5⟩ := hs.frame
    refine ⟨b1.trans a1, b2.trans a2, b3.trans a3, ?_, ?_⟩
    · rw [b4, a4]
    · rw [b5, a5]

/-- A property of working states kept by every elementary effect is kept by every path. -/
theorem WPath.keep {ex : ExchangeConfig} {P : W → Prop} (hs : ∀ w w' x, WStep ex w w' x → P w → P w')
    {w w' : W} {x : Dec} (h : WPath ex w w' x) (h0 : P w) : P w' := by
  induction h with
  | refl => exact h0
  | tail _ hstep ih => exact hs _ _ _ hstep ih

/-- What a written-back account looks like. -/
theorem realize_ok {v : VAccount} {acc : Account} (h : v.realize = Except.ok acc) :
    ∃ requests, v.requestUpdates.entries.foldlM requestUpdate (v.comp.requests ++ v.requestAdditions)
        = Except.ok requests ∧
      acc = { v.comp with
        positions := v.realPositions
        vb := v.vb
        validStart := if v.validStart > v.comp.validStart then v.validStart else v.comp.validStart
        requests := requests
        active := v.realActive } := by
  simp only [VAccount.realize, bind_ok, pure_ok] at h
  obtain ⟨r, hr, rfl⟩ := h
  exact ⟨r, hr, rfl⟩

end Perp
