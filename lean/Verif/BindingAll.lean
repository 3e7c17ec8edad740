import Verif.BindingRequest

/-!
# C71: no reason to refuse a call is ever waived

`c54_refusals` says that a refused call has one of the reasons listed for it.  Here the converse: a call that goes through had
none of them, so that the lists of `Op.Refused` are exactly the conditions the exchange imposes.
-/

namespace Perp

/-- The decimal settings of a configuration call are decimals: numbers of 192 bits. (In the model a `Dec` is any integer; in the
code a number outside the range of the type cannot be passed.) -/
def Op.Typed : Op → Prop
  | .updateExchangeConfig c => ∀ x ∈ c.settings, InRange x = true
  | .updatePairConfigs cs => ∀ c ∈ cs, ∀ x ∈ c.settings, InRange x = true
  | _ => True

theorem step_allowed {env : Env} {cl : Caller} {s : State} {op : Op} {r : State × Out} (h : step env cl s op = Except.ok r) :
    Permitted cl s op := by
  by_contra hp
  rcases step_not_permitted (env := env) hp with h1 | h1 <;> rw [h1] at h <;> cases h

/-- **C71, every call.** If a call goes through, the caller had the right to it and none of the reasons for which it can be
refused held. -/
theorem c71_binding {env : Env} {cl : Caller} {s s' : State} {op : Op} {o : Out} (h : Reach env s) (ht : op.Typed)
    (hs : step env cl s op = Except.ok (s', o)) : Permitted cl s op ∧ ∀ e, e ≠ .arithmetic → ¬ op.Refused env cl s e := by
  refine ⟨step_allowed hs, ?_⟩
  change Cleared _
  have hb := step_body hs
  cases op with
  | depositAuthority x =>
    simp only [body, bind_ok, require_ok, decide_eq_true_eq] at hb
    obtain ⟨⟨⟩, h0, -⟩ := hb
    rintro e he (⟨-, hn⟩ | ⟨rfl, -⟩)
    · exact absurd h0 (not_le.mpr hn)
    · exact he rfl
  | withdrawAuthority => exact fun _ _ hn => hn
  | signalUpgrade n => exact fun _ _ hn => hn
  | updateExchangeConfig c =>
    simp only [body, bind_ok] at hb
    obtain ⟨k, hk, -⟩ := hb
    obtain ⟨h1, h2⟩ := exchange_accepted ht hk
    intro e he hn
    cases e <;> try exact hn
    rcases hn with hn | ⟨x, hx, hn⟩
    · exact hn h1
    · exact absurd (h2 x hx) (not_lt.mpr hn)
  | updatePairConfigs cs =>
    simp only [body, bind_ok] at hb
    obtain ⟨k, hk, -⟩ := hb
    have h1 := foldlM_each (fun c hc k k' hk => pair_accepted (ht c hc) hk) hk
    intro e he hn
    cases e <;> try exact hn
    obtain ⟨c, hc, hn | ⟨x, hx, hn⟩⟩ := hn
    · exact hn (h1 c hc).1
    · exact absurd ((h1 c hc).2 x hx) (not_lt.mpr hn)
  | updateCollateralConfigs cs =>
    simp only [body, bind_ok] at hb
    obtain ⟨k, hk, -⟩ := hb
    have h1 : ∀ c ∈ cs, c.2.WithinBounds := by
      refine foldlM_each (fun c hc k k' hk => ?_) hk
      simp only [Config.updateCollateral, bind_ok, require_ok] at hk
      obtain ⟨⟨⟩, h0, -⟩ := hk
      exact (collateral_within _).mp h0
    intro e he hn
    cases e <;> try exact hn
    obtain ⟨c, hc, hn⟩ := hn
    exact hn (h1 c hc)
  | removeCollateralConfig r => exact fun _ _ hn => hn
  | collectTreasury =>
    obtain ⟨pool, x, hp, -⟩ := collectTreasury_ok hb
    exact payout_cleared hp
  | collectFeeDelegator =>
    obtain ⟨pool, x, hp, -⟩ := collectFeeDelegator_ok hb
    exact payout_cleared hp
  | mintReferral id a b m =>
    simp only [body, bind_ok] at hb
    obtain ⟨k, hk, -⟩ := hb
    exact mintReferral_cleared hk
  | mintReferralWithAllocation id a b m t c n => exact mintAllocation_cleared hb
  | updateReferral id a b m =>
    simp only [body, bind_ok] at hb
    obtain ⟨k, hk, -⟩ := hb
    exact updateReferral_cleared hk
  | addReferralAllocation id t c n => exact allocation_cleared hb
  | swapProtocolFee b => exact protocolSwap_cleared hb
  | addLiquidity b => exact addLiquidity_cleared h hb
  | removeLiquidity b => exact removeLiquidity_cleared hb
  | createReferralCodes id t hh => exact codes_cleared hb
  | createReferralCodesFromAllocation id i hh =>
    simp only [body, bind_ok] at hb
    obtain ⟨k, hk, -⟩ := hb
    exact allocCodes_cleared hk
  | collectReferralRewards id => exact rewards_cleared hb
  | createAccount a o r t c => exact createAccount_cleared hb
  | createRecoveryKey o a => exact createRecoveryKey_cleared hb
  | addAuthRule o a l n => exact addAuthRule_cleared hb
  | setLevelAuth o a l r => exact setLevelAuth_cleared hb
  | addCollateral o a t => exact opAddCollateral_cleared hb
  | removeCollateralRequest o x a t c => exact removeCollateralRequest_cleared h hb
  | marginOrderRequest o a args act can st => exact marginOrderRequest_cleared h hb
  | marginOrderTpSlRequest o a args tp sl => exact marginOrderTpSl_cleared h hb
  | cancelRequests o a is => exact cancelRequests_cleared h hb
  | processRequest a i u => exact request_cleared h hb
  | swapDebt a r b u => exact swapDebt_cleared hb
  | liquidate a b u => exact liquidate_cleared h hb
  | autoDeleverage a p u => exact adl_cleared h hb
  | updatePairs ids u => exact updatePairs_cleared hb
  | setRole r rule =>
    simp only [body, bind_ok] at hb
    obtain ⟨k, hk, -⟩ := hb
    exact setRole_cleared hk
  | oraclePush u =>
    simp only [body, bind_ok] at hb
    obtain ⟨k, hk, -⟩ := hb
    exact push_cleared hk
  | oracleAddKey id k =>
    simp only [body, bind_ok, Oracle.addKey, require_ok] at hb
    obtain ⟨_, ⟨⟨⟩, hk, -⟩, -⟩ := hb
    rintro e he ⟨-, hn⟩
    rw [AMap.has_iff.mpr hn] at hk
    cases hk
  | oracleRemoveKey id => exact fun _ _ hn => hn
  | oracleRemovePrice p => exact fun _ _ hn => hn
  | delegatorMaxLock x =>
    simp only [body, bind_ok, Delegator.updateMaxLock, require_ok, decide_eq_true_eq] at hb
    obtain ⟨_, ⟨⟨⟩, hk, -⟩, -⟩ := hb
    rintro e he ⟨-, hn⟩
    exact absurd hk (not_le.mpr hn)
  | delegatorMultiplier x =>
    simp only [body, bind_ok, Delegator.updateMultiplier, require_ok, decide_eq_true_eq] at hb
    obtain ⟨_, ⟨⟨⟩, hk, -⟩, -⟩ := hb
    rintro e he ⟨-, hn⟩
    exact absurd hk (not_le.mpr hn)
  | delegatorContingent b => exact fun _ _ hn => hn
  | delegatorDeposit x =>
    simp only [body, bind_ok, Delegator.deposit, require_ok, decide_eq_true_eq] at hb
    obtain ⟨_, ⟨⟨⟩, hk, -⟩, -⟩ := hb
    rintro e he (⟨-, hn⟩ | ⟨rfl, -⟩)
    · exact absurd hk (not_le.mpr hn)
    · exact he rfl
  | delegatorWithdraw x =>
    simp only [body, bind_ok, Delegator.withdraw, takeAmount_ok] at hb
    obtain ⟨_, ⟨y, ⟨h1, h2, -, h3⟩, -⟩, -⟩ := hb
    have hx : amountFor 1 x .toZero = x := by simp [amountFor]
    rw [hx] at h1
    subst h1
    rintro e he ⟨-, hn | hn⟩
    · exact absurd h2 (not_le.mpr hn)
    · exact absurd h3 (not_le.mpr hn)
  | lockFee x => exact lockFee_cleared hb
  | tick t =>
    simp only [body, bind_ok, require_ok, decide_eq_true_eq] at hb
    obtain ⟨⟨⟩, h0, -⟩ := hb
    rintro e he ⟨-, hn | hn⟩
    · exact absurd h0.1 (not_le.mpr hn)
    · exact absurd h0.2 (not_le.mpr hn)

/-- **C71, exactly.** A call in which no number leaves the range of the decimal type goes through exactly if the caller has the
right to it and none of the listed reasons holds. -/
theorem c71_exact {env : Env} {cl : Caller} {s : State} {op : Op} (h : Reach env s) (hw : s.RewardWhole env) (ht : op.Typed)
    (hn : step env cl s op ≠ Except.error .arithmetic) :
    (∃ r, step env cl s op = Except.ok r) ↔ Permitted cl s op ∧ ∀ e, e ≠ .arithmetic → ¬ op.Refused env cl s e := by
  constructor
  · rintro ⟨⟨s', o⟩, hs⟩
    exact c71_binding h ht hs
  · rintro ⟨hp, hc⟩
    cases hs : step env cl s op with
    | ok r => exact ⟨r, rfl⟩
    | error e =>
      rcases c54_refusals h hw hs with ⟨h1, -⟩ | ⟨-, h1⟩
      · exact absurd hp h1
      · exact absurd h1 (hc e (fun he => hn (by rw [hs, he])))

/-- **C71.** A call that the caller has the right to and for which one of the listed reasons holds is refused. -/
theorem c71_refused {env : Env} {cl : Caller} {s : State} {op : Op} (h : Reach env s) (ht : op.Typed) {e : Err}
    (he : e ≠ .arithmetic) (hr : op.Refused env cl s e) : ∃ e', step env cl s op = Except.error e' := by
  cases hs : step env cl s op with
  | ok r => exact absurd hr ((c71_binding h ht hs).2 e he)
  | error e' => exact ⟨e', rfl⟩

end Perp
