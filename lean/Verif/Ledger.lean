import Verif.Effects
import Verif.Getters

/-!
# The virtual-balance ledger (C01, C02)

Every virtual balance is a claim on the base tokens of the pool.  The theorems say that the claims
always cancel out.
-/

namespace Perp

instance {K V : Type} [DecidableEq K] : Inhabited (AMap K V) := ⟨AMap.empty⟩
instance : Inhabited Rule := ⟨.allowAll⟩
deriving instance Inhabited for Account
deriving instance Inhabited for VAccount

/-- The balance of the account's referrer as buffered in the loaded account. -/
def VAccount.refBal (v : VAccount) : Dec := v.referralData.elim 0 ReferralData.balance

/-- Total virtual balance of a working state. -/
def W.total (w : W) : Int :=
  w.pool.vb + w.acc.vb + w.dist.protocol + w.dist.treasury + w.acc.refBal

/-- The buffered referral data belongs to the referral NFT of the account, and only its balance and
total may differ. -/
def RefOk (refs : AMap RefId ReferralData) (v : VAccount) : Prop :=
  (v.referralId = none ∧ v.referralData = none ∧ v.referralRewarded = false) ∨
  ∃ r d d0, v.referralId = some r ∧ v.referralData = some d ∧ refs.get r = some d0 ∧
    d = { d0 with balance := d.balance, totalRewarded := d.totalRewarded } ∧
    (v.referralRewarded = false → d = d0)

/-- Only the fee split touches the referral data. -/
theorem WStep.referral {ex : ExchangeConfig} {w w' : W} {x : Dec} (h : WStep ex w w' x) :
    (w'.acc.referralData = w.acc.referralData ∧ w'.acc.referralRewarded = w.acc.referralRewarded ∧
      w'.dist = w.dist) ∨
    ∃ fee f, 0 ≤ fee ∧ settleFeesReferral ex w fee = Except.ok (w', f) := by
  cases h with
  | fees h0 h => exact Or.inr ⟨_, _, h0, h⟩
  | deposit h => have := depositCollateral_collOnly h; exact Or.inl ⟨by rw [this], by rw [this], rfl⟩
  | withdraw h => have := withdrawCollateral_collOnly h; exact Or.inl ⟨by rw [this], by rw [this], rfl⟩
  | push h => have := pushRequest_reqOnly h; exact Or.inl ⟨by rw [this], by rw [this], rfl⟩
  | setStatus h0 h => have := trySetStatus_reqOnly h; exact Or.inl ⟨by rw [this], by rw [this], rfl⟩
  | cancel h => have := cancelRequests_reqOnly h; exact Or.inl ⟨by rw [this], by rw [this], rfl⟩
  | process h => have := processRequest_reqOnly h; exact Or.inl ⟨by rw [this], by rw [this], rfl⟩
  | _ => exact Or.inl ⟨rfl, rfl, rfl⟩

theorem refOk_step {refs : AMap RefId ReferralData} {ex : ExchangeConfig} {w w' : W} {x : Dec}
    (h : WStep ex w w' x) (h0 : RefOk refs w.acc) : RefOk refs w'.acc := by
  have hid := h.frame.2.1
  rcases h.referral with ⟨h1, h2, -⟩ | ⟨fee, f, -, hf⟩
  · unfold RefOk at *
    rw [hid, h1, h2]; exact h0
  · obtain ⟨-, -, ha, -⟩ := settleFeesReferral_ok hf
    unfold RefOk at *
    rcases h0 with ⟨a1, a2, a3⟩ | ⟨r, d, d0, a1, a2, a3, a4, a5⟩
    · left
      rw [hid, ha]
      simp only [VAccount.credited, a2]
      exact ⟨a1, trivial, a3⟩
    · right
      rw [hid, ha]
      simp only [VAccount.credited, a2]
      exact ⟨r, _, d0, a1, rfl, a3, by rw [a4], by simp⟩

theorem total_step {ex : ExchangeConfig} {w w' : W} {x : Dec} (h : WStep ex w w' x) :
    w'.total = w.total - x := by
  cases h with
  | settle x => simp only [W.total, VAccount.refBal]; ring
  | fees h0 h =>
    obtain ⟨hp, hd, ha, -⟩ := settleFeesReferral_ok h
    unfold W.total
    rw [hp, hd, ha]
    unfold VAccount.credited VAccount.refBal
    cases hr : w.acc.referralData with
    | none =>
      have : ∀ fee, referralPart ex w.acc fee = 0 := by
        intro fee; simp only [referralPart, VAccount.feeShareReferral, hr, mulT_zero_right]
      simp only [hr, this, Option.elim_none]; ring
    | some d => simp only [Option.elim_some]; ring
  | deposit h => have := depositCollateral_collOnly h; simp only [W.total, VAccount.refBal]; rw [this]; simp
  | withdraw h =>
    have := withdrawCollateral_collOnly h; simp only [W.total, VAccount.refBal]; rw [this]; simp
  | push h => have := pushRequest_reqOnly h; simp only [W.total, VAccount.refBal]; rw [this]; simp
  | setStatus h0 h => have := trySetStatus_reqOnly h; simp only [W.total, VAccount.refBal]; rw [this]; simp
  | cancel h => have := cancelRequests_reqOnly h; simp only [W.total, VAccount.refBal]; rw [this]; simp
  | process h => have := processRequest_reqOnly h; simp only [W.total, VAccount.refBal]; rw [this]; simp
  | oath x h => simp only [W.total, VAccount.refBal]; ring
  | _ => simp [W.total, VAccount.refBal, VPool.remark, VPool.setPosition, VAccount.setPosition,
      VAccount.touchAll, VAccount.updateValidStart]

theorem total_path {ex : ExchangeConfig} {w w' : W} {x : Dec} (h : WPath ex w w' x) :
    w'.total = w.total - x := by
  induction h with
  | refl => simp
  | tail _ hs ih => rw [total_step hs, ih]; ring

/-- The loaded account's referral data is that of the registry. -/
theorem load_refOk {s : State} {a : Addr} {v : VAccount} (h : s.load a = Except.ok v) :
    RefOk s.referrals v := by
  obtain ⟨acc, rd, -, hr, rfl⟩ := load_ok h
  rcases loadReferral_ok hr with ⟨h1, h2⟩ | ⟨r, d, h1, h2, h3⟩
  · exact Or.inl ⟨h1, h2, rfl⟩
  · exact Or.inr ⟨r, d, d, h1, h3, h2, rfl, fun _ => rfl⟩

@[simp] theorem withRule_referralId (v : VAccount) (lr : Option (Level × Rule)) :
    (v.withRule lr).referralId = v.referralId := by unfold VAccount.withRule; split <;> rfl
@[simp] theorem withRule_referralData (v : VAccount) (lr : Option (Level × Rule)) :
    (v.withRule lr).referralData = v.referralData := by unfold VAccount.withRule; split <;> rfl
@[simp] theorem withRule_referralRewarded (v : VAccount) (lr : Option (Level × Rule)) :
    (v.withRule lr).referralRewarded = v.referralRewarded := by unfold VAccount.withRule; split <;> rfl
@[simp] theorem withRule_vb (v : VAccount) (lr : Option (Level × Rule)) :
    (v.withRule lr).vb = v.vb := by unfold VAccount.withRule; split <;> rfl
@[simp] theorem withRule_addr (v : VAccount) (lr : Option (Level × Rule)) :
    (v.withRule lr).addr = v.addr := by unfold VAccount.withRule; split <;> rfl
@[simp] theorem withRule_refBal (v : VAccount) (lr : Option (Level × Rule)) :
    (v.withRule lr).refBal = v.refBal := by simp [VAccount.refBal]
@[simp] theorem withRule_positions (v : VAccount) (lr : Option (Level × Rule)) :
    (v.withRule lr).positions = v.positions := by unfold VAccount.withRule; split <;> rfl
@[simp] theorem withRule_comp_positions (v : VAccount) (lr : Option (Level × Rule)) :
    (v.withRule lr).comp.positions = v.comp.positions := by
  unfold VAccount.withRule; split
  · rename_i l r; cases l <;> rfl
  · rfl

theorem refOk_withRule {refs : AMap RefId ReferralData} {v : VAccount} {lr : Option (Level × Rule)} :
    RefOk refs (v.withRule lr) ↔ RefOk refs v := by
  simp [RefOk]

/-- Writing back the referral data moves its balance by what was buffered. -/
theorem realizeReferral_sum {refs refs' : AMap RefId ReferralData} {v : VAccount} (h0 : RefOk refs v)
    (h : v.realizeReferral refs = Except.ok refs') :
    refs'.sum (fun _ d => d.balance)
      = refs.sum (fun _ d => d.balance) - (v.referralId.elim 0 (refs.term (fun _ d => d.balance))) + v.refBal := by
  unfold VAccount.realizeReferral at h
  rcases h0 with ⟨a1, a2, a3⟩ | ⟨r, d, d0, a1, a2, a3, a4, a5⟩
  · rw [a3] at h
    simp only [Bool.false_eq_true, if_false, pure_ok] at h
    subst h
    simp [a1, a2, VAccount.refBal]
  · cases hb : v.referralRewarded with
    | false =>
      rw [hb] at h
      simp only [Bool.false_eq_true, if_false, pure_ok] at h
      subst h
      have := a5 hb
      subst this
      simp [a1, a2, VAccount.refBal, AMap.term, a3]
    | true =>
      rw [hb] at h
      simp only [if_true, bind_ok, pure_ok, expect_ok] at h
      obtain ⟨r', hr', d', hd', old, hold, rfl⟩ := h
      rw [a1] at hr'; cases hr'
      rw [a2] at hd'; cases hd'
      rw [AMap.sum_set]
      simp [a1, a2, VAccount.refBal]

/-- **Specification of C01**: everything recorded as a virtual balance. -/
def State.ledgerTotal (s : State) : Int :=
  s.pool.vb + s.accounts.sum (fun _ a => a.vb) + s.dist.protocol + s.dist.treasury
    + s.referrals.sum (fun _ d => d.balance) + s.delegator.vb

theorem accOp_ledger {s s' : State} {a : Addr} {lr : Option (Level × Rule)} (h : AccOp s a lr s') :
    s'.ledgerTotal - s'.oathSupply = s.ledgerTotal - s.oathSupply := by
  cases h with
  | mk o rw k hl hp hr =>
    rename_i v ids w x acc refs
    have hload := load_ok hl
    have href : RefOk s.referrals w.acc :=
      hp.keep (fun _ _ _ hs => refOk_step hs) (refOk_withRule.mpr (load_refOk hl))
    have htot := total_path hp
    obtain ⟨ha, hid, -, -, -⟩ := hp.frame
    have hrefs := realizeReferral_sum href hr.2
    obtain ⟨_, -, hacc⟩ := realize_ok hr.1
    obtain ⟨acc0, rd, hg, hrd, hv⟩ := hload
    have hvb : acc.vb = w.acc.vb := by rw [hacc]
    have haddr : w.acc.addr = a := by rw [ha, withRule_addr, hv]
    have hrid : w.acc.referralId = acc0.referralId := by rw [hid, withRule_referralId, hv]
    have hv0 : v.vb = acc0.vb := by rw [hv]
    have hrb : acc0.referralId.elim 0 (s.referrals.term (fun _ d => d.balance)) = v.refBal := by
      rcases loadReferral_ok hrd with ⟨h1, h2⟩ | ⟨r, d, h1, h2, h3⟩
      · rw [hv]; simp [h1, h2, VAccount.refBal]
      · rw [hv]; simp [h1, h3, VAccount.refBal, AMap.term, h2]
    rw [hrid, hrb] at hrefs
    simp only [W.total, withRule_vb, withRule_refBal, VPool.new] at htot
    simp only [State.ledgerTotal, State.realized, VPool.realize, AMap.sum_set, haddr, hrefs, hvb]
    have ht : s.accounts.term (fun _ a => a.vb) a = acc0.vb := by simp [AMap.term, hg]
    rw [ht]
    omega

theorem payout_vb {env : Env} {s : State} {amount x : Dec} {pool : Pool}
    (h : payout env s amount = Except.ok (pool, x)) : pool.vb = s.pool.vb + amount := by
  rw [(payout_ok h).2.2]

theorem shape_ledger {env : Env} {s s' : State} (h : Shape env s s') :
    s'.ledgerTotal - s'.oathSupply = s.ledgerTotal - s.oathSupply := by
  cases h with
  | quiet => rfl
  | treasury h => simp only [State.ledgerTotal, payout_vb h]; omega
  | protocol h => simp only [State.ledgerTotal, payout_vb h]; omega
  | delegator h => simp only [State.ledgerTotal, payout_vb h]; omega
  | referral hd h =>
    simp only [State.ledgerTotal, payout_vb h, AMap.sum_set, AMap.term, hd]; omega
  | liquidity b l h0 hr hf _ => simp only [State.ledgerTotal]; omega
  | lock v h0 h1 => simp only [State.ledgerTotal]; omega
  | newReferral g _ hn hb ht h1 h2 =>
    simp only [State.ledgerTotal, AMap.sum_set, AMap.term, hn, hb]; omega
  | editReferral g _ hd hb ht h1 h2 =>
    simp only [State.ledgerTotal, AMap.sum_set, AMap.term, hd, hb]; omega
  | codes g _ => rfl
  | pairs o rw hp =>
    rename_i ids pool
    have := total_path (hp default s.dist)
    simp only [W.total, VPool.new] at this
    simp only [State.ledgerTotal, VPool.realize]; omega
  | account h => exact accOp_ledger h
  | create g _ hn h =>
    rw [accOp_ledger h]
    simp only [State.ledgerTotal, AMap.sum_set, AMap.term, hn, Account.fresh]; omega

/-- **C01.** In every reachable state, also in the middle of a transaction, all virtual balances
together equal the outstanding fee oaths. -/
theorem c01_ledger_zero_sum {env : Env} {s : State} (h : Reach env s) :
    s.pool.vb + s.accounts.sum (fun _ a => a.vb) + s.dist.protocol + s.dist.treasury
      + s.referrals.sum (fun _ d => d.balance) + s.delegator.vb = s.oathSupply := by
  have := Reach.induct (P := fun s => s.ledgerTotal = s.oathSupply) (env := env) ?_ ?_ h
  · exact this
  · intro s g
    simp [State.ledgerTotal, g.pool, g.accounts, g.dist, g.referrals, g.delegator, g.oath]
  · intro s s' cl op o hs hb
    have := shape_ledger (body_shape hb)
    omega

/-- Transactions compose calls. -/
theorem runOps_reach {env : Env} {cl : Caller} (ops : List Op) :
    ∀ {s : State} {r : State × List Out}, Reach env s → runOps env cl s ops = Except.ok r →
      Reach env r.1 := by
  induction ops with
  | nil => intro s r hs h; simp only [runOps, Except.ok.injEq] at h; subst h; exact hs
  | cons op ops ih =>
    intro s r hs h
    simp only [runOps, bind_ok, pure_ok] at h
    obtain ⟨⟨s1, o⟩, h1, ⟨s2, os⟩, h2, rfl⟩ := h
    exact ih (s := s1) (r := (s2, os)) (.step hs h1) h2

/-- Between transactions no oath is outstanding. -/
theorem ReachTx.reach {env : Env} {s : State} (h : ReachTx env s) : Reach env s ∧ s.oathSupply = 0 := by
  induction h with
  | init hg => exact ⟨.init hg, hg.oath⟩
  | tx cl ops _ ih =>
    unfold applyTx
    split
    · rename_i r hr
      simp only [runTx, bind_ok, pure_ok, require_ok, decide_eq_true_eq] at hr
      obtain ⟨r', h1, -, h2, rfl⟩ := hr
      exact ⟨runOps_reach ops ih.1 h1, h2⟩
    · exact ih

/-- **C01, between transactions.** After any sequence of submitted transactions, failed ones
included, the virtual balances cancel out exactly. -/
theorem c01_between_transactions {env : Env} {s : State} (h : ReachTx env s) :
    s.pool.vb + s.accounts.sum (fun _ a => a.vb) + s.dist.protocol + s.dist.treasury
      + s.referrals.sum (fun _ d => d.balance) + s.delegator.vb = 0 := by
  rw [c01_ledger_zero_sum h.reach.1, h.reach.2]

/-- Everything the pool owes: to accounts (negative if they are in debt), protocol, treasury,
referrers and the fee delegator. -/
def State.owed (s : State) : Int :=
  s.accounts.sum (fun _ a => a.vb) + s.dist.protocol + s.dist.treasury
    + s.referrals.sum (fun _ d => d.balance) + s.delegator.vb

theorem quotedPrice_ok {a v x : Dec} (h : quotedPrice a v = Except.ok x) :
    x = if a = 0 then ONE else divT v a := by
  unfold quotedPrice at h
  split at h
  · simp only [pure_ok] at h; rw [if_pos ‹_›, h]
  · simp only [ddiv_ok] at h; rw [if_neg ‹_›, h.2.2]

/-- **C02.** The pool value from which LP tokens are priced is: base tokens in the vault, minus
everything owed, plus unrealised funding and mark-to-market pnl, plus fee oaths in flight. -/
theorem c02_pool_value {env : Env} {s : State} {v : Dec} (h : Reach env s)
    (hv : poolValue (VPool.new s.pool s.now []) = Except.ok v) :
    v = s.pool.baseTokens - s.owed + s.pool.unrealizedFunding + s.pool.pnlSnap + s.oathSupply := by
  have h1 := poolValue_ok hv
  have h2 := c01_ledger_zero_sum h
  simp only [VPool.new] at h1
  simp only [State.owed]
  omega

/-- **C02, as observed by users.** Between transactions `get_pool_details` quotes an LP price of
(tokens held - liabilities + unrealised funding + pnl, at least 1) / supply, and 1 for an empty pool. -/
theorem c02_quoted_price {env : Env} {s : State} {d : PoolDetails} (h : ReachTx env s)
    (hd : getPoolDetails s = Except.ok d) :
    d.lpPrice = (if s.lpSupply = 0 then ONE else
      divT (max (s.pool.baseTokens - s.owed + s.pool.unrealizedFunding + s.pool.pnlSnap) ONE) s.lpSupply) ∧
    d.baseTokensAmount = s.pool.baseTokens ∧ d.virtualBalance = -s.owed ∧
    d.unrealizedPoolFunding = s.pool.unrealizedFunding ∧ d.pnlSnap = s.pool.pnlSnap ∧
    d.lpSupply = s.lpSupply := by
  simp only [getPoolDetails, bind_ok, pure_ok] at hd
  obtain ⟨cfg, -, pv, hpv, pr, hpr, ratio, -, rfl⟩ := hd
  have h1 := c02_pool_value h.reach.1 hpv
  have h2 := c01_between_transactions h
  have h3 := quotedPrice_ok hpr
  rw [h.reach.2, add_zero] at h1
  rw [h1] at h3
  refine ⟨h3, rfl, ?_, rfl, rfl, rfl⟩
  simp only [VPool.new, State.owed]
  omega

/-- **C02, at trading time.** `add_liquidity` mints at that price; `remove_liquidity` pays at it, floored
at zero instead of one. -/
theorem c02_add_price {env : Env} {s s' : State} {b : Bucket} {o : Out} (h : ReachTx env s)
    (hs : opAddLiquidity env s b = Except.ok (s', o)) :
    ∃ ev, o.ev = .liquidity ev ∧ ev.lpPrice = (if s.lpSupply = 0 then ONE else
      divT (max (s.pool.baseTokens - s.owed + s.pool.unrealizedFunding + s.pool.pnlSnap) ONE)
        s.lpSupply) := by
  obtain ⟨cfg, fee, lp, price, -, -, -, -, hm, -, -, -, -, ev, he, hpr, -⟩ := opAddLiquidity_ok hs
  refine ⟨ev, he, ?_⟩
  have h2 := c01_between_transactions h
  have e : s.pool.value
      = s.pool.baseTokens - s.owed + s.pool.unrealizedFunding + s.pool.pnlSnap := by
    simp only [Pool.value, State.owed]; omega
  rw [hpr, ← e]
  rcases lpMint_ok hm with ⟨a, -, c⟩ | ⟨a, c, -, -⟩
  · rw [if_pos a, c]
  · rw [if_neg a, c]

theorem c02_remove_price {env : Env} {s s' : State} {b : Bucket} {o : Out} (h : ReachTx env s)
    (hs : opRemoveLiquidity env s b = Except.ok (s', o)) :
    ∃ ev, o.ev = .liquidity ev ∧ ev.lpPrice =
      divT (max (s.pool.baseTokens - s.owed + s.pool.unrealizedFunding + s.pool.pnlSnap) 0)
        s.lpSupply := by
  obtain ⟨cfg, price, value, fee, x, -, -, -, -, hpr0, -, -, -, -, -, -, -, -, -, ev, he, hpr, -⟩ :=
    opRemoveLiquidity_ok hs
  refine ⟨ev, he, ?_⟩
  have h2 := c01_between_transactions h
  have e : s.pool.value
      = s.pool.baseTokens - s.owed + s.pool.unrealizedFunding + s.pool.pnlSnap := by
    simp only [Pool.value, State.owed]; omega
  rw [hpr, hpr0, ← e]

end Perp
