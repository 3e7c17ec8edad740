import Verif.Liquidation
import Verif.Scenario

/-!
# Balances of fees never become negative (C33)
-/

namespace Perp

/-- Balances held in a working set. -/
structure W.BalOk (w : W) : Prop where
  protocol : 0 ≤ w.dist.protocol
  treasury : 0 ≤ w.dist.treasury
  referral : ∀ d, w.acc.referralData = some d → 0 ≤ d.balance ∧ d.balance ≤ d.totalRewarded ∧ referralRateOk d.feeReferral = true

/-- Balances held in a state. -/
structure State.BalOk (s : State) : Prop where
  protocol : 0 ≤ s.dist.protocol
  treasury : 0 ≤ s.dist.treasury
  delegator : 0 ≤ s.delegator.vb
  referral : ∀ r d, s.referrals.get r = some d → 0 ≤ d.balance ∧ d.balance ≤ d.totalRewarded

theorem balOk_step {ex : ExchangeConfig} {w w' : W} {x : Dec} (hv : ex.validate = true) (h : WStep ex w w' x)
    (h0 : w.BalOk) : w'.BalOk := by
  rcases h.referral with ⟨h1, -, h3⟩ | ⟨fee, f, hf0, hf⟩
  · exact ⟨by rw [h3]; exact h0.1, by rw [h3]; exact h0.2, by rw [h1]; exact h0.3⟩
  · obtain ⟨-, hd, ha, -⟩ := settleFeesReferral_ok hf
    have hv' := hv
    rw [ExchangeConfig.validate, decide_eq_true_eq] at hv'
    obtain ⟨-, -, -, -, -, -, -, ⟨p1, -⟩, ⟨p2, -⟩, -⟩ := hv'
    refine ⟨?_, ?_, ?_⟩
    · rw [hd]; have := h0.1; have := mulT_nonneg hf0 p1; simp only; omega
    · rw [hd]; have := h0.2; have := mulT_nonneg hf0 p2; simp only; omega
    · intro d hd'
      rw [ha] at hd'
      unfold VAccount.credited at hd'
      cases hr : w.acc.referralData with
      | none => rw [hr] at hd'; simp only at hd'; rw [hr] at hd'; cases hd'
      | some d0 =>
        rw [hr] at hd'
        simp only [Option.some.injEq] at hd'
        obtain ⟨b1, b2, b3⟩ := h0.3 d0 hr
        have hb := (referral_bounds hv hf0 b3).1
        have e : referralPart ex w.acc fee = mulT (mulT fee ex.feeShareReferral) d0.feeReferral := by
          unfold referralPart VAccount.feeShareReferral
          rw [hr]
        rw [← e] at hb
        rw [← hd']
        exact ⟨by simp only; omega, by simp only; omega, b3⟩

theorem balOk_path {ex : ExchangeConfig} {w w' : W} {x : Dec} (hv : ex.validate = true) (h : WPath ex w w' x)
    (h0 : w.BalOk) : w'.BalOk := by
  induction h with
  | refl => exact h0
  | tail _ hs ih => exact balOk_step hv hs ih

theorem accOp_balOk {s s' : State} {a : Addr} {lr : Option (Level × Rule)} (h : AccOp s a lr s')
    (hv : s.config.exchange.decompress.validate = true) (hr : s.RatesOk) (h0 : s.BalOk) : s'.BalOk := by
  cases h with
  | mk o rw_ k hl hp hre =>
    rename_i v ids w x acc refs
    have hw : w.BalOk := by
      refine balOk_path hv hp ⟨h0.1, h0.2, ?_⟩
      intro d hd
      rw [withRule_referralData] at hd
      obtain ⟨acc0, rd, hg, hrd, hv⟩ := load_ok hl
      have : rd = some d := by rw [hv] at hd; exact hd
      subst this
      rcases loadReferral_ok hrd with ⟨-, hn⟩ | ⟨r, d', -, hget, hd'⟩
      · cases hn
      cases hd'
      exact ⟨(h0.4 r d hget).1, (h0.4 r d hget).2, (hr r d hget).1⟩
    refine ⟨hw.1, hw.2, h0.3, ?_⟩
    intro r d hd
    have hre := hre.2
    simp only [State.realized] at hd
    unfold VAccount.realizeReferral at hre
    split at hre
    · simp only [bind_ok, expect_ok, pure_ok] at hre
      obtain ⟨id, -, d1, hd1, old, ho, rfl⟩ := hre
      by_cases hq : id = r
      · subst hq
        rw [AMap.get_set_self] at hd
        cases hd
        exact ⟨(hw.3 d1 hd1).1, (hw.3 d1 hd1).2.1⟩
      · rw [AMap.get_set_ne _ _ hq] at hd
        exact h0.4 r d hd
    · simp only [pure_ok] at hre
      subst hre
      exact h0.4 r d hd

theorem shape_balOk {env : Env} {s s' : State} (h : Shape env s s')
    (hv : s.config.exchange.decompress.validate = true) (hr : s.RatesOk) (h0 : s.BalOk) : s'.BalOk := by
  have setRef : ∀ {refs : AMap RefId ReferralData} {r0 : RefId} {d0 : ReferralData}, refs = s.referrals.set r0 d0 →
      0 ≤ d0.balance → d0.balance ≤ d0.totalRewarded → ∀ r d, refs.get r = some d → 0 ≤ d.balance ∧ d.balance ≤ d.totalRewarded := by
    intro refs r0 d0 e h1 h2 r d hd
    rw [e] at hd
    by_cases hq : r0 = r
    · subst hq; rw [AMap.get_set_self] at hd; cases hd; exact ⟨h1, h2⟩
    · rw [AMap.get_set_ne _ _ hq] at hd; exact h0.4 r d hd
  cases h with
  | quiet => exact ⟨h0.1, h0.2, h0.3, h0.4⟩
  | treasury _ => exact ⟨h0.1, le_refl _, h0.3, h0.4⟩
  | protocol _ => exact ⟨le_refl _, h0.2, h0.3, h0.4⟩
  | delegator _ => exact ⟨h0.1, h0.2, le_refl _, h0.4⟩
  | referral hg _ =>
    rename_i id d _
    have := h0.4 id d hg
    exact ⟨h0.1, h0.2, h0.3, setRef rfl (le_refl _) (by simp only; omega)⟩
  | liquidity b l hy hrate hfee hl =>
    rename_i y rate fee
    have hv' := hv
    rw [ExchangeConfig.validate, decide_eq_true_eq] at hv'
    obtain ⟨-, -, -, -, -, ra, rr, ⟨p1, -⟩, ⟨p2, -⟩, -⟩ := hv'
    have hf : 0 ≤ fee := by
      rw [hfee]
      rcases hrate with rfl | rfl
      · exact mulT_nonneg hy ra
      · exact mulT_nonneg hy rr
    have := mulT_nonneg hf p1
    have := mulT_nonneg hf p2
    exact ⟨by have := h0.1; simp only; omega, by have := h0.2; simp only; omega, h0.3, h0.4⟩
  | lock vault h1 _ => exact ⟨h0.1, h0.2, by have := h0.3; simp only; omega, h0.4⟩
  | newReferral g _ _ hb ht _ _ => exact ⟨h0.1, h0.2, h0.3, setRef rfl (by omega) (by omega)⟩
  | editReferral g _ hg hb ht _ _ =>
    have := h0.4 _ _ hg
    exact ⟨h0.1, h0.2, h0.3, setRef rfl (by omega) (by omega)⟩
  | codes g _ => exact ⟨h0.1, h0.2, h0.3, h0.4⟩
  | pairs o rw _ => exact ⟨h0.1, h0.2, h0.3, h0.4⟩
  | account h => exact accOp_balOk h hv hr h0
  | create g _ _ h => exact accOp_balOk h hv hr ⟨h0.1, h0.2, h0.3, h0.4⟩

theorem reach_balOk {env : Env} {s : State} (h : Reach env s) : s.BalOk := by
  induction h with
  | init g =>
    refine ⟨?_, ?_, ?_, ?_⟩
    · rw [g.dist]
    · rw [g.dist]
    · rw [g.delegator]
    · intro r d hd; rw [g.referrals] at hd; cases hd
  | step hr hs ih => exact shape_balOk (body_shape (step_body hs)) (reach_inForce hr).exchange (reach_rates hr) ih

/-- **C33.** In every reachable state the protocol, treasury, fee-delegator and all referral balances are non-negative, and
a referral balance never exceeds the total that was ever credited to it. -/
theorem c33_balances_nonnegative {env : Env} {s : State} (h : Reach env s) :
    0 ≤ s.dist.protocol ∧ 0 ≤ s.dist.treasury ∧ 0 ≤ s.delegator.vb ∧
    ∀ r d, s.referrals.get r = some d → 0 ≤ d.balance ∧ d.balance ≤ d.totalRewarded :=
  ⟨(reach_balOk h).1, (reach_balOk h).2, (reach_balOk h).3, (reach_balOk h).4⟩

/-! ## C32 -/

/-- The recorded balance a collecting call is about. -/
def State.feeBalance (s : State) : Op → Option Dec
  | .collectTreasury => some s.dist.treasury
  | .collectFeeDelegator => some s.delegator.vb
  | .swapProtocolFee _ => some s.dist.protocol
  | .collectReferralRewards id => (s.referrals.get id).map ReferralData.balance
  | _ => none

/-- Two collecting calls that are about the same balance. -/
def Op.sameBalance : Op → Op → Prop
  | .collectTreasury, .collectTreasury => True
  | .collectFeeDelegator, .collectFeeDelegator => True
  | .swapProtocolFee _, .swapProtocolFee _ => True
  | .collectReferralRewards i, .collectReferralRewards j => i = j
  | _, _ => False

/-- A balance rounded down to the granularity of the base token. -/
theorem amountFor_down {g : Nat} (hg : 0 < g) {x y : Dec} (hx : 0 ≤ x) (h : amountFor g x .toZero = y) :
    y ≤ x ∧ x < y + g ∧ y % (g : Int) = 0 ∧ 0 ≤ y := by
  unfold amountFor at h
  simp only at h
  have hg' : (0 : Int) < g := by exact_mod_cast hg
  rw [← h]
  obtain ⟨h1, h2, h3⟩ := tdiv_nonneg_bounds hx hg'
  refine ⟨h2, h3, Int.mul_emod_left _ _, mul_nonneg h1 hg'.le⟩

theorem payout_facts {env : Env} {s : State} {x y : Dec} {pool : Pool} (h0 : 0 ≤ x)
    (h : payout env s x = Except.ok (pool, y)) :
    (y ≤ x ∧ x < y + env.gran BASE ∧ y % (env.gran BASE : Int) = 0 ∧ 0 ≤ y) ∧
    pool = { s.pool with vb := s.pool.vb + x, baseTokens := s.pool.baseTokens - y } := by
  obtain ⟨h1, -, h3⟩ := payout_ok h
  rw [takeAmount_ok] at h1
  exact ⟨amountFor_down (env.gran_pos BASE) h0 h1.1, h3⟩

/-- **C32.** A successful collecting call pays, as its first bucket, the recorded balance rounded down to the granularity of
the base token, out of the pool's tokens; the balance becomes zero, every other fee balance stays, and the pool's virtual
balance grows by the balance (so that the pool gives up exactly what was recorded, less the rounding). -/
theorem c32_paid_once {env : Env} {cl : Caller} {s s' : State} {op : Op} {o : Out} {x : Dec} (h0 : Reach env s)
    (h : step env cl s op = Except.ok (s', o)) (hx : s.feeBalance op = some x) :
    (∃ paid rest, o.buckets = ⟨BASE, paid⟩ :: rest ∧ paid ≤ x ∧ x < paid + env.gran BASE ∧
      paid % (env.gran BASE : Int) = 0 ∧ 0 ≤ paid ∧
      s'.pool.baseTokens = s.pool.baseTokens - paid ∧ s'.pool.vb = s.pool.vb + x ∧
      (∀ b ∈ rest, b.res ≠ BASE)) ∧
    (∀ op', op.sameBalance op' → s'.feeBalance op' = some 0) ∧
    (∀ op', ¬ op.sameBalance op' → s'.feeBalance op' = s.feeBalance op') := by
  have hb := step_body h
  have hok := reach_balOk h0
  cases op with
  | collectTreasury =>
    cases hx
    obtain ⟨pool, y, hp, rfl, rfl⟩ := collectTreasury_ok hb
    obtain ⟨⟨h1, h2, h3, h4⟩, rfl⟩ := payout_facts hok.treasury hp
    refine ⟨⟨y, [], rfl, h1, h2, h3, h4, rfl, rfl, by simp⟩, ?_, ?_⟩
    · intro op' hs; cases op' <;> simp_all [Op.sameBalance, State.feeBalance]
    · intro op' hs; cases op' <;> simp_all [Op.sameBalance, State.feeBalance]
  | collectFeeDelegator =>
    cases hx
    obtain ⟨pool, y, hp, rfl, rfl⟩ := collectFeeDelegator_ok hb
    obtain ⟨⟨h1, h2, h3, h4⟩, rfl⟩ := payout_facts hok.delegator hp
    refine ⟨⟨y, [], rfl, h1, h2, h3, h4, rfl, rfl, by simp⟩, ?_, ?_⟩
    · intro op' hs; cases op' <;> simp_all [Op.sameBalance, State.feeBalance]
    · intro op' hs; cases op' <;> simp_all [Op.sameBalance, State.feeBalance]
  | swapProtocolFee b =>
    cases hx
    obtain ⟨cfg, pool, y, burn, -, -, -, -, hp, rfl, rfl⟩ := swapProtocolFee_ok hb
    obtain ⟨⟨h1, h2, h3, h4⟩, rfl⟩ := payout_facts hok.protocol hp
    refine ⟨⟨y, _, rfl, h1, h2, h3, h4, rfl, rfl, by simp [PROTOCOL, BASE]⟩, ?_, ?_⟩
    · intro op' hs; cases op' <;> simp_all [Op.sameBalance, State.feeBalance]
    · intro op' hs; cases op' <;> simp_all [Op.sameBalance, State.feeBalance]
  | collectReferralRewards id =>
    obtain ⟨d, pool, y, -, hd, hp, rfl, rfl⟩ := collectReferralRewards_ok hb
    simp only [State.feeBalance, hd, Option.map_some, Option.some.injEq] at hx
    subst hx
    obtain ⟨⟨h1, h2, h3, h4⟩, rfl⟩ := payout_facts (hok.referral id d hd).1 hp
    refine ⟨⟨y, [], rfl, h1, h2, h3, h4, rfl, rfl, by simp⟩, ?_, ?_⟩
    · intro op' hs
      cases op' <;> simp_all [Op.sameBalance, State.feeBalance]
    · intro op' hs
      cases op' with
      | collectReferralRewards j =>
        have : id ≠ j := hs
        simp only [State.feeBalance]
        rw [AMap.get_set_ne _ _ this]
      | _ => rfl
  | _ => cases hx

/-- **C32, nothing is left.** A collecting call right after another one for the same balance pays nothing. -/
theorem c32_second_call_pays_nothing {env : Env} {cl cl' : Caller} {s s1 s2 : State} {op op' : Op} {o o' : Out} {x : Dec}
    (h0 : Reach env s) (h : step env cl s op = Except.ok (s1, o)) (hx : s.feeBalance op = some x)
    (hs : op.sameBalance op') (h' : step env cl' s1 op' = Except.ok (s2, o')) :
    ∃ rest, o'.buckets = ⟨BASE, 0⟩ :: rest ∧ s2.pool.baseTokens = s1.pool.baseTokens ∧ s2.pool.vb = s1.pool.vb := by
  have h1 := (c32_paid_once h0 h hx).2.1 op' hs
  obtain ⟨⟨paid, rest, g1, g2, -, -, g5, g6, g7, -⟩, -⟩ := c32_paid_once (.step h0 h) h' h1
  have : paid = 0 := by omega
  subst this
  exact ⟨rest, g1, by rw [g6]; simp, by rw [g7]; simp⟩

/-- **C32, the price of the protocol fees.** `swap_protocol_fee` is paid in the protocol token and burns at least the
configured amount (rounded up, at least 1000), returning the rest. -/
theorem c32_protocol_burn {env : Env} {cl : Caller} {s s' : State} {b : Bucket} {o : Out} (h0 : Reach env s)
    (h : step env cl s (.swapProtocolFee b) = Except.ok (s', o)) :
    ∃ burn paid, b.res = PROTOCOL ∧ o.burnt = [⟨PROTOCOL, burn⟩] ∧
      o.buckets = [⟨BASE, paid⟩, ⟨PROTOCOL, b.amt - burn⟩] ∧
      s.config.exchange.decompress.protocolBurnAmount ≤ burn ∧
      burn < s.config.exchange.decompress.protocolBurnAmount + env.gran PROTOCOL ∧
      1000 * ONE ≤ burn ∧ burn ≤ b.amt := by
  obtain ⟨cfg, pool, y, burn, hc, hr, -, hburn, hp, rfl, rfl⟩ := swapProtocolFee_ok (step_body h)
  rw [takeAmount_ok, VConfig.new_ex hc] at hburn
  obtain ⟨h1, h2, -, h4⟩ := hburn
  have hup := amountFor_up (env.gran_pos PROTOCOL) s.config.exchange.decompress.protocolBurnAmount
  rw [h1] at hup
  have hv := (reach_inForce h0).exchange
  rw [ExchangeConfig.validate, decide_eq_true_eq] at hv
  obtain ⟨-, -, -, -, -, -, -, -, -, -, -, hb, -⟩ := hv
  have e : decLit 1000 0 = 1000 * ONE := by decide
  exact ⟨burn, y, hr, rfl, rfl, hup.1, hup.2, by omega, h4⟩

namespace Scn

/-- After two trades there is something to collect; collecting pays it and leaves nothing. -/
example : Reach env open_ ∧ 0 < open_.dist.treasury ∧ 0 < open_.dist.protocol ∧
    ∃ s' o, step env anyone open_ .collectTreasury = Except.ok (s', o) ∧
      o.buckets = [⟨BASE, open_.dist.treasury⟩] ∧ s'.dist.treasury = 0 :=
  ⟨open_reach, by decide +kernel, by decide +kernel,
    stepped (P := fun s' o => o.buckets = [⟨BASE, open_.dist.treasury⟩] ∧ s'.dist.treasury = 0) (by decide +kernel)⟩

example : ∃ s' o, step env anyone open_ (.swapProtocolFee ⟨PROTOCOL, d 200000⟩) = Except.ok (s', o) ∧
      o.burnt = [⟨PROTOCOL, d 10000⟩] ∧ s'.dist.protocol = 0 :=
  stepped (P := fun s' o => o.burnt = [⟨PROTOCOL, d 10000⟩] ∧ s'.dist.protocol = 0) (by decide +kernel)

end Scn

end Perp
