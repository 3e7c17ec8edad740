import Verif.Orders
import Verif.Validated

/-!
# C20, C21: trading fees and how they are split
-/

namespace Perp

/-! ## Bounds -/

theorem tdiv_abs_mul_le (x : Int) {n : Int} (hn : 0 < n) : |x.tdiv n| * n ≤ |x| := by
  rcases Int.le_total 0 x with h | h
  · have := tdiv_nonneg_bounds h hn
    rw [abs_of_nonneg this.1, abs_of_nonneg h]; exact this.2.1
  · have := tdiv_nonneg_bounds (Int.neg_nonneg.mpr h) hn
    rw [Int.neg_tdiv] at this
    rw [← abs_neg, abs_of_nonneg this.1, ← abs_neg x, abs_of_nonneg (Int.neg_nonneg.mpr h)]; exact this.2.1

theorem mulT_abs_le (a b : Int) : |mulT a b| * ONE ≤ |a| * |b| := by
  rw [← abs_mul]; exact tdiv_abs_mul_le _ ONE_pos

/-- A fee on trading `x` at `price` is at most the maximum rate times the traded value. -/
theorem feeOf_le {ex : ExchangeConfig} {pc : PairConfig} {pp : PoolPosition} {rebate price x : Dec}
    (hm : 0 ≤ ex.feeMax) (hp : 0 ≤ price) :
    feeOf ex pc pp rebate price (mulT x price) * ONE * ONE ≤ ex.feeMax * price * |x| := by
  have h1 : feeOf ex pc pp rebate price (mulT x price) ≤ mulT |mulT x price| ex.feeMax := by
    unfold feeOf
    exact max_le (mulT_nonneg (abs_nonneg _) hm) (min_le_right _ _)
  have h2 : mulT |mulT x price| ex.feeMax * ONE ≤ |mulT x price| * ex.feeMax := mulT_mul_le (abs_nonneg _) hm
  have h3 := mulT_abs_le x price
  rw [abs_of_nonneg hp] at h3
  have h4 : |mulT x price| * ex.feeMax * ONE ≤ |x| * price * ex.feeMax := by
    have := mul_le_mul_of_nonneg_right h3 hm
    calc |mulT x price| * ex.feeMax * ONE = |mulT x price| * ONE * ex.feeMax := by ring
      _ ≤ _ := this
  calc feeOf ex pc pp rebate price (mulT x price) * ONE * ONE
      ≤ mulT |mulT x price| ex.feeMax * ONE * ONE :=
        mul_le_mul_of_nonneg_right (mul_le_mul_of_nonneg_right h1 ONE_pos.le) ONE_pos.le
    _ ≤ |mulT x price| * ex.feeMax * ONE := mul_le_mul_of_nonneg_right h2 ONE_pos.le
    _ ≤ |x| * price * ex.feeMax := h4
    _ = ex.feeMax * price * |x| := by ring

theorem closePart_fee_le {c : Ctx} {w w' : W} {p : PairId} {x pnl fee price : Dec}
    (h : closePart c w p x = Except.ok (w', pnl, fee)) (hm : 0 ≤ c.cfg.ex.feeMax)
    (hp : c.orc.prices.get p = some price) (h0 : 0 ≤ price) :
    fee * ONE * ONE ≤ c.cfg.ex.feeMax * price * |x| := by
  unfold closePart at h
  split at h
  · obtain ⟨pc, pr, pp, -, hpr, -, -, -, -, rfl, -⟩ := closePosition_ok h
    rw [hp] at hpr; cases hpr
    exact feeOf_le hm h0
  · simp only [pure_ok, Prod.mk.injEq] at h
    rw [← h.2.2]
    have := mul_nonneg (mul_nonneg hm h0) (abs_nonneg x)
    omega

theorem openPart_fee_le {c : Ctx} {w w' : W} {p : PairId} {x fee price : Dec}
    (h : openPart c w p x = Except.ok (w', fee)) (hm : 0 ≤ c.cfg.ex.feeMax)
    (hp : c.orc.prices.get p = some price) (h0 : 0 ≤ price) :
    fee * ONE * ONE ≤ c.cfg.ex.feeMax * price * |x| := by
  unfold openPart at h
  split at h
  · obtain ⟨pc, pr, pp, -, hpr, -, -, rfl, -⟩ := openPosition_ok h
    rw [hp] at hpr; cases hpr
    exact feeOf_le hm h0
  · simp only [pure_ok, Prod.mk.injEq] at h
    rw [← h.2]
    have := mul_nonneg (mul_nonneg hm h0) (abs_nonneg x)
    omega

/-! ## The fee stage of a call -/

/-- Two working states whose collected fees and referral data agree. -/
def FeeSame (a b : W) : Prop :=
  b.dist = a.dist ∧ b.acc.referralData = a.acc.referralData ∧ b.acc.referralRewarded = a.acc.referralRewarded ∧
    b.acc.referralId = a.acc.referralId

theorem FeeSame.refl (a : W) : FeeSame a a := ⟨rfl, rfl, rfl, rfl⟩

theorem FeeSame.trans {a b c : W} (h1 : FeeSame a b) (h2 : FeeSame b c) : FeeSame a c :=
  ⟨h2.1.trans h1.1, h2.2.1.trans h1.2.1, h2.2.2.1.trans h1.2.2.1, h2.2.2.2.trans h1.2.2.2⟩

theorem FeeSame.req {w : W} {v : VAccount} (h : ReqOnly w.acc v) : FeeSame w { w with acc := v } := by
  unfold ReqOnly at h
  exact ⟨rfl, by show v.referralData = _; rw [h], by show v.referralRewarded = _; rw [h], by show v.referralId = _; rw [h]⟩

theorem settleFunding_feeSame {w w' : W} {p : PairId} {n : Dec} {pool : VPool}
    (h : settleFunding { w with pool } p = Except.ok (w', n)) : FeeSame w w' := by
  obtain ⟨pp, -, -, -, ha, hd⟩ := settleFunding_ok h
  exact ⟨hd, by rw [ha], by rw [ha], by rw [ha]⟩

theorem closePosition_feeSame {c : Ctx} {w w' : W} {p : PairId} {x pnl fee : Dec}
    (h : closePosition c w p x = Except.ok (w', pnl, fee)) : FeeSame w w' := by
  obtain ⟨pc, pr, pp, -, -, -, -, -, -, -, -, -, -, ha, hd⟩ := closePosition_ok h
  exact ⟨hd, by rw [ha]; rfl, by rw [ha]; rfl, by rw [ha]; rfl⟩

theorem openPosition_feeSame {c : Ctx} {w w' : W} {p : PairId} {x fee : Dec}
    (h : openPosition c w p x = Except.ok (w', fee)) : FeeSame w w' := by
  obtain ⟨pc, pr, pp, -, -, -, -, -, -, -, -, -, ha, hd, -⟩ := openPosition_ok h
  exact ⟨hd, by rw [ha]; rfl, by rw [ha]; rfl, by rw [ha]; rfl⟩

theorem closePart_feeSame {c : Ctx} {w w' : W} {p : PairId} {x pnl fee : Dec}
    (h : closePart c w p x = Except.ok (w', pnl, fee)) : FeeSame w w' := by
  unfold closePart at h
  split at h
  · exact closePosition_feeSame h
  · simp only [pure_ok, Prod.mk.injEq] at h; rw [← h.1]; exact .refl _

theorem openPart_feeSame {c : Ctx} {w w' : W} {p : PairId} {x fee : Dec}
    (h : openPart c w p x = Except.ok (w', fee)) : FeeSame w w' := by
  unfold openPart at h
  split at h
  · exact openPosition_feeSame h
  · simp only [pure_ok, Prod.mk.injEq] at h; rw [← h.1]; exact .refl _

/-- A call that collected the fee `F` and reported the split `f`. -/
structure FeeRun (ex : ExchangeConfig) (w w' : W) (F : Dec) (f : FeeSplit) : Prop where
  nonneg : 0 ≤ F
  dist : w'.dist = { protocol := w.dist.protocol + mulT F ex.feeShareProtocol
                     treasury := w.dist.treasury + mulT F ex.feeShareTreasury }
  data : w'.acc.referralData = (w.acc.credited (referralPart ex w.acc F)).referralData
  rewarded : w'.acc.referralRewarded = (w.acc.credited (referralPart ex w.acc F)).referralRewarded
  rid : w'.acc.referralId = w.acc.referralId
  split : f = { pool := -(F - mulT F ex.feeShareProtocol - mulT F ex.feeShareTreasury - referralPart ex w.acc F)
                protocol := -mulT F ex.feeShareProtocol
                treasury := -mulT F ex.feeShareTreasury
                referral := -referralPart ex w.acc F }

theorem referralPart_congr {ex : ExchangeConfig} {v v' : VAccount} {F : Dec} (h : v.referralData = v'.referralData) :
    referralPart ex v F = referralPart ex v' F := by
  unfold referralPart VAccount.feeShareReferral
  rw [h]

theorem feeRun_mk {ex : ExchangeConfig} {w w1 w2 w' : W} {F : Dec} {f : FeeSplit} (h0 : 0 ≤ F) (h1 : FeeSame w w1)
    (hf : settleFeesReferral ex w1 F = Except.ok (w2, f)) (h2 : FeeSame w2 w') : FeeRun ex w w' F f := by
  obtain ⟨-, hd, ha, hs⟩ := settleFeesReferral_ok hf
  obtain ⟨a1, a2, a3, a4⟩ := h1
  obtain ⟨b1, b2, b3, b4⟩ := h2
  have e := referralPart_congr (ex := ex) (F := F) a2
  refine ⟨h0, by rw [b1, hd, a1], ?_, ?_, ?_, by rw [hs, e]⟩
  · rw [b2, ha, ← e]
    unfold VAccount.credited
    rw [a2]
    cases hr : w.acc.referralData <;> simp [a2, hr]
  · rw [b3, ha, ← e]
    unfold VAccount.credited
    rw [a2]
    cases hr : w.acc.referralData <;> simp [a3]
  · rw [b4, ha]
    unfold VAccount.credited
    cases hr : w1.acc.referralData <;> simp [a4]

/-! ### The three trading calls -/

theorem marginOrder_feeRun {c : Ctx} {w w' : W} {r : MarginOrderReq} {e : MarginOrderEv}
    (h : marginOrder c w r = Except.ok (w', e)) : ∃ F, FeeRun c.cfg.ex w w' F e.fees := by
  obtain ⟨price, pool, b, w1, funding, close, op, w2, pnl, fee, ok, w3, fees, a1, a2, hpr, hlim, hup, hf,
    hsp, hx, hok, hok', hfee, ha1, ha2, hw', hint, rfl⟩ := marginOrder_ok h
  obtain ⟨wc, f1, f2, hc, ho, rfl⟩ := executeOrder_ok hx
  have n1 := closePart_fee hc
  have n2 := openPart_fee ho
  refine ⟨f1 + f2, feeRun_mk (by omega)
    (((settleFunding_feeSame hf).trans (closePart_feeSame hc)).trans (openPart_feeSame ho)) hfee ?_⟩
  rw [hw']
  exact .req ((trySetStatus_reqOnly ha1).trans (trySetStatus_reqOnly ha2))

theorem adl_feeRun {c : Ctx} {w w' : W} {p : PairId} {e : AdlEv}
    (h : autoDeleverage c w p = Except.ok (w', e)) : ∃ F, FeeRun c.cfg.ex w w' F e.fees := by
  obtain ⟨pool, b, w1, funding, ratio0, price, pct, thr, w2, pnl, fee, fees, ratio1, hup, hf, -, -, -, -, -, -, -, -,
    hcl, hfee, -, -, rfl⟩ := autoDeleverage_ok h
  have n1 := closePosition_fee hcl
  exact ⟨fee, feeRun_mk n1 ((settleFunding_feeSame hf).trans (closePosition_feeSame hcl)) hfee (.refl _)⟩

theorem liquidate_feeRun {c : Ctx} {w w' : W} {pay : Bucket} {bs : List Bucket} {e : LiquidateEv}
    (h : liquidate c w pay = Except.ok (w', bs, e)) : ∃ F, FeeRun c.cfg.ex w w' F e.fees := by
  obtain ⟨w1, lp, lc, value, acc, tokens, taken, pool, w2, w3, loss, w4, fees, -, hlp, -, -, -, -, hwd, -, -, hs, hwo,
    hfee, rfl, -, rfl⟩ := liquidate_ok h
  obtain ⟨p1, p2, p3, -, hl, -, rfl⟩ := liquidatePositions_ok hlp
  have n1 := liqLoop_totals _ hl
  have hwd := withdrawCollateral_collOnly hwd
  have hs := settleAccount_ok hs
  obtain ⟨-, hwo⟩ := writeOff_ok hwo
  have hsame : FeeSame w w3 := by
    rw [hwo, hs]
    unfold CollOnly at hwd
    refine ⟨rfl, ?_, ?_, ?_⟩
    · show acc.referralData = _; rw [hwd]; rfl
    · show acc.referralRewarded = _; rw [hwd]; rfl
    · show acc.referralId = _; rw [hwd]; rfl
  exact ⟨lp.fee, feeRun_mk n1 hsame hfee ⟨rfl, rfl, rfl, rfl⟩⟩

/-! ## Referral rates -/

/-- Every referral has rates between 0 and 10%. -/
def State.RatesOk (s : State) : Prop :=
  ∀ r d, s.referrals.get r = some d → referralRateOk d.feeReferral = true ∧ referralRateOk d.feeRebate = true

theorem realizeReferral_rates {refs refs' : AMap RefId ReferralData} {v : VAccount}
    (h : v.realizeReferral refs = Except.ok refs') :
    ∀ r d', refs'.get r = some d' → ∃ d, refs.get r = some d ∧ d'.feeReferral = d.feeReferral ∧ d'.feeRebate = d.feeRebate := by
  intro r d' hd
  unfold VAccount.realizeReferral at h
  split at h
  · simp only [bind_ok, expect_ok, pure_ok] at h
    obtain ⟨id, -, d, -, old, ho, rfl⟩ := h
    by_cases hr : id = r
    · subst hr
      rw [AMap.get_set_self] at hd
      cases hd
      exact ⟨old, ho, rfl, rfl⟩
    · rw [AMap.get_set_ne _ _ hr] at hd
      exact ⟨d', hd, rfl, rfl⟩
  · simp only [pure_ok] at h
    rw [← h] at hd
    exact ⟨d', hd, rfl, rfl⟩

theorem shape_rates {env : Env} {s s' : State} (h : Shape env s s') (h0 : s.RatesOk) : s'.RatesOk := by
  have acc : ∀ {s0 : State} {a : Addr} {lr : Option (Level × Rule)}, AccOp s0 a lr s' → s0.RatesOk → s'.RatesOk := by
    intro s0 a lr hx hk
    cases hx with
    | mk o rw k hl hp hr =>
      intro r d' hd
      obtain ⟨d, hd0, e1, e2⟩ := realizeReferral_rates hr.2 r d' hd
      rw [e1, e2]
      exact hk r d hd0
  cases h with
  | referral hg hp =>
    intro r d hd
    simp only [AMap.get_set] at hd
    split at hd
    · cases hd; have := h0 _ _ hg; exact this
    · exact h0 r d hd
  | newReferral g _ hn h1 h2 h3 h4 =>
    intro r d hd
    simp only [AMap.get_set] at hd
    split at hd
    · cases hd; exact ⟨h3, h4⟩
    · exact h0 r d hd
  | editReferral g _ hg h1 h2 h3 h4 =>
    intro r d hd
    simp only [AMap.get_set] at hd
    split at hd
    · cases hd
      have := h0 _ _ hg
      refine ⟨?_, ?_⟩
      · rcases h3 with h3 | h3
        · rw [h3]; exact this.1
        · exact h3
      · rcases h4 with h4 | h4
        · rw [h4]; exact this.2
        · exact h4
    · exact h0 r d hd
  | account hx => exact acc hx h0
  | create g _ hn hx => exact acc hx h0
  | _ => exact h0

theorem reach_rates {env : Env} {s : State} (h : Reach env s) : s.RatesOk := by
  refine Reach.induct (P := State.RatesOk) (env := env) ?_ ?_ h
  · intro s g r d hd; rw [g.referrals] at hd; simp at hd
  · intro s s' cl op o hs hb; exact shape_rates (body_shape hb) hs

/-! ## The theorems -/

/-- The fee parts an event reports (as negative amounts). -/
def Ev.fees : Ev → Option FeeSplit
  | .liquidity e => some e.fees
  | .order e => some e.fees
  | .liquidate e => some e.fees
  | .adl e => some e.fees
  | _ => Option.none

/-- The whole fee. -/
def FeeSplit.total (f : FeeSplit) : Int := -(f.pool + f.protocol + f.treasury + f.referral)

theorem FeeRun.total {ex : ExchangeConfig} {w w' : W} {F : Dec} {f : FeeSplit} (h : FeeRun ex w w' F f) : f.total = F := by
  rw [h.split]; unfold FeeSplit.total; ring

/-- The referral whose rates and balance apply to a call: that of the account it names. -/
def Op.referrer (s : State) (op : Op) : Option RefId := (op.account.bind s.accounts.get).bind Account.referralId

/-- **Specification of C21**: how a fee split `f`, reported by a call on the referral `rid`, is booked. -/
structure SplitExact (s s' : State) (rid : Option RefId) (f : FeeSplit) : Prop where
  /-- the parts are what the configured shares say, rounded down, the pool keeping the rest -/
  protocol : -f.protocol = mulT f.total s.config.exchange.decompress.feeShareProtocol
  treasury : -f.treasury = mulT f.total s.config.exchange.decompress.feeShareTreasury
  referral : -f.referral = ((rid.bind s.referrals.get).map (fun d =>
    mulT (mulT f.total s.config.exchange.decompress.feeShareReferral) d.feeReferral)).getD 0
  /-- no part is negative and the pool keeps at least 45% -/
  nonneg : 0 ≤ f.total ∧ 0 ≤ -f.protocol ∧ 0 ≤ -f.treasury ∧ 0 ≤ -f.referral
  pool : 45 * f.total ≤ 100 * (-f.pool)
  /-- protocol and treasury balances grow by exactly their parts -/
  dist : s'.dist = { protocol := s.dist.protocol + -f.protocol, treasury := s.dist.treasury + -f.treasury }
  /-- so does the balance of the referrer, and nobody else's -/
  rewarded : ∀ d r, rid = some r → s.referrals.get r = some d →
    s'.referrals.get r = some { d with balance := d.balance + -f.referral, totalRewarded := d.totalRewarded + -f.referral }
  others : ∀ r, rid ≠ some r → s'.referrals.get r = s.referrals.get r

theorem split_bounds {ex : ExchangeConfig} (hv : ex.validate = true) {F : Dec} (h0 : 0 ≤ F) {x : Dec}
    (hx' : 10 * x ≤ F) :
    0 ≤ mulT F ex.feeShareProtocol ∧ 0 ≤ mulT F ex.feeShareTreasury ∧
    45 * F ≤ 100 * (F - mulT F ex.feeShareProtocol - mulT F ex.feeShareTreasury - x) := by
  rw [ExchangeConfig.validate, decide_eq_true_eq] at hv
  obtain ⟨-, -, -, -, -, -, -, ⟨h1, h1'⟩, ⟨h2, h2'⟩, -, -, -, -⟩ := hv
  have a1 := mulT_mul_le h0 h1
  have a2 := mulT_mul_le h0 h2
  have b1 : F * ex.feeShareProtocol ≤ F * (3 * 10 ^ 17) := mul_le_mul_of_nonneg_left (by simpa [decLit] using h1') h0
  have b2 : F * ex.feeShareTreasury ≤ F * (15 * 10 ^ 16) := mul_le_mul_of_nonneg_left (by simpa [decLit] using h2') h0
  refine ⟨mulT_nonneg h0 h1, mulT_nonneg h0 h2, ?_⟩
  generalize mulT F ex.feeShareProtocol = y at *
  generalize mulT F ex.feeShareTreasury = z at *
  unfold ONE at a1 a2
  have c1 : y * 10 ≤ F * 3 := by linarith
  have c2 : z * 100 ≤ F * 15 := by linarith
  linarith

theorem referral_bounds {ex : ExchangeConfig} (hv : ex.validate = true) {F rate : Dec} (h0 : 0 ≤ F)
    (hr : referralRateOk rate = true) :
    0 ≤ mulT (mulT F ex.feeShareReferral) rate ∧ 10 * mulT (mulT F ex.feeShareReferral) rate ≤ F := by
  rw [ExchangeConfig.validate, decide_eq_true_eq] at hv
  obtain ⟨-, -, -, -, -, -, -, -, -, ⟨h1, h1'⟩, -, -, -⟩ := hv
  rw [referralRateOk, decide_eq_true_eq] at hr
  simp only [decLit] at hr
  have n1 := mulT_nonneg h0 h1
  have l1 : mulT F ex.feeShareReferral ≤ F := mulT_le_self h0 (by simpa [decLit, ONE] using h1') h1
  refine ⟨mulT_nonneg n1 hr.1, ?_⟩
  have a2 := mulT_mul_le n1 hr.1
  have b2 : mulT F ex.feeShareReferral * rate ≤ F * (1 * 10 ^ 17) := mul_le_mul l1 hr.2 hr.1 h0
  generalize mulT (mulT F ex.feeShareReferral) rate = y at *
  unfold ONE at a2
  linarith

/-- A keeper call with a fee stage books the fee exactly. -/
theorem KeeperRun.split {env : Env} {s s' : State} {a : Addr} {acc acc' : Account} {ids : List PairId}
    {u : Option PriceUpdate} {s1 : State} {c : Ctx} {w0 w : W} (h : KeeperRun env s s' a acc acc' ids u s1 c w0 w)
    (h0 : Reach env s) {F : Dec} {f : FeeSplit} (hf : FeeRun c.cfg.ex w0 w F f) : SplitExact s s' acc.referralId f := by
  have hex := h.ex
  have htot := hf.total
  have hv : c.cfg.ex.validate = true := by rw [hex]; exact (reach_inForce h0).exchange
  have hrefs := h.refs
  rw [← h.rid0]
  have hd : s'.dist = { protocol := s.dist.protocol + mulT F c.cfg.ex.feeShareProtocol
                        treasury := s.dist.treasury + mulT F c.cfg.ex.feeShareTreasury } := by
    rw [h.dist, hf.dist, h.dist0]
  rcases h.ref0 with ⟨e1, e2, e3⟩ | ⟨r, d, d0, e1, e2, e3, e4, e5⟩
  · have hpart : referralPart c.cfg.ex w0.acc F = 0 := by
      unfold referralPart VAccount.feeShareReferral
      rw [e2]; exact mulT_zero_right _
    have hrw : w.acc.referralRewarded = false := by
      rw [hf.rewarded]; unfold VAccount.credited; rw [e2]; exact e3
    unfold VAccount.realizeReferral at hrefs
    rw [hrw] at hrefs
    simp only [Bool.false_eq_true, if_false, pure_ok] at hrefs
    have hb := split_bounds hv hf.nonneg (x := 0) (by have := hf.nonneg; omega)
    have hs := hf.split
    rw [hpart] at hs
    subst hs
    refine ⟨?_, ?_, ?_, ?_, ?_, ?_, ?_, ?_⟩
    · rw [htot, hex]; simp
    · rw [htot, hex]; simp
    · simp [e1]
    · rw [htot]; simp only [neg_neg]; exact ⟨hf.nonneg, hb.1, hb.2.1, le_refl 0⟩
    · rw [htot]; simpa using hb.2.2
    · rw [hd]; simp
    · intro _ r hr; rw [e1] at hr; cases hr
    · intro r _; rw [hrefs]
  · have hrate := reach_rates h0 r d0 e3
    have hpart : referralPart c.cfg.ex w0.acc F = mulT (mulT F c.cfg.ex.feeShareReferral) d0.feeReferral := by
      unfold referralPart VAccount.feeShareReferral
      rw [e2]
      simp only
      rw [e4]
    have hrb := referral_bounds hv hf.nonneg hrate.1
    have hdata := hf.data
    have hrw := hf.rewarded
    unfold VAccount.credited at hdata hrw
    rw [e2] at hdata hrw
    simp only at hdata hrw
    have hrid : w.acc.referralId = some r := by rw [hf.rid, e1]
    unfold VAccount.realizeReferral at hrefs
    rw [hrw, hrid, hdata] at hrefs
    simp only [if_true, bind_ok, expect_ok, pure_ok] at hrefs
    obtain ⟨_, hr1, _, hr2, old, ho, hrefs⟩ := hrefs
    cases hr1; cases hr2
    rw [e3] at ho; cases ho
    have hs := hf.split
    rw [hpart] at hs hrefs
    have hb := split_bounds hv hf.nonneg hrb.2
    have hfresh : d = d0 := e5 h.rew0
    subst hs
    refine ⟨?_, ?_, ?_, ?_, ?_, ?_, ?_, ?_⟩
    · rw [htot, hex]; simp
    · rw [htot, hex]; simp
    · rw [htot]; simp [e1, e3, hex]
    · rw [htot]; simp only [neg_neg]; exact ⟨hf.nonneg, hb.1, hb.2.1, hrb.1⟩
    · rw [htot]; simpa using hb.2.2
    · rw [hd]; simp
    · intro d' r' hr' hd'
      rw [e1] at hr'; cases hr'
      rw [e3] at hd'; cases hd'
      rw [← hrefs, AMap.get_set_self, hfresh]
      simp
    · intro r' hr'
      rw [e1] at hr'
      rw [← hrefs, AMap.get_set_ne]
      rintro rfl; exact hr' rfl


theorem basic_split {s s' : State} {pool pool' : VPool} {F : Dec} {f : FeeSplit} {d : FeeDist}
    {ex : ExchangeConfig} (hex : ex = s.config.exchange.decompress) (hv : ex.validate = true) (h0 : 0 ≤ F)
    (h : settleFeesBasic ex pool s.dist F = Except.ok (pool', d, f)) (hd : s'.dist = d)
    (hr : s'.referrals = s.referrals) : f.total = F ∧ SplitExact s s' none f := by
  obtain ⟨-, rfl, rfl⟩ := settleFeesBasic_ok h
  have htot : FeeSplit.total ⟨-(F - mulT F ex.feeShareProtocol - mulT F ex.feeShareTreasury),
      -mulT F ex.feeShareProtocol, -mulT F ex.feeShareTreasury, 0⟩ = F := by
    unfold FeeSplit.total; ring
  refine ⟨htot, ?_⟩
  have hb := split_bounds hv h0 (x := 0) (by omega)
  refine ⟨?_, ?_, ?_, ?_, ?_, ?_, ?_, ?_⟩
  · rw [htot, ← hex]; simp
  · rw [htot, ← hex]; simp
  · simp
  · rw [htot]; simp only [neg_neg]; exact ⟨h0, hb.1, hb.2.1, le_refl 0⟩
  · rw [htot]; simpa using hb.2.2
  · rw [hd]; simp
  · intro _ _ h; cases h
  · intro r _; rw [hr]

theorem opAddLiquidity_fees {env : Env} {s s' : State} {b : Bucket} {o : Out}
    (h : opAddLiquidity env s b = Except.ok (s', o)) :
    ∃ ev pool pool', o.ev = .liquidity ev ∧ settleFeesBasic s.config.exchange.decompress pool s.dist
      (mulT b.amt s.config.exchange.decompress.feeLiquidityAdd) = Except.ok (pool', s'.dist, ev.fees) ∧
      s'.referrals = s.referrals ∧ 0 ≤ b.amt := by
  simp only [opAddLiquidity, addLiquidity, bind_ok, pure_ok, require_ok, decide_eq_true_eq,
    Prod.mk.injEq, dmul_ok, dsub_ok, dadd_ok] at h
  obtain ⟨cfg, hc, -, hb, ⟨pool, dist, minted, ev⟩, ⟨-, hres, _, ⟨-, rfl⟩, pv, hpv, _, ⟨-, rfl⟩,
    ⟨am, pr⟩, hlp, p1, hdep, mi, hmint, ⟨p2, d2, f2⟩, hfee, rfl, rfl, rfl, rfl⟩, _, ⟨-, rfl⟩, rfl, rfl⟩ := h
  rw [VConfig.new_ex hc] at hfee
  exact ⟨_, _, _, rfl, hfee, rfl, okBucket_nonneg hb⟩

theorem opRemoveLiquidity_fees {env : Env} {s s' : State} {b : Bucket} {o : Out}
    (h : opRemoveLiquidity env s b = Except.ok (s', o)) :
    ∃ ev pool pool', o.ev = .liquidity ev ∧ settleFeesBasic s.config.exchange.decompress pool s.dist
      (mulT (mulT b.amt ev.lpPrice) s.config.exchange.decompress.feeLiquidityRemove) = Except.ok (pool', s'.dist, ev.fees) ∧
      s'.referrals = s.referrals ∧ 0 ≤ b.amt ∧ 0 ≤ ev.lpPrice := by
  obtain ⟨hl, -⟩ : (∃ l, s.lpSupply = l) ∧ True := ⟨⟨_, rfl⟩, trivial⟩
  simp only [opRemoveLiquidity, removeLiquidity, bind_ok, pure_ok, require_ok, decide_eq_true_eq,
    Prod.mk.injEq, dmul_ok, dsub_ok, ddiv_ok, dneg_ok] at h
  obtain ⟨cfg, hc, -, hb, ⟨pool, dist, y, ev⟩, ⟨-, hres, pv, hpv, _, ⟨hne, -, rfl⟩, _, ⟨-, rfl⟩,
    _, ⟨-, rfl⟩, _, ⟨-, rfl⟩, -, hle, ⟨p1, x⟩, hw, ⟨p2, d2, f2⟩, hfee, ⟨⟩, hint, _, ⟨-, rfl⟩, _, ⟨-, rfl⟩,
    rfl, rfl, rfl, rfl⟩, rfl, rfl⟩ := h
  rw [VConfig.new_ex hc] at hfee
  have hn := okBucket_nonneg hb
  refine ⟨_, _, _, rfl, hfee, rfl, hn, ?_⟩
  refine divT_nonneg (by omega) ?_
  simp only [okBucket, decide_eq_true_eq] at hb
  have := hb.2.2.1 hres
  omega

/-- Computations whose result carries no fee report. -/
def NoFees (m : R (State × Out)) : Prop := ∀ r, m = Except.ok r → r.2.ev.fees = none

theorem NoFees.bind {α : Type} {m : R α} {g : α → R (State × Out)} (h : ∀ x, NoFees (g x)) : NoFees (m >>= g) := by
  intro r hr
  rw [bind_ok] at hr
  obtain ⟨x, -, hx⟩ := hr
  exact h x r hx

theorem NoFees.pure {s : State} {o : Out} (h : o.ev.fees = none) : NoFees (Pure.pure (s, o)) := by
  intro r hr
  rw [pure_ok] at hr
  rw [← hr]; exact h

/-- **C21.** Every fee reported by a call — adding or removing liquidity, an executed order, a liquidation, an
auto-deleverage — is split exactly as configured: see `SplitExact`. -/
theorem c21_fee_split {env : Env} {cl : Caller} {s s' : State} {op : Op} {o : Out} {f : FeeSplit} (h0 : Reach env s)
    (h : step env cl s op = Except.ok (s', o)) (hf : o.ev.fees = some f) : SplitExact s s' (op.referrer s) f := by
  have hb := step_body h
  have hv := (reach_inForce h0).exchange
  have hv' := hv
  rw [ExchangeConfig.validate, decide_eq_true_eq] at hv'
  obtain ⟨-, -, -, -, -, va, vr, -⟩ := hv'
  have none_ : NoFees (body env cl s op) → SplitExact s s' (op.referrer s) f := by
    intro hn
    have := hn _ hb
    rw [hf] at this; cases this
  cases op with
  | addLiquidity b =>
    obtain ⟨ev, pool, pool', hev, hs, hr, hn⟩ := opAddLiquidity_fees hb
    rw [hev] at hf; cases hf
    exact (basic_split rfl hv (mulT_nonneg hn va) hs rfl hr).2
  | removeLiquidity b =>
    obtain ⟨ev, pool, pool', hev, hs, hr, hn, hp⟩ := opRemoveLiquidity_fees hb
    rw [hev] at hf; cases hf
    exact (basic_split rfl hv (mulT_nonneg (mulT_nonneg hn hp) vr) hs rfl hr).2
  | processRequest a i u =>
    have hx : o.ev ≠ .expired := by intro hx; rw [hx] at hf; cases hf
    obtain ⟨acc, acc', kr, ids, s1, c, w0, w, out, hrun, -, -, -, hex, hev, -, -⟩ := run_execute hb hx
    rcases executeRequest_ok hex with ⟨q, tokens, -, -, ho⟩ | ⟨q, e, -, hmo, ho⟩
    · rw [hev, ho] at hf; cases hf
    · rw [hev, ho] at hf; cases hf
      obtain ⟨F, hF⟩ := marginOrder_feeRun hmo
      have := hrun.split h0 hF
      simpa [Op.referrer, Op.account, hrun.before] using this
  | liquidate a b u =>
    obtain ⟨acc, acc', ids, s1, c, w0, w, tokens, e, hrun, -, -, hl, rfl⟩ := run_liquidate hb
    cases hf
    obtain ⟨F, hF⟩ := liquidate_feeRun hl
    have := hrun.split h0 hF
    simpa [Op.referrer, Op.account, hrun.before] using this
  | autoDeleverage a p u =>
    obtain ⟨acc, acc', ids, s1, c, w0, w, e, hrun, -, hl, rfl⟩ := run_adl hb
    cases hf
    obtain ⟨F, hF⟩ := adl_feeRun hl
    have := hrun.split h0 hF
    simpa [Op.referrer, Op.account, hrun.before] using this
  | _ =>
    refine none_ ?_
    simp only [body]
    repeat (first | exact NoFees.pure rfl | (refine NoFees.bind ?_; intro _) | split)

theorem feeMax_nonneg {env : Env} {s : State} (h0 : Reach env s) : 0 ≤ s.config.exchange.decompress.feeMax := by
  have hv := (reach_inForce h0).exchange
  rw [ExchangeConfig.validate, decide_eq_true_eq] at hv
  exact hv.2.2.2.2.2.2.2.2.2.2.1

/-- **C20, orders.** The fee of an executed order is not negative and at most the maximum rate times the traded value
(`price` times the size closed and the size opened). -/
theorem c20_order_fee {env : Env} {cl : Caller} {s s' : State} {a : Addr} {i : Nat} {u : Option PriceUpdate} {o : Out}
    {e : MarginOrderEv} (h0 : Reach env s) (h : step env cl s (.processRequest a i u) = Except.ok (s', o))
    (he : o.ev = .order e) :
    0 ≤ e.fees.total ∧ s'.market.price e.pair = e.price ∧
    e.fees.total * ONE * ONE ≤ s.config.exchange.decompress.feeMax * e.price * (|e.amountClose| + |e.amountOpen|) := by
  have hx : o.ev ≠ .expired := by intro hx; rw [hx] at he; cases he
  obtain ⟨acc, acc', kr, ids, s1, c, w0, w, out, hrun, -, -, -, hex, hev, -, -⟩ := run_execute (step_body h) hx
  rcases executeRequest_ok hex with ⟨q, tokens, -, -, ho⟩ | ⟨q, e', -, hmo, ho⟩
  · rw [hev, ho] at he; cases he
  · rw [hev, ho] at he; cases he
    have hs := c21_fee_split h0 h (by rw [hev, ho]; rfl)
    have hm : 0 ≤ c.cfg.ex.feeMax := by rw [hrun.ex]; exact feeMax_nonneg h0
    obtain ⟨price, pool, b, w1, funding, close, op, w2, pnl, fee, ok, w3, fees, a1, a2, hpr, hlim, hup, hf,
      hsp, hxo, hok, hok', hfee, ha1, ha2, hw', hint, rfl⟩ := marginOrder_ok hmo
    obtain ⟨hp1, hp2⟩ := hrun.price hpr
    refine ⟨hs.nonneg.1, hp1, ?_⟩
    obtain ⟨wc, f1, f2, hc, ho', rfl⟩ := executeOrder_ok hxo
    have l1 := closePart_fee_le hc hm hpr hp2.le
    have l2 := openPart_fee_le ho' hm hpr hp2.le
    have ht : fees.total = f1 + f2 := by
      obtain ⟨-, -, -, rfl⟩ := settleFeesReferral_ok hfee
      unfold FeeSplit.total; ring
    simp only
    rw [ht, ← hrun.ex, mul_add, add_mul, add_mul]
    exact add_le_add l1 l2

/-- **C20, auto-deleverage.** -/
theorem c20_adl_fee {env : Env} {cl : Caller} {s s' : State} {a : Addr} {p : PairId} {u : Option PriceUpdate} {o : Out}
    {e : AdlEv} (h0 : Reach env s) (h : step env cl s (.autoDeleverage a p u) = Except.ok (s', o))
    (he : o.ev = .adl e) :
    0 ≤ e.fees.total ∧ s'.market.price p = e.price ∧
    e.fees.total * ONE * ONE ≤ s.config.exchange.decompress.feeMax * e.price * |e.amountClose| := by
  obtain ⟨acc, acc', ids, s1, c, w0, w, e', hrun, -, hl, rfl⟩ := run_adl (step_body h)
  cases he
  have hs := c21_fee_split h0 h rfl
  have hm : 0 ≤ c.cfg.ex.feeMax := by rw [hrun.ex]; exact feeMax_nonneg h0
  obtain ⟨pool, b, w1, funding, ratio0, price, pct, thr, w2, pnl, fee, fees, ratio1, hup, hf, -, -, hpr, -, -, -, -, -,
    hcl, hfee, -, -, rfl⟩ := autoDeleverage_ok hl
  obtain ⟨hp1, hp2⟩ := hrun.price hpr
  refine ⟨hs.nonneg.1, hp1, ?_⟩
  have ht : fees.total = fee := by
    obtain ⟨-, -, -, rfl⟩ := settleFeesReferral_ok hfee
    unfold FeeSplit.total; ring
  simp only
  rw [ht, ← hrun.ex]
  obtain ⟨pc, pr, pp, -, hpr', -, -, -, -, rfl, -⟩ := closePosition_ok hcl
  rw [hpr] at hpr'; cases hpr'
  exact feeOf_le hm hp2.le

theorem liqLoop_fee {c : Ctx} {rebate : Dec} (hm : 0 ≤ c.cfg.ex.feeMax) {pr : PairId → Dec}
    (hp : ∀ p x, c.orc.prices.get p = some x → pr p = x ∧ 0 < x) (l : List (PairId × AccountPosition)) :
    ∀ {t t' : VPool × LiqTotals}, l.foldlM (liquidateOne c rebate) t = Except.ok t' →
    t'.2.fee * ONE * ONE ≤ t.2.fee * ONE * ONE +
      c.cfg.ex.feeMax * (l.map (fun e => pr e.1 * |e.2.amount|)).sum := by
  induction l with
  | nil =>
    intro t t' h
    simp only [List.foldlM_nil, pure_ok] at h
    subst h; simp
  | cons e l ih =>
    intro t t' h
    simp only [List.foldlM_cons, bind_ok] at h
    obtain ⟨t1, h1, h2⟩ := h
    obtain ⟨pc, price, pp, -, hpr, -, -, e2⟩ := liquidateOne_ok h1
    have hi := ih h2
    obtain ⟨hq, hpos⟩ := hp _ _ hpr
    have hf := feeOf_le (ex := c.cfg.ex) (pc := pc) (pp := pp) (rebate := rebate) (x := -e.2.amount) hm hpos.le
    rw [abs_neg] at hf
    rw [e2] at hi
    simp only [List.map_cons, List.sum_cons] at hi ⊢
    rw [hq]
    nlinarith [hi, hf]

/-- **C20, liquidations.** The fees of a liquidation are not negative and at most the maximum rate times the value of all
positions closed. -/
theorem c20_liquidation_fee {env : Env} {cl : Caller} {s s' : State} {a : Addr} {b : Bucket} {u : Option PriceUpdate}
    {o : Out} {e : LiquidateEv} {acc : Account} (h0 : Reach env s)
    (h : step env cl s (.liquidate a b u) = Except.ok (s', o)) (he : o.ev = .liquidate e)
    (ha : s.accounts.get a = some acc) :
    0 ≤ e.fees.total ∧ e.fees.total * ONE * ONE ≤ s.config.exchange.decompress.feeMax *
      acc.positions.sum (fun p pos => s'.market.price p * |pos.amount|) := by
  obtain ⟨acc0, acc', ids, s1, c, w0, w, tokens, e', hrun, -, -, hl, rfl⟩ := run_liquidate (step_body h)
  cases he
  have hb := hrun.before
  rw [ha] at hb; cases hb
  have hs := c21_fee_split h0 h rfl
  have hm : 0 ≤ c.cfg.ex.feeMax := by rw [hrun.ex]; exact feeMax_nonneg h0
  refine ⟨hs.nonneg.1, ?_⟩
  obtain ⟨w1, lp, lc, value, ac, tokens, taken, pool, w2, w3, loss, w4, fees, -, hlp, -, -, -, -, hwd, -, -, hst, hwo,
    hfee, rfl, -, rfl⟩ := liquidate_ok hl
  obtain ⟨p1, p2, p3, -, hlo, -, rfl⟩ := liquidatePositions_ok hlp
  have ht : fees.total = lp.fee := by
    obtain ⟨-, -, -, rfl⟩ := settleFeesReferral_ok hfee
    unfold FeeSplit.total; ring
  have := liqLoop_fee (pr := s'.market.price) hm (fun p x hx => hrun.price hx) _ hlo
  simp only [zero_mul, zero_add] at this
  simp only
  rw [ht, ← hrun.ex]
  rw [hrun.pos0] at this
  exact this


theorem KeeperRun.vb {env : Env} {s s' : State} {a : Addr} {acc acc' : Account} {ids : List PairId}
    {u : Option PriceUpdate} {s1 : State} {c : Ctx} {w0 w : W} (h : KeeperRun env s s' a acc acc' ids u s1 c w0 w) :
    acc'.vb = w.acc.vb := by
  obtain ⟨_, -, hacc⟩ := realize_ok h.real
  rw [hacc]

theorem closePart_net {c : Ctx} {w w' : W} {p : PairId} {x pnl fee price : Dec}
    (h : closePart c w p x = Except.ok (w', pnl, fee)) (hp : c.orc.prices.get p = some price) :
    w'.acc.vb - (w'.acc.position p).cost = w.acc.vb - (w.acc.position p).cost - mulT x price - fee ∧
    w'.acc.vb = w.acc.vb + pnl := by
  unfold closePart at h
  split at h
  · obtain ⟨pc, pr, pp, -, hpr, -, -, -, -, -, -, hpnl, -, ha, -⟩ := closePosition_ok h
    rw [hp] at hpr; cases hpr
    rw [ha]
    refine ⟨?_, rfl⟩
    show w.acc.vb + pnl - ((w.acc.setPosition p _).position p).cost = _
    rw [setPosition_position, if_pos rfl, hpnl]
    ring
  · rename_i hx
    simp only [ne_eq, not_not] at hx
    simp only [pure_ok, Prod.mk.injEq] at h
    obtain ⟨rfl, rfl, rfl⟩ := h
    rw [hx, mulT_zero_left]; simp

theorem openPart_net {c : Ctx} {w w' : W} {p : PairId} {x fee price : Dec}
    (h : openPart c w p x = Except.ok (w', fee)) (hp : c.orc.prices.get p = some price) :
    (w'.acc.position p).cost = (w.acc.position p).cost + mulT x price + fee ∧ w'.acc.vb = w.acc.vb := by
  unfold openPart at h
  split at h
  · obtain ⟨pc, pr, pp, -, hpr, -, -, -, -, -, -, -, ha, -⟩ := openPosition_ok h
    rw [hp] at hpr; cases hpr
    rw [ha, setPosition_position, if_pos rfl]
    exact ⟨by simp only; ring, rfl⟩
  · rename_i hx
    simp only [ne_eq, not_not] at hx
    simp only [pure_ok, Prod.mk.injEq] at h
    obtain ⟨rfl, rfl⟩ := h
    rw [hx, mulT_zero_left]; simp

/-- **C21, what the trader is charged (orders).** The virtual balance less the cost of the traded position changes by
exactly the funding settled, minus the value bought at the market price, minus the reported fee. -/
theorem c21_order_charge {env : Env} {cl : Caller} {s s' : State} {a : Addr} {i : Nat} {u : Option PriceUpdate} {o : Out}
    {e : MarginOrderEv} {acc acc' : Account} (h0 : Reach env s)
    (h : step env cl s (.processRequest a i u) = Except.ok (s', o)) (he : o.ev = .order e)
    (ha : s.accounts.get a = some acc) (ha' : s'.accounts.get a = some acc') :
    acc'.vb - acc'.costOf e.pair = acc.vb - acc.costOf e.pair + e.funding
      - mulT e.amountClose e.price - mulT e.amountOpen e.price - e.fees.total ∧
    acc'.vb = acc.vb + e.pnl := by
  have hx : o.ev ≠ .expired := by intro hx; rw [hx] at he; cases he
  obtain ⟨acc0, acc1, kr, ids, s1, c, w0, w, out, hrun, -, -, -, hex, hev, -, -⟩ := run_execute (step_body h) hx
  have hb := hrun.before
  rw [ha] at hb; cases hb
  have hb := hrun.after
  rw [ha'] at hb; cases hb
  rcases executeRequest_ok hex with ⟨q, tokens, -, -, ho⟩ | ⟨q, e', -, hmo, ho⟩
  · rw [hev, ho] at he; cases he
  · rw [hev, ho] at he; cases he
    rw [hrun.vb, ← hrun.vb0, ← hrun.cost0]
    rw [hrun.cost (reach_noEmpty h0)]
    obtain ⟨price, pool, b, w1, funding, close, op, w2, pnl, fee, ok, w3, fees, a1, a2, hpr, hlim, hup, hf,
      hsp, hxo, hok, hok', hfee, ha1, ha2, hw', hint, rfl⟩ := marginOrder_ok hmo
    obtain ⟨wc, f1, f2, hc, ho', rfl⟩ := executeOrder_ok hxo
    have ht : fees.total = f1 + f2 := by
      obtain ⟨-, -, -, rfl⟩ := settleFeesReferral_ok hfee
      unfold FeeSplit.total; ring
    have hs := settleFees_same hfee
    have q1 := (trySetStatus_reqOnly ha1).same
    have q2 := (trySetStatus_reqOnly ha2).same
    have hpos : (w.acc.position q.pair).cost = (w2.acc.position q.pair).cost := by
      rw [position_congr (v := w2.acc)]
      rw [hw']; exact congrArg (fun m => AMap.get m q.pair) ((q2.1.trans q1.1).trans hs.1)
    have hvb : w.acc.vb = w2.acc.vb := by rw [hw']; exact (q2.2.2.1.trans q1.2.2.1).trans hs.2.2.1
    obtain ⟨c1, c2⟩ := closePart_net hc hpr
    obtain ⟨o1, o2⟩ := openPart_net ho' hpr
    have f1' := settleFunding_position hf
    obtain ⟨_, -, -, -, hfa, -⟩ := settleFunding_ok hf
    have fv : w1.acc.vb = w0.acc.vb + funding := by rw [hfa]
    simp only at f1' ⊢
    rw [ht, hpos, hvb]
    constructor
    · linarith [f1'.2]
    · linarith

/-- **C21, what the trader is charged (auto-deleverage).** The position is closed at the market price: the virtual
balance changes by the funding settled plus the value of the position less its cost and the reported fee. -/
theorem c21_adl_charge {env : Env} {cl : Caller} {s s' : State} {a : Addr} {p : PairId} {u : Option PriceUpdate} {o : Out}
    {e : AdlEv} {acc acc' : Account} (h0 : Reach env s)
    (h : step env cl s (.autoDeleverage a p u) = Except.ok (s', o)) (he : o.ev = .adl e)
    (ha : s.accounts.get a = some acc) (ha' : s'.accounts.get a = some acc') :
    e.amountClose = -acc.size p ∧ acc'.positions.get p = none ∧
    acc'.vb = acc.vb + e.funding + mulT (acc.size p) e.price - acc.costOf p - e.fees.total ∧
    acc'.vb = acc.vb + e.pnl := by
  obtain ⟨acc0, acc1, ids, s1, c, w0, w, e', hrun, -, hl, rfl⟩ := run_adl (step_body h)
  cases he
  have hb := hrun.before
  rw [ha] at hb; cases hb
  have hb := hrun.after
  rw [ha'] at hb; cases hb
  obtain ⟨pool, b, w1, funding, ratio0, price, pct, thr, w2, pnl, fee, fees, ratio1, hup, hf, -, -, hpr, -, -, -, -, -,
    hcl, hfee, -, -, rfl⟩ := autoDeleverage_ok hl
  have ht : fees.total = fee := by
    obtain ⟨-, -, -, rfl⟩ := settleFeesReferral_ok hfee
    unfold FeeSplit.total; ring
  have f1' := settleFunding_position hf
  obtain ⟨_, -, -, -, hfa, -⟩ := settleFunding_ok hf
  have fv : w1.acc.vb = w0.acc.vb + funding := by rw [hfa]
  have hs := settleFees_same hfee
  simp only at f1' ⊢
  rw [f1'.1, hrun.size0] at hcl ⊢
  obtain ⟨pc, pr, pp, -, hpr', -, hne, -, -, -, -, hpnl, -, hacc, -⟩ := closePosition_ok hcl
  rw [hpr] at hpr'; cases hpr'
  have hsz := hrun.size (reach_noEmpty h0) p
  rw [position_congr (v := w2.acc) (by rw [hs.1])] at hsz
  rw [hacc] at hsz
  have hz : acc'.size p = 0 := by
    rw [hsz]
    show ((w1.acc.setPosition p _).position p).amount = 0
    rw [setPosition_position, if_pos rfl, f1'.1, hrun.size0]
    simp
  have hv2 : w2.acc.vb = w1.acc.vb + pnl := by rw [hacc]
  have hcost : closedCost (w1.acc.position p) (-acc.size p) = acc.costOf p := by
    rw [← hrun.cost0, ← f1'.2, ← hrun.size0, ← f1'.1]
    exact closedCost_all hne
  rw [hcost, mulT_neg_left] at hpnl
  refine ⟨rfl, ?_, ?_, ?_⟩
  · cases hq : acc'.positions.get p with
    | none => rfl
    | some x =>
      have := c05_no_empty_position (.step h0 h) ha' hq
      unfold Account.size at hz
      rw [hq] at hz
      exact absurd hz this
  · rw [hrun.vb, hs.2.2.1, hv2, fv, hpnl, ht, hrun.vb0]; ring
  · rw [hrun.vb, hs.2.2.1, hv2, fv, hrun.vb0]; ring

end Perp
