import Verif.TradeFair

/-!
# C54 for trades: why an order or an auto-deleverage is refused
-/

namespace Perp

/-! ## What a trade would do -/

/-- The fee for closing `cl` and then opening `op` of a pair in one order. -/
def State.orderFee (s : State) (acc : Account) (p : PairId) (cl op : Dec) : Dec :=
  s.tradeFee acc p (s.market.price p) (s.netOi p) cl + s.tradeFee acc p (s.market.price p) (s.netOi p + cl) op

/-- The referrer's part of a fee paid by an account. -/
def State.referralPart (s : State) (acc : Account) (fee : Dec) : Dec :=
  ((acc.referralId.bind s.referrals.get).map (fun d =>
    mulT (mulT fee s.config.exchange.decompress.feeShareReferral) d.feeReferral)).getD 0

/-- What the pool keeps of a fee. -/
def State.feeKept (s : State) (acc : Account) (fee : Dec) : Dec :=
  fee - mulT fee s.config.exchange.decompress.feeShareProtocol - mulT fee s.config.exchange.decompress.feeShareTreasury
    - s.referralPart acc fee

/-- The skew ratio of the pool if `cl` and then `op` were traded in a pair: the skew of the pair becomes that of the new open
interest, and the pool gains the fee it keeps (and the rounding of the products). -/
def State.ratioAfter (s : State) (acc : Account) (p : PairId) (cl op : Dec) : Dec :=
  divT (s.pool.skewAbsSnap - |mulT (s.netOi p) (s.market.price p)| + |mulT (s.netOi p + cl + op) (s.market.price p)|)
    (max (s.pool.value + s.feeKept acc (s.orderFee acc p cl op)
      + carry (s.netOi p) cl (s.market.price p) + carry (s.netOi p + cl) op (s.market.price p)) ONE)

/-! ## Loaded accounts -/

theorem load_referralPart {s : State} {a : Addr} {v : VAccount} {acc : Account} (hv : s.load a = Except.ok v)
    (ha : s.accounts.get a = some acc) (ex : ExchangeConfig) (hex : ex = s.config.exchange.decompress) (fee : Dec) :
    referralPart ex v fee = s.referralPart acc fee := by
  have href := load_refOk hv
  obtain ⟨acc', rd, ha', -, hv'⟩ := load_ok hv
  rw [ha] at ha'; cases ha'
  have hid : v.referralId = acc.referralId := by rw [hv']
  unfold State.referralPart Perp.referralPart VAccount.feeShareReferral
  rw [← hid, hex]
  rcases href with ⟨h1, h2, h3⟩ | ⟨r, d, d0, h1, h2, h3, h4, h5⟩
  · rw [h1, h2]; simp [mulT_zero_right]
  · rw [h1, h2, Option.bind_some, h3]
    simp only [Option.map_some, Option.getD_some]
    rw [h4]

/-! ## Auto-deleverage -/

/-- **Specification.** Why an auto-deleverage can be refused: the account or the pair does not exist, the prices are refused, the
skew ratio is not above the cap, the account has no position in the pair, the position's profit is not above the line, or closing
it would not lower the skew ratio. -/
def AdlRefused (env : Env) (s : State) (a : Addr) (p : PairId) (u : Option PriceUpdate) : Err → Prop
  | .invalidMarginAccount => s.accounts.get a = none
  | .missingPairConfig => s.config.pairs.get p = none
  | .adlSkewTooLow => ∃ s1, s.Refreshed s1 u [p] ∧ s1.pool.skewRatio ≤ s.config.exchange.decompress.skewRatioCap
  | .adlNoPosition => ∃ acc, s.accounts.get a = some acc ∧ acc.size p = 0
  | .adlPnlBelowThreshold => ∃ acc s1, s.accounts.get a = some acc ∧ s.Refreshed s1 u [p] ∧
      divT (mulT (acc.size p) (s1.market.price p) - acc.costOf p) (acc.costOf p) ≤
        adlLine s.config.exchange.decompress s1.pool.skewRatio
  | .adlSkewNotReduced => ∃ acc s1, s.accounts.get a = some acc ∧ s.Refreshed s1 u [p] ∧
      s1.pool.skewRatio ≤ s1.ratioAfter acc p (-acc.size p) 0
  | e => ∃ acc, s.accounts.get a = some acc ∧ PricesRefused env s (insertId acc.positions.keys p) u e

theorem load_position {s : State} {a : Addr} {v : VAccount} {acc : Account} (hv : s.load a = Except.ok v)
    (ha : s.accounts.get a = some acc) (p : PairId) :
    (v.position p).amount = acc.size p ∧ (v.position p).cost = acc.costOf p := by
  obtain ⟨acc', rd, ha', -, hv'⟩ := load_ok hv
  rw [ha] at ha'; cases ha'
  have : v.positions = acc.positions := by rw [hv']
  unfold VAccount.position Account.size Account.costOf AMap.getD
  rw [this]
  cases acc.positions.get p <;> simp [AccountPosition.zero]

/-- The price, the open interest and the fee schedule of a pair in the middle of a call. -/
theorem midway_quote {env : Env} {s s1 : State} {ids : List PairId} {u : Option PriceUpdate} {c : Ctx} {pool v : VPool}
    (hk : keeperLoad env s ids u = Except.ok (s1, c, pool)) (hcoh : PoolCoh s.now v) {p : PairId} {pp : PoolPosition}
    {pc : PairConfig} {x : Dec} (hpp : v.positions.get p = some pp) (hpc : c.cfg.pairs.get p = some pc)
    (hx : c.orc.prices.get p = some x) {a : Addr} {va : VAccount} {acc : Account} (hv : s.load a = Except.ok va)
    (ha : s.accounts.get a = some acc) :
    (s1.midway v).market.price p = x ∧ (s1.midway v).netOi p = pp.oiLong - pp.oiShort ∧
    (∀ k y, (s1.midway v).tradeFee acc p x k y = tradeFee c.cfg.ex.feeMax pc.fee0 pc.fee1 va.rebate x k y) ∧
    (∀ fee, (s1.midway v).feeKept acc fee =
      fee - mulT fee c.cfg.ex.feeShareProtocol - mulT fee c.cfg.ex.feeShareTreasury - referralPart c.cfg.ex va fee) := by
  obtain ⟨-, -, hcfg, -, -, -, -⟩ := keeperLoad_ok hk
  obtain ⟨e1, -, -, e4⟩ := VConfig.new_ok hcfg
  obtain ⟨k1, k2, -, -, k5, -⟩ := keeperLoad_state hk
  have hex : (s1.midway v).config.exchange.decompress = c.cfg.ex := by
    change s1.config.exchange.decompress = _
    rw [k1, e1]
  have hreb : (s1.midway v).rebateOf acc = va.rebate := by
    rw [← load_rebateOf hv ha]
    unfold State.rebateOf State.midway
    simp only [k5]
  refine ⟨(midway_price hk v hx).1, ?_, ?_, ?_⟩
  · unfold State.netOi
    have : (s1.midway v).pool.position (s1.midway v).now p = pp := by
      change (s1.midway v).pool.position s1.now p = pp
      rw [k2]; exact hcoh p pp hpp
    rw [this]
  · intro k y
    unfold State.tradeFee
    have hpair : (s1.midway v).market.pair p = pc := by
      obtain ⟨-, z, hz, rfl⟩ := e4 p pc hpc
      simp only [State.market, State.midway, k1, hz, Option.map_some, Option.getD_some]
    rw [hpair, hreb, hex]
  · intro fee
    unfold State.feeKept
    rw [hex, load_referralPart hv ha c.cfg.ex e1]
    have : (s1.midway v).referralPart acc fee = s.referralPart acc fee := by
      unfold State.referralPart State.midway
      simp only [k5, k1]
    rw [this]

theorem autoDeleverage_fails {c : Ctx} {w : W} {p : PairId} {ids : List PairId} {P : Err → Prop} (h : c.Ready ids)
    (hh : w.pool.Has ids) (hp : p ∈ ids) (hP : P .arithmetic)
    (hres : ∀ v b x pp pc, updatePair c w.pool p = Except.ok (v, b) → c.orc.prices.get p = some x →
      v.positions.get p = some pp → c.cfg.pairs.get p = some pc →
      (divT v.skewSnap (max v.worth ONE) ≤ c.cfg.ex.skewRatioCap → P .adlSkewTooLow) ∧
      ((w.acc.position p).amount = 0 → P .adlNoPosition) ∧
      (divT (mulT (w.acc.position p).amount x - (w.acc.position p).cost) (w.acc.position p).cost ≤
        adlLine c.cfg.ex (divT v.skewSnap (max v.worth ONE)) → P .adlPnlBelowThreshold) ∧
      (∀ fee, fee = tradeFee c.cfg.ex.feeMax pc.fee0 pc.fee1 w.acc.rebate x (pp.oiLong - pp.oiShort) (-(w.acc.position p).amount) →
        divT v.skewSnap (max v.worth ONE) ≤
          divT (v.skewSnap - |mulT (pp.oiLong - pp.oiShort) x| + |mulT (pp.oiLong - pp.oiShort + -(w.acc.position p).amount) x|)
            (max (v.worth + (fee - mulT fee c.cfg.ex.feeShareProtocol - mulT fee c.cfg.ex.feeShareTreasury
              - referralPart c.cfg.ex w.acc fee) + carry (pp.oiLong - pp.oiShort) (-(w.acc.position p).amount) x) ONE) →
        P .adlSkewNotReduced)) :
    Fails P (autoDeleverage c w p) := by
  unfold autoDeleverage
  refine fails_bind ((updatePair_errs h hh hp).arithmetic hP) (fun u hu => ?_)
  obtain ⟨v, b⟩ := u
  have hu' : v.Has ids := updatePair_has hu hh
  obtain ⟨pp, x, hpp, hx, hm⟩ := midway_marked hu
  obtain ⟨pc, hpc⟩ := h.pair p hp
  obtain ⟨r1, r2, r3, r4⟩ := hres v b x pp pc hu hx hpp hpc
  refine fails_bind ((settleFunding_errs (w := { w with pool := v }) hu' hp).arithmetic hP) (fun y hy => ?_)
  obtain ⟨w1, funding⟩ := y
  obtain ⟨m1, m2, m3⟩ := settleFunding_worth hy
  have hfp := settleFunding_position hy
  obtain ⟨_, -, -, -, hfa, -⟩ := settleFunding_ok hy
  have hreb : w1.acc.rebate = w.acc.rebate := by rw [hfa]; rfl
  have href : ∀ f, referralPart c.cfg.ex w1.acc f = referralPart c.cfg.ex w.acc f := by intro f; rw [hfa]; rfl
  have hw1 : w1.pool.Has ids := by intro q hq; rw [m3]; exact hu' q hq
  simp only at hfp m1 m2 m3
  refine fails_bind ((skewRatio_errs _).arithmetic hP) (fun ratio0 hr0 => ?_)
  have hr0' : ratio0 = divT v.skewSnap (max v.worth ONE) := by
    rw [skewRatio_ok hr0, m2]; unfold VPool.worth at m1 ⊢; rw [m1]
  refine fails_bind (fails_check (fun hn => r1 ?_)) (fun _ _ => ?_)
  · rw [← hr0']; exact not_lt.mp hn
  refine fails_bind (fails_expect (fun hn => ?_)) (fun price hprice => ?_)
  · rw [hx] at hn; cases hn
  rw [VOracle.price_ok, hx] at hprice; cases hprice
  simp only
  refine fails_bind (fails_check (fun hn => r2 ?_)) (fun _ hne => ?_)
  · rw [hfp.1] at hn; simpa using hn
  rw [require_ok, decide_eq_true_eq] at hne
  refine fails_bind ((errs_dmul (l := arith) (by decide) _ _).arithmetic hP) (fun value hval => ?_)
  rw [dmul_ok] at hval
  obtain ⟨-, rfl⟩ := hval
  refine fails_bind ((errs_dsub (l := arith) (by decide) _ _).arithmetic hP) (fun z hz => ?_)
  rw [dsub_ok] at hz
  obtain ⟨-, rfl⟩ := hz
  refine fails_bind ((errs_ddiv (l := arith) (by decide) _ _).arithmetic hP) (fun pct hpct => ?_)
  rw [ddiv_ok] at hpct
  obtain ⟨-, -, rfl⟩ := hpct
  refine fails_bind ((adlThreshold_errs _ _).arithmetic hP) (fun thr hthr => ?_)
  obtain ⟨hthr, -⟩ := adlThreshold_ok hthr
  subst hthr
  refine fails_bind (fails_check (fun hn => r3 ?_)) (fun _ _ => ?_)
  · rw [hfp.1, hfp.2, hr0'] at hn; exact not_lt.mp hn
  refine fails_bind ((errs_dneg (l := arith) (by decide) _).arithmetic hP) (fun cl hcl => ?_)
  rw [dneg_ok] at hcl
  obtain ⟨-, rfl⟩ := hcl
  refine fails_bind ((closePosition_errs h hw1 hp ?_ ?_).arithmetic hP) (fun y hy => ?_)
  · rw [Int.sign_neg]; nlinarith [mul_self_nonneg ((w1.acc.position p).amount.sign)]
  · rw [abs_neg]
  obtain ⟨w2, pnl, fee⟩ := y
  have hc : closePart c w1 p (-(w1.acc.position p).amount) = Except.ok (w2, pnl, fee) := by
    unfold closePart; rw [if_pos (by simpa using hne)]; exact hy
  obtain ⟨k1, k2, pp1, k3, k4, k5, -⟩ := closePart_worth hc hx (by rw [m3]; exact hpp) hm
  have hfee : fee = tradeFee c.cfg.ex.feeMax pc.fee0 pc.fee1 w.acc.rebate x (pp.oiLong - pp.oiShort) (-(w.acc.position p).amount) ∧
      ∀ f, referralPart c.cfg.ex w2.acc f = referralPart c.cfg.ex w.acc f := by
    obtain ⟨pc', pr, pp', hpc', hpr, hpp', -, -, -, rfl, -, -, -, hacc, -⟩ := closePosition_ok hy
    rw [hx] at hpr; cases hpr
    rw [hpc] at hpc'; cases hpc'
    rw [m3, hpp] at hpp'; cases hpp'
    refine ⟨by rw [feeOf_tradeFee, hreb, hfp.1], fun f => ?_⟩
    rw [← href, hacc]; rfl
  refine fails_bind ((settleFeesReferral_errs _ _ _).arithmetic hP) (fun y hy => ?_)
  obtain ⟨w3, fees⟩ := y
  obtain ⟨n1, n2, n3, n4⟩ := settleFees_worth hy
  obtain ⟨-, -, -, hsplit⟩ := settleFeesReferral_ok hy
  refine fails_bind ((skewRatio_errs _).arithmetic hP) (fun ratio1 hr1 => ?_)
  refine fails_bind (fails_check (fun hn => r4 fee hfee.1 ?_)) (fun _ _ => ?_)
  · rw [skewRatio_ok hr1, hr0'] at hn
    have e : w3.pool.base + w3.pool.vb + w3.pool.unreal + w3.pool.pnlSnap = w3.pool.worth := rfl
    rw [e, n1, n2, k1, k2, m1, m2, hsplit] at hn
    refine le_trans (not_lt.mp hn) (le_of_eq ?_)
    rw [hfp.1, hfee.2]
    congr 2
    ring
  · exact fails_bind ((errs_dadd (l := arith) (by decide) _ _).arithmetic hP) (fun _ _ => fails_pure _)

/-- Loading pairs of which one may not be configured. -/
theorem keeperLoad_any_fails {env : Env} {s : State} {ids : List PairId} {u : Option PriceUpdate} {P : Err → Prop}
    (hm : ∀ p ∈ ids, s.config.pairs.get p = none → P .missingPairConfig)
    (hP : ∀ e, PricesRefused env s ids u e → P e) : Fails P (keeperLoad env s ids u) := by
  by_cases hc : ∀ p ∈ ids, ∃ x, s.config.pairs.get p = some x
  · exact (keeperLoad_fails hc).mono hP
  · push Not at hc
    obtain ⟨p, hp, hn⟩ := hc
    have hn : s.config.pairs.get p = none := by
      cases hg : s.config.pairs.get p with
      | none => rfl
      | some x => exact absurd hg (hn x)
    intro e he
    unfold keeperLoad at he
    cases hv : VConfig.new s.config ids with
    | ok cfg =>
      obtain ⟨x, hx, -⟩ := (VConfig.new_ok hv).2.2.1 p hp
      rw [hn] at hx; cases hx
    | error e' =>
      have := config_errs (l := [.missingPairConfig]) s.config ids (by simp) e' hv
      rw [hv] at he
      simp only [bind, Except.bind, Except.error.injEq] at he
      rw [← he]
      rw [List.mem_singleton] at this
      rw [this]; exact hm p hp hn

/-- **C54, auto-deleverage.** Every refusal has the reason of the specification. -/
theorem c54_adl {env : Env} {cl : Caller} {s : State} (h : Reach env s) (hw : s.RewardWhole env) {a : Addr}
    {p : PairId} {u : Option PriceUpdate} {e : Err} (hp : Permitted cl s (.autoDeleverage a p u))
    (hs : step env cl s (.autoDeleverage a p u) = Except.error e) : AdlRefused env s a p u e := by
  rw [step_permitted hp] at hs
  revert hs e
  change Fails _ (opAutoDeleverage env s a p u)
  unfold opAutoDeleverage
  refine fails_bind (load_fails h a (fun h => h)) (fun v hv => ?_)
  have hids := loaded_ids h hv
  obtain ⟨acc, rd, ha, -, hv'⟩ := load_ok hv
  have hpid : v.positionIds = acc.positions.keys := by rw [hv']; rfl
  have har : AdlRefused env s a p u .arithmetic := ⟨acc, ha, trivial⟩
  refine fails_bind (keeperLoad_any_fails (fun q hq hn => ?_) (fun e he => ?_)) (fun r hr => ?_)
  · rcases mem_insertId.mp hq with rfl | hq
    · exact hn
    · obtain ⟨x, hx⟩ := hids q hq
      rw [hn] at hx; cases hx
  · rw [hpid] at he
    cases e <;> first | exact False.elim he | exact ⟨acc, ha, he⟩
  obtain ⟨s1, c, pool⟩ := r
  obtain ⟨hready, hhas⟩ := keeperLoad_ready hr
  obtain ⟨-, -, hcfg, -, -, -, -⟩ := keeperLoad_ok hr
  have hex : c.cfg.ex = s.config.exchange.decompress := (VConfig.new_ok hcfg).1
  have hpin : p ∈ insertId v.positionIds p := mem_insertId.mpr (Or.inl rfl)
  obtain ⟨hsz, hco⟩ := load_position hv ha p
  refine fails_bind (autoDeleverage_fails (w := { pool, acc := v, dist := s1.dist }) hready hhas hpin har
    (fun v1 b x pp pc hu hx hpp hpc => ?_)) (fun x hx => ?_)
  · obtain ⟨hrf, hcoh, hbase⟩ := one_refreshed h hr hpin hu
    obtain ⟨q1, q2, q3, q4⟩ := midway_quote hr hcoh hpp hpc hx hv ha
    obtain ⟨w1, w2⟩ := midway_value (s1 := s1) hbase
    simp only [hsz, hco]
    refine ⟨fun hn => ⟨s1.midway v1, hrf, ?_⟩, fun hn => ⟨acc, ha, hn⟩, fun hn => ⟨acc, s1.midway v1, ha, hrf, ?_⟩,
      fun fee hfee hn => ⟨acc, s1.midway v1, ha, hrf, ?_⟩⟩
    · rw [w2, ← hex]; exact hn
    · rw [w2, ← hex, q1]; exact hn
    · rw [w2]
      refine le_trans hn (le_of_eq ?_)
      have hof : (s1.midway v1).orderFee acc p (-acc.size p) 0 = fee := by
        unfold State.orderFee
        rw [q1, q2, q3, q3, tradeFee_zero, add_zero, hfee]
      unfold State.ratioAfter
      rw [hof, q1, q2, q4, w1]
      have hz : carry (pp.oiLong - pp.oiShort + -acc.size p) 0 x = 0 := by unfold carry; rw [mulT_zero_left]; simp
      rw [hz, add_zero, add_zero]
      rfl
  obtain ⟨w, e⟩ := x
  have hinv := rinv_congr (autoDeleverage_touches hx).reqPart (load_rinv hv (reach_requestsOk h)).1
  refine fails_bind (fails_of_ok (keeper_commit hr hinv (refOk_path (autoDeleverage_path hx) (load_refOk hv)))) (fun s2 _ => ?_)
  exact fails_bind ((keeper_mint h hw hcfg s2).arithmetic har) (fun _ _ => fails_pure _)

end Perp
