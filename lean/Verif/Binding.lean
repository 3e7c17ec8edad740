import Verif.RefusalsAll
import Verif.Order

/-!
# No reason is waived: a call that goes through had none of the listed reasons against it (C71)
-/

namespace Perp

/-- None of the reasons holds (numbers out of range aside). -/
def Cleared (P : Err → Prop) : Prop := ∀ e, e ≠ .arithmetic → ¬ P e

theorem Cleared.mono {P Q : Err → Prop} (h : Cleared Q) (hPQ : ∀ e, e ≠ .arithmetic → P e → Q e) : Cleared P :=
  fun e he hp => h e he (hPQ e he hp)

theorem Cleared.or {P Q : Err → Prop} (h : Cleared P) (h' : Cleared Q) : Cleared (fun e => P e ∨ Q e) :=
  fun e he hp => hp.elim (h e he) (h' e he)

section
variable {env : Env} {cl : Caller} {s s1 s' : State} {ids : List PairId} {u : Option PriceUpdate} {c : Ctx} {pool : VPool} {o : Out}

/-! ## Prices -/

theorem prices_cleared (hk : keeperLoad env s ids u = Except.ok (s1, c, pool)) : Cleared (PricesRefused env s ids u) := by
  obtain ⟨henv, -, hcfg, hpush, ⟨feeds, hf, ho⟩, -, -⟩ := keeperLoad_ok hk
  obtain ⟨-, hcolls, hpairs, -⟩ := VConfig.new_ok hcfg
  obtain ⟨-, hcov, hval⟩ := VOracle.new_ok ho
  obtain ⟨hpr, -⟩ := maybePush_prices hpush
  have key : ∀ p age, s.Needs ids p age → ∃ x t, (s.pricesWith u).get p = some (x, t) ∧ 0 < x ∧ s.now - t < age := by
    intro p age hn
    rw [← hpr]
    rcases hn with ⟨hin, hage⟩ | ⟨r, cc, hcc, rfl, rfl⟩
    · obtain ⟨pc, hpc, hget⟩ := hpairs p hin
      have hfeed : ∃ a, feeds.get p = some a ∧ a = age := by
        obtain ⟨a, ha, hg⟩ := (AMap.buildM_ok hf).1 p hin
        refine ⟨a, hg, ?_⟩
        simp only [bind_ok, pure_ok, VConfig.pair_ok] at ha
        obtain ⟨pc', hpc', rfl⟩ := ha
        rw [hget] at hpc'; cases hpc'
        unfold State.pairAge at hage
        rw [hpc] at hage
        cases hage; rfl
      obtain ⟨a, hfd, rfl⟩ := hfeed
      obtain ⟨x, hx⟩ := hcov p (Or.inl ⟨a, hfd⟩)
      obtain ⟨h0, t, ht, h1, -⟩ := hval p x hx
      exact ⟨x, t, ht, h0, h1 a hfd⟩
    · have hcg : c.cfg.colls.get r = some cc.decompress := by rw [hcolls, AMap.get_mapV, hcc]; rfl
      obtain ⟨x, hx⟩ := hcov cc.pairId (Or.inr ⟨r, _, hcg, rfl⟩)
      obtain ⟨h0, t, ht, -, h1⟩ := hval _ x hx
      exact ⟨x, t, ht, h0, h1 r _ hcg rfl⟩
  have hu : ∀ x, u = some x → ∃ k, s.oracle.keys.get x.keyId = some k ∧ env.verify x.prices k x.sig = true := by
    rintro x rfl
    obtain ⟨k, h1, h2, -⟩ := Oracle.push_ok hpush
    exact ⟨k, h1, h2⟩
  intro e he hr
  cases e <;> try exact hr
  case arithmetic => exact he rfl
  case badKey =>
    obtain ⟨x, hx, hn⟩ := hr
    obtain ⟨k, h1, -⟩ := hu x hx
    rw [hn] at h1; cases h1
  case badSignature =>
    obtain ⟨x, k, hx, hk, hn⟩ := hr
    obtain ⟨k', h1, h2⟩ := hu x hx
    rw [hk] at h1; cases h1
    rw [hn] at h2; cases h2
  case missingPair =>
    obtain ⟨p, age, hn, h1⟩ := hr
    obtain ⟨x, t, h2, -⟩ := key p age hn
    rw [h1] at h2; cases h2
  case invalidPrice =>
    obtain ⟨p, age, x, t, hn, h1, hle⟩ := hr
    obtain ⟨x', t', h2, h3, -⟩ := key p age hn
    rw [h1] at h2; cases h2
    omega
  case priceTooOld =>
    obtain ⟨p, age, x, t, hn, h1, hle⟩ := hr
    obtain ⟨x', t', h2, -, h3⟩ := key p age hn
    rw [h1] at h2; cases h2
    omega

theorem oathPrices_cleared (hl : oathLoad env s ids = Except.ok (c, pool)) : Cleared (OathPricesRefused s ids) := by
  obtain ⟨henv, -, hcfg, ho, -⟩ := oathLoad_ok hl
  obtain ⟨-, hcolls, hpairs, -⟩ := VConfig.new_ok hcfg
  obtain ⟨-, hcov, hval⟩ := VOracle.new_ok ho
  have key : ∀ p age, s.OathNeeds ids p age → ∃ x t, s.oracle.prices.get p = some (x, t) ∧ 0 < x ∧ s.now - t < age := by
    intro p age hn
    rcases hn with ⟨hin, rfl⟩ | ⟨r, cc, hcc, rfl, rfl⟩
    · have hfd : (pairFeedsNoMaxAge ids).get p = some I64MAX := by
        unfold pairFeedsNoMaxAge
        rw [AMap.get_build, if_pos hin]
      obtain ⟨x, hx⟩ := hcov p (Or.inl ⟨_, hfd⟩)
      obtain ⟨h0, t, ht, h1, -⟩ := hval p x hx
      exact ⟨x, t, ht, h0, h1 _ hfd⟩
    · have hcg : c.cfg.colls.get r = some cc.decompress := by rw [hcolls, AMap.get_mapV, hcc]; rfl
      obtain ⟨x, hx⟩ := hcov cc.pairId (Or.inr ⟨r, _, hcg, rfl⟩)
      obtain ⟨h0, t, ht, -, h1⟩ := hval _ x hx
      exact ⟨x, t, ht, h0, h1 r _ hcg rfl⟩
  intro e he hr
  cases e <;> try exact hr
  case arithmetic => exact he rfl
  case missingPair =>
    obtain ⟨p, age, hn, h1⟩ := hr
    obtain ⟨x, t, h2, -⟩ := key p age hn
    rw [h1] at h2; cases h2
  case invalidPrice =>
    obtain ⟨p, age, x, t, hn, h1, hle⟩ := hr
    obtain ⟨x', t', h2, h3, -⟩ := key p age hn
    rw [h1] at h2; cases h2
    omega
  case priceTooOld =>
    obtain ⟨p, age, x, t, hn, h1, hle⟩ := hr
    obtain ⟨x', t', h2, -, h3⟩ := key p age hn
    rw [h1] at h2; cases h2
    omega

/-! ## Oaths -/

theorem oath_cleared {pool' : VPool} {v : VAccount} {acc : Account} {b : Bucket}
    (hl : oathLoad env s ids = Except.ok (c, pool)) (hp : pool'.positions = pool.positions)
    (hres : b.res = FEE_OATH) (hb : okBucket env s b = true) (hi : assertAccountIntegrity c pool' v = Except.ok ())
    (e1 : acc.positions = v.positions) (e2 : acc.collateralBalances = v.collateralBalances) (e3 : acc.vb - b.amt = v.vb)
    (e4 : s.rebateOf acc = v.rebate) : Cleared (OathRefused env s acc b ids) := by
  have hf : c.Feeds := (VOracle.new_ok (oathLoad_ok hl).2.2.2.1).1
  obtain ⟨h1, h2, h3⟩ := assertAccountIntegrity_ok hf hi
  have hpr := oathPrices_cleared hl
  intro e he hr
  cases e <;> try exact hpr _ he hr
  case invalidFeeOath => exact hr hres
  case badBucket => rw [show okBucket env s b = false from hr] at hb; cases hb
  case insufficientMargin =>
    have ha := oath_agree hl hp (s' := s) rfl rfl rfl rfl h2 h3
    rw [ha.margin, ha.value] at h1
    change s.accountValue _ < s.initialMargin _ at hr
    unfold State.accountValue State.initialMargin at hr
    have e5 : s.rebateOf { acc with vb := acc.vb - b.amt } = v.rebate := e4
    rw [e5, e1, e2] at hr
    simp only at hr
    rw [e3] at hr
    exact absurd h1 (not_le.mpr hr)

theorem payOath_cleared {a : Addr} {v v1 : VAccount} {acc : Account} {oath : Option Bucket} {plain : List PairId} {cfg : VConfig}
    (hv : s.load a = Except.ok v) (ha : s.accounts.get a = some acc)
    (hp : payOath env s v oath ids plain = Except.ok (s1, v1, cfg)) :
    Cleared (fun e => ∃ b, oath = some b ∧ OathRefused env s acc b ids e) := by
  rintro e he ⟨b, hb, hr⟩
  rcases payOath_ok hp with ⟨b', c, pool, hb', hl, hres, hok, hv1, hi, -, -⟩ | ⟨hn, -⟩
  · rw [hb] at hb'; cases hb'
    have hreb := load_rebateOf hv ha
    obtain ⟨acc', rd, ha', -, hv'⟩ := load_ok hv
    rw [ha] at ha'; cases ha'
    refine oath_cleared (v := v1) (acc := acc) hl rfl hres hok hi ?_ ?_ ?_ ?_ e he hr
    · rw [hv1, hv']
    · rw [hv1, hv']
    · rw [hv1, hv']
    · rw [hreb, hv1]; rfl
  · rw [hb] at hn; cases hn

/-- A call of the account holder that goes through. -/
theorem holder_cleared {a : Addr} {v v1 : VAccount} {oath : Option Bucket} {plain : List PairId} {cfg : VConfig} {lv : Level}
    {f : List PairId → List PairId} {Q : Account → Err → Prop} (hv : s.load a = Except.ok v)
    (hl : verifyLevel cl v lv = Except.ok ()) (hp : payOath env s v oath (f v.positionIds) plain = Except.ok (s1, v1, cfg))
    (hQ : ∀ acc, s.accounts.get a = some acc → Cleared (Q acc)) :
    Cleared (HolderRefused env cl s a oath lv (fun acc => f acc.positions.keys) Q) := by
  obtain ⟨acc, rd, ha, -, hv'⟩ := load_ok hv
  have hpos : v.positionIds = acc.positions.keys := by rw [hv']; rfl
  rw [hpos] at hp
  rintro e he (⟨rfl, hn⟩ | ⟨acc', ha', hr⟩)
  · rw [ha] at hn; cases hn
  · rw [ha] at ha'; cases ha'
    rcases hr with ⟨rfl, hr⟩ | hr | hr
    · simp only [verifyLevel, require_ok] at hl
      rw [hv'] at hl
      have hl : (acc.rule lv).sat cl.pf = true := hl
      rw [hr] at hl; cases hl
    · exact payOath_cleared hv ha hp e he hr
    · exact hQ acc ha e he hr

/-! ## Calls of the holder -/

theorem createRecoveryKey_cleared {oath : Option Bucket} {a : Addr} (h : createRecoveryKey env cl s oath a = Except.ok (s', o)) :
    Cleared (HolderRefused env cl s a oath .l1 (fun acc => acc.positions.keys) NoReason) := by
  simp only [createRecoveryKey, bind_ok] at h
  obtain ⟨v, hv, ⟨⟩, h1, ⟨s1, v1, cfg⟩, h2, -⟩ := h
  exact holder_cleared (f := id) hv h1 h2 (fun _ _ _ _ hn => hn)

theorem setLevelAuth_cleared {oath : Option Bucket} {a : Addr} {l : Level} {r : Rule}
    (h : setLevelAuth env cl s oath a l r = Except.ok (s', o)) :
    Cleared (HolderRefused env cl s a oath .l1 (fun acc => acc.positions.keys) NoReason) := by
  simp only [setLevelAuth, bind_ok] at h
  obtain ⟨v, hv, ⟨⟩, h1, ⟨s1, v1, cfg⟩, h2, -⟩ := h
  exact holder_cleared (f := id) hv h1 h2 (fun _ _ _ _ hn => hn)

theorem addAuthRule_cleared {oath : Option Bucket} {a : Addr} {l : Nat} {n : Node}
    (h : addAuthRule env cl s oath a l n = Except.ok (s', o)) :
    Cleared (HolderRefused env cl s a oath .l1 (fun acc => acc.positions.keys) (LevelRefused l)) := by
  simp only [addAuthRule, bind_ok] at h
  obtain ⟨v, hv, ⟨⟩, h1, ⟨s1, v1, cfg⟩, h2, lv, h3, -⟩ := h
  refine holder_cleared (f := id) hv h1 h2 (fun _ _ e _ hn => ?_)
  cases e <;> try exact hn
  case invalidLevel =>
    obtain ⟨n1, n2, n3⟩ := hn
    rcases levelOf_ok h3 with h | h | h
    all_goals omega

theorem removeCollateralRequest_cleared (hr : Reach env s) {oath : Option Bucket} {expiry : Nat} {a target : Addr} {claims : List (Res × Dec)}
    (h : removeCollateralRequest env cl s oath expiry a target claims = Except.ok (s', o)) :
    Cleared (HolderRefused env cl s a oath .l2 (fun acc => acc.positions.keys) (RemovalRefused s claims expiry)) := by
  simp only [removeCollateralRequest, bind_ok] at h
  obtain ⟨v, hv, ⟨⟩, h1, ⟨s1, v1, cfg⟩, h2, ⟨⟩, h3, v2, h4, ⟨⟩, h5, -⟩ := h
  refine holder_cleared (f := id) hv h1 h2 (fun acc ha e he hn => ?_)
  obtain ⟨f1, -, f3, f4, -⟩ := paid_facts ha hv h2
  have hi : RInv v1 := by
    refine rinv_congr ?_ (load_rinv hv (reach_requestsOk hr)).1
    rw [(payOath_frame h2).2.1]; rfl
  have h6 := (pushRequest_exact hi h4).2.2.1
  simp only [require_ok, decide_eq_true_eq] at h3
  simp only [assertActiveLimit, require_ok, decide_eq_true_eq, h6, f1, f4] at h5
  cases e <;> try exact hn
  case claimsTooMany => exact absurd h3 (not_le.mpr hn)
  case activeTooMany => exact absurd h5 (not_le.mpr hn)
  case arithmetic => exact he rfl

theorem marginOrderRequest_cleared (hr : Reach env s) {oath : Option Bucket} {a : Addr} {q : OrderArgs}
    {act can : List RequestIndexRef} {st : Status}
    (h : marginOrderRequest env cl s oath a q act can st = Except.ok (s', o)) :
    Cleared (HolderRefused env cl s a oath .l3 (fun acc => insertId acc.positions.keys q.pair) (OrderRequestRefused s q act can st)) := by
  simp only [marginOrderRequest, bind_ok, decide_eq_true_eq] at h
  obtain ⟨v, hv, ⟨⟩, h1, ⟨s1, v1, cfg⟩, h2, ⟨⟩, h3, ⟨⟩, g1, ⟨⟩, g2, l1, g3, l2, g4, v2, h4, ⟨⟩, h5, -⟩ := h
  refine holder_cleared (f := fun l => insertId l q.pair) hv h1 h2 (fun acc ha e he hn => ?_)
  obtain ⟨f1, f2, f3, f4, -, -, hcfg⟩ := paid_facts ha hv h2
  have hi : RInv v1 := by
    refine rinv_congr ?_ (load_rinv hv (reach_requestsOk hr)).1
    rw [(payOath_frame h2).2.1]; rfl
  have h6 := (pushRequest_exact hi h4).2.2.1
  simp only [require_ok, decide_eq_true_eq] at g1 g2
  simp only [assertActiveLimit, require_ok, decide_eq_true_eq, h6, f1, f4] at h5
  have h7 := (pushRequest_legal h4).1
  obtain ⟨k1, y, hy, k2⟩ := assertTradeSize_legal hcfg h3
  cases e <;> try exact hn
  case missingPairConfig => rw [show s.config.pairs.get q.pair = none from hn] at hy; cases hy
  case tradeSizeMin =>
    change |q.amount| < (s.market.pair q.pair).tradeSizeMin at hn
    unfold State.market at hn
    simp only [hy, Option.map_some, Option.getD_some] at hn
    exact absurd k2 (not_le.mpr hn)
  case effectedTooMany => exact hn.elim (fun he => absurd g1 (not_le.mpr he)) (fun he => absurd g2 (not_le.mpr he))
  case invalidStatus => exact h7.elim hn.1 hn.2
  case activeTooMany => exact absurd h5 (not_le.mpr hn)
  case arithmetic => exact he rfl

theorem marginOrderTpSl_cleared (hr : Reach env s) {oath : Option Bucket} {a : Addr} {q : OrderArgs} {tp sl : Option Dec}
    (h : marginOrderTpSlRequest env cl s oath a q tp sl = Except.ok (s', o)) :
    Cleared (HolderRefused env cl s a oath .l3 (fun acc => insertId acc.positions.keys q.pair) (TpSlRefused s q tp sl)) := by
  simp only [marginOrderTpSlRequest, bind_ok] at h
  obtain ⟨v, hv, ⟨⟩, h1, ⟨s1, v1, cfg⟩, h2, ⟨⟩, h3, v2, h4, v3, g1, v4, g2, ⟨⟩, h5, -⟩ := h
  refine holder_cleared (f := fun l => insertId l q.pair) hv h1 h2 (fun acc ha e he hn => ?_)
  obtain ⟨f1, f2, f3, f4, -, -, hcfg⟩ := paid_facts ha hv h2
  have hi : RInv v1 := by
    refine rinv_congr ?_ (load_rinv hv (reach_requestsOk hr)).1
    rw [(payOath_frame h2).2.1]; rfl
  have h6 := pushRequest_exact hi h4
  have h6' := pushExit_count h6.1 g1
  have h6'' := pushExit_count h6'.1 g2
  have hm : ∀ (x : Option Dec) (f : Dec → PriceLimit), (x.map f).toList.length = x.toList.length := by
    intro x f; cases x <;> rfl
  simp only [assertActiveLimit, require_ok, decide_eq_true_eq, h6''.2, h6'.2, h6.2.2.1, f1, f4, hm] at h5
  obtain ⟨k1, y, hy, k2⟩ := assertTradeSize_legal hcfg h3
  cases e <;> try exact hn
  case missingPairConfig => rw [show s.config.pairs.get q.pair = none from hn] at hy; cases hy
  case tradeSizeMin =>
    change |q.amount| < (s.market.pair q.pair).tradeSizeMin at hn
    unfold State.market at hn
    simp only [hy, Option.map_some, Option.getD_some] at hn
    exact absurd k2 (not_le.mpr hn)
  case activeTooMany => exact absurd h5 (not_le.mpr hn)
  case arithmetic => exact he rfl

theorem cancelRequests_cleared (hr : Reach env s) {oath : Option Bucket} {a : Addr} {is : List Nat}
    (h : opCancelRequests env cl s oath a is = Except.ok (s', o)) :
    Cleared (HolderRefused env cl s a oath .l3 (fun acc => acc.positions.keys) (CancelRefused is)) := by
  simp only [opCancelRequests, bind_ok] at h
  obtain ⟨v, hv, ⟨⟩, h1, ⟨s1, v1, cfg⟩, h2, v2, h3, -⟩ := h
  refine holder_cleared (f := id) hv h1 h2 (fun acc ha e he hn => ?_)
  have hi : RInv v1 := by
    refine rinv_congr ?_ (load_rinv hv (reach_requestsOk hr)).1
    rw [(payOath_frame h2).2.1]; rfl
  have hall := (cancelRequests_inv hi h3).2.2.2
  have hreq : v1.reqs = acc.requests := by
    obtain ⟨-, acc0, hg, hcomp, hreqs, -⟩ := load_rinv hv (reach_requestsOk hr)
    rw [ha] at hg; cases hg
    rw [(payOath_frame h2).2.1]; exact hreqs
  rw [hreq] at hall
  cases e <;> try exact hn
  case missingRequest =>
    obtain ⟨i, hi, hl⟩ := hn
    obtain ⟨r, hr, -⟩ := hall i hi
    rw [List.getElem?_eq_none_iff.mpr hl] at hr; cases hr
  case cancelNotActive =>
    obtain ⟨i, hi, r, hr, n1, n2⟩ := hn
    obtain ⟨r', hr', hp⟩ := hall i hi
    rw [hr] at hr'; cases hr'
    exact (pending_iff.mp hp).elim n1 n2
  case arithmetic => exact he rfl

/-! ## Deposits -/

theorem Deposited.gets {acc a1 a2 : Account} {ts : List Bucket} (h1 : Deposited acc ts a1) (h2 : Deposited acc ts a2) (r : Res) :
    a1.collateralBalances.get r = a2.collateralBalances.get r := by
  by_cases hr : r = BASE
  · rw [hr, h1.kept, h2.kept]
  · rw [h1.coll r hr, h2.coll r hr]

theorem Market.value_same {m : Market} {rb : Dec} {pos : AMap PairId AccountPosition} {b1 b2 : AMap Res Dec} {vb : Dec}
    (h : ∀ r, b1.get r = b2.get r) : m.value rb pos b1 vb = m.value rb pos b2 vb := by
  unfold Market.value; rw [AMap.sum_ext h]

theorem Market.margin_same {m : Market} {f : PairConfig → Dec} {pos : AMap PairId AccountPosition} {b1 b2 : AMap Res Dec}
    (h : ∀ r, b1.get r = b2.get r) : m.margin f pos b1 = m.margin f pos b2 := by
  unfold Market.margin; rw [AMap.sum_ext h]

theorem Deposited.oath {acc a1 a2 : Account} {ts : List Bucket} (h1 : Deposited acc ts a1) (h2 : Deposited acc ts a2) {b : Bucket}
    {e : Err} (h : OathRefused env s a1 b ids e) : OathRefused env s a2 b ids e := by
  cases e <;> try exact h
  case insufficientMargin =>
    change s.accountValue _ < s.initialMargin _ at h
    change s.accountValue _ < s.initialMargin _
    unfold State.accountValue State.initialMargin State.rebateOf at h ⊢
    simp only at h ⊢
    rw [h1.rest.1, h1.rest.2, h1.base, Market.value_same (h1.gets h2), Market.margin_same (h1.gets h2)] at h
    rw [h2.rest.1, h2.rest.2, h2.base]
    exact h

theorem vaultPutBatch_no_oath : ∀ {bs : List Bucket} {m m' : AMap Res Dec}, vaultPutBatch m bs = Except.ok m' →
    ∀ b ∈ bs, b.res ≠ FEE_OATH := by
  intro bs
  induction bs with
  | nil => intro m m' _ b hb; cases hb
  | cons x bs ih =>
    intro m m' h b hb
    simp only [vaultPutBatch, List.foldlM_cons, bind_ok] at h
    obtain ⟨m1, h1, h2⟩ := h
    rcases List.mem_cons.mp hb with rfl | hb
    · simp only [vaultPut, bind_ok, require_ok, decide_eq_true_eq] at h1
      obtain ⟨⟨⟩, h1, -⟩ := h1
      simpa using h1
    · exact ih h2 b hb

theorem addCollateral_cleared {cfg : VConfig} {v : VAccount} {d : FeeDist} {tokens : List Bucket} {w : W} {acc : Account}
    {oath : Option Bucket} (hcfg : VConfig.new s.config ids = Except.ok cfg)
    (h : addCollateral cfg { pool, acc := v, dist := d } tokens = Except.ok w)
    (e1 : v.positions = acc.positions) (e2 : v.collateralBalances = acc.collateralBalances) (e3 : v.vb = acc.vb) :
    ¬ DepositRefused env s oath tokens acc .invalidCollateral ∧ ¬ DepositRefused env s oath tokens acc .collateralsTooMany ∧
    ¬ DepositRefused env s oath tokens acc .vault := by
  obtain ⟨hex, hcolls, -⟩ := VConfig.new_ok hcfg
  obtain ⟨w1, v2, h1, hin, h2, hlim, -⟩ := addCollateral_ok h
  obtain ⟨hd, -, -⟩ := addCollateral_deposited (acc := acc) h1 h2 e1 e2 e3
  refine ⟨?_, ?_, ?_⟩
  · rintro ⟨t, ht, hne, hn⟩
    obtain ⟨x, hx⟩ := AMap.has_iff.mp (hin t ht hne)
    rw [hcolls, AMap.get_mapV, hn] at hx; cases hx
  · rintro ⟨acc', hd', hlt⟩
    have hsz : acc'.collateralBalances.size = v2.collateralBalances.size :=
      AMap.Same.size (fun r => hd'.gets hd r)
    rw [hsz] at hlt
    rw [hex] at hlim
    exact absurd hlim (not_le.mpr hlt)
  · rintro ⟨t, ht, hf⟩
    simp only [VAccount.depositCollateral, bind_ok] at h2
    obtain ⟨_, -, _, -, vs, h3, -⟩ := h2
    refine vaultPutBatch_no_oath h3 t (List.mem_filter.mpr ⟨ht, ?_⟩) hf
    rw [hf]; decide

theorem deposit_cleared {a : Addr} {v : VAccount} {acc : Account} {oath : Option Bucket} {tokens : List Bucket} {w : W}
    (hv : s.load a = Except.ok v) (ha : s.accounts.get a = some acc)
    (h : depositTokens env s v oath tokens = Except.ok (s1, w)) : Cleared (DepositRefused env s oath tokens acc) := by
  have hreb := load_rebateOf hv ha
  obtain ⟨acc', rd, ha', -, hv'⟩ := load_ok hv
  rw [ha] at ha'; cases ha'
  have hpos : v.positionIds = acc.positions.keys := by rw [hv']; rfl
  have key : (∃ (cfg : VConfig) (ids : List PairId) (pool : VPool) (w0 : W), VConfig.new s.config ids = Except.ok cfg ∧
      addCollateral cfg { pool, acc := v, dist := s.dist } tokens = Except.ok w0) ∧
      Cleared (fun e => ∃ b, oath = some b ∧ (OathPricesRefused s acc.positions.keys e ∨
        ∃ acc', Deposited acc tokens acc' ∧ OathRefused env s acc' b acc.positions.keys e)) := by
    unfold depositTokens at h
    cases oath with
    | none =>
      simp only [bind_ok] at h
      obtain ⟨cfg, hc, w0, hw, -⟩ := h
      exact ⟨⟨cfg, _, _, w0, hc, hw⟩, fun e _ ⟨b, hb, _⟩ => by cases hb⟩
    | some b =>
      simp only [bind_ok, burnOath_ok, settleFeeOath, require_ok, decide_eq_true_eq, dneg_ok, pure_ok] at h
      obtain ⟨⟨c, pool⟩, hl, w0, hw, acc2, ⟨-, hres, _, ⟨-, rfl⟩, v2, hvb, ⟨⟩, hi, rfl⟩, s2, ⟨hb, rfl⟩, -⟩ := h
      have hvb := VAccount.addVb_ok hvb
      have hcfg := (oathLoad_ok hl).2.2.1
      refine ⟨⟨_, _, _, w0, hcfg, hw⟩, ?_⟩
      rw [hpos] at hl
      rintro e he ⟨b', hb', hr | ⟨acc', hd', hr⟩⟩
      · exact oathPrices_cleared hl e he hr
      · cases hb'
        obtain ⟨w1, v3, h1, -, h2, -, rfl⟩ := addCollateral_ok hw
        obtain ⟨hd, hp2, hr2⟩ := addCollateral_deposited (acc := acc) h1 h2 (by rw [hv']) (by rw [hv']) (by rw [hv'])
        have hr := hd'.oath hd hr
        refine oath_cleared (v := v2) (pool' := w1.pool) hl ?_ hres hb hi ?_ ?_ ?_ ?_ e he hr
        · exact (addCollateral_pool hw).1
        · rw [hvb]; exact hp2.symm
        · rw [hvb]
        · rw [hvb]; exact sub_eq_add_neg _ _
        · have e5 : s.rebateOf { acc with vb := v3.vb, collateralBalances := v3.collateralBalances } = s.rebateOf acc := rfl
          rw [e5, hreb, hvb]; exact hr2.symm
  obtain ⟨⟨cfg, ids, pool, w0, hc, hw⟩, hrest⟩ := key
  obtain ⟨n1, n2, n3⟩ := addCollateral_cleared (env := env) (oath := oath) hc hw (acc := acc) (by rw [hv']) (by rw [hv']) (by rw [hv'])
  intro e he hr
  cases e <;> first | exact hrest _ he hr | skip
  · exact he rfl
  all_goals first | exact n1 hr | exact n2 hr | exact n3 hr | skip

theorem opAddCollateral_cleared {oath : Option Bucket} {a : Addr} {tokens : List Bucket}
    (h : opAddCollateral env cl s oath a tokens = Except.ok (s', o)) : Cleared (AddRefused env cl s a oath tokens) := by
  obtain ⟨v, s1, w, acc', refs, hb, hv, hl, hd, -⟩ := opAddCollateral_ok h
  obtain ⟨acc, rd, ha, -, hv'⟩ := load_ok hv
  rintro e he (⟨rfl, t, ht, hn⟩ | ⟨rfl, hn⟩ | ⟨acc2, ha2, hr⟩)
  · have := List.all_eq_true.mp hb t ht
    rw [hn] at this; cases this
  · rw [ha] at hn; cases hn
  · rw [ha] at ha2; cases ha2
    rcases hr with ⟨rfl, hr⟩ | ⟨b, hb, -⟩ | hr
    · rw [hv'] at hl
      have hl : (acc.rule .l3).sat cl.pf = true := hl
      rw [hr] at hl; cases hl
    · cases hb
    · exact deposit_cleared hv ha hd e he hr

theorem createAccount_cleared {oath : Option Bucket} {a : Addr} {rule : Rule} {tokens : List Bucket} {code : Option Nat}
    (h : createAccount env s a oath rule tokens code = Except.ok (s', o)) :
    Cleared (CreateRefused env s a oath rule tokens code) := by
  obtain ⟨s0, rid, extra, s1, v, s2, w, acc, refs, hb, hn, hcc, rfl, hv, hd, -⟩ := createAccount_ok h
  have hs0 : (∃ g, s0 = { s with refgen := g }) ∧ extra = s.codeTokens env code ∧ rid = s.codeReferral env code ∧
      ∀ c, code = some c → ∃ x, s.refgen.codes.get (env.hash c) = some x ∧ x.count < x.maxCount := by
    rcases claimCode_ok hcc with ⟨hc, hr, hbx, rfl⟩ | ⟨cd, g, rf, hc, hg, hr, rfl⟩
    · subst hc hr
      exact ⟨⟨_, rfl⟩, hbx, rfl, fun c hc => by cases hc⟩
    · subst hc hr
      obtain ⟨c, hcode, hlt, hrid, hbs, -⟩ := claim_ok hg
      refine ⟨⟨_, rfl⟩, ?_, ?_, fun c' hc' => ?_⟩
      · unfold State.codeTokens; rw [hbs]; simp only [Option.bind_some, hcode]
      · unfold State.codeReferral; rw [hrid]; simp only [Option.bind_some, hcode, Option.map_some]
      · cases hc'; exact ⟨c, hcode, hlt⟩
  obtain ⟨⟨g, rfl⟩, rfl, hrid, hcode⟩ := hs0
  have hdep := deposit_cleared (acc := Account.fresh rule rid) hv (AMap.get_set_self _ _ _) hd
  rintro e he (⟨rfl, t, ht, hx⟩ | ⟨rfl, hx⟩ | ⟨rfl, c, hx, hy⟩ | ⟨rfl, c, x, hx, hy, hz⟩ | hr)
  · have := List.all_eq_true.mp hb t ht
    rw [hx] at this; cases this
  · rw [hn] at hx; cases hx
  · obtain ⟨x, h1, -⟩ := hcode c hx
    rw [hy] at h1; cases h1
  · obtain ⟨x', h1, h2⟩ := hcode c hx
    rw [hy] at h1; cases h1
    omega
  · refine hdep e he ?_
    rw [← hrid] at hr
    exact DepositRefused.same rfl rfl rfl rfl rfl rfl rfl hr

/-! ## The pool -/

theorem payout_cleared {x y : Dec} {p : Pool} (h : payout env s x = Except.ok (p, y)) : Cleared (PayoutRefused s x) := by
  intro e he hr
  cases e <;> try exact hr
  case arithmetic => exact he rfl
  case insufficientPoolTokens => exact absurd (payout_ok h).2.1 (not_le.mpr hr)

theorem rewards_cleared {id : RefId} (h : collectReferralRewards env cl s id = Except.ok (s', o)) :
    Cleared (RewardsRefused cl s id) := by
  obtain ⟨d, pool, x, h1, h2, h3, -⟩ := collectReferralRewards_ok h
  have hp := payout_cleared h3
  have key : ∀ e, e ≠ .arithmetic → (∃ d, s.referrals.get id = some d ∧ PayoutRefused s d.balance e) → False := by
    rintro e he ⟨d', hd', hr⟩
    rw [h2] at hd'; cases hd'
    exact hp e he hr
  intro e he hr
  cases e <;> try exact key _ he hr
  case invalidReferral =>
    rcases hr with hr | hr
    · rw [h1] at hr; cases hr
    · rw [h2] at hr; cases hr

theorem protocolSwap_cleared {b : Bucket} (h : swapProtocolFee env s b = Except.ok (s', o)) :
    Cleared (ProtocolSwapRefused env s b) := by
  obtain ⟨cfg, pool, x, burn, hc, h1, h2, h3, h4, -⟩ := swapProtocolFee_ok h
  have hp := payout_cleared h4
  intro e he hr
  cases e <;> try exact hp _ he hr
  case invalidProtocolToken => exact hr h1
  case badBucket => rw [show okBucket env s b = false from hr] at h2; cases h2
  case insufficientPayment =>
    rw [takeAmount_ok, (VConfig.new_ok hc).1] at h3
    have hu := (amountFor_up (env.gran_pos PROTOCOL) s.config.exchange.decompress.protocolBurnAmount).1
    rw [h3.1] at hu
    exact absurd (le_trans hu h3.2.2.2) (not_le.mpr hr)

theorem addLiquidity_cleared (hr : Reach env s) {b : Bucket} (h : opAddLiquidity env s b = Except.ok (s', o)) :
    Cleared (AddLiquidityRefused env s b) := by
  obtain ⟨cfg, fee, lp, price, hc, h1, h2, h3, h4, h5, -⟩ := opAddLiquidity_ok h
  rw [mintAmount_ok] at h5
  have hlp : lp = s.lpFor b.amt := by
    subst h3
    unfold State.lpFor State.lpPrice
    rw [(VConfig.new_ok hc).1] at h4
    rcases lpMint_ok h4 with ⟨a, e, -⟩ | ⟨a, e1, e2, e3⟩
    · rw [if_pos a, divT_one]; exact e
    · rw [if_neg a, e3, e1]
  intro e he hn
  cases e <;> try exact hn
  case arithmetic => exact he rfl
  case badBucket => rw [show okBucket env s b = false from hn] at h1; cases h1
  case invalidPaymentToken => exact hn h2
  case vault =>
    rw [hlp] at h5
    rcases hn with hn | hn
    · exact absurd h5.1 (not_le.mpr hn)
    · exact hn h5.2.1

theorem removeLiquidity_cleared {b : Bucket} (h : opRemoveLiquidity env s b = Except.ok (s', o)) :
    Cleared (RemoveLiquidityRefused env s b) := by
  obtain ⟨cfg, price, value, fee, x, hc, h1, h2, -, rfl, rfl, rfl, h3, h4, hs', h5, -⟩ := opRemoveLiquidity_ok h
  rw [(VConfig.new_ok hc).1] at h3 h4 hs' h5
  rw [takeAmount_ok] at h4
  have e1 : s.lpRedeemed b.amt = mulT b.amt (divT (max s.pool.value 0) s.lpSupply) -
    mulT (mulT b.amt (divT (max s.pool.value 0) s.lpSupply)) s.config.exchange.decompress.feeLiquidityRemove := rfl
  intro e he hn
  cases e <;> try exact hn
  case arithmetic => exact he rfl
  case badBucket => rw [show okBucket env s b = false from hn] at h1; cases h1
  case invalidLpToken => exact hn h2
  case insufficientPoolTokens =>
    change s.pool.baseTokens < s.lpRedeemed b.amt at hn
    rw [e1] at hn; omega
  case vault =>
    change amountFor _ (s.lpRedeemed b.amt) _ < 0 at hn
    rw [e1, h4.1] at hn; omega
  case skewTooHigh =>
    change _ ≤ s.ratioAfterRedeem env b.amt at hn
    refine absurd h5 (not_lt.mpr (le_trans hn (le_of_eq ?_)))
    unfold State.ratioAfterRedeem Pool.skewRatio
    have e2 : s.lpRedeemFee b.amt =
      mulT (mulT b.amt (divT (max s.pool.value 0) s.lpSupply)) s.config.exchange.decompress.feeLiquidityRemove := rfl
    rw [hs', e1, e2, h4.1]
    generalize mulT (mulT b.amt (divT (max s.pool.value 0) s.lpSupply)) s.config.exchange.decompress.feeLiquidityRemove = fee
    congr 2
    simp only [Pool.value]
    ring

/-! ## Referrals -/

theorem mintReferral_cleared {id : RefId} {a b : Dec} {m : Nat} (h : mintReferral s id a b m = Except.ok s') :
    Cleared (MintReferralRefused s id a b) := by
  obtain ⟨h1, h2, h3, -⟩ := mintReferral_ok h
  intro e he hn
  cases e <;> try exact hn
  case invalidReferralData => exact hn.elim (fun hn => hn (rateOk_iff.mp h1)) (fun hn => hn (rateOk_iff.mp h2))
  case assertion => obtain ⟨d, hd⟩ := hn; rw [h3] at hd; cases hd

theorem updateReferral_cleared {id : RefId} {a b : Option Dec} {m : Option Nat} (h : updateReferral s id a b m = Except.ok s') :
    Cleared (UpdateReferralRefused s id a b m) := by
  intro e he hn
  unfold updateReferral at h
  split at h
  · rename_i hall
    simp only [Option.isNone_iff_eq_none] at hall
    obtain ⟨rfl, rfl, rfl⟩ := hall
    cases e <;> try exact hn
    case invalidReferral => rcases hn.2 with hn | hn | hn <;> exact hn rfl
    case invalidReferralData => rcases hn with ⟨x, hx, -⟩ | ⟨x, hx, -⟩ <;> cases hx
  · simp only [bind_ok, pure_ok, expect_ok] at h
    obtain ⟨d, hd, ⟨⟩, h1, ⟨⟩, h2, -⟩ := h
    cases e <;> try exact hn
    case invalidReferral => rw [hn.1] at hd; cases hd
    case invalidReferralData =>
      rcases hn with ⟨x, rfl, hn⟩ | ⟨x, rfl, hn⟩
      · simp only [checkRate, require_ok] at h1; exact hn (rateOk_iff.mp h1)
      · simp only [checkRate, require_ok] at h2; exact hn (rateOk_iff.mp h2)

theorem tokens_cleared {cfg : VConfig} {tokens : List Bucket} (hc : VConfig.new s.config ids = Except.ok cfg)
    (h : checkReferralTokens env s cfg tokens = Except.ok ()) : Cleared (TokensRefused env s tokens) := by
  simp only [checkReferralTokens, bind_ok, require_ok] at h
  obtain ⟨⟨⟩, h1, h2⟩ := h
  intro e he hn
  cases e <;> try exact hn
  case badBucket =>
    obtain ⟨t, ht, hn⟩ := hn
    have := List.all_eq_true.mp h1 t ht
    rw [hn] at this; cases this
  case invalidCollateral =>
    obtain ⟨t, ht, hne, hn⟩ := hn
    have := List.all_eq_true.mp h2 t ht
    simp only [Bool.or_eq_true, decide_eq_true_eq] at this
    rcases this with this | this
    · exact hne this
    · obtain ⟨x, hx⟩ := AMap.has_iff.mp this
      rw [(VConfig.new_ok hc).2.1, AMap.get_mapV, hn] at hx; cases hx

theorem takeClaims_within : ∀ {l : List (Res × Dec)} {t t' : AMap Res Dec × List Bucket}, (l.map Prod.fst).Nodup →
    l.foldlM (takeClaim env) t = Except.ok t' → ∀ e ∈ l, e.2 ≤ (t.1.get e.1).getD 0 := by
  intro l
  induction l with
  | nil => intro t t' _ _ e he; cases he
  | cons x l ih =>
    intro t t' hnd h e he
    rw [List.map_cons, List.nodup_cons] at hnd
    simp only [List.foldlM_cons, bind_ok] at h
    obtain ⟨t1, h1, h⟩ := h
    unfold takeClaim at h1
    split at h1
    · rename_i avail hav
      simp only [bind_ok, require_ok, pure_ok, decide_eq_true_eq] at h1
      obtain ⟨⟨⟩, h2, y, -, rfl⟩ := h1
      rcases List.mem_cons.mp he with rfl | he
      · rw [hav]; exact h2
      · have := ih hnd.2 h e he
        simp only at this
        rw [AMap.get_set_ne _ _ (by rintro heq; exact hnd.1 (by rw [heq]; exact List.mem_map_of_mem he))] at this
        exact this
    · rename_i hav
      simp only [bind_ok, require_ok, pure_ok, decide_eq_true_eq] at h1
      obtain ⟨⟨⟩, h2, rfl⟩ := h1
      rcases List.mem_cons.mp he with rfl | he
      · rw [hav, h2]; rfl
      · exact ih hnd.2 h e he

theorem backing_cleared {tokens taken rest : List Bucket} {claims : List (Res × Dec)} {need : Res → Int} {totals : AMap Res Dec}
    {m m' : AMap Res Dec} (hs : splitTokens env tokens totals = Except.ok (taken, rest))
    (hp : vaultPutBatch m taken = Except.ok m') (hpos : ∀ c ∈ claims, 0 < c.2) (h0 : ∀ t ∈ tokens, 0 ≤ t.amt)
    (hneed : ∀ r, (totals.get r).getD 0 = need r) (hhas : ∀ c ∈ claims, ∃ x, totals.get c.1 = some x) :
    Cleared (BackingRefused tokens claims need) := by
  intro e he hn
  cases e <;> try exact hn
  case arithmetic => exact he rfl
  case claimAmount => obtain ⟨c, hc, hn⟩ := hn; exact absurd (hpos c hc) (not_lt.mpr hn)
  case vault =>
    obtain ⟨⟨c, hc, hcf⟩, hin⟩ := hn
    obtain ⟨b, hb, hbr⟩ := (splitTokens_taken hs FEE_OATH).mpr ⟨hcf ▸ hhas c hc, hin⟩
    exact vaultPutBatch_no_oath hp b hb hbr
  case insufficientToken =>
    obtain ⟨r, hlt⟩ := hn
    rw [← hneed] at hlt
    simp only [splitTokens, bind_ok, pure_ok] at hs
    obtain ⟨mapped, hm, t, ht, -⟩ := hs
    have h1 := mergeTokens_total hm r
    simp only [AMap.get_empty, Option.getD_none, zero_add] at h1
    cases hg : totals.get r with
    | none =>
      rw [hg] at hlt
      have := totalOf_nonneg (r := r) h0
      simp only [Option.getD_none] at hlt; omega
    | some x =>
      rw [hg] at hlt
      have := takeClaims_within (AMap.keys_nodup totals) ht (r, x) (AMap.get_eq_some.mp hg)
      simp only at this hlt
      rw [h1] at this
      exact absurd this (not_le.mpr hlt)

theorem totalClaims_has {n : Nat} : ∀ {l : List (Res × Dec)} {m m' : AMap Res Dec}, l.foldlM (totalClaim n) m = Except.ok m' →
    ∀ r, ((∃ x, m.get r = some x) ∨ ∃ c ∈ l, c.1 = r) → ∃ x, m'.get r = some x := by
  intro l
  induction l with
  | nil =>
    intro m m' h r hr
    simp only [List.foldlM_nil, pure_ok] at h; subst h
    rcases hr with hr | ⟨c, hc, -⟩
    · exact hr
    · cases hc
  | cons e l ih =>
    intro m m' h r hr
    simp only [List.foldlM_cons, bind_ok, totalClaim, pure_ok] at h
    obtain ⟨m1, ⟨_, -, x, -, y, -, rfl⟩, h⟩ := h
    refine ih h r ?_
    rw [AMap.get_set]
    by_cases her : e.1 = r
    · left; exact ⟨y, by rw [if_pos her]⟩
    · rw [if_neg her]
      rcases hr with hr | ⟨c, hc, hcr⟩
      · exact Or.inl hr
      · rcases List.mem_cons.mp hc with rfl | hc
        · exact absurd hcr her
        · exact Or.inr ⟨c, hc, hcr⟩

theorem addAllocation_cleared {g g' : RefGen} {id : RefId} {tokens rest : List Bucket} {claims : List (Res × Dec)} {n i : Nat}
    (h0 : ∀ t ∈ tokens, 0 ≤ t.amt) (h : g.addAllocation env tokens id claims n = Except.ok (g', rest, i)) :
    Cleared (BackingRefused tokens claims (fun r => n * claimed claims r)) := by
  simp only [RefGen.addAllocation, bind_ok] at h
  obtain ⟨totals, ht, ⟨taken, rest'⟩, hs, vaults, hv, -⟩ := h
  obtain ⟨p, q⟩ := totalClaims_ok ht
  refine backing_cleared hs hv p h0 (fun r => ?_) (fun c hc => totalClaims_has ht _ (Or.inr ⟨c, hc, rfl⟩))
  rw [q r]; simp

theorem allocation_cleared {id : RefId} {tokens : List Bucket} {claims : List (Res × Dec)} {n : Nat}
    (h : addReferralAllocation env s id tokens claims n = Except.ok (s', o)) :
    Cleared (AllocationRefused env s id tokens claims n) := by
  have h' := h
  simp only [addReferralAllocation, bind_ok] at h'
  obtain ⟨cfg, hc, ⟨⟩, ht, -⟩ := h'
  obtain ⟨cfg', s1, g, rest, i, -, hb, hg, ha, -⟩ := addReferralAllocation_ok h
  obtain ⟨d, hd, hle, -, -⟩ := grantReferrals_ok hg
  have hback := addAllocation_cleared (fun t ht => okBucket_nonneg (List.all_eq_true.mp hb t ht)) ha
  rintro e he (hr | ⟨rfl, hr⟩ | ⟨rfl, d', hd', hr⟩ | hr)
  · exact tokens_cleared hc ht e he hr
  · rw [hd] at hr; cases hr
  · rw [hd] at hd'; cases hd'; omega
  · exact hback e he hr

theorem codeTotals_has : ∀ {l : List (Hash × (List (Res × Dec) × Nat))} {m m' : AMap Res Dec},
    l.foldlM codeTotals m = Except.ok m' →
    ∀ r, ((∃ x, m.get r = some x) ∨ ∃ e ∈ l, ∃ c ∈ e.2.1, c.1 = r) → ∃ x, m'.get r = some x := by
  intro l
  induction l with
  | nil =>
    intro m m' h r hr
    simp only [List.foldlM_nil, pure_ok] at h; subst h
    rcases hr with hr | ⟨c, hc, -⟩
    · exact hr
    · cases hc
  | cons e l ih =>
    intro m m' h r hr
    simp only [List.foldlM_cons, bind_ok] at h
    obtain ⟨m1, h1, h⟩ := h
    have h2 : ((∃ x, m.get r = some x) ∨ ∃ c ∈ e.2.1, c.1 = r) → ∃ x, m1.get r = some x := by
      intro hr
      unfold codeTotals at h1
      split at h1
      · exact totalClaims_has h1 r hr
      · simp only [bind_ok, require_ok, pure_ok, decide_eq_true_eq] at h1
        obtain ⟨⟨⟩, h3, rfl⟩ := h1
        rcases hr with hr | ⟨c, hc, -⟩
        · exact hr
        · rw [List.length_eq_zero_iff.mp h3] at hc; cases hc
    refine ih h r ?_
    rcases hr with hr | ⟨x, hx, hc⟩
    · exact Or.inl (h2 (Or.inl hr))
    · rcases List.mem_cons.mp hx with rfl | hx
      · exact Or.inl (h2 (Or.inr hc))
      · exact Or.inr ⟨x, hx, hc⟩

theorem insertCodes_fresh {α : Type} (k : α → Hash) (v : α → ReferralCode) : ∀ {l : List α} {m m' : AMap Hash ReferralCode},
    l.foldlM (fun m e => insertCode m (k e) (v e)) m = Except.ok m' → ∀ e ∈ l, m.get (k e) = none := by
  intro l
  induction l with
  | nil => intro m m' _ e he; cases he
  | cons x l ih =>
    intro m m' h e he
    simp only [List.foldlM_cons, bind_ok, insertCode, require_ok, pure_ok] at h
    obtain ⟨m1, ⟨⟨⟩, h1, rfl⟩, h⟩ := h
    have hx : m.get (k x) = none := by
      cases hg : m.get (k x) with
      | none => rfl
      | some c => rw [AMap.has_iff.mpr ⟨c, hg⟩] at h1; cases h1
    rcases List.mem_cons.mp he with rfl | he
    · exact hx
    · have h2 := ih h e he
      rw [AMap.get_set] at h2
      split at h2
      · cases h2
      · exact h2

theorem codeClaims_sum (r : Res) : ∀ l : List (Hash × (List (Res × Dec) × Nat)), (∀ e ∈ l, e.2.1 ≠ [] → e.2.2 = 1) →
    (l.map (fun e => (e.2.2 : Int) * claimed e.2.1 r)).sum = claimed (l.flatMap (fun e => e.2.1)) r := by
  intro l
  induction l with
  | nil => intro _; rfl
  | cons e l ih =>
    intro hl
    rw [List.map_cons, List.sum_cons, ih (fun x hx => hl x (by simp [hx])), List.flatMap_cons]
    unfold claimed
    rw [List.filter_append, List.map_append, List.sum_append]
    congr 1
    by_cases hnil : e.2.1 = []
    · rw [hnil]; simp
    · rw [hl e (by simp) hnil]; simp

theorem codes_cleared {id : RefId} {tokens : List Bucket} {hashes : AMap Hash (List (Res × Dec) × Nat)}
    (h : createReferralCodes env cl s id tokens hashes = Except.ok (s', o)) :
    Cleared (CodesRefused env cl s id tokens hashes) := by
  have h' := h
  simp only [createReferralCodes, bind_ok] at h'
  obtain ⟨⟨⟩, -, cfg, hc, n', -, ⟨⟩, ht, -⟩ := h'
  obtain ⟨cfg', n, s1, g, rest, h1, -, hb, hn, hg, ha, -⟩ := createReferralCodes_ok h
  obtain ⟨d, hd, hle, -, -⟩ := grantReferrals_ok hg
  have hn' := sumCounts_ok hn
  have hcast : (((hashes.entries.map (fun x => x.2.2)).sum : Nat) : Int) = (hashes.entries.map (fun e => (e.2.2 : Int))).sum := by
    generalize hashes.entries = l
    induction l with
    | nil => rfl
    | cons e l ih => simp only [List.map_cons, List.sum_cons]; push_cast; rw [ih]
  obtain ⟨-, hins, hone, -⟩ := createCodes_ok ha
  simp only [RefGen.createCodes, bind_ok] at ha
  obtain ⟨totals, htot, ⟨taken, rest'⟩, hsp, codes, hco, vaults, hv, -⟩ := ha
  obtain ⟨p, q⟩ := codeTotals_ok htot
  have hback : Cleared (BackingRefused tokens (codeClaims hashes) (claimed (codeClaims hashes))) := by
    refine backing_cleared hsp hv ?_ (fun t ht => okBucket_nonneg (List.all_eq_true.mp hb t ht)) (fun r => ?_) ?_
    · intro c hc
      obtain ⟨e, he, hc⟩ := List.mem_flatMap.mp hc
      exact (p e he).1 c hc
    · rw [q r, AMap.get_empty]
      simp only [Option.getD_none, zero_add]
      exact codeClaims_sum r _ (fun e he => (p e he).2)
    · intro c hc
      obtain ⟨e, he, hc⟩ := List.mem_flatMap.mp hc
      exact codeTotals_has htot _ (Or.inr ⟨e, he, c, hc, rfl⟩)
  rintro e he (⟨rfl, hr⟩ | hr | ⟨rfl, d', hd', hr⟩ | ⟨rfl, x, hx, h2, h3⟩ | ⟨rfl, x, hx, c, hr⟩ | hr)
  · rcases hr with hr | hr
    · rw [h1] at hr; cases hr
    · rw [hd] at hr; cases hr
  · exact tokens_cleared hc ht e he hr
  · rw [hd] at hd'; cases hd'; omega
  · exact h2 ((p x hx).2 h3)
  · rw [insertCodes_fresh (fun e => e.1) (fun e => ⟨id, e.2.1, 0, e.2.2⟩) hins x hx] at hr; cases hr
  · exact hback e he hr

theorem allocCodes_cleared {id : RefId} {i : Nat} {hashes : List Hash}
    (h : createReferralCodesFromAllocation cl s id i hashes = Except.ok s') :
    Cleared (AllocCodesRefused cl s id i hashes) := by
  obtain ⟨g, h1, h2, -⟩ := createReferralCodesFromAllocation_ok h
  obtain ⟨list, al, h3, h4, h5, -, h6, -⟩ := codesFromAllocation_ok h2
  have hal : s.allocation id i = some al := by unfold State.allocation; rw [h3]; exact h4
  intro e he hn
  cases e <;> try exact hn
  case arithmetic => exact he rfl
  case invalidReferral => rw [show cl.refs id = false from hn] at h1; cases h1
  case allocNotFound => rw [show s.allocation id i = none from hn] at hal; cases hal
  case allocLimit =>
    obtain ⟨al', h7, h8⟩ := hn
    rw [hal] at h7; cases h7
    rw [List.card_toFinset] at h8
    omega
  case codeExists =>
    obtain ⟨x, hx, c, hr⟩ := hn
    rw [insertCodes_fresh (fun e => e) (fun _ => ⟨id, al.claims, 0, 1⟩) h6 x (List.mem_dedup.mpr hx)] at hr; cases hr

/-! ## Settings, roles, the oracle, the fee delegator and the clock -/

theorem mintAllocation_cleared {id : RefId} {a b : Dec} {m : Nat} {tokens : List Bucket} {claims : List (Res × Dec)} {n : Nat}
    (h : mintReferralWithAllocation env s id a b m tokens claims n = Except.ok (s', o)) :
    Cleared (MintAllocationRefused env s id a b m tokens claims n) := by
  simp only [mintReferralWithAllocation, bind_ok] at h
  obtain ⟨s1, h1, h⟩ := h
  have hm := mintReferral_cleared h1
  have ha := allocation_cleared h
  obtain ⟨-, -, -, rfl⟩ := mintReferral_ok h1
  rintro e he (hr | hr | ⟨rfl, hr⟩ | hr)
  · exact hm e he hr
  · refine ha e he (Or.inl ?_)
    cases e <;> exact hr
  · refine ha .referralLimit he (Or.inr (Or.inr (Or.inl ⟨rfl, _, AMap.get_set_self .., ?_⟩)))
    simpa using hr
  · exact ha e he (Or.inr (Or.inr (Or.inr hr)))

theorem lockFee_cleared {x : Dec} (h : lockFee env s x = Except.ok (s', o)) : Cleared (LockRefused env s x) := by
  simp only [lockFee, bind_ok, require_ok, decide_eq_true_eq, dmul_ok, dadd_ok, mintAmount_ok] at h
  obtain ⟨⟨⟩, h1, p, ⟨-, rfl⟩, v, ⟨-, rfl⟩, vb, -, mi, ⟨h2, h3, -, h4⟩, su, ⟨-, rfl⟩, ⟨⟩, h5, -⟩ := h
  subst h4
  intro e he hn
  cases e <;> try exact hn
  case arithmetic => exact he rfl
  case vault =>
    rcases hn with hn | hn | hn | hn
    · omega
    · omega
    · exact absurd h2 (not_le.mpr hn)
    · exact hn h3
  case maxLock => exact absurd h5 (not_le.mpr hn)

theorem push_cleared {u : PriceUpdate} {x : Oracle} (h : s.oracle.push env u = Except.ok x) : Cleared (PushRefused env s u) := by
  simp only [Oracle.push, bind_ok, expect_ok, require_ok] at h
  obtain ⟨k, hk, ⟨⟩, hv, -⟩ := h
  intro e he hn
  cases e <;> try exact hn
  case badKey => rw [show s.oracle.keys.get u.keyId = none from hn] at hk; cases hk
  case badSignature =>
    obtain ⟨k', hk', hn⟩ := hn
    rw [hk] at hk'; cases hk'
    rw [hn] at hv; cases hv

theorem setRole_cleared {r : Role} {rule : Rule} (h : setRole cl s r rule = Except.ok s') : Cleared (RoleRefused cl s r) := by
  obtain ⟨h1, h2, -⟩ := setRole_ok h
  intro e he hn
  cases e <;> try exact hn
  case role =>
    rcases hn with hn | ⟨hn, hm⟩
    · exact h1 hn
    · rcases h2 with h2 | ⟨h2, h3⟩
      · rw [hn] at h2; cases h2
      · rcases hm with hm | hm
        · rw [hm] at h2; cases h2
        · rw [hm] at h3; cases h3

/-! ## Debt swaps and upkeep -/

theorem updatePairs_cleared {ids : List PairId} {u : Option PriceUpdate} (h : opUpdatePairs env s ids u = Except.ok (s', o)) :
    Cleared (UpdatePairsRefused env s ids u) := by
  obtain ⟨s1, c, pool, flags, n, hk, -⟩ := opUpdatePairs_ok h
  have hp := prices_cleared hk
  have hm : ∀ e, PricesRefused env s ids u e → PricesRefused env s ids.dedup u e :=
    fun e he => PricesRefused.of_mem (fun p hp => List.mem_dedup.mpr hp) he
  intro e he hn
  cases e <;> try exact hp _ he (hm _ hn)
  case missingPairConfig =>
    obtain ⟨p, hpi, hn⟩ := hn
    obtain ⟨-, -, hc, -⟩ := keeperLoad_ok hk
    obtain ⟨k, hk, -⟩ := (VConfig.new_ok hc).2.2.1 p (List.mem_dedup.mpr hpi)
    rw [hn] at hk; cases hk

theorem swapDebt_cleared {a : Addr} {r : Res} {b : Bucket} {u : Option PriceUpdate}
    (h : opSwapDebt env s a r b u = Except.ok (s', o)) : Cleared (SwapDebtRefused env s a r b u) := by
  obtain ⟨v, s1, c, w, token, rest, ev, acc', refs, hb, hl, hk, hs, -⟩ := opSwapDebt_ok h
  obtain ⟨cc, pr, priceRes, amount, value, taken, pool, w1, ac, bs, h1, h2, h3, -, -, -, -, -, h4, h5, -⟩ := swapDebt_ok hs
  obtain ⟨acc, rd, ha, -, hv⟩ := load_ok hl
  have hp := prices_cleared hk
  obtain ⟨-, -, hc, -⟩ := keeperLoad_ok hk
  intro e he hn
  cases e <;> try exact hp _ he hn
  case badBucket => rw [show okBucket env s b = false from hn] at hb; cases hb
  case invalidMarginAccount => rw [show s.accounts.get a = none from hn] at ha; cases ha
  case invalidPaymentToken => exact hn h1
  case invalidCollateral =>
    rw [(VConfig.new_ok hc).2.1, AMap.get_mapV, show s.config.collaterals.get r = none from hn] at h3; cases h3
  case noDebt =>
    obtain ⟨acc2, ha2, hn⟩ := hn
    rw [ha] at ha2; cases ha2
    rw [hv] at h2
    exact absurd h2 (not_lt.mpr hn)
  case insufficientBalance =>
    obtain ⟨acc2, ha2, hn⟩ := hn
    rw [ha] at ha2; cases ha2
    simp only [VAccount.withdrawCollateral, vaultTakeBatch, bind_ok, pure_ok, Prod.mk.injEq, Except.ok.injEq] at h5
    obtain ⟨⟨vaults, bs'⟩, ⟨⟨m1, b1⟩, h6, ⟨m2, b2⟩, ⟨-, rfl⟩, -, rfl⟩, ccb, -, cb, h7, -⟩ := h5
    simp only [vaultTake, bind_ok, pure_ok, Prod.mk.injEq] at h6
    obtain ⟨y, -, -, rfl⟩ := h6
    simp only [balanceSubBatch, List.foldlM_cons, bind_ok, balanceSub, expect_ok] at h7
    obtain ⟨m3, ⟨z, hz, -⟩, -⟩ := h7
    rw [settleAccount_ok h4] at hz
    simp only [hv] at hz
    rw [hn] at hz; cases hz

end
end Perp
