import Verif.BindingKeeper

/-!
# C71 for requests: no reason to refuse an order or a withdrawal is waived
-/

namespace Perp

/-! ## Orders -/

/-- Every request an account remembers a change of is one of its requests. -/
def VAccount.Within (v : VAccount) : Prop := ∀ j, v.requestUpdates.has j = true → j < v.comp.requests.length

theorem keeperRequest_within {v : VAccount} (h : v.Within) {j : Nat} {kr : KeeperRequest}
    (hk : v.keeperRequest j = Except.ok kr) : j < v.comp.requests.length := by
  unfold VAccount.keeperRequest at hk
  split at hk
  · rename_i r hr; exact h j (AMap.has_iff.mpr ⟨r, hr⟩)
  · rw [expect_ok] at hk
    exact (List.getElem?_eq_some_iff.mp hk).1

theorem trySetStatus_within {v v' : VAccount} {is : List Nat} {st : Status} (h : v.Within)
    (hs : v.trySetStatus is st = Except.ok v') : (∀ j ∈ is, j < v.comp.requests.length) ∧ v'.Within := by
  simp only [VAccount.trySetStatus, bind_ok] at hs
  obtain ⟨ph, -, krs, hk, hf⟩ := hs
  obtain ⟨b1, b2⟩ := AMap.buildM_ok hk
  have hin : ∀ j ∈ is, j < v.comp.requests.length := by
    intro j hj
    obtain ⟨kr, hkr, -⟩ := b1 j hj
    exact keeperRequest_within h hkr
  refine ⟨hin, ?_⟩
  have hall : ∀ e ∈ krs.entries, e.1 < v.comp.requests.length := by
    intro e he
    by_contra hn
    have hget := AMap.get_mem he
    by_cases hm : e.1 ∈ is
    · exact hn (hin _ hm)
    · rw [b2 _ hm] at hget; cases hget
  have key : ∀ (l : List (Nat × KeeperRequest)) (a b : VAccount), (∀ e ∈ l, e.1 < v.comp.requests.length) →
      a.Within → a.comp.requests.length = v.comp.requests.length → l.foldlM (VAccount.trySetOne st ph) a = Except.ok b → b.Within := by
    intro l
    induction l with
    | nil => intro a b _ ha _ hb; simp only [List.foldlM_nil, pure_ok] at hb; subst hb; exact ha
    | cons e l ih =>
      intro a b hl ha hc hb
      simp only [List.foldlM_cons, bind_ok] at hb
      obtain ⟨a1, h1, h2⟩ := hb
      refine ih a1 b (fun e he => hl e (by simp [he])) ?_ ?_ h2
      · unfold VAccount.trySetOne at h1
        split at h1
        · simp only [pure_ok] at h1; subst h1; exact ha
        · simp only [bind_ok, pure_ok] at h1
          obtain ⟨a2, hm, rfl⟩ := h1
          obtain ⟨m1, m2⟩ : a2.requestUpdates = a.requestUpdates ∧ a2.comp = a.comp := by
            unfold VAccount.moveActive at hm
            split at hm <;> split at hm
            · simp only [pure_ok] at hm; subst hm; exact ⟨rfl, rfl⟩
            · simp only [pure_ok] at hm; subst hm; exact ⟨rfl, rfl⟩
            · simp only [VAccount.removeActive, bind_ok, pure_ok] at hm
              obtain ⟨-, -, rfl⟩ := hm; exact ⟨rfl, rfl⟩
            · simp only [pure_ok] at hm; subst hm; exact ⟨rfl, rfl⟩
          intro j hj
          simp only at hj ⊢
          rw [AMap.has_iff] at hj
          obtain ⟨y, hy⟩ := hj
          rw [AMap.get_set] at hy
          rw [m2]
          split at hy
          · rename_i he; rw [← he, hc]; exact hl e (by simp)
          · refine ha j (AMap.has_iff.mpr ⟨y, ?_⟩); rw [← m1]; exact hy
      · have := trySetOne_reqOnly h1
        unfold ReqOnly at this
        rw [this]; exact hc
  exact key _ _ _ hall h rfl hf

section
variable {env : Env} {s s1 : State} {ids : List PairId} {u : Option PriceUpdate} {c : Ctx} {pool v : VPool}

theorem marginOrder_cleared {a : Addr} {va v1 : VAccount} {acc : Account} {q : MarginOrderReq} {d : FeeDist} {w' : W}
    {ev : MarginOrderEv} (hr : Reach env s) (hin : v1.Within)
    (hk : keeperLoad env s ids u = Except.ok (s1, c, pool)) (hv : s.load a = Except.ok va)
    (ha : s.accounts.get a = some acc) (hro : ReqOnly va v1) (hp : q.pair ∈ ids)
    (hprc : Cleared (PricesRefused env s (insertId acc.positions.keys q.pair) u))
    (hmo : marginOrder c { pool, acc := v1, dist := d } q = Except.ok (w', ev)) :
    Cleared (OrderRefused env s acc q u) := by
  obtain ⟨h, hh⟩ := keeperLoad_ready hk
  have hf := keeperLoad_feeds hk
  obtain ⟨-, -, hcfg, -, -, -, -⟩ := keeperLoad_ok hk
  obtain ⟨e1, -, -, e4⟩ := VConfig.new_ok hcfg
  obtain ⟨k1, k2, -, -, k5, -⟩ := keeperLoad_state hk
  obtain ⟨x, hx⟩ := h.price q.pair hp
  obtain ⟨pc, hpc⟩ := h.pair q.pair hp
  have hreb : v1.rebate = va.rebate := by unfold ReqOnly at hro; rw [hro]; rfl
  have hrefp : ∀ f, referralPart c.cfg.ex v1 f = referralPart c.cfg.ex va f := by
    intro f; unfold ReqOnly at hro; rw [hro]; rfl
  have hstored : va.positions = acc.positions ∧ va.collateralBalances = acc.collateralBalances ∧ va.vb = acc.vb ∧
      va.comp = acc := by
    obtain ⟨acc', rd, ha', -, hv'⟩ := load_ok hv
    rw [ha] at ha'; cases ha'
    rw [hv']; exact ⟨rfl, rfl, rfl, rfl⟩
  have hv1 : v1.positions = acc.positions ∧ v1.collateralBalances = acc.collateralBalances ∧ v1.vb = acc.vb ∧ v1.comp = acc := by
    unfold ReqOnly at hro; rw [hro]; exact hstored
  have hposn : ∀ p, v1.position p = acc.positions.getD p AccountPosition.zero := by
    intro p; unfold VAccount.position; rw [hv1.1]
  have hsize : acc.size q.pair = (acc.positions.getD q.pair AccountPosition.zero).amount := by
    unfold Account.size AMap.getD
    cases acc.positions.get q.pair <;> rfl
  obtain ⟨price, v, b, wa, funding, cl, op, wc, pnl, fee, ok, wd, fees, ve, vf, hprice, hlim, hu, hy, hsp, hz, hok, hok', hsf,
    hve, hvf, hw', hint, -⟩ := marginOrder_ok hmo
  rw [hx] at hprice; cases hprice
  subst hok'
  simp only at hu hy
  obtain ⟨hrf, hcoh, hbase⟩ := one_refreshed hr hk hp hu
  obtain ⟨pp, x', hpp, hx', hmk⟩ := midway_marked hu
  rw [hx] at hx'; cases hx'
  obtain ⟨q1, q2, q3, q4⟩ := midway_quote hk hcoh hpp hpc hx hv ha
  obtain ⟨w1, w2⟩ := midway_value (s1 := s1) hbase
  have hmp : (s1.midway v).market.pool q.pair = pp := by
    change (s1.midway v).pool.position (s1.midway v).now q.pair = pp
    rw [show (s1.midway v).now = s.now from k2]; exact hcoh q.pair pp hpp
  have hpo : (s1.midway v).pool.position (s1.midway v).now q.pair = pp := hmp
  have hpair : (s1.midway v).market.pair q.pair = pc := by
    obtain ⟨-, z, hz, rfl⟩ := e4 q.pair pc hpc
    simp only [State.market, State.midway, k1, hz, Option.map_some, Option.getD_some]
  obtain ⟨m1, m2, m3⟩ := settleFunding_worth hy
  simp only at m1 m2 m3
  have hfp := (settleFunding_position hy).1
  rw [hfp] at hsp
  have hsp' : cl = closingPart (acc.size q.pair) q.amount ∧ op = openingPart (acc.size q.pair) q.amount q.reduceOnly := by
    rw [hsize, ← hposn]; exact split_spec hsp
  obtain ⟨hcl, hop⟩ := hsp'
  obtain ⟨wb, f1, f2, hc1, hc2, hfsum⟩ := executeOrder_ok hz
  have hred : Reduced c { pool := v, acc := v1, dist := d } q.pair pp pc x cl f1 wb := reduced_mk hpp hpc hx hy hc1
  obtain ⟨a1, a2, pp2, a3, a4, a5, -⟩ := closePart_worth hc1 hx (by rw [m3]; exact hpp) hmk
  obtain ⟨b1, b2, -⟩ := openPart_worth hc2 hx a3 a4
  have hff : f1 = (s1.midway v).tradeFee acc q.pair x ((s1.midway v).netOi q.pair) cl ∧
      f2 = (s1.midway v).tradeFee acc q.pair x ((s1.midway v).netOi q.pair + cl) op := by
    constructor
    · rw [hred.fee, q3, q2]; exact congrArg (fun z => tradeFee _ _ _ z _ _ _) hreb
    · rw [q3, q2]
      unfold openPart at hc2
      split at hc2
      · obtain ⟨pc', pr, pp', hpc', hpr, hpp', -, hf2, -⟩ := openPosition_ok hc2
        rw [hx] at hpr; cases hpr
        rw [hpc] at hpc'; cases hpc'
        rw [a3] at hpp'; cases hpp'
        rw [hf2, feeOf_tradeFee, hred.rebate, a5]
        exact congrArg (fun z => tradeFee _ _ _ z _ _ _) hreb
      · rename_i hz
        cases hc2
        have : op = 0 := by simpa using hz
        rw [this, tradeFee_zero]
  have hfee : fee = (s1.midway v).orderFee acc q.pair cl op := by
    unfold State.orderFee; rw [q1, ← hff.1, ← hff.2, hfsum]
  obtain ⟨n1, n2, n3, -⟩ := settleFees_worth hsf
  obtain ⟨-, -, hacc3, hsplit⟩ := settleFeesReferral_ok hsf
  have hcomp : wd.acc.comp.requests = acc.requests := by
    have t1 : wd.acc.reqPart = wc.acc.reqPart := by rw [hacc3]; unfold VAccount.credited; split <;> rfl
    have t2 : wc.acc.reqPart = wb.acc.reqPart := by
      unfold openPart at hc2
      split at hc2
      · obtain ⟨_, _, _, -, -, -, -, -, -, -, -, -, hacc, -⟩ := openPosition_ok hc2
        rw [hacc]; rfl
      · cases hc2; rfl
    have t3 := t1.trans (t2.trans hred.requests)
    have : wd.acc.comp.requests = v1.comp.requests := by
      have := congrArg (fun z => z.2.2.1) t3
      exact this
    rw [this, hv1.2.2.2]
  have hlinks : ∀ j, j ∈ q.activate ∨ j ∈ q.cancel → j < acc.requests.length := by
    have hwd : wd.acc.Within := by
      have t1 : wd.acc.reqPart = wc.acc.reqPart := by rw [hacc3]; unfold VAccount.credited; split <;> rfl
      have t2 : wc.acc.reqPart = wb.acc.reqPart := by
        unfold openPart at hc2
        split at hc2
        · obtain ⟨_, _, _, -, -, -, -, -, -, -, -, -, hacc, -⟩ := openPosition_ok hc2
          rw [hacc]; rfl
        · cases hc2; rfl
      have t3 := t1.trans (t2.trans hred.requests)
      have u1 : wd.acc.requestUpdates = v1.requestUpdates := congrArg (fun z => z.2.1.2.1) t3
      have u2 : wd.acc.comp.requests = v1.comp.requests := congrArg (fun z => z.2.2.1) t3
      intro j hj
      rw [u1] at hj
      rw [u2]; exact hin j hj
    obtain ⟨l1, hwe⟩ := trySetStatus_within hwd hve
    obtain ⟨l2, -⟩ := trySetStatus_within hwe hvf
    have := trySetStatus_reqOnly hve
    unfold ReqOnly at this
    rw [this] at l2
    simp only at l2
    rw [hcomp] at l1 l2
    rintro j (hj | hj)
    · exact l1 j hj
    · exact l2 j hj
  have hkept : -fees.pool = (s1.midway v).feeKept acc fee := by
    rw [q4, hsplit]
    have : referralPart c.cfg.ex wc.acc fee = referralPart c.cfg.ex va fee := by
      rw [← hrefp, ← hred.referral]
      unfold openPart at hc2
      split at hc2
      · obtain ⟨_, _, _, -, -, -, -, -, -, -, -, -, hacc, -⟩ := openPosition_ok hc2
        rw [hacc]; rfl
      · cases hc2; rfl
    rw [this]; ring
  have hskew : wd.pool.skewSnap = v.skewSnap - |mulT (pp.oiLong - pp.oiShort) x| + |mulT (pp.oiLong - pp.oiShort + cl + op) x| := by
    rw [n2, b2, a2, a5, m2]; ring
  have hwp' : w'.pool = wd.pool := by rw [hw']
  rw [hwp'] at hint
  have hratio := assertPoolIntegrity_ok hint
  have hopen : op ≠ 0 →
      (0 < op → ((s1.midway v).pool.position (s1.midway v).now q.pair).oiLong + min cl 0 + op ≤ ((s1.midway v).market.pair q.pair).oiMax) ∧
      (op < 0 → ((s1.midway v).pool.position (s1.midway v).now q.pair).oiShort - max cl 0 - op ≤ ((s1.midway v).market.pair q.pair).oiMax) ∧
      ((s1.midway v).accountAfter acc q.pair cl op).positions.size ≤ s.config.exchange.decompress.positionsMax ∧
      ((s1.midway v).traded q.pair cl op).initialMargin ((s1.midway v).accountAfter acc q.pair cl op) ≤
        ((s1.midway v).traded q.pair cl op).accountValue ((s1.midway v).accountAfter acc q.pair cl op) := by
    intro hop0
    clear a3 a4 a5
    obtain ⟨pp2, g1, g2, g3, g4, g5⟩ := hred.pool
    have hnet : pp2.oiLong - pp2.oiShort = pp.oiLong - pp.oiShort + cl := by
      rw [g3, g4]
      rcases le_total cl 0 with hle | hle
      · rw [min_eq_left hle, max_eq_right hle]; ring
      · rw [min_eq_right hle, max_eq_left hle]; ring
    have hfee2 : tradeFee c.cfg.ex.feeMax pc.fee0 pc.fee1 wb.acc.rebate x (pp2.oiLong - pp2.oiShort) op =
        (s1.midway v).tradeFee acc q.pair x ((s1.midway v).netOi q.pair + cl) op := by
      rw [q3, q2, hnet, hred.rebate]
      exact congrArg (fun z => tradeFee _ _ _ z _ _ _) hreb
    have hidx : pp2.fundingLongIndex = pp.fundingLongIndex ∧ pp2.fundingShortIndex = pp.fundingShortIndex := by
      unfold PoolPosition.indexes at g5; simpa using g5
    have hafter : ∀ z, wb.acc.positions.set q.pair z = acc.positions.set q.pair z := by
      intro z; rw [hred.positions]; simp only; rw [hv1.1]
    have hpos : ({ amount := (wb.acc.position q.pair).amount + op
                   cost := (wb.acc.position q.pair).cost + (mulT op x +
                     tradeFee c.cfg.ex.feeMax pc.fee0 pc.fee1 wb.acc.rebate x (pp2.oiLong - pp2.oiShort) op)
                   fundingIndex := if (wb.acc.position q.pair).amount + op > 0 then pp2.fundingLongIndex
                                   else pp2.fundingShortIndex } : AccountPosition) =
        { amount := (acc.positions.getD q.pair AccountPosition.zero).amount + cl + op
          cost := (acc.positions.getD q.pair AccountPosition.zero).cost -
            mulT (divT (-cl) (acc.positions.getD q.pair AccountPosition.zero).amount)
              (acc.positions.getD q.pair AccountPosition.zero).cost +
            (mulT op x + (s1.midway v).tradeFee acc q.pair x ((s1.midway v).netOi q.pair + cl) op)
          fundingIndex := if (acc.positions.getD q.pair AccountPosition.zero).amount + cl + op > 0 then
              pp.fundingLongIndex else pp.fundingShortIndex } := by
      rw [hfee2, hred.amount, hred.cost, hidx.1, hidx.2]
      simp only [hposn]
    have haa : (s1.midway v).accountAfter acc q.pair cl op =
        { acc with
          positions := wb.acc.positions.set q.pair
            { amount := (wb.acc.position q.pair).amount + op
              cost := (wb.acc.position q.pair).cost + (mulT op x +
                tradeFee c.cfg.ex.feeMax pc.fee0 pc.fee1 wb.acc.rebate x (pp2.oiLong - pp2.oiShort) op)
              fundingIndex := if (wb.acc.position q.pair).amount + op > 0 then pp2.fundingLongIndex
                              else pp2.fundingShortIndex }
          vb := wb.acc.vb } := by
      rw [hpos, hafter, hred.vb, hred.fee]
      unfold State.accountAfter
      simp only [q1, q2, q3, hmp, hposn, hv1.2.2.1, hreb]
    unfold openPart at hc2
    rw [if_pos hop0] at hc2
    obtain ⟨pc', pr, pp', hpc', hpr, hpp', -, hf2, -, o1, o2, hwp, hwacc, -, hcount, hmargin⟩ := openPosition_ok hc2
    rw [hx] at hpr; cases hpr
    rw [hpc] at hpc'; cases hpc'
    rw [g1] at hpp'; cases hpp'
    rw [feeOf_tradeFee] at hf2
    rw [hf2] at hwp hwacc
    obtain ⟨hmg, hkn, hcc⟩ := assertAccountIntegrity_ok hf hmargin
    have p1 : wc.acc.positions = ((s1.midway v).accountAfter acc q.pair cl op).positions := by rw [haa, hwacc]; rfl
    have p2 : wc.acc.vb = ((s1.midway v).accountAfter acc q.pair cl op).vb := by rw [haa, hwacc]; rfl
    have p3 : wc.acc.collateralBalances = wb.acc.collateralBalances := by rw [hwacc]; rfl
    have p4 : wc.acc.rebate = wb.acc.rebate := by rw [hwacc]; rfl
    refine ⟨fun hlt => ?_, fun hlt => ?_, ?_, ?_⟩
    · rw [hpo, hpair, ← g3]; exact o1 hlt
    · rw [hpo, hpair, ← g4]; exact o2 (by omega)
    · rw [← p1, ← e1]; exact hcount
    · rw [hwp] at hmg hkn
      have hcb : wb.acc.collateralBalances = acc.collateralBalances := by rw [hred.balances]; exact hv1.2.1
      have hsides : ∀ z y, (((pp2.opened op z).snapAt y).oiLong = (pp.traded cl op).oiLong) ∧
          (((pp2.opened op z).snapAt y).oiShort = (pp.traded cl op).oiShort) ∧
          (((pp2.opened op z).snapAt y).indexes = pp.indexes) := by
        intro z y
        unfold PoolPosition.opened PoolPosition.snapAt PoolPosition.traded PoolPosition.indexes
        unfold PoolPosition.indexes at g5
        split
        · rename_i hpos'
          simp only [max_eq_left (le_of_lt hpos'), min_eq_right (le_of_lt hpos'), g3, g4, sub_zero]
          exact ⟨trivial, trivial, g5⟩
        · rename_i hpos'
          simp only [max_eq_right (not_lt.mp hpos'), min_eq_left (not_lt.mp hpos'), g3, g4, add_zero]
          exact ⟨trivial, trivial, g5⟩
      obtain ⟨i1, i2, i3⟩ := hsides (mulT op x +
        tradeFee c.cfg.ex.feeMax pc.fee0 pc.fee1 wb.acc.rebate x (pp2.oiLong - pp2.oiShort) op) x
      obtain ⟨t1, t2⟩ := traded_value hk hcoh hpp (AMap.get_set_self _ _ _)
        (fun p hp => by
          rw [show (wb.pool.remark q.pair pp2 _ x).positions = wb.pool.positions.set q.pair _ from rfl,
            AMap.get_set_ne _ _ (Ne.symm hp)]
          exact g2 p hp) i1 i2 i3 hkn hcc wb.acc.rebate wb.acc.vb
      have p5 : wc.acc.vb = wb.acc.vb := by rw [hwacc]; rfl
      rw [p4, p5, t1, t2] at hmg
      have hrb : ((s1.midway v).traded q.pair cl op).rebateOf ((s1.midway v).accountAfter acc q.pair cl op) =
          wb.acc.rebate := by
        rw [hred.rebate]
        simp only
        rw [hreb, ← load_rebateOf hv ha]
        unfold State.rebateOf State.midway State.traded State.accountAfter
        simp only [k5]
      have p6 : ((s1.midway v).accountAfter acc q.pair cl op).collateralBalances = wc.acc.collateralBalances := by
        rw [p3, hcb]; rfl
      unfold State.accountValue State.initialMargin
      rw [hrb, ← p1, ← p2, p5, p6]
      exact hmg
  intro e he hn
  cases e <;> try exact hprc _ he hn
  case priceLimit =>
    obtain ⟨y, t, hy', hn⟩ := hn
    obtain ⟨-, t', ht, -⟩ := (keeperLoad_prices hk).1 q.pair x hx
    obtain ⟨-, -, -, hpush, -, -, e⟩ := keeperLoad_ok hk
    have : s1.oracle.prices = s.pricesWith u := (maybePush_prices hpush).1
    rw [this, hy'] at ht
    cases ht
    exact hn (priceLimit_holds.mp hlim)
  case missingRequest =>
    obtain ⟨j, hj, hl⟩ := hn
    exact absurd (hlinks j hj) (not_lt.mpr hl)
  case slippageLimit =>
    obtain ⟨sx, hsx, hn⟩ := hn
    have hal := Refreshed.unique hsx hrf
    simp only [← hcl, ← hop] at hn
    rw [hal.orderFee, hal.market, ← hfee, q1, add_comm cl op] at hn
    exact hn (slippage_holds hok)
  case pairOiTooHigh =>
    obtain ⟨sx, hsx, hn⟩ := hn
    have hal := Refreshed.unique hsx hrf
    simp only [← hcl, ← hop, PoolPosition.traded] at hn
    rw [hal.market, hal.positions] at hn
    rcases hn with ⟨b1, b2⟩ | ⟨b1, b2⟩
    · have := (hopen b1.ne').1 b1
      rw [max_eq_left b1.le] at b2
      exact absurd this (not_le.mpr b2)
    · have := (hopen b1.ne).2.1 b1
      rw [min_eq_left b1.le] at b2
      exact absurd this (not_le.mpr b2)
  case positionsTooMany =>
    obtain ⟨sx, hsx, hn⟩ := hn
    have hal := Refreshed.unique hsx hrf
    simp only [← hcl, ← hop] at hn
    rw [hal.accountAfter] at hn
    exact absurd (hopen hn.1).2.2.1 (not_le.mpr hn.2)
  case insufficientMargin =>
    obtain ⟨sx, hsx, hn⟩ := hn
    have hal := Refreshed.unique hsx hrf
    simp only [← hcl, ← hop] at hn
    rw [hal.accountAfter, hal.traded_value, hal.traded_margin] at hn
    exact absurd (hopen hn.1).2.2.2 (not_le.mpr hn.2)
  case skewTooHigh =>
    obtain ⟨sx, hsx, hn⟩ := hn
    have hal := Refreshed.unique hsx hrf
    simp only [← hcl, ← hop] at hn
    rw [hal.ratioAfter, hal.netOi, hal.market, q1, q2] at hn
    obtain ⟨n1', n2'⟩ := hn
    rcases hratio with hlt | hlt
    · refine absurd n1' (not_le.mpr ?_)
      rw [← e1]
      refine lt_of_eq_of_lt ?_ hlt
      have e : wd.pool.base + wd.pool.vb + wd.pool.unreal + wd.pool.pnlSnap = wd.pool.worth := rfl
      rw [e]
      unfold State.ratioAfter
      rw [q1, q2, ← hfee, ← hkept, w1, hskew, n1, b1, a1, m1, a5, hfsum]
      have e3 : (s1.midway v).pool.skewAbsSnap = v.skewSnap := rfl
      rw [e3]
      congr 2
      ring
    · rw [hskew, m2] at hlt
      linarith

end

/-! ## Withdrawals -/

theorem addClaims_all {l : List (Res × Dec)} : ∀ {m m' : AMap Res Dec}, l.foldlM addClaim m = Except.ok m' →
    ∀ r, r ∈ m.keys ∨ r ∈ l.map Prod.fst → r ∈ m'.keys := by
  induction l with
  | nil =>
    intro m m' h r hr
    simp only [List.foldlM_nil, pure_ok] at h
    subst h
    simpa using hr
  | cons e l ih =>
    intro m m' h r hr
    simp only [List.foldlM_cons, bind_ok] at h
    obtain ⟨m1, h1, h2⟩ := h
    have : ∃ y, m1 = m.set e.1 y := by
      unfold addClaim at h1
      split at h1
      · simp only [bind_ok, pure_ok] at h1
        obtain ⟨y, -, rfl⟩ := h1
        exact ⟨y, rfl⟩
      · cases h1; exact ⟨_, rfl⟩
    obtain ⟨y, rfl⟩ := this
    refine ih h2 r ?_
    by_cases he : e.1 = r
    · left; rw [AMap.mem_keys]; exact ⟨y, by rw [← he, AMap.get_set_self]⟩
    · rcases hr with hr | hr
      · left
        rw [AMap.mem_keys] at hr ⊢
        obtain ⟨z, hz⟩ := hr
        exact ⟨z, by rw [AMap.get_set_ne _ _ he]; exact hz⟩
      · right
        simp only [List.map_cons, List.mem_cons] at hr
        rcases hr with rfl | hr
        · exact absurd rfl he
        · exact hr

theorem balanceSubBatch_held : ∀ {bs : List Bucket} {m m' : AMap Res Dec}, balanceSubBatch m bs = Except.ok m' →
    (bs.map Bucket.res).Nodup → ∀ b ∈ bs, m.get b.res ≠ none := by
  intro bs
  induction bs with
  | nil => intro _ _ _ _ b hb; cases hb
  | cons b0 bs ih =>
    intro m m' h hn b hb
    rw [List.map_cons, List.nodup_cons] at hn
    simp only [balanceSubBatch, List.foldlM_cons, bind_ok] at h
    obtain ⟨m1, h1, h2⟩ := h
    obtain ⟨x, hx, hg⟩ := balanceSub_get h1
    rcases List.mem_cons.mp hb with rfl | hb
    · rw [hx]; simp
    · have := ih h2 hn.2 b hb
      rw [hg, if_neg] at this
      · exact this
      · intro heq
        exact hn.1 (heq ▸ List.mem_map_of_mem hb)

/-- Every claim taken was within what it is taken from. -/
theorem claims_checked {env : Env} {w : W} : ∀ {l : List (Res × Dec)} {t t' : W × List Bucket × List (Res × Dec)},
    l.foldlM (claimOne env) t = Except.ok t' → (l.map Prod.fst).Nodup → (BASE ∈ l.map Prod.fst → t.1 = w) →
    t.1.acc.collateralBalances = w.acc.collateralBalances → ∀ e ∈ l,
    (e.1 = BASE → e.2 ≤ w.acc.vb ∧ e.2 ≤ w.pool.base ∧ 0 ≤ amountFor (env.gran e.1) e.2 .toZero) ∧
    (e.1 ≠ BASE → e.2 ≤ (w.acc.collateralBalances.get e.1).getD 0) := by
  intro l
  induction l with
  | nil => intro _ _ _ _ _ _ e he; cases he
  | cons e0 l ih =>
    intro t t' h hn ht hcb e he
    rw [List.map_cons, List.nodup_cons] at hn
    simp only [List.foldlM_cons, bind_ok] at h
    obtain ⟨t1, h1, h2⟩ := h
    rcases List.mem_cons.mp he with rfl | he
    · rcases claimOne_ok h1 with ⟨hb, c1, c2, pool, x, w', hp, -⟩ | ⟨hb, hle, -⟩
      · rw [ht (by simp [hb])] at c1 c2 hp
        obtain ⟨htk, -⟩ := VPool.withdraw_ok hp
        rw [takeAmount_ok] at htk
        refine ⟨fun _ => ⟨c1, c2, ?_⟩, fun hne => absurd hb hne⟩
        rw [hb, htk.1]; exact htk.2.1
      · refine ⟨fun hb' => absurd hb' hb, fun _ => ?_⟩
        rw [← hcb]; exact hle
    · refine ih h2 hn.2 ?_ ?_ e he
      · intro hb
        rcases claimOne_ok h1 with ⟨heb, -⟩ | ⟨-, -, rfl⟩
        · exact absurd (heb ▸ hb) hn.1
        · exact ht (by simp [hb])
      · rcases claimOne_ok h1 with ⟨-, -, -, pool, x, w', hp, hw, rfl⟩ | ⟨-, -, rfl⟩
        · rw [settleAccount_ok hw]; exact hcb
        · exact hcb

section
variable {env : Env} {s s1 : State} {ids : List PairId} {u : Option PriceUpdate} {c : Ctx} {pool : VPool}

theorem removeCollateral_cleared {a : Addr} {va v1 : VAccount} {acc : Account} {q : RemoveCollateralReq} {d : FeeDist} {w' : W}
    {tokens : List Bucket}
    (hr : Reach env s) (hk : keeperLoad env s ids u = Except.ok (s1, c, pool)) (hv : s.load a = Except.ok va)
    (ha : s.accounts.get a = some acc) (hro : ReqOnly va v1)
    (hprc : Cleared (PricesRefused env s acc.positions.keys u))
    (hrc : removeCollateral c { pool, acc := v1, dist := d } q = Except.ok (w', tokens)) :
    Cleared (WithdrawalRefused env s acc q u) := by
  have hf := keeperLoad_feeds hk
  obtain ⟨henv, hnow, hcfg, hpush, -, hpool, hs1⟩ := keeperLoad_ok hk
  obtain ⟨k1, k2, -, k4, k5, -⟩ := keeperLoad_state hk
  have hstored : va.positions = acc.positions ∧ va.collateralBalances = acc.collateralBalances ∧ va.vb = acc.vb ∧
      va.comp = acc := by
    obtain ⟨acc', rd, ha', -, hv'⟩ := load_ok hv
    rw [ha] at ha'; cases ha'
    rw [hv']; exact ⟨rfl, rfl, rfl, rfl⟩
  have hv1 : v1.positions = acc.positions ∧ v1.collateralBalances = acc.collateralBalances ∧ v1.vb = acc.vb ∧ v1.comp = acc := by
    unfold ReqOnly at hro; rw [hro]; exact hstored
  have hreb : v1.rebate = va.rebate := by unfold ReqOnly at hro; rw [hro]; rfl
  have hinv := reach_collOk hr a acc ha
  obtain ⟨claims, t, acc2, bs, hcl, ht, hy, hwal, hint, -, -⟩ := removeCollateral_ok hrc
  have hget : ∀ r, (claims.get r).getD 0 = claimed q.claims r := by
    intro r; rw [addClaims_get hcl r]; simp
  have hkeys : ∀ e ∈ claims.entries, e.1 ∈ q.claims.map Prod.fst ∧ e.2 = claimed q.claims e.1 := by
    intro e he
    have hg := AMap.get_mem he
    refine ⟨?_, by rw [← hget, hg]; rfl⟩
    rcases addClaims_keys hcl e.1 (AMap.mem_keys.mpr ⟨_, hg⟩) with hh | hh
    · obtain ⟨_, hz⟩ := AMap.mem_keys.mp hh; simp at hz
    · exact hh
  have hall : ∀ r ∈ q.claims.map Prod.fst, (r, claimed q.claims r) ∈ claims.entries := by
    intro r hrm
    obtain ⟨x, hx⟩ := AMap.mem_keys.mp (addClaims_all hcl r (Or.inr hrm))
    have := AMap.get_eq_some.mp hx
    have h2 := (hkeys _ this).2
    simp only at h2
    rw [← h2]; exact this
  have hchk := claims_checked (w := { pool, acc := v1, dist := d }) ht claims.nodup (fun _ => rfl) rfl
  obtain ⟨bb, -, -, -, -, -, -, e7⟩ := claims_ok ht claims.nodup
  obtain ⟨x1, -⟩ := claims_exact ht claims.nodup
  obtain ⟨y1, y2⟩ := claims_kept ht
  simp only [List.nil_append] at e7
  simp only at x1 y1 y2
  have hcoll : t.1.acc.collPart = acc.collPart := by
    rw [claims_collPart ht]
    unfold VAccount.collPart Account.collPart
    simp only
    rw [hv1.2.1, hv1.2.2.2]
  have hsub : (t.2.2.map Prod.fst).Nodup := by
    rw [e7]
    exact List.Nodup.sublist (List.Sublist.map _ List.filter_sublist) claims.nodup
  have hmem : ∀ e ∈ t.2.2, e ∈ claims.entries ∧ e.1 ≠ BASE := by
    intro e he
    rw [e7, List.mem_filter] at he
    exact ⟨he.1, by simpa using he.2⟩
  have hcb : t.1.acc.collateralBalances = acc.collateralBalances := congrArg (fun z => z.1) hcoll
  have hccb : t.1.acc.comp.collateralBalances = acc.collateralBalances := congrArg (fun z => z.2.1) hcoll
  have htake := withdrawCollateral_take hy
  have honly := withdrawCollateral_collOnly hy
  unfold CollOnly at honly
  have hpos2 : acc2.positions = acc.positions := by rw [honly, y2]; exact hv1.1
  have hreb2 : acc2.rebate = va.rebate := by rw [← hreb, honly, y2]; rfl
  have hvb2 : acc2.vb = acc.vb - amountFor (env.gran BASE) (claimed q.claims BASE) .toZero := by
    have : acc2.vb = t.1.acc.vb := by rw [honly]
    rw [this, x1, hv1.2.2.1, henv, claimed_entries, hget]
  have hbs := takeBatch_exact htake.vault
  have hresn : bs.map Bucket.res = t.2.2.map Prod.fst := by rw [hbs, List.map_map]; rfl
  have hkept : ∀ r ∈ q.claims.map Prod.fst, r ≠ BASE → (r, claimed q.claims r) ∈ t.2.2 := by
    intro r hrm hb
    rw [e7, List.mem_filter]
    exact ⟨hall r hrm, by simpa using hb⟩
  obtain ⟨hmg, hkn, hcc⟩ := assertAccountIntegrity_ok hf hint
  have hkn' : ∀ p x, acc2.positions.get p = some x → c.Known pool p := by
    intro p x hp
    obtain ⟨z1, z2, z3⟩ := hkn p x hp
    rw [y1] at z3
    exact ⟨z1, z2, z3⟩
  have hm : c.market t.1.pool = c.market pool := by unfold Ctx.market; rw [y1]
  rw [hm] at hmg
  have hag := midway_agree (v := pool) hk (by rw [hpool]; exact poolCoh_new _ _ _) hkn' hcc
  rw [hag.value, hag.margin] at hmg
  have hmk : (s1.midway pool).market = (s.priced u).market := by
    have hp1 : s1.oracle.prices = s.pricesWith u := (maybePush_prices hpush).1
    have hp2 : (s1.midway pool).pool = s.pool := by rw [hpool]; exact VPool.realize_new _ _ _
    unfold State.market
    rw [hp2]
    unfold State.midway State.priced
    simp only [hp1, k1, k2]
  rw [hmk] at hmg
  have hwd : Withdrawn env acc { acc with vb := acc2.vb, collateralBalances := acc2.collateralBalances } q.claims := by
    refine ⟨rfl, hvb2, fun r => ?_⟩
    have hsb := subBatch_get htake.virt r
    rw [hcoll] at hsb
    have hbs := takeBatch_exact htake.vault
    have htb : totalOf bs r = amountFor (c.env.gran r) (claimed t.2.2 r) .toZero := by rw [hbs]; exact totalOf_takes hsub r
    have hcl2 : claimed t.2.2 r = if r = BASE then 0 else claimed q.claims r := by
      split
      · rename_i hrb
        unfold claimed
        rw [e7, List.filter_filter, List.filter_eq_nil_iff.mpr]; · rfl
        intro b _; rw [hrb]; simp
      · rename_i hrb
        rw [← hget, ← claimed_entries]
        unfold claimed
        rw [e7, List.filter_filter]
        congr 2
        refine List.filter_congr (fun e _ => ?_)
        by_cases he : e.1 = r
        · simp [he, hrb]
        · simp [he]
    change (acc2.collateralBalances.get r).getD 0 = _
    have hsb' : (acc2.collateralBalances.get r).getD 0 = (acc.collateralBalances.get r).getD 0 - totalOf bs r := hsb
    rw [hsb', htb, hcl2, henv]
    split
    · rw [amountFor_zero]
    · rfl
  have hmargin : (s.priced u).initialMargin { acc with vb := acc2.vb, collateralBalances := acc2.collateralBalances } ≤
      (s.priced u).accountValue { acc with vb := acc2.vb, collateralBalances := acc2.collateralBalances } := by
    have hrb : (s.priced u).rebateOf { acc with vb := acc2.vb, collateralBalances := acc2.collateralBalances } = acc2.rebate := by
      rw [hreb2, ← load_rebateOf hv ha]; rfl
    unfold State.accountValue State.initialMargin
    rw [hrb]
    simp only
    rw [← hpos2]
    exact hmg
  intro e he hn
  cases e <;> try exact hprc _ he hn
  case insufficientBalance =>
    obtain ⟨r, hrm, hn⟩ := hn
    rcases hn with ⟨rfl, hlt⟩ | ⟨hne, hn⟩
    · have := ((hchk _ (hall _ hrm)).1 rfl).1
      simp only at this
      rw [hv1.2.2.1] at this
      exact absurd this (not_le.mpr hlt)
    · rcases hn with hlt | hnone
      · have := (hchk _ (hall _ hrm)).2 hne
        simp only at this
        rw [hv1.2.1] at this
        exact absurd this (not_le.mpr hlt)
      · have hb : (⟨r, amountFor (c.env.gran r) (claimed q.claims r) .toZero⟩ : Bucket) ∈ bs := by
          rw [hbs]; exact List.mem_map.mpr ⟨_, hkept r hrm hne, rfl⟩
        have hvirt := htake.virt
        rw [hcoll] at hvirt
        exact balanceSubBatch_held hvirt (by rw [hresn]; exact hsub) _ hb hnone
  case insufficientPoolTokens =>
    have hn : s.pool.baseTokens < claimed q.claims BASE := hn
    by_cases hrm : BASE ∈ q.claims.map Prod.fst
    · have := ((hchk _ (hall _ hrm)).1 rfl).2.1
      simp only at this
      rw [hpool] at this
      exact absurd this (not_le.mpr hn)
    · have h0 : claimed q.claims BASE = 0 := by
        rw [← hget]
        cases hg : claims.get BASE with
        | none => rfl
        | some y =>
          exact absurd (hkeys _ (AMap.get_eq_some.mp hg)).1 hrm
      rw [h0] at hn
      exact absurd (reach_base hr) (not_le.mpr hn)
  case vault =>
    obtain ⟨r, hrm, hn⟩ := hn
    rw [← henv] at hn
    by_cases hb : r = BASE
    · subst hb
      exact absurd ((hchk _ (hall _ hrm)).1 rfl).2.2 (not_le.mpr hn)
    · have hmem := hkept r hrm hb
      have : ∀ (cs : List (Res × Dec)) (m m' : AMap Res Dec) (bs : List Bucket), vaultTakeBatch c.env .toZero m cs = Except.ok (m', bs) →
          ∀ e ∈ cs, 0 ≤ amountFor (c.env.gran e.1) e.2 .toZero := by
        intro cs
        induction cs with
        | nil => intro _ _ _ _ e he; cases he
        | cons e0 cs ih =>
          intro m m' bs h e he
          simp only [vaultTakeBatch, bind_ok, pure_ok, Prod.mk.injEq] at h
          obtain ⟨⟨m1, b⟩, h1, ⟨m2, bs'⟩, h2, -, rfl⟩ := h
          obtain ⟨-, g2, g3, -⟩ := vaultTake_get h1
          rcases List.mem_cons.mp he with rfl | he
          · rw [g2]; exact g3
          · exact ih _ _ _ h2 e he
      exact absurd (this _ _ _ _ htake.vault _ hmem) (not_le.mpr hn)
  case invalidAccount =>
    have hn : env.isWallet q.target = false := hn
    rw [henv, hn] at hwal; cases hwal
  case insufficientMargin =>
    obtain ⟨acc', hwd', hlt⟩ := hn
    rw [(hwd'.unique hwd).1, (hwd'.unique hwd).2] at hlt
    exact absurd hmargin (not_le.mpr hlt)

end

/-! ## Executing a request -/

theorem request_cleared {env : Env} {s s' : State} {o : Out} (h : Reach env s) {a : Addr} {i : Nat} {u : Option PriceUpdate}
    (hs : processRequest env s a i u = Except.ok (s', o)) : Cleared (RequestRefused env s a i u) := by
  simp only [processRequest, bind_ok] at hs
  obtain ⟨v, hv, ⟨v1, r, expired⟩, hpr, cfg, -, ⟨s2, out⟩, hbody, -⟩ := hs
  obtain ⟨acc, rd, ha, -, hv'⟩ := load_ok hv
  obtain ⟨kr, st, g1, hk, g3, g4, -, hv1, hrk, hexp⟩ := processRequest_virtual_ok hpr
  have hreq : acc.requests[i]? = some kr := by
    obtain ⟨acc', ha', hr⟩ := keeperRequest_load hv hk
    rw [ha] at ha'; cases ha'; exact hr
  have hstart : v.validStart = acc.validStart := by rw [hv']
  rw [hstart] at g1
  have hro := processRequest_reqOnly hpr
  have hin : v1.Within := by
    intro j hj
    rw [hv1] at hj ⊢
    simp only at hj ⊢
    have e1 : v.requestUpdates.get j = none := by rw [hv']; rfl
    have e2 : v.comp.requests = acc.requests := by rw [hv']
    rw [AMap.has_iff] at hj
    obtain ⟨y, hy⟩ := hj
    rw [AMap.get_set] at hy
    rw [e2]
    split at hy
    · rename_i he; rw [← he]; exact (List.getElem?_eq_some_iff.mp hreq).1
    · rw [e1] at hy; cases hy
  have hpid : v1.positionIds = acc.positions.keys := by
    unfold ReqOnly at hro; rw [hro, hv']; rfl
  intro e he hn
  have key : ∀ e, e ≠ .arithmetic → (∃ acc : Account, s.accounts.get a = some acc ∧
      ((e = .missingRequest ∧ acc.requests.length ≤ i) ∨
       ∃ kr : KeeperRequest, acc.requests[i]? = some kr ∧ acc.validStart ≤ i ∧ kr.submission < s.now ∧ s.now < kr.expiry ∧
        kr.status = STATUS_ACTIVE ∧
        match kr.request with
        | .marginOrder q => OrderRefused env s acc q u e
        | .removeCollateral q => WithdrawalRefused env s acc q u e)) → False := by
    rintro e he ⟨acc', ha', hcase⟩
    rw [ha] at ha'; cases ha'
    rcases hcase with ⟨-, hl⟩ | ⟨kr', hkr', -, -, hlt, -, hm⟩
    · exact absurd (List.getElem?_eq_some_iff.mp hreq).1 (not_lt.mpr hl)
    rw [hreq] at hkr'; cases hkr'
    have hx : expired = false := by rw [hexp, decide_eq_false_iff_not]; exact not_le.mpr hlt
    subst hx
    unfold processBody at hbody
    rw [if_neg (by simp)] at hbody
    simp only [bind_ok] at hbody
    obtain ⟨⟨s1, c, pool⟩, hload, ⟨w, out'⟩, hex, -⟩ := hbody
    have hpr := prices_cleared hload
    subst hrk
    rcases executeRequest_ok hex with ⟨q, tokens, hq, hrc, -⟩ | ⟨q, ev, hq, hmo, -⟩
    · rw [hq] at hm hpr
      simp only [requestPairs, hpid] at hpr
      exact removeCollateral_cleared h hload hv ha hro hpr hrc e he hm
    · rw [hq] at hm hpr
      simp only [requestPairs, hpid] at hpr
      refine marginOrder_cleared h hin hload hv ha hro ?_ hpr hmo e he hm
      rw [hq]; simp only [requestPairs]; exact mem_insertId.mpr (Or.inl rfl)
  cases e <;> try exact key _ he hn
  case invalidMarginAccount => rw [show s.accounts.get a = none from hn] at ha; cases ha
  case arithmetic => exact he rfl
  case processBeforeStart =>
    obtain ⟨acc', ha', hlt⟩ := hn
    rw [ha] at ha'; cases ha'
    exact absurd g1 (not_le.mpr hlt)
  case processBeforeSubmission =>
    obtain ⟨acc', kr', ha', hkr', hle⟩ := hn
    rw [ha] at ha'; cases ha'
    rw [hreq] at hkr'; cases hkr'
    exact absurd g4 (not_lt.mpr hle)
  case processNotActive =>
    obtain ⟨acc', kr', ha', hkr', hn⟩ := hn
    rw [ha] at ha'; cases ha'
    rw [hreq] at hkr'; cases hkr'
    unfold processStatus at g3
    rcases hn with ⟨hlt, hne⟩ | ⟨hle, h1, h2⟩
    · rw [if_neg (not_le.mpr hlt)] at g3
      simp only [bind_ok, require_ok, decide_eq_true_eq] at g3
      exact hne g3.choose_spec.1
    · rw [if_pos hle] at g3
      simp only [bind_ok, require_ok] at g3
      rcases pending_iff.mp g3.choose_spec.1 with h | h
      · exact h1 h
      · exact h2 h

end Perp
