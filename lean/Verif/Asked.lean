import Verif.Collecting
import Verif.Tokens
import Verif.Liquidity
import Verif.RefusalsAll
import Mathlib.Order.Interval.Finset.Nat

/-!
# C60: a successful call does exactly what was asked

For every call that is not a keeper's, the state after a success as a function of the state before and the arguments:
what is recorded, and that nothing else changes.
-/

namespace Perp

/-! ## Requests -/

theorem active_mem {acc : Account} (h : acc.RequestsOk) (i : Nat) :
    i ∈ acc.active ↔ acc.validStart ≤ i ∧ ∃ r : KeeperRequest, acc.requests[i]? = some r ∧ pending r.status = true :=
  by simpa only [pending_iff] using h.2 i

/-- Writing back an account whose rules, requests and virtual balance may have been touched. -/
theorem put_exact {s s1 : State} {a : Addr} {acc acc' : Account} {v : VAccount} {refs : AMap RefId ReferralData}
    {fee : Dec} (h : Holds a acc (acc.vb - fee) v) (hi : RInv v) (hs : v.validStart = acc.validStart)
    (hs1 : s1 = s.burnt fee) (hr : Realizes s1 v acc' refs) :
    refs = s.referrals ∧
      acc' = { acc with vb := acc.vb - fee, requests := v.reqs, active := acc'.active,
                        level1 := v.comp.level1, level2 := v.comp.level2, level3 := v.comp.level3 } ∧
      acc'.RequestsOk := by
  obtain ⟨k1, k2, k3, k4⟩ := realize_rinv hi hr.1
  obtain ⟨e1, e2, e3, e4, e5, e6, -, -, e7, -⟩ :=
    holder_realize (s' := s1.realizedAcc v acc' refs) h hs1 hr rfl rfl rfl rfl rfl rfl rfl rfl
  obtain ⟨rq, -, hacc⟩ := realize_ok hr.1
  refine ⟨e7, ?_, k1⟩
  have l1 : acc'.level1 = v.comp.level1 := by rw [hacc]
  have l2 : acc'.level2 = v.comp.level2 := by rw [hacc]
  have l3 : acc'.level3 = v.comp.level3 := by rw [hacc]
  clear hacc
  obtain ⟨f1, f2, f3, f4, f5, f6, f7, f8, f9, f10, f11⟩ := acc'
  simp only at *
  subst e2 e3 e4 e5 e6 l1 l2 l3 k2 k3
  simp only [hs]

/-- The state in which account `a` has become `acc`, the tokens of the attached fee oath are gone, and nothing else is
different. -/
def State.put (s : State) (oath : Option Bucket) (a : Addr) (acc : Account) : State :=
  { s with accounts := s.accounts.set a acc, oathSupply := s.oathSupply - oathAmt oath }

/-- The account after paying the fee oath (if any) from its virtual balance and adding `news` to its requests, all of
which become active. -/
def Account.placed (acc : Account) (oath : Option Bucket) (news : List KeeperRequest) : Account :=
  { acc with vb := acc.vb - oathAmt oath, requests := acc.requests ++ news,
             active := acc.active ∪ Finset.Ico acc.requests.length (acc.requests.length + news.length) }

theorem active_pushed {acc acc' : Account} {news : List KeeperRequest} (h : acc.RequestsOk) (h' : acc'.RequestsOk)
    (hq : acc'.requests = acc.requests ++ news) (hs : acc'.validStart = acc.validStart)
    (hp : ∀ r ∈ news, pending r.status = true) :
    acc'.active = acc.active ∪ Finset.Ico acc.requests.length (acc.requests.length + news.length) := by
  ext i
  rw [active_mem h', Finset.mem_union, active_mem h, Finset.mem_Ico, hq, hs]
  have hl := h.1
  rcases Nat.lt_or_ge i acc.requests.length with hi | hi
  · rw [List.getElem?_append_left hi]
    constructor
    · exact fun x => Or.inl x
    · rintro (x | x)
      · exact x
      · omega
  · rw [List.getElem?_append_right hi]
    have hnone : acc.requests[i]? = none := by simpa using hi
    constructor
    · rintro ⟨-, r, hr, -⟩
      have := (List.getElem?_eq_some_iff.mp hr).1
      exact Or.inr ⟨hi, by omega⟩
    · rintro (⟨-, r, hr, -⟩ | ⟨-, hx⟩)
      · rw [hnone] at hr; cases hr
      · have hlt : i - acc.requests.length < news.length := by omega
        exact ⟨by omega, _, List.getElem?_eq_getElem hlt, hp _ (List.getElem_mem hlt)⟩

theorem put_placed {s s1 s' : State} {a : Addr} {acc acc' : Account} {v : VAccount} {refs : AMap RefId ReferralData}
    {oath : Option Bucket} {news : List KeeperRequest} (h0 : acc.RequestsOk)
    (h : Holds a acc (acc.vb - oathAmt oath) v) (hi : RInv v) (hs : v.validStart = acc.validStart)
    (hl : v.comp.level1 = acc.level1 ∧ v.comp.level2 = acc.level2 ∧ v.comp.level3 = acc.level3)
    (hq : v.reqs = acc.requests ++ news) (hp : ∀ r ∈ news, pending r.status = true)
    (hs1 : s1 = s.burnt (oathAmt oath)) (hr : Realizes s1 v acc' refs) (he : s' = s1.realizedAcc v acc' refs) :
    s' = s.put oath a (acc.placed oath news) := by
  obtain ⟨rfl, ea, ok⟩ := put_exact h hi hs hs1 hr
  have hx : acc' = acc.placed oath news := by
    have := active_pushed h0 ok (by rw [ea]; exact hq) (by rw [ea]) hp
    rw [ea, this, hq, hl.1, hl.2.1, hl.2.2]; rfl
  rw [he, hs1, State.realizedAcc, hx, h.addr]; rfl

theorem pushRequest_pending {v v' : VAccount} {now : Int} {r : Request} {delay expiry : Nat} {st : Status}
    {eff : List Addr} (h : v.pushRequest now r delay expiry st eff = Except.ok v') : pending st = true := by
  simp only [VAccount.pushRequest, bind_ok, require_ok] at h
  exact h.choose_spec.1

/-- **C60 (orders).** A successful `margin_order_request` records one request, with exactly the order that was asked
for, under the index it returns; the referenced indexes are resolved against the requests recorded before.  The account
pays the fee oath.  Nothing else in the whole system changes. -/
theorem c60_order_request {env : Env} {cl : Caller} {s s' : State} {oath : Option Bucket} {a : Addr} {q : OrderArgs}
    {activate cancel : List RequestIndexRef} {status : Status} {o : Out} (hr : Reach env s)
    (h : step env cl s (.marginOrderRequest oath a q activate cancel status) = Except.ok (s', o)) :
    ∃ acc act can, s.accounts.get a = some acc ∧ resolveAll activate acc.requests.length = Except.ok act ∧
      resolveAll cancel acc.requests.length = Except.ok can ∧ o = { indexes := [some acc.requests.length] } ∧
      s' = s.put oath a (acc.placed oath [mainOrder s.now q act can status]) := by
  obtain ⟨v, s1, v1, cfg, act, can, v2, acc', refs, hv, -, hp, hact, hcan, hpush, hlim, hre, he, ho⟩ :=
    marginOrderRequest_ok (step_body h)
  have h0 := reach_requestsOk hr
  obtain ⟨-, acc, hg, hcomp, hq, hs, hl, had, -⟩ := load_rinv hv h0
  obtain ⟨rfl, rfl, -, -, hcfg⟩ := payOath_frame hp
  have hH : Holds a acc (acc.vb - oathAmt oath) { v with vb := v.vb - oathAmt oath } := by
    obtain ⟨h1, h2, h3, h4, h5, h6, h7, h8⟩ := holds_load hv hg
    exact ⟨h1, h2, h3, by rw [← h4], h5, h6, h7, h8⟩
  have hc := load_counted hv h0 (oathAmt oath)
  obtain ⟨a1, a2, -, -, -, -, a3, a4⟩ := pushRequest_exact hc.inv hpush
  refine ⟨acc, act, can, hg, by rw [← hl]; exact hact, by rw [← hl]; exact hcan, by rw [ho, ← hl], ?_⟩
  refine put_placed (h0 a acc hg) (hH.req (pushRequest_reqOnly hpush)) a1 (a4.trans hs) ?_ ?_ ?_ rfl hre he
  · rw [a3]; simp only [hcomp, and_self]
  · rw [a2]; exact congrArg (· ++ _) hq
  · intro r hm
    simp only [List.mem_singleton] at hm
    subst hm
    exact pushRequest_pending hpush

/-- **C60 (withdrawal requests).** A successful `remove_collateral_request` records one request, due at once, with
exactly the claims and the target asked for. -/
theorem c60_withdrawal_request {env : Env} {cl : Caller} {s s' : State} {oath : Option Bucket} {expiry : Nat}
    {a target : Addr} {claims : List (Res × Dec)} {o : Out} (hr : Reach env s)
    (h : step env cl s (.removeCollateralRequest oath expiry a target claims) = Except.ok (s', o)) :
    ∃ acc, s.accounts.get a = some acc ∧ o = { indexes := [some acc.requests.length] } ∧
      s' = s.put oath a (acc.placed oath
        [⟨.removeCollateral { target, claims }, s.now, s.now + u64AsI64 expiry, STATUS_ACTIVE, [target]⟩]) := by
  obtain ⟨v, s1, v1, cfg, v2, acc', refs, hv, -, hp, hpush, hlim, hre, he, ho⟩ := removeCollateralRequest_ok (step_body h)
  have h0 := reach_requestsOk hr
  obtain ⟨-, acc, hg, hcomp, hq, hs, hl, had, -⟩ := load_rinv hv h0
  obtain ⟨rfl, rfl, -, -, hcfg⟩ := payOath_frame hp
  have hH : Holds a acc (acc.vb - oathAmt oath) { v with vb := v.vb - oathAmt oath } := by
    obtain ⟨h1, h2, h3, h4, h5, h6, h7, h8⟩ := holds_load hv hg
    exact ⟨h1, h2, h3, by rw [← h4], h5, h6, h7, h8⟩
  have hc := load_counted hv h0 (oathAmt oath)
  obtain ⟨a1, a2, -, -, -, -, a3, a4⟩ := pushRequest_exact hc.inv hpush
  have hnow : s.now + u64AsI64 0 = s.now := by
    have : u64AsI64 0 = 0 := by decide
    rw [this, add_zero]
  refine ⟨acc, hg, by rw [ho, ← hl], ?_⟩
  refine put_placed (h0 a acc hg) (hH.req (pushRequest_reqOnly hpush)) a1 (a4.trans hs) ?_ ?_ ?_ rfl hre he
  · rw [a3]; simp only [hcomp, and_self]
  · rw [a2]
    have e : (s.burnt (oathAmt oath)).now = s.now := rfl
    rw [e, hnow]; exact congrArg (· ++ _) hq
  · intro r hm
    simp only [List.mem_singleton] at hm
    subst hm
    rfl

theorem pushExit_more {v v' : VAccount} {now : Int} {q : OrderArgs} {l : Option PriceLimit} {cancel : List Nat}
    (h : pushExit v now q l cancel = Except.ok v') : ReqOnly v v' := by
  unfold Perp.pushExit at h
  cases l with
  | none => simp only [pure_ok] at h; subst h; exact ReqOnly.refl _
  | some l =>
    simp only [bind_ok, dneg_ok] at h
    obtain ⟨_, ⟨-, rfl⟩, h⟩ := h
    exact pushRequest_reqOnly h

/-- **C60 (orders with exits).** A successful `margin_order_tp_sl_request` records the order and its exits and returns
their indexes. -/
theorem c60_tp_sl_request {env : Env} {cl : Caller} {s s' : State} {oath : Option Bucket} {a : Addr} {q : OrderArgs}
    {tp sl : Option Dec} {o : Out} (hr : Reach env s)
    (h : step env cl s (.marginOrderTpSlRequest oath a q tp sl) = Except.ok (s', o)) :
    ∃ (acc : Account) (iTp iSl : Option Nat), s.accounts.get a = some acc ∧
      iTp = tp.map (fun _ => acc.requests.length + 1) ∧
      iSl = sl.map (fun _ => if tp.isSome then acc.requests.length + 2 else acc.requests.length + 1) ∧
      o = { indexes := [some acc.requests.length, iTp, iSl] } ∧
      s' = s.put oath a (acc.placed oath (mainOrder s.now q (iTp.toList ++ iSl.toList) [] STATUS_ACTIVE ::
        ((tp.map (fun p => exitOrder s.now q (takeProfitLimit q.amount p) iSl.toList)).toList ++
        (sl.map (fun p => exitOrder s.now q (stopLossLimit q.amount p) iTp.toList)).toList))) := by
  obtain ⟨v, s1, v1, cfg, v2, v3, v4, acc', refs, iTp, iSl, hv, -, hp, hTp, hSl, h2, h3, h4, hlim, hre, he, ho⟩ :=
    marginOrderTpSlRequest_ok (step_body h)
  have h0 := reach_requestsOk hr
  obtain ⟨-, acc, hg, hcomp, hq, hs, hl, had, -⟩ := load_rinv hv h0
  obtain ⟨rfl, rfl, -, -, hcfg⟩ := payOath_frame hp
  have hH : Holds a acc (acc.vb - oathAmt oath) { v with vb := v.vb - oathAmt oath } := by
    obtain ⟨h1, h2, h3, h4, h5, h6, h7, h8⟩ := holds_load hv hg
    exact ⟨h1, h2, h3, by rw [← h4], h5, h6, h7, h8⟩
  have hc := load_counted hv h0 (oathAmt oath)
  obtain ⟨a1, b1, c1⟩ := hc.push h2
  obtain ⟨a2, b2, c2⟩ := a1.pushExit h3
  obtain ⟨a3, b3, c3⟩ := a2.pushExit h4
  have hro := ((pushRequest_reqOnly h2).trans (pushExit_more h3)).trans (pushExit_more h4)
  have hcp : v4.comp = acc := by
    unfold ReqOnly at hro; rw [hro]; exact hcomp
  have hst : v4.validStart = acc.validStart := by
    unfold ReqOnly at hro; rw [hro]; exact hs
  refine ⟨acc, iTp, iSl, hg, by rw [hTp]; simp only [hl], ?_, by rw [ho]; simp only [hl], ?_⟩
  · rw [hSl]; simp only [hl]; cases tp <;> rfl
  refine put_placed (h0 a acc hg) (hH.req hro) a3.inv hst ?_ ?_ ?_ rfl hre he
  · rw [hcp]; exact ⟨rfl, rfl, rfl⟩
  · rw [b3, b2, b1]
    have : ({ v with vb := v.vb - oathAmt oath } : VAccount).reqs = acc.requests := hq
    rw [this]
    simp only [Option.map_map, Function.comp_def, exitLimit_tp, exitLimit_sl, List.append_assoc]
    rfl
  · intro r hm
    simp only [List.mem_cons, List.mem_append, Option.mem_toList, Option.map_eq_some_iff] at hm
    rcases hm with rfl | ⟨p, -, rfl⟩ | ⟨p, -, rfl⟩ <;> rfl

/-- **C60 (cancelling).** A successful `cancel_requests` finds every listed request pending and sets it to Cancelled;
the other requests and the rest of every request stay as they were. -/
theorem c60_cancel {env : Env} {cl : Caller} {s s' : State} {oath : Option Bucket} {a : Addr} {is : List Nat} {o : Out}
    (hr : Reach env s) (h : step env cl s (.cancelRequests oath a is) = Except.ok (s', o)) :
    ∃ acc, s.accounts.get a = some acc ∧ o = {} ∧
      (∀ i ∈ is, ∃ r : KeeperRequest, acc.requests[i]? = some r ∧ (r.status = STATUS_ACTIVE ∨ r.status = STATUS_DORMANT)) ∧
      s' = s.put oath a { acc with
        vb := acc.vb - oathAmt oath
        requests := acc.requests.mapIdx (fun i r => if i ∈ is then { r with status := STATUS_CANCELLED } else r)
        active := acc.active \ is.toFinset } := by
  obtain ⟨v, s1, v1, cfg, v2, acc', refs, hv, -, hp, h2, hre, he, ho⟩ := opCancelRequests_ok (step_body h)
  have h0 := reach_requestsOk hr
  obtain ⟨hrv, acc, hg, hcomp, hq, hs, hl, had, -⟩ := load_rinv hv h0
  obtain ⟨rfl, rfl, -, -, hcfg⟩ := payOath_frame hp
  have hH : Holds a acc (acc.vb - oathAmt oath) { v with vb := v.vb - oathAmt oath } := by
    obtain ⟨h1, h2, h3, h4, h5, h6, h7, h8⟩ := holds_load hv hg
    exact ⟨h1, h2, h3, by rw [← h4], h5, h6, h7, h8⟩
  have hc := load_counted hv h0 (oathAmt oath)
  obtain ⟨b1, -, b2, b3⟩ := cancelRequests_inv hc.inv h2
  have hro := cancelRequests_reqOnly h2
  have hcp : v2.comp = acc := by
    unfold ReqOnly at hro; rw [hro]; exact hcomp
  have hst : v2.validStart = acc.validStart := by
    unfold ReqOnly at hro; rw [hro]; exact hs
  have hqv : ({ v with vb := v.vb - oathAmt oath } : VAccount).reqs = acc.requests := hq
  rw [hqv] at b2 b3
  have hpend : ∀ i ∈ is, ∃ r : KeeperRequest, acc.requests[i]? = some r ∧
      (r.status = STATUS_ACTIVE ∨ r.status = STATUS_DORMANT) := by
    intro i hi
    obtain ⟨r, hr1, hr2⟩ := b3 i hi
    exact ⟨r, hr1, pending_iff.mp hr2⟩
  refine ⟨acc, hg, ho, hpend, ?_⟩
  have hreq : v2.reqs = acc.requests.mapIdx (fun i r => if i ∈ is then { r with status := STATUS_CANCELLED } else r) := by
    apply List.ext_getElem?
    intro i
    rw [b2, List.getElem?_mapIdx]
    cases hi : acc.requests[i]? with
    | none => rfl
    | some r =>
      simp only [Option.map_some, Option.some.injEq]
      unfold restatus
      by_cases hm : i ∈ is
      · obtain ⟨r', hr1, hr2⟩ := hpend i hm
        rw [hi] at hr1; cases hr1
        rw [if_pos ⟨hm, by simpa using hr2⟩, if_pos hm]
      · rw [if_neg (fun x => hm x.1), if_neg hm]
  obtain ⟨rfl, ea, ok⟩ := put_exact (hH.req hro) b1 hst rfl hre
  have hact : acc'.active = acc.active \ is.toFinset := by
    ext i
    have e1 : acc'.requests = v2.reqs := by rw [ea]
    have e2 : acc'.validStart = acc.validStart := by rw [ea]
    rw [active_mem ok, Finset.mem_sdiff, active_mem (h0 a acc hg), e1, e2, b2, List.mem_toFinset]
    constructor
    · rintro ⟨hle, r, hr1, hr2⟩
      rw [Option.map_eq_some_iff] at hr1
      obtain ⟨r0, hr0, rfl⟩ := hr1
      by_cases hm : i ∈ is
      · exfalso
        obtain ⟨r', hr1, hr3⟩ := hpend i hm
        rw [hr0] at hr1; cases hr1
        unfold restatus at hr2
        rw [if_pos ⟨hm, by simpa using hr3⟩] at hr2
        exact absurd (show pending STATUS_CANCELLED = true from hr2) (by decide)
      · unfold restatus at hr2
        rw [if_neg (fun x => hm x.1)] at hr2
        exact ⟨⟨hle, r0, hr0, hr2⟩, hm⟩
    · rintro ⟨⟨hle, r, hr1, hr2⟩, hm⟩
      refine ⟨hle, r, ?_, hr2⟩
      rw [hr1, Option.map_some]
      unfold restatus
      rw [if_neg (fun x => hm x.1)]
  have hx : acc' = { acc with
        vb := acc.vb - oathAmt oath
        requests := acc.requests.mapIdx (fun i r => if i ∈ is then { r with status := STATUS_CANCELLED } else r)
        active := acc.active \ is.toFinset } := by
    rw [ea, hact, hreq, hcp]
  rw [he, State.realizedAcc, hx, (hH.req hro).addr]; rfl

/-! ## Rules -/

theorem put_rule {s s1 s' : State} {a : Addr} {acc acc' : Account} {v : VAccount} {refs : AMap RefId ReferralData}
    {oath : Option Bucket} {perms : AMap Rule Permissions} {l : Level} {r : Rule} {n : Nat} (h0 : s.RequestsOk)
    (ha : s.accounts.get a = some acc) (hv : s.load a = Except.ok v) (hs1 : s1 = s.burnt (oathAmt oath))
    (hr : Realizes s1 (setAuth s1.perms { v with vb := v.vb - oathAmt oath } l r).2 acc' refs)
    (he : s' = ({ s1 with perms := perms, recoveryKeys := n } : State).realizedAcc
      (setAuth s1.perms { v with vb := v.vb - oathAmt oath } l r).2 acc' refs) :
    s' = { s.put oath a ({ acc with vb := acc.vb - oathAmt oath }.setRule l r) with
      perms := s'.perms, recoveryKeys := n } := by
  obtain ⟨hrv, acc2, hg, hcomp, hq, hs, hl, had, -⟩ := load_rinv hv h0
  rw [ha] at hg; cases hg
  have hH : Holds a acc (acc.vb - oathAmt oath) { v with vb := v.vb - oathAmt oath } := by
    obtain ⟨h1, h2, h3, h4, h5, h6, h7, h8⟩ := holds_load hv ha
    exact ⟨h1, h2, h3, by rw [← h4], h5, h6, h7, h8⟩
  have hc := load_counted hv h0 (oathAmt oath)
  have hi : RInv (setAuth s1.perms { v with vb := v.vb - oathAmt oath } l r).2 :=
    rinv_congr (a := { v with vb := v.vb - oathAmt oath }) (by cases l <;> rfl) hc.inv
  obtain ⟨rfl, ea, ok⟩ := put_exact (hH.auth s1.perms l r) hi (by exact hs) hs1 hr
  have hreq : (setAuth s1.perms { v with vb := v.vb - oathAmt oath } l r).2.reqs = acc.requests := by
    rw [← hq]; cases l <;> rfl
  have hact : acc'.active = acc.active := by
    ext i
    have e1 : acc'.requests = acc.requests := by rw [ea]; exact hreq
    have e2 : acc'.validStart = acc.validStart := by rw [ea]
    rw [active_mem ok, active_mem (h0 a acc ha), e1, e2]
  have hx : acc' = { acc with vb := acc.vb - oathAmt oath }.setRule l r := by
    rw [ea, hact, hreq]
    subst hcomp
    cases l <;> rfl
  rw [he]
  simp only [State.realizedAcc, hx, hs1, State.put]
  subst had
  rfl

/-- **C60 (setting a rule).** A successful `set_level_{1,2,3}_auth` replaces the rule of that level; besides the
permission registry, which follows the rules (C37), nothing else changes. -/
theorem c60_set_level {env : Env} {cl : Caller} {s s' : State} {oath : Option Bucket} {a : Addr} {l : Level} {r : Rule}
    {o : Out} (hr : Reach env s) (h : step env cl s (.setLevelAuth oath a l r) = Except.ok (s', o)) :
    ∃ acc, s.accounts.get a = some acc ∧ o = {} ∧
      s' = { s.put oath a ({ acc with vb := acc.vb - oathAmt oath }.setRule l r) with perms := s'.perms } := by
  obtain ⟨v, s1, v1, cfg, hv, -, hp, x, rfl, acc', refs, hre, he, ho⟩ := setLevelAuth_ok (step_body h)
  obtain ⟨acc, rd, hg, -⟩ := load_ok hv
  obtain ⟨hs1, rfl, -, -, -⟩ := payOath_frame hp
  refine ⟨acc, hg, ho, ?_⟩
  subst hs1
  exact put_rule (n := s.recoveryKeys) (reach_requestsOk hr) hg hv rfl hre he

/-- **C60 (adding to a rule).** A successful `add_auth_rule` changes the rule of the level it names (as C38 says) and,
besides the registry, nothing else. -/
theorem c60_add_auth_rule {env : Env} {cl : Caller} {s s' : State} {oath : Option Bucket} {a : Addr} {k : Nat} {n : Node}
    {o : Out} (hr : Reach env s) (h : step env cl s (.addAuthRule oath a k n) = Except.ok (s', o)) :
    ∃ acc l r, s.accounts.get a = some acc ∧ o = {} ∧
      ((k, l) = (1, Level.l1) ∨ (k, l) = (2, Level.l2) ∨ (k, l) = (3, Level.l3)) ∧
      s' = { s.put oath a ({ acc with vb := acc.vb - oathAmt oath }.setRule l r) with perms := s'.perms } := by
  obtain ⟨v, s1, v1, cfg, l, hv, -, hp, hl, r, x, rfl, rfl, acc', refs, hre, he, ho⟩ := addAuthRule_ok (step_body h)
  obtain ⟨acc, rd, hg, -⟩ := load_ok hv
  obtain ⟨hs1, rfl, -, -, -⟩ := payOath_frame hp
  refine ⟨acc, l, extendRule (v.comp.rule l) n, hg, ho, ?_, ?_⟩
  · rcases levelOf_ok hl with ⟨rfl, rfl⟩ | ⟨rfl, rfl⟩ | ⟨rfl, rfl⟩ <;> simp
  · subst hs1
    exact put_rule (n := s.recoveryKeys) (reach_requestsOk hr) hg hv rfl hre he

/-- **C60 (recovery keys).** A successful `create_recovery_key` mints one recovery key and changes the level 1 rule of
the account (as C38 says); besides the registry, nothing else. -/
theorem c60_recovery_key {env : Env} {cl : Caller} {s s' : State} {oath : Option Bucket} {a : Addr}
    {o : Out} (hr : Reach env s) (h : step env cl s (.createRecoveryKey oath a) = Except.ok (s', o)) :
    ∃ acc r, s.accounts.get a = some acc ∧ o = {} ∧
      s' = { s.put oath a { acc with vb := acc.vb - oathAmt oath, level1 := r } with
        perms := s'.perms, recoveryKeys := s.recoveryKeys + 1 } := by
  obtain ⟨v, s1, v1, cfg, hv, -, hp, r, x, rfl, rfl, acc', refs, hre, he, ho⟩ := createRecoveryKey_ok (step_body h)
  obtain ⟨acc, rd, hg, -⟩ := load_ok hv
  obtain ⟨hs1, rfl, -, -, -⟩ := payOath_frame hp
  refine ⟨acc, extendRule (v.comp.rule .l1) (.proof (env.recoveryProof s1.recoveryKeys)), hg, ho, ?_⟩
  subst hs1
  exact put_rule (l := .l1) (n := s.recoveryKeys + 1) (reach_requestsOk hr) hg hv rfl hre he

/-! ## Deposits -/

/-- `m'` is `m` with the tokens credited, except those of the base token. -/
def Credited (m m' : AMap Res Dec) (tokens : List Bucket) : Prop :=
  ∀ r, m'.get r = if r ≠ BASE ∧ ∃ b ∈ tokens, b.res = r then some ((m.get r).getD 0 + totalOf tokens r) else m.get r

theorem credit_batch {f : AMap Res Dec → Bucket → R (AMap Res Dec)}
    (hf : ∀ {m m' : AMap Res Dec} {b : Bucket}, f m b = Except.ok m' →
      ∀ r, m'.get r = if b.res = r then some ((m.get r).getD 0 + b.amt) else m.get r) (bs : List Bucket) :
    ∀ {m m' : AMap Res Dec}, bs.foldlM f m = Except.ok m' →
      ∀ r, m'.get r = if ∃ b ∈ bs, b.res = r then some ((m.get r).getD 0 + totalOf bs r) else m.get r := by
  induction bs with
  | nil =>
    intro m m' h r
    simp only [List.foldlM_nil, pure_ok] at h
    subst h; simp
  | cons b bs ih =>
    intro m m' h r
    simp only [List.foldlM_cons, bind_ok] at h
    obtain ⟨m1, h1, h2⟩ := h
    rw [ih h2 r, hf h1 r, totalOf_cons]
    by_cases hb : b.res = r
    · by_cases hx : ∃ x ∈ bs, x.res = r
      · simp [hb, hx, add_assoc]
      · have h0 : totalOf bs r = 0 := by
          unfold totalOf
          rw [List.filter_eq_nil_iff.mpr]
          · rfl
          · intro x hxm; simp only [decide_eq_true_eq]; exact fun e => hx ⟨x, hxm, e⟩
        simp [hb, hx, h0]
    · simp [hb]

theorem vaultPut_exact {m m' : AMap Res Dec} {b : Bucket} (h : vaultPut m b = Except.ok m') (r : Res) :
    m'.get r = if b.res = r then some ((m.get r).getD 0 + b.amt) else m.get r := by
  simp only [vaultPut, bind_ok, pure_ok, dadd_ok] at h
  obtain ⟨-, -, _, ⟨-, rfl⟩, rfl⟩ := h
  rw [AMap.get_set]
  by_cases hb : b.res = r
  · subst hb; simp [AMap.getD]
  · rw [if_neg hb, if_neg (fun e => hb e)]

theorem totalOf_notBase (tokens : List Bucket) {r : Res} (hr : r ≠ BASE) :
    totalOf (tokens.filter (fun b => b.res ≠ BASE)) r = totalOf tokens r := by
  unfold totalOf
  rw [List.filter_filter]
  congr 2
  apply List.filter_congr
  intro b _
  by_cases hb : b.res = r
  · simp [hb, hr]
  · simp [hb]

theorem totalOf_base (tokens : List Bucket) :
    totalOf (tokens.filter (fun b => b.res = BASE)) BASE = totalOf tokens BASE := by
  unfold totalOf
  rw [List.filter_filter]
  congr 2
  apply List.filter_congr
  intro b _
  simp

theorem credited_of {f : AMap Res Dec → Bucket → R (AMap Res Dec)}
    (hf : ∀ {m m' : AMap Res Dec} {b : Bucket}, f m b = Except.ok m' →
      ∀ r, m'.get r = if b.res = r then some ((m.get r).getD 0 + b.amt) else m.get r) {tokens : List Bucket}
    {m m' : AMap Res Dec} (h : (tokens.filter (fun b => b.res ≠ BASE)).foldlM f m = Except.ok m') :
    Credited m m' tokens := by
  intro r
  rw [credit_batch hf _ h r]
  by_cases hr : r = BASE
  · subst hr
    rw [if_neg, if_neg (by simp)]
    rintro ⟨b, hb, e⟩
    simp only [List.mem_filter, decide_eq_true_eq] at hb
    exact hb.2 e
  · rw [totalOf_notBase tokens hr]
    refine if_congr ?_ rfl rfl
    constructor
    · rintro ⟨b, hb, e⟩
      exact ⟨hr, b, (List.mem_filter.mp hb).1, e⟩
    · rintro ⟨-, b, hb, e⟩
      exact ⟨b, List.mem_filter.mpr ⟨hb, by simpa [e] using hr⟩, e⟩

theorem addBases_all (bs : List Bucket) : ∀ {w w' : W}, (∀ b ∈ bs, b.res = BASE) → bs.foldlM addBase w = Except.ok w' →
    w' = { pool := { w.pool with base := w.pool.base + totalOf bs BASE, vb := w.pool.vb - totalOf bs BASE,
                                 comp := { w.pool.comp with baseTokens := w.pool.comp.baseTokens + totalOf bs BASE } },
           acc := { w.acc with vb := w.acc.vb + totalOf bs BASE }, dist := w.dist } := by
  induction bs with
  | nil =>
    intro w w' _ h
    simp only [List.foldlM_nil, pure_ok] at h
    subst h; simp [totalOf]
  | cons b bs ih =>
    intro w w' hb h
    simp only [List.foldlM_cons, bind_ok, addBase] at h
    obtain ⟨w1, ⟨pool, hd, hs⟩, h⟩ := h
    have hd := VPool.deposit_ok hd
    subst hd
    rw [ih (fun x hx => hb x (by simp [hx])) h, settleAccount_ok hs, totalOf_cons, if_pos (hb b (by simp))]
    simp only [add_assoc, sub_sub]

/-- The pool after base tokens have been deposited for an account. -/
def Pool.received (p : Pool) (x : Dec) : Pool := { p with baseTokens := p.baseTokens + x, vb := p.vb - x }

theorem realPositions_idle {v : VPool} (h : v.updated = []) : v.realPositions = v.comp.positions := by
  unfold VPool.realPositions
  rw [h]
  generalize v.positions.entries = l
  generalize v.comp.positions = m
  induction l with
  | nil => rfl
  | cons e l ih => simp

theorem deposit_exact {env : Env} {s s1 : State} {a : Addr} {acc acc' : Account} {v : VAccount} {oath : Option Bucket}
    {tokens : List Bucket} {w : W} {refs : AMap RefId ReferralData} (hv : s.load a = Except.ok v)
    (ha : s.accounts.get a = some acc) (h : depositTokens env s v oath tokens = Except.ok (s1, w))
    (hr : Realizes s1 w.acc acc' refs) :
    s1.realized w acc' refs = { s.put oath a acc' with pool := s.pool.received (totalOf tokens BASE) } ∧
      acc' = { acc with vb := acc.vb + totalOf tokens BASE - oathAmt oath, collateral := acc'.collateral,
                        collateralBalances := acc'.collateralBalances } ∧
      Credited acc.collateral acc'.collateral tokens ∧
      Credited acc.collateralBalances acc'.collateralBalances tokens := by
  obtain ⟨cfg, ids, w0, -, hw0, rfl, -, -, rfl, -⟩ := depositTokens_ok h
  obtain ⟨w1, ac, hbb, -, hdc, -, rfl⟩ := addCollateral_ok hw0
  have hb := addBases_all _ (fun b hb => by simpa using (List.mem_filter.mp hb).2) hbb
  rw [totalOf_base] at hb
  obtain ⟨acc0, rd, hg, -, rfl⟩ := load_ok hv
  rw [ha] at hg; cases hg
  subst hb
  simp only [VAccount.depositCollateral, balanceAddBatch, vaultPutBatch, bind_ok, pure_ok] at hdc
  obtain ⟨cb, -, ccb, h2, vaults, h3, rfl⟩ := hdc
  obtain ⟨hr1, hr2⟩ := hr
  simp only [VAccount.realizeReferral, Bool.false_eq_true, if_false, pure_ok] at hr2
  subst hr2
  have hacc : acc' = { acc with
      vb := acc.vb + totalOf tokens BASE - oathAmt oath, collateral := vaults, collateralBalances := ccb } := by
    obtain ⟨rq, h4, rfl⟩ := realize_ok hr1
    have e1 : (AMap.empty : AMap Nat KeeperRequest).entries = [] := rfl
    simp only [e1, List.foldlM_nil, pure_ok, List.append_nil] at h4
    subst h4
    have hreal : ∀ (l : List (PairId × AccountPosition)) (m : AMap PairId AccountPosition), l.foldl (fun m e =>
        if e.1 ∈ ([] : List PairId) then (if e.2.amount ≠ 0 then m.set e.1 e.2 else m.erase e.1) else m) m = m := by
      intro l m
      induction l with
      | nil => rfl
      | cons e l ih => simp
    simp only [VAccount.realPositions, VAccount.realActive, gt_iff_lt, lt_self_iff_false, if_false, List.toFinset_nil,
      Finset.sdiff_empty, Finset.union_empty]
    rw [hreal]
  refine ⟨?_, ?_, ?_, ?_⟩
  · simp only [State.realized, State.burnt, State.put, VPool.realize, Pool.received]
    congr 1
    simp only [VPool.new]
    congr 1
    exact realPositions_idle rfl
  · rw [hacc]
  · rw [hacc]; exact credited_of vaultPut_exact h3
  · rw [hacc]; exact credited_of balanceAdd_get h2

/-- **C60 (deposits).** A successful `add_collateral` credits the account with exactly the tokens given: base tokens to
its virtual balance (minus the fee oath) and to the pool, every other token to its recorded balance and its vault.
Nothing else in the whole system changes. -/
theorem c60_add_collateral {env : Env} {cl : Caller} {s s' : State} {oath : Option Bucket} {a : Addr}
    {tokens : List Bucket} {o : Out} (h : step env cl s (.addCollateral oath a tokens) = Except.ok (s', o)) :
    ∃ acc acc', s.accounts.get a = some acc ∧ o = {} ∧
      s' = { s.put oath a acc' with pool := s.pool.received (totalOf tokens BASE) } ∧
      acc' = { acc with vb := acc.vb + totalOf tokens BASE - oathAmt oath, collateral := acc'.collateral,
                        collateralBalances := acc'.collateralBalances } ∧
      Credited acc.collateral acc'.collateral tokens ∧
      Credited acc.collateralBalances acc'.collateralBalances tokens := by
  obtain ⟨v, s1, w, acc', refs, -, hv, -, hd, hr, he, ho⟩ := opAddCollateral_ok (step_body h)
  obtain ⟨acc, rd, hg, -⟩ := load_ok hv
  obtain ⟨e1, e2, e3, e4⟩ := deposit_exact hv hg hd hr
  exact ⟨acc, acc', hg, ho, he.trans e1, e2, e3, e4⟩

/-- **C60 (accounts).** A successful `create_account` adds one account: with the given rule at every level, without
positions or requests, referred by the given code (if any), holding exactly the tokens given and those of the code,
minus the fee oath.  The code has one use less and its tokens leave the referral vaults.  The permission registry
follows (C37).  Nothing else in the whole system changes. -/
theorem c60_create_account {env : Env} {cl : Caller} {s s' : State} {a : Addr} {oath : Option Bucket} {rule : Rule}
    {tokens : List Bucket} {code : Option Nat} {o : Out}
    (h : step env cl s (.createAccount a oath rule tokens code) = Except.ok (s', o)) :
    ∃ acc' extra rid, s.accounts.get a = none ∧ o = { ev := .created a rid } ∧
      s' = { s.put oath a acc' with
        pool := s.pool.received (totalOf (tokens ++ extra) BASE), refgen := s'.refgen, perms := s'.perms } ∧
      acc'.level1 = rule ∧ acc'.level2 = rule ∧ acc'.level3 = rule ∧ acc'.referralId = rid ∧
      acc'.positions = AMap.empty ∧ acc'.requests = [] ∧ acc'.active = ∅ ∧ acc'.validStart = 0 ∧
      acc'.vb = totalOf (tokens ++ extra) BASE - oathAmt oath ∧
      Credited AMap.empty acc'.collateral (tokens ++ extra) ∧
      Credited AMap.empty acc'.collateralBalances (tokens ++ extra) ∧
      (code = none → extra = [] ∧ rid = none ∧ s'.refgen = s.refgen) ∧
      ∀ c, code = some c → ∃ k, s.refgen.codes.get (env.hash c) = some k ∧ rid = some k.referralId ∧
        extra = rounded env k.claims ∧ s'.refgen.allocations = s.refgen.allocations ∧
        s'.refgen.codes = s.refgen.codes.set (env.hash c) { k with count := k.count + 1 } ∧
        ∀ r, (s'.refgen.vaults.get r).getD 0 = (s.refgen.vaults.get r).getD 0 - totalOf extra r := by
  obtain ⟨s0, rid, extra, s1, v, s2, w, acc', refs, -, hn, hc, rfl, hv, hd, hr, he, ho⟩ := createAccount_ok (step_body h)
  obtain ⟨e1, e2, e3, e4⟩ := deposit_exact hv (AMap.get_set_self _ _ _) hd hr
  rw [e1] at he
  have hacc : acc'.level1 = rule ∧ acc'.level2 = rule ∧ acc'.level3 = rule ∧ acc'.referralId = rid ∧
      acc'.positions = AMap.empty ∧ acc'.requests = [] ∧ acc'.active = ∅ ∧ acc'.validStart = 0 ∧
      acc'.vb = totalOf (tokens ++ extra) BASE - oathAmt oath := by
    rw [e2]; simp [Account.fresh]
  obtain ⟨l1, l2, l3, l4, l5, l6, l7, l8, l9⟩ := hacc
  rcases claimCode_ok hc with ⟨rfl, rfl, rfl, rfl⟩ | ⟨c, g, r, rfl, hg, rfl, rfl⟩
  · refine ⟨acc', [], none, hn, ho, ?_, l1, l2, l3, l4, l5, l6, l7, l8, l9, e3, e4, ?_, (by intro c hc; cases hc)⟩
    · rw [he]; simp only [State.put, AMap.set_set]
    · intro _; exact ⟨rfl, rfl, by rw [he]; rfl⟩
  · refine ⟨acc', extra, some r, hn, ho, ?_, l1, l2, l3, l4, l5, l6, l7, l8, l9, e3, e4, (by intro hc; cases hc), ?_⟩
    · rw [he]; simp only [State.put, AMap.set_set]
    · intro c' hc'
      cases hc'
      obtain ⟨k, k1, -, k2, k3, k4, k5, k6⟩ := claim_ok hg
      have hgg : s'.refgen = g := by rw [he]; rfl
      exact ⟨k, k1, by rw [k2], k3, by rw [hgg]; exact k4, by rw [hgg]; exact k5, by rw [hgg]; exact k6⟩

/-! ## Referrals -/

/-- **C60 (minting a referral).** -/
theorem c60_mint_referral {env : Env} {cl : Caller} {s s' : State} {id : RefId} {feeReferral feeRebate : Dec} {m : Nat}
    {o : Out} (h : step env cl s (.mintReferral id feeReferral feeRebate m) = Except.ok (s', o)) :
    s.referrals.get id = none ∧ o = {} ∧ s' = { s with
      referrals := s.referrals.set id
        { feeReferral, feeRebate, referrals := 0, maxReferrals := m, balance := 0, totalRewarded := 0 } } := by
  have hb := step_body h
  simp only [body, bind_ok, pure_ok, Prod.mk.injEq] at hb
  obtain ⟨s1, h1, rfl, rfl⟩ := hb
  obtain ⟨-, -, hn, rfl⟩ := mintReferral_ok h1
  exact ⟨hn, rfl, rfl⟩

/-- **C60 (updating a referral).** Exactly the given values are replaced; what was earned and granted stays. -/
theorem c60_update_referral {env : Env} {cl : Caller} {s s' : State} {id : RefId} {feeReferral feeRebate : Option Dec}
    {m : Option Nat} {o : Out} (h : step env cl s (.updateReferral id feeReferral feeRebate m) = Except.ok (s', o)) :
    o = {} ∧ ((feeReferral = none ∧ feeRebate = none ∧ m = none ∧ s' = s) ∨
      ∃ d, s.referrals.get id = some d ∧ s' = { s with
        referrals := s.referrals.set id { d with
          feeReferral := feeReferral.getD d.feeReferral
          feeRebate := feeRebate.getD d.feeRebate
          maxReferrals := m.getD d.maxReferrals } }) := by
  have hb := step_body h
  simp only [body, bind_ok, pure_ok, Prod.mk.injEq] at hb
  obtain ⟨s1, h1, rfl, rfl⟩ := hb
  refine ⟨rfl, ?_⟩
  by_cases hall : feeReferral = none ∧ feeRebate = none ∧ m = none
  · obtain ⟨rfl, rfl, rfl⟩ := hall
    rcases updateReferral_ok h1 with rfl | ⟨d, hd, -, -, rfl⟩
    · exact Or.inl ⟨rfl, rfl, rfl, rfl⟩
    · exact Or.inr ⟨d, hd, rfl⟩
  · rw [Perp.updateReferral, if_neg (by simpa [Option.isNone_iff_eq_none, and_assoc] using hall)] at h1
    simp only [bind_ok, pure_ok, expect_ok] at h1
    obtain ⟨d, hd, u1, -, u2, -, rfl⟩ := h1
    exact Or.inr ⟨d, hd, rfl⟩

theorem take_exact {env : Env} {l : List (Res × Dec)} : ∀ {t t' : AMap Res Dec × List Bucket},
    (l.map Prod.fst).Nodup → l.foldlM (takeClaim env) t = Except.ok t' → ∀ r,
      totalOf t'.2 r = totalOf t.2 r + amountFor (env.gran r) (claimed l r) .toInfinity ∧
      (t'.1.get r).getD 0 + totalOf t'.2 r = (t.1.get r).getD 0 + totalOf t.2 r := by
  have h0 : ∀ r, amountFor (env.gran r) 0 .toInfinity = 0 := by
    intro r; simp [amountFor]
  induction l with
  | nil =>
    intro t t' _ h r
    simp only [List.foldlM_nil, pure_ok] at h
    subst h; simp [claimed, h0]
  | cons e l ih =>
    intro t t' hn h r
    simp only [List.foldlM_cons, bind_ok] at h
    obtain ⟨t1, h1, h⟩ := h
    rw [List.map_cons, List.nodup_cons] at hn
    obtain ⟨i1, i2⟩ := ih hn.2 h r
    have hz : e.1 = r → claimed l r = 0 := by
      rintro rfl
      unfold claimed
      rw [List.filter_eq_nil_iff.mpr]
      · rfl
      · intro x hx; simp only [decide_eq_true_eq]
        exact fun e' => hn.1 (e' ▸ List.mem_map_of_mem hx)
    rw [i1, claimed_cons]
    rw [i1] at i2
    unfold takeClaim at h1
    split at h1
    · rename_i avail hav
      simp only [bind_ok, require_ok, pure_ok, takeAmount_ok, decide_eq_true_eq] at h1
      obtain ⟨⟨⟩, -, x, ⟨hx, -, -, -⟩, rfl⟩ := h1
      simp only at i2 ⊢
      rw [totalOf_append, totalOf_cons] at *
      have hnil : totalOf [] r = 0 := rfl
      rw [hnil] at *
      by_cases e' : e.1 = r
      · subst e'
        rw [hz rfl, AMap.get_set_self, h0] at i2
        simp only [if_true, Option.getD_some] at i2 ⊢
        rw [hz rfl, h0, hav, Option.getD_some]
        have hn0 : totalOf [] e.1 = 0 := rfl
        rw [hn0] at i2
        rw [show e.2 + (0 : Int) = e.2 from add_zero _, hx]
        constructor
        · simp
        · simp only [add_zero] at i2 ⊢; omega
      · rw [AMap.get_set_ne _ _ e'] at i2
        simp only [e', if_false, add_zero, zero_add] at i2 ⊢
        constructor
        · trivial
        · omega
    · simp only [bind_ok, require_ok, pure_ok, decide_eq_true_eq] at h1
      obtain ⟨⟨⟩, hz', rfl⟩ := h1
      rw [hz']
      simp only [ite_self, zero_add]
      exact ⟨trivial, i2⟩

/-- What is set aside of the tokens given, and what is handed back. -/
theorem split_exact {env : Env} {tokens taken rest : List Bucket} {totals : AMap Res Dec}
    (h : splitTokens env tokens totals = Except.ok (taken, rest)) (r : Res) :
    totalOf taken r = amountFor (env.gran r) ((totals.get r).getD 0) .toInfinity ∧
      totalOf rest r = totalOf tokens r - totalOf taken r := by
  simp only [splitTokens, bind_ok, pure_ok, Prod.mk.injEq] at h
  obtain ⟨mapped, hm, t, ht, rfl, rfl⟩ := h
  obtain ⟨e1, e2⟩ := take_exact totals.nodup ht r
  rw [claimed_entries] at e1
  have hnil : totalOf [] r = 0 := rfl
  simp only [hnil, zero_add, add_zero] at e1 e2
  refine ⟨e1, ?_⟩
  have e3 : totalOf (t.1.entries.map (fun e => (⟨e.1, e.2⟩ : Bucket))) r = (t.1.get r).getD 0 := by
    rw [← claimed_entries]
    unfold totalOf claimed
    generalize t.1.entries = l
    induction l with
    | nil => rfl
    | cons e l ih => by_cases he : e.1 = r <;> simp [he] at ih ⊢ <;> exact ih
  have e4 := mergeTokens_total hm r
  simp only [AMap.get_empty, Option.getD_none, zero_add] at e4
  rw [e3]
  omega

theorem insertCodes_get {α : Type} (k : α → Hash) (v : α → ReferralCode) (l : List α) :
    ∀ {m m' : AMap Hash ReferralCode}, l.foldlM (fun m e => insertCode m (k e) (v e)) m = Except.ok m' →
      (∀ e ∈ l, m.get (k e) = none) ∧ (∀ e ∈ l, m'.get (k e) = some (v e)) ∧
      ∀ h, (∀ e ∈ l, k e ≠ h) → m'.get h = m.get h := by
  induction l with
  | nil =>
    intro m m' h
    simp only [List.foldlM_nil, pure_ok] at h
    subst h; simp
  | cons e l ih =>
    intro m m' h
    have hsome := (insertCodes_ok k v (fun _ => 0) _ h).2.1
    simp only [List.foldlM_cons, bind_ok, insertCode, require_ok, pure_ok] at h
    obtain ⟨m1, ⟨⟨⟩, hn, rfl⟩, h⟩ := h
    have hn' : m.get (k e) = none := by
      cases hg : m.get (k e) with
      | none => rfl
      | some x => simp [AMap.has, hg] at hn
    obtain ⟨i1, i2, i3⟩ := ih h
    refine ⟨?_, ?_, ?_⟩
    · intro x hx
      rcases List.mem_cons.mp hx with rfl | hx
      · exact hn'
      · have := i1 x hx
        by_cases e' : k e = k x
        · rw [← e']; exact hn'
        · rwa [AMap.get_set_ne _ _ e'] at this
    · intro x hx
      rcases List.mem_cons.mp hx with rfl | hx
      · exact (insertCodes_ok k v (fun _ => 0) _ h).2.1 _ _ (AMap.get_set_self _ _ _)
      · exact i2 x hx
    · intro h' hne
      rw [i3 h' (fun x hx => hne x (List.mem_cons_of_mem _ hx)), AMap.get_set_ne _ _ (hne e (by simp))]

/-- **C60 (codes).** A successful `create_referral_codes` records exactly the codes asked for, none of which existed,
unused and with the claims and number of uses given; it counts their uses against the referral's limit, sets aside the
claimed tokens (rounded up to the divisibility of each resource), hands back the rest, and changes nothing else. -/
theorem c60_create_codes {env : Env} {cl : Caller} {s s' : State} {id : RefId} {tokens : List Bucket}
    {hashes : AMap Hash (List (Res × Dec) × Nat)} {o : Out}
    (h : step env cl s (.createReferralCodes id tokens hashes) = Except.ok (s', o)) :
    ∃ (d : ReferralData) (n : Nat), s.referrals.get id = some d ∧ (n : Int) = hashes.sum (fun _ e => (e.2 : Int)) ∧
      s' = { s with referrals := s.referrals.set id { d with referrals := d.referrals + n }
                    refgen := { s.refgen with codes := s'.refgen.codes, vaults := s'.refgen.vaults } } ∧
      (∀ hh claims uses, hashes.get hh = some (claims, uses) → s.refgen.codes.get hh = none ∧
        s'.refgen.codes.get hh = some { referralId := id, claims, count := 0, maxCount := uses }) ∧
      (∀ hh, hashes.get hh = none → s'.refgen.codes.get hh = s.refgen.codes.get hh) ∧
      ∃ taken : Res → Dec, o = { buckets := o.buckets } ∧
        (∀ r, taken r % (env.gran r : Int) = 0 ∧ hashes.sum (fun _ e => (e.2 : Int) * claimed e.1 r) ≤ taken r ∧
          taken r < hashes.sum (fun _ e => (e.2 : Int) * claimed e.1 r) + env.gran r) ∧
        ∀ r, s'.backing r = s.backing r + taken r ∧ totalOf o.buckets r = totalOf tokens r - taken r := by
  obtain ⟨cfg, n, s1, g, rest, -, -, -, hn, hg, hc, rfl, rfl⟩ := createReferralCodes_ok (step_body h)
  obtain ⟨d, hd, -, -, rfl⟩ := grantReferrals_ok hg
  simp only [RefGen.createCodes, bind_ok, pure_ok, Prod.mk.injEq] at hc
  obtain ⟨totals, ht, ⟨taken, rest'⟩, hs, codes, hcodes, vaults, hv, rfl, rfl⟩ := hc
  have hsum := sumCounts_ok hn
  obtain ⟨-, htot⟩ := codeTotals_ok ht
  obtain ⟨c1, c2, c3⟩ := insertCodes_get (fun e : Hash × (List (Res × Dec) × Nat) => e.1)
    (fun e => ⟨id, e.2.1, 0, e.2.2⟩) _ hcodes
  refine ⟨d, n, hd, ?_, rfl, ?_, ?_, fun r => totalOf taken r, rfl, ?_, ?_⟩
  · rw [hsum]; simp only [Nat.cast_zero, zero_add]; rfl
  · intro hh claims uses hm
    have hm := AMap.get_eq_some.mp hm
    exact ⟨c1 _ hm, c2 _ hm⟩
  · intro hh hm
    refine c3 hh ?_
    rintro e he rfl
    have := AMap.get_eq_some.mpr he
    rw [hm] at this; cases this
  · intro r
    have := htot r
    simp only [AMap.get_empty, Option.getD_none, zero_add] at this
    have h2 := (split_exact hs r).1
    rw [this] at h2
    obtain ⟨u1, u2⟩ := amountFor_up (env.gran_pos r) ((hashes.entries.map (fun e => (e.2.2 : Int) * claimed e.2.1 r)).sum)
    show totalOf taken r % (env.gran r : Int) = 0 ∧ _ ≤ totalOf taken r ∧ totalOf taken r < _ + _
    rw [h2]
    exact ⟨by simp [amountFor], u1, u2⟩
  · intro r
    exact ⟨vaultPutBatch_get hv r, (split_exact hs r).2⟩

/-- **C60 (allocations).** A successful `add_referral_allocation` appends exactly the allocation asked for and returns its
index; it counts its codes against the referral's limit, sets aside the claimed tokens, hands back the rest, and changes
nothing else. -/
theorem c60_add_allocation {env : Env} {cl : Caller} {s s' : State} {id : RefId} {tokens : List Bucket}
    {claims : List (Res × Dec)} {n : Nat} {o : Out}
    (h : step env cl s (.addReferralAllocation id tokens claims n) = Except.ok (s', o)) :
    ∃ (d : ReferralData) (old : List ReferralAllocation), s.referrals.get id = some d ∧
      old = (s.refgen.allocations.get id).getD [] ∧
      s' = { s with
        referrals := s.referrals.set id { d with referrals := d.referrals + n }
        refgen := { s.refgen with
          allocations := s.refgen.allocations.set id (old ++ [{ claims, count := 0, maxCount := n }])
          vaults := s'.refgen.vaults } } ∧
      o = { buckets := o.buckets, indexes := [some old.length] } ∧
      ∃ taken : Res → Dec, (∀ r, taken r % (env.gran r : Int) = 0 ∧ (n : Int) * claimed claims r ≤ taken r ∧
          taken r < (n : Int) * claimed claims r + env.gran r) ∧
        ∀ r, s'.backing r = s.backing r + taken r ∧ totalOf o.buckets r = totalOf tokens r - taken r := by
  obtain ⟨cfg, s1, g, rest, i, -, -, hg, hc, rfl, rfl⟩ := addReferralAllocation_ok (step_body h)
  obtain ⟨d, hd, -, -, rfl⟩ := grantReferrals_ok hg
  simp only [RefGen.addAllocation, bind_ok, pure_ok, Prod.mk.injEq] at hc
  obtain ⟨totals, ht, ⟨taken, rest'⟩, hs, vaults, hv, rfl, rfl, rfl⟩ := hc
  obtain ⟨-, htot⟩ := totalClaims_ok ht
  refine ⟨d, s.refgen.allocs id, hd, rfl, rfl, rfl, fun r => totalOf taken r, ?_, ?_⟩
  · intro r
    have := htot r
    simp only [AMap.get_empty, Option.getD_none, zero_add] at this
    have h2 := (split_exact hs r).1
    rw [this] at h2
    obtain ⟨u1, u2⟩ := amountFor_up (env.gran_pos r) ((n : Int) * claimed claims r)
    show totalOf taken r % (env.gran r : Int) = 0 ∧ _ ≤ totalOf taken r ∧ totalOf taken r < _ + _
    rw [h2]
    exact ⟨by simp [amountFor], u1, u2⟩
  · intro r
    exact ⟨vaultPutBatch_get hv r, (split_exact hs r).2⟩

/-- **C60 (minting with an allocation).** The same as minting and then adding the allocation. -/
theorem c60_mint_with_allocation {env : Env} {cl : Caller} {s s' : State} {id : RefId} {a b : Dec} {m : Nat}
    {tokens : List Bucket} {claims : List (Res × Dec)} {n : Nat} {o : Out} :
    step env cl s (.mintReferralWithAllocation id a b m tokens claims n) = Except.ok (s', o) ↔
      ∃ s1, step env cl s (.mintReferral id a b m) = Except.ok (s1, {}) ∧
        step env cl s1 (.addReferralAllocation id tokens claims n) = Except.ok (s', o) := by
  constructor
  · intro h
    obtain ⟨h1, h2, h3, h4⟩ := step_ok.mp h
    simp only [body, Perp.mintReferralWithAllocation, bind_ok] at h4
    obtain ⟨s1, h5, h6⟩ := h4
    have e : s1 = { s with referrals := s1.referrals } := by
      obtain ⟨-, -, -, rfl⟩ := mintReferral_ok h5; rfl
    refine ⟨s1, step_ok.mpr ⟨h1, h2, h3, ?_⟩, step_ok.mpr ⟨?_, ?_, ?_, h6⟩⟩
    · simp only [body, bind_ok, pure_ok]; exact ⟨s1, h5, rfl⟩
    · rw [e]; exact h1
    · rw [e]; exact h2
    · rw [e]; exact h3
  · rintro ⟨s1, h, h'⟩
    obtain ⟨h1, h2, h3, h4⟩ := step_ok.mp h
    simp only [body, bind_ok, pure_ok, Prod.mk.injEq] at h4
    obtain ⟨s2, h5, rfl, -⟩ := h4
    refine step_ok.mpr ⟨h1, h2, h3, ?_⟩
    simp only [body, Perp.mintReferralWithAllocation, bind_ok]
    exact ⟨s2, h5, (step_ok.mp h').2.2.2⟩

/-- **C60 (codes of an allocation).** A successful `create_referral_codes_from_allocation` records the codes, none of which
existed, with the claims of the allocation and a single use, counts them there, and changes nothing else. -/
theorem c60_codes_from_allocation {env : Env} {cl : Caller} {s s' : State} {id : RefId} {i : Nat} {hashes : List Hash}
    {o : Out} (h : step env cl s (.createReferralCodesFromAllocation id i hashes) = Except.ok (s', o)) :
    ∃ (l : List ReferralAllocation) (al : ReferralAllocation), s.refgen.allocations.get id = some l ∧ l[i]? = some al ∧
      o = {} ∧
      s' = { s with refgen := { s.refgen with
        allocations := s.refgen.allocations.set id (l.set i { al with count := al.count + hashes.dedup.length })
        codes := s'.refgen.codes } } ∧
      ∀ hh, (hh ∈ hashes → s.refgen.codes.get hh = none ∧
          s'.refgen.codes.get hh = some { referralId := id, claims := al.claims, count := 0, maxCount := 1 }) ∧
        (hh ∉ hashes → s'.refgen.codes.get hh = s.refgen.codes.get hh) := by
  have hb := step_body h
  simp only [body, bind_ok, pure_ok, Prod.mk.injEq] at hb
  obtain ⟨s1, h1, rfl, rfl⟩ := hb
  obtain ⟨g, -, hg, rfl⟩ := createReferralCodesFromAllocation_ok h1
  simp only [RefGen.codesFromAllocation, bind_ok, pure_ok, expect_ok, require_ok, uadd_ok] at hg
  obtain ⟨l, hl, al, hal, _, ⟨-, rfl⟩, -, -, codes, hc, rfl⟩ := hg
  obtain ⟨c1, c2, c3⟩ := insertCodes_get (fun h : Hash => h) (fun _ => ⟨id, al.claims, 0, 1⟩) _ hc
  refine ⟨l, al, hl, hal, rfl, rfl, fun hh => ⟨fun hm => ?_, fun hm => ?_⟩⟩
  · have hm := List.mem_dedup.mpr hm
    exact ⟨c1 _ hm, c2 _ hm⟩
  · refine c3 hh ?_
    rintro e he rfl
    exact hm (List.mem_dedup.mp he)

/-! ## Fees -/

/-- The pool after `x` has been moved from an account of fees to the pool's own balance and `y` of it paid out. -/
def Pool.paid (p : Pool) (x y : Dec) : Pool := { p with vb := p.vb + x, baseTokens := p.baseTokens - y }

theorem paid_of {env : Env} {s : State} {x y : Dec} {pool : Pool} (h : payout env s x = Except.ok (pool, y)) :
    pool = s.pool.paid x y := (payout_ok h).2.2

/-- **C60 (collecting fees).** Collecting the treasury, the fee delegator's balance or a referral's rewards pays that
balance out (rounded down as C32 says), zeroes it, and changes nothing else. -/
theorem c60_collect {env : Env} {cl : Caller} {s s' : State} {o : Out} :
    (step env cl s .collectTreasury = Except.ok (s', o) → ∃ y, o = { buckets := [⟨BASE, y⟩] } ∧
      s' = { s with dist := { s.dist with treasury := 0 }, pool := s.pool.paid s.dist.treasury y }) ∧
    (step env cl s .collectFeeDelegator = Except.ok (s', o) → ∃ y, o = { buckets := [⟨BASE, y⟩] } ∧
      s' = { s with delegator := { s.delegator with vb := 0 }, pool := s.pool.paid s.delegator.vb y }) ∧
    ∀ id, step env cl s (.collectReferralRewards id) = Except.ok (s', o) → ∃ d y, s.referrals.get id = some d ∧
      o = { buckets := [⟨BASE, y⟩] } ∧
      s' = { s with referrals := s.referrals.set id { d with balance := 0 }, pool := s.pool.paid d.balance y } := by
  refine ⟨fun h => ?_, fun h => ?_, fun id h => ?_⟩
  · obtain ⟨pool, y, hp, rfl, rfl⟩ := collectTreasury_ok (step_body h)
    exact ⟨y, rfl, by rw [paid_of hp]⟩
  · obtain ⟨pool, y, hp, rfl, rfl⟩ := collectFeeDelegator_ok (step_body h)
    exact ⟨y, rfl, by rw [paid_of hp]⟩
  · obtain ⟨d, pool, y, -, hd, hp, rfl, rfl⟩ := collectReferralRewards_ok (step_body h)
    exact ⟨d, y, hd, rfl, by rw [paid_of hp]⟩

/-- **C60 (the protocol's share).** `swap_protocol_fee` burns at least the configured amount of the protocol token, rounded up
to its divisibility, hands back the rest together with the protocol's fees, zeroes those, and changes nothing else. -/
theorem c60_swap_protocol_fee {env : Env} {cl : Caller} {s s' : State} {b : Bucket} {o : Out}
    (h : step env cl s (.swapProtocolFee b) = Except.ok (s', o)) :
    ∃ y burn, b.res = PROTOCOL ∧ s.config.exchange.decompress.protocolBurnAmount ≤ burn ∧
      burn < s.config.exchange.decompress.protocolBurnAmount + env.gran PROTOCOL ∧ burn % (env.gran PROTOCOL : Int) = 0 ∧
      o = { buckets := [⟨BASE, y⟩, ⟨PROTOCOL, b.amt - burn⟩], burnt := [⟨PROTOCOL, burn⟩] } ∧
      s' = { s with dist := { s.dist with protocol := 0 }, pool := s.pool.paid s.dist.protocol y } := by
  obtain ⟨cfg, pool, y, burn, hcfg, hres, -, hburn, hp, rfl, rfl⟩ := swapProtocolFee_ok (step_body h)
  rw [VConfig.new_ex hcfg, takeAmount_ok] at hburn
  obtain ⟨rfl, -, hm, -⟩ := hburn
  obtain ⟨u1, u2⟩ := amountFor_up (env.gran_pos PROTOCOL) s.config.exchange.decompress.protocolBurnAmount
  exact ⟨y, _, hres, u1, u2, hm, rfl, by rw [paid_of hp]⟩

/-! ## Configuration -/

/-- The value in force for a submitted value: at most one percent below it, never above. -/
def Near (v x : Dec) : Prop := x ≤ v ∧ 99 * v ≤ 100 * x

/-- Every field of the exchange configuration in force is the submitted one, decimals up to rounding. -/
structure ExchangeConfig.Near (c x : ExchangeConfig) : Prop where
  positionsMax : x.positionsMax = c.positionsMax
  collateralsMax : x.collateralsMax = c.collateralsMax
  activeRequestsMax : x.activeRequestsMax = c.activeRequestsMax
  skewRatioCap : Perp.Near c.skewRatioCap x.skewRatioCap
  adlOffset : Perp.Near c.adlOffset x.adlOffset
  adlA : Perp.Near c.adlA x.adlA
  adlB : Perp.Near c.adlB x.adlB
  feeLiquidityAdd : Perp.Near c.feeLiquidityAdd x.feeLiquidityAdd
  feeLiquidityRemove : Perp.Near c.feeLiquidityRemove x.feeLiquidityRemove
  feeShareProtocol : Perp.Near c.feeShareProtocol x.feeShareProtocol
  feeShareTreasury : Perp.Near c.feeShareTreasury x.feeShareTreasury
  feeShareReferral : Perp.Near c.feeShareReferral x.feeShareReferral
  feeMax : Perp.Near c.feeMax x.feeMax
  protocolBurnAmount : Perp.Near c.protocolBurnAmount x.protocolBurnAmount
  rewardKeeper : Perp.Near c.rewardKeeper x.rewardKeeper

/-- Every field of a pair configuration in force is the submitted one: decimals up to rounding, the two times modulo
65536 (finding C46). -/
structure PairConfig.Near (c x : PairConfig) : Prop where
  pairId : x.pairId = c.pairId
  priceAgeMax : x.priceAgeMax = c.priceAgeMax % 65536
  oiMax : Perp.Near c.oiMax x.oiMax
  tradeSizeMin : Perp.Near c.tradeSizeMin x.tradeSizeMin
  updatePriceDeltaRatio : Perp.Near c.updatePriceDeltaRatio x.updatePriceDeltaRatio
  updatePeriodSeconds : x.updatePeriodSeconds = c.updatePeriodSeconds % 65536
  marginInitial : Perp.Near c.marginInitial x.marginInitial
  marginMaintenance : Perp.Near c.marginMaintenance x.marginMaintenance
  funding1 : Perp.Near c.funding1 x.funding1
  funding2 : Perp.Near c.funding2 x.funding2
  funding2Delta : Perp.Near c.funding2Delta x.funding2Delta
  funding2Decay : Perp.Near c.funding2Decay x.funding2Decay
  fundingPool0 : Perp.Near c.fundingPool0 x.fundingPool0
  fundingPool1 : Perp.Near c.fundingPool1 x.fundingPool1
  fundingShare : Perp.Near c.fundingShare x.fundingShare
  fee0 : Perp.Near c.fee0 x.fee0
  fee1 : Perp.Near c.fee1 x.fee1

/-- The same for a collateral. -/
structure CollateralConfig.Near (c x : CollateralConfig) : Prop where
  pairId : x.pairId = c.pairId
  priceAgeMax : x.priceAgeMax = c.priceAgeMax % 65536
  discount : Perp.Near c.discount x.discount
  margin : Perp.Near c.margin x.margin

theorem ofDec_near {v : Dec} {f : DFloat} (h : DFloat.ofDec v = Except.ok f) (h0 : 0 ≤ v) : Near v f.toDec :=
  ⟨(ofDec_between h h0).2, ofDec_lower h h0⟩

theorem exchange_near {c : ExchangeConfig} {x : ExchangeConfigC} (hv : c.validate = true) (h : c.compress = Except.ok x) :
    c.Near x.decompress := by
  simp only [ExchangeConfig.validate, decide_eq_true_eq] at hv
  obtain ⟨h1, h2, h3, h4, h5, h6, h7, ⟨h8, -⟩, ⟨h9, -⟩, ⟨h10, -⟩, h11, h12, h13⟩ := hv
  have h12' : 0 ≤ c.protocolBurnAmount := le_trans (by decide) h12
  simp only [ExchangeConfig.compress, bind_ok, pure_ok] at h
  obtain ⟨_, k2, _, k3, _, k4, _, k5, _, k6, _, k7, _, k8, _, k9, _, k10, _, k11, _, k12, _, k13, rfl⟩ := h
  exact ⟨rfl, rfl, rfl, ofDec_near k2 h2, ofDec_near k3 h3, ofDec_near k4 h4, ofDec_near k5 h5, ofDec_near k6 h6,
    ofDec_near k7 h7, ofDec_near k8 h8, ofDec_near k9 h9, ofDec_near k10 h10, ofDec_near k11 h11, ofDec_near k12 h12',
    ofDec_near k13 h13⟩

theorem pair_near {c : PairConfig} {x : PairConfigC} (hv : c.validate = true) (h : c.compress = Except.ok x) :
    c.Near x.decompress := by
  simp only [PairConfig.validate, decide_eq_true_eq] at hv
  obtain ⟨h1, h2, h3, h4, h5, ⟨h6, -⟩, ⟨h7, -, -⟩, ⟨h8, -⟩, ⟨h9, -⟩, ⟨h10, -⟩, h11, ⟨h12, -⟩, ⟨h13, -⟩,
    ⟨h14, -⟩, ⟨h15, -⟩, ⟨h16, -⟩⟩ := hv
  simp only [PairConfig.compress, bind_ok, pure_ok] at h
  obtain ⟨_, k2, _, k3, _, k4, _, k6, _, k7, _, k8, _, k9, _, k10, _, k11, _, k12, _, k13, _, k14, _, k15, _, k16, rfl⟩ := h
  exact ⟨rfl, i64AsU16_eq _, ofDec_near k2 h2, ofDec_near k3 h3, ofDec_near k4 (le_of_lt h4), i64AsU16_eq _,
    ofDec_near k6 h6, ofDec_near k7 h7, ofDec_near k8 h8, ofDec_near k9 h9, ofDec_near k10 h10, ofDec_near k11 h11,
    ofDec_near k12 h12, ofDec_near k13 h13, ofDec_near k14 h14, ofDec_near k15 h15, ofDec_near k16 h16⟩

theorem coll_near {c : CollateralConfig} {x : CollateralConfigC} (hv : c.validate = true) (h : c.compress = Except.ok x) :
    c.Near x.decompress := by
  simp only [CollateralConfig.validate, decide_eq_true_eq] at hv
  obtain ⟨h1, ⟨h2, -⟩, ⟨h3, -⟩⟩ := hv
  have h2' : 0 ≤ c.discount := le_trans (by decide) h2
  simp only [CollateralConfig.compress, bind_ok, pure_ok] at h
  obtain ⟨_, k2, _, k3, rfl⟩ := h
  exact ⟨rfl, i64AsU16_eq _, ofDec_near k2 h2', ofDec_near k3 h3⟩

/-- **C60 (exchange configuration).** -/
theorem c60_exchange_config {env : Env} {cl : Caller} {s s' : State} {c : ExchangeConfig} {o : Out}
    (h : step env cl s (.updateExchangeConfig c) = Except.ok (s', o)) :
    o = {} ∧ s' = { s with config := { s.config with exchange := s'.config.exchange } } ∧
      c.Near s'.config.exchange.decompress := by
  have hb := step_body h
  simp only [body, Config.updateExchange, bind_ok, pure_ok, require_ok, Prod.mk.injEq] at hb
  obtain ⟨_, ⟨⟨⟩, hv, xc, hc, rfl⟩, rfl, rfl⟩ := hb
  exact ⟨rfl, rfl, exchange_near hv hc⟩

theorem getLast_filter_cons {α : Type} (q : α → Bool) (x : α) (l : List α) :
    ((x :: l).filter q).getLast? = (match (l.filter q).getLast? with
      | some y => some y
      | none => if q x then some x else none) := by
  by_cases h : q x
  · rw [List.filter_cons_of_pos h, List.getLast?_cons]
    cases hl : (l.filter q).getLast? with
    | none => simp [h]
    | some y => simp
  · rw [List.filter_cons_of_neg h]
    cases hl : (l.filter q).getLast? with
    | none => simp [h]
    | some y => simp

theorem updatePairs_exact (cs : List PairConfig) : ∀ {c c' : Config}, c.updatePairs cs = Except.ok c' →
    c' = { c with pairs := c'.pairs } ∧ ∀ p, match (cs.filter (fun x => decide (x.pairId = p))).getLast? with
      | some x => ∃ y, c'.pairs.get p = some y ∧ x.Near y.decompress
      | none => c'.pairs.get p = c.pairs.get p := by
  induction cs with
  | nil =>
    intro c c' h
    simp only [Config.updatePairs, List.foldlM_nil, pure_ok] at h
    subst h; exact ⟨rfl, fun p => rfl⟩
  | cons x cs ih =>
    intro c c' h
    simp only [Config.updatePairs, List.foldlM_cons, bind_ok, Config.updatePair, require_ok, pure_ok] at h
    obtain ⟨c1, ⟨⟨⟩, hv, xc, hc, rfl⟩, h⟩ := h
    obtain ⟨e1, e2⟩ := ih h
    refine ⟨by rw [e1], fun p => ?_⟩
    have := e2 p
    rw [getLast_filter_cons]
    cases hl : (cs.filter (fun x => decide (x.pairId = p))).getLast? with
    | some y => rw [hl] at this; exact this
    | none =>
      rw [hl] at this
      simp only at this ⊢
      by_cases hp : x.pairId = p
      · rw [this]
        simp only [hp, decide_true, if_true, AMap.get_set_self]
        exact ⟨xc, rfl, pair_near hv hc⟩
      · rw [this, AMap.get_set_ne _ _ hp]
        simp [hp]

/-- **C60 (pair configurations).** After `update_pair_configs` every pair named in the list has the configuration of its last
entry in force; nothing else changes. -/
theorem c60_pair_configs {env : Env} {cl : Caller} {s s' : State} {cs : List PairConfig} {o : Out}
    (h : step env cl s (.updatePairConfigs cs) = Except.ok (s', o)) :
    o = {} ∧ s' = { s with config := { s.config with pairs := s'.config.pairs } } ∧
      ∀ p, match (cs.filter (fun x => decide (x.pairId = p))).getLast? with
        | some x => ∃ y, s'.config.pairs.get p = some y ∧ x.Near y.decompress
        | none => s'.config.pairs.get p = s.config.pairs.get p := by
  have hb := step_body h
  simp only [body, bind_ok, pure_ok, Prod.mk.injEq] at hb
  obtain ⟨c', hc, rfl, rfl⟩ := hb
  obtain ⟨e1, e2⟩ := updatePairs_exact cs hc
  exact ⟨rfl, by rw [← e1], e2⟩

theorem updateCollaterals_exact (cs : List (Res × CollateralConfig)) : ∀ {c c' : Config},
    c.updateCollaterals cs = Except.ok c' →
    c' = { c with collaterals := c'.collaterals } ∧ ∀ r, match (cs.filter (fun x => decide (x.1 = r))).getLast? with
      | some x => ∃ y, c'.collaterals.get r = some y ∧ x.2.Near y.decompress
      | none => c'.collaterals.get r = c.collaterals.get r := by
  induction cs with
  | nil =>
    intro c c' h
    simp only [Config.updateCollaterals, List.foldlM_nil, pure_ok] at h
    subst h; exact ⟨rfl, fun p => rfl⟩
  | cons x cs ih =>
    intro c c' h
    simp only [Config.updateCollaterals, List.foldlM_cons, bind_ok, Config.updateCollateral, require_ok, pure_ok] at h
    obtain ⟨c1, ⟨⟨⟩, hv, xc, hc, rfl⟩, h⟩ := h
    obtain ⟨e1, e2⟩ := ih h
    refine ⟨by rw [e1], fun p => ?_⟩
    have := e2 p
    rw [getLast_filter_cons]
    cases hl : (cs.filter (fun x => decide (x.1 = p))).getLast? with
    | some y => rw [hl] at this; exact this
    | none =>
      rw [hl] at this
      simp only at this ⊢
      by_cases hp : x.1 = p
      · rw [this]
        simp only [hp, decide_true, if_true, AMap.get_set_self]
        exact ⟨xc, rfl, coll_near hv hc⟩
      · rw [this, AMap.get_set_ne _ _ hp]
        simp [hp]

/-- **C60 (collateral configurations).** -/
theorem c60_collateral_configs {env : Env} {cl : Caller} {s s' : State} {cs : List (Res × CollateralConfig)} {o : Out}
    (h : step env cl s (.updateCollateralConfigs cs) = Except.ok (s', o)) :
    o = {} ∧ s' = { s with config := { s.config with collaterals := s'.config.collaterals } } ∧
      ∀ r, match (cs.filter (fun x => decide (x.1 = r))).getLast? with
        | some x => ∃ y, s'.config.collaterals.get r = some y ∧ x.2.Near y.decompress
        | none => s'.config.collaterals.get r = s.config.collaterals.get r := by
  have hb := step_body h
  simp only [body, bind_ok, pure_ok, Prod.mk.injEq] at hb
  obtain ⟨c', hc, rfl, rfl⟩ := hb
  obtain ⟨e1, e2⟩ := updateCollaterals_exact cs hc
  exact ⟨rfl, by rw [← e1], e2⟩

/-- **C60 (removing a collateral).** -/
theorem c60_remove_collateral_config {env : Env} {cl : Caller} {s s' : State} {r : Res} {o : Out}
    (h : step env cl s (.removeCollateralConfig r) = Except.ok (s', o)) :
    o = {} ∧ s' = { s with config := { s.config with collaterals := s'.config.collaterals } } ∧
      s'.config.collaterals.get r = none ∧ ∀ r', r' ≠ r → s'.config.collaterals.get r' = s.config.collaterals.get r' := by
  have hb := step_body h
  simp only [body, pure_ok, Prod.mk.injEq] at hb
  obtain ⟨rfl, rfl⟩ := hb
  refine ⟨rfl, rfl, ?_, fun r' hr => ?_⟩
  · simp only [Config.removeCollateral, AMap.get_erase]; simp
  · simp only [Config.removeCollateral, AMap.get_erase]; rw [if_neg (fun e => hr e.symm)]

/-! ## Administration -/

/-- **C60 (roles, oracle, fee delegator, authority, clock).** The remaining calls, each with its whole effect. -/
theorem c60_admin {env : Env} {cl : Caller} {s s' : State} {o : Out} :
    (∀ x, step env cl s (.depositAuthority x) = Except.ok (s', o) →
      o = {} ∧ s' = { s with authority := s.authority + x }) ∧
    (step env cl s .withdrawAuthority = Except.ok (s', o) →
      o = { buckets := [⟨AUTHORITY, s.authority⟩] } ∧ s' = { s with authority := 0 }) ∧
    (∀ a, step env cl s (.signalUpgrade a) = Except.ok (s', o) → o = {} ∧ s' = s) ∧
    (∀ r rule, step env cl s (.setRole r rule) = Except.ok (s', o) →
      o = {} ∧ s' = { s with roles := s'.roles } ∧ s'.roles r = rule ∧ ∀ r', r' ≠ r → s'.roles r' = s.roles r') ∧
    (∀ id k, step env cl s (.oracleAddKey id k) = Except.ok (s', o) → o = {} ∧ s.oracle.keys.get id = none ∧
      s' = { s with oracle := { s.oracle with keys := s.oracle.keys.set id k } }) ∧
    (∀ id, step env cl s (.oracleRemoveKey id) = Except.ok (s', o) → o = {} ∧
      s' = { s with oracle := { s.oracle with keys := s'.oracle.keys } } ∧ s'.oracle.keys.get id = none ∧
      ∀ id', id' ≠ id → s'.oracle.keys.get id' = s.oracle.keys.get id') ∧
    (∀ p, step env cl s (.oracleRemovePrice p) = Except.ok (s', o) → o = {} ∧
      s' = { s with oracle := { s.oracle with prices := s'.oracle.prices } } ∧ s'.oracle.prices.get p = none ∧
      ∀ p', p' ≠ p → s'.oracle.prices.get p' = s.oracle.prices.get p') ∧
    (∀ u, step env cl s (.oraclePush u) = Except.ok (s', o) → o = {} ∧
      s' = { s with oracle := { s.oracle with prices := s'.oracle.prices } } ∧
      (∀ x ∈ u.prices, ∃ y, s'.oracle.prices.get x.pair = some y ∧ x.timestamp ≤ y.2) ∧
      ∀ p, s'.oracle.prices.get p = s.oracle.prices.get p ∨
        ∃ x ∈ u.prices, x.pair = p ∧ s'.oracle.prices.get p = some (x.quote, x.timestamp)) ∧
    (∀ x, step env cl s (.delegatorMaxLock x) = Except.ok (s', o) →
      o = {} ∧ s' = { s with delegator := { s.delegator with maxLock := x } }) ∧
    (∀ x, step env cl s (.delegatorMultiplier x) = Except.ok (s', o) →
      o = {} ∧ s' = { s with delegator := { s.delegator with priceMultiplier := x } }) ∧
    (∀ b, step env cl s (.delegatorContingent b) = Except.ok (s', o) →
      o = {} ∧ s' = { s with delegator := { s.delegator with isContingent := b } }) ∧
    (∀ x, step env cl s (.delegatorDeposit x) = Except.ok (s', o) →
      o = {} ∧ s' = { s with delegator := { s.delegator with vault := s.delegator.vault + x } }) ∧
    (∀ x, step env cl s (.delegatorWithdraw x) = Except.ok (s', o) →
      o = { buckets := [⟨XRD, x⟩] } ∧ 0 ≤ x ∧ x ≤ s.delegator.vault ∧ s' = { s with delegator := { s.delegator with vault := s.delegator.vault - x } }) ∧
    (∀ x, step env cl s (.lockFee x) = Except.ok (s', o) → ∃ v,
      v = mulT (mulT env.usdPrice s.delegator.priceMultiplier) x ∧ o = { buckets := [⟨FEE_OATH, v⟩] } ∧
      s' = { s with
        delegator := { s.delegator with vault := s.delegator.vault - x, vb := s.delegator.vb + v }
        oathSupply := s.oathSupply + v }) ∧
    (∀ t, step env cl s (.tick t) = Except.ok (s', o) → o = {} ∧ s.now ≤ t ∧ s' = { s with now := t }) := by
  refine ⟨?_, ?_, ?_, ?_, ?_, ?_, ?_, ?_, ?_, ?_, ?_, ?_, ?_, ?_, ?_⟩
  · intro x h
    have hb := step_body h
    simp only [body, bind_ok, pure_ok, require_ok, dadd_ok, Prod.mk.injEq] at hb
    obtain ⟨-, -, _, ⟨-, rfl⟩, rfl, rfl⟩ := hb
    exact ⟨rfl, rfl⟩
  · intro h
    have hb := step_body h
    simp only [body, pure_ok, Prod.mk.injEq] at hb
    obtain ⟨rfl, rfl⟩ := hb
    exact ⟨rfl, rfl⟩
  · intro a h
    have hb := step_body h
    simp only [body, pure_ok, Prod.mk.injEq] at hb
    obtain ⟨rfl, rfl⟩ := hb
    exact ⟨rfl, rfl⟩
  · intro r rule h
    have hb := step_body h
    simp only [body, bind_ok, pure_ok, Prod.mk.injEq] at hb
    obtain ⟨s1, h1, rfl, rfl⟩ := hb
    obtain ⟨-, -, rfl⟩ := setRole_ok h1
    exact ⟨rfl, rfl, by simp, fun r' hr => by simp [hr]⟩
  · intro id k h
    have hb := step_body h
    simp only [body, Oracle.addKey, bind_ok, pure_ok, require_ok, Prod.mk.injEq] at hb
    obtain ⟨_, ⟨⟨⟩, hn, rfl⟩, rfl, rfl⟩ := hb
    refine ⟨rfl, ?_, rfl⟩
    cases hg : s.oracle.keys.get id with
    | none => rfl
    | some x => simp [AMap.has, hg] at hn
  · intro id h
    have hb := step_body h
    simp only [body, pure_ok, Prod.mk.injEq] at hb
    obtain ⟨rfl, rfl⟩ := hb
    refine ⟨rfl, rfl, ?_, fun r' hr => ?_⟩
    · simp only [Oracle.removeKey, AMap.get_erase]; simp
    · simp only [Oracle.removeKey, AMap.get_erase]; rw [if_neg (fun e => hr e.symm)]
  · intro p h
    have hb := step_body h
    simp only [body, pure_ok, Prod.mk.injEq] at hb
    obtain ⟨rfl, rfl⟩ := hb
    refine ⟨rfl, rfl, ?_, fun r' hr => ?_⟩
    · simp only [Oracle.removePrice, AMap.get_erase]; simp
    · simp only [Oracle.removePrice, AMap.get_erase]; rw [if_neg (fun e => hr e.symm)]
  · intro u h
    have hb := step_body h
    simp only [body, bind_ok, pure_ok, Prod.mk.injEq] at hb
    obtain ⟨o', hp, rfl, rfl⟩ := hb
    obtain ⟨key, -, -, rfl⟩ := Oracle.push_ok hp
    refine ⟨rfl, rfl, fun x hx => pushes_cover u.prices s.oracle.prices x hx, fun p => ?_⟩
    rcases pushes_get u.prices s.oracle.prices p with h2 | ⟨x, hx, rfl, hg, -⟩
    · exact Or.inl h2
    · exact Or.inr ⟨x, hx, rfl, hg⟩
  · intro x h
    have hb := step_body h
    simp only [body, Delegator.updateMaxLock, bind_ok, pure_ok, require_ok, Prod.mk.injEq] at hb
    obtain ⟨_, ⟨-, -, rfl⟩, rfl, rfl⟩ := hb
    exact ⟨rfl, rfl⟩
  · intro x h
    have hb := step_body h
    simp only [body, Delegator.updateMultiplier, bind_ok, pure_ok, require_ok, Prod.mk.injEq] at hb
    obtain ⟨_, ⟨-, -, rfl⟩, rfl, rfl⟩ := hb
    exact ⟨rfl, rfl⟩
  · intro x h
    have hb := step_body h
    simp only [body, pure_ok, Prod.mk.injEq] at hb
    obtain ⟨rfl, rfl⟩ := hb
    exact ⟨rfl, rfl⟩
  · intro x h
    have hb := step_body h
    simp only [body, Delegator.deposit, bind_ok, pure_ok, require_ok, dadd_ok, Prod.mk.injEq] at hb
    obtain ⟨_, ⟨-, -, _, ⟨-, rfl⟩, rfl⟩, rfl, rfl⟩ := hb
    exact ⟨rfl, rfl⟩
  · intro x h
    have hb := step_body h
    simp only [body, Delegator.withdraw, bind_ok, pure_ok, takeAmount_ok, Prod.mk.injEq] at hb
    obtain ⟨⟨_, y⟩, ⟨_, ⟨hy, h0, -, hle⟩, rfl, rfl⟩, rfl, rfl⟩ := hb
    have : y = x := by rw [← hy]; simp [amountFor]
    subst this
    exact ⟨rfl, h0, hle, rfl⟩
  · intro x h
    obtain ⟨v, hv, -, -, -, -, hs, ho⟩ := lockFee_ok (step_body h)
    exact ⟨v, hv, ho, hs⟩
  · intro t h
    have hb := step_body h
    simp only [body, bind_ok, pure_ok, require_ok, decide_eq_true_eq, Prod.mk.injEq] at hb
    obtain ⟨-, ⟨ht, -⟩, rfl, rfl⟩ := hb
    exact ⟨rfl, ht, rfl⟩

/-! ## Liquidity -/

/-- **C60 (liquidity).** A successful `add_liquidity` puts the payment into the pool, mints the LP tokens it returns, and
moves the protocol's and the treasury's shares of the fee from the pool to them; positions, funding and snapshots of the
pool and everything outside it stay as they are. -/
theorem c60_add_liquidity {env : Env} {cl : Caller} {s s' : State} {b : Bucket} {o : Out} (hr : Reach env s)
    (h : step env cl s (.addLiquidity b) = Except.ok (s', o)) :
    ∃ minted fee toProtocol toTreasury, o.buckets = [⟨LP, minted⟩] ∧ o.burnt = [] ∧ o.paid = [] ∧
      Added env s s' b minted fee ∧
      toProtocol = mulT fee s.config.exchange.decompress.feeShareProtocol ∧
      toTreasury = mulT fee s.config.exchange.decompress.feeShareTreasury ∧
      s' = { s with
        pool := { s.pool with baseTokens := s.pool.baseTokens + b.amt, vb := s.pool.vb - toProtocol - toTreasury }
        dist := { protocol := s.dist.protocol + toProtocol, treasury := s.dist.treasury + toTreasury }
        lpSupply := s.lpSupply + minted } := by
  obtain ⟨m, f, h1, h2, ha⟩ := c31_add hr h
  obtain ⟨cfg, fee, lp, price, hc, -, -, hfee, -, -, hs, ho, -, -⟩ := opAddLiquidity_ok (step_body h)
  have hx : cfg.ex = s.config.exchange.decompress := VConfig.new_ex hc
  have hb : o.burnt = [] := by
    have := step_body h
    simp only [body, opAddLiquidity, bind_ok, pure_ok, Prod.mk.injEq] at this
    obtain ⟨-, -, -, -, ⟨_, _, _, _⟩, -, -, -, -, rfl⟩ := this
    rfl
  have e1 : lp = m := by
    rw [ho] at h1; simpa using h1
  have e2 : fee = f := by rw [hfee, hx, ha.feeIs]
  rw [hx, e1, e2] at hs
  exact ⟨m, f, _, _, h1, hb, h2, ha, rfl, rfl, hs⟩

/-- A successful `remove_liquidity` burns the LP tokens, pays out of the pool what it returns, and moves the protocol's
and the treasury's shares of the fee from the pool to them; everything else stays as it is. -/
theorem c60_remove_liquidity {env : Env} {cl : Caller} {s s' : State} {b : Bucket} {o : Out} (hr : Reach env s)
    (h : step env cl s (.removeLiquidity b) = Except.ok (s', o)) :
    ∃ paid price fee toProtocol toTreasury, o.buckets = [⟨BASE, paid⟩] ∧ o.burnt = [b] ∧ o.paid = [] ∧
      Removed env s s' b paid price fee ∧
      toProtocol = mulT fee s.config.exchange.decompress.feeShareProtocol ∧
      toTreasury = mulT fee s.config.exchange.decompress.feeShareTreasury ∧
      s' = { s with
        pool := { s.pool with baseTokens := s.pool.baseTokens - paid, vb := s.pool.vb - toProtocol - toTreasury }
        dist := { protocol := s.dist.protocol + toProtocol, treasury := s.dist.treasury + toTreasury }
        lpSupply := s.lpSupply - b.amt } := by
  obtain ⟨m, p, f, h1, h2, h3, ha⟩ := c31_remove hr h
  obtain ⟨cfg, price, value, fee, x, hc, -, -, -, hpr, hval, hfee, -, -, hs, -, ho, -⟩ :=
    opRemoveLiquidity_ok (step_body h)
  have hx : cfg.ex = s.config.exchange.decompress := VConfig.new_ex hc
  have e1 : x = m := by
    rw [ho] at h1; simpa using h1
  have e2 : fee = f := by rw [hfee, hx, ha.feeIs, hval, hpr, ha.priceIs]
  rw [hx, e1, e2] at hs
  exact ⟨m, p, f, _, _, h1, h2, h3, ha, rfl, rfl, hs⟩

/-! ## Sizes of requests -/

/-- **C26 (requests).** An order that was accepted is for a listed pair, is at least of the pair's minimum size and refers
to at most two requests on each side; a withdrawal request lists at most ten claims.  Also with a fee oath. -/
theorem c26_requests {env : Env} {cl : Caller} {s s' : State} {op : Op} {o : Out}
    (h : step env cl s op = Except.ok (s', o)) :
    (∀ oath a q act can st, op = .marginOrderRequest oath a q act can st →
      (∃ c, s.config.pairs.get q.pair = some c ∧ c.decompress.tradeSizeMin ≤ |q.amount|) ∧ act.length ≤ 2 ∧ can.length ≤ 2 ∧
        (st = STATUS_ACTIVE ∨ st = STATUS_DORMANT)) ∧
    (∀ oath a q tp sl, op = .marginOrderTpSlRequest oath a q tp sl →
      ∃ c, s.config.pairs.get q.pair = some c ∧ c.decompress.tradeSizeMin ≤ |q.amount|) ∧
    (∀ oath e a t claims, op = .removeCollateralRequest oath e a t claims → claims.length ≤ 10) := by
  refine ⟨?_, ?_, ?_⟩
  · rintro oath a q act can st rfl
    have hb := step_body h
    simp only [body, marginOrderRequest, bind_ok, require_ok, decide_eq_true_eq] at hb
    obtain ⟨v, hv, ⟨⟩, -, ⟨s1, v1, cfg⟩, h2, ⟨⟩, h3, ⟨⟩, g1, ⟨⟩, g2, l1, -, l2, -, v2, h4, -⟩ := hb
    exact ⟨(assertTradeSize_legal (payOath_frame h2).2.2.2.2 h3).2, g1, g2, (pushRequest_legal h4).1⟩
  · rintro oath a q tp sl rfl
    have hb := step_body h
    simp only [body, marginOrderTpSlRequest, bind_ok] at hb
    obtain ⟨v, hv, ⟨⟩, -, ⟨s1, v1, cfg⟩, h2, ⟨⟩, h3, -⟩ := hb
    exact (assertTradeSize_legal (payOath_frame h2).2.2.2.2 h3).2
  · rintro oath e a t claims rfl
    have hb := step_body h
    simp only [body, removeCollateralRequest, bind_ok, require_ok, decide_eq_true_eq] at hb
    obtain ⟨v, hv, ⟨⟩, -, ⟨s1, v1, cfg⟩, h2, ⟨⟩, h3, -⟩ := hb
    exact h3

end Perp
