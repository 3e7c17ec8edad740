import Verif.AccFrame

/-!
# C06, C07, C08, C09, C10, C13: what can happen to a request
-/

namespace Perp

/-! ## C13: the active set -/

/-- The active set of an account is exactly the set of indexes at or above the valid start whose request
is Active or Dormant. -/
def Account.ActiveExact (acc : Account) : Prop :=
  ∀ i, i ∈ acc.active ↔ acc.validStart ≤ i ∧
    ∃ r : KeeperRequest, acc.requests[i]? = some r ∧ (r.status = STATUS_ACTIVE ∨ r.status = STATUS_DORMANT)

def Account.RequestsOk (acc : Account) : Prop := acc.validStart ≤ acc.requests.length ∧ acc.ActiveExact

def State.RequestsOk (s : State) : Prop := ∀ a acc, s.accounts.get a = some acc → acc.RequestsOk

theorem pending_iff {s : Status} : pending s = true ↔ s = STATUS_ACTIVE ∨ s = STATUS_DORMANT := by
  unfold pending; simp only [decide_eq_true_eq]

theorem load_rinv {s : State} {a : Addr} {v : VAccount} (h : s.load a = Except.ok v) (h0 : s.RequestsOk) :
    RInv v ∧ ∃ acc, s.accounts.get a = some acc ∧ v.comp = acc ∧ v.reqs = acc.requests ∧
      v.validStart = acc.validStart ∧ v.requestsLen = acc.requests.length ∧ v.addr = a ∧
      v.activeLen = acc.active.card ∧ v.requestAdditions = [] ∧ v.activeAdditions = [] ∧ v.activeRemovals = [] := by
  obtain ⟨acc, rd, hg, -, rfl⟩ := load_ok h
  obtain ⟨h1, h2⟩ := h0 a acc hg
  have hreqs : ∀ v : VAccount, v.comp = acc → v.requestAdditions = [] → v.requestUpdates = AMap.empty →
      v.reqs = acc.requests := by
    intro v e1 e2 e3
    simp [VAccount.reqs, e1, e2, e3, AMap.empty]
  refine ⟨⟨rfl, ?_, ⟨le_refl _, h1⟩, ?_, ?_, ?_, ?_⟩, acc, hg, rfl, hreqs _ rfl rfl rfl, rfl, rfl, rfl, rfl, rfl, rfl, rfl⟩
  · intro i r hr; simp at hr
  · intro i hi; cases hi
  · intro i hi; cases hi
  · intro i hi; exact ((h2 i).mp hi).1
  · intro i
    rw [mem_realActive, hreqs _ rfl rfl rfl]
    simp only [gt_iff_lt, lt_self_iff_false, false_imp_iff, and_true, List.not_mem_nil, or_false,
      not_false_eq_true, pending_iff]
    exact h2 i

theorem rinv_withRule {v : VAccount} {lr : Option (Level × Rule)} (h : RInv v) : RInv (v.withRule lr) := by
  refine rinv_congr ?_ h
  unfold VAccount.withRule
  cases lr with
  | none => rfl
  | some x => obtain ⟨l, r⟩ := x; cases l <;> rfl

theorem rinv_step {ex : ExchangeConfig} {w w' : W} {x : Dec} (h : WStep ex w w' x) (hi : RInv w.acc) :
    RInv w'.acc := by
  cases h with
  | settle x => exact rinv_congr (a := w.acc) rfl hi
  | base x => exact hi
  | fees h0 h => exact rinv_congr (settleFees_touches 0 h).reqPart hi
  | unreal x => exact hi
  | mark p price d hpp h1 h2 h3 h4 h5 => exact hi
  | touch => exact rinv_congr (a := w.acc) rfl hi
  | fund p h1 h2 h3 => exact rinv_congr (a := w.acc) rfl hi
  | trade p new price h1 h2 h3 h4 h5 => exact rinv_congr (a := w.acc) rfl hi
  | liq p h1 h2 h3 => exact rinv_congr (a := w.acc) rfl hi
  | deposit h => exact rinv_congr (depositCollateral_collOnly h).reqPart hi
  | withdraw h => exact rinv_congr (withdrawCollateral_collOnly h).reqPart hi
  | push h => exact (pushRequest_inv hi h).1
  | setStatus h0 h => exact (trySetStatus_inv hi h0 h).1
  | cancel h => exact (cancelRequests_inv hi h).1
  | process h => exact (processRequest_inv hi h).1
  | invalidate => exact updateValidStart_inv hi
  | oath x h => exact rinv_congr (a := w.acc) rfl hi

/-- Writing back a coherent account. -/
theorem realize_rinv {v : VAccount} {acc : Account} (hi : RInv v) (h : v.realize = Except.ok acc) :
    acc.RequestsOk ∧ acc.requests = v.reqs ∧ acc.validStart = v.validStart ∧ acc.active = v.realActive := by
  have hreq := realize_requests h
  obtain ⟨l, hl, rfl⟩ := realize_ok h
  have hs := hi.start
  have e : (if v.validStart > v.comp.validStart then v.validStart else v.comp.validStart) = v.validStart := by
    split <;> omega
  refine ⟨⟨?_, ?_⟩, hreq, e, rfl⟩
  · rw [hreq, v.reqs_length]
    have := hi.len
    simp only [e]; omega
  · intro i
    rw [hreq]
    simp only [e]
    rw [hi.act i]
    simp only [pending_iff]

theorem accOp_requestsOk {s s' : State} {a : Addr} {lr : Option (Level × Rule)} (h : AccOp s a lr s')
    (h0 : s.RequestsOk) : s'.RequestsOk := by
  cases h with
  | mk o rw k hl hp hr =>
    rename_i v ids w x acc refs
    intro b acc' hg
    simp only [State.realized, AMap.get_set] at hg
    split at hg
    · cases hg
      have hi : RInv w.acc := hp.keep (P := fun w => RInv w.acc) (fun _ _ _ hs hi => rinv_step hs hi)
        (rinv_withRule (load_rinv hl h0).1)
      exact (realize_rinv hi hr.1).1
    · exact h0 b acc' hg

theorem requestsOk_withNew {s : State} {g : RefGen} {a : Addr} {rule : Rule} {rid : Option RefId}
    (h0 : s.RequestsOk) : (s.withNew g a rule rid).RequestsOk := by
  intro b acc hg
  simp only [State.withNew, AMap.get_set] at hg
  split at hg
  · cases hg
    refine ⟨by simp [Account.fresh], ?_⟩
    intro i
    simp [Account.fresh]
  · exact h0 b acc hg

theorem body_requestsOk {env : Env} {cl : Caller} {s s' : State} {op : Op} {o : Out}
    (h : body env cl s op = Except.ok (s', o)) (h0 : s.RequestsOk) : s'.RequestsOk := by
  cases ho : op.account with
  | none =>
    intro b acc hg
    rw [(body_no_account h ho).1] at hg
    exact h0 b acc hg
  | some a =>
    rcases body_account h ho with ⟨lr, hx, -⟩ | ⟨g, rule, rid, -, -, hx⟩
    · exact accOp_requestsOk hx h0
    · exact accOp_requestsOk hx (requestsOk_withNew h0)

theorem reach_requestsOk {env : Env} {s : State} (h : Reach env s) : s.RequestsOk := by
  refine Reach.induct (P := State.RequestsOk) (env := env) ?_ ?_ h
  · intro s hs b acc hg
    rw [hs.accounts] at hg
    simp at hg
  · intro s s' cl op o hp hb
    exact body_requestsOk hb hp

/-- **C13.** In every reachable state the active set of every account is exactly the set of indexes at or
above the valid start whose request is Active or Dormant. -/
theorem c13_active_exact {env : Env} {s : State} (h : Reach env s) {a : Addr} {acc : Account}
    (ha : s.accounts.get a = some acc) (i : Nat) :
    i ∈ acc.active ↔ acc.validStart ≤ i ∧ ∃ r : KeeperRequest, acc.requests[i]? = some r ∧
      (r.status = STATUS_ACTIVE ∨ r.status = STATUS_DORMANT) :=
  (reach_requestsOk h a acc ha).2 i

/-! ## What one call does to the requests of an account -/

/-- The requests an executed request activates and cancels. -/
def Request.activates : Request → List Nat
  | .marginOrder q => q.activate
  | .removeCollateral _ => []

def Request.cancels : Request → List Nat
  | .marginOrder q => q.cancel
  | .removeCollateral _ => []

/-- A freshly recorded request: pending, with its window computed from the clock. -/
def FreshAt (now : Int) (r : KeeperRequest) : Prop :=
  (r.status = STATUS_ACTIVE ∨ r.status = STATUS_DORMANT) ∧
  ∃ delay expiry : Nat, r.submission = now + u64AsI64 delay ∧
    r.expiry = now + u64AsI64 delay + u64AsI64 expiry

/-- Calls that place new requests. -/
def Op.places : Op → Bool
  | .removeCollateralRequest .. | .marginOrderRequest .. | .marginOrderTpSlRequest .. => true
  | _ => false

/-- The effect of a successful call on the requests of account `a`. -/
inductive ReqEffect (s : State) (op : Op) (a : Addr) (acc acc' : Account) (o : Out) : Prop where
  /-- nothing happens to the requests -/
  | same : acc'.requests = acc.requests → acc'.validStart = acc.validStart →
      (∀ p u, op ≠ .liquidate a p u) → (∀ i u, op ≠ .processRequest a i u) →
      (∀ f is, op ≠ .cancelRequests f a is) → ReqEffect s op a acc acc' o
  /-- requests are appended -/
  | pushed (news : List KeeperRequest) : acc'.requests = acc.requests ++ news →
      acc'.validStart = acc.validStart → (∀ r ∈ news, FreshAt s.now r) →
      (∀ p u, op ≠ .liquidate a p u) → (∀ i u, op ≠ .processRequest a i u) →
      (∀ f is, op ≠ .cancelRequests f a is) → op.places = true → ReqEffect s op a acc acc' o
  /-- pending requests are cancelled -/
  | cancelled (f : Option Bucket) (is : List Nat) : op = .cancelRequests f a is →
      acc'.validStart = acc.validStart →
      (∀ j, acc'.requests[j]? =
        (acc.requests[j]?).map (restatus is [STATUS_ACTIVE, STATUS_DORMANT] STATUS_CANCELLED j)) →
      (∀ j ∈ is, ∃ r : KeeperRequest, acc.requests[j]? = some r ∧
        (r.status = STATUS_ACTIVE ∨ r.status = STATUS_DORMANT)) → ReqEffect s op a acc acc' o
  /-- the account is liquidated: all requests recorded so far become invalid -/
  | liquidated (p : Bucket) (u : Option PriceUpdate) : op = .liquidate a p u →
      acc'.requests = acc.requests → acc'.validStart = acc.requests.length → ReqEffect s op a acc acc' o
  /-- a request has expired -/
  | expired (i : Nat) (u : Option PriceUpdate) (r : KeeperRequest) : op = .processRequest a i u →
      acc.requests[i]? = some r → acc.validStart ≤ i →
      (r.status = STATUS_ACTIVE ∨ r.status = STATUS_DORMANT) → r.submission < s.now → r.expiry ≤ s.now →
      acc'.requests = acc.requests.set i { r with status := STATUS_EXPIRED } →
      acc'.validStart = acc.validStart → o.ev = .expired → ReqEffect s op a acc acc' o
  /-- a request is executed; it may activate and cancel others -/
  | executed (i : Nat) (u : Option PriceUpdate) (r : KeeperRequest) : op = .processRequest a i u →
      acc.requests[i]? = some r → acc.validStart ≤ i → r.status = STATUS_ACTIVE →
      r.submission < s.now → s.now < r.expiry →
      (∀ j, acc'.requests[j]? = ((acc.requests.set i { r with status := STATUS_EXECUTED })[j]?).map
        (fun x => restatus r.request.cancels [STATUS_ACTIVE, STATUS_DORMANT] STATUS_CANCELLED j
          (restatus r.request.activates [STATUS_DORMANT] STATUS_ACTIVE j x))) →
      acc'.validStart = acc.validStart → o.ev ≠ .expired → ReqEffect s op a acc acc' o

theorem oath_reqPart (v : VAccount) (x : Dec) : ({ v with vb := v.vb - x } : VAccount).reqPart = v.reqPart := rfl

theorem pushRequest_fresh {v v' : VAccount} {now : Int} {r : Request} {delay expiry : Nat} {st : Status}
    {eff : List Addr} (hi : RInv v) (h : v.pushRequest now r delay expiry st eff = Except.ok v') :
    RInv v' ∧ (∃ kr : KeeperRequest, v'.reqs = v.reqs ++ [kr] ∧ FreshAt now kr) ∧ v'.validStart = v.validStart := by
  obtain ⟨a, kr, b, -, c, d, -, e, f, -, -, -, -, -, -, -, g⟩ := pushRequest_inv hi h
  refine ⟨a, ⟨kr, b, ?_, delay, expiry, e, f⟩, ?_⟩
  · rw [d]; exact pending_iff.mp c
  · unfold ReqOnly at g; rw [g]

theorem pushExit_fresh {v v' : VAccount} {now : Int} {q : OrderArgs} {l : Option PriceLimit} {cancel : List Nat}
    (hi : RInv v) (h : pushExit v now q l cancel = Except.ok v') :
    RInv v' ∧ (∃ news : List KeeperRequest, v'.reqs = v.reqs ++ news ∧ ∀ r ∈ news, FreshAt now r) ∧
      v'.validStart = v.validStart := by
  unfold pushExit at h
  cases l with
  | none =>
    simp only [pure_ok] at h; subst h
    exact ⟨hi, ⟨[], by simp, fun r hr => by cases hr⟩, rfl⟩
  | some l =>
    simp only [bind_ok, dneg_ok] at h
    obtain ⟨_, ⟨-, rfl⟩, h⟩ := h
    obtain ⟨a, ⟨kr, b, c⟩, d⟩ := pushRequest_fresh hi h
    exact ⟨a, ⟨[kr], b, fun r hr => by simp only [List.mem_singleton] at hr; rw [hr]; exact c⟩, d⟩

theorem body_requests {env : Env} {cl : Caller} {s s' : State} {op : Op} {o : Out}
    (h : body env cl s op = Except.ok (s', o)) (h0 : s.RequestsOk) {a : Addr} {acc : Account}
    (ha : s.accounts.get a = some acc) :
    ∃ acc', s'.accounts.get a = some acc' ∧ ReqEffect s op a acc acc' o := by
  by_cases hop : op.account = some a
  swap
  · refine ⟨acc, by rw [body_accounts h a hop, ha], .same rfl rfl ?_ ?_ ?_⟩ <;>
      (intros; rintro rfl; exact hop rfl)
  cases op with
  | createAccount a' oath r t c =>
    cases hop
    obtain ⟨s0, rid, extra, s1, v, s2, w, acc, refs, -, hn, -⟩ := createAccount_ok h
    rw [ha] at hn; cases hn
  | createRecoveryKey oath a' =>
    cases hop
    obtain ⟨v, s1, v1, cfg, hv, -, hp, r, x, rfl, rfl, acc', refs, hr, he, -⟩ := createRecoveryKey_ok h
    obtain ⟨hi, acc0, hg, -, hq, hs, -, had, -⟩ := load_rinv hv h0
    rw [ha] at hg; cases hg
    obtain ⟨-, rfl, -, -, -⟩ := payOath_frame hp
    obtain ⟨-, b, c, -⟩ := realize_rinv (rinv_congr (a := v) (by rfl) hi) hr.1
    refine ⟨acc', ?_, .same (b.trans (Eq.trans (reqPart_reqs (a := v) rfl) hq)) (c.trans hs)
      (by intros; simp) (by intros; simp) (by intros; simp)⟩
    rw [he]; simp [State.realizedAcc, setAuth, had]
  | addAuthRule oath a' l n =>
    cases hop
    obtain ⟨v, s1, v1, cfg, l', hv, -, hp, -, r, x, rfl, rfl, acc', refs, hr, he, -⟩ := addAuthRule_ok h
    obtain ⟨hi, acc0, hg, -, hq, hs, -, had, -⟩ := load_rinv hv h0
    rw [ha] at hg; cases hg
    obtain ⟨-, rfl, -, -, -⟩ := payOath_frame hp
    have e : (setAuth s1.perms { v with vb := v.vb - oathAmt oath } l'
      (extendRule (({ v with vb := v.vb - oathAmt oath } : VAccount).comp.rule l') n)).2.reqPart = v.reqPart := by
      cases l' <;> rfl
    obtain ⟨-, b, c, -⟩ := realize_rinv (rinv_congr e hi) hr.1
    refine ⟨acc', ?_, .same (b.trans (Eq.trans (reqPart_reqs e) hq)) (c.trans hs)
      (by intros; simp) (by intros; simp) (by intros; simp)⟩
    rw [he]; simp [State.realizedAcc, setAuth, had]
  | setLevelAuth oath a' l r =>
    cases hop
    obtain ⟨v, s1, v1, cfg, hv, -, hp, x, rfl, acc', refs, hr, he, -⟩ := setLevelAuth_ok h
    obtain ⟨hi, acc0, hg, -, hq, hs, -, had, -⟩ := load_rinv hv h0
    rw [ha] at hg; cases hg
    obtain ⟨-, rfl, -, -, -⟩ := payOath_frame hp
    have e : (setAuth s1.perms { v with vb := v.vb - oathAmt oath } l r).2.reqPart = v.reqPart := by
      cases l <;> rfl
    obtain ⟨-, b, c, -⟩ := realize_rinv (rinv_congr e hi) hr.1
    refine ⟨acc', ?_, .same (b.trans (Eq.trans (reqPart_reqs e) hq)) (c.trans hs)
      (by intros; simp) (by intros; simp) (by intros; simp)⟩
    rw [he]; simp [State.realizedAcc, setAuth, had]
  | addCollateral oath a' t =>
    cases hop
    obtain ⟨v, s1, w, acc', refs, -, hv, -, hd, hr, he, -⟩ := opAddCollateral_ok h
    obtain ⟨hi, acc0, hg, -, hq, hs, -, had, -⟩ := load_rinv hv h0
    rw [ha] at hg; cases hg
    obtain ⟨cfg, ids, w0, -, hw0, -, -, -, rfl, -⟩ := depositTokens_ok hd
    have e : w0.acc.reqPart = v.reqPart := addCollateral_reqPart hw0
    have e' : ({ w0.acc with vb := w0.acc.vb - oathAmt oath } : VAccount).reqPart = v.reqPart := e
    have haddr := (addCollateral_path (ex := ExchangeConfig.dflt) hw0).frame.1
    obtain ⟨-, b, c, -⟩ := realize_rinv (rinv_congr e' hi) hr.1
    refine ⟨acc', ?_, .same (b.trans ((reqPart_reqs e').trans hq)) (c.trans ((reqPart_eq e').1.trans hs))
      (by intros; simp) (by intros; simp) (by intros; simp)⟩
    rw [he]; simp [State.realized, haddr, had]
  | removeCollateralRequest oath e a' t c =>
    cases hop
    obtain ⟨v, s1, v1, cfg, v2, acc', refs, hv, -, hp, hpush, -, hr, he, -⟩ := removeCollateralRequest_ok h
    obtain ⟨hi, acc0, hg, -, hq, hs, -, had, -⟩ := load_rinv hv h0
    rw [ha] at hg; cases hg
    obtain ⟨rfl, rfl, -, -, -⟩ := payOath_frame hp
    have hi' : RInv ({ v with vb := v.vb - oathAmt oath } : VAccount) := rinv_congr (a := v) rfl hi
    obtain ⟨h1, ⟨kr, h2, h3⟩, h4⟩ := pushRequest_fresh hi' hpush
    have honly := pushRequest_reqOnly hpush
    obtain ⟨-, b, c, -⟩ := realize_rinv h1 hr.1
    refine ⟨acc', ?_, .pushed [kr] (by rw [b, h2]; exact congrArg (· ++ [kr]) hq) (by rw [c, h4]; exact hs)
      (by intro r hr; simp only [List.mem_singleton] at hr; rw [hr]; exact h3)
      (by intros; simp) (by intros; simp) (by intros; simp) rfl⟩
    have : v2.addr = a := by unfold ReqOnly at honly; rw [honly]; exact had
    rw [he]; simp [State.realizedAcc, this]
  | marginOrderRequest oath a' args act can st =>
    cases hop
    obtain ⟨v, s1, v1, cfg, _, _, v2, acc', refs, hv, -, hp, -, -, hpush, -, hr, he, -⟩ :=
      marginOrderRequest_ok h
    obtain ⟨hi, acc0, hg, -, hq, hs, -, had, -⟩ := load_rinv hv h0
    rw [ha] at hg; cases hg
    obtain ⟨rfl, rfl, -, -, -⟩ := payOath_frame hp
    have hi' : RInv ({ v with vb := v.vb - oathAmt oath } : VAccount) := rinv_congr (a := v) rfl hi
    obtain ⟨h1, ⟨kr, h2, h3⟩, h4⟩ := pushRequest_fresh hi' hpush
    have honly := pushRequest_reqOnly hpush
    obtain ⟨-, b, c, -⟩ := realize_rinv h1 hr.1
    refine ⟨acc', ?_, .pushed [kr] (by rw [b, h2]; exact congrArg (· ++ [kr]) hq) (by rw [c, h4]; exact hs)
      (by intro r hr; simp only [List.mem_singleton] at hr; rw [hr]; exact h3)
      (by intros; simp) (by intros; simp) (by intros; simp) rfl⟩
    have : v2.addr = a := by unfold ReqOnly at honly; rw [honly]; exact had
    rw [he]; simp [State.realizedAcc, this]
  | marginOrderTpSlRequest oath a' args tp sl =>
    cases hop
    obtain ⟨v, s1, v1, cfg, v2, v3, v4, acc', refs, iTp, iSl, hv, -, hp, -, -, h2, h3, h4, -, hr, he, -⟩ :=
      marginOrderTpSlRequest_ok h
    obtain ⟨hi, acc0, hg, -, hq, hs, -, had, -⟩ := load_rinv hv h0
    rw [ha] at hg; cases hg
    obtain ⟨rfl, rfl, -, -, -⟩ := payOath_frame hp
    have hi' : RInv ({ v with vb := v.vb - oathAmt oath } : VAccount) := rinv_congr (a := v) rfl hi
    have honly := pushRequest_reqOnly h2
    have f3 := fun d => (pushExit_path (ex := ExchangeConfig.dflt) h3 (VPool.new s.pool s.now []) d).frame.1
    have f4 := fun d => (pushExit_path (ex := ExchangeConfig.dflt) h4 (VPool.new s.pool s.now []) d).frame.1
    obtain ⟨a1, ⟨kr, b1, c1⟩, d1⟩ := pushRequest_fresh hi' h2
    obtain ⟨a2, ⟨n2, b2, c2⟩, d2⟩ := pushExit_fresh a1 h3
    obtain ⟨a3, ⟨n3, b3, c3⟩, d3⟩ := pushExit_fresh a2 h4
    obtain ⟨-, b, c, -⟩ := realize_rinv a3 hr.1
    refine ⟨acc', ?_, .pushed ([kr] ++ n2 ++ n3) ?_ (by rw [c, d3, d2, d1]; exact hs) ?_
      (by intros; simp) (by intros; simp) (by intros; simp) rfl⟩
    · have hx : v2.addr = a := by unfold ReqOnly at honly; rw [honly]; exact had
      have : v4.addr = a := by
        have e3 := f3 s.dist
        have e4 := f4 s.dist
        simp only at e3 e4
        rw [e4, e3, hx]
      rw [he]; simp [State.realizedAcc, this]
    · have hq' : VAccount.reqs { v with vb := v.vb - oathAmt oath } = acc.requests := hq
      rw [b, b3, b2, b1, hq']; simp
    · intro r hr
      simp only [List.mem_append, List.mem_singleton] at hr
      rcases hr with (rfl | hr) | hr
      · exact c1
      · exact c2 r hr
      · exact c3 r hr
  | cancelRequests oath a' is =>
    cases hop
    obtain ⟨v, s1, v1, cfg, v2, acc', refs, hv, -, hp, h2, hr, he, -⟩ := opCancelRequests_ok h
    obtain ⟨hi, acc0, hg, -, hq, hs, -, had, -⟩ := load_rinv hv h0
    rw [ha] at hg; cases hg
    obtain ⟨rfl, rfl, -, -, -⟩ := payOath_frame hp
    have hi' : RInv ({ v with vb := v.vb - oathAmt oath } : VAccount) := rinv_congr (a := v) rfl hi
    have honly := cancelRequests_reqOnly h2
    obtain ⟨h3, -, h4, h5⟩ := cancelRequests_inv hi' h2
    have hq' : VAccount.reqs { v with vb := v.vb - oathAmt oath } = acc.requests := hq
    rw [hq'] at h4 h5
    obtain ⟨-, b, c, -⟩ := realize_rinv h3 hr.1
    refine ⟨acc', ?_, .cancelled oath is rfl ?_ (by rw [b]; exact h4) ?_⟩
    · have : v2.addr = a := by unfold ReqOnly at honly; rw [honly]; exact had
      rw [he]; simp [State.realizedAcc, this]
    · unfold ReqOnly at honly; rw [c, honly]; exact hs
    · intro j hj
      obtain ⟨r, hr, hp⟩ := h5 j hj
      exact ⟨r, hr, pending_iff.mp hp⟩
  | processRequest a' i u =>
    cases hop
    obtain ⟨v, v1, r, expired, cfg, hv, hpr, -, -, -, h⟩ := processRequest_ok h
    obtain ⟨hi, acc0, hg, -, hq, hs, -, had, -⟩ := load_rinv hv h0
    rw [ha] at hg; cases hg
    obtain ⟨h1, honly, hadd, hge, kr, hkr, hreq, hsub, hcase, hoth⟩ := processRequest_inv hi hpr
    rw [hq] at hkr hoth
    have hvs : v1.validStart = acc.validStart := by unfold ReqOnly at honly; rw [honly]; exact hs
    have hset : ∀ st, v1.reqs[i]? = some { kr with status := st } →
        v1.reqs = acc.requests.set i { kr with status := st } := by
      intro st hst
      apply List.ext_getElem?
      intro j
      by_cases hj : j = i
      · subst hj
        have : j < acc.requests.length := (List.getElem?_eq_some_iff.mp hkr).1
        rw [hst]; simp [this]
      · rw [hoth j hj, List.getElem?_set_ne (Ne.symm hj)]
    rw [hs] at hge
    rcases h with ⟨hex, acc', refs, hr, rfl, ho⟩ | ⟨hex, s1, c, w, out, acc', refs, hk, hx, hr, he, ho⟩
    · rcases hcase with ⟨e, -⟩ | ⟨-, hexp, hpend, hst⟩
      · rw [hex] at e; cases e
      · obtain ⟨-, b, c, -⟩ := realize_rinv h1 hr.1
        refine ⟨acc', ?_, .expired i u kr rfl hkr hge (pending_iff.mp hpend) hsub hexp
          (by rw [b]; exact hset _ hst) (by rw [c, hvs]) (by rw [ho])⟩
        have : v1.addr = a := by unfold ReqOnly at honly; rw [honly]; exact had
        simp [State.realizedAcc, this]
    · rcases hcase with ⟨-, hexp, hact, hst⟩ | ⟨e, -⟩
      swap
      · rw [hex] at e; cases e
      have haddr := (executeRequest_path hx).frame.1
      have hadr : w.acc.addr = a := by
        rw [haddr]; unfold ReqOnly at honly; simp only; rw [honly]; exact had
      have hacc' : s'.accounts.get a = some acc' := by
        rw [he]; simp [State.realized, hadr]
      refine ⟨acc', hacc', ?_⟩
      rcases executeRequest_ok hx with ⟨q, tokens, rfl, hrm, rfl⟩ | ⟨q, e, rfl, hmo, rfl⟩
      · have e := removeCollateral_reqPart hrm
        obtain ⟨-, b, c, -⟩ := realize_rinv (rinv_congr e h1) hr.1
        refine .executed i u kr rfl hkr hge hact hsub hexp ?_ ?_ (by rw [ho]; simp)
        · intro j
          rw [b, reqPart_reqs e]
          simp only
          rw [hset _ hst, hreq]
          have : (fun x => restatus (Request.removeCollateral q).cancels [STATUS_ACTIVE, STATUS_DORMANT] STATUS_CANCELLED j
            (restatus (Request.removeCollateral q).activates [STATUS_DORMANT] STATUS_ACTIVE j x)) = id := by
            funext x; simp [restatus, Request.cancels, Request.activates]
          rw [this, Option.map_id_apply]
        · rw [c, (reqPart_eq e).1]; exact hvs
      · obtain ⟨w3, a1, a2, ht, h2, h3, rfl⟩ := marginOrder_touches hmo
        have e := ht.reqPart
        have i3 : RInv w3.acc := rinv_congr e h1
        obtain ⟨i4, -, ph1, hp1, r4⟩ := trySetStatus_inv i3 (Or.inl rfl) h2
        obtain ⟨i5, -, ph2, hp2, r5⟩ := trySetStatus_inv i4 (Or.inr rfl) h3
        simp [statusPhases, STATUS_ACTIVE] at hp1
        simp [statusPhases, STATUS_ACTIVE, STATUS_CANCELLED, STATUS_EXECUTED] at hp2
        obtain ⟨-, b, c, -⟩ := realize_rinv i5 hr.1
        refine .executed i u kr rfl hkr hge hact hsub hexp ?_ ?_ (by rw [ho]; simp)
        · intro j
          rw [b]
          rw [r5, r4, reqPart_reqs e, Option.map_map]
          simp only
          rw [hset _ hst, hreq, ← hp1, ← hp2]
          rfl
        · rw [c]
          have o1 := trySetStatus_reqOnly h2
          have o2 := trySetStatus_reqOnly h3
          unfold ReqOnly at o1 o2
          rw [o2, o1]
          exact (reqPart_eq e).1.trans hvs
  | swapDebt a' r p u =>
    cases hop
    obtain ⟨v, s1, c, w, token, rest, e, acc', refs, -, hv, hk, hx, hr, he, -⟩ := opSwapDebt_ok h
    obtain ⟨hi, acc0, hg, -, hq, hs, -, had, -⟩ := load_rinv hv h0
    rw [ha] at hg; cases hg
    have e := swapDebt_reqPart hx
    have haddr := (swapDebt_path (ex := ExchangeConfig.dflt) hx).frame.1
    obtain ⟨-, b, c, -⟩ := realize_rinv (rinv_congr e hi) hr.1
    refine ⟨acc', ?_, .same (b.trans ((reqPart_reqs e).trans hq)) (c.trans ((reqPart_eq e).1.trans hs))
      (by intros; simp) (by intros; simp) (by intros; simp)⟩
    rw [he]; simp [State.realized, haddr, had]
  | liquidate a' p u =>
    cases hop
    obtain ⟨v, s1, c, w, tokens, e, acc', refs, -, hv, hk, hx, hr, -, he, -⟩ := opLiquidate_ok h
    obtain ⟨hi, acc0, hg, hcomp, hq, hs, hl, had, -⟩ := load_rinv hv h0
    rw [ha] at hg; cases hg
    obtain ⟨va, e, hw⟩ := liquidate_reqPart hx
    have haddr := (liquidate_path hx).frame.1
    have iv := updateValidStart_inv (rinv_congr e hi)
    rw [← hw] at iv
    obtain ⟨-, b, c, -⟩ := realize_rinv iv hr.1
    refine ⟨acc', ?_, .liquidated p u rfl ?_ ?_⟩
    · rw [he]; simp [State.realized, haddr, had]
    · rw [b, hw]
      exact (reqPart_reqs e).trans hq
    · rw [c, hw]
      exact (reqPart_eq e).2.1.trans hl
  | autoDeleverage a' p u =>
    cases hop
    obtain ⟨v, s1, c, w, e, acc', refs, hv, hk, hx, hr, -, he, -⟩ := opAutoDeleverage_ok h
    obtain ⟨hi, acc0, hg, -, hq, hs, -, had, -⟩ := load_rinv hv h0
    rw [ha] at hg; cases hg
    have e := (autoDeleverage_touches hx).reqPart
    have haddr := (autoDeleverage_path hx).frame.1
    obtain ⟨-, b, c, -⟩ := realize_rinv (rinv_congr e hi) hr.1
    refine ⟨acc', ?_, .same (b.trans ((reqPart_reqs e).trans hq)) (c.trans ((reqPart_eq e).1.trans hs))
      (by intros; simp) (by intros; simp) (by intros; simp)⟩
    rw [he]; simp [State.realized, haddr, had]
  | _ => cases hop

end Perp
