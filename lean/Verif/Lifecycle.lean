import Verif.ReqProps

/-!
# C06, C07, C08, C09, C10: the life of a keeper request
-/

namespace Perp

/-- The only status changes a request may go through. -/
inductive Moves : Status → Status → Prop where
  | activate : Moves STATUS_DORMANT STATUS_ACTIVE
  | execute : Moves STATUS_ACTIVE STATUS_EXECUTED
  | cancelActive : Moves STATUS_ACTIVE STATUS_CANCELLED
  | cancelDormant : Moves STATUS_DORMANT STATUS_CANCELLED
  | expireActive : Moves STATUS_ACTIVE STATUS_EXPIRED
  | expireDormant : Moves STATUS_DORMANT STATUS_EXPIRED

def Terminal (st : Status) : Prop := st = STATUS_EXECUTED ∨ st = STATUS_CANCELLED ∨ st = STATUS_EXPIRED

theorem Terminal.not_moves {a b : Status} (h : Terminal a) : ¬ Moves a b := by
  intro hm
  cases hm <;> (rcases h with h | h | h <;> cases h)

theorem moves_restatus_cancel {is : List Nat} {j : Nat} (r : KeeperRequest) :
    r.SameContent (restatus is [STATUS_ACTIVE, STATUS_DORMANT] STATUS_CANCELLED j r) ∧
    ((restatus is [STATUS_ACTIVE, STATUS_DORMANT] STATUS_CANCELLED j r).status = r.status ∨
      ((r.status = STATUS_ACTIVE ∨ r.status = STATUS_DORMANT) ∧
        (restatus is [STATUS_ACTIVE, STATUS_DORMANT] STATUS_CANCELLED j r).status = STATUS_CANCELLED)) := by
  unfold restatus
  split
  · rename_i h
    refine ⟨⟨rfl, rfl, rfl, rfl⟩, Or.inr ⟨?_, rfl⟩⟩
    have := h.2
    simpa only [List.mem_cons, List.not_mem_nil, or_false] using this
  · exact ⟨.refl _, Or.inl rfl⟩

theorem moves_restatus_activate {is : List Nat} {j : Nat} (r : KeeperRequest) :
    r.SameContent (restatus is [STATUS_DORMANT] STATUS_ACTIVE j r) ∧
    ((restatus is [STATUS_DORMANT] STATUS_ACTIVE j r).status = r.status ∨
      (r.status = STATUS_DORMANT ∧ (restatus is [STATUS_DORMANT] STATUS_ACTIVE j r).status = STATUS_ACTIVE)) := by
  unfold restatus
  split
  · rename_i h
    refine ⟨⟨rfl, rfl, rfl, rfl⟩, Or.inr ⟨?_, rfl⟩⟩
    have := h.2
    simpa only [List.mem_cons, List.not_mem_nil, or_false] using this
  · exact ⟨.refl _, Or.inl rfl⟩

theorem moves_cancel {st : Status} (h : st = STATUS_ACTIVE ∨ st = STATUS_DORMANT) : Moves st STATUS_CANCELLED := by
  rcases h with e | e <;> rw [e]
  · exact .cancelActive
  · exact .cancelDormant

/-- How the requests of an account may change in one call. -/
structure Account.Evolves (acc acc' : Account) : Prop where
  start : acc.validStart ≤ acc'.validStart
  kept : ∀ (i : Nat) (r : KeeperRequest), acc.requests[i]? = some r → ∃ r' : KeeperRequest,
    acc'.requests[i]? = some r' ∧ r.SameContent r' ∧ (r'.status = r.status ∨ Moves r.status r'.status)
  fresh : ∀ (i : Nat) (r' : KeeperRequest), acc.requests[i]? = none → acc'.requests[i]? = some r' →
    r'.status = STATUS_ACTIVE ∨ r'.status = STATUS_DORMANT

theorem ReqEffect.evolves {s : State} {op : Op} {a : Addr} {acc acc' : Account} {o : Out}
    (h0 : acc.RequestsOk) (h : ReqEffect s op a acc acc' o) : acc.Evolves acc' := by
  cases h with
  | same h1 h2 =>
    refine ⟨by omega, ?_, ?_⟩
    · intro i r hr; exact ⟨r, by rw [h1, hr], .refl _, Or.inl rfl⟩
    · intro i r' hn hr; rw [h1, hn] at hr; cases hr
  | pushed news h1 h2 h3 =>
    refine ⟨by omega, ?_, ?_⟩
    · intro i r hr
      refine ⟨r, ?_, .refl _, Or.inl rfl⟩
      rw [h1, List.getElem?_append_left (List.getElem?_eq_some_iff.mp hr).1, hr]
    · intro i r' hn hr
      rw [h1, List.getElem?_append_right (List.getElem?_eq_none_iff.mp hn)] at hr
      exact (h3 r' (List.mem_of_getElem? hr)).1
  | cancelled f is h1 h2 h3 h4 =>
    refine ⟨by omega, ?_, ?_⟩
    · intro i r hr
      obtain ⟨c, m⟩ := moves_restatus_cancel (is := is) (j := i) r
      exact ⟨_, by rw [h3, hr]; rfl, c, m.imp id fun ⟨x, y⟩ => by rw [y]; exact moves_cancel x⟩
    · intro i r' hn hr; rw [h3, hn] at hr; cases hr
  | liquidated p u h1 h2 h3 =>
    refine ⟨by rw [h3]; exact h0.1, ?_, ?_⟩
    · intro i r hr; exact ⟨r, by rw [h2, hr], .refl _, Or.inl rfl⟩
    · intro i r' hn hr; rw [h2, hn] at hr; cases hr
  | expired i u r h1 h2 h3 h4 h5 h6 h7 h8 h9 =>
    refine ⟨by omega, ?_, ?_⟩
    · intro j x hx
      by_cases hj : j = i
      · subst hj
        rw [h2] at hx; cases hx
        refine ⟨{ r with status := STATUS_EXPIRED }, by rw [h7, List.getElem?_set_self (List.getElem?_eq_some_iff.mp h2).1], ⟨rfl, rfl, rfl, rfl⟩, Or.inr ?_⟩
        rcases h4 with e | e <;> rw [e]
        · exact .expireActive
        · exact .expireDormant
      · exact ⟨x, by rw [h7, List.getElem?_set_ne (Ne.symm hj), hx], .refl _, Or.inl rfl⟩
    · intro j r' hn hr
      rw [h7, List.getElem?_eq_none (by rw [List.length_set]; exact List.getElem?_eq_none_iff.mp hn)] at hr
      cases hr
  | executed i u r h1 h2 h3 h4 h5 h6 h7 h8 h9 =>
    refine ⟨by omega, ?_, ?_⟩
    · intro j x hx
      by_cases hj : j = i
      · subst hj
        rw [h2] at hx; cases hx
        refine ⟨{ r with status := STATUS_EXECUTED }, ?_, ⟨rfl, rfl, rfl, rfl⟩, Or.inr (by rw [h4]; exact .execute)⟩
        rw [h7, List.getElem?_set_self (List.getElem?_eq_some_iff.mp h2).1]
        simp [restatus, STATUS_EXECUTED, STATUS_ACTIVE, STATUS_DORMANT]
      · obtain ⟨c1, m1⟩ := moves_restatus_activate (is := r.request.activates) (j := j) x
        obtain ⟨c2, m2⟩ := moves_restatus_cancel (is := r.request.cancels) (j := j)
          (restatus r.request.activates [STATUS_DORMANT] STATUS_ACTIVE j x)
        refine ⟨_, by rw [h7, List.getElem?_set_ne (Ne.symm hj), hx]; rfl, c1.trans c2, ?_⟩
        rcases m2 with e2 | ⟨e0, e2⟩
        · rw [e2]
          exact m1.imp id fun ⟨x, y⟩ => by rw [x, y]; exact .activate
        · right
          rw [e2]
          refine moves_cancel ?_
          rcases m1 with e1 | ⟨e1, -⟩
          · rw [← e1]; exact e0
          · exact Or.inr e1
    · intro j r' hn hr
      rw [h7, List.getElem?_eq_none (by rw [List.length_set]; exact List.getElem?_eq_none_iff.mp hn)] at hr
      cases hr

theorem realPositions_none {v : VAccount} (h : v.positionsUpdated = []) : v.realPositions = v.comp.positions := by
  unfold VAccount.realPositions
  rw [h]
  simp only [List.not_mem_nil, if_false]
  induction v.positions.entries with
  | nil => rfl
  | cons x xs ih => exact ih

/-! ## Histories -/

theorem Later.reach {env : Env} {s s' : State} (h : Later env s s') (hr : Reach env s) : Reach env s' := by
  induction h with
  | refl => exact hr
  | step _ hs ih => exact .step ih hs

theorem Later.trans {env : Env} {s s' s'' : State} (h : Later env s s') (h' : Later env s' s'') : Later env s s'' := by
  induction h' with
  | refl => exact h
  | step _ hs ih => exact .step ih hs

theorem step_requests {env : Env} {cl : Caller} {s s' : State} {op : Op} {o : Out} (hr : Reach env s)
    (h : step env cl s op = Except.ok (s', o)) {a : Addr} {acc : Account} (ha : s.accounts.get a = some acc) :
    ∃ acc', s'.accounts.get a = some acc' ∧ ReqEffect s op a acc acc' o :=
  body_requests (step_body h) (reach_requestsOk hr) ha

theorem step_evolves {env : Env} {cl : Caller} {s s' : State} {op : Op} {o : Out} (hr : Reach env s)
    (h : step env cl s op = Except.ok (s', o)) {a : Addr} {acc : Account} (ha : s.accounts.get a = some acc) :
    ∃ acc', s'.accounts.get a = some acc' ∧ acc.Evolves acc' := by
  obtain ⟨acc', h1, h2⟩ := step_requests hr h ha
  exact ⟨acc', h1, h2.evolves (reach_requestsOk hr a acc ha)⟩

/-- What holds of a request now, seen from an earlier state. -/
structure Account.Kept (acc acc' : Account) : Prop where
  start : acc.validStart ≤ acc'.validStart
  kept : ∀ (i : Nat) (r : KeeperRequest), acc.requests[i]? = some r → ∃ r' : KeeperRequest,
    acc'.requests[i]? = some r' ∧ r.SameContent r' ∧ (Terminal r.status → r'.status = r.status)

theorem later_kept {env : Env} {s t : State} (hl : Later env s t) (hr : Reach env s) {a : Addr} {acc : Account}
    (ha : s.accounts.get a = some acc) : ∃ acc', t.accounts.get a = some acc' ∧ acc.Kept acc' := by
  induction hl with
  | refl => exact ⟨acc, ha, le_refl _, fun i r h => ⟨r, h, .refl _, fun _ => rfl⟩⟩
  | step hp hs ih =>
    obtain ⟨acc1, h1, k1⟩ := ih
    obtain ⟨acc2, h2, k2⟩ := step_evolves (hp.reach hr) hs h1
    refine ⟨acc2, h2, k1.start.trans k2.start, ?_⟩
    intro i r h
    obtain ⟨r1, e1, c1, t1⟩ := k1.kept i r h
    obtain ⟨r2, e2, c2, t2⟩ := k2.kept i r1 e1
    refine ⟨r2, e2, c1.trans c2, fun ht => ?_⟩
    have := t1 ht
    rcases t2 with e | m
    · rw [e, this]
    · rw [this] at m; exact absurd m ht.not_moves

/-! ## C06 -/

/-- **C06 (moves).** In every reachable state, a successful call either leaves the status of a recorded
request as it is or makes one of the six allowed moves. -/
theorem c06_status_moves {env : Env} {cl : Caller} {s s' : State} {op : Op} {o : Out} (hr : Reach env s)
    (h : step env cl s op = Except.ok (s', o)) {a : Addr} {acc : Account} (ha : s.accounts.get a = some acc)
    {i : Nat} {r : KeeperRequest} (hi : acc.requests[i]? = some r) :
    ∃ (acc' : Account) (r' : KeeperRequest), s'.accounts.get a = some acc' ∧ acc'.requests[i]? = some r' ∧
      (r'.status = r.status ∨ Moves r.status r'.status) := by
  obtain ⟨acc', h1, h2⟩ := step_evolves hr h ha
  obtain ⟨r', h3, -, h4⟩ := h2.kept i r hi
  exact ⟨acc', r', h1, h3, h4⟩

/-- **C06 (creation).** A request that was not recorded before a call is Active or Dormant after it; accounts
are created without any requests. -/
theorem c06_created_pending {env : Env} {cl : Caller} {s s' : State} {op : Op} {o : Out} (hr : Reach env s)
    (h : step env cl s op = Except.ok (s', o)) {a : Addr} {acc' : Account} (ha : s'.accounts.get a = some acc')
    {i : Nat} {r' : KeeperRequest} (hi : acc'.requests[i]? = some r')
    (hn : ∀ acc, s.accounts.get a = some acc → acc.requests[i]? = none) :
    s.accounts.get a ≠ none ∧ (r'.status = STATUS_ACTIVE ∨ r'.status = STATUS_DORMANT) := by
  cases hg : s.accounts.get a with
  | some acc =>
    obtain ⟨acc2, h1, h2⟩ := step_evolves hr h hg
    rw [ha] at h1; cases h1
    exact ⟨by simp, h2.fresh i r' (hn acc hg) hi⟩
  | none =>
    exfalso
    have hb := step_body h
    by_cases ho : op.account = some a
    swap
    · rw [body_accounts hb a ho, hg] at ha; cases ha
    rcases body_account hb ho with ⟨lr, hx, acc, e⟩ | ⟨g, rule, rid, ⟨oath, t, c, rfl⟩, -, -⟩
    · rw [hg] at e; cases e
    obtain ⟨s0, rid, extra, s1, v, s2, w, acc, refs, -, -, -, rfl, hv, hd, hre, rfl, -⟩ := createAccount_ok hb
    obtain ⟨acc0, rd, hg0, -, rfl⟩ := load_ok hv
    simp only [AMap.get_set_self, Option.some.injEq] at hg0
    subst hg0
    obtain ⟨cfg, ids, w0, -, hw0, -, -, -, rfl, -⟩ := depositTokens_ok hd
    have e := addCollateral_reqPart hw0
    have hadr := (addCollateral_path (ex := ExchangeConfig.dflt) hw0).frame.1
    have hq := realize_requests hre.1
    simp only [State.realized] at ha
    rw [hadr, AMap.get_set_self] at ha
    cases ha
    rw [hq] at hi
    have e2 := reqPart_reqs (a := w0.acc) (b := { w0.acc with vb := w0.acc.vb - oathAmt oath }) rfl
    rw [e2, reqPart_reqs e] at hi
    simp [VAccount.reqs, Account.fresh, AMap.empty] at hi

/-- **C06 (terminal).** Executed, Cancelled and Expired are terminal: in every later state of every history the
request still has that status. -/
theorem c06_terminal {env : Env} {s t : State} (hr : Reach env s) (hl : Later env s t) {a : Addr} {acc : Account}
    (ha : s.accounts.get a = some acc) {i : Nat} {r : KeeperRequest} (hi : acc.requests[i]? = some r)
    (ht : r.status = STATUS_EXECUTED ∨ r.status = STATUS_CANCELLED ∨ r.status = STATUS_EXPIRED) :
    ∃ (acc' : Account) (r' : KeeperRequest), t.accounts.get a = some acc' ∧ acc'.requests[i]? = some r' ∧
      r'.status = r.status := by
  obtain ⟨acc', h1, h2⟩ := later_kept hl hr ha
  obtain ⟨r', h3, -, h4⟩ := h2.kept i r hi
  exact ⟨acc', r', h1, h3, h4 ht⟩

/-! ## C07 -/

/-- **C07 (content).** Once recorded, a request stays recorded at its index in every later state with the same
content, submission time, expiry and effected components. -/
theorem c07_content_fixed {env : Env} {s t : State} (hr : Reach env s) (hl : Later env s t) {a : Addr}
    {acc : Account} (ha : s.accounts.get a = some acc) {i : Nat} {r : KeeperRequest}
    (hi : acc.requests[i]? = some r) :
    ∃ (acc' : Account) (r' : KeeperRequest), t.accounts.get a = some acc' ∧ acc'.requests[i]? = some r' ∧
      r'.request = r.request ∧ r'.submission = r.submission ∧ r'.expiry = r.expiry ∧
      r'.effected = r.effected := by
  obtain ⟨acc', h1, h2⟩ := later_kept hl hr ha
  obtain ⟨r', h3, h4, -⟩ := h2.kept i r hi
  exact ⟨acc', r', h1, h3, h4⟩

/-- **C07 (no shrinking).** The request list of an account never becomes shorter. -/
theorem c07_never_shrinks {env : Env} {s t : State} (hr : Reach env s) (hl : Later env s t) {a : Addr}
    {acc : Account} (ha : s.accounts.get a = some acc) :
    ∃ acc', t.accounts.get a = some acc' ∧ acc.requests.length ≤ acc'.requests.length := by
  obtain ⟨acc', h1, h2⟩ := later_kept hl hr ha
  refine ⟨acc', h1, ?_⟩
  by_contra hlt
  have hlt : acc'.requests.length < acc.requests.length := Nat.lt_of_not_le hlt
  obtain ⟨r', h3, -⟩ := h2.kept _ _ (List.getElem?_eq_getElem hlt)
  rw [List.getElem?_eq_none (le_refl _)] at h3; cases h3

/-- What a successful `process_request` requires of the request. -/
theorem process_requires {env : Env} {cl : Caller} {s s' : State} {a : Addr} {i : Nat} {u : Option PriceUpdate}
    {o : Out} (hr : Reach env s) (h : step env cl s (.processRequest a i u) = Except.ok (s', o)) :
    ∃ (acc acc' : Account) (r r' : KeeperRequest), s.accounts.get a = some acc ∧ acc.requests[i]? = some r ∧
      s'.accounts.get a = some acc' ∧ acc'.requests[i]? = some r' ∧
      acc.validStart ≤ i ∧ r.submission < s.now ∧
      ((o.ev = .expired ∧ r.expiry ≤ s.now ∧ (r.status = STATUS_ACTIVE ∨ r.status = STATUS_DORMANT) ∧
          r'.status = STATUS_EXPIRED) ∨
       (o.ev ≠ .expired ∧ s.now < r.expiry ∧ r.status = STATUS_ACTIVE ∧ r'.status = STATUS_EXECUTED)) := by
  have hb := step_body h
  obtain ⟨v, v1, r0, ex, cfg, hv, -⟩ := processRequest_ok hb
  obtain ⟨acc, -, ha, -⟩ := load_ok hv
  obtain ⟨acc', ha', heff⟩ := step_requests hr h ha
  cases heff with
  | same _ _ _ h2 => exact absurd rfl (h2 i u)
  | pushed _ _ _ _ _ h2 => exact absurd rfl (h2 i u)
  | cancelled f is h1 => cases h1
  | liquidated p u h1 => cases h1
  | expired j u' r h1 h2 h3 h4 h5 h6 h7 h8 h9 =>
    cases h1
    refine ⟨acc, acc', r, { r with status := STATUS_EXPIRED }, ha, h2, ha', ?_, h3, h5, Or.inl ⟨h9, h6, h4, rfl⟩⟩
    rw [h7, List.getElem?_set_self (List.getElem?_eq_some_iff.mp h2).1]
  | executed j u' r h1 h2 h3 h4 h5 h6 h7 h8 h9 =>
    cases h1
    refine ⟨acc, acc', r, { r with status := STATUS_EXECUTED }, ha, h2, ha', ?_, h3, h5, Or.inr ⟨h9, h6, h4, rfl⟩⟩
    rw [h7, List.getElem?_set_self (List.getElem?_eq_some_iff.mp h2).1]
    simp [restatus, STATUS_EXECUTED, STATUS_ACTIVE, STATUS_DORMANT]

/-- **C07 (at most once).** A request that has been processed can never be processed again, by anyone, in any
later state. -/
theorem c07_at_most_once {env : Env} {cl cl' : Caller} {s s' t : State} {a : Addr} {i : Nat}
    {u u' : Option PriceUpdate} {o : Out} (hr : Reach env s)
    (h : step env cl s (.processRequest a i u) = Except.ok (s', o)) (hl : Later env s' t) :
    ∀ x, step env cl' t (.processRequest a i u') ≠ Except.ok x := by
  rintro ⟨t', o'⟩ hx
  obtain ⟨acc, acc', r, r', -, -, ha', hi', -, -, hst⟩ := process_requires hr h
  have hr' : Reach env s' := .step hr h
  have ht : r'.status = STATUS_EXECUTED ∨ r'.status = STATUS_CANCELLED ∨ r'.status = STATUS_EXPIRED := by
    rcases hst with ⟨-, -, -, e⟩ | ⟨-, -, -, e⟩ <;> simp [e]
  obtain ⟨acc1, r1, h1, h2, h3⟩ := c06_terminal hr' hl ha' hi' ht
  obtain ⟨acc2, acc3, r2, r3, h4, h5, -, -, -, -, h6⟩ := process_requires (hl.reach hr') hx
  rw [h1] at h4; cases h4
  rw [h2] at h5; cases h5
  rw [h3] at h6
  rcases hst with ⟨-, -, -, e⟩ | ⟨-, -, -, e⟩ <;> rw [e] at h6 <;>
    rcases h6 with ⟨-, -, h6, -⟩ | ⟨-, -, h6, -⟩ <;>
    simp [STATUS_EXECUTED, STATUS_EXPIRED, STATUS_ACTIVE, STATUS_DORMANT] at h6

/-! ## C08 -/

/-- **C08 (window).** If `process_request` executes request `i` then `i` is not below the valid start, the request
was Active and the time is strictly between its submission and its expiry. -/
theorem c08_window {env : Env} {cl : Caller} {s s' : State} {a : Addr} {i : Nat} {u : Option PriceUpdate}
    {o : Out} (hr : Reach env s) (h : step env cl s (.processRequest a i u) = Except.ok (s', o))
    (ho : o.ev ≠ .expired) :
    ∃ (acc : Account) (r : KeeperRequest), s.accounts.get a = some acc ∧ acc.requests[i]? = some r ∧
      acc.validStart ≤ i ∧ r.status = STATUS_ACTIVE ∧ r.submission < s.now ∧ s.now < r.expiry := by
  obtain ⟨acc, _, r, _, h1, h2, -, -, h3, h4, h5⟩ := process_requires hr h
  rcases h5 with ⟨e, -⟩ | ⟨-, h6, h7, -⟩
  · exact absurd e ho
  · exact ⟨acc, r, h1, h2, h3, h7, h4, h6⟩

/-- **C08 (expiry).** At or after its expiry, processing a request only marks it Expired: apart from the keeper's
reward nothing but this request's status and its membership in the active set changes. -/
theorem c08_expired_changes_nothing {env : Env} {cl : Caller} {s s' : State} {a : Addr} {i : Nat}
    {u : Option PriceUpdate} {o : Out} (hr : Reach env s)
    (h : step env cl s (.processRequest a i u) = Except.ok (s', o))
    {acc : Account} {r : KeeperRequest} (ha : s.accounts.get a = some acc) (hi : acc.requests[i]? = some r)
    (he : r.expiry ≤ s.now) :
    ∃ act : Finset Nat, s' = { s with
      accounts := s.accounts.set a { acc with
        requests := acc.requests.set i { r with status := STATUS_EXPIRED }
        active := act }
      rewardSupply := s.rewardSupply + o.reward } ∧ o.ev = .expired ∧ o.buckets = [] ∧ o.paid = [] := by
  obtain ⟨acc1, _, r1, _, h1, h2, -, -, -, -, h5⟩ := process_requires hr h
  rw [ha] at h1; cases h1
  rw [hi] at h2; cases h2
  rcases h5 with ⟨e, -⟩ | ⟨-, h6, -⟩
  swap
  · omega
  have hb := step_body h
  obtain ⟨v, v1, r0, ex, cfg, hv, hp, -, -, -, hcase⟩ := processRequest_ok hb
  rcases hcase with ⟨-, acc', refs, hre, rfl, rfl⟩ | ⟨-, s1, c, w, out, acc', refs, -, hx, -, -, rfl⟩
  swap
  · rcases executeRequest_ok hx with ⟨q, tokens, rfl, hrm, rfl⟩ | ⟨q, e', rfl, hmo, rfl⟩ <;> simp at e
  obtain ⟨acc2, ha2, heff⟩ := step_requests hr h ha
  obtain ⟨hinv, acc0, hg, hcomp, hq, hs, -, had, -⟩ := load_rinv hv (reach_requestsOk hr)
  rw [ha] at hg; cases hg
  obtain ⟨hinv1, honly, -⟩ := processRequest_inv hinv hp
  have hcomp1 : v1.comp = acc ∧ v1.addr = a ∧ v1.positionsUpdated = [] ∧ v1.vb = acc.vb ∧
      v1.referralRewarded = false := by
    obtain ⟨acc0, rd, hg, -, rfl⟩ := load_ok hv
    rw [ha] at hg; cases hg
    unfold ReqOnly at honly
    rw [honly]
    exact ⟨rfl, rfl, rfl, rfl, rfl⟩
  obtain ⟨c1, c2, c3, c4, c5⟩ := hcomp1
  have hacc2 : acc2 = acc' := by
    simp only [State.realizedAcc, c2, AMap.get_set_self, Option.some.injEq] at ha2
    exact ha2.symm
  subst hacc2
  obtain ⟨hr1, hr2⟩ := hre
  have hrefs : refs = s.referrals := by
    unfold VAccount.realizeReferral at hr2
    rw [c5] at hr2
    simp only [Bool.false_eq_true, if_false, pure_ok] at hr2
    exact hr2.symm
  have hvs := (realize_rinv hinv1 hr1).2.2.1
  obtain ⟨reqs, -, hacc⟩ := realize_ok hr1
  have hpos : v1.realPositions = acc.positions := by
    rw [realPositions_none c3, c1]
  refine ⟨acc2.active, ?_, rfl, rfl, rfl⟩
  have hreqs : acc2.requests = acc.requests.set i { r with status := STATUS_EXPIRED } ∧
      acc2.validStart = acc.validStart := by
    cases heff with
    | same _ _ _ h2 => exact absurd rfl (h2 i u)
    | pushed _ _ _ _ _ h2 => exact absurd rfl (h2 i u)
    | cancelled f is h1 => cases h1
    | liquidated p u h1 => cases h1
    | expired j u' r' h1 h2 h3 h4 h5 h6 h7 h8 h9 =>
      cases h1
      rw [hi] at h2; cases h2
      exact ⟨h7, h8⟩
    | executed j u' r' h1 h2 h3 h4 h5 h6 h7 h8 h9 => exact absurd rfl h9
  have : acc2 = { acc with requests := acc.requests.set i { r with status := STATUS_EXPIRED }, active := acc2.active } := by
    have e1 : acc2 = { acc with requests := acc2.requests, active := acc2.active, validStart := acc2.validStart } := by
      rw [hacc]
      simp only [c1, c4, hpos]
    rw [hreqs.1, hreqs.2] at e1
    exact e1
  simp only [State.realizedAcc, c2, hrefs]
  rw [← this]

/-! ## C10 -/

/-- **C10.** After an account is liquidated, no request recorded before is ever processed again in any later
history. -/
theorem c10_liquidation_invalidates {env : Env} {cl cl' : Caller} {s s' t : State} {a : Addr} {b : Bucket}
    {u u' : Option PriceUpdate} {o : Out} (hr : Reach env s)
    (h : step env cl s (.liquidate a b u) = Except.ok (s', o)) (hl : Later env s' t)
    {acc : Account} (ha : s.accounts.get a = some acc) {i : Nat} (hi : i < acc.requests.length) :
    (∀ x, step env cl' t (.processRequest a i u') ≠ Except.ok x) ∧
    ∃ acc', t.accounts.get a = some acc' ∧ i ∉ acc'.active := by
  obtain ⟨acc1, ha1, heff⟩ := step_requests hr h ha
  have hst : acc1.validStart = acc.requests.length := by
    cases heff with
    | same _ _ h2 => exact absurd rfl (h2 b u)
    | pushed _ _ _ _ h2 => exact absurd rfl (h2 b u)
    | cancelled f is h1 => cases h1
    | liquidated p u h1 h2 h3 => exact h3
    | expired j u' r' h1 => cases h1
    | executed j u' r' h1 => cases h1
  have hr' : Reach env s' := .step hr h
  obtain ⟨acc2, ha2, hk⟩ := later_kept hl hr' ha1
  have hlt : i < acc2.validStart := lt_of_lt_of_le (by omega) hk.start
  constructor
  · rintro ⟨t', o'⟩ hx
    obtain ⟨acc3, _, r2, _, h4, -, -, -, h5, -⟩ := process_requires (hl.reach hr') hx
    rw [ha2] at h4; cases h4
    omega
  · refine ⟨acc2, ha2, fun hm => ?_⟩
    have := ((c13_active_exact (hl.reach hr') ha2 i).mp hm).1
    omega

end Perp
