import Verif.Placement
import Verif.Scenario

/-!
# Account authorization and the permission registry (C36, C37, C38)
-/

namespace Perp

/-! ## Specification -/

/-- The level of authorization over an account which a call needs (specification of C36). -/
def Op.needs : Op → Option (Addr × Level)
  | .createRecoveryKey _ a | .addAuthRule _ a _ _ | .setLevelAuth _ a _ _ => some (a, .l1)
  | .removeCollateralRequest _ _ a _ _ => some (a, .l2)
  | .addCollateral _ a _ | .marginOrderRequest _ a _ _ _ _ | .marginOrderTpSlRequest _ a _ _ _
  | .cancelRequests _ a _ => some (a, .l3)
  | _ => none

/-- The change of an account's rules a call asks for: the level and the new rule. -/
def Op.ruleChange (env : Env) (s : State) (acc : Account) : Op → Option (Level × Rule)
  | .createRecoveryKey _ _ => some (.l1, extendRule acc.level1 (.proof (env.recoveryProof s.recoveryKeys)))
  | .addAuthRule _ _ 1 n => some (.l1, extendRule acc.level1 n)
  | .addAuthRule _ _ 2 n => some (.l2, extendRule acc.level2 n)
  | .addAuthRule _ _ 3 n => some (.l3, extendRule acc.level3 n)
  | .setLevelAuth _ _ l r => some (l, r)
  | _ => none

/-! ## What a call does to the rules of an account and to the registry -/

/-- As `body_account`, with the change of rules. -/
theorem body_rules {env : Env} {cl : Caller} {s s' : State} {op : Op} {o : Out} {a : Addr} {acc : Account}
    (h : body env cl s op = Except.ok (s', o)) (ha : op.account = some a) (hg : s.accounts.get a = some acc) :
    AccOp s a (op.ruleChange env s acc) s' := by
  have got : ∀ {v : VAccount} {x : Dec} (l : Level), s.load a = Except.ok v → ({ v with vb := x } : VAccount).comp.rule l = acc.rule l := by
    intro v x l hv
    obtain ⟨acc0, rd, h0, -, rfl⟩ := load_ok hv
    rw [hg] at h0; cases h0; rfl
  cases op with
  | createAccount a' oath r t c =>
    cases ha
    obtain ⟨s0, rid, extra, s1, v, s2, w, acc, refs, -, hn, hc, -⟩ := createAccount_ok h
    rw [hg] at hn; cases hn
  | createRecoveryKey oath a' =>
    cases ha
    obtain ⟨v, s1, v1, cfg, hv, -, hp, r, x, rfl, hr', acc1, refs, hr, he, -⟩ := createRecoveryKey_ok h
    have := accOp_of_auth hv hp hr he
    obtain ⟨rfl, rfl, -⟩ := payOath_frame hp
    rw [got .l1 hv] at hr'
    subst hr'
    exact this
  | addAuthRule oath a' l n =>
    cases ha
    obtain ⟨v, s1, v1, cfg, l', hv, -, hp, hl, r, x, rfl, hr', acc1, refs, hr, he, -⟩ := addAuthRule_ok h
    have := accOp_of_auth (k := s1.recoveryKeys) hv hp hr he
    obtain ⟨rfl, rfl, -⟩ := payOath_frame hp
    rw [got l' hv] at hr'
    subst hr'
    rcases levelOf_ok hl with ⟨rfl, rfl⟩ | ⟨rfl, rfl⟩ | ⟨rfl, rfl⟩ <;> exact this
  | setLevelAuth oath a' l r =>
    cases ha
    obtain ⟨v, s1, v1, cfg, hv, -, hp, x, rfl, acc, refs, hr, he, -⟩ := setLevelAuth_ok h
    exact accOp_of_auth (k := s1.recoveryKeys) hv hp hr he
  | addCollateral oath a' t =>
    cases ha
    obtain ⟨v, s1, w, acc, refs, -, hv, -, hd, hr, he, -⟩ := opAddCollateral_ok h
    exact accOp_of_deposit hv hd hr he
  | removeCollateralRequest oath e a' t c =>
    cases ha
    obtain ⟨v, s1, v1, cfg, v2, acc, refs, hv, -, hp, hpush, -, hr, he, -⟩ := removeCollateralRequest_ok h
    exact accOp_of_acc hv hp
      (fun pool d => (WStep.push (w := { pool, acc := v1, dist := d }) hpush).path) hr he
  | marginOrderRequest oath a' args act can st =>
    cases ha
    obtain ⟨v, s1, v1, cfg, _, _, v2, acc, refs, hv, -, hp, -, -, hpush, -, hr, he, -⟩ :=
      marginOrderRequest_ok h
    exact accOp_of_acc hv hp
      (fun pool d => (WStep.push (w := { pool, acc := v1, dist := d }) hpush).path) hr he
  | marginOrderTpSlRequest oath a' args tp sl =>
    cases ha
    obtain ⟨v, s1, v1, cfg, v2, v3, v4, acc, refs, iTp, iSl, hv, -, hp, -, -, h2, h3, h4, -, hr, he, -⟩ :=
      marginOrderTpSlRequest_ok h
    exact accOp_of_acc hv hp
      (fun pool d => ((WStep.push (w := { pool, acc := v1, dist := d }) h2).path.trans0
        (pushExit_path h3 pool d)).trans0 (pushExit_path h4 pool d)) hr he
  | cancelRequests oath a' is =>
    cases ha
    obtain ⟨v, s1, v1, cfg, v2, acc, refs, hv, -, hp, h2, hr, he, -⟩ := opCancelRequests_ok h
    exact accOp_of_acc hv hp
      (fun pool d => (WStep.cancel (w := { pool, acc := v1, dist := d }) h2).path) hr he
  | processRequest a' i u =>
    cases ha
    obtain ⟨v, v1, r, expired, cfg, hv, hpr, -, -, -, h⟩ := processRequest_ok h
    have p0 := fun pool d => (WStep.process (ex := s.config.exchange.decompress)
      (w := { pool, acc := v, dist := d }) hpr).path
    rcases h with ⟨-, acc, refs, hr, rfl, -⟩ | ⟨-, s1, c, w, out, acc, refs, hk, hx, hr, he, -⟩
    · have := AccOp.mk (s := s) (a := a) (lr := none) s.oracle (s.rewardSupply + cfg.ex.rewardKeeper)
        s.recoveryKeys hv (p0 (VPool.new s.pool s.now []) s.dist) hr
      show AccOp s a none _
      convert this using 1
      simp [State.realizedAcc, State.realized, VPool.realize_new, authPerms]
    · exact accOp_of_keeper hv p0 hk (executeRequest_path hx) hr he
  | swapDebt a' r p u =>
    cases ha
    obtain ⟨v, s1, c, w, token, rest, e, acc, refs, -, hv, hk, hx, hr, he, -⟩ := opSwapDebt_ok h
    exact accOp_of_keeper hv (fun _ _ => .refl _) hk (swapDebt_path hx) hr
      (rw := s1.rewardSupply) (by rw [he]; rfl)
  | liquidate a' p u =>
    cases ha
    obtain ⟨v, s1, c, w, tokens, e, acc, refs, -, hv, hk, hx, hr, -, he, -⟩ := opLiquidate_ok h
    exact accOp_of_keeper hv (fun _ _ => .refl _) hk (liquidate_path hx) hr he
  | autoDeleverage a' p u =>
    cases ha
    obtain ⟨v, s1, c, w, e, acc, refs, hv, hk, hx, hr, -, he, -⟩ := opAutoDeleverage_ok h
    exact accOp_of_keeper hv (fun _ _ => .refl _) hk (autoDeleverage_path hx) hr he
  | _ => cases ha

theorem Account.rule_setRule (acc : Account) (l l' : Level) (r : Rule) :
    (acc.setRule l r).rule l' = if l = l' then r else acc.rule l' := by
  cases l <;> cases l' <;> rfl

theorem AccOp.rules {s s' : State} {a : Addr} {lr : Option (Level × Rule)} (h : AccOp s a lr s') :
    ∃ acc acc' v, s.accounts.get a = some acc ∧ s.load a = Except.ok v ∧ v.addr = a ∧ v.comp = acc ∧
      s'.accounts = s.accounts.set a acc' ∧ s'.perms = authPerms s.perms v lr ∧
      ∀ l, acc'.rule l = (v.withRule lr).comp.rule l := by
  cases h with
  | mk o rw k hl hp hr =>
    rename_i v ids w x acc refs
    obtain ⟨haddr, -, -, hcomp, -⟩ := hp.frame
    obtain ⟨acc0, rd, hg, -, hv⟩ := load_ok hl
    have haddr' : w.acc.addr = a := by rw [haddr, withRule_addr, hv]
    refine ⟨acc0, acc, v, hg, hl, by rw [hv], by rw [hv], by simp only [State.realized, haddr'], rfl, ?_⟩
    intro l
    obtain ⟨rq, -, hacc⟩ := realize_ok hr.1
    rw [hacc]
    have : ({ w.acc.comp with
        positions := w.acc.realPositions
        vb := w.acc.vb
        validStart := if w.acc.validStart > w.acc.comp.validStart then w.acc.validStart else w.acc.comp.validStart
        requests := rq
        active := w.acc.realActive } : Account).rule l = w.acc.comp.rule l := by cases l <;> rfl
    rw [this, hcomp]
    cases l <;> rfl

/-- The rules of an existing account after a call. -/
theorem step_rules {env : Env} {cl : Caller} {s s' : State} {op : Op} {o : Out} {a : Addr} {acc : Account}
    (h : step env cl s op = Except.ok (s', o)) (ha : s.accounts.get a = some acc) :
    ∃ acc', s'.accounts.get a = some acc' ∧ ∀ l, acc'.rule l =
      if op.account = some a then
        match op.ruleChange env s acc with
        | some (l', r) => if l' = l then r else acc.rule l
        | none => acc.rule l
      else acc.rule l := by
  by_cases ho : op.account = some a
  · obtain ⟨acc0, acc', v, hg, -, -, hc, he, -, hr⟩ := (body_rules (step_body h) ho ha).rules
    rw [ha] at hg; cases hg
    refine ⟨acc', by rw [he, AMap.get_set_self], fun l => ?_⟩
    rw [hr, if_pos ho]
    cases op.ruleChange env s acc with
    | none => simp only [VAccount.withRule, hc]
    | some x => simp only [VAccount.withRule, hc, Account.rule_setRule]
  · exact ⟨acc, by rw [body_accounts (step_body h) a ho, ha], fun l => by rw [if_neg ho]⟩

/-! ## C36 -/

/-- **C36 (levels).** A call that manages account `a` succeeds only if the account exists and the caller
satisfies its rule of the required level: level 1 to change rules or create a recovery key, level 2 to
request a withdrawal, level 3 to deposit, to place orders and to cancel requests. -/
theorem c36_levels {env : Env} {cl : Caller} {s s' : State} {op : Op} {o : Out} {a : Addr} {l : Level}
    (h : step env cl s op = Except.ok (s', o)) (hn : op.needs = some (a, l)) :
    ∃ acc, s.accounts.get a = some acc ∧ (acc.rule l).sat cl.pf = true := by
  have got : ∀ {v : VAccount}, s.load a = Except.ok v →
      ∃ acc, s.accounts.get a = some acc ∧ v.comp = acc := by
    intro v hv
    obtain ⟨acc0, rd, h0, -, rfl⟩ := load_ok hv
    exact ⟨acc0, h0, rfl⟩
  have h := step_body h
  cases op with
  | createRecoveryKey oath a' =>
    cases hn
    obtain ⟨v, s1, v1, cfg, hv, hl, -⟩ := createRecoveryKey_ok h
    obtain ⟨acc, h1, rfl⟩ := got hv
    exact ⟨_, h1, hl⟩
  | addAuthRule oath a' l n =>
    cases hn
    obtain ⟨v, s1, v1, cfg, l', hv, hl, -⟩ := addAuthRule_ok h
    obtain ⟨acc, h1, rfl⟩ := got hv
    exact ⟨_, h1, hl⟩
  | setLevelAuth oath a' l r =>
    cases hn
    obtain ⟨v, s1, v1, cfg, hv, hl, -⟩ := setLevelAuth_ok h
    obtain ⟨acc, h1, rfl⟩ := got hv
    exact ⟨_, h1, hl⟩
  | addCollateral oath a' t =>
    cases hn
    obtain ⟨v, s1, w, acc, refs, -, hv, hl, -⟩ := opAddCollateral_ok h
    obtain ⟨acc, h1, rfl⟩ := got hv
    exact ⟨_, h1, hl⟩
  | removeCollateralRequest oath e a' t c =>
    cases hn
    obtain ⟨v, s1, v1, cfg, v2, acc, refs, hv, hl, -⟩ := removeCollateralRequest_ok h
    obtain ⟨acc, h1, rfl⟩ := got hv
    exact ⟨_, h1, hl⟩
  | marginOrderRequest oath a' args act can st =>
    cases hn
    obtain ⟨v, s1, v1, cfg, _, _, v2, acc, refs, hv, hl, -⟩ := marginOrderRequest_ok h
    obtain ⟨acc, h1, rfl⟩ := got hv
    exact ⟨_, h1, hl⟩
  | marginOrderTpSlRequest oath a' args tp sl =>
    cases hn
    obtain ⟨v, s1, v1, cfg, v2, v3, v4, acc, refs, iTp, iSl, hv, hl, -⟩ := marginOrderTpSlRequest_ok h
    obtain ⟨acc, h1, rfl⟩ := got hv
    exact ⟨_, h1, hl⟩
  | cancelRequests oath a' is =>
    cases hn
    obtain ⟨v, s1, v1, cfg, v2, acc, refs, hv, hl, -⟩ := opCancelRequests_ok h
    obtain ⟨acc, h1, rfl⟩ := got hv
    exact ⟨_, h1, hl⟩
  | _ => cases hn

/-- **C36 (rules).** If any rule of an existing account differs after a call, the caller satisfied the
account's level-1 rule, and the call was one of the rule-changing calls on this very account. -/
theorem c36_rules_change {env : Env} {cl : Caller} {s s' : State} {op : Op} {o : Out} {a : Addr}
    {acc acc' : Account} {l : Level} (h : step env cl s op = Except.ok (s', o))
    (ha : s.accounts.get a = some acc) (ha' : s'.accounts.get a = some acc') (hl : acc'.rule l ≠ acc.rule l) :
    acc.level1.sat cl.pf = true ∧
    ((∃ oath, op = .createRecoveryKey oath a) ∨ (∃ oath k n, op = .addAuthRule oath a k n) ∨
      ∃ oath k r, op = .setLevelAuth oath a k r) := by
  obtain ⟨acc2, h1, h2⟩ := step_rules h ha
  rw [ha'] at h1; cases h1
  rw [h2] at hl
  by_cases ho : op.account = some a
  swap
  · rw [if_neg ho] at hl; exact absurd rfl hl
  rw [if_pos ho] at hl
  have key : op.needs = some (a, .l1) ∧ ((∃ oath, op = .createRecoveryKey oath a) ∨
      (∃ oath k n, op = .addAuthRule oath a k n) ∨ ∃ oath k r, op = .setLevelAuth oath a k r) := by
    cases op with
    | createRecoveryKey oath a' => cases ho; exact ⟨rfl, Or.inl ⟨_, rfl⟩⟩
    | addAuthRule oath a' k n => cases ho; exact ⟨rfl, Or.inr (Or.inl ⟨_, _, _, rfl⟩)⟩
    | setLevelAuth oath a' k r => cases ho; exact ⟨rfl, Or.inr (Or.inr ⟨_, _, _, rfl⟩)⟩
    | _ => exact absurd rfl hl
  obtain ⟨acc3, h3, h4⟩ := c36_levels h key.1
  rw [ha] at h3; cases h3
  exact ⟨h4, key.2⟩

/-- **C36 (exactly what was asked).** `set_level_i_auth` stores the given rule at that level and leaves the
other two levels alone. -/
theorem c36_set_level {env : Env} {cl : Caller} {s s' : State} {o : Out} {a : Addr} {oath : Option Bucket}
    {l : Level} {r : Rule} (h : step env cl s (.setLevelAuth oath a l r) = Except.ok (s', o)) :
    ∃ acc acc', s.accounts.get a = some acc ∧ s'.accounts.get a = some acc' ∧ acc'.rule l = r ∧
      ∀ k, k ≠ l → acc'.rule k = acc.rule k := by
  obtain ⟨acc, hg, -⟩ := c36_levels h rfl
  obtain ⟨acc', h1, h2⟩ := step_rules h hg
  refine ⟨acc, acc', hg, h1, ?_, fun k hk => ?_⟩
  · rw [h2]; simp [Op.account, Op.ruleChange]
  · rw [h2]; simp [Op.account, Op.ruleChange, Ne.symm hk]

/-- **C36 (creation).** A new account gets the given rule at all three levels. -/
theorem c36_created {env : Env} {cl : Caller} {s s' : State} {o : Out} {a : Addr} {oath : Option Bucket}
    {rule : Rule} {tokens : List Bucket} {code : Option Nat}
    (h : step env cl s (.createAccount a oath rule tokens code) = Except.ok (s', o)) :
    s.accounts.get a = none ∧ ∃ acc', s'.accounts.get a = some acc' ∧ ∀ l, acc'.rule l = rule := by
  rcases body_account (step_body h) rfl with ⟨lr, -, acc, hg⟩ | ⟨g, rule', rid, ⟨_, _, _, he⟩, hn, hx⟩
  · obtain ⟨s0, rid, extra, s1, v, s2, w, acc, refs, -, hn, -⟩ := createAccount_ok (step_body h)
    rw [hg] at hn; cases hn
  · cases he
    obtain ⟨acc0, acc', v, hg, -, -, hc, he, -, hr⟩ := hx.rules
    refine ⟨hn, acc', by rw [he, AMap.get_set_self], fun l => ?_⟩
    rw [hr]
    simp only [State.withNew, AMap.get_set_self, Option.some.injEq] at hg
    simp only [VAccount.withRule, hc, ← hg]
    cases l <;> rfl

/-- **C36 (requests).** A request that an account did not have before a call was placed with level 2 if it
is a withdrawal, and with level 3 if it is an order. -/
theorem c36_new_request {env : Env} {cl : Caller} {s s' : State} {op : Op} {o : Out} {a : Addr}
    {acc acc' : Account} {i : Nat} {r : KeeperRequest} (hr : Reach env s)
    (h : step env cl s op = Except.ok (s', o)) (ha : s.accounts.get a = some acc)
    (ha' : s'.accounts.get a = some acc') (hi : acc'.requests[i]? = some r) (hn : acc.requests[i]? = none) :
    (∀ q, r.request = .removeCollateral q → acc.level2.sat cl.pf = true) ∧
    (∀ q, r.request = .marginOrder q → acc.level3.sat cl.pf = true) := by
  have lv : ∀ l, op.needs = some (a, l) → (acc.rule l).sat cl.pf = true := by
    intro l hl
    obtain ⟨acc2, h1, h2⟩ := c36_levels h hl
    rw [ha] at h1; cases h1; exact h2
  have newIn : ∀ {news : List KeeperRequest}, Placed s s' a acc news → r ∈ news := by
    rintro news ⟨acc2, h1, h2, -⟩
    rw [ha'] at h1; cases h1
    rw [h2, List.getElem?_append_right (by simpa using hn)] at hi
    exact List.mem_of_getElem? hi
  obtain ⟨acc2, h1, h2⟩ := step_requests hr h ha
  rw [ha'] at h1; cases h1
  by_cases ho : op.account = some a
  swap
  · rw [body_accounts (step_body h) a ho, ha] at ha'
    cases ha'
    rw [hn] at hi; cases hi
  have hpl : op.places = true := by
    have len : acc.requests.length ≤ i := by simpa using hn
    have none : acc'.requests.length ≤ acc.requests.length → False := by
      intro hl
      rw [List.getElem?_eq_none (by omega)] at hi; cases hi
    cases h2 with
    | same e => exact (none (by rw [e])).elim
    | pushed news _ _ _ _ _ _ hpl => exact hpl
    | cancelled f is _ _ e => rw [e, hn] at hi; cases hi
    | liquidated p u _ e => exact (none (by rw [e])).elim
    | expired i u r _ _ _ _ _ _ e => exact (none (by rw [e, List.length_set])).elim
    | executed k u r _ _ _ _ _ _ e =>
      rw [e, List.getElem?_eq_none (by rw [List.length_set]; exact len)] at hi; cases hi
  cases op with
  | removeCollateralRequest oath e a' t c =>
    cases ho
    obtain ⟨acc2, hg, -, hp⟩ := place_withdrawal hr h
    rw [ha] at hg; cases hg
    have hm := newIn hp
    simp only [List.mem_singleton] at hm
    subst hm
    exact ⟨fun q _ => lv .l2 rfl, fun q hq => by cases hq⟩
  | marginOrderRequest oath a' args act can st =>
    cases ho
    obtain ⟨acc2, act, can, hg, -, -, -, hp⟩ := place_order hr h
    rw [ha] at hg; cases hg
    have hm := newIn hp
    simp only [List.mem_singleton] at hm
    subst hm
    exact ⟨fun q hq => (by cases hq), fun q _ => lv .l3 rfl⟩
  | marginOrderTpSlRequest oath a' args tp sl =>
    cases ho
    obtain ⟨acc2, acc3, iTp, iSl, hg, hg', -, -, -, e, hlim⟩ := c12_tp_sl_shape hr h
    rw [ha] at hg; cases hg
    have hm := newIn ⟨acc3, hg', by rw [e, List.append_assoc, List.append_assoc], hlim⟩
    refine ⟨fun q hq => ?_, fun q _ => lv .l3 rfl⟩
    simp only [List.mem_append, List.mem_singleton, Option.mem_toList, Option.map_eq_some_iff] at hm
    rcases hm with rfl | ⟨_, _, rfl⟩ | ⟨_, _, rfl⟩ <;> cases hq
  | _ => cases hpl

/-- **C36 (cancellations).** A request that becomes Cancelled in a call was cancelled by a caller with level 3, or
by the keeper-triggered execution of an order of the same account that names it. -/
theorem c36_cancelled {env : Env} {cl : Caller} {s s' : State} {op : Op} {o : Out} {a : Addr}
    {acc acc' : Account} {i : Nat} {r r' : KeeperRequest} (hr : Reach env s)
    (h : step env cl s op = Except.ok (s', o)) (ha : s.accounts.get a = some acc)
    (ha' : s'.accounts.get a = some acc') (hi : acc.requests[i]? = some r) (hi' : acc'.requests[i]? = some r')
    (h0 : r.status ≠ STATUS_CANCELLED) (h1 : r'.status = STATUS_CANCELLED) :
    (acc.level3.sat cl.pf = true ∧ ∃ oath is, op = .cancelRequests oath a is ∧ i ∈ is) ∨
    ∃ j u q, op = .processRequest a j u ∧ acc.requests[j]? = some q ∧ i ∈ q.request.cancels := by
  obtain ⟨acc2, h2, h3⟩ := step_requests hr h ha
  rw [ha'] at h2; cases h2
  cases h3 with
  | same e => rw [e, hi] at hi'; cases hi'; exact absurd h1 h0
  | pushed news e =>
    rw [e, List.getElem?_append_left (by obtain ⟨x, -⟩ := List.getElem?_eq_some_iff.mp hi; exact x), hi] at hi'
    cases hi'; exact absurd h1 h0
  | cancelled f is hop _ e =>
    subst hop
    rw [e, hi] at hi'
    simp only [Option.map_some, Option.some.injEq] at hi'
    subst hi'
    obtain ⟨acc3, h4, h5⟩ := c36_levels h rfl
    rw [ha] at h4; cases h4
    refine Or.inl ⟨h5, f, is, rfl, ?_⟩
    by_contra hx
    rw [restatus, if_neg (fun hc => hx hc.1)] at h1
    exact h0 h1
  | liquidated p u _ e => rw [e, hi] at hi'; cases hi'; exact absurd h1 h0
  | expired j u q hop hj _ _ _ _ e =>
    rw [e, List.getElem?_set] at hi'
    split at hi'
    · split at hi'
      · simp only [Option.some.injEq] at hi'
        subst hi'; cases h1
      · cases hi'
    · rw [hi] at hi'; cases hi'; exact absurd h1 h0
  | executed j u q hop hj _ _ _ _ e =>
    refine Or.inr ⟨j, u, q, hop, hj, ?_⟩
    by_contra hx
    rw [e, List.getElem?_set] at hi'
    have two : ∀ x : KeeperRequest, x.status ≠ STATUS_CANCELLED →
        (restatus q.request.cancels [STATUS_ACTIVE, STATUS_DORMANT] STATUS_CANCELLED i
          (restatus q.request.activates [STATUS_DORMANT] STATUS_ACTIVE i x)).status ≠ STATUS_CANCELLED := by
      intro x hx'
      rw [restatus, if_neg (fun hc => hx hc.1)]
      unfold restatus
      split
      · exact (by decide : STATUS_ACTIVE ≠ STATUS_CANCELLED)
      · exact hx'
    split at hi'
    · split at hi'
      · simp only [Option.map_some, Option.some.injEq] at hi'
        subst hi'
        exact two _ (by simp only; decide) h1
      · cases hi'
    · rw [hi] at hi'
      simp only [Option.map_some, Option.some.injEq] at hi'
      subst hi'
      exact two _ h0 h1

/-! ## C37 -/

/-- A rule's direct alternatives, as the specification of what the registry indexes besides the rule itself. -/
def Rule.Alternative (r' r : Rule) : Prop := ∃ l n, r = .prot (.anyOf l) ∧ n ∈ l ∧ r' = .prot n

theorem mem_subRules {r r' : Rule} : r' ∈ subRules r ↔ r'.Alternative r := by
  unfold subRules Rule.Alternative
  split
  · simp only [List.mem_map, Rule.prot.injEq, Node.anyOf.injEq]
    constructor
    · rintro ⟨n, hn, rfl⟩; exact ⟨_, n, rfl, hn, rfl⟩
    · rintro ⟨l, n, rfl, hn, rfl⟩; exact ⟨n, hn, rfl⟩
  · rename_i h
    simp only [List.not_mem_nil, false_iff]
    rintro ⟨l, n, rfl, -, -⟩
    exact h l rfl

/-- Whom the registry lists under rule `r` at level `l`. -/
def State.listed (s : State) (r : Rule) (l : Level) (a : Addr) : Prop := a ∈ (permsOf s.perms r).at l

theorem permsOf_modify (f : Permissions → Permissions) (m : AMap Rule Permissions) (r r' : Rule) :
    permsOf (permsModify f m r) r' = if r = r' then f (permsOf m r) else permsOf m r' := by
  unfold permsModify permsOf AMap.getD
  rw [AMap.get_set]
  by_cases h : r = r'
  · subst h; simp
  · rw [if_neg h]
    rw [if_neg h]

theorem permIns_at (l k : Level) (a b : Addr) (p : Permissions) :
    b ∈ (permIns l a p).at k ↔ b ∈ p.at k ∨ (k = l ∧ b = a) := by
  cases l <;> cases k <;> simp [permIns, Permissions.put, Permissions.at, or_comm]

theorem permDel_at (l k : Level) (a b : Addr) (p : Permissions) :
    b ∈ (permDel l a p).at k ↔ b ∈ p.at k ∧ ¬ (k = l ∧ b = a) := by
  cases l <;> cases k <;> simp [permDel, Permissions.put, Permissions.at, and_comm]

theorem permAll_at (k : Level) (a b : Addr) (p : Permissions) :
    b ∈ (permAll a p).at k ↔ b ∈ p.at k ∨ b = a := by
  simp only [permAll, permIns_at]
  cases k <;> simp

theorem fold_add {P : Level → Addr → Prop} {f : Permissions → Permissions}
    (hf : ∀ p k b, b ∈ (f p).at k ↔ b ∈ p.at k ∨ P k b) (rs : List Rule) :
    ∀ (m : AMap Rule Permissions) (r : Rule) (k : Level) (b : Addr),
      b ∈ (permsOf (rs.foldl (permsModify f) m) r).at k ↔ b ∈ (permsOf m r).at k ∨ (r ∈ rs ∧ P k b) := by
  induction rs with
  | nil => intros; simp
  | cons x rs ih =>
    intro m r k b
    rw [List.foldl_cons, ih, permsOf_modify]
    by_cases h : x = r
    · subst h; rw [if_pos rfl, hf]; simp; tauto
    · rw [if_neg h]; simp [Ne.symm h]

theorem fold_del {P : Level → Addr → Prop} {f : Permissions → Permissions}
    (hf : ∀ p k b, b ∈ (f p).at k ↔ b ∈ p.at k ∧ ¬ P k b) (rs : List Rule) :
    ∀ (m : AMap Rule Permissions) (r : Rule) (k : Level) (b : Addr),
      b ∈ (permsOf (rs.foldl (permsModify f) m) r).at k ↔ b ∈ (permsOf m r).at k ∧ ¬ (r ∈ rs ∧ P k b) := by
  induction rs with
  | nil => intros; simp
  | cons x rs ih =>
    intro m r k b
    rw [List.foldl_cons, ih, permsOf_modify]
    by_cases h : x = r
    · subst h; rw [if_pos rfl, hf]; simp; tauto
    · rw [if_neg h]; simp [Ne.symm h]

/-- The registry after an account's rule has changed. -/
theorem setAuth_listed (m : AMap Rule Permissions) (v : VAccount) (l : Level) (new r : Rule) (k : Level) (b : Addr) :
    b ∈ (permsOf (setAuth m v l new).1 r).at k ↔
      (b ∈ (permsOf m r).at k ∧ ¬ ((r = v.comp.rule l ∨ r.Alternative (v.comp.rule l)) ∧ k = l ∧ b = v.addr)) ∨
      ((r = new ∨ r.Alternative new) ∧ k = l ∧ b = v.addr) := by
  have e : (setAuth m v l new).1 = (new :: subRules new).foldl (permsModify (permIns l v.addr))
      ((v.comp.rule l :: subRules (v.comp.rule l)).foldl (permsModify (permDel l v.addr)) m) := rfl
  rw [e, fold_add (fun p k b => permIns_at l k v.addr b p), fold_del (fun p k b => permDel_at l k v.addr b p)]
  simp only [List.mem_cons, mem_subRules]

theorem register_listed (m : AMap Rule Permissions) (a : Addr) (rule r : Rule) (k : Level) (b : Addr) :
    b ∈ (permsOf (registerAccount m a rule) r).at k ↔
      b ∈ (permsOf m r).at k ∨ ((r = rule ∨ r.Alternative rule) ∧ b = a) := by
  have e : registerAccount m a rule = (rule :: subRules rule).foldl (permsModify (permAll a)) m := rfl
  rw [e, fold_add (fun p k b => permAll_at k a b p)]
  simp only [List.mem_cons, mem_subRules]

/-- The registry agrees with the accounts. -/
def State.RegistryExact (s : State) : Prop :=
  ∀ r l a, s.listed r l a ↔ ∃ acc, s.accounts.get a = some acc ∧ (r = acc.rule l ∨ r.Alternative (acc.rule l))

theorem accOp_registry {s s' : State} {a : Addr} {lr : Option (Level × Rule)} (h : AccOp s a lr s')
    (h0 : s.RegistryExact) : s'.RegistryExact := by
  obtain ⟨acc, acc', v, hg, -, hva, hvc, he, hp, hr⟩ := h.rules
  intro r l b
  unfold State.listed
  rw [he, hp]
  have hr' : ∀ l, acc'.rule l = match lr with
      | some (l', r) => if l' = l then r else acc.rule l
      | none => acc.rule l := by
    intro l
    rw [hr]
    cases lr with
    | none => simp only [VAccount.withRule, hvc]
    | some x => simp only [VAccount.withRule, hvc, Account.rule_setRule]
  have hb : b ≠ a → (s.accounts.set a acc').get b = s.accounts.get b := fun h => AMap.get_set_ne _ _ (Ne.symm h)
  have old := h0 r l b
  unfold State.listed at old
  cases lr with
  | none =>
    simp only [authPerms]
    rw [old]
    by_cases hab : b = a
    · subst hab
      simp [hg, hr']
    · rw [hb hab]
  | some x =>
    obtain ⟨l', new⟩ := x
    simp only [authPerms, setAuth_listed, hva, hvc]
    rw [old]
    by_cases hab : b = a
    · subst hab
      simp only [hg, AMap.get_set_self, Option.some.injEq, exists_eq_left', hr', and_true]
      by_cases hl : l' = l
      · subst hl; simp; tauto
      · simp [hl, Ne.symm hl]
    · simp [hb hab, hab]

theorem body_registry {env : Env} {cl : Caller} {s s' : State} {op : Op} {o : Out}
    (h : body env cl s op = Except.ok (s', o)) (h0 : s.RegistryExact) : s'.RegistryExact := by
  cases ho : op.account with
  | none =>
    obtain ⟨e1, e2, -⟩ := body_no_account h ho
    intro r l b
    unfold State.listed
    rw [e1, e2]; exact h0 r l b
  | some a =>
    rcases body_account h ho with ⟨lr, hx, -⟩ | ⟨g, rule, rid, -, hn, hx⟩
    · exact accOp_registry hx h0
    · refine accOp_registry hx ?_
      intro r l b
      have old := h0 r l b
      unfold State.listed at old ⊢
      simp only [State.withNew, register_listed]
      rw [old]
      by_cases hab : b = a
      · subst hab
        simp only [hn, AMap.get_set_self, Option.some.injEq, exists_eq_left']
        cases l <;> simp [Account.fresh, Account.rule]
      · simp [AMap.get_set_ne _ _ (Ne.symm hab), hab]

/-- **C37.** In every reachable state the permission registry lists account `a` under rule `r` at a level
exactly when the account exists and `r` is its rule at that level or a direct alternative of it. -/
theorem c37_registry_exact {env : Env} {s : State} (h : Reach env s) (r : Rule) (l : Level) (a : Addr) :
    a ∈ (permsOf s.perms r).at l ↔
      ∃ acc, s.accounts.get a = some acc ∧ (r = acc.rule l ∨ r.Alternative (acc.rule l)) := by
  have : s.RegistryExact := by
    refine Reach.induct (P := State.RegistryExact) ?_ (fun _ _ _ _ _ hp hb => body_registry hb hp) h
    intro s hg r l a
    unfold State.listed
    rw [hg.perms, hg.accounts]
    cases l <;> simp [permsOf, AMap.getD, AMap.get_empty, Permissions.none, Permissions.at]
  exact this r l a

/-! ## C38 -/

theorem satAny_append (pf : Nat → Bool) (l : List Node) (n : Node) :
    Node.satAny pf (l ++ [n]) = (Node.satAny pf l || n.sat pf) := by
  induction l with
  | nil => simp [Node.satAny]
  | cons x l ih => simp [Node.satAny, ih, Bool.or_assoc]

theorem Node.sat_or (pf : Nat → Bool) (m n : Node) : (m.or n).sat pf = (m.sat pf || n.sat pf) := by
  unfold Node.or
  split
  · simp [Node.sat, satAny_append]
  · simp [Node.sat, Node.satAny]

/-- **C38 (`add_auth_rule`).** If the rule at the given level was a protected one, afterwards exactly those
callers are admitted at this level who satisfied the old rule or satisfy the new alternative; the other levels
are unchanged. -/
theorem c38_add_auth_rule {env : Env} {cl : Caller} {s s' : State} {o : Out} {a : Addr} {oath : Option Bucket}
    {k : Nat} {n m : Node} {l : Level} {acc : Account}
    (h : step env cl s (.addAuthRule oath a k n) = Except.ok (s', o))
    (ha : s.accounts.get a = some acc) (hl : (k, l) = (1, .l1) ∨ (k, l) = (2, .l2) ∨ (k, l) = (3, .l3))
    (hm : acc.rule l = .prot m) :
    ∃ acc', s'.accounts.get a = some acc' ∧
      (∀ pf, (acc'.rule l).sat pf = ((acc.rule l).sat pf || n.sat pf)) ∧ ∀ j, j ≠ l → acc'.rule j = acc.rule j := by
  obtain ⟨acc', h1, h2⟩ := step_rules h ha
  refine ⟨acc', h1, fun pf => ?_, fun j hj => ?_⟩
  · rw [h2, hm]
    rcases hl with e | e | e <;> cases e <;>
      (simp only [Account.rule] at hm; simp [Op.account, Op.ruleChange, hm, extendRule, Rule.sat, Node.sat_or])
  · rw [h2]
    rcases hl with e | e | e <;> cases e <;> simp [Op.account, Op.ruleChange, Ne.symm hj]

/-- **C38 (`create_recovery_key`).** If the level-1 rule was a protected one, afterwards exactly those callers are
admitted at level 1 who were before or who hold the new recovery key; levels 2 and 3 are unchanged. -/
theorem c38_recovery_key {env : Env} {cl : Caller} {s s' : State} {o : Out} {a : Addr} {oath : Option Bucket}
    {m : Node} {acc : Account} (h : step env cl s (.createRecoveryKey oath a) = Except.ok (s', o))
    (ha : s.accounts.get a = some acc) (hm : acc.level1 = .prot m) :
    ∃ acc', s'.accounts.get a = some acc' ∧
      (∀ pf, acc'.level1.sat pf = (acc.level1.sat pf || pf (env.recoveryProof s.recoveryKeys))) ∧
      acc'.level2 = acc.level2 ∧ acc'.level3 = acc.level3 := by
  obtain ⟨acc', h1, h2⟩ := step_rules h ha
  refine ⟨acc', h1, fun pf => ?_, ?_, ?_⟩
  · have := h2 .l1
    simp only [Account.rule, Op.account, Op.ruleChange, if_true, hm, extendRule] at this
    rw [this, hm]
    simp [Rule.sat, Node.sat_or, Node.sat]
  · have := h2 .l2
    simpa [Account.rule, Op.account, Op.ruleChange] using this
  · have := h2 .l3
    simpa [Account.rule, Op.account, Op.ruleChange] using this

/-- The caller who adds an alternative at level 1 keeps level 1, even if the rule was open to all, provided he
satisfies the new alternative or the old rule was protected. -/
theorem c38_caller_keeps_level1 {env : Env} {cl : Caller} {s s' : State} {o : Out} {a : Addr} {oath : Option Bucket}
    {m : Node} {acc : Account} {n : Node} {k : Nat} (h : step env cl s (.addAuthRule oath a k n) = Except.ok (s', o))
    (ha : s.accounts.get a = some acc) (hm : acc.level1 = .prot m) :
    ∃ acc', s'.accounts.get a = some acc' ∧ acc'.level1.sat cl.pf = true := by
  obtain ⟨acc0, hg, hs⟩ := c36_levels h rfl
  rw [ha] at hg; cases hg
  obtain ⟨acc', h1, h2⟩ := step_rules h ha
  refine ⟨acc', h1, ?_⟩
  have hs : acc.level1.sat cl.pf = true := hs
  have h3 := h2 .l1
  by_cases hk : k = 1
  · subst hk
    simp only [Account.rule, Op.account, Op.ruleChange, if_true, hm, extendRule] at h3
    rw [hm] at hs
    rw [h3]
    simp only [Rule.sat] at hs
    simp [Rule.sat, Node.sat_or, hs]
  · have : acc'.level1 = acc.level1 := by
      have h3 : acc'.level1 = _ := h3
      rw [h3]
      simp only [Op.account, if_true]
      rcases k with _ | _ | _ | _ | k
      · simp only [Op.ruleChange]; rfl
      · exact absurd rfl hk
      all_goals simp [Op.ruleChange, Account.rule]
    rw [this]; exact hs

/-- The restriction to protected rules in C38 is necessary: a rule open to all is replaced, so afterwards only
holders of the added node are admitted at that level. -/
theorem c38_open_rule_replaced {env : Env} {cl : Caller} {s s' : State} {o : Out} {a : Addr} {oath : Option Bucket}
    {n : Node} {acc : Account} (h : step env cl s (.addAuthRule oath a 1 n) = Except.ok (s', o))
    (ha : s.accounts.get a = some acc) (hm : acc.level1 = .allowAll) :
    ∃ acc', s'.accounts.get a = some acc' ∧ ∀ pf, acc'.level1.sat pf = n.sat pf := by
  obtain ⟨acc', h1, h2⟩ := step_rules h ha
  refine ⟨acc', h1, fun pf => ?_⟩
  have := h2 .l1
  simp only [Account.rule, Op.account, Op.ruleChange, if_true, hm, extendRule] at this
  rw [this]; rfl

namespace Scn

/-- A caller who can show exactly one proof. -/
def only (p : Nat) : Caller := { pf := fun q => q == p, refs := fun _ => false }

/-- C36, C38: the holder of proof 11 manages account 100, the holder of proof 12 does not. -/
def runsAs (cl : Caller) (op : Op) : Bool :=
  match step env cl open_ op with
  | .ok _ => true
  | .error _ => false

example : runsAs (only 11) (.setLevelAuth none 100 .l3 (.prot (.anyOf [.proof 11, .proof 20]))) = true ∧
    runsAs (only 12) (.setLevelAuth none 100 .l3 (.prot (.anyOf [.proof 11, .proof 20]))) = false ∧
    runsAs (only 11) (.removeCollateralRequest none 1000 100 100 [(BASE, d 1)]) = true ∧
    runsAs (only 12) (.removeCollateralRequest none 1000 100 100 [(BASE, d 1)]) = false ∧
    runsAs (only 11) (.cancelRequests none 100 [1]) = true ∧
    runsAs (only 12) (.cancelRequests none 100 [1]) = false := by decide +kernel

/-- Account 100 after two alternatives have been added at level 1. -/
def shared : State := after open_ [.addAuthRule none 100 1 (.proof 30), .createRecoveryKey none 100]

theorem shared_reach : Reach env shared := after_reach open_reach _

example : ∃ acc, shared.accounts.get 100 = some acc ∧
    (acc.level1 = .prot (.anyOf [.proof 11, .proof 30, .proof 1000]) ∧ acc.level2 = .prot (.proof 11)) :=
  tested (by decide +kernel)

/-- C37: the registry lists account 100 under the whole rule and under each alternative, and no longer under the
intermediate rule. -/
example : (100 ∈ (permsOf shared.perms (.prot (.anyOf [.proof 11, .proof 30, .proof 1000]))).at .l1) ∧
    (100 ∈ (permsOf shared.perms (.prot (.proof 30))).at .l1) ∧
    (100 ∈ (permsOf shared.perms (.prot (.proof 11))).at .l1) ∧
    (100 ∉ (permsOf shared.perms (.prot (.anyOf [.proof 11, .proof 30]))).at .l1) ∧
    (100 ∉ (permsOf shared.perms (.prot (.proof 30))).at .l2) := by decide +kernel

/-- C38: the new key holder can now change rules. -/
example : ∃ s' o, step env anyone shared (.setLevelAuth none 100 .l2 .denyAll) = Except.ok (s', o) ∧
    s'.recoveryKeys = 1 := stepped (by decide +kernel)

end Scn

end Perp
