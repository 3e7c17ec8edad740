import Verif.Lifecycle

/-!
# C09, C11, C12 and the request limit of C26: placing orders
-/

namespace Perp

theorem pushRequest_exact {v v' : VAccount} {now : Int} {r : Request} {delay expiry : Nat} {st : Status}
    {eff : List Addr} (hi : RInv v) (h : v.pushRequest now r delay expiry st eff = Except.ok v') :
    RInv v' ∧ v'.reqs = v.reqs ++ [⟨r, now + u64AsI64 delay, now + u64AsI64 delay + u64AsI64 expiry, st, eff⟩] ∧
      v'.activeLen = v.activeLen + 1 ∧ v'.activeAdditions = v.activeAdditions ++ [v.reqs.length] ∧
      v'.activeRemovals = v.activeRemovals ∧ v'.addr = v.addr ∧ v'.comp = v.comp ∧ v'.validStart = v.validStart := by
  obtain ⟨a, kr, b, c1, -, c2, c3, c4, c5, -, -, -, -, d1, d2, d3, g⟩ := pushRequest_inv hi h
  obtain ⟨k1, k2, k3, k4, k5⟩ := kr
  simp only at c1 c2 c3 c4 c5
  subst c1 c2 c3 c4 c5
  unfold ReqOnly at g
  exact ⟨a, b, d1, d2, d3, by rw [g], by rw [g], by rw [g]⟩

/-- The size of the active set that will be written back. -/
structure Counted (v : VAccount) : Prop where
  inv : RInv v
  len : v.activeLen = v.comp.active.card + v.activeAdditions.length
  rem : v.activeRemovals = []
  start : v.validStart = v.comp.validStart
  new : ∀ i ∈ v.activeAdditions, i < v.reqs.length

theorem Counted.card {v : VAccount} (h : Counted v) : v.realActive.card ≤ v.activeLen := by
  unfold VAccount.realActive
  rw [h.rem, h.start, h.len]
  simp only [gt_iff_lt, lt_self_iff_false, if_false, List.toFinset_nil, Finset.sdiff_empty]
  exact (Finset.card_union_le _ _).trans (Nat.add_le_add_left (List.toFinset_card_le _) _)

theorem Counted.push {v v' : VAccount} {now : Int} {r : Request} {delay expiry : Nat} {st : Status}
    {eff : List Addr} (hi : Counted v) (h : v.pushRequest now r delay expiry st eff = Except.ok v') :
    Counted v' ∧ v'.reqs = v.reqs ++ [⟨r, now + u64AsI64 delay, now + u64AsI64 delay + u64AsI64 expiry, st, eff⟩] ∧
      v'.addr = v.addr := by
  obtain ⟨a, b, c, d, e, f, g, k⟩ := pushRequest_exact hi.inv h
  refine ⟨⟨a, ?_, by rw [e, hi.rem], by rw [k, g, hi.start], ?_⟩, b, f⟩
  · rw [c, g, d, hi.len, List.length_append]; simp; omega
  · intro i hm
    rw [d] at hm
    rw [b]
    simp only [List.mem_append, List.mem_singleton, List.length_append, List.length_cons, List.length_nil] at hm ⊢
    rcases hm with hm | hm
    · have := hi.new i hm; omega
    · omega

/-- An exit order: reduce-only, opposite amount, dormant, with the same window as the main order. -/
def exitOrder (now : Int) (q : OrderArgs) (limit : PriceLimit) (cancel : List Nat) : KeeperRequest where
  request := .marginOrder { pair := q.pair, amount := -q.amount, reduceOnly := true, priceLimit := limit,
                            slippageLimit := q.slippageLimit, activate := [], cancel }
  submission := now + u64AsI64 q.delay
  expiry := now + u64AsI64 q.delay + u64AsI64 q.expiry
  status := STATUS_DORMANT
  effected := []

/-- The order itself. -/
def mainOrder (now : Int) (q : OrderArgs) (activate cancel : List Nat) (st : Status) : KeeperRequest where
  request := .marginOrder { pair := q.pair, amount := q.amount, reduceOnly := q.reduceOnly, priceLimit := q.priceLimit,
                            slippageLimit := q.slippageLimit, activate, cancel }
  submission := now + u64AsI64 q.delay
  expiry := now + u64AsI64 q.delay + u64AsI64 q.expiry
  status := st
  effected := []

theorem Counted.pushExit {v v' : VAccount} {now : Int} {q : OrderArgs} {l : Option PriceLimit} {cancel : List Nat}
    (hi : Counted v) (h : pushExit v now q l cancel = Except.ok v') :
    Counted v' ∧ v'.reqs = v.reqs ++ (l.map (fun x => exitOrder now q x cancel)).toList ∧ v'.addr = v.addr := by
  unfold Perp.pushExit at h
  cases l with
  | none => simp only [pure_ok] at h; subst h; exact ⟨hi, by simp, rfl⟩
  | some l =>
    simp only [bind_ok, dneg_ok] at h
    obtain ⟨_, ⟨-, rfl⟩, h⟩ := h
    exact hi.push h

theorem load_counted {s : State} {a : Addr} {v : VAccount} (h : s.load a = Except.ok v) (h0 : s.RequestsOk) (x : Dec) :
    Counted { v with vb := v.vb - x } := by
  obtain ⟨hi, acc, hg, hcomp, hq, hs, hl, had, hlen, h1, h2, h3⟩ := load_rinv h h0
  refine ⟨rinv_congr (a := v) rfl hi, ?_, h3, ?_, ?_⟩
  · simp only [h2, hlen, hcomp]; rfl
  · simp only [hcomp, hs]
  · simp only [h2]; intro i hm; cases hm

/-- Facts about every way of placing requests. -/
structure Placed (s s' : State) (a : Addr) (acc : Account) (news : List KeeperRequest) : Prop where
  out : ∃ acc', s'.accounts.get a = some acc' ∧ acc'.requests = acc.requests ++ news ∧
    acc'.active.card ≤ s.config.exchange.decompress.activeRequestsMax

theorem placed_of {s s1 s' : State} {a : Addr} {v2 : VAccount} {acc acc' : Account} {refs : AMap RefId ReferralData}
    {cfg : VConfig} {news : List KeeperRequest} (hc : Counted v2) (hr : Realizes s1 v2 acc' refs)
    (he : s' = s1.realizedAcc v2 acc' refs) (had : v2.addr = a) (hreq : v2.reqs = acc.requests ++ news)
    (hlim : v2.activeLen ≤ cfg.ex.activeRequestsMax) (hex : cfg.ex = s.config.exchange.decompress) :
    Placed s s' a acc news := by
  obtain ⟨-, b, -, d⟩ := realize_rinv hc.inv hr.1
  refine ⟨acc', by rw [he]; simp [State.realizedAcc, had], by rw [b, hreq], ?_⟩
  rw [d, ← hex]
  exact hc.card.trans hlim

theorem place_withdrawal {env : Env} {cl : Caller} {s s' : State} {oath : Option Bucket} {expiry : Nat}
    {a target : Addr} {claims : List (Res × Dec)} {o : Out} (hr : Reach env s)
    (h : step env cl s (.removeCollateralRequest oath expiry a target claims) = Except.ok (s', o)) :
    ∃ acc, s.accounts.get a = some acc ∧ o.indexes = [some acc.requests.length] ∧
      Placed s s' a acc [⟨.removeCollateral { target, claims }, s.now, s.now + u64AsI64 expiry, STATUS_ACTIVE, [target]⟩] := by
  obtain ⟨v, s1, v1, cfg, v2, acc', refs, hv, -, hp, hpush, hlim, hre, he, ho⟩ := removeCollateralRequest_ok (step_body h)
  have h0 := reach_requestsOk hr
  obtain ⟨-, acc, hg, -, hq, -, hl, had, -⟩ := load_rinv hv h0
  obtain ⟨rfl, rfl, -, -, hcfg⟩ := payOath_frame hp
  have hc := load_counted hv h0 (oathAmt oath)
  obtain ⟨h1, h2, h3⟩ := hc.push hpush
  have hnow : s.now + u64AsI64 0 = s.now := by
    have : u64AsI64 0 = 0 := by decide
    rw [this, add_zero]
  have hnews : v2.reqs = acc.requests ++
      [⟨.removeCollateral { target, claims }, s.now, s.now + u64AsI64 expiry, STATUS_ACTIVE, [target]⟩] := by
    rw [h2]
    have : ({ v with vb := v.vb - oathAmt oath } : VAccount).reqs = acc.requests := hq
    rw [this]
    have e : (s.burnt (oathAmt oath)).now = s.now := rfl
    rw [e, hnow]
  exact ⟨acc, hg, by rw [ho, ← hl], placed_of h1 hre he (h3.trans had) hnews hlim (VConfig.new_ex hcfg)⟩

theorem place_order {env : Env} {cl : Caller} {s s' : State} {oath : Option Bucket} {a : Addr} {q : OrderArgs}
    {activate cancel : List RequestIndexRef} {status : Status} {o : Out} (hr : Reach env s)
    (h : step env cl s (.marginOrderRequest oath a q activate cancel status) = Except.ok (s', o)) :
    ∃ acc act can, s.accounts.get a = some acc ∧ o.indexes = [some acc.requests.length] ∧
      resolveAll activate acc.requests.length = Except.ok act ∧ resolveAll cancel acc.requests.length = Except.ok can ∧
      Placed s s' a acc [mainOrder s.now q act can status] := by
  obtain ⟨v, s1, v1, cfg, act, can, v2, acc', refs, hv, -, hp, hact, hcan, hpush, hlim, hre, he, ho⟩ :=
    marginOrderRequest_ok (step_body h)
  have h0 := reach_requestsOk hr
  obtain ⟨-, acc, hg, -, hq, -, hl, had, -⟩ := load_rinv hv h0
  obtain ⟨rfl, rfl, -, -, hcfg⟩ := payOath_frame hp
  have hc := load_counted hv h0 (oathAmt oath)
  obtain ⟨h1, h2, h3⟩ := hc.push hpush
  refine ⟨acc, act, can, hg, by rw [ho, ← hl], by rw [← hl]; exact hact, by rw [← hl]; exact hcan,
    placed_of h1 hre he (h3.trans had) ?_ hlim (VConfig.new_ex hcfg)⟩
  rw [h2]
  have : ({ v with vb := v.vb - oathAmt oath } : VAccount).reqs = acc.requests := hq
  rw [this]; rfl

/-! ## C12 -/

/-- Take-profit of a long (bought) position triggers at or above the price, of a short one at or below. -/
def takeProfitLimit (amount price : Dec) : PriceLimit := if 0 < amount then .gte price else .lte price
/-- Stop-loss triggers on the other side. -/
def stopLossLimit (amount price : Dec) : PriceLimit := if 0 < amount then .lte price else .gte price

theorem exitLimit_tp (amount price : Dec) : exitLimit true amount price = takeProfitLimit amount price := by
  unfold exitLimit takeProfitLimit
  by_cases h : 0 < amount <;> simp [h]

theorem exitLimit_sl (amount price : Dec) : exitLimit false amount price = stopLossLimit amount price := by
  unfold exitLimit stopLossLimit
  by_cases h : 0 < amount <;> simp [h]

/-- **C12.** `margin_order_tp_sl_request` records exactly the main order plus one dormant reduce-only order of the
opposite amount per given price: take-profit on the profitable side and stop-loss on the losing side, the main order
activating both, each cancelling the other, and returns their indexes. -/
theorem c12_tp_sl_shape {env : Env} {cl : Caller} {s s' : State} {oath : Option Bucket} {a : Addr} {q : OrderArgs}
    {tp sl : Option Dec} {o : Out} (hr : Reach env s)
    (h : step env cl s (.marginOrderTpSlRequest oath a q tp sl) = Except.ok (s', o)) :
    ∃ (acc acc' : Account) (iTp iSl : Option Nat), s.accounts.get a = some acc ∧ s'.accounts.get a = some acc' ∧
      iTp = tp.map (fun _ => acc.requests.length + 1) ∧
      iSl = sl.map (fun _ => if tp.isSome then acc.requests.length + 2 else acc.requests.length + 1) ∧
      o.indexes = [some acc.requests.length, iTp, iSl] ∧
      acc'.requests = acc.requests ++ [mainOrder s.now q (iTp.toList ++ iSl.toList) [] STATUS_ACTIVE] ++
        (tp.map (fun p => exitOrder s.now q (takeProfitLimit q.amount p) iSl.toList)).toList ++
        (sl.map (fun p => exitOrder s.now q (stopLossLimit q.amount p) iTp.toList)).toList ∧
      acc'.active.card ≤ s.config.exchange.decompress.activeRequestsMax := by
  obtain ⟨v, s1, v1, cfg, v2, v3, v4, acc', refs, iTp, iSl, hv, -, hp, hTp, hSl, h2, h3, h4, hlim, hre, he, ho⟩ :=
    marginOrderTpSlRequest_ok (step_body h)
  have h0 := reach_requestsOk hr
  obtain ⟨-, acc, hg, -, hq, -, hl, had, -⟩ := load_rinv hv h0
  obtain ⟨rfl, rfl, -, -, hcfg⟩ := payOath_frame hp
  have hc := load_counted hv h0 (oathAmt oath)
  obtain ⟨a1, b1, c1⟩ := hc.push h2
  obtain ⟨a2, b2, c2⟩ := a1.pushExit h3
  obtain ⟨a3, b3, c3⟩ := a2.pushExit h4
  obtain ⟨acc2, e1, e2, e3⟩ := (placed_of (acc := acc) a3 hre he (c3.trans (c2.trans (c1.trans had)))
    (news := [mainOrder s.now q (iTp.toList ++ iSl.toList) [] STATUS_ACTIVE] ++
        (tp.map (fun p => exitOrder s.now q (takeProfitLimit q.amount p) iSl.toList)).toList ++
        (sl.map (fun p => exitOrder s.now q (stopLossLimit q.amount p) iTp.toList)).toList) (by
      rw [b3, b2, b1]
      have : ({ v with vb := v.vb - oathAmt oath } : VAccount).reqs = acc.requests := hq
      rw [this]
      simp only [Option.map_map, Function.comp_def, exitLimit_tp, exitLimit_sl, List.append_assoc]
      rfl) hlim (VConfig.new_ex hcfg)).out
  refine ⟨acc, acc2, iTp, iSl, hg, e1, by rw [hTp]; simp only [hl], ?_, by rw [ho]; simp only [hl], ?_, e3⟩
  · rw [hSl]; simp only [hl]; cases tp <;> rfl
  · rw [e2]; simp only [List.append_assoc]

/-! ## C26: the limit on active requests -/

/-- **C26 (active requests).** After placing requests with any of the three methods the account has at most
`active_requests_max` active requests. -/
theorem c26_active_requests {env : Env} {cl : Caller} {s s' : State} {op : Op} {o : Out} {a : Addr} (hr : Reach env s)
    (h : step env cl s op = Except.ok (s', o))
    (hop : (∃ oath e t c, op = .removeCollateralRequest oath e a t c) ∨
      (∃ oath q act can st, op = .marginOrderRequest oath a q act can st) ∨
      (∃ oath q tp sl, op = .marginOrderTpSlRequest oath a q tp sl)) :
    ∃ acc', s'.accounts.get a = some acc' ∧
      acc'.active.card ≤ s.config.exchange.decompress.activeRequestsMax := by
  rcases hop with ⟨oath, e, t, c, rfl⟩ | ⟨oath, q, act, can, st, rfl⟩ | ⟨oath, q, tp, sl, rfl⟩
  · obtain ⟨acc, -, -, ⟨acc', h1, -, h2⟩⟩ := place_withdrawal hr h
    exact ⟨acc', h1, h2⟩
  · obtain ⟨acc, _, _, -, -, -, -, ⟨acc', h1, -, h2⟩⟩ := place_order hr h
    exact ⟨acc', h1, h2⟩
  · obtain ⟨acc, acc', _, _, -, h1, -, -, -, -, h2⟩ := c12_tp_sl_shape hr h
    exact ⟨acc', h1, h2⟩

/-! ## C09 -/

theorem u64AsI64_small {n : Nat} (h : n < 2 ^ 63) : u64AsI64 n = n := by
  unfold u64AsI64
  have h' : (n : Int) < 2 ^ 63 := by exact_mod_cast h
  have : (n : Int) % 2 ^ 64 = n := by omega
  simp only [this]
  rw [if_pos h']

theorem u64AsI64_big {n : Nat} (h : 2 ^ 63 ≤ n) (h' : n < 2 ^ 64) : u64AsI64 n = n - 2 ^ 64 := by
  unfold u64AsI64
  have h1 : (2 ^ 63 : Int) ≤ n := by exact_mod_cast h
  have h2 : (n : Int) < 2 ^ 64 := by exact_mod_cast h'
  have : (n : Int) % 2 ^ 64 = n := by omega
  simp only [this]
  rw [if_neg (by omega)]

/-- Orders placed with a delay, and the indexes of what was placed. -/
inductive PlacedWithDelay : Op → Out → Addr → Nat → Nat → Prop where
  | order {oath a q act can st o i} : some i ∈ o.indexes → PlacedWithDelay (.marginOrderRequest oath a q act can st) o a q.delay i
  | tpsl {oath a q tp sl o i} : some i ∈ o.indexes → PlacedWithDelay (.marginOrderTpSlRequest oath a q tp sl) o a q.delay i
  | withdrawal {oath e a t c o i} : some i ∈ o.indexes → PlacedWithDelay (.removeCollateralRequest oath e a t c) o a 0 i

theorem placed_submission {env : Env} {cl : Caller} {s s' : State} {op : Op} {o : Out} {a : Addr} {delay i : Nat}
    (hr : Reach env s) (h : step env cl s op = Except.ok (s', o)) (hp : PlacedWithDelay op o a delay i) :
    ∃ (acc' : Account) (r : KeeperRequest), s'.accounts.get a = some acc' ∧ acc'.requests[i]? = some r ∧
      r.submission = s.now + u64AsI64 delay := by
  cases hp with
  | order hi =>
    obtain ⟨acc, act, can, -, ho, -, -, ⟨acc', h1, h2, -⟩⟩ := place_order hr h
    rw [ho] at hi
    simp only [List.mem_singleton, Option.some.injEq] at hi
    subst hi
    exact ⟨acc', _, h1, by rw [h2]; simp; rfl, rfl⟩
  | withdrawal hi =>
    obtain ⟨acc, -, ho, ⟨acc', h1, h2, -⟩⟩ := place_withdrawal hr h
    rw [ho] at hi
    simp only [List.mem_singleton, Option.some.injEq] at hi
    subst hi
    refine ⟨acc', _, h1, by rw [h2]; simp; rfl, ?_⟩
    have : u64AsI64 0 = 0 := by decide
    rw [this, add_zero]
  | tpsl hi =>
    rename_i oath q tp sl
    obtain ⟨acc, acc', iTp, iSl, -, h1, e1, e2, ho, h2, -⟩ := c12_tp_sl_shape hr h
    rw [ho] at hi
    have key : ∃ k : KeeperRequest, acc'.requests[i]? = some k ∧ k.submission = s.now + u64AsI64 q.delay := by
      rw [h2]
      subst e1 e2
      cases tp <;> cases sl <;>
        simp only [Option.map_none, Option.map_some, Option.isSome_none, Option.isSome_some, Bool.false_eq_true, if_false,
          if_true, Option.toList_none, Option.toList_some, List.mem_cons, Option.some.injEq, List.not_mem_nil,
          reduceCtorEq, or_false, false_or, List.append_nil, List.append_assoc] at hi ⊢
      · subst hi
        exact ⟨_, by simp; rfl, rfl⟩
      · rcases hi with hi | hi <;> subst hi
        · exact ⟨_, by simp; rfl, rfl⟩
        · exact ⟨_, by simp; rfl, rfl⟩
      · rcases hi with hi | hi <;> subst hi
        · exact ⟨_, by simp; rfl, rfl⟩
        · exact ⟨_, by simp; rfl, rfl⟩
      · rcases hi with hi | hi | hi <;> subst hi
        · exact ⟨_, by simp; rfl, rfl⟩
        · exact ⟨_, by simp; rfl, rfl⟩
        · exact ⟨_, by simp; rfl, rfl⟩
    obtain ⟨k, h3, h4⟩ := key
    exact ⟨acc', k, h1, h3, h4⟩

/-- **C09 (partial: delays below 2^63 seconds).** A request placed with delay `d` at time `t` cannot be processed,
in any later state, while the time is at most `t + d`.  Missing: delays of 2^63 and more, for which the claim is
false of the code (`c09_delay_wraps`). -/
theorem c09_delay_partial {env : Env} {cl cl' : Caller} {s s' t : State} {op : Op} {o : Out} {a : Addr} {delay i : Nat}
    {u : Option PriceUpdate} (hr : Reach env s) (h : step env cl s op = Except.ok (s', o))
    (hp : PlacedWithDelay op o a delay i) (hd : delay < 2 ^ 63) (hl : Later env s' t) (ht : t.now ≤ s.now + delay) :
    ∀ x, step env cl' t (.processRequest a i u) ≠ Except.ok x := by
  rintro ⟨t', o'⟩ hx
  obtain ⟨acc', r, h1, h2, h3⟩ := placed_submission hr h hp
  have hr' : Reach env s' := .step hr h
  obtain ⟨acc2, r2, h4, h5, -, h6, -⟩ := c07_content_fixed hr' hl h1 h2
  obtain ⟨acc3, _, r3, _, h7, h8, -, -, -, h9, -⟩ := process_requires (hl.reach hr') hx
  rw [h4] at h7; cases h7
  rw [h5] at h8; cases h8
  rw [u64AsI64_small hd] at h3
  omega

/-- **C09 (counterexample).** A delay of `2^64 - k` seconds (`0 < k ≤ 2^63`) is recorded as a submission time `k`
seconds in the past. -/
theorem c09_delay_wraps {env : Env} {cl : Caller} {s s' : State} {op : Op} {o : Out} {a : Addr} {delay i k : Nat}
    (hr : Reach env s) (h : step env cl s op = Except.ok (s', o)) (hp : PlacedWithDelay op o a delay i)
    (hk : 0 < k) (hk' : k ≤ 2 ^ 63) (hd : delay = 2 ^ 64 - k) :
    ∃ (acc' : Account) (r : KeeperRequest), s'.accounts.get a = some acc' ∧ acc'.requests[i]? = some r ∧
      r.submission = s.now - k := by
  obtain ⟨acc', r, h1, h2, h3⟩ := placed_submission hr h hp
  refine ⟨acc', r, h1, h2, ?_⟩
  rw [h3, u64AsI64_big (by omega) (by omega)]
  omega

/-! ## C11 -/

/-- The status of request `i` of account `a`. -/
def State.statusOf (s : State) (a : Addr) (i : Nat) : Option Status :=
  (s.accounts.get a).bind (fun acc => (acc.requests[i]?).map KeeperRequest.status)

/-- Only `process_request` of that very request makes a request Executed, and then the requests it cancels are
no longer pending. -/
theorem executed_by {s : State} {op : Op} {a : Addr} {acc acc' : Account} {o : Out}
    (h : ReqEffect s op a acc acc' o) {i : Nat} {r r' : KeeperRequest} (h1 : acc.requests[i]? = some r)
    (h2 : acc'.requests[i]? = some r') (h3 : r'.status = STATUS_EXECUTED) (h4 : r.status ≠ STATUS_EXECUTED) :
    r.status = STATUS_ACTIVE ∧ ∀ j ∈ r.request.cancels, ∀ x : KeeperRequest, acc'.requests[j]? = some x →
      x.status ≠ STATUS_ACTIVE ∧ x.status ≠ STATUS_DORMANT := by
  cases h with
  | same e => rw [e, h1] at h2; cases h2; exact absurd h3 h4
  | pushed news e =>
    rw [e, List.getElem?_append_left (List.getElem?_eq_some_iff.mp h1).1, h1] at h2
    cases h2; exact absurd h3 h4
  | cancelled f is _ _ e =>
    rw [e, h1] at h2
    simp only [Option.map_some, Option.some.injEq] at h2
    subst h2
    rcases (moves_restatus_cancel (is := is) (j := i) r).2 with q | ⟨-, q⟩
    · rw [q] at h3; exact absurd h3 h4
    · rw [q] at h3; cases h3
  | liquidated p u _ e => rw [e, h1] at h2; cases h2; exact absurd h3 h4
  | expired j u x _ hx _ _ _ _ e =>
    by_cases hj : i = j
    · subst hj
      rw [e, List.getElem?_set_self (List.getElem?_eq_some_iff.mp h1).1] at h2
      cases h2; cases h3
    · rw [e, List.getElem?_set_ne (Ne.symm hj), h1] at h2; cases h2; exact absurd h3 h4
  | executed j u x _ hx _ hact _ _ e =>
    by_cases hj : i = j
    · subst hj
      rw [h1] at hx; cases hx
      refine ⟨hact, ?_⟩
      intro k hk y hy
      rw [e] at hy
      cases hz : ((acc.requests.set i { r with status := STATUS_EXECUTED })[k]?) with
      | none => rw [hz] at hy; cases hy
      | some z =>
        rw [hz] at hy
        simp only [Option.map_some, Option.some.injEq] at hy
        subst hy
        generalize restatus r.request.activates [STATUS_DORMANT] STATUS_ACTIVE k z = z'
        unfold restatus
        split
        · constructor <;> (intro q; cases q)
        · rename_i hn
          simp only [hk, true_and, List.mem_cons, List.not_mem_nil, or_false, not_or] at hn
          exact hn
    · exfalso
      rw [e, List.getElem?_set_ne (Ne.symm hj), h1] at h2
      simp only [Option.map_some, Option.some.injEq] at h2
      subst h2
      rcases (moves_restatus_cancel (is := x.request.cancels) (j := i)
        (restatus x.request.activates [STATUS_DORMANT] STATUS_ACTIVE i r)).2 with q | ⟨-, q⟩
      · rw [q] at h3
        rcases (moves_restatus_activate (is := x.request.activates) (j := i) r).2 with q | ⟨-, q⟩
        · rw [q] at h3; exact h4 h3
        · rw [q] at h3; cases h3
      · rw [q] at h3; cases h3

/-- Two requests of an account that cancel each other. -/
def Account.MutuallyCancel (acc : Account) (i j : Nat) : Prop :=
  ∃ ri rj : KeeperRequest, acc.requests[i]? = some ri ∧ acc.requests[j]? = some rj ∧
    j ∈ ri.request.cancels ∧ i ∈ rj.request.cancels

/-- If one has been executed the other will never be. -/
def Account.Exclusive (acc : Account) (i j : Nat) : Prop :=
  ∃ ri rj : KeeperRequest, acc.requests[i]? = some ri ∧ acc.requests[j]? = some rj ∧
    j ∈ ri.request.cancels ∧ i ∈ rj.request.cancels ∧
    (ri.status = STATUS_EXECUTED → rj.status = STATUS_CANCELLED ∨ rj.status = STATUS_EXPIRED) ∧
    (rj.status = STATUS_EXECUTED → ri.status = STATUS_CANCELLED ∨ ri.status = STATUS_EXPIRED)

theorem moves_status_cases {a b : Status} (h : Moves a b) :
    (a = STATUS_ACTIVE ∨ a = STATUS_DORMANT) ∧
    (b = STATUS_ACTIVE ∨ b = STATUS_EXECUTED ∨ b = STATUS_CANCELLED ∨ b = STATUS_EXPIRED) := by
  cases h <;> simp

/-- Every recorded status is one of the five. -/
def KnownStatus (st : Status) : Prop :=
  st = STATUS_DORMANT ∨ st = STATUS_ACTIVE ∨ st = STATUS_EXECUTED ∨ st = STATUS_CANCELLED ∨ st = STATUS_EXPIRED

theorem Moves.known {a b : Status} (h : Moves a b) : KnownStatus b := by
  cases h <;> simp [KnownStatus]

theorem reach_known {env : Env} {s : State} (h : Reach env s) {a : Addr} {acc : Account}
    (ha : s.accounts.get a = some acc) {i : Nat} {r : KeeperRequest} (hi : acc.requests[i]? = some r) :
    KnownStatus r.status := by
  induction h generalizing acc i r with
  | init hg => rw [hg.accounts] at ha; simp at ha
  | @step s s' cl op o hr hs ih =>
    by_cases hn : ∀ acc, s.accounts.get a = some acc → acc.requests[i]? = none
    · rcases (c06_created_pending hr hs ha hi hn).2 with e | e <;> simp [KnownStatus, e]
    · simp only [not_forall] at hn
      obtain ⟨acc0, h0, hne⟩ := hn
      obtain ⟨r0, hr0⟩ := Option.ne_none_iff_exists'.mp hne
      obtain ⟨acc1, r1, h1, h2, h3⟩ := c06_status_moves hr hs h0 hr0
      rw [ha] at h1; cases h1
      rw [hi] at h2; cases h2
      rcases h3 with e | m
      · rw [e]; exact ih h0 hr0
      · exact m.known

theorem exclusive_half {st st0 : Status} (hk : KnownStatus st) (h : st ≠ STATUS_ACTIVE ∧ st ≠ STATUS_DORMANT)
    (hm : st = st0 ∨ Moves st0 st) (hn : st0 ≠ STATUS_EXECUTED) (hne : st0 = STATUS_ACTIVE → st ≠ STATUS_EXECUTED) :
    st = STATUS_CANCELLED ∨ st = STATUS_EXPIRED := by
  rcases hk with e | e | e | e | e
  · exact absurd e h.2
  · exact absurd e h.1
  · exfalso
    rcases hm with q | q
    · exact hn (by rw [← q, e])
    · rw [e] at q
      cases q
      exact hne rfl e
  · exact Or.inl e
  · exact Or.inr e

theorem not_both {s : State} {op : Op} {a : Addr} {acc acc' : Account} {o : Out}
    (h : ReqEffect s op a acc acc' o) {i j : Nat} {ri ri' rj rj' : KeeperRequest} (hij : i ≠ j)
    (h1 : acc.requests[i]? = some ri) (h2 : acc'.requests[i]? = some ri')
    (h3 : acc.requests[j]? = some rj) (h4 : acc'.requests[j]? = some rj')
    (e1 : ri'.status = STATUS_EXECUTED) (e2 : rj'.status = STATUS_EXECUTED) (n1 : ri.status ≠ STATUS_EXECUTED) : rj.status = STATUS_EXECUTED := by
  by_contra n2
  cases h with
  | executed k u x _ hx _ hact _ _ e =>
    by_cases hk : i = k
    · subst hk
      rw [e, List.getElem?_set_ne hij, h3] at h4
      simp only [Option.map_some, Option.some.injEq] at h4
      subst h4
      rcases (moves_restatus_cancel (is := x.request.cancels) (j := j)
        (restatus x.request.activates [STATUS_DORMANT] STATUS_ACTIVE j rj)).2 with q | ⟨-, q⟩
      · rw [q] at e2
        rcases (moves_restatus_activate (is := x.request.activates) (j := j) rj).2 with q | ⟨-, q⟩
        · rw [q] at e2; exact n2 e2
        · rw [q] at e2; cases e2
      · rw [q] at e2; cases e2
    · rw [e, List.getElem?_set_ne (Ne.symm hk), h1] at h2
      simp only [Option.map_some, Option.some.injEq] at h2
      subst h2
      rcases (moves_restatus_cancel (is := x.request.cancels) (j := i)
        (restatus x.request.activates [STATUS_DORMANT] STATUS_ACTIVE i ri)).2 with q | ⟨-, q⟩
      · rw [q] at e1
        rcases (moves_restatus_activate (is := x.request.activates) (j := i) ri).2 with q | ⟨-, q⟩
        · rw [q] at e1; exact n1 e1
        · rw [q] at e1; cases e1
      · rw [q] at e1; cases e1
  | same e => rw [e, h1] at h2; cases h2; exact n1 e1
  | pushed news e =>
    rw [e, List.getElem?_append_left (List.getElem?_eq_some_iff.mp h1).1, h1] at h2
    cases h2; exact n1 e1
  | cancelled f is _ _ e =>
    rw [e, h1] at h2
    simp only [Option.map_some, Option.some.injEq] at h2
    subst h2
    rcases (moves_restatus_cancel (is := is) (j := i) ri).2 with q | ⟨-, q⟩
    · rw [q] at e1; exact n1 e1
    · rw [q] at e1; cases e1
  | liquidated p u _ e => rw [e, h1] at h2; cases h2; exact n1 e1
  | expired k u x _ hx _ _ _ _ e =>
    by_cases hk : i = k
    · subst hk
      rw [e, List.getElem?_set_self (List.getElem?_eq_some_iff.mp h1).1] at h2
      cases h2; cases e1
    · rw [e, List.getElem?_set_ne (Ne.symm hk), h1] at h2; cases h2; exact n1 e1

theorem exclusive_side {s : State} {op : Op} {a : Addr} {acc acc' : Account} {o : Out}
    (h : ReqEffect s op a acc acc' o) {i j : Nat} {ri ri' rj rj' : KeeperRequest} (hij : i ≠ j)
    (h1 : acc.requests[i]? = some ri) (h2 : acc'.requests[i]? = some ri')
    (h3 : acc.requests[j]? = some rj) (h4 : acc'.requests[j]? = some rj')
    (mj : rj'.status = rj.status ∨ Moves rj.status rj'.status)
    (hc : j ∈ ri.request.cancels) (hk : KnownStatus rj'.status)
    (x1 : ri.status = STATUS_EXECUTED → rj.status = STATUS_CANCELLED ∨ rj.status = STATUS_EXPIRED)
    (x2 : rj.status = STATUS_EXECUTED → ri.status = STATUS_CANCELLED ∨ ri.status = STATUS_EXPIRED)
    (e1 : ri'.status = STATUS_EXECUTED) : rj'.status = STATUS_CANCELLED ∨ rj'.status = STATUS_EXPIRED := by
  by_cases n1 : ri.status = STATUS_EXECUTED
  · have ht : Terminal rj.status := Or.inr (x1 n1)
    rcases mj with e | m
    · rw [e]; exact x1 n1
    · exact absurd m ht.not_moves
  · obtain ⟨hact, hx⟩ := executed_by h h1 h2 e1 n1
    refine exclusive_half hk (hx j hc rj' h4) mj ?_ ?_
    · intro q
      rcases x2 q with e | e <;> rw [hact] at e <;> cases e
    · intro q e2
      have := not_both h hij h1 h2 h3 h4 e1 e2 n1
      rw [q] at this; cases this

/-- **C11 (exclusion).** If two different requests of an account cancel each other and neither has been executed yet,
then in no later state of any history have both been executed.  By `c12_tp_sl_shape` this applies to the take-profit
and stop-loss orders recorded by `margin_order_tp_sl_request`. -/
theorem c11_mutually_exclusive {env : Env} {s t : State} (hr : Reach env s) (hl : Later env s t) {a : Addr}
    {acc : Account} (ha : s.accounts.get a = some acc) {i j : Nat} (hij : i ≠ j) {ri rj : KeeperRequest}
    (hi : acc.requests[i]? = some ri) (hj : acc.requests[j]? = some rj)
    (hci : j ∈ ri.request.cancels) (hcj : i ∈ rj.request.cancels)
    (hni : ri.status ≠ STATUS_EXECUTED) (hnj : rj.status ≠ STATUS_EXECUTED) :
    ¬ (t.statusOf a i = some STATUS_EXECUTED ∧ t.statusOf a j = some STATUS_EXECUTED) := by
  have key : ∃ acc', t.accounts.get a = some acc' ∧ acc'.Exclusive i j := by
    induction hl with
    | refl => exact ⟨acc, ha, ri, rj, hi, hj, hci, hcj, fun e => absurd e hni, fun e => absurd e hnj⟩
    | step hp hs ih =>
      obtain ⟨acc1, ha1, ri1, rj1, hi1, hj1, ci1, cj1, x1, x2⟩ := ih
      obtain ⟨acc2, ha2, heff⟩ := step_requests (hp.reach hr) hs ha1
      have hev := heff.evolves (reach_requestsOk (hp.reach hr) a acc1 ha1)
      obtain ⟨ri2, hi2, c1, m1⟩ := hev.kept i ri1 hi1
      obtain ⟨rj2, hj2, c2, m2⟩ := hev.kept j rj1 hj1
      have hr2 : Reach env _ := .step (hp.reach hr) hs
      refine ⟨acc2, ha2, ri2, rj2, hi2, hj2, by rw [c1.1]; exact ci1, by rw [c2.1]; exact cj1, ?_, ?_⟩
      · exact exclusive_side heff hij hi1 hi2 hj1 hj2 m2 ci1 (reach_known hr2 ha2 hj2) x1 x2
      · exact exclusive_side heff hij.symm hj1 hj2 hi1 hi2 m1 cj1 (reach_known hr2 ha2 hi2) x2 x1
  obtain ⟨acc', ha', ri', rj', h1, h2, -, -, h3, -⟩ := key
  rintro ⟨e1, e2⟩
  simp only [State.statusOf, ha', h1, h2, Option.bind_some, Option.map_some, Option.some.injEq] at e1 e2
  rcases h3 e1 with e | e <;> rw [e2] at e <;> cases e

/-- A dormant request becomes Active (or Executed) only through the execution of a request that activates it. -/
theorem activated_by {s : State} {op : Op} {a : Addr} {acc acc' : Account} {o : Out}
    (h : ReqEffect s op a acc acc' o) {i : Nat} {r r' : KeeperRequest} (h1 : acc.requests[i]? = some r)
    (h2 : acc'.requests[i]? = some r') (h3 : r.status = STATUS_DORMANT) (h4 : r'.status = STATUS_ACTIVE) :
    ∃ (j : Nat) (x x' : KeeperRequest), acc.requests[j]? = some x ∧ i ∈ x.request.activates ∧
      acc'.requests[j]? = some x' ∧ x'.status = STATUS_EXECUTED := by
  have hno : r'.status ≠ r.status := by rw [h3, h4]; decide
  cases h with
  | same e => rw [e, h1] at h2; cases h2; exact absurd rfl hno
  | pushed news e =>
    rw [e, List.getElem?_append_left (List.getElem?_eq_some_iff.mp h1).1, h1] at h2
    cases h2; exact absurd rfl hno
  | cancelled f is _ _ e =>
    rw [e, h1] at h2
    simp only [Option.map_some, Option.some.injEq] at h2
    subst h2
    rcases (moves_restatus_cancel (is := is) (j := i) r).2 with q | ⟨-, q⟩
    · exact absurd q hno
    · rw [q] at h4; cases h4
  | liquidated p u _ e => rw [e, h1] at h2; cases h2; exact absurd rfl hno
  | expired k u x _ hx _ _ _ _ e =>
    by_cases hk : i = k
    · subst hk
      rw [e, List.getElem?_set_self (List.getElem?_eq_some_iff.mp h1).1] at h2
      cases h2; cases h4
    · rw [e, List.getElem?_set_ne (Ne.symm hk), h1] at h2; cases h2; exact absurd rfl hno
  | executed k u x _ hx _ hact _ _ e =>
    refine ⟨k, x, { x with status := STATUS_EXECUTED }, hx, ?_, ?_, rfl⟩
    · by_cases hk : i = k
      · subst hk
        rw [h1] at hx; cases hx
        rw [h3] at hact; cases hact
      · rw [e, List.getElem?_set_ne (Ne.symm hk), h1] at h2
        simp only [Option.map_some, Option.some.injEq] at h2
        subst h2
        by_contra hn
        have : restatus x.request.activates [STATUS_DORMANT] STATUS_ACTIVE i r = r := by
          unfold restatus; rw [if_neg (fun q => hn q.1)]
        rw [this] at h4
        rcases (moves_restatus_cancel (is := x.request.cancels) (j := i) r).2 with q | ⟨-, q⟩
        · rw [q, h3] at h4; cases h4
        · rw [q] at h4; cases h4
    · rw [e, List.getElem?_set_self (List.getElem?_eq_some_iff.mp hx).1]
      simp [restatus, STATUS_EXECUTED, STATUS_ACTIVE, STATUS_DORMANT]

/-- **C11 (order).** A request that is Dormant now and that, at the later state, no request other than number `m`
lists for activation, is Active or Executed at the later state only if request `m` has been executed. -/
theorem c11_not_before_main {env : Env} {s t : State} (hr : Reach env s) (hl : Later env s t) {a : Addr}
    {acc acc' : Account} (ha : s.accounts.get a = some acc) (ha' : t.accounts.get a = some acc') {i m : Nat}
    {r : KeeperRequest} (hi : acc.requests[i]? = some r) (hd : r.status = STATUS_DORMANT)
    (honly : ∀ (k : Nat) (x : KeeperRequest), acc'.requests[k]? = some x → i ∈ x.request.activates → k = m)
    (hst : t.statusOf a i = some STATUS_ACTIVE ∨ t.statusOf a i = some STATUS_EXECUTED) :
    t.statusOf a m = some STATUS_EXECUTED := by
  have key : ∀ acc', t.accounts.get a = some acc' →
      (∀ (k : Nat) (x : KeeperRequest), acc'.requests[k]? = some x → i ∈ x.request.activates → k = m) →
      ∃ r' : KeeperRequest, acc'.requests[i]? = some r' ∧
        (r'.status = STATUS_ACTIVE ∨ r'.status = STATUS_EXECUTED →
          ∃ x : KeeperRequest, acc'.requests[m]? = some x ∧ x.status = STATUS_EXECUTED) := by
    clear hst ha' honly acc'
    induction hl with
    | refl =>
      intro acc' hg _
      rw [ha] at hg; cases hg
      refine ⟨r, hi, ?_⟩
      rintro (e | e) <;> rw [hd] at e <;> cases e
    | @step s' s'' cl op o hp hs ih =>
      intro acc2 ha2 honly
      obtain ⟨acc1, ha1, -⟩ := later_kept hp hr ha
      obtain ⟨acc2', ha2', heff⟩ := step_requests (hp.reach hr) hs ha1
      rw [ha2] at ha2'; cases ha2'
      have hev := heff.evolves (reach_requestsOk (hp.reach hr) a acc1 ha1)
      obtain ⟨r1, hr1, himp⟩ := ih acc1 ha1 (by
        intro k x hk hm
        obtain ⟨x2, hx2, c, -⟩ := hev.kept k x hk
        exact honly k x2 hx2 (by rw [c.1]; exact hm))
      obtain ⟨r2, hr2, -, hm⟩ := hev.kept i r1 hr1
      refine ⟨r2, hr2, fun hst => ?_⟩
      have keep : (r1.status = STATUS_ACTIVE ∨ r1.status = STATUS_EXECUTED) →
          ∃ x : KeeperRequest, acc2.requests[m]? = some x ∧ x.status = STATUS_EXECUTED := by
        intro h
        obtain ⟨x, hx, hxe⟩ := himp h
        obtain ⟨x2, hx2, -, hxm⟩ := hev.kept m x hx
        refine ⟨x2, hx2, ?_⟩
        rcases hxm with e | e
        · rw [e, hxe]
        · rw [hxe] at e; cases e
      rcases hm with e | e
      · rw [e] at hst; exact keep hst
      · generalize hold : r1.status = st1 at e
        generalize hnew : r2.status = st2 at e hst
        cases e with
        | activate =>
          obtain ⟨j, x, x', hj1, hj2, hj3, hj4⟩ := activated_by heff hr1 hr2 hold hnew
          obtain ⟨x2, hx2, c, -⟩ := hev.kept j x hj1
          have := honly j x2 hx2 (by rw [c.1]; exact hj2)
          subst this
          exact ⟨x', hj3, hj4⟩
        | execute => exact keep (Or.inl hold)
        | _ => rcases hst with q | q <;> cases q
  obtain ⟨r', h1, h2⟩ := key acc' ha' honly
  simp only [State.statusOf, ha', h1, Option.bind_some, Option.map_some, Option.some.injEq] at hst ⊢
  obtain ⟨x, hx, hxe⟩ := h2 hst
  rw [hx]; simp [hxe]


/-- **C11.** For the orders placed by one `margin_order_tp_sl_request` with both prices: in no later state have both the
take-profit and the stop-loss been executed; and as long as no other order of the account lists them for activation,
neither has been executed before the main order. -/
theorem c11_tp_sl {env : Env} {cl : Caller} {s s' t : State} {oath : Option Bucket} {a : Addr} {q : OrderArgs}
    {tp sl : Dec} {o : Out} {m i j : Nat} (hr : Reach env s)
    (h : step env cl s (.marginOrderTpSlRequest oath a q (some tp) (some sl)) = Except.ok (s', o))
    (ho : o.indexes = [some m, some i, some j]) (hl : Later env s' t) :
    ¬ (t.statusOf a i = some STATUS_EXECUTED ∧ t.statusOf a j = some STATUS_EXECUTED) ∧
    ∀ acc, t.accounts.get a = some acc →
      (∀ (k : Nat) (x : KeeperRequest), acc.requests[k]? = some x → k ≠ m → i ∉ x.request.activates ∧ j ∉ x.request.activates) →
      (t.statusOf a i = some STATUS_EXECUTED ∨ t.statusOf a j = some STATUS_EXECUTED) →
      t.statusOf a m = some STATUS_EXECUTED := by
  obtain ⟨acc, acc', iTp, iSl, -, ha', e1, e2, ho', hreq, -⟩ := c12_tp_sl_shape hr h
  subst e1 e2
  rw [ho'] at ho
  simp only [Option.map_some, Option.isSome_some, if_true, List.cons.injEq, Option.some.injEq, and_true] at ho
  obtain ⟨rfl, rfl, rfl⟩ := ho
  have hr' : Reach env s' := .step hr h
  have hi : acc'.requests[acc.requests.length + 1]? =
      some (exitOrder s.now q (takeProfitLimit q.amount tp) [acc.requests.length + 2]) := by
    rw [hreq]; simp
  have hj : acc'.requests[acc.requests.length + 2]? =
      some (exitOrder s.now q (stopLossLimit q.amount sl) [acc.requests.length + 1]) := by
    rw [hreq]; simp
  refine ⟨c11_mutually_exclusive hr' hl ha' (by omega) hi hj (by simp [exitOrder, Request.cancels])
    (by simp [exitOrder, Request.cancels]) (by simp [exitOrder, STATUS_DORMANT, STATUS_EXECUTED])
    (by simp [exitOrder, STATUS_DORMANT, STATUS_EXECUTED]), ?_⟩
  intro acc2 ha2 honly hst
  rcases hst with hst | hst
  · refine c11_not_before_main hr' hl ha' ha2 hi rfl ?_ (Or.inr hst)
    intro k x hk hm
    by_contra hne
    exact (honly k x hk hne).1 hm
  · refine c11_not_before_main hr' hl ha' ha2 hj rfl ?_ (Or.inr hst)
    intro k x hk hm
    by_contra hne
    exact (honly k x hk hne).2 hm

end Perp
