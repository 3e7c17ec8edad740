import Verif.Claiming
import Verif.Placement
import Verif.Orders
import Verif.Positions

/-!
# Every stored reference resolves

Accounts refer to pair configurations (open positions and order requests) and to referrals.  A dangling
reference would make every call on the account panic.  None ever dangles.
-/

namespace Perp

/-- The pair an order request trades. -/
def Request.pair? : Request → Option PairId
  | .marginOrder q => some q.pair
  | .removeCollateral _ => none

/-- Every reference stored in an account resolves. -/
structure State.Resolves (s : State) : Prop where
  position : ∀ a acc p pos, s.accounts.get a = some acc → acc.positions.get p = some pos →
    ∃ x, s.config.pairs.get p = some x
  order : ∀ a (acc : Account) (i : Nat) (r : KeeperRequest) p, s.accounts.get a = some acc → acc.requests[i]? = some r →
    r.request.pair? = some p → ∃ x, s.config.pairs.get p = some x
  referral : ∀ a acc id, s.accounts.get a = some acc → acc.referralId = some id →
    ∃ d, s.referrals.get id = some d

/-! ## Pair configurations are never removed -/

theorem updatePairs_keeps {cs : List PairConfig} : ∀ {c c' : Config}, c.updatePairs cs = Except.ok c' →
    ∀ p x, c.pairs.get p = some x → ∃ y, c'.pairs.get p = some y := by
  induction cs with
  | nil =>
    intro c c' h p x hx
    simp only [Config.updatePairs, List.foldlM_nil, pure_ok] at h
    subst h; exact ⟨x, hx⟩
  | cons e cs ih =>
    intro c c' h p x hx
    simp only [Config.updatePairs, List.foldlM_cons, bind_ok] at h
    obtain ⟨c1, h1, h2⟩ := h
    simp only [Config.updatePair, bind_ok, require_ok, pure_ok] at h1
    obtain ⟨-, -, xc, -, rfl⟩ := h1
    have : ∃ z, (c.pairs.set e.pairId xc).get p = some z := by
      rw [AMap.get_set]; split
      · exact ⟨_, rfl⟩
      · exact ⟨x, hx⟩
    obtain ⟨z, hz⟩ := this
    exact ih h2 p z hz

theorem updateCollaterals_pairs {cs : List (Res × CollateralConfig)} : ∀ {c c' : Config},
    c.updateCollaterals cs = Except.ok c' → c'.pairs = c.pairs := by
  induction cs with
  | nil =>
    intro c c' h
    simp only [Config.updateCollaterals, List.foldlM_nil, pure_ok] at h
    rw [h]
  | cons e cs ih =>
    intro c c' h
    simp only [Config.updateCollaterals, List.foldlM_cons, bind_ok] at h
    obtain ⟨c1, h1, h2⟩ := h
    simp only [Config.updateCollateral, bind_ok, require_ok, pure_ok] at h1
    obtain ⟨-, -, xc, -, rfl⟩ := h1
    exact (ih (c := { c with collaterals := c.collaterals.set e.1 xc }) h2)

theorem body_pairs_kept {env : Env} {cl : Caller} {s s' : State} {op : Op} {o : Out}
    (h : body env cl s op = Except.ok (s', o)) (p : PairId) (hp : ∃ x, s.config.pairs.get p = some x) :
    ∃ x, s'.config.pairs.get p = some x := by
  obtain ⟨x, hx⟩ := hp
  rcases (body_admin h).config with e | ⟨c, -, e⟩ | ⟨cs, -, e⟩ | ⟨cs, -, e⟩ | ⟨r, -, e⟩
  · rw [e]; exact ⟨x, hx⟩
  · simp only [Config.updateExchange, bind_ok, require_ok, pure_ok] at e
    obtain ⟨-, -, ec, -, e⟩ := e
    rw [← e]; exact ⟨x, hx⟩
  · exact updatePairs_keeps e p x hx
  · rw [updateCollaterals_pairs e]; exact ⟨x, hx⟩
  · rw [e]; exact ⟨x, hx⟩

/-! ## Referrals are never removed, and accounts keep theirs -/

theorem accOp_referral_kept {s s' : State} {a : Addr} {lr : Option (Level × Rule)} (h : AccOp s a lr s') (id : RefId)
    (hd : ∃ d, s.referrals.get id = some d) : ∃ d, s'.referrals.get id = some d := by
  obtain ⟨d, hd⟩ := hd
  have := accOp_quota h id
  unfold State.quota at this
  rw [hd] at this
  cases hs : s'.referrals.get id with
  | none => rw [hs] at this; simp at this
  | some d' => exact ⟨d', rfl⟩

theorem accOp_referralId {s s' : State} {a : Addr} {lr : Option (Level × Rule)} (h : AccOp s a lr s') {b : Addr} {acc' : Account}
    (hb : s'.accounts.get b = some acc') :
    ∃ acc, s.accounts.get b = some acc ∧ acc'.referralId = acc.referralId := by
  cases h with
  | mk o rw k hl hp hr =>
    rename_i v ids w x acc refs
    obtain ⟨haddr, -, -, hcomp, -⟩ := hp.frame
    obtain ⟨acc0, rd, hg, -, hv⟩ := load_ok hl
    have haddr' : w.acc.addr = a := by rw [haddr, withRule_addr, hv]
    obtain ⟨reqs, -, he⟩ := realize_ok hr.1
    have hrid : acc.referralId = acc0.referralId := by
      rw [he]; simp only
      rw [hcomp]; simp only
      rw [withRule_comp_referralId, hv]
    unfold State.realized at hb
    simp only at hb
    rw [haddr', AMap.get_set] at hb
    split at hb
    · rename_i e; subst e; cases hb; exact ⟨acc0, hg, hrid⟩
    · exact ⟨acc', hb, rfl⟩

def State.RefsKnown (s : State) : Prop := ∀ a acc id, s.accounts.get a = some acc → acc.referralId = some id →
    ∃ d, s.referrals.get id = some d

theorem accOp_refsKnown {s s' : State} {a : Addr} {lr : Option (Level × Rule)} (h : AccOp s a lr s')
    (h0 : s.RefsKnown) : s'.RefsKnown := by
  intro b acc' id hb hid
  obtain ⟨acc, hg, e⟩ := accOp_referralId h hb
  exact accOp_referral_kept h id (h0 b acc id hg (by rw [← e]; exact hid))

theorem shape_refsKnown {env : Env} {s s' : State} (hg0 : s.GenKnown) (h0 : s.RefsKnown) (h : Shape env s s') : s'.RefsKnown := by
  have put : ∀ {id : RefId} {d : ReferralData} (i : RefId), (∃ x, s.referrals.get i = some x) →
      ∃ x, (s.referrals.set id d).get i = some x := by
    intro id d i ⟨x, hx⟩
    rw [AMap.get_set]; split
    · exact ⟨_, rfl⟩
    · exact ⟨x, hx⟩
  cases h with
  | newReferral g hg => intro a acc i ha hi; exact put i (h0 a acc i ha hi)
  | editReferral g hg => intro a acc i ha hi; exact put i (h0 a acc i ha hi)
  | referral hd hpay => intro a acc i ha hi; exact put i (h0 a acc i ha hi)
  | account h => exact accOp_refsKnown h h0
  | create g hg hn h =>
    refine accOp_refsKnown h ?_
    intro b acc id hb hid
    simp only at hb ⊢
    rw [AMap.get_set] at hb
    split at hb
    · cases hb
      rcases hg with ⟨rfl, -⟩ | ⟨c, r, bs, rfl, hc⟩
      · simp [Account.fresh] at hid
      · simp only [Account.fresh, Option.some.injEq] at hid
        obtain ⟨code, e1, -, e2, -⟩ := claim_ok hc
        rw [← hid, e2]
        exact hg0.code _ _ e1
    · exact h0 b acc id hb hid
  | _ => exact h0

theorem reach_refsKnown {env : Env} {s : State} (h : Reach env s) : s.RefsKnown := by
  induction h with
  | init g => intro b acc id hb; rw [g.accounts] at hb; simp at hb
  | step hr hs ih => exact shape_refsKnown (reach_genKnown hr) ih (body_shape (step_body hs))

/-! ## Open positions -/

/-- The pairs an account has entries for stay among those loaded with the pool. -/
theorem positions_loaded {ex : ExchangeConfig} {ids : List PairId} {w w' : W} {x : Dec} (h : WPath ex w w' x)
    (h0 : (∀ p, w.acc.positions.get p ≠ none → p ∈ ids) ∧ ∀ p, w.pool.positions.get p ≠ none → p ∈ ids) :
    (∀ p, w'.acc.positions.get p ≠ none → p ∈ ids) ∧ ∀ p, w'.pool.positions.get p ≠ none → p ∈ ids := by
  refine WPath.keep (P := fun w => (∀ p, w.acc.positions.get p ≠ none → p ∈ ids) ∧
    ∀ p, w.pool.positions.get p ≠ none → p ∈ ids) ?_ h h0
  clear h h0
  intro w w' x h ⟨ha, hp⟩
  have setA : ∀ {m : AMap PairId AccountPosition} {q y}, (∀ p, m.get p ≠ none → p ∈ ids) → q ∈ ids →
      ∀ p, (m.set q y).get p ≠ none → p ∈ ids := by
    intro m q y hm hq p hpp
    rw [AMap.get_set] at hpp
    split at hpp
    · rename_i e; exact e ▸ hq
    · exact hm p hpp
  refine ⟨?_, ?_⟩
  · cases h with
    | fees h0 h =>
      rw [(settleFees_same h).1]; exact ha
    | fund p h1 h2 h3 => exact setA ha (hp p (by rw [h1]; simp))
    | trade p new price h1 => exact setA ha (hp p (by rw [h1]; simp))
    | liq p h1 h2 h3 => exact setA ha (hp p (by rw [h1]; simp))
    | deposit h => have := depositCollateral_collOnly h; simp only; rw [this]; exact ha
    | withdraw h => have := withdrawCollateral_collOnly h; simp only; rw [this]; exact ha
    | push h => have := pushRequest_reqOnly h; simp only; rw [this]; exact ha
    | setStatus h0 h => have := trySetStatus_reqOnly h; simp only; rw [this]; exact ha
    | cancel h => have := cancelRequests_reqOnly h; simp only; rw [this]; exact ha
    | process h => have := processRequest_reqOnly h; simp only; rw [this]; exact ha
    | _ => exact ha
  · rcases h.pool with ⟨e, -⟩ | ⟨q, pp, pp', hq, e, -⟩
    · rw [e]; exact hp
    · intro p hpp
      rw [e, AMap.get_set] at hpp
      split at hpp
      · rename_i e'; exact e' ▸ hp q (by rw [hq]; simp)
      · exact hp p hpp

theorem KeeperRun.configured {env : Env} {s s' s1 : State} {a : Addr} {acc acc' : Account} {ids : List PairId}
    {u : Option PriceUpdate} {c : Ctx} {w0 w : W} (h : KeeperRun env s s' a acc acc' ids u s1 c w0 w) (h0 : s.NoEmpty)
    (hk : ∀ p, acc.positions.get p ≠ none → p ∈ ids) {p : PairId} {pos : AccountPosition}
    (hp : acc'.positions.get p = some pos) : ∃ x, s'.config.pairs.get p = some x := by
  have hl := (positions_loaded (ids := ids) h.path ⟨by rw [h.pos0]; exact hk, ?_⟩).1
  · rw [h.positions h0] at hp
    have hne : w.acc.positions.get p ≠ none := by
      intro e; rw [e] at hp; simp at hp
    obtain ⟨-, -, hcfg, -⟩ := keeperLoad_ok h.load
    obtain ⟨x, hx, -⟩ := (VConfig.new_ok hcfg).2.2.1 p (hl p hne)
    rw [h.config]; exact ⟨x, hx⟩
  · intro q hq
    rw [h.pool0] at hq
    simp only [VPool.new, AMap.get_build] at hq
    by_contra hn
    rw [if_neg hn] at hq; exact hq rfl

theorem step_positions_known {env : Env} {cl : Caller} {s s' : State} {op : Op} {o : Out} (hr : Reach env s)
    (h : step env cl s op = Except.ok (s', o))
    (ih : ∀ a acc p pos, s.accounts.get a = some acc → acc.positions.get p = some pos → ∃ x, s.config.pairs.get p = some x)
    {a : Addr} {acc' : Account} {p : PairId} {pos : AccountPosition} (ha' : s'.accounts.get a = some acc')
    (hp : acc'.positions.get p = some pos) : ∃ x, s'.config.pairs.get p = some x := by
  have hb := step_body h
  have hn := reach_noEmpty hr
  cases ha : s.accounts.get a with
  | none => rw [c49_new_account_flat h ha ha' p] at hp; cases hp
  | some acc =>
    have inkeys : ∀ q, acc.positions.get q ≠ none → q ∈ acc.positions.keys := by
      intro q hq
      obtain ⟨x, hx⟩ := Option.ne_none_iff_exists'.mp hq
      exact AMap.mem_keys.mpr ⟨x, hx⟩
    by_cases hm : op.moves o a
    swap
    · rw [c49_positions_moved_by hr h ha ha' hm p] at hp
      exact body_pairs_kept hb p (ih a acc p pos ha hp)
    cases op <;> first | exact hm.elim | skip
    case processRequest b i u =>
      obtain ⟨rfl, e, he⟩ := hm
      obtain ⟨acc0, acc1, kr, ids, s1, c, w0, w, out, hk, -, -, hall, -⟩ := run_execute hb (by rw [he]; simp)
      have e := hk.before; rw [ha] at e; cases e
      have e := hk.after; rw [ha'] at e; cases e
      refine hk.configured hn ?_ hp
      intro q hq
      obtain ⟨x, hx⟩ := Option.ne_none_iff_exists'.mp hq
      exact hall q (AMap.has_iff.mpr ⟨x, hx⟩)
    case liquidate b x u =>
      cases hm
      obtain ⟨acc0, acc1, ids, s1, c, w0, w, tokens, e, hk, -, rfl, -⟩ := run_liquidate hb
      have e := hk.before; rw [ha] at e; cases e
      have e := hk.after; rw [ha'] at e; cases e
      exact hk.configured hn inkeys hp
    case autoDeleverage b q u =>
      cases hm
      obtain ⟨acc0, acc1, ids, s1, c, w0, w, e, hk, rfl, -⟩ := run_adl hb
      have e := hk.before; rw [ha] at e; cases e
      have e := hk.after; rw [ha'] at e; cases e
      refine hk.configured hn ?_ hp
      intro q hq
      exact mem_insertId.mpr (Or.inr (inkeys q hq))

/-! ## Order requests -/

theorem payOath_pair {env : Env} {s s1 : State} {v v1 : VAccount} {oath : Option Bucket} {l : List PairId} {p : PairId} {cfg : VConfig}
    (h : payOath env s v oath (insertId l p) [p] = Except.ok (s1, v1, cfg)) : ∃ x, s.config.pairs.get p = some x := by
  obtain ⟨-, -, -, -, hcfg⟩ := payOath_frame h
  obtain ⟨x, hx, -⟩ := (VConfig.new_ok hcfg).2.2.1 p (by split <;> simp [mem_insertId])
  exact ⟨x, hx⟩

theorem step_orders_known {env : Env} {cl : Caller} {s s' : State} {op : Op} {o : Out} (hr : Reach env s)
    (h : step env cl s op = Except.ok (s', o))
    (ih : ∀ a (acc : Account) (i : Nat) (r : KeeperRequest) p, s.accounts.get a = some acc → acc.requests[i]? = some r →
      r.request.pair? = some p → ∃ x, s.config.pairs.get p = some x)
    {a : Addr} {acc' : Account} {i : Nat} {r : KeeperRequest} {p : PairId} (ha' : s'.accounts.get a = some acc')
    (hi : acc'.requests[i]? = some r) (hp : r.request.pair? = some p) : ∃ x, s'.config.pairs.get p = some x := by
  have hb := step_body h
  refine body_pairs_kept hb p ?_
  cases ha : s.accounts.get a with
  | none => exact absurd ha (c06_created_pending hr h ha' hi (fun acc e => by rw [ha] at e; cases e)).1
  | some acc =>
    cases hq : acc.requests[i]? with
    | some r0 =>
      obtain ⟨acc2, h1, h2⟩ := step_evolves hr h ha
      rw [ha'] at h1; cases h1
      obtain ⟨r', e1, e2, -⟩ := h2.kept i r0 hq
      rw [hi] at e1; cases e1
      exact ih a acc i r0 p ha hq (by rw [← e2.1]; exact hp)
    | none =>
      have ho : op.account = some a := by
        by_contra hn
        rw [body_accounts hb a hn, ha] at ha'; cases ha'
        rw [hq] at hi; cases hi
      have hlen : acc.requests.length ≤ i := by simpa using hq
      have new : ∀ {news : List KeeperRequest}, acc'.requests = acc.requests ++ news → r ∈ news := by
        intro news e
        rw [e, List.getElem?_append_right hlen] at hi
        exact List.mem_of_getElem? hi
      have hpl : op.places = true := by
        obtain ⟨acc2, h1, h2⟩ := step_requests hr h ha
        rw [ha'] at h1; cases h1
        have none_of : ∀ l : List KeeperRequest, l.length = acc.requests.length → l[i]? = none := by
          intro l e; exact List.getElem?_eq_none (by omega)
        cases h2 with
        | pushed news e1 e2 e3 e4 e5 e6 e7 => exact e7
        | same e => rw [e, hq] at hi; cases hi
        | cancelled f is e1 e2 e3 => rw [e3, hq] at hi; cases hi
        | liquidated b u e1 e2 => rw [e2, hq] at hi; cases hi
        | expired j u r0 e1 e2 e3 e4 e5 e6 e7 => rw [e7, none_of _ (by simp)] at hi; cases hi
        | executed j u r0 e1 e2 e3 e4 e5 e6 e7 => rw [e7, none_of _ (by simp)] at hi; cases hi
      cases op <;> first | exact (Bool.false_ne_true hpl).elim | skip
      case removeCollateralRequest oath e b t cs =>
        cases ho
        obtain ⟨acc0, e0, -, ⟨acc1, e1, e2, -⟩⟩ := place_withdrawal hr h
        rw [ha] at e0; cases e0
        rw [ha'] at e1; cases e1
        have := new e2
        simp only [List.mem_singleton] at this
        rw [this] at hp; cases hp
      case marginOrderRequest oath b q act can st =>
        cases ho
        obtain ⟨v, s1, v1, cfg, act', can', v2, acc3, refs, -, -, hpay, -⟩ := marginOrderRequest_ok hb
        obtain ⟨acc0, aa, cc, e0, -, -, -, ⟨acc1, e1, e2, -⟩⟩ := place_order hr h
        rw [ha] at e0; cases e0
        rw [ha'] at e1; cases e1
        have := new e2
        simp only [List.mem_singleton] at this
        rw [this] at hp
        have e : q.pair = p := by simpa [mainOrder, Request.pair?] using hp
        rw [← e]
        exact payOath_pair hpay
      case marginOrderTpSlRequest oath b q tp sl =>
        cases ho
        obtain ⟨v, s1, v1, cfg, v2, v3, v4, acc3, refs, i1, i2, -, -, hpay, -⟩ := marginOrderTpSlRequest_ok hb
        obtain ⟨acc0, acc1, iT, iS, e0, e1, -, -, -, e2, -⟩ := c12_tp_sl_shape hr h
        rw [ha] at e0; cases e0
        rw [ha'] at e1; cases e1
        rw [List.append_assoc, List.append_assoc] at e2
        have := new e2
        have e : q.pair = p := by
          simp only [List.mem_append, List.mem_singleton, Option.mem_toList, Option.map_eq_some_iff] at this
          rcases this with rfl | ⟨_, -, rfl⟩ | ⟨_, -, rfl⟩ <;>
            simpa [mainOrder, exitOrder, Request.pair?] using hp
        rw [← e]
        exact payOath_pair hpay

theorem reach_resolves {env : Env} {s : State} (h : Reach env s) : s.Resolves := by
  induction h with
  | init g =>
    exact ⟨fun b acc p pos hb => by rw [g.accounts] at hb; simp at hb,
      fun b acc i r p hb => by rw [g.accounts] at hb; simp at hb, fun b acc i hb => by rw [g.accounts] at hb; simp at hb⟩
  | step hr hs ih =>
    exact ⟨fun a acc p pos ha hp => step_positions_known hr hs ih.position ha hp,
      fun a acc i r p ha hi hp => step_orders_known hr hs ih.order ha hi hp,
      reach_refsKnown (.step hr hs)⟩

end Perp
