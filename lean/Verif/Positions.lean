import Verif.Adl

/-!
# What can change a position (C49), and the cost of long positions
-/

namespace Perp

/-- A working account whose positions have not been touched. -/
def PosIdle (a b : VAccount) : Prop :=
  b.positions = a.positions ∧ b.positionsUpdated = a.positionsUpdated ∧ b.comp.positions = a.comp.positions

theorem PosIdle.trans {a b c : VAccount} (h1 : PosIdle a b) (h2 : PosIdle b c) : PosIdle a c :=
  ⟨h2.1.trans h1.1, h2.2.1.trans h1.2.1, h2.2.2.trans h1.2.2⟩

theorem settle_posIdle {w w' : W} {x : Dec} (h : settleAccount w x = Except.ok w') : PosIdle w.acc w'.acc := by
  rw [settleAccount_ok h]; exact ⟨rfl, rfl, rfl⟩

theorem addCollateral_posIdle {cfg : VConfig} {w w' : W} {tokens : List Bucket}
    (h : addCollateral cfg w tokens = Except.ok w') : PosIdle w.acc w'.acc := by
  obtain ⟨w1, acc, hb, -, hd, -, rfl⟩ := addCollateral_ok h
  have h1 : PosIdle w.acc w1.acc := by
    refine foldlM_rel (P := fun a b : W => PosIdle a.acc b.acc)
      (fun _ => ⟨rfl, rfl, rfl⟩) (fun a b c h1 h2 => h1.trans h2) ?_ _ hb
    intro w b w' h
    simp only [addBase, bind_ok] at h
    obtain ⟨pool, -, hs⟩ := h
    have := settle_posIdle hs
    exact this
  have h2 := depositCollateral_collOnly hd
  refine h1.trans ?_
  unfold CollOnly at h2
  show PosIdle w1.acc acc
  rw [h2]; exact ⟨rfl, rfl, rfl⟩

theorem depositTokens_posIdle {env : Env} {s s1 : State} {v : VAccount} {oath : Option Bucket}
    {tokens : List Bucket} {w : W} (h : depositTokens env s v oath tokens = Except.ok (s1, w)) : PosIdle v w.acc := by
  obtain ⟨cfg, ids, w0, -, hw, -, -, -, rfl, -⟩ := depositTokens_ok h
  exact addCollateral_posIdle hw

theorem posIdle_realize {v w : VAccount} {acc : Account} (h : PosIdle v w) (hu : v.positionsUpdated = [])
    (hr : w.realize = Except.ok acc) : acc.positions = v.comp.positions := by
  obtain ⟨_, -, rfl⟩ := realize_ok hr
  simp only
  rw [realPositions_none (h.2.1.trans hu), h.2.2]

/-- The calls that may change the positions of the account they name. -/
def Op.moves (op : Op) (o : Out) (a : Addr) : Prop :=
  match op with
  | .processRequest b _ _ => b = a ∧ ∃ e, o.ev = .order e
  | .liquidate b _ _ => b = a
  | .autoDeleverage b _ _ => b = a
  | _ => False

theorem body_positions {env : Env} {cl : Caller} {s s' : State} {op : Op} {o : Out} {a : Addr} {acc acc' : Account}
    (h0 : s.NoEmpty) (h : body env cl s op = Except.ok (s', o)) (ha : s.accounts.get a = some acc)
    (ha' : s'.accounts.get a = some acc') (hm : ¬ op.moves o a) (p : PairId) :
    acc'.positions.get p = acc.positions.get p := by
  by_cases hop : op.account = some a
  · have holder : op.holder = true → acc'.positions.get p = acc.positions.get p := by
      intro hh
      obtain ⟨acc1, he⟩ := holder_effect h hop hh ha
      have := he.account
      rw [ha'] at this; cases this
      rw [he.positions]
    have run : ∀ {acc0 acc1 : Account} {ids u s1 c w0 w}, KeeperRun env s s' a acc0 acc1 ids u s1 c w0 w →
        w.acc.positions = w0.acc.positions → acc'.positions.get p = acc.positions.get p := by
      intro acc0 acc1 ids u s1 c w0 w hrun hp
      have e := hrun.before
      rw [ha] at e; cases e
      have e := hrun.after
      rw [ha'] at e; cases e
      rw [hrun.positions h0, hp, hrun.pos0]
      cases hg : acc.positions.get p with
      | none => rfl
      | some x =>
        have := h0 a acc ha p x hg
        simp [Option.filter, this]
    cases op with
    | createAccount a' oath r t c =>
      cases hop
      obtain ⟨s0, rid, extra, s1, v, s2, w, acc, refs, -, hn, -⟩ := createAccount_ok h
      rw [ha] at hn; cases hn
    | createRecoveryKey oath a' => exact holder rfl
    | addAuthRule oath a' l n => exact holder rfl
    | setLevelAuth oath a' l r => exact holder rfl
    | removeCollateralRequest oath e a' t c => exact holder rfl
    | marginOrderRequest oath a' args act can st => exact holder rfl
    | marginOrderTpSlRequest oath a' args tp sl => exact holder rfl
    | cancelRequests oath a' is => exact holder rfl
    | addCollateral oath a' t =>
      cases hop
      obtain ⟨v, s1, w, acc1, refs, -, hv, -, hd, hr, he, -⟩ := opAddCollateral_ok h
      have hh := holds_load hv ha
      have hi := depositTokens_posIdle hd
      obtain ⟨cfg, ids, w0, -, hw0, hs1, -, -, rfl, -⟩ := depositTokens_ok hd
      have haddr := (addCollateral_path (ex := ExchangeConfig.dflt) hw0).frame.1
      have : s'.accounts.get a = some acc1 := by
        rw [he]; simp only at haddr; simp only [State.realized, haddr, hh.addr, AMap.get_set_self]
      rw [ha'] at this; cases this
      rw [posIdle_realize hi hh.untouched hr.1, hh.positions]
    | processRequest a' i u =>
      cases hop
      by_cases hx : o.ev = .expired
      · obtain ⟨v, v1, r, expired, cfg, hv, hpr, -, -, -, h⟩ := processRequest_ok h
        obtain ⟨h1, h2, h3, h4, h5, h6, h7, h8⟩ := (holds_load hv ha).req (processRequest_reqOnly hpr)
        rcases h with ⟨-, acc1, refs, hr, he, ho⟩ | ⟨-, s1, c, w, out, acc1, refs, hkl, hex, hr', he, ho⟩
        · have : s'.accounts.get a = some acc1 := by rw [he]; simp only [State.realizedAcc, h1, AMap.get_set_self]
          rw [ha'] at this; cases this
          obtain ⟨_, -, hacc⟩ := realize_ok hr.1
          rw [hacc]
          simp only
          rw [realPositions_none h3, h2]
        · exfalso
          rcases executeRequest_ok hex with ⟨q, tokens, -, -, rfl⟩ | ⟨q, e, -, -, rfl⟩ <;> rw [ho] at hx <;> simp at hx
      · obtain ⟨acc0, acc1, kr, ids, s1, c, w0, w, out, hk, -, -, -, hex, hev, hpaid, hbk⟩ := run_execute h hx
        rcases executeRequest_ok hex with ⟨q, tokens, -, hrm, hout⟩ | ⟨q, e, -, hmo, hout⟩
        · obtain ⟨-, -, -, h4, -⟩ := removeCollateral_pool hrm
          exact run hk h4
        · exact absurd ⟨rfl, e, by rw [hev, hout]⟩ hm
    | swapDebt a' r b u =>
      cases hop
      obtain ⟨acc0, acc1, s1, c, w0, w, token, rest, e, hk, -, hx, ho⟩ := run_swapDebt h
      obtain ⟨cc, pr, priceRes, amount, value, taken, pool, w1, ac, bs, -, -, -, -, -, -, -, -, hs, hwd, hlast, rfl, hrest, -⟩ :=
        swapDebt_ok hx
      refine run hk ?_
      have := withdrawCollateral_collOnly hwd
      unfold CollOnly at this
      rw [this]
      exact (settle_posIdle hs).1
    | liquidate a' b u => cases hop; exact absurd rfl hm
    | autoDeleverage a' b u => cases hop; exact absurd rfl hm
    | _ => cases hop
  · have := body_accounts h a hop
    rw [ha, ha'] at this
    cases this; rfl

/-- **C49, an account is changed only by calls that name it.** -/
theorem c49_others_untouched {env : Env} {cl : Caller} {s s' : State} {op : Op} {o : Out} {b : Addr}
    (h : step env cl s op = Except.ok (s', o)) (hb : op.account ≠ some b) : s'.accounts.get b = s.accounts.get b :=
  body_accounts (step_body h) b hb

/-- **C49, positions are moved only by executed orders, liquidation and auto-deleverage of the account.** Every other
successful call leaves every position of every account exactly as it was, size, cost and funding index. -/
theorem c49_positions_moved_by {env : Env} {cl : Caller} {s s' : State} {op : Op} {o : Out} {a : Addr} {acc acc' : Account}
    (h0 : Reach env s) (h : step env cl s op = Except.ok (s', o)) (ha : s.accounts.get a = some acc)
    (ha' : s'.accounts.get a = some acc') (hm : ¬ op.moves o a) (p : PairId) :
    acc'.positions.get p = acc.positions.get p :=
  body_positions (reach_noEmpty h0) (step_body h) ha ha' hm p

/-- **C49, accounts are never removed.** -/
theorem c49_never_removed {env : Env} {cl : Caller} {s s' : State} {op : Op} {o : Out} {a : Addr} {acc : Account}
    (h : step env cl s op = Except.ok (s', o)) (ha : s.accounts.get a = some acc) :
    ∃ acc', s'.accounts.get a = some acc' := body_accounts_grow (step_body h) a ha

/-! ## Cost of long positions -/

/-- A long position has a cost that is not negative, an empty one has none. -/
def CostOk (size cost : Dec) : Prop := (0 < size → 0 ≤ cost) ∧ (size = 0 → cost = 0)

theorem closePart_costOk {c : Ctx} {w w' : W} {p : PairId} {x pnl fee : Dec}
    (h : closePart c w p x = Except.ok (w', pnl, fee))
    (h0 : CostOk (w.acc.position p).amount (w.acc.position p).cost) :
    CostOk (w'.acc.position p).amount (w'.acc.position p).cost := by
  obtain ⟨e1, e2⟩ := closePart_position h
  rw [e1, e2]
  by_cases hx : x = 0
  · rw [if_pos hx, hx]; simpa using h0
  · rw [if_neg hx]
    unfold closePart at h
    rw [if_pos hx] at h
    obtain ⟨pc, pr, pp, -, -, -, hne, hsg, habs, -⟩ := closePosition_ok h
    refine ⟨?_, ?_⟩
    · intro hpos
      have hlong : 0 < (w.acc.position p).amount := by
        by_contra hn
        have hneg : (w.acc.position p).amount < 0 := by omega
        rw [abs_of_neg hneg] at habs
        have := le_abs_self x
        omega
      have hxs : x < 0 := by
        by_contra hn
        rw [Int.sign_eq_one_of_pos hlong, Int.sign_eq_one_of_pos (by omega)] at hsg
        omega
      have hc := h0.1 hlong
      unfold closedCost
      have r1 : divT (-x) (w.acc.position p).amount ≤ ONE := by
        rw [← divT_self hne]
        exact divT_mono (by omega) hlong
      have r0 : 0 ≤ divT (-x) (w.acc.position p).amount := divT_nonneg (by omega) hlong
      have := mulT_le_self hc r1 r0
      rw [mulT_comm] at this
      omega
    · intro hz
      have : x = -(w.acc.position p).amount := by omega
      rw [this, closedCost_all hne]; omega

theorem openPart_costOk {c : Ctx} {w w' : W} {p : PairId} {x fee price : Dec}
    (h : openPart c w p x = Except.ok (w', fee)) (hp : c.orc.prices.get p = some price) (hp0 : 0 < price)
    (h0 : CostOk (w.acc.position p).amount (w.acc.position p).cost) :
    CostOk (w'.acc.position p).amount (w'.acc.position p).cost := by
  by_cases hx : x = 0
  · have e1 := openPart_position h
    have e2 := (openPart_net h hp).1
    unfold openPart at h
    rw [if_neg (by simpa using hx)] at h
    simp only [pure_ok, Prod.mk.injEq] at h
    rw [← h.1]; exact h0
  · rw [openPart_position h, (openPart_net h hp).1]
    have hf := openPart_fee h
    unfold openPart at h
    rw [if_pos hx] at h
    obtain ⟨pc, pr, pp, -, -, -, hsg, -⟩ := openPosition_ok h
    rcases lt_or_gt_of_ne hx with hneg | hpos
    · have hle : (w.acc.position p).amount ≤ 0 := by
        by_contra hn
        rw [Int.sign_eq_one_of_pos (by omega), Int.sign_eq_neg_one_of_neg hneg] at hsg
        omega
      refine ⟨fun h => by omega, fun h => by omega⟩
    · have hge : 0 ≤ (w.acc.position p).amount := by
        by_contra hn
        rw [Int.sign_eq_one_of_pos hpos, Int.sign_eq_neg_one_of_neg (by omega)] at hsg
        omega
      have hc : 0 ≤ (w.acc.position p).cost := by
        rcases lt_or_eq_of_le hge with h1 | h1
        · exact h0.1 h1
        · rw [h0.2 h1.symm]
      have := mulT_nonneg (le_of_lt hpos) (le_of_lt hp0)
      refine ⟨fun _ => by omega, fun h => by omega⟩

theorem closePosition_costOk {c : Ctx} {w w' : W} {p : PairId} {x pnl fee : Dec}
    (h : closePosition c w p x = Except.ok (w', pnl, fee)) (hx : x ≠ 0)
    (h0 : CostOk (w.acc.position p).amount (w.acc.position p).cost) :
    CostOk (w'.acc.position p).amount (w'.acc.position p).cost := by
  refine closePart_costOk (c := c) (w := w) (x := x) (pnl := pnl) (fee := fee) ?_ h0
  unfold closePart
  rw [if_pos hx]; exact h

/-- In every position of the state, a long one has a cost that is not negative. -/
def State.CostsOk (s : State) : Prop := ∀ a acc, s.accounts.get a = some acc → ∀ p, CostOk (acc.size p) (acc.costOf p)

/-- **C49, a new account has no positions.** -/
theorem c49_new_account_flat {env : Env} {cl : Caller} {s s' : State} {op : Op} {o : Out} {a : Addr} {acc' : Account}
    (h : step env cl s op = Except.ok (s', o)) (ha : s.accounts.get a = none) (ha' : s'.accounts.get a = some acc')
    (p : PairId) : acc'.positions.get p = none := by
  have hb := step_body h
  have hop : op.account = some a := by
    by_contra hn
    rw [body_accounts hb a hn, ha] at ha'; cases ha'
  rcases body_account hb hop with ⟨lr, -, acc, hg⟩ | ⟨g, rule, rid, ⟨oath, t, c, rfl⟩, -, -⟩
  · rw [ha] at hg; cases hg
  · obtain ⟨s0, rid, extra, s1, v, s2, w, acc, refs, -, -, -, rfl, hv, hd, hr, he, -⟩ := createAccount_ok hb
    have hh := holds_load hv (AMap.get_set_self _ _ _)
    have hi := depositTokens_posIdle hd
    obtain ⟨cfg, ids, w0, -, hw0, hs1, -, -, rfl, -⟩ := depositTokens_ok hd
    have haddr := (addCollateral_path (ex := ExchangeConfig.dflt) hw0).frame.1
    have : s'.accounts.get a = some acc := by
      rw [he]; simp only at haddr; simp only [State.realized, haddr, hh.addr, AMap.get_set_self]
    rw [ha'] at this; cases this
    rw [posIdle_realize hi hh.untouched hr.1, hh.positions]
    rfl

theorem costOk_none {acc : Account} {p : PairId} (h : acc.positions.get p = none) : CostOk (acc.size p) (acc.costOf p) := by
  unfold Account.size Account.costOf
  rw [h]; exact ⟨fun h => absurd h (by simp), fun _ => rfl⟩

theorem step_costsOk {env : Env} {cl : Caller} {s s' : State} {op : Op} {o : Out} (h0 : s.CostsOk)
    (hr : Reach env s) (hstep : step env cl s op = Except.ok (s', o)) : s'.CostsOk := by
  have h := step_body hstep
  intro a acc' ha' p
  cases ha : s.accounts.get a with
  | none => exact costOk_none (c49_new_account_flat hstep ha ha' p)
  | some acc =>
    by_cases hm : op.moves o a
    · cases op with
      | processRequest b i u =>
        obtain ⟨rfl, e, he⟩ := hm
        have hx : o.ev ≠ .expired := by rw [he]; intro hx; cases hx
        obtain ⟨acc0, acc1, kr, ids, s1, c, w0, w, out, hrun, -, -, -, hex, hev, -, -⟩ := run_execute h hx
        have hb := hrun.before
        rw [ha] at hb; cases hb
        have hb := hrun.after
        rw [ha'] at hb; cases hb
        rcases executeRequest_ok hex with ⟨q, tokens, -, -, ho⟩ | ⟨q, e', -, hmo, ho⟩
        · rw [hev, ho] at he; cases he
        · have hop := order_parts hmo
          rw [hrun.size (reach_noEmpty hr), hrun.cost (reach_noEmpty hr)]
          have h1 := h0 b acc ha p
          rw [← hrun.size0, ← hrun.cost0] at h1
          by_cases hpq : p = q.pair
          · subst hpq
            obtain ⟨price, pool, bb, w1, funding, close, op, w2, pnl, fee, ok, w3, fees, a1, a2, hpr, -, -, hf,
              -, hx, -, -, hfee, ha1, ha2, hw', -, -⟩ := marginOrder_ok hmo
            obtain ⟨wc, f1, f2, hc, ho, -⟩ := executeOrder_ok hx
            have hfp := settleFunding_position hf
            simp only at hfp
            have hs := settleFees_same hfee
            have q1 := (trySetStatus_reqOnly ha1).same
            have q2 := (trySetStatus_reqOnly ha2).same
            have hpos : w.acc.positions = w2.acc.positions := by
              rw [hw']; exact (q2.1.trans q1.1).trans hs.1
            rw [position_congr (v := w2.acc) (by rw [hpos])]
            rw [← hfp.1, ← hfp.2] at h1
            exact openPart_costOk ho hpr (hrun.price hpr).2 (closePart_costOk hc h1)
          · rw [position_congr (hop.pos p hpq)]; exact h1
      | liquidate b x u =>
        have hm : b = a := hm
        subst hm
        obtain ⟨acc1, t, hg, hn, -⟩ := c19_complete hr hstep ha
        rw [ha'] at hg; cases hg
        exact costOk_none (hn p)
      | autoDeleverage b q u =>
        have hm : b = a := hm
        subst hm
        obtain ⟨e, ac, -, -, -, -, -, -, -, acc1, hg, hn, hq⟩ := c28_adl hr hstep ha
        rw [ha'] at hg; cases hg
        by_cases hpq : p = q
        · subst hpq; exact costOk_none hn
        · rw [(hq p hpq).1, (hq p hpq).2]; exact h0 b acc ha p
      | _ => exact absurd hm (by simp [Op.moves])
    · have := c49_positions_moved_by hr hstep ha ha' hm p
      unfold Account.size Account.costOf
      rw [this]; exact h0 a acc ha p

theorem reach_costsOk {env : Env} {s : State} (h : Reach env s) : s.CostsOk := by
  induction h with
  | init g => intro a acc ha; rw [g.accounts] at ha; cases ha
  | step hr hs ih => exact step_costsOk ih hr hs

/-- **C29 for long positions** (the full property claims it for short ones as well, where it is false of the code, see
`c29_losing_short_deleveraged`).  `auto_deleverage` closes a long position only if its profit relative to its cost exceeds
the threshold at the skew ratio found. -/
theorem c29_long_ranked_partial {env : Env} {cl : Caller} {s s' : State} {a : Addr} {p : PairId} {u : Option PriceUpdate}
    {o : Out} {acc : Account} (h0 : Reach env s)
    (h : step env cl s (.autoDeleverage a p u) = Except.ok (s', o)) (ha : s.accounts.get a = some acc)
    (hl : 0 < acc.size p) :
    ∃ e accrued, o.ev = .adl e ∧ s'.market.price p = e.price ∧
      s'.pool.unrealizedFunding = s.pool.unrealizedFunding + accrued + e.funding ∧ 0 < acc.costOf p ∧
      adlLine s.config.exchange.decompress (s.markedRatio p e.price accrued) <
        relativeProfit (acc.size p) (acc.costOf p) e.price := by
  obtain ⟨e, ac, he, hp, hf, -⟩ := c28_adl h0 h ha
  obtain ⟨-, -, -, hc, -⟩ := adl_compares h he ha hf
  have h1 := (reach_costsOk h0 a acc ha p).1 hl
  have h2 : 0 < acc.costOf p := by omega
  exact ⟨e, ac, he, hp, hf, h2, c29_ranked_partial h he ha hf h2⟩

end Perp
