import Verif.BindingAll

/-!
# C74: better terms are never refused

Whoever offers more, asks for less or sets looser limits is not worse off: the call still goes through.
-/

namespace Perp

section
variable {env : Env} {s s' : State} {u : Option PriceUpdate} {o : Out}

theorem takeAmount_more {g : Nat} {x y a t : Dec} {st : Strategy} (h : takeAmount g x a st = Except.ok t) (hxy : x ≤ y) :
    takeAmount g y a st = Except.ok t := by
  rw [takeAmount_ok] at h ⊢
  exact ⟨h.1, h.2.1, h.2.2.1, h.2.2.2.trans hxy⟩

theorem liquidate_more {c : Ctx} {w w' : W} {b b' : Bucket} {bs : List Bucket} {e : LiquidateEv}
    (h : liquidate c w b = Except.ok (w', bs, e)) (hb : b'.res = b.res) (hle : b.amt ≤ b'.amt) :
    ∃ l x, bs = l ++ [⟨BASE, x⟩] ∧ liquidate c w b' = Except.ok (w', l ++ [⟨BASE, x + (b'.amt - b.amt)⟩], e) := by
  simp only [liquidate, bind_ok, pure_ok, Prod.mk.injEq, require_ok, decide_eq_true_eq] at h
  obtain ⟨-, h1, ⟨w1, lp⟩, h2, lc, h3, x, h4, av, h5, mg, h6, -, h7, -, h8, ⟨acc, l⟩, h9, tk, h10, p, h11, st, h12, w2, h13,
    ⟨w3, ls⟩, h14, ⟨w4, fs⟩, h15, nf, h16, rfl, rfl, rfl⟩ := h
  refine ⟨l, b.amt - tk, rfl, ?_⟩
  simp only [liquidate, bind_ok, pure_ok, Prod.mk.injEq, require_ok, decide_eq_true_eq]
  refine ⟨(), ?_, (w1, lp), h2, lc, h3, x, h4, av, h5, mg, h6, (), h7, (), h8.trans hle, (acc, l), h9, tk, takeAmount_more h10 hle,
    p, h11, st, h12, w2, h13, (w3, ls), h14, (w4, fs), h15, nf, h16, rfl, ?_, rfl⟩
  · rw [hb]; exact h1
  · simp only [List.append_cancel_left_eq, List.cons.injEq, Bucket.mk.injEq, true_and, and_true]; ring

theorem swapDebtAmounts_more {x y debt av p : Dec} (h : debt ≤ x) (hxy : x ≤ y) :
    swapDebtAmounts y debt av p = swapDebtAmounts x debt av p := by
  simp only [swapDebtAmounts, min_eq_right h, min_eq_right (h.trans hxy)]

theorem swapDebt_more {c : Ctx} {w w' : W} {r : Res} {b b' tk rest : Bucket} {e : SwapDebtEv}
    (h : swapDebt c w r b = Except.ok (w', tk, rest, e)) (hb : b'.res = b.res) (hle : b.amt ≤ b'.amt) (hd : -w.acc.vb ≤ b.amt) :
    ∃ x, rest = ⟨BASE, x⟩ ∧ swapDebt c w r b' = Except.ok (w', tk, ⟨BASE, x + (b'.amt - b.amt)⟩, e) := by
  simp only [swapDebt, bind_ok, pure_ok, Prod.mk.injEq] at h
  obtain ⟨a1, h1, a2, h2, a3, h3, cc, h4, d1, h5, dc, h6, debt, h7, pr, h8, price, h9, ⟨am, v⟩, h10, t, h11, p, h12, w1, h13,
    ⟨acc, bs⟩, h14, k, h15, rfl, rfl, rfl, rfl⟩ := h
  refine ⟨b.amt - t, rfl, ?_⟩
  have hdebt : debt ≤ b.amt := by rw [dneg_ok] at h7; rw [← h7.2]; exact hd
  simp only [swapDebt, bind_ok, pure_ok, Prod.mk.injEq]
  refine ⟨a1, ?_, a2, h2, a3, h3, cc, h4, d1, h5, dc, h6, debt, h7, pr, h8, price, h9, (am, v), ?_, t, takeAmount_more h11 hle, p, h12,
    w1, h13, (acc, bs), h14, k, h15, rfl, rfl, ?_, rfl⟩
  · rw [hb]; exact h1
  · rw [swapDebtAmounts_more hdebt hle]; exact h10
  · simp only [Bucket.mk.injEq, true_and]; ring

end

/-- Base tokens that can exist: a non-negative whole number of the smallest unit. -/
def Bucket.Base (env : Env) (b : Bucket) : Prop := b.res = BASE ∧ 0 ≤ b.amt ∧ b.amt % (env.gran BASE : Int) = 0

theorem Bucket.Base.ok {env : Env} {s : State} {b : Bucket} (h : b.Base env) : okBucket env s b = true := by
  obtain ⟨h1, h2, h3⟩ := h
  unfold okBucket
  rw [h1]
  simp only [decide_eq_true_eq]
  exact ⟨h2, h3, fun h => absurd h (by decide), fun h => absurd h (by decide)⟩

/-- **C74, liquidation.** Who offers more than another liquidator whose payment is accepted liquidates to the same effect, and gets
the difference back. -/
theorem c74_liquidation {env : Env} {cl : Caller} {s s' : State} {a : Addr} {b b' : Bucket} {u : Option PriceUpdate} {o : Out}
    (h : step env cl s (.liquidate a b u) = Except.ok (s', o)) (hb : b'.Base env) (hle : b.amt ≤ b'.amt) :
    ∃ l x, o.buckets = l ++ [⟨BASE, x⟩] ∧
      step env cl s (.liquidate a b' u) = Except.ok (s', { o with buckets := l ++ [⟨BASE, x + (b'.amt - b.amt)⟩] }) := by
  obtain ⟨q1, q2, q3, h1⟩ := step_ok.mp h
  simp only [body] at h1
  simp only [opLiquidate, bind_ok, pure_ok, Prod.mk.injEq, require_ok] at h1
  obtain ⟨-, k1, v, k2, ⟨s1, c, p⟩, k3, ⟨w, tk, e⟩, k4, s2, k5, s3, k6, rfl, rfl⟩ := h1
  have hres : b'.res = b.res := by
    have : b.res = BASE := by
      simp only [liquidate, bind_ok, require_ok, decide_eq_true_eq] at k4
      exact k4.choose_spec.1
    rw [hb.1, this]
  obtain ⟨l, x, rfl, k4'⟩ := liquidate_more k4 hres hle
  refine ⟨l, x, rfl, step_ok.mpr ⟨q1, q2, q3, ?_⟩⟩
  simp only [body, opLiquidate, bind_ok, pure_ok, Prod.mk.injEq, require_ok]
  exact ⟨(), hb.ok, v, k2, (s1, c, p), k3, (w, _, e), k4', s2, k5, s3, k6, rfl, rfl⟩

/-- **C74, debt swaps.** Once the payment covers the debt, offering more has the same effect, and the difference is returned. -/
theorem c74_swap {env : Env} {cl : Caller} {s s' : State} {a : Addr} {acc : Account} {r : Res} {b b' : Bucket}
    {u : Option PriceUpdate} {o : Out} (ha : s.accounts.get a = some acc)
    (h : step env cl s (.swapDebt a r b u) = Except.ok (s', o)) (hb : b'.Base env) (hle : b.amt ≤ b'.amt) (hd : -acc.vb ≤ b.amt) :
    ∃ tk x, o.buckets = [tk, ⟨BASE, x⟩] ∧
      step env cl s (.swapDebt a r b' u) = Except.ok (s', { o with buckets := [tk, ⟨BASE, x + (b'.amt - b.amt)⟩] }) := by
  obtain ⟨q1, q2, q3, h1⟩ := step_ok.mp h
  simp only [body] at h1
  simp only [opSwapDebt, bind_ok, pure_ok, Prod.mk.injEq, require_ok] at h1
  obtain ⟨-, k1, v, k2, ⟨s1, c, p⟩, k3, ⟨w, tk, rest, e⟩, k4, s2, k5, rfl, rfl⟩ := h1
  have hres : b'.res = b.res := by
    have : b.res = BASE := by
      simp only [swapDebt, bind_ok, require_ok, decide_eq_true_eq] at k4
      exact k4.choose_spec.1
    rw [hb.1, this]
  have hv : v.vb = acc.vb := by
    obtain ⟨acc', rd, g1, -, g2⟩ := load_ok k2
    rw [ha] at g1; cases g1
    rw [g2]
  obtain ⟨x, rfl, k4'⟩ := swapDebt_more k4 hres hle (by simp only; rw [hv]; exact hd)
  refine ⟨tk, x, rfl, step_ok.mpr ⟨q1, q2, q3, ?_⟩⟩
  simp only [body, opSwapDebt, bind_ok, pure_ok, Prod.mk.injEq, require_ok]
  exact ⟨(), hb.ok, v, k2, (s1, c, p), k3, (w, tk, _, e), k4', s2, k5, rfl, rfl⟩

/-! ## Requests -/

/-- **Specification.** Request `i` of the account can be executed now: it was not invalidated by a liquidation, it is active and
the current time is inside its window. -/
def State.Due (s : State) (a : Addr) (i : Nat) (r : Request) : Prop :=
  ∃ acc kr, s.accounts.get a = some acc ∧ acc.requests[i]? = some kr ∧ kr.request = r ∧ acc.validStart ≤ i ∧
    kr.submission < s.now ∧ s.now < kr.expiry ∧ kr.status = STATUS_ACTIVE

/-- **Specification.** The order `q'` is the order `q` with limits at least as loose: every price and every fee `q` accepts is
accepted by `q'`. -/
def MarginOrderReq.Looser (q q' : MarginOrderReq) : Prop :=
  q' = { q with priceLimit := q'.priceLimit, slippageLimit := q'.slippageLimit } ∧
    (∀ x, q.priceLimit.Holds x → q'.priceLimit.Holds x) ∧ ∀ fee v, q.slippageLimit.Holds fee v → q'.slippageLimit.Holds fee v

/-- **Specification.** The withdrawal `q'` asks for at most as much of the base token as `q` and the same of everything else, for
some wallet. -/
def RemoveCollateralReq.Smaller (env : Env) (q q' : RemoveCollateralReq) : Prop :=
  env.isWallet q'.target = true ∧ (∀ r, r ∈ q'.claims.map Prod.fst → r ∈ q.claims.map Prod.fst) ∧
    (∀ r, r ≠ BASE → claimed q'.claims r = claimed q.claims r) ∧ 0 ≤ claimed q'.claims BASE ∧
    claimed q'.claims BASE ≤ claimed q.claims BASE

theorem looser_refused {env : Env} {s : State} {acc : Account} {q q' : MarginOrderReq} {u : Option PriceUpdate} {e : Err}
    (h : q.Looser q') (hr : OrderRefused env s acc q' u e) : OrderRefused env s acc q u e := by
  obtain ⟨h1, h2, h3⟩ := h
  rw [h1] at hr
  unfold OrderRefused at hr ⊢
  split at hr
  · obtain ⟨x, t, hx, hn⟩ := hr
    exact ⟨x, t, hx, fun hh => hn (h2 _ hh)⟩
  · obtain ⟨s1, hs, hn⟩ := hr
    exact ⟨s1, hs, fun hh => hn (h3 _ _ hh)⟩
  all_goals exact hr

theorem smaller_refused {env : Env} {s : State} {acc : Account} {q q' : RemoveCollateralReq} {u : Option PriceUpdate} {e : Err}
    (h : q.Smaller env q') (hr : WithdrawalRefused env s acc q' u e) : WithdrawalRefused env s acc q u e := by
  obtain ⟨h1, h2, h3, h4, h5⟩ := h
  unfold WithdrawalRefused at hr ⊢
  split at hr
  · obtain ⟨r, hm, hc⟩ := hr
    refine ⟨r, h2 r hm, ?_⟩
    rcases hc with ⟨rfl, hc⟩ | ⟨hne, hc⟩
    · exact Or.inl ⟨rfl, hc.trans_le h5⟩
    · rw [h3 r hne] at hc; exact Or.inr ⟨hne, hc⟩
  · exact lt_of_lt_of_le hr h5
  · obtain ⟨r, hm, hc⟩ := hr
    by_cases hb : r = BASE
    · subst hb
      exact absurd (amountFor_down (env.gran_pos _) h4 rfl).2.2.2 (not_le.mpr hc)
    · rw [h3 r hb] at hc; exact ⟨r, h2 r hm, hc⟩
  · rw [h1] at hr; cases hr
  · obtain ⟨acc', hw, hlt⟩ := hr
    refine ⟨{ acc' with vb := acc.vb - amountFor (env.gran BASE) (claimed q.claims BASE) .toZero }, ⟨?_, rfl, ?_⟩, ?_⟩
    · conv_lhs => rw [hw.same]
    · intro r
      have := hw.balances r
      simp only
      rw [this]
      by_cases hb : r = BASE
      · rw [if_pos hb, if_pos hb]
      · rw [if_neg hb, if_neg hb, h3 r hb]
    · have hmono : amountFor (env.gran BASE) (claimed q'.claims BASE) .toZero ≤ amountFor (env.gran BASE) (claimed q.claims BASE) .toZero := by
        unfold amountFor
        simp only
        have hg : (0 : Int) < (env.gran BASE : Int) := by exact_mod_cast env.gran_pos BASE
        refine mul_le_mul_of_nonneg_right ?_ hg.le
        rw [Int.tdiv_eq_ediv_of_nonneg h4, Int.tdiv_eq_ediv_of_nonneg (h4.trans h5)]
        exact Int.ediv_le_ediv hg h5
      have hv := hw.vb
      simp only [State.accountValue, State.initialMargin, Market.value, State.rebateOf] at hlt ⊢
      linarith
  · exact hr

/-- The reasons of the content of a request, an order or a withdrawal. -/
def Request.ContentRefused (env : Env) (s : State) (acc : Account) (u : Option PriceUpdate) (e : Err) : Request → Prop
  | .marginOrder q => OrderRefused env s acc q u e
  | .removeCollateral q => WithdrawalRefused env s acc q u e

theorem request_refused {env : Env} {s : State} {a : Addr} {i j : Nat} {r r' : Request} {u : Option PriceUpdate} {e : Err}
    (hi : s.Due a i r) (hj : s.Due a j r') (he : e ≠ .arithmetic)
    (hm : ∀ acc, r'.ContentRefused env s acc u e → r.ContentRefused env s acc u e)
    (hr : RequestRefused env s a j u e) : RequestRefused env s a i u e := by
  obtain ⟨acc, kr, a1, a2, a3, a4, a5, a6, a7⟩ := hi
  obtain ⟨acc', kr', b1, b2, b3, b4, b5, b6, b7⟩ := hj
  rw [a1] at b1
  cases b1
  unfold RequestRefused at hr
  split at hr
  · rw [a1] at hr; cases hr
  · exact absurd rfl he
  · obtain ⟨x, hx, hlt⟩ := hr
    rw [a1] at hx; cases hx
    exact absurd b4 (not_le.mpr hlt)
  · obtain ⟨x, y, hx, hy, hz⟩ := hr
    rw [a1] at hx; cases hx
    rw [b2] at hy; cases hy
    rcases hz with ⟨-, hz⟩ | ⟨hz, -⟩
    · exact absurd b7 hz
    · exact absurd b6 (not_lt.mpr hz)
  · obtain ⟨x, y, hx, hy, hz⟩ := hr
    rw [a1] at hx; cases hx
    rw [b2] at hy; cases hy
    exact absurd b5 (not_lt.mpr hz)
  · obtain ⟨x, hx, hz⟩ := hr
    rw [a1] at hx; cases hx
    rcases hz with ⟨-, hz⟩ | ⟨y, hy, -, -, -, -, hz⟩
    · have := (List.getElem?_eq_some_iff.mp b2).1
      exact absurd this (not_lt.mpr hz)
    · rw [b2] at hy; cases hy
      subst a3 b3
      exact requestRefused_of a1 a2 a4 a5 a6 a7 (hm acc hz)

section
variable {env : Env} {cl : Caller} {s : State} {a : Addr} {i j : Nat} {u : Option PriceUpdate}

/-- **C74, orders.** If an order goes through, so does the same order with looser limits. -/
theorem c74_order {q q' : MarginOrderReq} (hr : Reach env s) (hw : s.RewardWhole env) (hi : s.Due a i (.marginOrder q))
    (hj : s.Due a j (.marginOrder q')) (hl : q.Looser q') (h : ∃ x, step env cl s (.processRequest a i u) = Except.ok x)
    (hn : step env cl s (.processRequest a j u) ≠ Except.error .arithmetic) :
    ∃ x, step env cl s (.processRequest a j u) = Except.ok x := by
  obtain ⟨⟨s', o⟩, h⟩ := h
  obtain ⟨hp, hc⟩ := c71_binding (op := .processRequest a i u) hr trivial h
  refine (c71_exact (op := .processRequest a j u) hr hw trivial hn).mpr ⟨⟨hp.1, hp.2, hp.3⟩, fun e he hx => hc e he ?_⟩
  exact request_refused hi hj he (fun acc => looser_refused hl) hx

/-- **C74, withdrawals.** If a withdrawal goes through, so does one that asks for less of the base token. -/
theorem c74_withdrawal {q q' : RemoveCollateralReq} (hr : Reach env s) (hw : s.RewardWhole env)
    (hi : s.Due a i (.removeCollateral q)) (hj : s.Due a j (.removeCollateral q')) (hl : q.Smaller env q')
    (h : ∃ x, step env cl s (.processRequest a i u) = Except.ok x)
    (hn : step env cl s (.processRequest a j u) ≠ Except.error .arithmetic) :
    ∃ x, step env cl s (.processRequest a j u) = Except.ok x := by
  obtain ⟨⟨s', o⟩, h⟩ := h
  obtain ⟨hp, hc⟩ := c71_binding (op := .processRequest a i u) hr trivial h
  refine (c71_exact (op := .processRequest a j u) hr hw trivial hn).mpr ⟨⟨hp.1, hp.2, hp.3⟩, fun e he hx => hc e he ?_⟩
  exact request_refused hi hj he (fun acc => smaller_refused hl) hx

end

end Perp
