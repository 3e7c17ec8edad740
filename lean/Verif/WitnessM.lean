import Verif.Report
import Verif.WitnessL

/-!
# Concrete cases for C66
-/

namespace Perp.Scn

/-- A call that emits a given event. -/
theorem emits {P : Event → Bool} {s : State} {op : Op}
    (h : (match stepL env anyone s op with | .ok r => r.2.2.any P | .error _ => false) = true) :
    ∃ s' o l e, stepL env anyone s op = Except.ok (s', o, l) ∧ e ∈ l ∧ P e = true := by
  split at h
  · rename_i r hr
    obtain ⟨e, he, hp⟩ := List.any_eq_true.mp h
    exact ⟨r.1, r.2.1, r.2.2, e, hr, he, hp⟩
  · cases h

/-- `c66_order`: the order of account 100 is filled; the event says that it has activated its take-profit and its stop-loss. -/
example : ∃ s' o l e acc acc', stepL env anyone (after ordered [.tick 1030]) (.processRequest 100 0 none) = Except.ok (s', o, l) ∧
    Event.order 100 e .none [2, 1] [] ∈ l ∧ (after ordered [.tick 1030]).accounts.get 100 = some acc ∧
    s'.accounts.get 100 = some acc' ∧ e.amountOpen = d 2 ∧ acc'.size 1 = acc.size 1 + e.amountClose + e.amountOpen ∧
    (∃ q, acc'.requests[1]? = some q ∧ q.status = STATUS_ACTIVE) := by
  obtain ⟨s', o, l, e, h, he, hp⟩ := emits (s := after ordered [.tick 1030]) (op := .processRequest 100 0 none)
    (P := fun e => match e with
      | .order 100 e .none act [] => decide (act = [2, 1] ∧ e.amountOpen = d 2)
      | _ => false) (by decide +kernel)
  split at hp
  · rename_i e act
    simp only [decide_eq_true_eq] at hp
    obtain ⟨rfl, h2⟩ := hp
    obtain ⟨acc, acc', kr, r, t, h3, h4, -, h5, h6, -, -, -, -, h7, -, -, h8, -, h9⟩ :=
      c66_order (after_reach ordered_reach _) h he
    obtain ⟨-, q, hq, -⟩ := (h8 1).mp (by simp)
    obtain ⟨q', hq', hs'⟩ := h9 1 q hq
    have hr : r.pair = 1 := by
      have : ((after ordered [.tick 1030]).accounts.get 100).bind (fun x => x.requests[0]?.map (fun y =>
          match y.request with | .marginOrder r => r.pair | _ => 0)) = some 1 := by decide +kernel
      rw [h3] at this
      simp only [Option.bind_some, h5, Option.map_some, h6, Option.some.injEq] at this
      exact this
    rw [hr] at h7
    exact ⟨s', o, l, e, acc, acc', h, he, h3, h4, h2, h7, q', hq', by rw [hs']; simp⟩
  · cases hp

/-- `c66_order`: when the take-profit is filled, its event says that it has cancelled the stop-loss. -/
example : ∃ s' o l e lim acc', stepL env anyone (after open_ [.tick 1040])
      (.processRequest 100 1 (some (prices 1040 (d 61000) (d 2000) (d 5 2)))) = Except.ok (s', o, l) ∧
    Event.order 100 e lim [] [2] ∈ l ∧ s'.accounts.get 100 = some acc' ∧ e.amountClose = d (-2) ∧ acc'.size 1 = 0 ∧
    (∃ q, acc'.requests[2]? = some q ∧ q.status = STATUS_CANCELLED) := by
  obtain ⟨s', o, l, e, h, he, hp⟩ := emits (s := after open_ [.tick 1040])
    (op := .processRequest 100 1 (some (prices 1040 (d 61000) (d 2000) (d 5 2))))
    (P := fun e => match e with
      | .order 100 e _ [] can => decide (can = [2] ∧ e.amountClose = d (-2) ∧ e.amountOpen = 0)
      | _ => false) (by decide +kernel)
  split at hp
  · rename_i e lim can
    simp only [decide_eq_true_eq] at hp
    obtain ⟨rfl, h2, h2'⟩ := hp
    obtain ⟨acc, acc', kr, r, t, h3, h4, -, h5, h6, -, -, -, -, h7, -, -, -, h8, h9⟩ :=
      c66_order (after_reach open_reach _) h he
    obtain ⟨-, -, q, hq, -⟩ := (h8 2).mp (by simp)
    obtain ⟨q', hq', hs'⟩ := h9 2 q hq
    have hr : r.pair = 1 ∧ acc.size 1 = d 2 := by
      have : ((after open_ [.tick 1040]).accounts.get 100).bind (fun x => x.requests[1]?.map (fun y =>
          match y.request with | .marginOrder r => (r.pair, x.size 1) | _ => (0, 0))) = some (1, d 2) := by decide +kernel
      rw [h3] at this
      simp only [Option.bind_some, h5, Option.map_some, h6, Option.some.injEq, Prod.mk.injEq] at this
      exact this
    rw [hr.1, hr.2, h2, h2'] at h7
    exact ⟨s', o, l, e, lim, acc', h, he, h4, h2, by rw [h7]; rfl, q', hq', by rw [hs']; simp⟩
  · cases hp

/-- `c66_liquidation`: the event lists the position with the price it was closed at, and the collateral with its own. -/
example : ∃ s' o l e acc, stepL env anyone (after open_ [.tick 1040]) (.liquidate 100 ⟨BASE, d 3000⟩ (some crash)) = Except.ok (s', o, l) ∧
    (after open_ [.tick 1040]).accounts.get 100 = some acc ∧ e.virtualBalance = acc.vb ∧
    (∃ x y, Event.liquidate 100 [(1, d 2)] [(1, x)] [(10, y)] e ∈ l ∧ (∃ t, s'.oracle.prices.get 1 = some (x, t))) ∧
    e.accountValue = e.virtualBalance + e.positionsPnl + e.collateralValueDiscounted ∧ e.positionsPnl < 0 := by
  obtain ⟨s', o, l, e, h, he, hp⟩ := emits (s := after open_ [.tick 1040])
    (op := .liquidate 100 ⟨BASE, d 3000⟩ (some crash))
    (P := fun e => match e with
      | .liquidate 100 am [(1, _)] [(10, _)] e => decide (am = [(1, d 2)] ∧ e.positionsPnl < 0)
      | _ => false) (by decide +kernel)
  split at hp
  · rename_i am x y e
    simp only [decide_eq_true_eq] at hp
    obtain ⟨rfl, h2⟩ := hp
    obtain ⟨acc, acc', h3, -, -, -, -, -, h4, -, -, -, h5, -, -, h6⟩ := c66_liquidation (after_reach open_reach _) h he
    exact ⟨s', o, l, e, acc, h, h3, h5, ⟨x, y, he, h4 1 x (by simp)⟩, h6, h2⟩
  · cases hp

/-- `c66_withdrawal`: account 200 takes out ten tokens, to 300. -/
example : ∃ s' o l, stepL env anyone (after open_ [.removeCollateralRequest none 1000 200 300 [(BASE, d 10)], .tick 1040])
      (.processRequest 200 1 none) = Except.ok (s', o, l) ∧ Event.removeCollateral 200 300 [(BASE, d 10)] ∈ l ∧
    o.paid = [(300, ⟨BASE, d 10⟩)] := by
  obtain ⟨s', o, l, e, h, he, hp⟩ := emits
    (s := after open_ [.removeCollateralRequest none 1000 200 300 [(BASE, d 10)], .tick 1040]) (op := .processRequest 200 1 none)
    (P := fun e => match e with
      | .removeCollateral 200 300 m => decide (m = [(BASE, d 10)])
      | _ => false) (by decide +kernel)
  split at hp
  · simp only [decide_eq_true_eq] at hp
    subst hp
    obtain ⟨_, _, _, -, -, -, -, -, h1⟩ := c66_withdrawal (after_reach open_reach _) h he
    exact ⟨s', o, l, h, he, h1⟩
  · cases hp

/-- `c66_swap`: somebody buys collateral of an indebted account. -/
example : ∃ s' o l e rest, stepL env anyone indebted (.swapDebt 100 10 ⟨BASE, d 1000⟩ none) = Except.ok (s', o, l) ∧
    Event.swapDebt 100 e ∈ l ∧ 0 < e.amount ∧ e.price = s'.market.debtPrice 10 ∧ o.buckets = [⟨10, e.amount⟩, ⟨BASE, rest⟩] := by
  obtain ⟨s', o, l, e, h, he, hp⟩ := emits (s := indebted) (op := .swapDebt 100 10 ⟨BASE, d 1000⟩ none)
    (P := fun e => match e with
      | .swapDebt 100 e => decide (0 < e.amount)
      | _ => false) (by decide +kernel)
  split at hp
  · rename_i e
    simp only [decide_eq_true_eq] at hp
    obtain ⟨acc, acc', rest, -, -, -, -, h1, h2, -⟩ := c66_swap indebted_reach h he
    exact ⟨s', o, l, e, rest, h, he, hp, h1, h2⟩
  · cases hp

/-- `c66_liquidity`: somebody redeems LP tokens. -/
example : ∃ s' o l e, stepL env anyone open_ (.removeLiquidity ⟨LP, d 10⟩) = Except.ok (s', o, l) ∧ Event.liquidity e ∈ l ∧
    e.lpAmount = d (-10) ∧ e.amount < 0 ∧ s'.lpSupply = open_.lpSupply + d (-10) ∧
    s'.pool.baseTokens = open_.pool.baseTokens + e.amount := by
  obtain ⟨s', o, l, e, h, he, hp⟩ := emits (s := open_) (op := .removeLiquidity ⟨LP, d 10⟩)
    (P := fun e => match e with
      | .liquidity e => decide (e.lpAmount = d (-10) ∧ e.amount < 0)
      | _ => false) (by decide +kernel)
  split at hp
  · rename_i e
    simp only [decide_eq_true_eq] at hp
    obtain ⟨h1, h2⟩ := c66_liquidity h he
    exact ⟨s', o, l, e, h, he, hp.1, hp.2, by rw [h1, hp.1], h2⟩
  · cases hp

/-- `c66_adl`: a profitable long is deleveraged. -/
example : ∃ s' o l e acc, stepL env anyone (skewed (d 29 1)) (adlAt (d 60000)) = Except.ok (s', o, l) ∧ Event.adl 100 e ∈ l ∧
    (skewed (d 29 1)).accounts.get 100 = some acc ∧ e.pair = 1 ∧ e.price = s'.market.price 1 ∧ e.amountClose = -acc.size 1 ∧
    e.amountClose < 0 := by
  obtain ⟨s', o, l, e, h, he, hp⟩ := emits (s := skewed (d 29 1)) (op := adlAt (d 60000))
    (P := fun e => match e with
      | .adl 100 e => decide (e.amountClose < 0)
      | _ => false) (by decide +kernel)
  split at hp
  · rename_i e
    simp only [decide_eq_true_eq] at hp
    obtain ⟨acc, acc', h1, -, -, h2, h3, -, h4, -⟩ := c66_adl (skewed_reach _) h he
    exact ⟨s', o, l, e, acc, h, he, h1, h2, h3, h4, hp⟩
  · cases hp

/-- `c66_results`, `c66_accounts`: placing an order has no result to report, and its one event is about the account that placed it. -/
example : ∃ s' o l e, stepL env anyone ready (.marginOrderRequest none 200 (order 1 (d (-1))) [] [] STATUS_ACTIVE) =
      Except.ok (s', o, l) ∧ e ∈ l ∧ e.account = some 200 ∧ l.filterMap Event.result = [] := by
  obtain ⟨s', o, l, e, h, he, hp⟩ := emits (s := ready) (op := .marginOrderRequest none 200 (order 1 (d (-1))) [] [] STATUS_ACTIVE)
    (P := fun e => match e with
      | .requests a _ => true
      | _ => false) (by decide +kernel)
  split at hp
  · rename_i a r
    have h1 := c66_accounts h he rfl
    cases h1
    have h2 := c66_results h
    rw [show o.ev = .none from resultless_ev rfl _ (bodyL_body (stepL_body h))] at h2
    exact ⟨s', o, l, _, h, he, rfl, h2⟩
  · cases hp

end Perp.Scn
