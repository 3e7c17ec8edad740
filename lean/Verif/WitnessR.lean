import Verif.BindingAll
import Verif.WitnessD

/-!
# C71 in the scenario
-/

namespace Perp.Scn

/-- `c71_binding`: the keeper executes the first order of account 100, so nothing spoke against it. -/
example : ∃ s' o, step env anyone due (.processRequest 100 0 none) = Except.ok (s', o) ∧ o.ev ≠ .expired ∧
    ∀ e, e ≠ .arithmetic → ¬ RequestRefused env due 100 0 none e := by
  obtain ⟨s', o, hs, h1, -⟩ := filled
  exact ⟨s', o, hs, h1, (c71_binding (op := .processRequest 100 0 none) due_reach trivial hs).2⟩

/-- `c71_binding` for settings: the current ones, in range, are accepted and so are within the documented bounds. -/
example : ∃ s' o, step env anyone open_ (.updateExchangeConfig open_.config.exchange.decompress) = Except.ok (s', o) ∧
    ¬ ExchangeConfigRefused open_.config.exchange.decompress .invalidConfig := by
  obtain ⟨s', o, hs, -⟩ := stepped (s := open_) (op := .updateExchangeConfig open_.config.exchange.decompress)
    (P := fun _ _ => True) (by decide +kernel)
  have ht : (Op.updateExchangeConfig open_.config.exchange.decompress).Typed := by
    change ∀ x ∈ open_.config.exchange.decompress.settings, InRange x = true
    decide +kernel
  exact ⟨s', o, hs, (c71_binding open_reach ht hs).2 .invalidConfig (by decide)⟩

/-- `c71_binding`: the liquidation of account 100, under water, goes through, so its margin did not suffice. -/
example : ∃ s' o, step env anyone underwater (.liquidate 100 ⟨BASE, d 3000⟩ none) = Except.ok (s', o) ∧
    ¬ LiquidationRefused env underwater 100 ⟨BASE, d 3000⟩ none .sufficientMargin := by
  obtain ⟨s', o, h, -⟩ := stepped (s := underwater) (op := .liquidate 100 ⟨BASE, d 3000⟩ none) (P := fun _ _ => True) (by decide +kernel)
  exact ⟨s', o, h, (c71_binding (op := .liquidate 100 ⟨BASE, d 3000⟩ none) underwater_reach trivial h).2 .sufficientMargin (by decide)⟩

/-- `c71_refused`: an order that is not due yet is not executed. -/
example : ∃ e, step env anyone ordered (.processRequest 100 0 none) = Except.error e := by
  obtain ⟨acc, ha, r, hi, hle⟩ := tested (s := ordered) (a := 100) (P := fun acc => ∃ r ∈ acc.requests[0]?, ordered.now ≤ r.submission)
    (by decide +kernel)
  exact c71_refused ordered_reach trivial (e := .processBeforeSubmission) (by decide) ⟨acc, r, ha, hi, hle⟩

/-- `c71_refused`: no liquidation is paid for with another token. -/
example : ∃ e, step env anyone open_ (.liquidate 100 ⟨10, d 1000000⟩ none) = Except.error e :=
  c71_refused open_reach trivial (e := .invalidPaymentToken) (by decide) (by change (10 : Res) ≠ BASE; decide)

/-- `c71_exact`, both ways: six XRD can be withdrawn from the fee delegator, a million cannot. -/
example : (∃ r, step env anyone oathed (.delegatorWithdraw (d 6)) = Except.ok r) ∧
    ¬ ∃ r, step env anyone oathed (.delegatorWithdraw (d 1000000)) = Except.ok r := by
  constructor
  · obtain ⟨s', o, hs, -⟩ := stepped (s := oathed) (op := .delegatorWithdraw (d 6)) (P := fun _ _ => True) (by decide +kernel)
    refine (c71_exact (op := .delegatorWithdraw (d 6)) (cl := anyone) oathed_reach (whole _) trivial (by rw [hs]; exact fun h => by cases h)).mpr
      ⟨permitted (by decide +kernel), ?_⟩
    rintro e - ⟨-, h | h⟩
    · exact absurd h (by decide +kernel)
    · exact absurd h (by decide +kernel)
  · rintro ⟨r, hs⟩
    have := (c71_exact (op := .delegatorWithdraw (d 1000000)) oathed_reach (whole _) trivial (by rw [hs]; exact fun h => by cases h)).mp ⟨r, hs⟩
    exact this.2 .vault (by decide) ⟨rfl, Or.inr (by decide +kernel)⟩

end Perp.Scn
