import Verif.Asked
import Verif.WitnessB
import Verif.WitnessC

/-!
# The theorems of C60 apply to concrete calls

Each `example` is a successful call from a reachable state, with a visible effect.
-/

namespace Perp.Scn

/-- `c60_order_request`: a second order of account 100, paid with a fee oath, that activates the take-profit request and
cancels the one recorded before it.  Its index is 3, its activation list [1], its cancellation list [2]. -/
example : Reach env oathed ∧ ∃ s' o acc, step env anyone oathed
      (.marginOrderRequest (some ⟨FEE_OATH, d 3 1⟩) 100 (order 2 (d 3)) [.index 1] [.relative (-1)] STATUS_DORMANT) =
        Except.ok (s', o) ∧ oathed.accounts.get 100 = some acc ∧ o.indexes = [some 3] ∧
      s' = oathed.put (some ⟨FEE_OATH, d 3 1⟩) 100
        (acc.placed (some ⟨FEE_OATH, d 3 1⟩) [mainOrder 1030 (order 2 (d 3)) [1] [2] STATUS_DORMANT]) := by
  obtain ⟨s', o, h, ho⟩ := stepped (s := oathed) (op := .marginOrderRequest (some ⟨FEE_OATH, d 3 1⟩) 100 (order 2 (d 3))
    [.index 1] [.relative (-1)] STATUS_DORMANT) (P := fun _ o => o.indexes = [some 3]) (by decide +kernel)
  obtain ⟨acc, act, can, hg, ha, hc, ho', hs⟩ := c60_order_request oathed_reach h
  have hl : acc.requests.length = 3 := by rw [ho'] at ho; simpa using ho
  rw [hl] at ha hc
  have ea : act = [1] := by
    have : resolveAll [.index 1] 3 = Except.ok [1] := by decide +kernel
    rw [this] at ha; exact (Except.ok.inj ha).symm
  have ec : can = [2] := by
    have : resolveAll [.relative (-1)] 3 = Except.ok [2] := by decide +kernel
    rw [this] at hc; exact (Except.ok.inj hc).symm
  subst ea ec
  have hn : oathed.now = 1030 := by decide +kernel
  rw [hn] at hs
  exact ⟨oathed_reach, s', o, acc, h, hg, ho, hs⟩

/-- `c60_withdrawal_request`. -/
example : ∃ s' o, step env anyone open_ (.removeCollateralRequest none 60 100 900 [(10, d 5)]) = Except.ok (s', o) ∧
    o.indexes = [some 3] := stepped (by decide +kernel)

/-- `c60_tp_sl_request`: with both exits, and with the stop-loss only. -/
example : ∃ s' o, step env anyone open_ (.marginOrderTpSlRequest none 100 (order 2 (d 3)) (some (d 2500)) (some (d 1500))) =
    Except.ok (s', o) ∧ o.indexes = [some 3, some 4, some 5] := stepped (by decide +kernel)
example : ∃ s' o, step env anyone open_ (.marginOrderTpSlRequest none 100 (order 2 (d 3)) none (some (d 1500))) =
    Except.ok (s', o) ∧ o.indexes = [some 3, none, some 4] := stepped (by decide +kernel)

/-- `c60_cancel`: both exits of account 100. -/
example : ∃ s' o, step env anyone oathed (.cancelRequests (some ⟨FEE_OATH, d 3 1⟩) 100 [1, 2]) = Except.ok (s', o) ∧
    (s'.accounts.get 100).map (fun x => x.requests.map (·.status)) = some [STATUS_EXECUTED, STATUS_CANCELLED, STATUS_CANCELLED] ∧
    s'.oathSupply = 0 := stepped (by decide +kernel)

/-- `c60_set_level`, `c60_add_auth_rule`, `c60_recovery_key`. -/
example : ∃ s' o, step env anyone open_ (.setLevelAuth none 100 .l2 (.prot (.proof 33))) = Except.ok (s', o) ∧
    (s'.accounts.get 100).map (fun x => x.level2) = some (.prot (.proof 33)) := stepped (by decide +kernel)
example : ∃ s' o, step env anyone open_ (.addAuthRule none 100 3 (.proof 44)) = Except.ok (s', o) ∧
    (s'.accounts.get 100).map (fun x => x.level3) ≠ (open_.accounts.get 100).map (fun x => x.level3) :=
  stepped (by decide +kernel)
example : ∃ s' o, step env anyone open_ (.createRecoveryKey none 100) = Except.ok (s', o) ∧
    (s'.accounts.get 100).map (fun x => x.level1) ≠ (open_.accounts.get 100).map (fun x => x.level1) ∧
    s'.recoveryKeys = 1 := stepped (by decide +kernel)

/-- `c60_add_collateral`: base tokens go to the virtual balance, resource 10 to the vault, the oath is paid. -/
example : ∃ s' o, step env anyone oathed (.addCollateral (some ⟨FEE_OATH, d 3 1⟩) 100 [⟨BASE, d 7⟩, ⟨10, d 2⟩, ⟨10, d 3⟩]) =
    Except.ok (s', o) ∧
    (s'.accounts.get 100).map (fun x => (x.vb - d 67 1, (x.collateral.get 10))) =
      (oathed.accounts.get 100).map (fun x => (x.vb, some (d 50005))) := stepped (by decide +kernel)

/-- `c60_create_account`: without a code, and with code 1, worth 5 base tokens and 7 of resource 10. -/
example : ∃ s' o, step env anyone oathed (.createAccount 300 (some ⟨FEE_OATH, d 3 1⟩) .allowAll [⟨BASE, d 7⟩] none) =
    Except.ok (s', o) ∧ (s'.accounts.get 300).map (fun x => x.vb) = some (d 67 1) := stepped (by decide +kernel)
example : ∃ s' o, step env anyone codes (.createAccount 300 none .allowAll [⟨BASE, d 1⟩] (some 1)) = Except.ok (s', o) ∧
    (s'.accounts.get 300).map (fun x => (x.vb, x.collateral.get 10, x.referralId)) = some (d 6, some (d 7), some 1) ∧
    s'.refgen.vaults.get 10 = some (d 14) := stepped (by decide +kernel)

/-- `c60_mint_referral`, `c60_update_referral`, `c60_create_codes`, `c60_add_allocation`, `c60_mint_with_allocation`,
`c60_codes_from_allocation`. -/
example : ∃ s' o, step env anyone codes (.mintReferral 2 (d 2 2) (d 3 2) 5) = Except.ok (s', o) ∧
    (s'.referrals.get 2).map (fun x => x.maxReferrals) = some 5 := stepped (by decide +kernel)
example : ∃ s' o, step env anyone codes (.updateReferral 1 none (some (d 2 2)) (some 20)) = Except.ok (s', o) ∧
    (s'.referrals.get 1).map (fun x => (x.feeReferral, x.feeRebate, x.maxReferrals)) = some (d 5 2, d 2 2, 20) :=
  stepped (by decide +kernel)
example : ∃ s' o, step env anyone codes (.createReferralCodes 1 [⟨BASE, d 10⟩] (AMap.empty.set 5009 ([(BASE, d 4)], 1))) =
    Except.ok (s', o) ∧ o.buckets = [⟨BASE, d 6⟩] ∧ (s'.refgen.codes.get 5009).isSome := stepped (by decide +kernel)
example : ∃ s' o, step env anyone codes (.addReferralAllocation 1 [⟨BASE, d 10⟩] [(BASE, d 2)] 2) =
    Except.ok (s', o) ∧ o.buckets = [⟨BASE, d 6⟩] ∧ (s'.refgen.allocations.get 1).map (·.length) = some 2 :=
  stepped (by decide +kernel)
example : ∃ s' o, step env anyone codes (.mintReferralWithAllocation 2 (d 2 2) (d 3 2) 5 [⟨BASE, d 10⟩] [(BASE, d 2)] 2) =
    Except.ok (s', o) ∧ (s'.referrals.get 2).map (fun x => x.referrals) = some 2 := stepped (by decide +kernel)
example : ∃ s' o, step env anyone codes (.createReferralCodesFromAllocation 1 0 [5010, 5010]) = Except.ok (s', o) ∧
    (s'.refgen.codes.get 5010).isSome := stepped (by decide +kernel)

/-- `c60_collect`, `c60_swap_protocol_fee`. -/
example : ∃ s' o, step env anyone earning .collectTreasury = Except.ok (s', o) ∧ 0 < (o.buckets.map (·.amt)).sum ∧
    s'.dist.treasury < earning.dist.treasury := stepped (by decide +kernel)

/-- `c60_exchange_config`, `c60_pair_configs` (the second configuration of pair 3 counts), `c60_collateral_configs`,
`c60_remove_collateral_config`. -/
example : ∃ s' o, step env anyone open_ (.updateExchangeConfig { ExchangeConfig.dflt with positionsMax := 2 }) =
    Except.ok (s', o) ∧ s'.config.exchange.decompress.positionsMax = 2 := stepped (by decide +kernel)
example : ∃ s' o, step env anyone open_ (.updatePairConfigs [{ pairCfg 3 with oiMax := d 5 }, pairCfg 3]) =
    Except.ok (s', o) ∧ (open_.config.pairs.get 3).isNone ∧ (s'.config.pairs.get 3).map (fun x => x.decompress.oiMax) = some (d 100) :=
  stepped (by decide +kernel)
example : ∃ s' o, step env anyone open_ (.updateCollateralConfigs [(11, collCfg)]) = Except.ok (s', o) ∧
    (s'.config.collaterals.get 11).isSome ∧ (s'.config.collaterals.get 10).isSome := stepped (by decide +kernel)
example : ∃ s' o, step env anyone open_ (.removeCollateralConfig 10) = Except.ok (s', o) ∧
    (open_.config.collaterals.get 10).isSome ∧ (s'.config.collaterals.get 10).isNone := stepped (by decide +kernel)

/-- `c60_admin`: one of its cases. -/
example : ∃ s' o, step env anyone oathed (.delegatorWithdraw (d 2)) = Except.ok (s', o) ∧ s'.delegator.vault = d 4 :=
  stepped (by decide +kernel)

/-- `c60_add_liquidity`, `c60_remove_liquidity`. -/
example : ∃ s' o, step env anyone open_ (.addLiquidity ⟨BASE, d 1000⟩) = Except.ok (s', o) ∧
    open_.lpSupply < s'.lpSupply ∧ open_.dist.treasury < s'.dist.treasury := stepped (by decide +kernel)
example : ∃ s' o, step env anyone open_ (.removeLiquidity ⟨LP, d 1000⟩) = Except.ok (s', o) ∧
    s'.lpSupply < open_.lpSupply ∧ open_.dist.treasury < s'.dist.treasury := stepped (by decide +kernel)

/-- `c26_requests`: an order of exactly the minimum size is accepted, and one of a smaller size is not. -/
example : (∃ s' o, step env anyone open_ (.marginOrderRequest none 100 (order 2 (d (-1) 4)) [] [.index 1, .index 2]
    STATUS_DORMANT) = Except.ok (s', o) ∧ o.indexes = [some 3]) ∧
    ∃ e, step env anyone open_ (.marginOrderRequest none 100 (order 2 (d (-9) 5)) [] [] STATUS_ACTIVE) = Except.error e := by
  refine ⟨stepped (by decide +kernel), ?_⟩
  cases h : step env anyone open_ (.marginOrderRequest none 100 (order 2 (d (-9) 5)) [] [] STATUS_ACTIVE) with
  | error e => exact ⟨e, rfl⟩
  | ok r =>
    obtain ⟨⟨c, hc, hle⟩, -⟩ := (c26_requests h).1 _ _ _ _ _ _ rfl
    have : (open_.config.pairs.get 2).all (fun c => decide (¬ c.decompress.tradeSizeMin ≤ |(order 2 (d (-9) 5)).amount|)) = true := by
      decide +kernel
    rw [show open_.config.pairs.get 2 = some c from hc] at this
    exact absurd hle (of_decide_eq_true this)

end Perp.Scn
