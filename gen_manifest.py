#!/usr/bin/env python3
"""Writes MANIFEST.json from the table below (run after adding theorems)."""
import json
P = "Perp."
C = []
def claim(p, status, thms, note=""):
    C.append({"property": p, "status": status, "theorems": [t if t.startswith("Perp.") else P + t for t in thms.split()], "note": note})
claim("C01","proved","c01_ledger_zero_sum c01_between_transactions")
claim("C02","proved","c02_pool_value c02_quoted_price c02_add_price c02_remove_price")
claim("C03","proved","c03_open_interest c03_open_interest_covers")
claim("C04","proved","c04_aggregate_snapshots c04_touched_pairs_marked")
claim("C05","proved","c05_no_empty_position c05_closed_completely")
claim("C06","proved","c06_status_moves c06_created_pending c06_terminal")
claim("C07","proved","c07_content_fixed c07_never_shrinks c07_at_most_once")
claim("C08","proved","c08_window c08_expired_changes_nothing")
claim("C09","partial","c09_delay_partial c09_delay_wraps","false in the code for delays of 2^63 seconds or more (the cast to i64 wraps): c09_delay_wraps is the witness, c09_delay_partial the statement for smaller delays")
claim("C10","proved","c10_liquidation_invalidates")
claim("C11","proved","c11_mutually_exclusive c11_not_before_main c11_tp_sl")
claim("C12","proved","c12_tp_sl_shape")
claim("C13","proved","c13_active_exact")
claim("C14","proved","c14_price_moves_forward c14_price_removed c14_replay c14_keys")
claim("C15","proved","c15_pair_prices c15_collateral_prices c15_reported_price")
claim("C26","proved","c26_active_requests c26_open_limits c26_collaterals c26_requests")
claim("C39","proved","c39_frozen c39_stays_frozen c39_withdraw c39_only_authority_moves")
claim("C40","proved","c40_role_required c40_owner_required c40_roles_change c40_failed_tx_changes_nothing c40_failed_call_undoes_all c40_methods c40_owners c40_assignment c40_component_owners c40_configuration c40_authority c40_account_created c40_position_moved c40_book_moved c40_lp_supply c40_referral_issued c40_delegator")
claim("C45","proved","c45_storable c45_magnitude c45_precision c45_round_trip c45_idempotent c45_not_monotone")
claim("C47","proved","c47_list_refines c47_list_update_iff c47_hash_list_refines c47_pages_concatenate c47_request_page c47_tail_page")
claim("C48","partial"," ".join("Perp.Wrapper."+t for t in "c48_backed_partial c48_flash_repaid_partial c48_unbacked_reachable c48_flash_loan_unpaid".split()),"false in the code: unwrap never checks the token handed in; the two witnesses show it, the two partial theorems hold for histories in which only base tokens are unwrapped")
claim("C16","proved","c16_open_needs_margin")
claim("C17","proved","c17_withdrawal c17_exact")
claim("C22","proved","c22_order_size c22_reduce_only")
claim("C23","proved","c23_limits c23_only_limits_reject")
claim("C24","proved","c24_order_is_local c24_withdrawal_is_local")
claim("C25","proved","c25_recorded_is_held c25_no_zero_balance")
claim("C27","proved","c27_order_skew c27_remove_liquidity_skew")
claim("C20","proved","c20_order_fee c20_adl_fee c20_liquidation_fee")
claim("C21","proved","c21_fee_split c21_order_charge c21_adl_charge")
claim("C46","partial","c46_exchange_in_force c46_collateral_in_force_partial c46_pair_in_force_partial c46_ages_wrap","false in the code: ages and periods are cast to 16 bits (65536 becomes 0) and the lossy 16-bit encoding is not monotone, so maintenance margin may exceed initial margin; c46_ages_wrap is the witness, the partial theorems state what does hold")
claim("C18","proved","c18_healthy_not_liquidatable c18_not_liquidatable_after_order")
claim("C19","proved","c19_only_below_maintenance c19_complete")
claim("C28","proved","c28_adl")
claim("C29","partial","c29_long_ranked_partial c29_ranked_partial c29_negative_cost_reversed c29_threshold_falls c29_losing_short_deleveraged","False for short positions in the code: profit is divided by the signed cost. Proved for all long positions of reachable states and for every positive cost; the reversed comparison and a reachable losing short that is deleveraged are proved as well.")
claim("C49","proved","c49_others_untouched c49_positions_moved_by c49_never_removed c49_new_account_flat")
claim("C30","proved","c30_swap_debt c30_debt_price")
claim("C31","proved","c31_add c31_remove c31_pro_rata c31_price_never_falls c31_round_trip Scn.c31_empty_pool_windfall")
claim("C32","proved","c32_paid_once c32_second_call_pays_nothing c32_protocol_burn c32_only_collected c32_entitled c32_kept")
claim("C33","proved","c33_balances_nonnegative")
claim("C34","proved","c34_backed c34_use_counted c34_uses_bounded c34_claimable")
claim("C35","proved","c35_granted_within_limit c35_counts_exact c35_allocation_respected")
claim("C36","proved","c36_levels c36_rules_change c36_set_level c36_created c36_new_request c36_cancelled c36_referral_holder",
 "Levels table Op.needs; rule changes, new requests and cancellations traced to the call and the level satisfied by its caller.")
claim("C37","proved","c37_registry_exact","Invariant over all reachable states, both directions.")
claim("C38","proved","c38_add_auth_rule c38_recovery_key c38_caller_keeps_level1 c38_open_rule_replaced",
 "For protected rules; c38_open_rule_replaced shows that the restriction is needed.")
claim("C41","proved","c41_bounded c41_supply_nonneg c41_within_max_lock c41_charged c41_charged_new c41_none_outstanding","c41_within_max_lock is over histories in which the owner does not lower the maximum below the supply outstanding inside a transaction; c41_bounded needs no such restriction.")
claim("C42","proved","c42_conserved c42_settlement c43_update",
 "Gap between booked and owed funding changes by at most the stated rounding per step; each call books each updated pair once and moves exactly the reported funding. PairBrought.close is the per-pair bound.")
claim("C43","proved","c43_direction c43_integral c43_no_funding c43_update",
 "For every reachable state and every call. The bounds of the integral rate are those at the prices and open interest of the update.")
claim("C44","partial","c44_reward c44_repeat_partial c44_period_zero",
 "The exact reward is proved for all calls. Repeats earn nothing only if the update period in force is positive: a validated period of 65536 s is stored as 0, and c44_period_zero exhibits a reachable state where every repeated call earns a reward.")
claim("C50","proved","c50_order_fee c50_adl_fee c50_liquidation_fee c50_with_skew_costs_more c50_direction",
 "tradeFee is the separate specification; the account valuation of C16-C19 uses the same function.")
claim("C51","proved","c51_call c51_supplies c51_held_nonneg c51_history c51_solvent c51_lp","Exact token conservation for every call and every resource, supplies, non-negative vaults, and the corollary over whole histories.")
claim("C52","proved","c52_account c52_account_answers c52_pool c52_pairs c52_pair_pages c52_referrals reach_resolves","The answers are compared with the stored state through the specifications PositionReported, CollateralReported and AccountReported; the only possible failure of an account query is arithmetic overflow (a page end of 2^64-1 does overflow, shown by an example).")
claim("C53","proved","c53_failures c53_no_internal c53_liquidation c53_order c53_withdrawal c53_adl c53_update_pairs c53_expired c53_cancel Scn.c53_cancel_invalidated",
 "Op.failures is the table of documented errors per method. Assumes the configured keeper reward is a multiple of the reward token's divisibility (State.RewardWhole). Arithmetic overflow of Decimal or u64 remains as a possible failure everywhere except in c53_expired and c53_cancel, which are total. Scn.c53_cancel_invalidated shows why cancellation is claimed for valid indexes only.")
claim("C54","proved","c54_liquidation c54_liquidatable c54_adl c54_request c54_close_executes c54_withdrawal_executes",
 "LiquidationRefused, AdlRefused, OrderRefused, WithdrawalRefused and PricesRefused are the separate specification of every reason; State.Refreshed is the state at the new prices with funding brought up to date. Arithmetic overflow is always allowed as a reason. Assumes RewardWhole as C53.")
claim("C55","proved","c55_order c55_adl c55_liquidation c55_pool",
 "State.equity is the specification (value of the account with positions marked at the price, before the exit fee). The bounds 2 and 1 are units of 10^-18 from truncated division of the closed cost.")
claim("C56","proved","Registry.c56_last_write Registry.c56_owner_only","valueAfter (last write in the flattened list of writes) is the specification.")
claim("C57","proved","Faucet.c57_handout Faucet.c57_available Faucet.c57_blocked Faucet.c57_supply Faucet.c57_authorized","Resources other than the faucet's own may be minted and burnt by others (call external).")
claim("C58","proved","c54_refusals c54_goes_through c54_order_request_exact c54_tp_sl_request_exact c54_cancel_exact c54_withdrawal_request_exact c54_exchange_config_exact c54_pair_config_exact c54_collateral_config_exact",
 "Op.Refused is the table of reasons for all 45 calls, independent of the model's code; HolderRefused, AddRefused, CreateRefused, AddLiquidityRefused, SwapDebtRefused etc. are its entries. Where an entry allows arithmetic overflow unconditionally (valuations) the reason is not spelled out; the *_exact theorems are two-sided. Assumes RewardWhole as C53 (only keepers' calls need it).")
claim("C59","proved","c59_indexer c59_nothing_hidden bodyL_erase stepL_erase reach_iff_log",
 "View.read is the specification: the meaning of each event, given without reference to the contract's state. The emitting methods are modelled a second time with their events; stepL_erase shows that without the events they are the methods of all other claims, failures included. Virtual balances are not claimed: settling a fee oath emits nothing, so no indexer can follow them from events alone. Configuration events carry the uncompressed settings, so the picture is compared with the stored settings through compress. Base currency is never held as a collateral balance and is excluded.")
claim("C60","proved","c60_order_request c60_withdrawal_request c60_tp_sl_request c60_cancel c60_set_level c60_add_auth_rule c60_recovery_key c60_add_collateral c60_create_account c60_mint_referral c60_update_referral c60_create_codes c60_add_allocation c60_mint_with_allocation c60_codes_from_allocation c60_collect c60_swap_protocol_fee c60_exchange_config c60_pair_configs c60_collateral_configs c60_remove_collateral_config c60_admin c60_add_liquidity c60_remove_liquidity",
 "Each theorem gives the whole state after the call as an update of the state before (State.put etc. in Asked.lean are the specification). Which rule add_auth_rule and create_recovery_key write is C37 and C38; the permission index after the rule calls is C37. Keepers' calls are covered by C11-C13, C17-C19, C22, C28, C30, C42-C44. Witnesses in WitnessF.lean.")
claim("C61","proved","c61_refused c61_authority c61_conserved c61_step c61_sealed c61_ledger c61_delegator pool_realize_update account_realize_update",
 "World.lean models the protected methods of all components as callable by anybody. c61_sealed gives Reach for the components' state, so every other theorem about reachable states applies. Witnesses in WitnessG.lean, including that with the authority outside the books can be broken (the condition is needed).")
claim("C62","proved","c62_call c62_refusal c62_transaction c62_account_details c62_pool_details c62_pair_details c62_other_reads",
 "State.Same: equal content of every map; Op.Same: the same call up to the order of what it passes as a map, set or list of requests; the flags of update_pairs come in set order (same multiset). An overflow of an intermediate sum is the one order-dependent failure.")
claim("C63","proved","c63_call c63_refusal c63_transaction c63_reads c63_private c63_private_refusal c63_unobstructed c63_commute",
 "Alike V: ledgers that differ only in accounts outside V. Private calls: placing and cancelling requests without a fee oath. Meanwhile: any history of others' calls that does not change clock, settings, roles or authority.")
claim("C64","proved","c64_call c64_history c64_still c64_flow c64_still_history c64_round_trip",
 "Worth = virtual balance + mark-to-market gain of positions (State.equity, as in C55); other collateral is C25's. Op.flow is the specification of payments; Out.charged is the payment bucket less the change returned.")
claim("C65","proved","c65_call c65_still c65_flow c65_history c65_still_history c65_lp_holders",
 "Op.poolFlow, Op.poolTakes, State.poolGain and PoolPosition.accrual are the specification. c65_flow and c65_lp_holders assume that the fee for adding or removing liquidity is at most 100% (the code does not bound it); c65_lp_holders also that LP tokens exist before and after and the pool is worth at least 1 (see C31 for what happens otherwise).")
claim("C66","proved","c66_results c66_accounts c66_order c66_liquidation c66_withdrawal c66_swap c66_liquidity c66_adl",
 "Event.result, Ev.announced and Event.account are the specification. The fees in the events are C21's, profit and funding C28, C42 and C55's, the write-off C55's. The order of the two lists of an order is that of a hash map and not claimed.")
claim("C67","proved","c67_safe c67_call c67_untouched c67_exit c67_close",
 "Account.AtRest, Account.Stranger, Strangers and Elsewhere are the specification. c67_exit assumes what nobody but the operator controls: the method's role and authority (Permitted), usable prices of the collaterals, base tokens in the pool; the keeper's call is within the request's time window.")
claim("C68","proved","c68_deploy c68_call c68_settings c68_writers c68_listed c68_accepted",
 "Settings, Settings.atBirth, Settings.write, Settings.mayWrite, Ran and State.Shows are the specification. Component owners and the exchange's owner rule are fixed in the model (the engine lets an owner hand over an updatable owner role).")
claim("C69","partial","c69_order_partial c69_withdrawal_partial c69_current c69_missed c69_stale_order c69_stale_withdrawal","False in the code without a proviso: c69_stale_order and c69_stale_withdrawal exhibit reachable states in which an account passes the margin check and is liquidated in the same second at the same prices. Proved under the proviso that the pairs of its other positions (for a withdrawal: of all positions) were brought up to date in the same second, which update_pairs does (c69_current); the gap is exactly the funding accrued since their last update (c69_missed).")
claim("C70","proved","c70_schedule c70_rewards c70_again","Within one second, at given prices: the resulting pool is the same for any two schedules of update_pairs calls covering the same pairs, everything else is unchanged, the total rewards are one per due pair (positive update periods), updating again changes nothing. c70_not_across_seconds shows the restriction to one second is needed.")
claim("C71","proved","c71_binding c71_exact c71_refused","Converse of C54 for every call of the model: a call that goes through was permitted and none of the reasons in Op.Refused (other than arithmetic overflow) held; with c54_refusals a call without overflow goes through exactly if it is permitted and no reason holds. Configuration settings are assumed to be decimals (Op.Typed), which the type of the argument guarantees in the code; c71_exact assumes that the reward settings are whole units of the reward token (RewardWhole).")
claim("C72","proved","c72_reasons c72_decision c72_outcome c72_upkeep c72_payout c72_other_pairs","Any number of upkeep calls in the same second on pairs the call brings up to date itself leaves the set of reasons to refuse it (Op.Refused, exact by C54 and C71) unchanged, so the decision too unless a number leaves the decimal range. c72_outcome: an order, a liquidation or a deleveraging that goes through either way leaves the same ledger (up to the storage order of maps, State.Same of C62), payouts and event, apart from the reward tokens minted by the upkeep; c72_upkeep: the same for update_pairs itself. c72_payout: withdrawals, debt swaps and expired requests pay and report exactly the same and leave exactly the same ledger, with the prices and pair figures of the upkeep, for upkeep of any pairs. c72_other_pairs: a reachable state in which upkeep of a different pair turns an accepted order into a refused one, so the condition on the pairs is needed.")
claim("C73","proved","c73_confluent c73_same_news","UpkeepRun is an inductive predicate over sequences of update_pairs calls, with the concatenated list of their pairs; two runs with the same set of pairs end in states related by State.Same (C62: equal up to the storage order of maps) apart from rewardSupply. c73_same_news is an equation between the results (successes and failures) of any call with the update passed again and without it.")
claim("C74","proved","c74_liquidation c74_swap c74_order c74_order_effect c74_withdrawal","c74_liquidation and c74_swap compare the two calls exactly: same state, same output but for the change, which grows by the difference. c74_order and c74_withdrawal compare two pending requests of one account (State.Due: valid, active and inside the window) in the same state: if processing one goes through, so does processing the other. c74_order_effect: when both go through they have exactly the same effect (State.SameButRequests). MarginOrderReq.Looser quantifies over all prices and fees; RemoveCollateralReq.Smaller compares the total claimed per resource, so lists may be split and ordered differently.")
C.sort(key=lambda c: c["property"])
json.dump({"claims": C}, open("MANIFEST.json","w"), indent=1)
print(len(C), "claims")
