{
 "claims": [
  {
   "property": "C01",
   "status": "proved",
   "theorems": [
    "Perp.c01_ledger_zero_sum",
    "Perp.c01_between_transactions"
   ],
   "note": ""
  },
  {
   "property": "C02",
   "status": "proved",
   "theorems": [
    "Perp.c02_pool_value",
    "Perp.c02_quoted_price",
    "Perp.c02_add_price",
    "Perp.c02_remove_price"
   ],
   "note": ""
  },
  {
   "property": "C03",
   "status": "proved",
   "theorems": [
    "Perp.c03_open_interest",
    "Perp.c03_open_interest_covers"
   ],
   "note": ""
  },
  {
   "property": "C04",
   "status": "proved",
   "theorems": [
    "Perp.c04_aggregate_snapshots",
    "Perp.c04_touched_pairs_marked"
   ],
   "note": ""
  },
  {
   "property": "C05",
   "status": "proved",
   "theorems": [
    "Perp.c05_no_empty_position",
    "Perp.c05_closed_completely"
   ],
   "note": ""
  },
  {
   "property": "C06",
   "status": "proved",
   "theorems": [
    "Perp.c06_status_moves",
    "Perp.c06_created_pending",
    "Perp.c06_terminal"
   ],
   "note": ""
  },
  {
   "property": "C07",
   "status": "proved",
   "theorems": [
    "Perp.c07_content_fixed",
    "Perp.c07_never_shrinks",
    "Perp.c07_at_most_once"
   ],
   "note": ""
  },
  {
   "property": "C08",
   "status": "proved",
   "theorems": [
    "Perp.c08_window",
    "Perp.c08_expired_changes_nothing"
   ],
   "note": ""
  },
  {
   "property": "C09",
   "status": "partial",
   "theorems": [
    "Perp.c09_delay_partial",
    "Perp.c09_delay_wraps"
   ],
   "note": "false in the code for delays of 2^63 seconds or more (the cast to i64 wraps): c09_delay_wraps is the witness, c09_delay_partial the statement for smaller delays"
  },
  {
   "property": "C10",
   "status": "proved",
   "theorems": [
    "Perp.c10_liquidation_invalidates"
   ],
   "note": ""
  },
  {
   "property": "C11",
   "status": "proved",
   "theorems": [
    "Perp.c11_mutually_exclusive",
    "Perp.c11_not_before_main",
    "Perp.c11_tp_sl"
   ],
   "note": ""
  },
  {
   "property": "C12",
   "status": "proved",
   "theorems": [
    "Perp.c12_tp_sl_shape"
   ],
   "note": ""
  },
  {
   "property": "C13",
   "status": "proved",
   "theorems": [
    "Perp.c13_active_exact"
   ],
   "note": ""
  },
  {
   "property": "C14",
   "status": "proved",
   "theorems": [
    "Perp.c14_price_moves_forward",
    "Perp.c14_price_removed",
    "Perp.c14_replay",
    "Perp.c14_keys"
   ],
   "note": ""
  },
  {
   "property": "C15",
   "status": "proved",
   "theorems": [
    "Perp.c15_pair_prices",
    "Perp.c15_collateral_prices",
    "Perp.c15_reported_price"
   ],
   "note": ""
  },
  {
   "property": "C16",
   "status": "proved",
   "theorems": [
    "Perp.c16_open_needs_margin"
   ],
   "note": ""
  },
  {
   "property": "C17",
   "status": "proved",
   "theorems": [
    "Perp.c17_withdrawal",
    "Perp.c17_exact"
   ],
   "note": ""
  },
  {
   "property": "C18",
   "status": "proved",
   "theorems": [
    "Perp.c18_healthy_not_liquidatable",
    "Perp.c18_not_liquidatable_after_order"
   ],
   "note": ""
  },
  {
   "property": "C19",
   "status": "proved",
   "theorems": [
    "Perp.c19_only_below_maintenance",
    "Perp.c19_complete"
   ],
   "note": ""
  },
  {
   "property": "C20",
   "status": "proved",
   "theorems": [
    "Perp.c20_order_fee",
    "Perp.c20_adl_fee",
    "Perp.c20_liquidation_fee"
   ],
   "note": ""
  },
  {
   "property": "C21",
   "status": "proved",
   "theorems": [
    "Perp.c21_fee_split",
    "Perp.c21_order_charge",
    "Perp.c21_adl_charge"
   ],
   "note": ""
  },
  {
   "property": "C22",
   "status": "proved",
   "theorems": [
    "Perp.c22_order_size",
    "Perp.c22_reduce_only"
   ],
   "note": ""
  },
  {
   "property": "C23",
   "status": "proved",
   "theorems": [
    "Perp.c23_limits",
    "Perp.c23_only_limits_reject"
   ],
   "note": ""
  },
  {
   "property": "C24",
   "status": "proved",
   "theorems": [
    "Perp.c24_order_is_local",
    "Perp.c24_withdrawal_is_local"
   ],
   "note": ""
  },
  {
   "property": "C25",
   "status": "proved",
   "theorems": [
    "Perp.c25_recorded_is_held",
    "Perp.c25_no_zero_balance"
   ],
   "note": ""
  },
  {
   "property": "C26",
   "status": "proved",
   "theorems": [
    "Perp.c26_active_requests",
    "Perp.c26_open_limits",
    "Perp.c26_collaterals",
    "Perp.c26_requests"
   ],
   "note": ""
  },
  {
   "property": "C27",
   "status": "proved",
   "theorems": [
    "Perp.c27_order_skew",
    "Perp.c27_remove_liquidity_skew"
   ],
   "note": ""
  },
  {
   "property": "C28",
   "status": "proved",
   "theorems": [
    "Perp.c28_adl"
   ],
   "note": ""
  },
  {
   "property": "C29",
   "status": "partial",
   "theorems": [
    "Perp.c29_long_ranked_partial",
    "Perp.c29_ranked_partial",
    "Perp.c29_negative_cost_reversed",
    "Perp.c29_threshold_falls",
    "Perp.c29_losing_short_deleveraged"
   ],
   "note": "False for short positions in the code: profit is divided by the signed cost. Proved for all long positions of reachable states and for every positive cost; the reversed comparison and a reachable losing short that is deleveraged are proved as well."
  },
  {
   "property": "C30",
   "status": "proved",
   "theorems": [
    "Perp.c30_swap_debt",
    "Perp.c30_debt_price"
   ],
   "note": ""
  },
  {
   "property": "C31",
   "status": "proved",
   "theorems": [
    "Perp.c31_add",
    "Perp.c31_remove",
    "Perp.c31_pro_rata",
    "Perp.c31_price_never_falls",
    "Perp.c31_round_trip",
    "Perp.Scn.c31_empty_pool_windfall"
   ],
   "note": ""
  },
  {
   "property": "C32",
   "status": "proved",
   "theorems": [
    "Perp.c32_paid_once",
    "Perp.c32_second_call_pays_nothing",
    "Perp.c32_protocol_burn",
    "Perp.c32_only_collected",
    "Perp.c32_entitled",
    "Perp.c32_kept"
   ],
   "note": ""
  },
  {
   "property": "C33",
   "status": "proved",
   "theorems": [
    "Perp.c33_balances_nonnegative"
   ],
   "note": ""
  },
  {
   "property": "C34",
   "status": "proved",
   "theorems": [
    "Perp.c34_backed",
    "Perp.c34_use_counted",
    "Perp.c34_uses_bounded",
    "Perp.c34_claimable"
   ],
   "note": ""
  },
  {
   "property": "C35",
   "status": "proved",
   "theorems": [
    "Perp.c35_granted_within_limit",
    "Perp.c35_counts_exact",
    "Perp.c35_allocation_respected"
   ],
   "note": ""
  },
  {
   "property": "C36",
   "status": "proved",
   "theorems": [
    "Perp.c36_levels",
    "Perp.c36_rules_change",
    "Perp.c36_set_level",
    "Perp.c36_created",
    "Perp.c36_new_request",
    "Perp.c36_cancelled",
    "Perp.c36_referral_holder"
   ],
   "note": "Levels table Op.needs; rule changes, new requests and cancellations traced to the call and the level satisfied by its caller."
  },
  {
   "property": "C37",
   "status": "proved",
   "theorems": [
    "Perp.c37_registry_exact"
   ],
   "note": "Invariant over all reachable states, both directions."
  },
  {
   "property": "C38",
   "status": "proved",
   "theorems": [
    "Perp.c38_add_auth_rule",
    "Perp.c38_recovery_key",
    "Perp.c38_caller_keeps_level1",
    "Perp.c38_open_rule_replaced"
   ],
   "note": "For protected rules; c38_open_rule_replaced shows that the restriction is needed."
  },
  {
   "property": "C39",
   "status": "proved",
   "theorems": [
    "Perp.c39_frozen",
    "Perp.c39_stays_frozen",
    "Perp.c39_withdraw",
    "Perp.c39_only_authority_moves"
   ],
   "note": ""
  },
  {
   "property": "C40",
   "status": "proved",
   "theorems": [
    "Perp.c40_role_required",
    "Perp.c40_owner_required",
    "Perp.c40_roles_change",
    "Perp.c40_failed_tx_changes_nothing",
    "Perp.c40_failed_call_undoes_all",
    "Perp.c40_methods",
    "Perp.c40_owners",
    "Perp.c40_assignment",
    "Perp.c40_component_owners",
    "Perp.c40_configuration",
    "Perp.c40_authority",
    "Perp.c40_account_created",
    "Perp.c40_position_moved",
    "Perp.c40_book_moved",
    "Perp.c40_lp_supply",
    "Perp.c40_referral_issued",
    "Perp.c40_delegator"
   ],
   "note": ""
  },
  {
   "property": "C41",
   "status": "proved",
   "theorems": [
    "Perp.c41_bounded",
    "Perp.c41_supply_nonneg",
    "Perp.c41_within_max_lock",
    "Perp.c41_charged",
    "Perp.c41_charged_new",
    "Perp.c41_none_outstanding"
   ],
   "note": "c41_within_max_lock is over histories in which the owner does not lower the maximum below the supply outstanding inside a transaction; c41_bounded needs no such restriction."
  },
  {
   "property": "C42",
   "status": "proved",
   "theorems": [
    "Perp.c42_conserved",
    "Perp.c42_settlement",
    "Perp.c43_update"
   ],
   "note": "Gap between booked and owed funding changes by at most the stated rounding per step; each call books each updated pair once and moves exactly the reported funding. PairBrought.close is the per-pair bound."
  },
  {
   "property": "C43",
   "status": "proved",
   "theorems": [
    "Perp.c43_direction",
    "Perp.c43_integral",
    "Perp.c43_no_funding",
    "Perp.c43_update"
   ],
   "note": "For every reachable state and every call. The bounds of the integral rate are those at the prices and open interest of the update."
  },
  {
   "property": "C44",
   "status": "partial",
   "theorems": [
    "Perp.c44_reward",
    "Perp.c44_repeat_partial",
    "Perp.c44_period_zero"
   ],
   "note": "The exact reward is proved for all calls. Repeats earn nothing only if the update period in force is positive: a validated period of 65536 s is stored as 0, and c44_period_zero exhibits a reachable state where every repeated call earns a reward."
  },
  {
   "property": "C45",
   "status": "proved",
   "theorems": [
    "Perp.c45_storable",
    "Perp.c45_magnitude",
    "Perp.c45_precision",
    "Perp.c45_round_trip",
    "Perp.c45_idempotent",
    "Perp.c45_not_monotone"
   ],
   "note": ""
  },
  {
   "property": "C46",
   "status": "partial",
   "theorems": [
    "Perp.c46_exchange_in_force",
    "Perp.c46_collateral_in_force_partial",
    "Perp.c46_pair_in_force_partial",
    "Perp.c46_ages_wrap"
   ],
   "note": "false in the code: ages and periods are cast to 16 bits (65536 becomes 0) and the lossy 16-bit encoding is not monotone, so maintenance margin may exceed initial margin; c46_ages_wrap is the witness, the partial theorems state what does hold"
  },
  {
   "property": "C47",
   "status": "proved",
   "theorems": [
    "Perp.c47_list_refines",
    "Perp.c47_list_update_iff",
    "Perp.c47_hash_list_refines",
    "Perp.c47_pages_concatenate",
    "Perp.c47_request_page",
    "Perp.c47_tail_page"
   ],
   "note": ""
  },
  {
   "property": "C48",
   "status": "partial",
   "theorems": [
    "Perp.Wrapper.c48_backed_partial",
    "Perp.Wrapper.c48_flash_repaid_partial",
    "Perp.Wrapper.c48_unbacked_reachable",
    "Perp.Wrapper.c48_flash_loan_unpaid"
   ],
   "note": "false in the code: unwrap never checks the token handed in; the two witnesses show it, the two partial theorems hold for histories in which only base tokens are unwrapped"
  },
  {
   "property": "C49",
   "status": "proved",
   "theorems": [
    "Perp.c49_others_untouched",
    "Perp.c49_positions_moved_by",
    "Perp.c49_never_removed",
    "Perp.c49_new_account_flat"
   ],
   "note": ""
  },
  {
   "property": "C50",
   "status": "proved",
   "theorems": [
    "Perp.c50_order_fee",
    "Perp.c50_adl_fee",
    "Perp.c50_liquidation_fee",
    "Perp.c50_with_skew_costs_more",
    "Perp.c50_direction"
   ],
   "note": "tradeFee is the separate specification; the account valuation of C16-C19 uses the same function."
  },
  {
   "property": "C51",
   "status": "proved",
   "theorems": [
    "Perp.c51_call",
    "Perp.c51_supplies",
    "Perp.c51_held_nonneg",
    "Perp.c51_history",
    "Perp.c51_solvent",
    "Perp.c51_lp"
   ],
   "note": "Exact token conservation for every call and every resource, supplies, non-negative vaults, and the corollary over whole histories."
  },
  {
   "property": "C52",
   "status": "proved",
   "theorems": [
    "Perp.c52_account",
    "Perp.c52_account_answers",
    "Perp.c52_pool",
    "Perp.c52_pairs",
    "Perp.c52_pair_pages",
    "Perp.c52_referrals",
    "Perp.reach_resolves"
   ],
   "note": "The answers are compared with the stored state through the specifications PositionReported, CollateralReported and AccountReported; the only possible failure of an account query is arithmetic overflow (a page end of 2^64-1 does overflow, shown by an example)."
  },
  {
   "property": "C53",
   "status": "proved",
   "theorems": [
    "Perp.c53_failures",
    "Perp.c53_no_internal",
    "Perp.c53_liquidation",
    "Perp.c53_order",
    "Perp.c53_withdrawal",
    "Perp.c53_adl",
    "Perp.c53_update_pairs",
    "Perp.c53_expired",
    "Perp.c53_cancel",
    "Perp.Scn.c53_cancel_invalidated"
   ],
   "note": "Op.failures is the table of documented errors per method. Assumes the configured keeper reward is a multiple of the reward token's divisibility (State.RewardWhole). Arithmetic overflow of Decimal or u64 remains as a possible failure everywhere except in c53_expired and c53_cancel, which are total. Scn.c53_cancel_invalidated shows why cancellation is claimed for valid indexes only."
  },
  {
   "property": "C54",
   "status": "proved",
   "theorems": [
    "Perp.c54_liquidation",
    "Perp.c54_liquidatable",
    "Perp.c54_adl",
    "Perp.c54_request",
    "Perp.c54_close_executes",
    "Perp.c54_withdrawal_executes"
   ],
   "note": "LiquidationRefused, AdlRefused, OrderRefused, WithdrawalRefused and PricesRefused are the separate specification of every reason; State.Refreshed is the state at the new prices with funding brought up to date. Arithmetic overflow is always allowed as a reason. Assumes RewardWhole as C53."
  },
  {
   "property": "C55",
   "status": "proved",
   "theorems": [
    "Perp.c55_order",
    "Perp.c55_adl",
    "Perp.c55_liquidation",
    "Perp.c55_pool"
   ],
   "note": "State.equity is the specification (value of the account with positions marked at the price, before the exit fee). The bounds 2 and 1 are units of 10^-18 from truncated division of the closed cost."
  },
  {
   "property": "C56",
   "status": "proved",
   "theorems": [
    "Perp.Registry.c56_last_write",
    "Perp.Registry.c56_owner_only"
   ],
   "note": "valueAfter (last write in the flattened list of writes) is the specification."
  },
  {
   "property": "C57",
   "status": "proved",
   "theorems": [
    "Perp.Faucet.c57_handout",
    "Perp.Faucet.c57_available",
    "Perp.Faucet.c57_blocked",
    "Perp.Faucet.c57_supply",
    "Perp.Faucet.c57_authorized"
   ],
   "note": "Resources other than the faucet's own may be minted and burnt by others (call external)."
  },
  {
   "property": "C58",
   "status": "proved",
   "theorems": [
    "Perp.c54_refusals",
    "Perp.c54_goes_through",
    "Perp.c54_order_request_exact",
    "Perp.c54_tp_sl_request_exact",
    "Perp.c54_cancel_exact",
    "Perp.c54_withdrawal_request_exact",
    "Perp.c54_exchange_config_exact",
    "Perp.c54_pair_config_exact",
    "Perp.c54_collateral_config_exact"
   ],
   "note": "Op.Refused is the table of reasons for all 45 calls, independent of the model's code; HolderRefused, AddRefused, CreateRefused, AddLiquidityRefused, SwapDebtRefused etc. are its entries. Where an entry allows arithmetic overflow unconditionally (valuations) the reason is not spelled out; the *_exact theorems are two-sided. Assumes RewardWhole as C53 (only keepers' calls need it)."
  },
  {
   "property": "C59",
   "status": "proved",
   "theorems": [
    "Perp.c59_indexer",
    "Perp.c59_nothing_hidden",
    "Perp.bodyL_erase",
    "Perp.stepL_erase",
    "Perp.reach_iff_log"
   ],
   "note": "View.read is the specification: the meaning of each event, given without reference to the contract's state. The emitting methods are modelled a second time with their events; stepL_erase shows that without the events they are the methods of all other claims, failures included. Virtual balances are not claimed: settling a fee oath emits nothing, so no indexer can follow them from events alone. Configuration events carry the uncompressed settings, so the picture is compared with the stored settings through compress. Base currency is never held as a collateral balance and is excluded."
  },
  {
   "property": "C60",
   "status": "proved",
   "theorems": [
    "Perp.c60_order_request",
    "Perp.c60_withdrawal_request",
    "Perp.c60_tp_sl_request",
    "Perp.c60_cancel",
    "Perp.c60_set_level",
    "Perp.c60_add_auth_rule",
    "Perp.c60_recovery_key",
    "Perp.c60_add_collateral",
    "Perp.c60_create_account",
    "Perp.c60_mint_referral",
    "Perp.c60_update_referral",
    "Perp.c60_create_codes",
    "Perp.c60_add_allocation",
    "Perp.c60_mint_with_allocation",
    "Perp.c60_codes_from_allocation",
    "Perp.c60_collect",
    "Perp.c60_swap_protocol_fee",
    "Perp.c60_exchange_config",
    "Perp.c60_pair_configs",
    "Perp.c60_collateral_configs",
    "Perp.c60_remove_collateral_config",
    "Perp.c60_admin",
    "Perp.c60_add_liquidity",
    "Perp.c60_remove_liquidity"
   ],
   "note": "Each theorem gives the whole state after the call as an update of the state before (State.put etc. in Asked.lean are the specification). Which rule add_auth_rule and create_recovery_key write is C37 and C38; the permission index after the rule calls is C37. Keepers' calls are covered by C11-C13, C17-C19, C22, C28, C30, C42-C44. Witnesses in WitnessF.lean."
  },
  {
   "property": "C61",
   "status": "proved",
   "theorems": [
    "Perp.c61_refused",
    "Perp.c61_authority",
    "Perp.c61_conserved",
    "Perp.c61_step",
    "Perp.c61_sealed",
    "Perp.c61_ledger",
    "Perp.c61_delegator",
    "Perp.pool_realize_update",
    "Perp.account_realize_update"
   ],
   "note": "World.lean models the protected methods of all components as callable by anybody. c61_sealed gives Reach for the components' state, so every other theorem about reachable states applies. Witnesses in WitnessG.lean, including that with the authority outside the books can be broken (the condition is needed)."
  },
  {
   "property": "C62",
   "status": "proved",
   "theorems": [
    "Perp.c62_call",
    "Perp.c62_refusal",
    "Perp.c62_transaction",
    "Perp.c62_account_details",
    "Perp.c62_pool_details",
    "Perp.c62_pair_details",
    "Perp.c62_other_reads"
   ],
   "note": "State.Same: equal content of every map; Op.Same: the same call up to the order of what it passes as a map, set or list of requests; the flags of update_pairs come in set order (same multiset). An overflow of an intermediate sum is the one order-dependent failure."
  },
  {
   "property": "C63",
   "status": "proved",
   "theorems": [
    "Perp.c63_call",
    "Perp.c63_refusal",
    "Perp.c63_transaction",
    "Perp.c63_reads",
    "Perp.c63_private",
    "Perp.c63_private_refusal",
    "Perp.c63_unobstructed",
    "Perp.c63_commute"
   ],
   "note": "Alike V: ledgers that differ only in accounts outside V. Private calls: placing and cancelling requests without a fee oath. Meanwhile: any history of others' calls that does not change clock, settings, roles or authority."
  },
  {
   "property": "C64",
   "status": "proved",
   "theorems": [
    "Perp.c64_call",
    "Perp.c64_history",
    "Perp.c64_still",
    "Perp.c64_flow",
    "Perp.c64_still_history",
    "Perp.c64_round_trip"
   ],
   "note": "Worth = virtual balance + mark-to-market gain of positions (State.equity, as in C55); other collateral is C25's. Op.flow is the specification of payments; Out.charged is the payment bucket less the change returned."
  },
  {
   "property": "C65",
   "status": "proved",
   "theorems": [
    "Perp.c65_call",
    "Perp.c65_still",
    "Perp.c65_flow",
    "Perp.c65_history",
    "Perp.c65_still_history",
    "Perp.c65_lp_holders"
   ],
   "note": "Op.poolFlow, Op.poolTakes, State.poolGain and PoolPosition.accrual are the specification. c65_flow and c65_lp_holders assume that the fee for adding or removing liquidity is at most 100% (the code does not bound it); c65_lp_holders also that LP tokens exist before and after and the pool is worth at least 1 (see C31 for what happens otherwise)."
  },
  {
   "property": "C66",
   "status": "proved",
   "theorems": [
    "Perp.c66_results",
    "Perp.c66_accounts",
    "Perp.c66_order",
    "Perp.c66_liquidation",
    "Perp.c66_withdrawal",
    "Perp.c66_swap",
    "Perp.c66_liquidity",
    "Perp.c66_adl"
   ],
   "note": "Event.result, Ev.announced and Event.account are the specification. The fees in the events are C21's, profit and funding C28, C42 and C55's, the write-off C55's. The order of the two lists of an order is that of a hash map and not claimed."
  },
  {
   "property": "C67",
   "status": "proved",
   "theorems": [
    "Perp.c67_safe",
    "Perp.c67_call",
    "Perp.c67_untouched",
    "Perp.c67_exit",
    "Perp.c67_close"
   ],
   "note": "Account.AtRest, Account.Stranger, Strangers and Elsewhere are the specification. c67_exit assumes what nobody but the operator controls: the method's role and authority (Permitted), usable prices of the collaterals, base tokens in the pool; the keeper's call is within the request's time window."
  },
  {
   "property": "C68",
   "status": "proved",
   "theorems": [
    "Perp.c68_deploy",
    "Perp.c68_call",
    "Perp.c68_settings",
    "Perp.c68_writers",
    "Perp.c68_listed",
    "Perp.c68_accepted"
   ],
   "note": "Settings, Settings.atBirth, Settings.write, Settings.mayWrite, Ran and State.Shows are the specification. Component owners and the exchange's owner rule are fixed in the model (the engine lets an owner hand over an updatable owner role)."
  },
  {
   "property": "C69",
   "status": "partial",
   "theorems": [
    "Perp.c69_order_partial",
    "Perp.c69_withdrawal_partial",
    "Perp.c69_current",
    "Perp.c69_missed",
    "Perp.c69_stale_order",
    "Perp.c69_stale_withdrawal"
   ],
   "note": "False in the code without a proviso: c69_stale_order and c69_stale_withdrawal exhibit reachable states in which an account passes the margin check and is liquidated in the same second at the same prices. Proved under the proviso that the pairs of its other positions (for a withdrawal: of all positions) were brought up to date in the same second, which update_pairs does (c69_current); the gap is exactly the funding accrued since their last update (c69_missed)."
  },
  {
   "property": "C70",
   "status": "proved",
   "theorems": [
    "Perp.c70_schedule",
    "Perp.c70_rewards",
    "Perp.c70_again"
   ],
   "note": "Within one second, at given prices: the resulting pool is the same for any two schedules of update_pairs calls covering the same pairs, everything else is unchanged, the total rewards are one per due pair (positive update periods), updating again changes nothing. c70_not_across_seconds shows the restriction to one second is needed."
  },
  {
   "property": "C71",
   "status": "proved",
   "theorems": [
    "Perp.c71_binding",
    "Perp.c71_exact",
    "Perp.c71_refused"
   ],
   "note": "Converse of C54 for every call of the model: a call that goes through was permitted and none of the reasons in Op.Refused (other than arithmetic overflow) held; with c54_refusals a call without overflow goes through exactly if it is permitted and no reason holds. Configuration settings are assumed to be decimals (Op.Typed), which the type of the argument guarantees in the code; c71_exact assumes that the reward settings are whole units of the reward token (RewardWhole)."
  },
  {
   "property": "C72",
   "status": "proved",
   "theorems": [
    "Perp.c72_reasons",
    "Perp.c72_decision",
    "Perp.c72_outcome",
    "Perp.c72_upkeep",
    "Perp.c72_payout",
    "Perp.c72_other_pairs"
   ],
   "note": "Any number of upkeep calls in the same second on pairs the call brings up to date itself leaves the set of reasons to refuse it (Op.Refused, exact by C54 and C71) unchanged, so the decision too unless a number leaves the decimal range. c72_outcome: an order, a liquidation or a deleveraging that goes through either way leaves the same ledger (up to the storage order of maps, State.Same of C62), payouts and event, apart from the reward tokens minted by the upkeep; c72_upkeep: the same for update_pairs itself. c72_payout: withdrawals, debt swaps and expired requests pay and report exactly the same and leave exactly the same ledger, with the prices and pair figures of the upkeep, for upkeep of any pairs. c72_other_pairs: a reachable state in which upkeep of a different pair turns an accepted order into a refused one, so the condition on the pairs is needed."
  },
  {
   "property": "C73",
   "status": "proved",
   "theorems": [
    "Perp.c73_confluent",
    "Perp.c73_same_news"
   ],
   "note": "UpkeepRun is an inductive predicate over sequences of update_pairs calls, with the concatenated list of their pairs; two runs with the same set of pairs end in states related by State.Same (C62: equal up to the storage order of maps) apart from rewardSupply. c73_same_news is an equation between the results (successes and failures) of any call with the update passed again and without it."
  },
  {
   "property": "C74",
   "status": "proved",
   "theorems": [
    "Perp.c74_liquidation",
    "Perp.c74_swap",
    "Perp.c74_order",
    "Perp.c74_order_effect",
    "Perp.c74_withdrawal"
   ],
   "note": "c74_liquidation and c74_swap compare the two calls exactly: same state, same output but for the change, which grows by the difference. c74_order and c74_withdrawal compare two pending requests of one account (State.Due: valid, active and inside the window) in the same state: if processing one goes through, so does processing the other. c74_order_effect: when both go through they have exactly the same effect (State.SameButRequests). MarginOrderReq.Looser quantifies over all prices and fees; RemoveCollateralReq.Smaller compares the total claimed per resource, so lists may be split and ordered differently."
  }
 ]
}