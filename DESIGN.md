# Formal model of surge-trade/perp-scrypto in Lean 4

(`DESIGN.md` is written by `gen_design.py` from `design_head.md`, `properties.jsonl` and `MANIFEST.json`.)

## Trusted base
* The Lean 4.33.0 kernel.  Every theorem named in `MANIFEST.json` depends on no axioms other than `propext`,
  `Classical.choice` and `Quot.sound` (Lean's own, used by Mathlib); none are added, and compiled evaluation is never used
  (examples are closed by `decide +kernel`, i.e. by kernel reduction).
* The reading of the Rust sources into the definitions of the model modules (list below).  Every definition cites the file
  and lines it models; simplifications are stated there.
* The Radix engine contract that the definitions build in:
  transactions are atomic (a panic anywhere leaves the state unchanged); a bucket holds a non-negative multiple of its
  resource's granularity and not more than exists; a vault never pays more than it holds; role checks and
  `assert_access_rule` evaluate the access-rule tree against the proofs presented; signature verification and hashing are
  functions (`Env.verify`, `Env.hash`, arbitrary); total supplies follow mint and burn; the clock never runs backwards.

## The model
| module | models |
|---|---|
| `Base` | `Decimal` (I192 attos, checked, truncating `*` and `/`), panics, `ResourceSpecifier` roundings, casts |
| `AMap` | hash maps / key-value stores with unique keys |
| `DFloat` | `common/src/d_float.rs` |
| `Types` | requests, positions, accounts, pool, configuration structs, state of all components |
| `Config`, `Oracle`, `Virtual` | `config`, `oracle`, and the exchange's `virtual_config/oracle/pool/account` caches with dirty sets and write-back |
| `Exchange` | the private functions `_…` of `exchange/src/exchange.rs` |
| `Referral` | `referral_generator`, referral receipts |
| `Ops` | the public methods of the exchange and the components behind it (accounts, permission registry, fee distributor, fee delegator, pool) |
| `Getters` | read-only methods |
| `Step` | access control, one call (`step`), transactions (`runTx`), reachable states (`Reach`, `ReachTx`, `Later`) |
| `World` | the protected methods of the components called directly, the fee delegator's roles, where the authority tokens are |
| `Deploy` (first part) | the constructors `new` of all components |
| `Lists`, `Wrapper` | `common/src/list.rs`, `hash_list.rs`; `token_wrapper` as its own state machine |

All other modules contain specifications and proofs.  `Reach env s` is: `s` results from a genesis state by any finite
sequence of successful calls, by any callers, with any arguments, at any non-decreasing times; `env` (granularities, signature
verification, hashes, XRD price, wallets) is arbitrary and universally quantified in every theorem.

`Scenario` builds concrete reachable states (two accounts, three pairs, liquidity, orders, fills) with which examples beside
the theorems show that their hypotheses are met and that the negative witnesses are reachable. `WitnessA` (C01-C15),
`WitnessB` (C16-C36), `WitnessC` (C37-C46) and `WitnessD` (C29, C35, C47-C58), `WitnessE` (C59), `WitnessF` (C60) , `WitnessG` (C61) , `WitnessH` (C62), `WitnessI` (C63) , `WitnessJ` (C14, C40), `WitnessK` (C64), `WitnessL` (C65), `WitnessM` (C66), `WitnessN` (C67) and `WitnessO` (C68), `WitnessP` (C69), `WitnessQ` (C70), `WitnessR` (C71), `WitnessS`, `WitnessT` and `WitnessV` (C72), `WitnessU` (C73), `WitnessW` (C74) apply the manifest theorems to these states one
by one, discharging every hypothesis; each example names the theorem it applies.

## Modelling decisions
* `Decimal` = `Int` attos, every operation checked against the I192 range; `*` and `/` truncate toward zero exactly as
  `Decimal` does.  Where the engine may reject more (I256 intermediates) the model accepts: theorems of the form
  "if the call succeeds then …" remain sound; for statements that a call succeeds this is an assumption.
* Panics are `Except.error`; a failing call returns no state, i.e. changes nothing.
* Hash maps are association lists with unique keys; iteration is in list order.  Theorems quantify over all such lists, hence
  over all iteration orders of the state a call starts from.
* The virtual account / pool / config / oracle objects are modelled with their caches and dirty sets and `realize`
  write-back, so that a forgotten dirty mark is visible to the proofs.
* Requests are stored as structured values instead of SBOR bytes (encode / decode = identity).
* Component and resource addresses are natural numbers; proofs presented by a caller are a set of badge names; the
  per-account access rules are trees of `allOf` / `anyOf` over badges.
* Fresh ids (RUIDs, component addresses) are parameters that must be new.

## Not modelled
Metadata, royalties, package upgrades, the wiring of component addresses at build time (histories start from any state satisfying
`Genesis`; `Deploy` models the constructors and C68 shows that a deployment is one), the engine's refund of unused locked fees, account-level
deposit rules of the target account beyond success / failure and the `deploy` scripts.  Direct calls to the inner components
(account, pool, config, oracle, ...) are modelled in `World`: C61 shows that while the owner leaves the authority token in the
exchange they are all refused, so the histories of all other properties (`Reach`) are complete.  What a holder of the
authority does after `withdraw_authority` is outside every other property; a witness in `WitnessG` shows why it has to be.

## Testing the theorems
`seeded/run_mutants.py` applies realistic bugs to the model in a scratch copy and reports which theorems lose their proof;
`seeded/run_fast.py` does the same in one pass, separating theorems that fail themselves from those that only depend on a
failed one; `seeded/LOG.jsonl` records each attempt.  In a "consistent" mutant the exact-result lemma of the edited function is restated
to agree with the bug, so that only the theorems about behaviour can notice it.

## Plan per property

| id | property | modelled | how it is proved | status | theorems |
|---|---|---|---|---|---|
| C01 | Virtual-balance ledger is zero-sum | every write to an account's, the pool's, the distributor's and a referral's virtual balance | `Trace` of working-set steps (`WStep`), each conserving `W.total`; lifted to `State.ledgerTotal` by cases on the shape of a call, then induction over histories | proved | `c01_ledger_zero_sum` `c01_between_transactions` |
| C02 | Pool value equals tokens held minus liabilities | `_pool_value`, the pool getters, `lp_price` | exact-result lemmas; the quoted and the traded prices are the same function of pool value and supply | proved | `c02_pool_value` `c02_quoted_price` `c02_add_price` `c02_remove_price` |
| C03 | Pool open interest equals the sum of account positions | open, close, liquidate, write-back of both sides' caches | invariant `State.BookAgrees`, coherence of the caches with the stored positions, induction over histories | proved | `c03_open_interest` `c03_open_interest_covers` |
| C04 | Aggregate snapshots equal the per-pair snapshots | `_update_pair_snaps`, `_update_pair` | invariant `Pool.SnapsAgree`; per call, every pair it touches ends marked at the price it used | proved | `c04_aggregate_snapshots` `c04_touched_pairs_marked` |
| C05 | Account positions stored are never empty and closing leaves no residue | removal of emptied positions on write-back | invariant `NoEmpty`; closing everything leaves no entry | proved | `c05_no_empty_position` `c05_closed_completely` |
| C06 | Request life-cycle is a fixed state machine | request status writes of all calls | `Moves` relation of one call, proved per call, then `Later` by induction | proved | `c06_status_moves` `c06_created_pending` `c06_terminal` |
| C07 | A request executes at most once and its content never changes | `push_request`, `process_request` | as C06, with the content of the request carried along | proved | `c07_content_fixed` `c07_never_shrinks` `c07_at_most_once` |
| C08 | Execution only inside the request's window | window test of `process_request` | exact-result lemma of `processRequest`; the expired branch changes the request and nothing else | proved | `c08_window` `c08_expired_changes_nothing` |
| C09 | Delays keep an order from executing in the second it was placed | submission = now + delay, with the `u64 as i64` cast | arithmetic; **partial**: false for delays of at least 2^63, witness `c09_delay_wraps` | partial | `c09_delay_partial` `c09_delay_wraps` |
| C10 | Liquidation invalidates every earlier request for ever | `update_valid_requests_start` | invariant plus monotonicity of the start index over histories | proved | `c10_liquidation_invalidates` |
| C11 | Take-profit and stop-loss are one-cancels-other | activation / cancellation lists of the TP/SL request | placement lemma plus request life-cycle | proved | `c11_mutually_exclusive` `c11_not_before_main` `c11_tp_sl` |
| C12 | Shape of take-profit / stop-loss orders | `margin_order_tp_sl_request` | exact-result lemma of placement | proved | `c12_tp_sl_shape` |
| C13 | Active-request set is exact | active-set bookkeeping | invariant over histories: the set is exactly the indexes of active requests from the start index on | proved | `c13_active_exact` |
| C14 | Oracle prices only move forward in time and need a valid signature | oracle: `push_and_get_prices`, signature check | per-pair fold lemma; induction over histories | proved | `c14_price_moves_forward` `c14_price_removed` `c14_replay` `c14_keys` |
| C15 | Keeper operations use positive and fresh prices | price ages, collateral feeds | `keeperLoad` facts; the reported price is the stored one | proved | `c15_pair_prices` `c15_collateral_prices` `c15_reported_price` |
| C16 | Opening needs initial margin | `_assert_account_integrity` after opening | valuation of the code = `Market.value` / `Market.margin` of the resulting state | proved | `c16_open_needs_margin` |
| C17 | Withdrawals need initial margin and pay only the target | `_remove_collateral` | as C16, plus exact totals paid and to whom | proved | `c17_withdrawal` `c17_exact` |
| C18 | A freshly margin-checked account is not liquidatable | both margin checks | monotonicity of margins, using `MarginsOrdered` where compression breaks it | proved | `c18_healthy_not_liquidatable` `c18_not_liquidatable_after_order` |
| C19 | Liquidation only below maintenance margin, and it is complete | `_liquidate` | exact-result lemma; positions, collateral, debt afterwards | proved | `c19_only_below_maintenance` `c19_complete` |
| C20 | Trading fees are bounded | `_calculate_fee` | rounding bounds | proved | `c20_order_fee` `c20_adl_fee` `c20_liquidation_fee` |
| C21 | Fee split is exact and leaves a non-negative pool share | `_settle_fees_referral` | exact parts, non-negativity from the validated shares and referral rates | proved | `c21_fee_split` `c21_order_charge` `c21_adl_charge` |
| C22 | Orders do what they say | `_split_order` | case analysis; size after = size before + closed + opened | proved | `c22_order_size` `c22_reduce_only` |
| C23 | Price and slippage limits are honoured | price and slippage limits | exact-result lemma; and conversely the limits are the only order-specific reason to reject | proved | `c23_limits` `c23_only_limits_reject` |
| C24 | Orders touch only their own account and pair | working set, write-back | frame lemmas | proved | `c24_order_is_local` `c24_withdrawal_is_local` |
| C25 | Recorded collateral equals vault contents | collateral vaults and recorded balances | invariant `CollOk` with granularity of every resource | proved | `c25_recorded_is_held` `c25_no_zero_balance` |
| C26 | Limits are enforced | limits on requests, positions, open interest, collaterals | exact-result lemmas of the calls that can exceed them | proved | `c26_active_requests` `c26_open_limits` `c26_collaterals` `c26_requests` |
| C27 | Skew cap is enforced | `_assert_pool_integrity` | exact-result lemma; ratio over `max(value, 1)` | proved | `c27_order_skew` `c27_remove_liquidity_skew` |
| C28 | ADL is justified and effective | `_auto_deleverage` | exact-result lemma with the marked ratio before and after | proved | `c28_adl` |
| C29 | ADL ranks positions by profitability | ADL ranking | **partial**: monotone for longs; witnesses show a losing short being deleveraged | partial | `c29_long_ranked_partial` `c29_ranked_partial` `c29_negative_cost_reversed` `c29_threshold_falls` `c29_losing_short_deleveraged` |
| C30 | swap_debt only repays debt at a fair price | `_swap_debt` | exact amounts, rounding towards the pool, price formula | proved | `c30_swap_debt` `c30_debt_price` |
| C31 | LP tokens are minted and redeemed at pool value | add / remove liquidity | rounding bounds on price per LP token; round trip; witness for the empty pool | proved | `c31_add` `c31_remove` `c31_pro_rata` `c31_price_never_falls` `c31_round_trip` `Scn.c31_empty_pool_windfall` |
| C32 | Fee balances are paid out once | collecting calls; the fee balances under every other call | exact-result lemmas; monotonicity along working-set steps, by cases on the call, then induction over histories | proved | `c32_paid_once` `c32_second_call_pays_nothing` `c32_protocol_burn` `c32_only_collected` `c32_entitled` `c32_kept` |
| C33 | Fee and referral balances never go negative | fee distributor, referrals | invariant `BalOk` | proved | `c33_balances_nonnegative` |
| C34 | Referral codes are claimable at most max_count times and always backed | referral generator | invariant: vaults cover remaining uses times amounts | proved | `c34_backed` `c34_use_counted` `c34_uses_bounded` `c34_claimable` |
| C35 | Referral limits | referral records | invariants `RefGen.Ok`, counting along histories (`Trace`) | proved | `c35_granted_within_limit` `c35_counts_exact` `c35_allocation_respected` |
| C36 | Account methods need the right authorization level | authorization levels of every account method | table `Op.needs`, checked against `body` for every call | proved | `c36_levels` `c36_rules_change` `c36_set_level` `c36_created` `c36_new_request` `c36_cancelled` `c36_referral_holder` |
| C37 | Permission registry is exact | permission registry | invariant, both directions | proved | `c37_registry_exact` |
| C38 | Adding a rule or recovery key never locks out existing holders | `add_auth_rule`, recovery keys | the new rule accepts what the old one accepted; witness for the allow-all rule | proved | `c38_add_auth_rule` `c38_recovery_key` `c38_caller_keeps_level1` `c38_open_rule_replaced` |
| C39 | Without its authority token the exchange is frozen | authority token | no call that needs the token succeeds; only two calls move it | proved | `c39_frozen` `c39_stays_frozen` `c39_withdraw` `c39_only_authority_moves` |
| C40 | Failed calls change nothing; role-protected methods need their role | role checks, atomicity | `step` / `runTx` semantics; a table `Restricted` of methods and roles written from the source, independent of the function the model checks with; and, without naming methods, whose approval each kind of change of the state shows (`Guarded`) | proved | `c40_role_required` `c40_owner_required` `c40_roles_change` `c40_failed_tx_changes_nothing` `c40_failed_call_undoes_all` `c40_methods` `c40_owners` `c40_assignment` `c40_component_owners` `c40_configuration` `c40_authority` `c40_account_created` `c40_position_moved` `c40_book_moved` `c40_lp_supply` `c40_referral_issued` `c40_delegator` |
| C41 | Fee oaths are always settled and bounded | fee oaths | invariant on the supply; exact charge | proved | `c41_bounded` `c41_supply_nonneg` `c41_within_max_lock` `c41_charged` `c41_charged_new` `c41_none_outstanding` |
| C42 | Funding is conserved up to bounded rounding | funding accrual and settlement | `fundingGap` between what the pool booked and what accounts owe, bounded rounding per step | proved | `c42_conserved` `c42_settlement` `c43_update` |
| C43 | Funding direction and bounds | `_update_pair`, funding rates | separate specification `FundingMove`; sign and bounds lemmas | proved | `c43_direction` `c43_integral` `c43_no_funding` `c43_update` |
| C44 | Pair-update rewards | update rewards | exact reward; **partial**: period stored modulo 2^16, witness | partial | `c44_reward` `c44_repeat_partial` `c44_period_zero` |
| C45 | 16-bit decimal floats | `DFloat16` | encoder / decoder lemmas over all decimals | proved | `c45_storable` `c45_magnitude` `c45_precision` `c45_round_trip` `c45_idempotent` `c45_not_monotone` |
| C46 | Effective configuration satisfies the validated bounds | configuration after compression | **partial**: bounds and 1 % rounding; witnesses for ages and for margins out of order | partial | `c46_exchange_in_force` `c46_collateral_in_force_partial` `c46_pair_in_force_partial` `c46_ages_wrap` |
| C47 | List containers behave like lists | `List`, `HashList`, pagination | refinement of Lean lists / insertion-ordered maps | proved | `c47_list_refines` `c47_list_update_iff` `c47_hash_list_refines` `c47_pages_concatenate` `c47_request_page` `c47_tail_page` |
| C48 | Wrapped tokens are backed and flash loans repaid | token wrapper | own state machine; **partial**: `unwrap` accepts any parent token, witnesses | partial | `Wrapper.c48_backed_partial` `Wrapper.c48_flash_repaid_partial` `Wrapper.c48_unbacked_reachable` `Wrapper.c48_flash_loan_unpaid` |
| C49 | Who can move an account or a position | all calls | frame lemmas | proved | `c49_others_untouched` `c49_positions_moved_by` `c49_never_removed` `c49_new_account_flat` |
| C50 | Exact trading fee and who pays more | `_calculate_fee` as charged | separate specification `tradeFee`; monotonicity | proved | `c50_order_fee` `c50_adl_fee` `c50_liquidation_fee` `c50_with_skew_costs_more` `c50_direction` |
| C51 | Tokens are conserved: nothing can be taken out that was not put in | every vault of the accounts, the pool, the referral generator, the fee delegator and the exchange; the buckets each method receives, returns, pays and burns | per-method balance lemmas (vault batches, token splitting, base deposits and withdrawals) combined over all calls, then induction over histories | proved | `c51_call` `c51_supplies` `c51_held_nonneg` `c51_history` `c51_solvent` `c51_lp` |
| C52 | The read methods tell the whole truth and always answer | All public getters of the exchange (Getters.lean), including the paging arithmetic of the request history and the pair list. | Reachability invariant `Resolves` (Known.lean: every pair of a position or pending order is configured, every referral id exists) plus the active-set invariant of C13; then each getter is unfolded and compared with an independent description of the report (Reads.lean). | proved | `c52_account` `c52_account_answers` `c52_pool` `c52_pairs` `c52_pair_pages` `c52_referrals` `reach_resolves` |
| C53 | Calls fail only for the documented reasons; liquidation, cancellation and expiry are always available | the error of every require/expect/assert in every method (Err), including vault and bucket failures of the engine | error-set calculus `Errs l x` (Errs.lean) over every function, using the load lemmas (every pair a method touches is loaded), the request invariants of C13 and the referral invariants of C34 to show that commits are total; one case per method (Failures.lean), totality of cancel and expiry (Progress.lean) | proved | `c53_failures` `c53_no_internal` `c53_liquidation` `c53_order` `c53_withdrawal` `c53_adl` `c53_update_pairs` `c53_expired` `c53_cancel` `Scn.c53_cancel_invalidated` |
| C54 | Every refusal is justified | the order of all checks in process_request, liquidate, auto_deleverage and the functions they call, and the exact values compared | a calculus of failure reasons `Fails P x` over every function (Reasons, ReasonsTrade, ReasonsOrder, ReasonsWithdraw); the state at which a check is made is related to the stored state by State.Refreshed; the converse theorems (Executes) exclude every reason | proved | `c54_liquidation` `c54_liquidatable` `c54_adl` `c54_request` `c54_close_executes` `c54_withdrawal_executes` |
| C55 | Trading is fair: a trade moves no value except its fees | all bookkeeping of an order: virtual balance, cost, size, funding, fees, pool snapshots | the sum of balance, marked positions and funding owed is followed through settle funding, close, open, fees and snapshots; truncation errors are bounded by carry_small; a liquidation closes every position at the price, so balance after = equity + payment - fees + written-off debt (LiquidateFair.lean) | proved | `c55_order` `c55_adl` `c55_liquidation` `c55_pool` |
| C56 | The environment registry answers with the owner's last write | the registry as its own transition system over a key-value map | induction over histories; the stored map equals the last write | proved | `Registry.c56_last_write` `Registry.c56_owner_only` |
| C57 | The faucet hands out exactly the configured amounts | the faucet as its own transition system, with supplies kept by the engine and minting rules as an environment | loop invariant of free_tokens, induction over histories | proved | `Faucet.c57_handout` `Faucet.c57_available` `Faucet.c57_blocked` `Faucet.c57_supply` `Faucet.c57_authorized` |
| C58 | Requests, deposits, liquidity and configuration calls are accepted exactly when they should be | the order of all checks in every public method of the exchange, configuration, oracle, fee delegator and referral generator, including fee-oath payment, bucket handling and config compression | Fails P x for every method (Refusals, RefusalsDeposit, RefusalsPool, RefusalsAdmin) against the table Op.Refused (RefusalsAll); the exact theorems add the other direction by inverting the successful run | proved | `c54_refusals` `c54_goes_through` `c54_order_request_exact` `c54_tp_sl_request_exact` `c54_cancel_exact` `c54_withdrawal_request_exact` `c54_exchange_config_exact` `c54_pair_config_exact` `c54_collateral_config_exact` |
| C59 | The event log tells the whole story | events.rs and every Runtime::emit_event of the exchange: each emitting method with the list of events it emits, in order (Events.lean); the price lists of EventLiquidate and the price limit and effected-request lists of EventMarginOrder are omitted | bodyL_erase: the logged methods with the events left out are the modelled methods. Induction over the history: for every call, the picture updated by its events is the picture of the new state (Indexer.lean), using the request, position and collateral effects of C06, C25, C28, C19, C22, C49 | proved | `c59_indexer` `c59_nothing_hidden` `bodyL_erase` `stepL_erase` `reach_iff_log` |
| C60 | A successful call does exactly what was asked and nothing else | the bodies of all non-keeper methods with the components they call (the models of all other claims) | each method is inverted (…_ok lemmas) and the resulting state rewritten to one record update of the old state; loops over codes, settings and buckets by induction | proved | `c60_order_request` `c60_withdrawal_request` `c60_tp_sl_request` `c60_cancel` `c60_set_level` `c60_add_auth_rule` `c60_recovery_key` `c60_add_collateral` `c60_create_account` `c60_mint_referral` `c60_update_referral` `c60_create_codes` `c60_add_allocation` `c60_mint_with_allocation` `c60_codes_from_allocation` `c60_collect` `c60_swap_protocol_fee` `c60_exchange_config` `c60_pair_configs` `c60_collateral_configs` `c60_remove_collateral_config` `c60_admin` `c60_add_liquidity` `c60_remove_liquidity` |
| C61 | The components cannot be touched behind the exchange's back | every `restrict_to: [authority]` method of pool, account, config, fee distributor, fee delegator, referral generator, permission registry and oracle as a call anybody may try (`Direct`), the fee delegator's roles, the authority tokens inside and outside the exchange (`World`, `wstep`) | induction over mixed histories: authority tokens are conserved and leave only by the owner's call, so no proof of them can be shown; each remaining call is simulated by a `step`; the delegator's roles by the invariant that somebody could act as the owner; buffered write-backs are shown equal to the components' `update` methods | proved | `c61_refused` `c61_authority` `c61_conserved` `c61_step` `c61_sealed` `c61_ledger` `c61_delegator` `pool_realize_update` `account_realize_update` |
| C62 | The order in which hash maps and sets are iterated decides nothing | content equality of ledgers (`State.Same`: every map agrees as a function, requests up to the order of claims and effects), of calls (`Op.Same`) and of outcomes (`Out.Same`); every loop over a map is a fold over the entry list, whose order is arbitrary | `Agree`: related results unless an overflow; generic theorems for folds whose steps touch separate keys and add to a commutative rest (`keyed_agree`, `accum_agree`), one instance per loop (valuation, marking, liquidation of positions and collateral, claims, request status, write-back, feeds, codes), then a congruence proof for every method, call and transaction | proved | `c62_call` `c62_refusal` `c62_transaction` `c62_account_details` `c62_pool_details` `c62_pair_details` `c62_other_reads` |
| C63 | Other users' accounts are invisible and cannot get in the way | the whole step function; `Alike V` relates ledgers that differ only in accounts outside `V`, `Own a` ledgers that show account `a` the same clock, settings, roles and account | a relational proof of every method (`Tied`: same error or related results): the loaded account is the only thing read from the accounts; for private calls the loaded account up to its referral data, which is neither read nor written; commutation and the history version follow with the frame theorem of C49 | proved | `c63_call` `c63_refusal` `c63_transaction` `c63_reads` `c63_private` `c63_private_refusal` `c63_unobstructed` `c63_commute` |
| C64 | Where an account's profit and loss comes from | the whole step function; `State.gains s s' acc` is the change of price times size less the change of funding owed, `Op.flow` what the call pays in or charges, `Career` any history | one call: cases over the methods, using the frame theorems of C49, the exact effects of C60 and C17, and the trade equation of C55; histories by induction; a still market by the no-funding theorem of C43 and the fact that a pair in which the account's position changes has just been brought up to date; liquidation from c55_liquidation, debt swaps from C30 | proved | `c64_call` `c64_history` `c64_still` `c64_flow` `c64_still_history` `c64_round_trip` |
| C65 | Where the pool's profit and loss comes from; liquidity providers are protected | the whole step function; `State.poolGain s s' ids` is computed from the pool's stored positions, the prices after the call and the pair's configuration; `Op.poolFlow` is what a call pays in; `PoolCareer` any history | one call: the value after refreshing the pairs is computed from C43 and the sum of snapshots (C04), then cases over the methods using C55, C60, C32, C30 and C21; histories by induction; a still market by `State.Settled` being preserved | proved | `c65_call` `c65_still` `c65_flow` `c65_history` `c65_still_history` `c65_lp_holders` |
| C66 | What the execution events report is what happened | the emitting twins of all methods (`Events`), every field of every execution event | events of a call split into the result's and the two `realize`; request lists from the request invariant (C08-C10), prices from C14, amounts from C19, C28, C30, C31 | proved | `c66_results` `c66_accounts` `c66_order` `c66_liquidation` `c66_withdrawal` `c66_swap` `c66_liquidity` `c66_adl` |
| C67 | Who holds no position is safe, and free to leave | the whole step function; an account at rest, a stranger and a history of strangers' calls are stated on the public state only | liquidation against the margin by comparing the two sums term by term (a collateral's margin factor is at most 0.1, its discount at least 0.8, C46); ADL and debt swap from C28 and C30; other methods from the access rules (C36) and the account frame (C35); the exit by composing the exact acceptance of the request (C54), its stored content (C60), the untouched history and the sufficient conditions for its execution (C54), likewise the closing order | proved | `c67_safe` `c67_call` `c67_untouched` `c67_exit` `c67_close` |
| C68 | From deployment on, every setting in force is the last one its owner wrote | the constructors of all components (`Deploy`) and the whole step function; `Ran` is a history with its callers and calls, `Settings.after` folds what they wrote | the deployed state satisfies `Genesis`; one call by the frame lemma of the administrative state (C40) and exact results of the configuration updates; histories by induction; listed pairs from `State.Resolves` (C52), collateral balances by tracing each balance to its deposit | proved | `c68_deploy` `c68_call` `c68_settings` `c68_writers` `c68_listed` `c68_accepted` |
| C69 | Margin checks count the funding owed up to this second | which calls bring the funding of which pairs up to date before positions are valued | time stamps of `PairBrought` (C43) carried through the call, then C18; the gap by comparing the liquidation's market with the stored one term by term; **partial**: false when other pairs are stale, witnesses `c69_stale_order`, `c69_stale_withdrawal` | partial | `c69_order_partial` `c69_withdrawal_partial` `c69_current` `c69_missed` `c69_stale_order` `c69_stale_withdrawal` |
| C70 | The schedule of the keepers decides nothing | `update_pairs` with its buffered pool, duplicates and overlaps, any number of calls (`Upkeep`) | an explicit form of the pool after any set of pairs has been brought up to date (`Kept`: sums over a `Finset`), kept by every loop iteration and every call because bringing a pair up to date is idempotent within a second; two schedules with the same set have the same form | proved | `c70_schedule` `c70_rewards` `c70_again` |
| C71 | No condition is ever waived | every call of the model, with the specification `Op.Refused` of the reasons for which it can be refused (the one of C54) | call by call from the success side (`Binding`, `BindingKeeper`, `BindingRequest`, `BindingAll`); the reasons speak of any state with the new prices and the pair brought up to date, so `Unique` proves that there is essentially one such state (funding, marks and sums are determined) | proved | `c71_binding` `c71_exact` `c71_refused` |
| C72 | Bringing the books up to date first changes no decision and no outcome | The `update_pairs` call, the reasons to refuse each keeper call (`Op.Refused` of C54/C71) and the specification `State.Refreshed` of a call's view of the books. | Refreshing part of the pairs first and all of them later in the same second satisfies the same equations as refreshing all at once, in both directions (`State.Upkept.trans`, `State.Upkept.cut`); each reason is a predicate of the refreshed state, so it carries over; induction over the upkeep calls. `c71_exact` turns equal reasons into equal decisions. For the outcome (`c72_outcome`, `c72_upkeep`): the two calls load the same configuration and prices (`Rounds.ctx`), after their own refresh their working pools have the same content (`Rounds.brought`, from the uniqueness of `State.Refreshed`), and from there the two runs agree step by step by the lemmas of C62 (`marginOrder_brought`, `liquidate_brought`, `autoDeleverage_brought`). Withdrawals and debt swaps read and write only the pool's tokens and balance, so running them commutes with replacing the rest of the pool (`VPool.graft`, `removeCollateral_graft`, `swapDebt_graft`; `c72_payout`). | proved | `c72_reasons` `c72_decision` `c72_outcome` `c72_upkeep` `c72_payout` `c72_other_pairs` |
| C73 | The order and the grouping of upkeep do not matter | The `update_pairs` call, the oracle's price store, and sequences of such calls (`UpkeepRun`). | A round of upkeep is also a round of any pairs that were up to date already (`Refreshed.widen`: funding over a zero interval is zero), so a run is, by induction and `State.Upkept.trans`, one refresh of all its pairs; refreshing is unique (`Refreshed.unique`, `Refreshed.totals`), and pairs outside are untouched in storage (`upkeeps_frame`). Pushing an update twice is pushing it once (`pushes_noop`, `pushes_cover`). | proved | `c73_confluent` `c73_same_news` |
| C74 | Better terms are never refused | `liquidate`, `swap_debt` and `process_request` as in C19, C30, C22 and C17; the specifications `State.Due`, `MarginOrderReq.Looser` and `RemoveCollateralReq.Smaller`. | For the payments: the run with the smaller payment is replayed with the larger one step by step; only the payment check, the taking of the tokens and the change depend on the payment (`liquidate_more`, `swapDebt_more`). For the requests: every reason to refuse the better request is a reason to refuse the worse one (`looser_refused`, `smaller_refused`: the margin condition is monotone in the balance and rounding down is monotone), and by `c71_binding` and `c71_exact` a call goes through exactly if there is no reason. For the effect of two orders: every part of the execution commutes with replacing the pending changes to requests (`VAccount.regraft`, `marginOrder_regraft`). | proved | `c74_liquidation` `c74_swap` `c74_order` `c74_order_effect` `c74_withdrawal` |
