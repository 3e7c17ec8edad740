import json
P=[]
def p(title, statement, quantifier, why, anchors):
    P.append(dict(id="C%02d"%(len(P)+1), title=title, statement=statement, quantifier=quantifier, why_tests_cant=why, anchors=anchors))
EX="exchange/src/exchange.rs"
VA="exchange/src/exchange/virtual_margin_account.rs"
VP="exchange/src/exchange/virtual_margin_pool.rs"
AC="account/src/margin_account.rs"
p("Virtual-balance ledger is zero-sum",
  "After any sequence of successful transactions the virtual balances of the pool, all margin accounts, the protocol, the treasury, all referrals and the fee delegator add up to exactly the amount of outstanding fee oaths (zero between transactions): no method creates or destroys virtual value, whatever rounding occurs.",
  "all finite histories of calls to every exchange, oracle and fee-delegator method, with arbitrary arguments, prices, times and configurations",
  "An accounting leak of one atto in one branch of one method only shows after particular roundings; tests check a few numeric scenarios, the claim is about every history.",
  [EX+"::_settle_account",EX+"::_settle_fees_referral",EX+"::_settle_fee_oath",EX+"::collect_treasury","fee_delegator/src/fee_delegator.rs::lock_fee"])
p("Pool value equals tokens held minus liabilities",
  "At every point of every history the pool value used to price LP tokens equals the base tokens in the pool vault, minus everything recorded as owed to accounts, protocol, treasury, referrers and the fee delegator, plus unrealised funding and mark-to-market pnl.",
  "all reachable states",
  "Follows from an invariant over all histories.",
  [EX+"::_pool_value",EX+"::get_pool_details"])
p("Pool open interest equals the sum of account positions",
  "For every pair, the pool's long (short) open interest equals the sum over all accounts of their long (short) position sizes, and the pool's recorded cost equals the sum of the accounts' position costs, exactly.",
  "all reachable states, all pairs",
  "Partial closes round costs; liquidation, ADL and orders update the two sides in different code paths. Only an invariant proof covers every interleaving.",
  [EX+"::_open_position",EX+"::_close_position",EX+"::_liquidate_positions","pool/src/margin_pool.rs::update",AC+"::update"])
p("Aggregate snapshots equal the per-pair snapshots",
  "The pool's aggregate skew and pnl snapshots always equal the sums over all pairs of the per-pair snapshots, and after any operation touching a pair its snapshots are the mark-to-market values at the price used.",
  "all reachable states; all pairs",
  "The aggregates are maintained incrementally by deltas; drift would only appear after long histories.",
  [EX+"::_update_pair",EX+"::_update_pair_snaps"])
p("Account positions stored are never empty and closing leaves no residue",
  "No stored position has size zero; closing a position entirely removes it together with its entire cost.",
  "all reachable states; all accounts",
  "Rounding of the proportional cost must vanish exactly on a full close, for all sizes and costs.",
  [EX+"::_close_position",AC+"::update"])
p("Request life-cycle is a fixed state machine",
  "A request is created Active or Dormant; thereafter only Dormant->Active, Active->Executed, {Active,Dormant}->Cancelled and {Active,Dormant}->Expired ever happen; Executed, Cancelled and Expired are terminal.",
  "all operations on all states; all histories",
  "Every method that touches an account could change request status; the claim is about all sequences.",
  [VA+"::process_request",VA+"::try_set_keeper_requests_status",VA+"::cancel_requests",VA+"::_status_phases"])
p("A request executes at most once and its content never changes",
  "Once recorded, the content, submission time and expiry of a request never change, the request list never shrinks, and a request that has been executed can never be executed again.",
  "all histories, all request indexes",
  "At-most-once over unbounded histories and replays.",
  [VA+"::process_request",AC+"::update","common/src/list.rs"])
p("Execution only inside the request's window",
  "If a keeper executes request i of an account at time t then i is not below the valid-requests start, its status was Active, and submission < t < expiry; at or after expiry processing only marks it Expired and moves no position or collateral.",
  "all states, accounts, indexes, times",
  "Boundary conditions on three independent clocks and indexes.",
  [VA+"::process_request",EX+"::process_request"])
p("Delays keep an order from executing in the second it was placed",
  "A newly placed request cannot be processed before the current time plus the requested delay has strictly passed.",
  "all delays and expiries (u64), all submission times",
  "The u64 to i64 cast makes delays of 2^63 or more negative; a test would have to guess the boundary.",
  [VA+"::push_request"])
p("Liquidation invalidates every earlier request for ever",
  "After an account is liquidated, no request recorded before the liquidation is ever executed or expired again in any later history, and the active set contains none of them.",
  "all histories after a liquidation",
  "Quantifies over all continuations.",
  [EX+"::_liquidate",VA+"::update_valid_requests_start",AC+"::update"])
p("Take-profit and stop-loss are one-cancels-other",
  "For orders placed by margin_order_tp_sl_request, at most one of the take-profit and stop-loss requests is ever executed, and neither before the main order has been executed (as long as nobody references them from other orders).",
  "all histories after the placement",
  "All keeper schedules and interleavings.",
  [EX+"::margin_order_tp_sl_request",EX+"::_margin_order"])
p("Shape of take-profit / stop-loss orders",
  "margin_order_tp_sl_request records exactly the main order plus one dormant reduce-only order of the opposite amount per given price, with take-profit on the profitable side and stop-loss on the losing side, mutually cancelling, and returns their indexes.",
  "all amounts, prices, prior request lists",
  "Index arithmetic for all combinations and all list lengths.",
  [EX+"::margin_order_tp_sl_request"])
p("Active-request set is exact",
  "The set of active requests of an account is exactly the set of indexes at or above the valid start whose status is Active or Dormant.",
  "all reachable states",
  "Two representations updated by different code paths.",
  [AC+"::update",VA+"::_add_active_request",VA+"::_remove_active_request"])
p("Oracle prices only move forward in time and need a valid signature",
  "The stored price of a pair changes only to a price contained in a message with a valid signature under a registered key, and only to one with a strictly later timestamp; replaying any old message changes nothing.",
  "all oracle histories and messages",
  "Replay safety over all message orders.",
  ["oracle/src/oracle.rs::_push_and_get_prices"])
p("Keeper operations use positive and fresh prices",
  "Every price used by process_request, liquidate, auto_deleverage, update_pairs and swap_debt is positive and younger than the pair's effective maximum age, and also than the maximum age of every collateral using that feed.",
  "all configurations, oracle states and times",
  "Interaction of two age maps for all configurations.",
  ["exchange/src/exchange/virtual_oracle.rs::new",EX+"::_pair_feeds"])
p("Opening needs initial margin",
  "If a margin order opens exposure, the account value recomputed from the resulting state at the prices used is at least its initial margin requirement (before distribution of the order's fee, which only affects other ledgers).",
  "all states, orders and prices",
  "Must hold for every portfolio.",
  [EX+"::_open_position",EX+"::_assert_account_integrity"])
p("Withdrawals need initial margin and pay only the target",
  "Executing a remove-collateral request pays only the recorded target account, never more of any resource than was claimed or than the account owned, and leaves the account with at least its initial margin at the prices used.",
  "all states, claims, prices",
  "Arbitrary claim lists with duplicates, arbitrary portfolios.",
  [EX+"::_remove_collateral"])
p("A freshly margin-checked account is not liquidatable",
  "If an account passes the initial-margin check then a liquidation evaluated on the same state, prices and time is rejected, provided every pair is up to date and effective maintenance margins do not exceed effective initial margins.",
  "all portfolios, states, prices",
  "Relates two different valuation code paths for all inputs; the provisos are not enforced by the code.",
  [EX+"::_value_positions",EX+"::_liquidate_positions"])
p("Liquidation only below maintenance margin, and it is complete",
  "liquidate succeeds only if account value is below maintenance margin at fresh prices; afterwards the account has no positions, none of the configured collaterals, a non-negative virtual balance, and the liquidator has paid at least the discounted value of the collateral taken.",
  "all portfolios and prices",
  "All portfolios.",
  [EX+"::_liquidate",EX+"::_liquidate_positions",EX+"::_liquidate_collateral"])
p("Trading fees are bounded",
  "Every trading fee is at least zero and at most the configured maximum rate times the traded value.",
  "all skews, values, configurations",
  "The price-impact fee is quadratic and signed.",
  [EX+"::_calculate_fee"])
p("Fee split is exact and leaves a non-negative pool share",
  "Every fee is split between pool, protocol, treasury and referrer with no atto lost; each part is non-negative and the pool always keeps at least 45% minus rounding.",
  "all fees and all validated configurations and referral rates",
  "Rounding of three products; configurations pass through a lossy 16-bit float.",
  [EX+"::_settle_fees_basic",EX+"::_settle_fees_referral","config/src/config/structs.rs::validate"])
p("Orders do what they say",
  "A non-reduce-only order changes the position by exactly the ordered amount; a reduce-only order never increases or flips a position and closes min(|amount|,|position|) if of opposite sign.",
  "all positions and amounts",
  "Sign and clamp logic for all pairs of values.",
  [EX+"::_margin_order"])
p("Price and slippage limits are honoured",
  "An executed order satisfies its price limit at the price used and its total fee does not exceed its slippage limit; PriceLimit::None and SlippageLimit::None never reject.",
  "all orders and prices",
  "All combinations of limit kinds, fees, values.",
  ["exchange/src/exchange/requests.rs::compare",EX+"::_margin_order"])
p("Orders touch only their own account and pair",
  "Processing a request changes no other account's balances, positions or requests, and no pool position of any other pair; collateral of the account is untouched by margin orders.",
  "all states and orders",
  "Frame property over all other accounts and pairs.",
  [EX+"::process_request",VP+"::realize",VA+"::realize"])
p("Recorded collateral equals vault contents",
  "For every account and resource the recorded collateral balance equals the amount in the account's vault, and no recorded balance is zero or negative after withdrawals.",
  "all reachable states",
  "Two representations kept in sync by different code.",
  [AC+"::deposit_collateral_batch",AC+"::withdraw_collateral_batch","common/src/vaults.rs"])
p("Limits are enforced",
  "After a successful opening order the account has at most positions_max positions and the side's open interest is within oi_max; after add_collateral at most collaterals_max collaterals; after placing requests at most active_requests_max active requests. An accepted order request is for a listed pair, at least of its minimum size and links at most two requests on each side; an accepted withdrawal request lists at most ten claims.",
  "all states and arguments",
  "Counts over virtual state versus stored state.",
  [EX+"::_assert_position_limit",EX+"::_assert_collaterals_limit",EX+"::_assert_active_requests_limit",EX+"::_open_position"])
p("Skew cap is enforced",
  "A successful margin order leaves the skew ratio below the cap or strictly reduces absolute skew; a successful remove_liquidity leaves the skew ratio below the cap.",
  "all states",
  "All states.",
  [EX+"::_assert_pool_integrity",EX+"::_remove_liquidity"])
p("ADL is justified and effective",
  "auto_deleverage succeeds only when the skew ratio exceeds the cap, closes the whole position, and strictly lowers the skew ratio.",
  "all states",
  "All states.",
  [EX+"::_auto_deleverage"])
p("ADL ranks positions by profitability",
  "auto_deleverage accepts a position only if its profit relative to the size of its cost exceeds the threshold; the threshold falls as skew rises.",
  "all positions, long and short",
  "The test covers a long only; for shorts cost is negative and the sign of the ratio flips.",
  [EX+"::_auto_deleverage"])
p("swap_debt only repays debt at a fair price",
  "swap_debt succeeds only when the account has a negative virtual balance, never makes it positive, never takes more collateral than owned, and gives out collateral worth (at the discounted price) no more than the payment taken.",
  "all amounts, prices, discounts",
  "Rounding of division and vault granularity for all values.",
  [EX+"::_swap_debt"])
p("LP tokens are minted and redeemed at pool value",
  "add_liquidity mints (payment-fee)/price and remove_liquidity pays lp*price-fee with price = pool value / supply; redeeming never pays more than the pro-rata share of the pool value; while LP tokens exist neither call lowers the price for those who stay, and an immediate add-remove round trip never profits beyond one smallest base unit per whole LP token. (With no LP tokens outstanding, whoever pays in first receives whatever value the pool still holds.)",
  "all pool states, payments, configurations",
  "Rounding in division by supply; all magnitudes.",
  [EX+"::_add_liquidity",EX+"::_remove_liquidity"])
p("Fee balances are paid out once",
  "collect_treasury, collect_fee_delegator, swap_protocol_fee and collect_referral_rewards pay exactly the recorded balance rounded down to the base token's granularity, zero it, and a second call pays nothing; swap_protocol_fee burns at least the configured amount. A recorded balance never shrinks in any other way: it stays until it is collected by a caller with the collecting role and, for referral rewards, the badge of that referral.",
  "all states",
  "All balances and granularities.",
  [EX+"::collect_treasury",EX+"::collect_fee_delegator",EX+"::swap_protocol_fee",EX+"::collect_referral_rewards"])
p("Fee and referral balances never go negative",
  "Protocol, treasury, referral and delegator balances are non-negative in every reachable state.",
  "all histories",
  "Invariant over histories and configurations.",
  [EX+"::_settle_fees_referral","fee_distributor/src/fee_distributor.rs"])
p("Referral codes are claimable at most max_count times and always backed",
  "A referral code is used at most max_count times; the referral vaults always hold enough for every unclaimed code and unassigned allocation; a valid unclaimed code can always be paid.",
  "all histories of allocations, code creation and claims",
  "Solvency over all histories.",
  ["referral_generator/src/referral_generator.rs"])
p("Referral limits",
  "The number of referrals granted through codes and allocations never exceeds max_referrals at the time of granting; codes created from an allocation never exceed it.",
  "all histories",
  "Sum over unbounded histories.",
  [EX+"::create_referral_codes",EX+"::add_referral_allocation","referral_generator/src/referral_generator.rs::create_referral_codes_from_allocation"])
p("Account methods need the right authorization level",
  "An account's rules change only in calls satisfying its level-1 rule; withdrawals are requested only with level 2; orders, cancellations and deposits only with level 3; nothing else about the account's rules ever changes. The rewards of a referral are collected, and its codes created, only by the holder of its badge.",
  "all calls, all callers",
  "All methods times all rules.",
  [VA+"::verify_level_1_auth",EX+"::set_level_1_auth",EX+"::remove_collateral_request"])
p("Permission registry is exact",
  "The registry lists account a under rule r at a level exactly when r is a's rule at that level or a direct alternative of it.",
  "all histories of account creation and rule changes",
  "Removal and insertion across shared sub-rules and duplicates.",
  [EX+"::_set_level_1_auth",EX+"::create_account","permission_registry/src/permission_registry.rs"])
p("Adding a rule or recovery key never locks out existing holders",
  "add_auth_rule and create_recovery_key keep every caller who satisfied the old (protected) rule authorised and admit holders of the new rule.",
  "all rules and callers",
  "All rule trees.",
  [EX+"::add_auth_rule",EX+"::create_recovery_key"])
p("Without its authority token the exchange is frozen",
  "After withdraw_authority every state-changing exchange method fails and changes nothing until the authority is deposited again.",
  "all methods and arguments",
  "All methods.",
  [EX+"::withdraw_authority",EX+"::authorize"])
p("Failed calls change nothing; role-protected methods need their role",
  "A restricted method succeeds only for a caller who satisfies the rule its role has at that moment; admin and keeper roles are reassigned only by the owner, user roles only by the owner or the user admin. A change of the configuration, of the authority, of an account's positions, of the pool's book, of the LP supply, of the set of accounts or referrals or of the fee delegator shows the approval of the corresponding role. A failed call or transaction changes nothing.",
  "all methods, callers",
  "All methods.",
  [EX+"::enable_method_auth"])
p("Fee oaths are always settled and bounded",
  "The outstanding fee oath supply never exceeds the maximum lock, every oath settled is charged in full to an account which afterwards meets its initial margin, and oaths are never outstanding between transactions.",
  "all histories",
  "All transactions.",
  ["fee_delegator/src/fee_delegator.rs::lock_fee",EX+"::_settle_fee_oath"])
p("Funding is conserved up to bounded rounding",
  "At each pair update the amount added to the pool's unrealised funding differs from the change in what accounts owe by less than a stated rounding bound, and settling funding moves exactly the settled amount between the account and the pool.",
  "all pair states, configurations and periods",
  "Rounding of indexes per unit of open interest.",
  [EX+"::_update_pair",EX+"::_settle_funding"])
p("Funding direction and bounds",
  "When the funding rate is positive longs pay and shorts receive net of the pool charge (and conversely); the integral rate stays inside its bounds once inside; no funding accrues when one side is empty or no time has passed.",
  "all pair states and configurations",
  "Branching on signs and bounds for all values.",
  [EX+"::_update_pair"])
p("Pair-update rewards",
  "update_pairs mints exactly one reward unit per distinct pair whose update period has elapsed or whose price moved enough; repeating the call in the same second at the same prices earns nothing.",
  "all pair lists and states, validated configurations",
  "Configurations pass through lossy encodings: an update period of 65536 becomes 0.",
  [EX+"::update_pairs","config/src/config/structs.rs::compress"])
p("16-bit decimal floats",
  "Compressing a configuration value never increases its magnitude, keeps sign and zero, loses less than 1%, and representable values survive unchanged; decoding then encoding is the identity on values.",
  "all decimals accepted by the encoder",
  "All decimals of the I192 domain.",
  ["common/src/d_float.rs"])
p("Effective configuration satisfies the validated bounds",
  "The configuration in force (after compression) satisfies the bounds checked on update.",
  "all accepted configurations",
  "Lossy compression is not monotone, and casts truncate.",
  ["config/src/config/structs.rs"])
p("List containers behave like lists",
  "List and HashList behave as an append-only list and an insertion-ordered map; paginated reads concatenate to the whole.",
  "all operation sequences and ranges",
  "All histories and page sizes.",
  ["common/src/list.rs","common/src/hash_list.rs"])
p("Wrapped tokens are backed and flash loans repaid",
  "Base tokens minted by wrapping never exceed the child tokens held, and no transaction ends with an unpaid flash loan.",
  "all histories of the token wrapper",
  "unwrap does not check which token is burned.",
  ["token_wrapper/src/token_wrapper.rs"])
p("Who can move an account or a position",
  "A call changes only the account it names; positions (size, cost, funding index) change only through an executed order, a liquidation or an auto-deleverage of that account; accounts are never removed.",
  "all calls in all reachable states",
  "Every entry point against every account, including ones the call does not name.",
  [EX+"::process_request", EX+"::liquidate", EX+"::auto_deleverage", "account/src/lib.rs"])
p("Exact trading fee and who pays more",
  "The fee of an executed order, a liquidation or an auto-deleverage is exactly the documented formula: base rate on the traded value plus the impact rate times the growth of the squared skew, times one minus the referral rebate, clamped to [0, maximum rate]; the opening part of an order is charged at the skew its closing part leaves. Trading with the skew costs at least as much as the opposite trade, and a referred account never pays more than an unreferred one.",
  "all executed orders, liquidations and auto-deleverages in all reachable states",
  "The fee depends on open interest, price, referral and configuration at once, with a sign that flips with the skew.",
  [EX+"::_calculate_fee", EX+"::_margin_order", EX+"::_liquidate_positions", EX+"::_auto_deleverage"])
p("Tokens are conserved: nothing can be taken out that was not put in",
  "For every token resource: after any successful call, the tokens in all vaults (every account's collateral, the pool, the referral generator, the fee delegator's XRD, the exchange's authority tokens) plus the tokens the call hands out plus those it burns or pays as network fee equal the tokens held before plus those the caller supplied plus those the call minted. Hence, from the creation of the exchange on, nobody has ever received more of any resource than users supplied and the exchange minted (and, of authority tokens, than the exchange was created with), and no vault is ever overdrawn. The LP supply equals LP tokens minted minus burnt, the keeper-reward supply grows exactly by the rewards paid, and the oath supply by oaths minted minus oaths settled.",
  "every reachable state, every call with any arguments by any caller, every resource, and histories of any length",
  "Each of some forty methods moves tokens between several vaults and buckets; one missing put, double take or wrongly returned remainder in any of them breaks the sum, and only a proof over all histories shows that none does.",
  ["exchange/src/exchange.rs: _add_collateral, _remove_collateral, _swap_debt, _liquidate, add_liquidity, remove_liquidity, collect_*", "common/src/vaults.rs", "exchange/src/exchange/virtual_margin_account.rs: deposit_collateral_batch, withdraw_collateral_batch", "exchange/src/exchange/virtual_margin_pool.rs: deposit, withdraw", "referral_generator/src/referral_generator.rs"])
p("The read methods tell the whole truth and always answer",
  "get_account_details lists exactly the account's positions (with the margins and the funding owed now), exactly the configured collaterals with the amounts held, exactly the active requests (newest first), and the requested page of the history with no request missing or repeated; get_pool_details, get_pair_details, get_pair_configs, get_pairs and get_referral_details return the stored data; pages of get_pairs cover every configured pair exactly once and every pair in which an account holds a position is configured. For any existing account the account query can fail only by arithmetic overflow, never because of a missing pair, request or referral.",
  "every reachable state, account, page size and page start",
  "The answer needs every position's pair, every active index and the referral id to resolve, which is an invariant of all histories, not of one test state.",
  [EX+"::get_account_details", EX+"::get_pool_details", EX+"::get_pair_details", EX+"::get_pairs", EX+"::get_referral_details", "account/src/margin_account.rs: get_active_requests, get_requests_tail", "config/src/config.rs: get_pair_configs"])
p("Calls fail only for the documented reasons; liquidation, cancellation and expiry are always available",
  "In every reachable state a call that the caller is entitled to make fails only with one of the errors documented for its method, or by arithmetic overflow; never because internal data is missing (an unloaded pool position, price or feed, or an index out of bounds). In particular, once the oracle holds recent prices for the pairs and collaterals concerned: liquidating an account can fail only because the payment is not in base tokens or too small or because the account's margin is sufficient; an active, due order can fail only on its price or slippage limit, the open-interest, position-count, margin or skew limits, or a follow-up request that does not exist; update_pairs cannot fail; a pending request past its expiry can always be retired; and pending valid requests can always be cancelled by the account's holder.",
  "every reachable state, every call with any arguments by any caller",
  "One state in which a method panics on internal data locks funds or blocks liquidations; absence of such a state is a statement about all histories.",
  [EX+": all public methods", "exchange/src/exchange/virtual_margin_account.rs", "exchange/src/exchange/virtual_margin_pool.rs", "exchange/src/exchange/virtual_oracle.rs", "exchange/src/exchange/errors.rs"])
p("Every refusal is justified",
  "When a keeper's or liquidator's call is refused, the reason given is true of the state and the prices it would have been executed at: a liquidation is refused as unneeded only if the account's value, with funding brought up to date, is at least its maintenance margin, and for a short payment only if the payment is below the discounted value of the collateral; an order is refused on a limit, the open-interest maximum, the number of positions, the margin or the skew only if executing it would break exactly that bound; an auto-deleverage only if the skew, the profit threshold, the position or the ratio after it is on the wrong side; a withdrawal only if a balance, the pool or the margin left behind does not allow it; a price only if it is missing, not positive or too old. Conversely, an account below its maintenance margin can be liquidated by anybody who pays enough, a trader can always close a position when that makes the skew smaller, and a withdrawal within the balances that leaves the initial margin is paid.",
  "all reachable states, all callers, arguments and price updates",
  "A check that is too strict locks funds or blocks liquidations only in the states it wrongly refuses; tests see a refusal only where they look for one.",
  [EX+"::process_request", EX+"::liquidate", EX+"::auto_deleverage", EX+"::_margin_order", EX+"::_assert_account_integrity", EX+"::_assert_pool_integrity", "exchange/src/exchange/virtual_oracle.rs"])
p("Trading is fair: a trade moves no value except its fees",
  "An executed order or auto-deleverage changes the trader's equity (balance plus collateral value plus mark-to-market profit minus funding owed) by exactly minus the fees it reports, and the value of the pool by exactly the pool's share of the fees, up to two units of the last decimal place; so no order lets a trader take value from the liquidity providers. A liquidation leaves the account with its equity at the refreshed prices plus what the liquidator paid less the fees, or with nothing if that is negative, the shortfall being exactly the loss reported; the pool's value changes by its share of the fees and that loss, up to one unit of the last decimal place per position.",
  "all executed orders, liquidations and auto-deleverages in all reachable states",
  "Profit, cost basis, funding and fees are booked in different places; only their sum over all sizes, prices and partial closes shows that nothing is gained or lost between them.",
  [EX+"::_margin_order", EX+"::_open_position", EX+"::_close_position", EX+"::_settle_funding", EX+"::_settle_fees_referral", EX+"::_update_pair_snaps"])
p("The environment registry answers with the owner's last write",
  "After any history of calls get_variables answers exactly the keys asked for, each with the value last written by the owner's set_variables (also within one call); variables never written, or removed since, read as the empty string; reads never fail or change anything, and nobody but the owner can write.",
  "all histories of calls by all callers, all key lists",
  "Last write wins has to hold for every interleaving of sets, removals and duplicates.",
  ["env_registry/src/env_registry.rs"])
p("The faucet hands out exactly the configured amounts",
  "A successful free_tokens gives one bucket of the configured amount of every resource whose amount is positive and nothing else; the supply of the four test tokens is exactly what was handed out; only the owner changes amounts or mints at will; the handout is available to every user whenever all positive amounts are mintable, and blocked for everybody as soon as one is not.",
  "all histories of calls by all callers",
  "One configured amount that is too fine for its resource blocks every handout; only a statement over all configurations shows when the faucet works.",
  ["faucet/src/lib.rs"])
p("Requests, deposits, liquidity and configuration calls are accepted exactly when they should be",
  "Every call by a caller with the right role either succeeds or names a reason that is true of the state: a request by an account holder is refused only if the account does not exist, the caller does not satisfy the account's rule for that level, the fee oath cannot be afforded, or the request itself is out of bounds; order and withdrawal requests without an oath are accepted exactly if the pair is listed, the size is at least the minimum, at most two requests are referenced in each list, the state is active or dormant, at most ten claims are made, the expiry time exists, and the number of pending requests stays within the maximum; adding or removing liquidity, swapping protocol tokens for fees, paying off debt, depositing collateral, collecting rewards, creating referrals and codes, locking fees and pushing prices are refused only for the listed true reasons; settings are accepted exactly if they lie in the documented bounds and are below 1.025e16.",
  "all reachable states, all callers, all methods of all components, all arguments",
  "A check that is too strict, or one that is missing, shows only for the arguments and states on which it differs.",
  [EX+"::margin_order_request", EX+"::margin_order_tp_sl_request", EX+"::remove_collateral_request", EX+"::add_liquidity", EX+"::swap_debt", EX+"::create_account", "config/src/config.rs::update_exchange_config", "fee_delegator/src/fee_delegator.rs::lock_fee", "oracle/src/oracle.rs::push_and_get_prices"])
p("The event log tells the whole story",
  "An indexer that reads nothing but the emitted events, in order, and gives each its plain meaning (a listed entry replaces the known one, a listed amount is added or taken away) has, after any history of calls, the true picture: which accounts exist and with which referral, all requests with their current status, which requests a liquidation has invalidated, the size of every position, every collateral balance, the pool's record of every pair, the configuration in force and the supply of LP tokens. A call that emits no event changes none of these.",
  "all histories of calls by all callers, all accounts, pairs and resources",
  "A missing, duplicated, misordered or mis-scaled event shows only when the accumulated log is compared with the state after arbitrary histories.",
  ["exchange/src/exchange/events.rs", EX+"::_add_collateral", EX+"::_remove_collateral", EX+"::_margin_order", EX+"::_swap_debt", EX+"::_liquidate", EX+"::_auto_deleverage", "exchange/src/exchange/virtual_margin_account.rs::realize", "exchange/src/exchange/virtual_margin_pool.rs::realize"])
p("A successful call does exactly what was asked and nothing else",
  "Every successful call that is not a keeper's leaves the system in the state its arguments describe: a request is recorded with exactly the order, limits, times, links and status asked for under the index returned; cancelling marks exactly the listed requests; a deposit credits exactly the tokens given; a new account has exactly the given rule, tokens and, with a code, the code's tokens and referral; referrals, codes and allocations are recorded as asked and unused tokens come back; configuration calls store exactly the given settings (up to their stated precision; the last one given counts); collecting pays out and zeroes one balance; adding and removing liquidity changes only the pool's tokens and balance, the LP supply and the fee shares; owner calls change the one thing they name. Apart from the fee oath paid, nothing else in the whole system changes.",
  "all reachable states, all callers, all non-keeper methods, all arguments",
  "That nothing else changes is a statement about every other account, balance, setting and table in every state; a test compares only the fields it looks at.",
  [EX+"::margin_order_request", EX+"::margin_order_tp_sl_request", EX+"::cancel_requests", EX+"::add_collateral", EX+"::create_account", EX+"::create_referral_codes", EX+"::add_referral_allocation", "config/src/config.rs", "referral_generator/src/referral_generator.rs", "fee_delegator/src/fee_delegator.rs", "oracle/src/oracle.rs"])
p("The components cannot be touched behind the exchange's back",
  "The exchange keeps accounts, pool, configuration, fee balances, referral vaults and permissions in separate components that anybody can address. Every method of theirs that changes something refuses everybody who shows no authority token; the number of authority tokens never changes and they leave the exchange only when its owner takes them out. Hence, as long as the owner does not, whatever anybody submits to whatever component, every direct attempt is refused and the components contain exactly what some history of exchange, oracle and fee-delegator calls produced. The fee delegator's settings, deposits, withdrawals and fee locking are let through by the roles its owner assigned and by nobody else.",
  "all histories of calls by anybody to any method of any component, all arguments",
  "The claim is about every way of addressing every component in every order; a test tries a few callers on a few methods.",
  ["pool/src/margin_pool.rs::update", "account/src/margin_account.rs::update", "config/src/config.rs", "fee_distributor/src/fee_distributor.rs", "fee_delegator/src/fee_delegator.rs", "referral_generator/src/referral_generator.rs", "permission_registry/src/permission_registry.rs::set_permissions", "oracle/src/oracle.rs::push_and_get_prices_with_auth", EX+"::withdraw_authority"])
p("The order in which hash maps and sets are iterated decides nothing",
  "Positions, collaterals, open requests, claims and prices live in hash maps and hash sets, which the code iterates in an order of its own. If two ledgers hold the same content, and the same call is made on both with its maps, sets, claims and request lists in any order, then the resulting ledgers hold the same content, the same amounts are paid, returned, minted and burnt, and the events say the same; the reads report the same figures. If one call succeeds and the other fails, the failing one overflowed an intermediate sum.",
  "all pairs of ledger states with equal content, all callers, all methods, all orders of maps, sets and lists, all transactions",
  "A loop whose body reads what an earlier iteration wrote (a cap, a shared counter, an early exit, an overwritten entry) makes value depend on the iteration order; a test sees one order.",
  [EX+"::_value_positions", EX+"::_value_collateral", EX+"::_liquidate_positions", EX+"::_liquidate_collateral", EX+"::update_pairs", EX+"::_remove_collateral", "exchange/src/exchange/virtual_oracle.rs::new", "exchange/src/exchange/virtual_margin_account.rs::try_set_keeper_requests_status", "referral_generator/src/referral_generator.rs::create_referral_codes", "account/src/margin_account.rs::update"])
p("Other users' accounts are invisible and cannot get in the way",
  "What a call does depends only on the account it names and on what everybody shares (pool, prices, settings, referrals, fee balances): on two ledgers that differ only in other accounts, the call fails with the same error or succeeds with the same payments, indexes and events and the same new account and shared state, and leaves the other accounts alone. In particular placing or cancelling requests without a fee oath depends only on the clock, the settings, the roles and the account itself: whatever others manage to do first, it is accepted or refused just the same and gets the same index, and exchanging its place with anybody else's call changes nothing.",
  "all pairs of ledgers that agree outside arbitrary sets of accounts, all callers, all methods, all histories of others' calls in between",
  "Interference would need a particular other account in a particular state at a particular moment; a test has a handful of accounts and one interleaving.",
  [EX+"::process_request", EX+"::margin_order_request", EX+"::margin_order_tp_sl_request", EX+"::remove_collateral_request", EX+"::cancel_requests", EX+"::liquidate", "exchange/src/exchange/virtual_margin_account.rs::new", "exchange/src/exchange/virtual_margin_account.rs::realize"])
p("Where an account's profit and loss comes from",
  "Whatever call anybody makes, every account is worth afterwards (balance plus gain of its positions at the marked prices, less funding owed) what its old positions are worth at the new prices and funding, plus the base tokens deposited, plus what a liquidator or debt buyer paid for its collateral and the debt a liquidation writes off, less the base tokens withdrawn, the fee oath and the fees the call reports, up to 2 units of the last decimal place for an order, 1 for a forced close and one smallest amount of base token for a debt swap. Over any history these add up: profit is what the held positions gained from prices and funding while they were held, and nothing else. No call pays an account anything but what is deposited into it, paid for its collateral or written off. Hence nobody gains by trading while the clock and the prices of the pairs held stand still, in whatever sequence orders are placed, executed and cancelled by everybody: opening and closing any positions leaves at most the opening balance plus deposits, up to rounding.",
  "all reachable states, all callers, all calls and all histories of calls by anybody",
  "A profit conjured by a particular order of partial closes, flips, funding settlements and withdrawals shows only in that sequence; the claim is about all of them.",
  [EX+"::_margin_order", EX+"::_open_position", EX+"::_close_position", EX+"::_liquidate", EX+"::_swap_debt", EX+"::_remove_collateral", EX+"::_add_collateral", EX+"::_auto_deleverage", EX+"::_update_pair", EX+"::_settle_account"])
p("Where the pool's profit and loss comes from; liquidity providers are protected",
  "Whatever call anybody makes, the pool is worth afterwards (tokens, balance, funding to come and the marked result of its side of the book) what it was worth before, plus, for each pair the call brings up to date, what its side of the book gains from the price since the last mark and the funding that accrues to it by the pair's rates, plus the liquidity added, less the liquidity removed and the fee shares that go elsewhere, plus its part of the fees of an order, forced close or liquidation, less the debt a liquidation leaves; up to 2 units of the last decimal place for an order and 1 per position closed by force, and what cannot be paid out because tokens have a smallest amount stays with the pool. Over any history these add up. Only removing liquidity and the debt left by a liquidation take anything from the pool; bringing pairs up to date again in the same second at the same price is worth nothing. Hence while clock and prices stand still nobody, by whatever calls, takes value from the liquidity providers: adding or removing liquidity does not lower the LP price, every other call leaves the number of LP tokens and at least the value of the pool, up to rounding.",
  "all reachable states, all callers, all calls and all histories of calls by anybody",
  "Every method moves the pool's tokens, balance, funding and marks in its own way; that nothing leaks between them is a statement about all of them at once and about all sequences.",
  [EX+"::_margin_order", EX+"::_liquidate", EX+"::_auto_deleverage", EX+"::_update_pair", EX+"::_update_pair_snaps", EX+"::_add_liquidity", EX+"::_remove_liquidity", EX+"::_swap_debt", EX+"::_settle_fees_basic", EX+"::collect_treasury", "exchange/src/exchange/virtual_margin_pool.rs"])
p("What the execution events report is what happened",
  "A call that has a result (liquidity added or removed, a withdrawal, an executed order, a debt swap, a liquidation, an auto-deleveraging, a new account) reports it in exactly one event, every other call (and an expired request) in none, and every event about an account is about the account the call names. What the event says is true: an order's event carries the pair and price limit of the executed request and the price now stored, which satisfies that limit; its two amounts add up to the change of the position; its two lists name, each once, exactly the requests the order has activated and cancelled, and every other request keeps its status. A liquidation's event lists every position and every accepted collateral the account had, each with the price now stored for it, and the balance, profit and collateral value that make up the reported account value. A withdrawal's event lists exactly the tokens paid and to whom; a debt swap's the collateral handed over and the price in force; a deleveraging's the whole position closed and the price in force; a liquidity event the change of the LP supply and of the pool's tokens.",
  "all reachable states, all callers, all calls, all emitted events",
  "An event can be filled from a stale variable or a wrong list for some combinations of requests, positions and collaterals only; tests compare the events of a few calls.",
  ["exchange/src/exchange/events.rs", EX+"::_margin_order", EX+"::_liquidate", EX+"::_liquidate_positions", EX+"::_liquidate_collateral", EX+"::_remove_collateral", EX+"::_swap_debt", EX+"::_auto_deleverage", EX+"::_add_liquidity", EX+"::_remove_liquidity", "exchange/src/exchange/virtual_margin_account.rs::try_set_keeper_requests_status"])
p("Who holds no position is safe, and free to leave",
  "An account without positions and without debt can be neither liquidated nor deleveraged nor made to sell its collateral, at whatever prices and by whomever, and nothing that people who satisfy none of its rules call changes it, unless they execute a request its holder left pending. Its holder can ask for any tokens in it and, whatever strangers do in the meantime (prices, fees, configuration, other accounts), when a keeper executes the request in time with usable prices exactly those tokens are paid to the target, provided the pool has the base tokens; only an arithmetic overflow can interfere. A holder of a position, however deep under water, can likewise close it with a reduce-only order without limits of at least its size, as long as the pool's skew in the pair would shrink.",
  "all reachable states, all accounts, all callers, all histories of calls in between, all claims, all price feeds",
  "Safety for every price and every history of other people's calls, including configuration changes, is not a finite set of cases; the exit is a promise about what must succeed, not about what did in a run.",
  [EX+"::_liquidate", EX+"::_auto_deleverage", EX+"::_swap_debt", EX+"::_remove_collateral", EX+"::_assert_account_integrity", EX+"::process_request", EX+"::_margin_order", EX+"::remove_collateral_request", EX+"::margin_order_request"])
p("From deployment on, every setting in force is the last one its owner wrote",
  "A deployment succeeds exactly if the exchange is handed authority tokens, and starts with nothing in any account, pool or vault, with the documented default parameters, the admin roles with the owner and the user and keeper roles open to all. After any history of calls the exchange parameters, the parameters of each pair and collateral, the rules of the roles, the oracle's keys and the fee delegator's terms are the last ones written (decimals to the one hundredth the sixteen-bit floats keep, ages modulo 65536), and what nobody wrote has its default or does not exist. Whoever wrote one had the approval of the owner concerned: the exchange's owner for parameters and roles (for user roles also the user admin named at that moment), the oracle's owner for keys, the fee delegator's owner for its terms. Nobody has a position or an order in a pair, or a collateral balance in a resource, that the owner has not listed before.",
  "all deployments, all histories of successful calls of all methods by all callers, all settings",
  "A setting must survive every later call except the one that overwrites it, with every update list (duplicates, removals, re-adding); tests read back single writes.",
  [EX+"::new", "config/src/config.rs", "config/src/config/structs.rs", "pool/src/margin_pool.rs::new", "oracle/src/oracle.rs", "fee_delegator/src/fee_delegator.rs", "fee_distributor/src/fee_distributor.rs::new", "referral_generator/src/referral_generator.rs::new", "permission_registry/src/permission_registry.rs::new"])
p("Margin checks count the funding owed up to this second",
  "Whoever passes a margin check - by an order that opens exposure, or a withdrawal - cannot be liquidated in the same second at the same prices: the check counts all funding owed until now. (False in the code: only the traded pair of an order is brought up to date; funding of the account's other pairs, and of all pairs for a withdrawal, is counted as of their last update, while a liquidation brings all pairs up to date. Two executions show it. Proved: the property under the proviso that the other pairs were updated in the same second; who brings pairs up to date; and that what the checks miss is exactly the funding accrued since those updates.)",
  "all reachable states, accounts, orders, withdrawals, prices and times since the last update",
  "The gap depends on how long ago each pair was last updated and on the funding rate since then; tests update every pair right before they trade.",
  [EX+":_margin_order", EX+":_value_positions", EX+":_liquidate_positions", EX+":_remove_collateral", EX+":_update_pair"])
p("The schedule of the keepers decides nothing",
  "Within one second and at given prices it does not matter who brings which pairs up to date, in how many calls, in which order, how often or with how much overlap: if the same pairs have been asked for in the end, the pool (every pair's funding indexes, skew, marks and time stamps, the funding to come, tokens and balance) is the same, and nothing else but the stored prices has changed. The rewards paid in total are the same too: one token for each different pair that was due when the second began, whatever the splitting (as long as the update period in force is positive, see C44). Updating pairs again changes nothing and earns nothing.",
  "all reachable states, all price assignments, all finite schedules of update_pairs calls by any callers with any lists of pairs, with or without price updates",
  "The number of schedules is unbounded; funding that compounds, a snapshot that is added twice or a reward paid per call shows only in particular overlaps, and a test runs one schedule.",
  [EX+"::update_pairs", EX+"::_update_pair", EX+"::_update_pair_snaps", "exchange/src/exchange/virtual_margin_pool.rs"])
p("No condition is ever waived",
  "Every condition the exchange documents for a call binds: if a call goes through, the caller had the right to it and none of the reasons for which the call can be refused held, judged in the state before the call and, for keepers, with the new prices and the pair brought up to date. So an executed order met its price and slippage limits, kept open interest, number of positions, margin and skew within their limits and referred only to existing requests; a withdrawal was covered by balances, pool tokens and margin; a liquidated account was short of margin and its liquidator paid enough; a holder's call satisfied the account's rule, the oath was affordable, the limits on requests and collaterals were kept; new settings were within the documented bounds. Apart from numbers leaving the range of the decimal type a call goes through exactly if it is permitted and no reason holds.",
  "all reachable states, all callers, all calls of the exchange and the modelled components with all arguments, all prices",
  "A test can show that a check refuses one bad call. That no path, order of checks or interplay of buffered state lets any bad call through is a statement about every state and argument.",
  [EX+"::process_request", EX+"::_margin_order", EX+"::_remove_collateral", EX+"::_liquidate", EX+"::auto_deleverage", EX+"::_assert_account_integrity", "config/src/config.rs", "oracle/src/oracle.rs"])

p("Bringing the books up to date first changes no decision and no outcome",
  "Anyone in the keeper role may call update_pairs at any time. If in one second the pairs that a keeper call brings up to date itself (the pair of an order or of a deleveraging, the pairs of a liquidated account; for a withdrawal, pairs the account has no position in; any pairs for a debt swap) are first updated any number of times, recording the same prices, then the keeper call has afterwards, without a price update, exactly the reasons to be refused that it had before with the update; so, unless a number leaves the range of the decimal type, it goes through in the one case exactly if it does in the other. When an order, a liquidation or a deleveraging goes through in both cases, what it pays out and reports and the ledger it leaves behind are the same, except for the reward tokens minted by the upkeep; likewise for update_pairs itself on a superset of the pairs. When a withdrawal, a debt swap or the dropping of an expired request goes through in both cases, whatever pairs were updated, it pays and reports the same and leaves the same ledger, with the prices and the pool's figures of the pairs as the upkeep left them. For other pairs this is false: see C69.",
  "every reachable state, every price update, any number of upkeep calls by any callers on any subset of the pairs, every keeper call",
  "The order in which upkeep calls and keeper calls are scheduled within a second is unbounded, and equality of the outcomes rests on the funding arithmetic being exactly additive over a zero interval for all values.",
  [EX+"::update_pairs", EX+"::_update_pair", EX+"::process_request", EX+"::liquidate", EX+"::auto_deleverage", EX+"::swap_debt"])
p("The order and the grouping of upkeep do not matter",
  "Whoever calls update_pairs in one second, in whatever order, in however many calls, on overlapping lists or the same pairs several times: two runs of upkeep that cover the same pairs and record the same prices leave the same ledger behind, except for the number of reward tokens minted. After a call has recorded a price update, passing the same update again changes nothing, neither for upkeep nor for any other call.",
  "every reachable state, every price update, any two sequences of upkeep calls of any length by any callers covering the same pairs; every later call",
  "The number of ways to order, split and repeat upkeep calls is unbounded; equality needs the funding over a zero interval to be exactly zero and the price store to be idempotent for all values.",
  [EX+"::update_pairs", EX+"::_update_pair", "oracle/src/oracle.rs::_push_and_get_prices", "exchange/src/exchange/virtual_oracle.rs::new"])
p("Better terms are never refused",
  "Whoever offers more, asks for less or sets looser limits is served too. If a liquidation goes through with some payment, it goes through with any larger payment in base tokens, with the same effect on the ledger, the same event and the same collateral, and the difference is returned in full; the same holds for a debt swap whose payment covers the debt. If an order of an account goes through, then the same order with limits that accept every price and every fee the first one accepts goes through as well, with the same event, reward and effect on the ledger apart from the status of requests; if a withdrawal goes through, then one that asks for less of the base token and the same of the other tokens does, to whatever wallet (both unless a number leaves the range of the decimal type).",
  "every reachable state, every pair of payments, of price and slippage limits, of claims; every price update and caller",
  "The comparison is between all pairs of inputs, one better than the other; a test compares a few. Rounding and the order of the checks could break it at single values.",
  [EX+"::liquidate", EX+"::_liquidate", EX+"::swap_debt", EX+"::_swap_debt", EX+"::process_request", EX+"::_margin_order", EX+"::_remove_collateral"])
with open('properties.jsonl','w') as f:
    for q in P: f.write(json.dumps(q)+"\n")
print(len(P))
