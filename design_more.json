{
 "C51": [
  "every vault of the accounts, the pool, the referral generator, the fee delegator and the exchange; the buckets each method receives, returns, pays and burns",
  "per-method balance lemmas (vault batches, token splitting, base deposits and withdrawals) combined over all calls, then induction over histories"
 ],
 "C52": [
  "All public getters of the exchange (Getters.lean), including the paging arithmetic of the request history and the pair list.",
  "Reachability invariant `Resolves` (Known.lean: every pair of a position or pending order is configured, every referral id exists) plus the active-set invariant of C13; then each getter is unfolded and compared with an independent description of the report (Reads.lean)."
 ],
 "C53": [
  "the error of every require/expect/assert in every method (Err), including vault and bucket failures of the engine",
  "error-set calculus `Errs l x` (Errs.lean) over every function, using the load lemmas (every pair a method touches is loaded), the request invariants of C13 and the referral invariants of C34 to show that commits are total; one case per method (Failures.lean), totality of cancel and expiry (Progress.lean)"
 ],
 "C54": [
  "the order of all checks in process_request, liquidate, auto_deleverage and the functions they call, and the exact values compared",
  "a calculus of failure reasons `Fails P x` over every function (Reasons, ReasonsTrade, ReasonsOrder, ReasonsWithdraw); the state at which a check is made is related to the stored state by State.Refreshed; the converse theorems (Executes) exclude every reason"
 ],
 "C55": [
  "all bookkeeping of an order: virtual balance, cost, size, funding, fees, pool snapshots",
  "the sum of balance, marked positions and funding owed is followed through settle funding, close, open, fees and snapshots; truncation errors are bounded by carry_small; a liquidation closes every position at the price, so balance after = equity + payment - fees + written-off debt (LiquidateFair.lean)"
 ],
 "C56": [
  "the registry as its own transition system over a key-value map",
  "induction over histories; the stored map equals the last write"
 ],
 "C57": [
  "the faucet as its own transition system, with supplies kept by the engine and minting rules as an environment",
  "loop invariant of free_tokens, induction over histories"
 ],
 "C58": [
  "the order of all checks in every public method of the exchange, configuration, oracle, fee delegator and referral generator, including fee-oath payment, bucket handling and config compression",
  "Fails P x for every method (Refusals, RefusalsDeposit, RefusalsPool, RefusalsAdmin) against the table Op.Refused (RefusalsAll); the exact theorems add the other direction by inverting the successful run"
 ],
 "C59": [
  "events.rs and every Runtime::emit_event of the exchange: each emitting method with the list of events it emits, in order (Events.lean); the price lists of EventLiquidate and the price limit and effected-request lists of EventMarginOrder are omitted",
  "bodyL_erase: the logged methods with the events left out are the modelled methods. Induction over the history: for every call, the picture updated by its events is the picture of the new state (Indexer.lean), using the request, position and collateral effects of C06, C25, C28, C19, C22, C49"
 ],
 "C60": [
  "the bodies of all non-keeper methods with the components they call (the models of all other claims)",
  "each method is inverted (…_ok lemmas) and the resulting state rewritten to one record update of the old state; loops over codes, settings and buckets by induction"
 ],
 "C61": [
  "every `restrict_to: [authority]` method of pool, account, config, fee distributor, fee delegator, referral generator, permission registry and oracle as a call anybody may try (`Direct`), the fee delegator's roles, the authority tokens inside and outside the exchange (`World`, `wstep`)",
  "induction over mixed histories: authority tokens are conserved and leave only by the owner's call, so no proof of them can be shown; each remaining call is simulated by a `step`; the delegator's roles by the invariant that somebody could act as the owner; buffered write-backs are shown equal to the components' `update` methods"
 ],
 "C62": [
  "content equality of ledgers (`State.Same`: every map agrees as a function, requests up to the order of claims and effects), of calls (`Op.Same`) and of outcomes (`Out.Same`); every loop over a map is a fold over the entry list, whose order is arbitrary",
  "`Agree`: related results unless an overflow; generic theorems for folds whose steps touch separate keys and add to a commutative rest (`keyed_agree`, `accum_agree`), one instance per loop (valuation, marking, liquidation of positions and collateral, claims, request status, write-back, feeds, codes), then a congruence proof for every method, call and transaction"
 ],
 "C63": [
  "the whole step function; `Alike V` relates ledgers that differ only in accounts outside `V`, `Own a` ledgers that show account `a` the same clock, settings, roles and account",
  "a relational proof of every method (`Tied`: same error or related results): the loaded account is the only thing read from the accounts; for private calls the loaded account up to its referral data, which is neither read nor written; commutation and the history version follow with the frame theorem of C49"
 ],
 "C64": [
  "the whole step function; `State.gains s s' acc` is the change of price times size less the change of funding owed, `Op.flow` what the call pays in or charges, `Career` any history",
  "one call: cases over the methods, using the frame theorems of C49, the exact effects of C60 and C17, and the trade equation of C55; histories by induction; a still market by the no-funding theorem of C43 and the fact that a pair in which the account's position changes has just been brought up to date; liquidation from c55_liquidation, debt swaps from C30"
 ],
 "C65": [
  "the whole step function; `State.poolGain s s' ids` is computed from the pool's stored positions, the prices after the call and the pair's configuration; `Op.poolFlow` is what a call pays in; `PoolCareer` any history",
  "one call: the value after refreshing the pairs is computed from C43 and the sum of snapshots (C04), then cases over the methods using C55, C60, C32, C30 and C21; histories by induction; a still market by `State.Settled` being preserved"
 ],
 "C66": [
  "the emitting twins of all methods (`Events`), every field of every execution event",
  "events of a call split into the result's and the two `realize`; request lists from the request invariant (C08-C10), prices from C14, amounts from C19, C28, C30, C31"
 ],
 "C67": [
  "the whole step function; an account at rest, a stranger and a history of strangers' calls are stated on the public state only",
  "liquidation against the margin by comparing the two sums term by term (a collateral's margin factor is at most 0.1, its discount at least 0.8, C46); ADL and debt swap from C28 and C30; other methods from the access rules (C36) and the account frame (C35); the exit by composing the exact acceptance of the request (C54), its stored content (C60), the untouched history and the sufficient conditions for its execution (C54), likewise the closing order"
 ],
 "C68": [
  "the constructors of all components (`Deploy`) and the whole step function; `Ran` is a history with its callers and calls, `Settings.after` folds what they wrote",
  "the deployed state satisfies `Genesis`; one call by the frame lemma of the administrative state (C40) and exact results of the configuration updates; histories by induction; listed pairs from `State.Resolves` (C52), collateral balances by tracing each balance to its deposit"
 ],
 "C69": [
  "which calls bring the funding of which pairs up to date before positions are valued",
  "time stamps of `PairBrought` (C43) carried through the call, then C18; the gap by comparing the liquidation's market with the stored one term by term; **partial**: false when other pairs are stale, witnesses `c69_stale_order`, `c69_stale_withdrawal`"
 ],
 "C70": [
  "`update_pairs` with its buffered pool, duplicates and overlaps, any number of calls (`Upkeep`)",
  "an explicit form of the pool after any set of pairs has been brought up to date (`Kept`: sums over a `Finset`), kept by every loop iteration and every call because bringing a pair up to date is idempotent within a second; two schedules with the same set have the same form"
 ],
 "C71": [
  "every call of the model, with the specification `Op.Refused` of the reasons for which it can be refused (the one of C54)",
  "call by call from the success side (`Binding`, `BindingKeeper`, `BindingRequest`, `BindingAll`); the reasons speak of any state with the new prices and the pair brought up to date, so `Unique` proves that there is essentially one such state (funding, marks and sums are determined)"
 ],
 "C72": [
  "The `update_pairs` call, the reasons to refuse each keeper call (`Op.Refused` of C54/C71) and the specification `State.Refreshed` of a call's view of the books.",
  "Refreshing part of the pairs first and all of them later in the same second satisfies the same equations as refreshing all at once, in both directions (`State.Upkept.trans`, `State.Upkept.cut`); each reason is a predicate of the refreshed state, so it carries over; induction over the upkeep calls. `c71_exact` turns equal reasons into equal decisions. For the outcome (`c72_outcome`, `c72_upkeep`): the two calls load the same configuration and prices (`Rounds.ctx`), after their own refresh their working pools have the same content (`Rounds.brought`, from the uniqueness of `State.Refreshed`), and from there the two runs agree step by step by the lemmas of C62 (`marginOrder_brought`, `liquidate_brought`, `autoDeleverage_brought`). Withdrawals and debt swaps read and write only the pool's tokens and balance, so running them commutes with replacing the rest of the pool (`VPool.graft`, `removeCollateral_graft`, `swapDebt_graft`; `c72_payout`)."
 ],
 "C73": [
  "The `update_pairs` call, the oracle's price store, and sequences of such calls (`UpkeepRun`).",
  "A round of upkeep is also a round of any pairs that were up to date already (`Refreshed.widen`: funding over a zero interval is zero), so a run is, by induction and `State.Upkept.trans`, one refresh of all its pairs; refreshing is unique (`Refreshed.unique`, `Refreshed.totals`), and pairs outside are untouched in storage (`upkeeps_frame`). Pushing an update twice is pushing it once (`pushes_noop`, `pushes_cover`)."
 ],
 "C74": [
  "`liquidate`, `swap_debt` and `process_request` as in C19, C30, C22 and C17; the specifications `State.Due`, `MarginOrderReq.Looser` and `RemoveCollateralReq.Smaller`.",
  "For the payments: the run with the smaller payment is replayed with the larger one step by step; only the payment check, the taking of the tokens and the change depend on the payment (`liquidate_more`, `swapDebt_more`). For the requests: every reason to refuse the better request is a reason to refuse the worse one (`looser_refused`, `smaller_refused`: the margin condition is monotone in the balance and rounding down is monotone), and by `c71_binding` and `c71_exact` a call goes through exactly if there is no reason. For the effect of two orders: every part of the execution commutes with replacing the pending changes to requests (`VAccount.regraft`, `marginOrder_regraft`)."
 ]
}