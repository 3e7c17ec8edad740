#!/usr/bin/env python3
"""Writes DESIGN.md: the fixed text plus the per-property plan, checked against MANIFEST.json."""
import json
HEAD = open('/verif/design_head.md').read()
PLAN = {
"C01": ("every write to an account's, the pool's, the distributor's and a referral's virtual balance", "`Trace` of working-set steps (`WStep`), each conserving `W.total`; lifted to `State.ledgerTotal` by cases on the shape of a call, then induction over histories"),
"C02": ("`_pool_value`, the pool getters, `lp_price`", "exact-result lemmas; the quoted and the traded prices are the same function of pool value and supply"),
"C03": ("open, close, liquidate, write-back of both sides' caches", "invariant `State.BookAgrees`, coherence of the caches with the stored positions, induction over histories"),
"C04": ("`_update_pair_snaps`, `_update_pair`", "invariant `Pool.SnapsAgree`; per call, every pair it touches ends marked at the price it used"),
"C05": ("removal of emptied positions on write-back", "invariant `NoEmpty`; closing everything leaves no entry"),
"C06": ("request status writes of all calls", "`Moves` relation of one call, proved per call, then `Later` by induction"),
"C07": ("`push_request`, `process_request`", "as C06, with the content of the request carried along"),
"C08": ("window test of `process_request`", "exact-result lemma of `processRequest`; the expired branch changes the request and nothing else"),
"C09": ("submission = now + delay, with the `u64 as i64` cast", "arithmetic; **partial**: false for delays of at least 2^63, witness `c09_delay_wraps`"),
"C10": ("`update_valid_requests_start`", "invariant plus monotonicity of the start index over histories"),
"C11": ("activation / cancellation lists of the TP/SL request", "placement lemma plus request life-cycle"),
"C12": ("`margin_order_tp_sl_request`", "exact-result lemma of placement"),
"C13": ("active-set bookkeeping", "invariant over histories: the set is exactly the indexes of active requests from the start index on"),
"C14": ("oracle: `push_and_get_prices`, signature check", "per-pair fold lemma; induction over histories"),
"C15": ("price ages, collateral feeds", "`keeperLoad` facts; the reported price is the stored one"),
"C16": ("`_assert_account_integrity` after opening", "valuation of the code = `Market.value` / `Market.margin` of the resulting state"),
"C17": ("`_remove_collateral`", "as C16, plus exact totals paid and to whom"),
"C18": ("both margin checks", "monotonicity of margins, using `MarginsOrdered` where compression breaks it"),
"C19": ("`_liquidate`", "exact-result lemma; positions, collateral, debt afterwards"),
"C20": ("`_calculate_fee`", "rounding bounds"),
"C21": ("`_settle_fees_referral`", "exact parts, non-negativity from the validated shares and referral rates"),
"C22": ("`_split_order`", "case analysis; size after = size before + closed + opened"),
"C23": ("price and slippage limits", "exact-result lemma; and conversely the limits are the only order-specific reason to reject"),
"C24": ("working set, write-back", "frame lemmas"),
"C25": ("collateral vaults and recorded balances", "invariant `CollOk` with granularity of every resource"),
"C26": ("limits on requests, positions, open interest, collaterals", "exact-result lemmas of the calls that can exceed them"),
"C27": ("`_assert_pool_integrity`", "exact-result lemma; ratio over `max(value, 1)`"),
"C28": ("`_auto_deleverage`", "exact-result lemma with the marked ratio before and after"),
"C29": ("ADL ranking", "**partial**: monotone for longs; witnesses show a losing short being deleveraged"),
"C30": ("`_swap_debt`", "exact amounts, rounding towards the pool, price formula"),
"C31": ("add / remove liquidity", "rounding bounds on price per LP token; round trip; witness for the empty pool"),
"C32": ("collecting calls; the fee balances under every other call", "exact-result lemmas; monotonicity along working-set steps, by cases on the call, then induction over histories"),
"C33": ("fee distributor, referrals", "invariant `BalOk`"),
"C34": ("referral generator", "invariant: vaults cover remaining uses times amounts"),
"C35": ("referral records", "invariants `RefGen.Ok`, counting along histories (`Trace`)"),
"C36": ("authorization levels of every account method", "table `Op.needs`, checked against `body` for every call"),
"C37": ("permission registry", "invariant, both directions"),
"C38": ("`add_auth_rule`, recovery keys", "the new rule accepts what the old one accepted; witness for the allow-all rule"),
"C39": ("authority token", "no call that needs the token succeeds; only two calls move it"),
"C40": ("role checks, atomicity", "`step` / `runTx` semantics; a table `Restricted` of methods and roles written from the source, independent of the function the model checks with; and, without naming methods, whose approval each kind of change of the state shows (`Guarded`)"),
"C41": ("fee oaths", "invariant on the supply; exact charge"),
"C42": ("funding accrual and settlement", "`fundingGap` between what the pool booked and what accounts owe, bounded rounding per step"),
"C43": ("`_update_pair`, funding rates", "separate specification `FundingMove`; sign and bounds lemmas"),
"C44": ("update rewards", "exact reward; **partial**: period stored modulo 2^16, witness"),
"C45": ("`DFloat16`", "encoder / decoder lemmas over all decimals"),
"C46": ("configuration after compression", "**partial**: bounds and 1 % rounding; witnesses for ages and for margins out of order"),
"C47": ("`List`, `HashList`, pagination", "refinement of Lean lists / insertion-ordered maps"),
"C48": ("token wrapper", "own state machine; **partial**: `unwrap` accepts any parent token, witnesses"),
"C49": ("all calls", "frame lemmas"),
"C50": ("`_calculate_fee` as charged", "separate specification `tradeFee`; monotonicity"),
}
PLAN.update(json.load(open('/verif/design_more.json')))
man = {c['property']: c for c in json.load(open('/verif/MANIFEST.json'))['claims']}
rows = ["| id | property | modelled | how it is proved | status | theorems |", "|---|---|---|---|---|---|"]
for l in open('/verif/properties.jsonl'):
    p = json.loads(l); c = man[p['id']]; a, b = PLAN[p['id']]
    rows.append(f"| {p['id']} | {p['title']} | {a} | {b} | {c['status']} | " + ' '.join('`' + t.replace('Perp.', '') + '`' for t in c['theorems']) + " |")
open('/verif/DESIGN.md', 'w').write(HEAD + '\n## Plan per property\n\n' + '\n'.join(rows) + '\n')
