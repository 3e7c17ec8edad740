# Formal model of surge-trade/perp-scrypto in Lean 4

(`DESIGN.md` is written by `gen_design.py` from `design_head.md`, `properties.jsonl` and `MANIFEST.json`.)

## Trusted base
* The Lean 4.33.0 kernel.  Every theorem named in `MANIFEST.json` depends on no axioms other than `propext`,
  `Classical.choice` and `Quot.sound` (Lean's own, used by Mathlib); none are added, and compiled evaluation is never used
  (examples are closed by `decide +kernel`, i.e. by kernel reduction).
* The reading of the Rust sources into the definitions of the model modules (list below).  Every definition cites the file
  and lines it models; simplifications are stated there.
* The Radix engine contract that the definitions build in:
  transactions are atomic (a panic anywhere leaves the state unchanged); a bucket holds a non-negative multiple of its
  resource's granularity and not more than exists; a vault never pays more than it holds; role checks and
  `assert_access_rule` evaluate the access-rule tree against the proofs presented; signature verification and hashing are
  functions (`Env.verify`, `Env.hash`, arbitrary); total supplies follow mint and burn; the clock never runs backwards.

## The model
| module | models |
|---|---|
| `Base` | `Decimal` (I192 attos, checked, truncating `*` and `/`), panics, `ResourceSpecifier` roundings, casts |
| `AMap` | hash maps / key-value stores with unique keys |
| `DFloat` | `common/src/d_float.rs` |
| `Types` | requests, positions, accounts, pool, configuration structs, state of all components |
| `Config`, `Oracle`, `Virtual` | `config`, `oracle`, and the exchange's `virtual_config/oracle/pool/account` caches with dirty sets and write-back |
| `Exchange` | the private functions `_…` of `exchange/src/exchange.rs` |
| `Referral` | `referral_generator`, referral receipts |
| `Ops` | the public methods of the exchange and the components behind it (accounts, permission registry, fee distributor, fee delegator, pool) |
| `Getters` | read-only methods |
| `Step` | access control, one call (`step`), transactions (`runTx`), reachable states (`Reach`, `ReachTx`, `Later`) |
| `World` | the protected methods of the components called directly, the fee delegator's roles, where the authority tokens are |
| `Deploy` (first part) | the constructors `new` of all components |
| `Lists`, `Wrapper` | `common/src/list.rs`, `hash_list.rs`; `token_wrapper` as its own state machine |

All other modules contain specifications and proofs.  `Reach env s` is: `s` results from a genesis state by any finite
sequence of successful calls, by any callers, with any arguments, at any non-decreasing times; `env` (granularities, signature
verification, hashes, XRD price, wallets) is arbitrary and universally quantified in every theorem.

`Scenario` builds concrete reachable states (two accounts, three pairs, liquidity, orders, fills) with which examples beside
the theorems show that their hypotheses are met and that the negative witnesses are reachable. `WitnessA` (C01-C15),
`WitnessB` (C16-C36), `WitnessC` (C37-C46) and `WitnessD` (C29, C35, C47-C58), `WitnessE` (C59), `WitnessF` (C60) , `WitnessG` (C61) , `WitnessH` (C62), `WitnessI` (C63) , `WitnessJ` (C14, C40), `WitnessK` (C64), `WitnessL` (C65), `WitnessM` (C66), `WitnessN` (C67) and `WitnessO` (C68), `WitnessP` (C69), `WitnessQ` (C70), `WitnessR` (C71), `WitnessS`, `WitnessT` and `WitnessV` (C72), `WitnessU` (C73), `WitnessW` (C74) apply the manifest theorems to these states one
by one, discharging every hypothesis; each example names the theorem it applies.

## Modelling decisions
* `Decimal` = `Int` attos, every operation checked against the I192 range; `*` and `/` truncate toward zero exactly as
  `Decimal` does.  Where the engine may reject more (I256 intermediates) the model accepts: theorems of the form
  "if the call succeeds then …" remain sound; for statements that a call succeeds this is an assumption.
* Panics are `Except.error`; a failing call returns no state, i.e. changes nothing.
* Hash maps are association lists with unique keys; iteration is in list order.  Theorems quantify over all such lists, hence
  over all iteration orders of the state a call starts from.
* The virtual account / pool / config / oracle objects are modelled with their caches and dirty sets and `realize`
  write-back, so that a forgotten dirty mark is visible to the proofs.
* Requests are stored as structured values instead of SBOR bytes (encode / decode = identity).
* Component and resource addresses are natural numbers; proofs presented by a caller are a set of badge names; the
  per-account access rules are trees of `allOf` / `anyOf` over badges.
* Fresh ids (RUIDs, component addresses) are parameters that must be new.

## Not modelled
Metadata, royalties, package upgrades, the wiring of component addresses at build time (histories start from any state satisfying
`Genesis`; `Deploy` models the constructors and C68 shows that a deployment is one), the engine's refund of unused locked fees, account-level
deposit rules of the target account beyond success / failure and the `deploy` scripts.  Direct calls to the inner components
(account, pool, config, oracle, ...) are modelled in `World`: C61 shows that while the owner leaves the authority token in the
exchange they are all refused, so the histories of all other properties (`Reach`) are complete.  What a holder of the
authority does after `withdraw_authority` is outside every other property; a witness in `WitnessG` shows why it has to be.

## Testing the theorems
`seeded/run_mutants.py` applies realistic bugs to the model in a scratch copy and reports which theorems lose their proof;
`seeded/run_fast.py` does the same in one pass, separating theorems that fail themselves from those that only depend on a
failed one; `seeded/LOG.jsonl` records each attempt.  In a "consistent" mutant the exact-result lemma of the edited function is restated
to agree with the bug, so that only the theorems about behaviour can notice it.
