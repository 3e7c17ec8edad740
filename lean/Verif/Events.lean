import Verif.Step

/-!
# The event log

exchange/src/events.rs and every `Runtime::emit_event` of exchange/src: exchange.rs,
virtual_margin_account.rs, virtual_margin_pool.rs.  The methods that emit events are given a second
time, with the list of events they emit, in order, as an additional result; `bodyL_erase` shows that
leaving the list out gives back the methods of `Verif.Ops`, failures included.  The config, oracle,
pool, account, referral-generator and fee components emit no events of their own.
-/

namespace Perp

/-- The events: events.rs:8-142. -/
inductive Event where
  | signalUpgrade (newExchange : Addr)
  | exchangeConfig (config : ExchangeConfig)
  | pairConfigs (configs : List PairConfig)
  | collateralConfigs (configs : List (Res × CollateralConfig))
  | collateralRemoval (resource : Res)
  | pairUpdates (updates : List (PairId × PoolPosition))
  | accountCreation (account : Addr) (referral : Option RefId)
  | requests (account : Addr) (requests : List (Nat × KeeperRequest))
  | validStart (account : Addr) (start : Nat)
  | liquidity (e : LiquidityEv)
  | addCollateral (account : Addr) (amounts : List (Res × Dec))
  | removeCollateral (account target : Addr) (amounts : List (Res × Dec))
  | order (account : Addr) (e : MarginOrderEv) (limit : PriceLimit) (activated cancelled : List Nat)
  | swapDebt (account : Addr) (e : SwapDebtEv)
  | liquidate (account : Addr) (positionAmounts positionPrices : List (PairId × Dec))
      (collateralPrices : List (Res × Dec)) (e : LiquidateEv)
  | adl (account : Addr) (e : AdlEv)

/-- What the request event lists: virtual_margin_account.rs:78-80 -/
def VAccount.requestList (v : VAccount) : List (Nat × KeeperRequest) :=
  v.requestAdditions.mapIdx (fun i r => (i + v.requestsLen, r)) ++ v.requestUpdates.entries

/-- Events of `VirtualMarginAccount::realize`: virtual_margin_account.rs:78-88 -/
def VAccount.requestEvents (v : VAccount) : List Event :=
  if v.requestList = [] then [] else [.requests v.addr v.requestList]

/-- What the pair event lists: virtual_margin_pool.rs:37, 44-45 -/
def VPool.updateList (v : VPool) : List (PairId × PoolPosition) :=
  v.positions.entries.filter (fun e => decide (e.1 ∈ v.updated))

/-- Events of `VirtualLiquidityPool::realize`: virtual_margin_pool.rs:44-51 -/
def VPool.pairEvents (v : VPool) : List Event :=
  if v.updateList = [] then [] else [.pairUpdates v.updateList]

/-- `tokens.iter().map(|token| (token.resource_address(), token.amount()))`: exchange.rs:2038, 2103 -/
def amountsOf (bs : List Bucket) : List (Res × Dec) := bs.map (fun b => (b.res, b.amt))

/-- State, outcome and events of a call. -/
abbrev Logged := State × Out × List Event

/-- Leaving the events out. -/
def Logged.erase (r : Logged) : State × Out := (r.1, r.2.1)

/-! ## The emitting methods -/

/-- `add_liquidity`: exchange.rs:748-760, event at 1873-1880 -/
def opAddLiquidityL (env : Env) (s : State) (payment : Bucket) : R Logged := do
  let cfg ← VConfig.new s.config []
  require (okBucket env s payment) .badBucket
  let (pool, dist, minted, ev) ←
    addLiquidity env cfg (VPool.new s.pool s.now []) s.dist s.lpSupply payment
  let supply ← dadd s.lpSupply minted
  pure ({ s with pool := pool.realize, dist, lpSupply := supply },
        { buckets := [⟨LP, minted⟩], ev := .liquidity ev }, .liquidity ev :: pool.pairEvents)

/-- `remove_liquidity`: exchange.rs:762-774, event at 1914-1921 -/
def opRemoveLiquidityL (env : Env) (s : State) (lp : Bucket) : R Logged := do
  let cfg ← VConfig.new s.config []
  require (okBucket env s lp) .badBucket
  let (pool, dist, x, ev) ←
    removeLiquidity env cfg (VPool.new s.pool s.now []) s.dist s.lpSupply lp
  pure ({ s with pool := pool.realize, dist, lpSupply := s.lpSupply - lp.amt },
        { buckets := [⟨BASE, x⟩], burnt := [lp], ev := .liquidity ev },
        .liquidity ev :: pool.pairEvents)

/-- `create_account`: exchange.rs:855-931; events at 2054-2057 (`_add_collateral`), 919-922 (the two
`realize`) and 924-927 -/
def createAccountL (env : Env) (s : State) (a : Addr) (oath : Option Bucket) (rule : Rule)
    (tokens : List Bucket) (code : Option Nat) : R Logged := do
  require (tokens.all (okBucket env s)) .badBucket
  require (!s.accounts.has a) .assertion
  let (s, rid, extra) ← claimCode env s code
  let s := { s with accounts := s.accounts.set a (Account.fresh rule rid),
                    perms := registerAccount s.perms a rule }
  let v ← s.load a
  let (s, w) ← depositTokens env s v oath (tokens ++ extra)
  let s ← s.commit w
  pure (s, { ev := .created a rid },
    .addCollateral w.acc.addr (amountsOf (tokens ++ extra)) :: (w.pool.pairEvents ++
      w.acc.requestEvents ++ [.accountCreation a rid]))

/-- `create_recovery_key`: exchange.rs:933-979 -/
def createRecoveryKeyL (env : Env) (cl : Caller) (s : State) (oath : Option Bucket) (a : Addr) :
    R Logged := do
  let v ← s.load a
  verifyLevel cl v .l1
  let (s, v, _) ← payOath env s v oath v.positionIds []
  let n : Node := .proof (env.recoveryProof s.recoveryKeys)
  let (perms, v) := setAuth s.perms v .l1 (extendRule (v.comp.rule .l1) n)
  let s ← { s with perms, recoveryKeys := s.recoveryKeys + 1 }.commitAcc v
  pure (s, {}, v.requestEvents)

/-- `add_auth_rule`: exchange.rs:981-1034 -/
def addAuthRuleL (env : Env) (cl : Caller) (s : State) (oath : Option Bucket) (a : Addr) (level : Nat)
    (n : Node) : R Logged := do
  let v ← s.load a
  verifyLevel cl v .l1
  let (s, v, _) ← payOath env s v oath v.positionIds []
  let l ← levelOf level
  let (perms, v) := setAuth s.perms v l (extendRule (v.comp.rule l) n)
  let s ← { s with perms }.commitAcc v
  pure (s, {}, v.requestEvents)

/-- `set_level_1_auth`, `set_level_2_auth`, `set_level_3_auth`: exchange.rs:1036-1109 -/
def setLevelAuthL (env : Env) (cl : Caller) (s : State) (oath : Option Bucket) (a : Addr) (l : Level)
    (r : Rule) : R Logged := do
  let v ← s.load a
  verifyLevel cl v .l1
  let (s, v, _) ← payOath env s v oath v.positionIds []
  let (perms, v) := setAuth s.perms v l r
  let s ← { s with perms }.commitAcc v
  pure (s, {}, v.requestEvents)

/-- `add_collateral`: exchange.rs:1111-1142, event at 2054-2057 -/
def opAddCollateralL (env : Env) (cl : Caller) (s : State) (oath : Option Bucket) (a : Addr)
    (tokens : List Bucket) : R Logged := do
  require (tokens.all (okBucket env s)) .badBucket
  let v ← s.load a
  verifyLevel cl v .l3
  let (s, w) ← depositTokens env s v oath tokens
  let s ← s.commit w
  pure (s, {}, .addCollateral w.acc.addr (amountsOf tokens) :: (w.pool.pairEvents ++
    w.acc.requestEvents))

/-- `remove_collateral_request`: exchange.rs:1144-1186 -/
def removeCollateralRequestL (env : Env) (cl : Caller) (s : State) (oath : Option Bucket)
    (expiry : Nat) (a target : Addr) (claims : List (Res × Dec)) : R Logged := do
  let v ← s.load a
  verifyLevel cl v .l2
  let (s, v, cfg) ← payOath env s v oath v.positionIds []
  require (decide (claims.length ≤ 10)) .claimsTooMany
  let i := v.requestsLen
  let v ← v.pushRequest s.now (.removeCollateral { target, claims }) 0 expiry STATUS_ACTIVE [target]
  assertActiveLimit cfg v
  let s ← s.commitAcc v
  pure (s, { indexes := [some i] }, v.requestEvents)

/-- `margin_order_request`: exchange.rs:1188-1256 -/
def marginOrderRequestL (env : Env) (cl : Caller) (s : State) (oath : Option Bucket) (a : Addr)
    (o : OrderArgs) (activate cancel : List RequestIndexRef) (status : Status) : R Logged := do
  let v ← s.load a
  verifyLevel cl v .l3
  let (s, v, cfg) ← payOath env s v oath (insertId v.positionIds o.pair) [o.pair]
  assertTradeSize cfg o.pair o.amount
  require (decide (activate.length ≤ 2)) .effectedTooMany
  require (decide (cancel.length ≤ 2)) .effectedTooMany
  let i := v.requestsLen
  let act ← resolveAll activate i
  let can ← resolveAll cancel i
  let v ← v.pushRequest s.now
    (.marginOrder { pair := o.pair, amount := o.amount, reduceOnly := o.reduceOnly,
                    priceLimit := o.priceLimit, slippageLimit := o.slippageLimit,
                    activate := act, cancel := can })
    o.delay o.expiry status []
  assertActiveLimit cfg v
  let s ← s.commitAcc v
  pure (s, { indexes := [some i] }, v.requestEvents)

/-- `margin_order_tp_sl_request`: exchange.rs:1258-1377 -/
def marginOrderTpSlRequestL (env : Env) (cl : Caller) (s : State) (oath : Option Bucket) (a : Addr)
    (o : OrderArgs) (priceTp priceSl : Option Dec) : R Logged := do
  let v ← s.load a
  verifyLevel cl v .l3
  let (s, v, cfg) ← payOath env s v oath (insertId v.positionIds o.pair) [o.pair]
  assertTradeSize cfg o.pair o.amount
  let i := v.requestsLen
  let iTp : Option Nat := priceTp.map (fun _ => i + 1)
  let iSl : Option Nat := priceSl.map (fun _ => (if priceTp.isSome then i + 1 else i) + 1)
  let v ← v.pushRequest s.now
    (.marginOrder { pair := o.pair, amount := o.amount, reduceOnly := o.reduceOnly,
                    priceLimit := o.priceLimit, slippageLimit := o.slippageLimit,
                    activate := iTp.toList ++ iSl.toList, cancel := [] })
    o.delay o.expiry STATUS_ACTIVE []
  let v ← pushExit v s.now o (priceTp.map (exitLimit true o.amount)) iSl.toList
  let v ← pushExit v s.now o (priceSl.map (exitLimit false o.amount)) iTp.toList
  assertActiveLimit cfg v
  let s ← s.commitAcc v
  pure (s, { indexes := [some i, iTp, iSl] }, v.requestEvents)

/-- `cancel_requests`: exchange.rs:1379-1401 -/
def opCancelRequestsL (env : Env) (cl : Caller) (s : State) (oath : Option Bucket) (a : Addr)
    (indexes : List Nat) : R Logged := do
  let v ← s.load a
  verifyLevel cl v .l3
  let (s, v, _) ← payOath env s v oath v.positionIds []
  let v ← v.cancelRequests indexes
  let s ← s.commitAcc v
  pure (s, {}, v.requestEvents)

/-- The indexes `try_set_keeper_requests_status` returns: virtual_margin_account.rs:276-296.  All the
requests are read before the loop (277); one is returned when the status it then had is one of the
phases (279).  Where a request is missing the method has failed, so nothing depends on the last case. -/
def VAccount.effected (v : VAccount) (is : List Nat) (status : Status) : List Nat :=
  match statusPhases status, v.keeperRequests is with
  | .ok phases, .ok krs => (krs.entries.filter (fun e => decide (e.2.status ∈ phases))).map Prod.fst
  | _, _ => []

/-- `activated_requests` and `cancelled_requests`: exchange.rs:2183-2184.  Evaluated on the account as
it was before the trade, which touches no request; the second list is read after the activations. -/
def VAccount.effects (v : VAccount) (r : MarginOrderReq) : List Nat × List Nat :=
  (v.effected r.activate STATUS_ACTIVE,
    match v.trySetStatus r.activate STATUS_ACTIVE with
    | .ok v => v.effected r.cancel STATUS_CANCELLED
    | .error _ => [])

/-- `position_prices`: exchange.rs:2694, 2719.  An entry for every position; the price is known, since
the liquidation has valued it. -/
def Ctx.positionPrices (c : Ctx) (v : VAccount) : List (PairId × Dec) :=
  v.positions.entries.filterMap (fun x => (c.orc.prices.get x.1).map (fun y => (x.1, y)))

/-- `collateral_prices`: exchange.rs:2778, 2788.  An entry for every balance with a configuration. -/
def Ctx.collateralPrices (c : Ctx) (v : VAccount) : List (Res × Dec) :=
  (v.collateralBalances.entries.filter (fun x => (c.cfg.colls.get x.1).isSome)).filterMap (fun x =>
    (c.orc.priceResource x.1).toOption.map (fun y => (x.1, y)))

/-- The event of the executed request: `_remove_collateral` emits exchange.rs:2109-2113,
`_margin_order` emits exchange.rs:2189-2204. -/
def executeRequestL (c : Ctx) (w : W) (r : Request) : R (W × Out × List Event) :=
  match r with
  | .removeCollateral q => do
      let (w, tokens) ← removeCollateral c w q
      pure (w, { paid := tokens.map (fun b => (q.target, b)), ev := .removeCollateral q.target tokens },
        [.removeCollateral w.acc.addr q.target (amountsOf tokens)])
  | .marginOrder o => do
      let (w', e) ← marginOrder c w o
      pure (w', { ev := .order e },
        [.order w'.acc.addr e o.priceLimit (w.acc.effects o).1 (w.acc.effects o).2])

/-- The two branches of `process_request`: exchange.rs:1419-1437.  The pool is realised at 1434,
before the account at 1437. -/
def processBodyL (env : Env) (s : State) (v : VAccount) (r : Request) (expired : Bool)
    (updates : Option PriceUpdate) : R Logged :=
  if expired then do
    let s ← s.commitAcc v
    pure (s, { ev := .expired }, v.requestEvents)
  else do
    let (s, c, pool) ← keeperLoad env s (requestPairs v r) updates
    let (w, out, l) ← executeRequestL c { pool, acc := v, dist := s.dist } r
    let s ← s.commit w
    pure (s, out, l ++ w.pool.pairEvents ++ w.acc.requestEvents)

/-- `process_request`: exchange.rs:1405-1442 -/
def processRequestL (env : Env) (s : State) (a : Addr) (i : Nat) (updates : Option PriceUpdate) :
    R Logged := do
  let v ← s.load a
  let (v, r, expired) ← v.processRequest s.now i
  let cfg ← VConfig.new s.config (requestPairs v r)
  let (s, out, l) ← processBodyL env s v r expired updates
  let s ← s.mintReward env cfg.ex.rewardKeeper
  pure (s, { out with reward := cfg.ex.rewardKeeper }, l)

/-- `swap_debt`: exchange.rs:1444-1464, event at 2242-2247 -/
def opSwapDebtL (env : Env) (s : State) (a : Addr) (resource : Res) (payment : Bucket)
    (updates : Option PriceUpdate) : R Logged := do
  require (okBucket env s payment) .badBucket
  let v ← s.load a
  let (s, c, pool) ← keeperLoad env s [] updates
  let (w, token, rest, e) ← swapDebt c { pool, acc := v, dist := s.dist } resource payment
  let s ← s.commit w
  pure (s, { buckets := [token, rest], ev := .swapDebt e },
    .swapDebt w.acc.addr e :: (w.acc.requestEvents ++ w.pool.pairEvents))

/-- `liquidate`: exchange.rs:1466-1487; events at virtual_margin_account.rs:405-408 (start of the valid
requests) and exchange.rs:2297-2315.  The position amounts are those the account had when it was
loaded: exchange.rs:2695, 2718; the prices are those of 2694, 2719 and 2778, 2788. -/
def opLiquidateL (env : Env) (s : State) (a : Addr) (payment : Bucket)
    (updates : Option PriceUpdate) : R Logged := do
  require (okBucket env s payment) .badBucket
  let v ← s.load a
  let (s, c, pool) ← keeperLoad env s v.positionIds updates
  let (w, tokens, e) ← liquidate c { pool, acc := v, dist := s.dist } payment
  let s ← s.commit w
  let s ← s.mintReward env c.cfg.ex.rewardKeeper
  pure (s, { buckets := tokens, reward := c.cfg.ex.rewardKeeper, ev := .liquidate e },
    .validStart w.acc.addr w.acc.validStart ::
    .liquidate w.acc.addr (v.positions.entries.map (fun x => (x.1, x.2.amount))) (c.positionPrices v)
      (c.collateralPrices v) e ::
    (w.acc.requestEvents ++ w.pool.pairEvents))

/-- `auto_deleverage`: exchange.rs:1489-1513, event at 2370-2383 -/
def opAutoDeleverageL (env : Env) (s : State) (a : Addr) (p : PairId)
    (updates : Option PriceUpdate) : R Logged := do
  let v ← s.load a
  let (s, c, pool) ← keeperLoad env s (insertId v.positionIds p) updates
  let (w, e) ← autoDeleverage c { pool, acc := v, dist := s.dist } p
  let s ← s.commit w
  let s ← s.mintReward env c.cfg.ex.rewardKeeper
  pure (s, { reward := c.cfg.ex.rewardKeeper, ev := .adl e },
    .adl w.acc.addr e :: (w.acc.requestEvents ++ w.pool.pairEvents))

/-- `update_pairs`: exchange.rs:1515-1539 -/
def opUpdatePairsL (env : Env) (s : State) (ids : List PairId) (updates : Option PriceUpdate) :
    R Logged := do
  let ids := ids.dedup
  let (s, c, pool) ← keeperLoad env s ids updates
  let (pool, flags) ← updatePairsLoop c pool ids
  let s := { s with pool := pool.realize }
  let n := ofInt (flags.filter (fun b => b)).length
  let s ← s.mintReward env n
  pure (s, { reward := n, flags }, pool.pairEvents)

/-- A method that emits no event. -/
def silent (x : R (State × Out)) : R Logged := do
  let r ← x
  pure (r.1, r.2, [])

/-- A method with one event after its body: exchange.rs:374-433. -/
def announcing (x : R (State × Out)) (e : Event) : R Logged := do
  let r ← x
  pure (r.1, r.2, [e])

/-- Method bodies with their events.  The admin, referral, payout, oracle and delegator methods emit
none. -/
def bodyL (env : Env) (cl : Caller) (s : State) : Op → R Logged
  | .signalUpgrade n => announcing (body env cl s (.signalUpgrade n)) (.signalUpgrade n)
  | .updateExchangeConfig c =>
      announcing (body env cl s (.updateExchangeConfig c)) (.exchangeConfig c)
  | .updatePairConfigs cs => announcing (body env cl s (.updatePairConfigs cs)) (.pairConfigs cs)
  | .updateCollateralConfigs cs =>
      announcing (body env cl s (.updateCollateralConfigs cs)) (.collateralConfigs cs)
  | .removeCollateralConfig r =>
      announcing (body env cl s (.removeCollateralConfig r)) (.collateralRemoval r)
  | .addLiquidity b => opAddLiquidityL env s b
  | .removeLiquidity b => opRemoveLiquidityL env s b
  | .createAccount a o r t c => createAccountL env s a o r t c
  | .createRecoveryKey o a => createRecoveryKeyL env cl s o a
  | .addAuthRule o a l n => addAuthRuleL env cl s o a l n
  | .setLevelAuth o a l r => setLevelAuthL env cl s o a l r
  | .addCollateral o a t => opAddCollateralL env cl s o a t
  | .removeCollateralRequest o e a t c => removeCollateralRequestL env cl s o e a t c
  | .marginOrderRequest o a args act can st => marginOrderRequestL env cl s o a args act can st
  | .marginOrderTpSlRequest o a args tp sl => marginOrderTpSlRequestL env cl s o a args tp sl
  | .cancelRequests o a is => opCancelRequestsL env cl s o a is
  | .processRequest a i u => processRequestL env s a i u
  | .swapDebt a r p u => opSwapDebtL env s a r p u
  | .liquidate a p u => opLiquidateL env s a p u
  | .autoDeleverage a p u => opAutoDeleverageL env s a p u
  | .updatePairs ids u => opUpdatePairsL env s ids u
  | op => silent (body env cl s op)

/-- One call by one caller, with its events. -/
def stepL (env : Env) (cl : Caller) (s : State) (op : Op) : R Logged := do
  checkRole cl s op
  checkOwner cl s op
  checkAuthority s op
  bodyL env cl s op

/-- States reachable call by call, with all events emitted on the way. -/
inductive ReachLog (env : Env) : List Event → State → Prop where
  | init {s : State} : Genesis s → ReachLog env [] s
  | step {log l : List Event} {s s' : State} {cl : Caller} {op : Op} {o : Out} :
      ReachLog env log s → stepL env cl s op = Except.ok (s', o, l) → ReachLog env (log ++ l) s'

/-! ## Leaving the events out gives back the methods -/

theorem map_bindR {α β γ : Type} (x : R α) (g : α → R β) (f : β → γ) :
    (x >>= g).map f = x >>= fun a => (g a).map f := by cases x <;> rfl

theorem map_pureR {α β : Type} (x : α) (f : α → β) : (pure x : R α).map f = pure (f x) := rfl

theorem executeRequestL_erase (c : Ctx) (w : W) (r : Request) :
    (executeRequestL c w r).map (fun x => (x.1, x.2.1)) = executeRequest c w r := by
  cases r <;> simp only [executeRequestL, executeRequest, map_bindR, map_pureR]

theorem erase_executeRequestL {c : Ctx} {w : W} {r : Request} {β : Type} (k : W → Out → R β) :
    (executeRequestL c w r >>= fun x => k x.1 x.2.1) = executeRequest c w r >>= fun x => k x.1 x.2 := by
  rw [← executeRequestL_erase]
  cases executeRequestL c w r <;> rfl

theorem processBodyL_erase (env : Env) (s : State) (v : VAccount) (r : Request) (b : Bool) (u : Option PriceUpdate) :
    (processBodyL env s v r b u).map Logged.erase = processBody env s v r b u := by
  unfold processBodyL processBody
  cases b
  · simp only [Bool.false_eq_true, if_false, map_bindR, map_pureR, Logged.erase]
    congr 1; funext x
    exact erase_executeRequestL (fun w o => do let s ← x.1.commit w; pure (s, o))
  · simp only [if_true, map_bindR, map_pureR, Logged.erase]

theorem erase_processBodyL {env : Env} {s : State} {v : VAccount} {r : Request} {b : Bool} {u : Option PriceUpdate}
    {β : Type} (k : State → Out → R β) :
    (processBodyL env s v r b u >>= fun x => k x.1 x.2.1) = processBody env s v r b u >>= fun x => k x.1 x.2 := by
  rw [← processBodyL_erase]
  cases processBodyL env s v r b u <;> rfl

theorem silent_erase (x : R (State × Out)) : (silent x).map Logged.erase = x := by cases x <;> rfl

theorem announcing_erase (x : R (State × Out)) (e : Event) : (announcing x e).map Logged.erase = x := by
  cases x <;> rfl

theorem bodyL_erase (env : Env) (cl : Caller) (s : State) (op : Op) :
    (bodyL env cl s op).map Logged.erase = body env cl s op := by
  cases op <;> first
    | exact silent_erase _
    | exact announcing_erase _ _
    | skip
  case processRequest a i u =>
    simp only [bodyL, body, processRequestL, processRequest, map_bindR, map_pureR, Logged.erase]
    congr 1; funext v
    congr 1; funext x
    congr 1; funext cfg
    exact erase_processBodyL
      (fun s o => do let s ← s.mintReward env cfg.ex.rewardKeeper; pure (s, { o with reward := cfg.ex.rewardKeeper }))
  all_goals
    simp only [bodyL, body, opAddLiquidityL, opAddLiquidity, opRemoveLiquidityL, opRemoveLiquidity,
      createAccountL, createAccount, createRecoveryKeyL, createRecoveryKey, addAuthRuleL, addAuthRule,
      setLevelAuthL, setLevelAuth, opAddCollateralL, opAddCollateral, removeCollateralRequestL,
      removeCollateralRequest, marginOrderRequestL, marginOrderRequest, marginOrderTpSlRequestL,
      marginOrderTpSlRequest, opCancelRequestsL, opCancelRequests, opSwapDebtL, opSwapDebt, opLiquidateL,
      opLiquidate, opAutoDeleverageL, opAutoDeleverage, opUpdatePairsL, opUpdatePairs, map_bindR, map_pureR,
      Logged.erase]

/-- A call with its events is the call of `Verif.Step`, failures included. -/
theorem stepL_erase (env : Env) (cl : Caller) (s : State) (op : Op) :
    (stepL env cl s op).map Logged.erase = step env cl s op := by
  simp only [stepL, step, map_bindR, bodyL_erase]

theorem stepL_step {env : Env} {cl : Caller} {s s' : State} {op : Op} {o : Out} {l : List Event}
    (h : stepL env cl s op = Except.ok (s', o, l)) : step env cl s op = Except.ok (s', o) := by
  rw [← stepL_erase, h]; rfl

theorem bodyL_body {env : Env} {cl : Caller} {s s' : State} {op : Op} {o : Out} {l : List Event}
    (h : bodyL env cl s op = Except.ok (s', o, l)) : body env cl s op = Except.ok (s', o) := by
  rw [← bodyL_erase, h]; rfl

theorem step_stepL {env : Env} {cl : Caller} {s s' : State} {op : Op} {o : Out}
    (h : step env cl s op = Except.ok (s', o)) : ∃ l, stepL env cl s op = Except.ok (s', o, l) := by
  rw [← stepL_erase] at h
  cases hx : stepL env cl s op with
  | error e => rw [hx] at h; cases h
  | ok r =>
    rw [hx] at h
    obtain ⟨s1, o1, l⟩ := r
    simp only [Except.map, Logged.erase, Except.ok.injEq, Prod.mk.injEq] at h
    obtain ⟨rfl, rfl⟩ := h
    exact ⟨l, rfl⟩

theorem stepL_body {env : Env} {cl : Caller} {s s' : State} {op : Op} {o : Out} {l : List Event}
    (h : stepL env cl s op = Except.ok (s', o, l)) : bodyL env cl s op = Except.ok (s', o, l) := by
  simp only [stepL, bind_ok] at h
  obtain ⟨-, -, -, -, -, -, h⟩ := h
  exact h

/-- A reachable state has a log, and a logged history is a history. -/
theorem reach_iff_log {env : Env} {s : State} : Reach env s ↔ ∃ log, ReachLog env log s := by
  constructor
  · intro h
    induction h with
    | init g => exact ⟨[], .init g⟩
    | step _ hs ih =>
      obtain ⟨log, ih⟩ := ih
      obtain ⟨l, hl⟩ := step_stepL hs
      exact ⟨_, .step ih hl⟩
  · rintro ⟨log, h⟩
    induction h with
    | init g => exact .init g
    | step _ hs ih => exact .step ih (stepL_step hs)

end Perp
