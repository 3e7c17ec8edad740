import Verif.SpecOps

/-!
# A concrete history

One environment, one genesis state and a few transactions whose states are used throughout the development to show that
the hypotheses of the theorems are met by reachable, non-trivial cases.  Everything here is evaluated by the kernel.
-/

namespace Perp.Scn

/-- `n / 10^k` as a `Decimal`. -/
abbrev d (n : Int) (k : Nat := 0) : Dec := decLit n k

/-- Resource 10 (a collateral) has 8 decimal places, all others 18; a signature is valid if it equals the key. -/
def env : Env where
  gran r := if r = 10 then 10000000000 else 1
  gran_pos r := by split <;> norm_num
  verify _ key sig := key == sig
  hash x := x + 5000
  usdPrice := d 5 2
  isWallet _ := true
  recoveryProof n := 1000 + n

/-- A caller who can show any proof and any referral badge. -/
def anyone : Caller := { pf := fun _ => true, refs := fun _ => true }

/-- Freshly instantiated exchange: the owner is proof 1, everybody may call the user and keeper methods. -/
def genesis : State where
  now := 1000
  authority := ONE
  roles r := if r = .owner then .prot (.proof 1) else .allowAll
  oracleOwner := .prot (.proof 1)
  delegatorOwner := .prot (.proof 1)
  oracle := { keys := AMap.empty, prices := AMap.empty }
  config := { exchange := match ExchangeConfig.dflt.compress with
                          | .ok x => x
                          | .error _ => { positionsMax := 0, collateralsMax := 0, activeRequestsMax := 0,
                                          skewRatioCap := ⟨0⟩, adlOffset := ⟨0⟩, adlA := ⟨0⟩, adlB := ⟨0⟩,
                                          feeLiquidityAdd := ⟨0⟩, feeLiquidityRemove := ⟨0⟩, feeShareProtocol := ⟨0⟩,
                                          feeShareTreasury := ⟨0⟩, feeShareReferral := ⟨0⟩, feeMax := ⟨0⟩,
                                          protocolBurnAmount := ⟨0⟩, keeperReward := ⟨0⟩ }
              pairs := AMap.empty
              collaterals := AMap.empty }
  accounts := AMap.empty
  pool := { positions := AMap.empty, baseTokens := 0, vb := 0, unrealizedFunding := 0, skewAbsSnap := 0, pnlSnap := 0 }
  referrals := AMap.empty
  refgen := { vaults := AMap.empty, allocations := AMap.empty, codes := AMap.empty }
  dist := { treasury := 0, protocol := 0 }
  delegator := { vault := 0, vb := 0, maxLock := 3 * ONE, priceMultiplier := decLit 15 1, isContingent := false }
  perms := AMap.empty
  lpSupply := 0
  oathSupply := 0
  rewardSupply := 0
  recoveryKeys := 0

theorem genesis_ok : Genesis genesis where
  authority := by decide
  accounts := rfl
  pool := rfl
  config := ⟨rfl, rfl⟩
  exchangeConfig := by rfl
  prices := rfl
  referrals := rfl
  refgen := rfl
  dist := rfl
  delegator := rfl
  perms := rfl
  lp := rfl
  oath := rfl
  reward := rfl
  recovery := rfl
  now := by decide

/-- A trading pair with 2% initial and 1% maintenance margin. -/
def pairCfg (p : PairId) : PairConfig where
  pairId := p
  priceAgeMax := 600
  oiMax := d 100
  tradeSizeMin := d 1 4
  updatePriceDeltaRatio := d 1 2
  updatePeriodSeconds := 3600
  marginInitial := d 2 2
  marginMaintenance := d 1 2
  funding1 := d 1 1
  funding2 := d 1 1
  funding2Delta := d 1
  funding2Decay := d 1
  fundingPool0 := d 2 2
  fundingPool1 := d 2 2
  fundingShare := d 1 1
  fee0 := d 1 3
  fee1 := d 1 9

def collCfg : CollateralConfig := { pairId := 7, priceAgeMax := 600, discount := d 9 1, margin := d 1 2 }

def prices (t : Int) (p1 p2 p7 : Dec) : PriceUpdate :=
  { prices := [⟨1, p1, t⟩, ⟨2, p2, t⟩, ⟨7, p7, t⟩], sig := 77, keyId := 0 }

def order (p : PairId) (amount : Dec) (reduceOnly : Bool := false) : OrderArgs :=
  { delay := 5, expiry := 1000, pair := p, amount, reduceOnly, priceLimit := .none, slippageLimit := .none }

/-- Configuration, prices, liquidity, two accounts (100 and 200). -/
def setup : List Op :=
  [ .oracleAddKey 0 77,
    .updatePairConfigs [pairCfg 1, pairCfg 2],
    .updateCollateralConfigs [(10, collCfg)],
    .oraclePush (prices 1000 (d 50000) (d 2000) (d 5 2)),
    .addLiquidity ⟨BASE, d 1000000⟩,
    .createAccount 100 none (.prot (.proof 11)) [⟨BASE, d 10000⟩, ⟨10, d 50000⟩] none,
    .createAccount 200 none (.prot (.proof 12)) [⟨BASE, d 10000⟩] none ]

/-- Both accounts place orders: 100 goes long in pair 1 with a take-profit and a stop-loss, 200 short in pair 1. -/
def orders : List Op :=
  [ .marginOrderTpSlRequest none 100 (order 1 (d 2)) (some (d 60000)) (some (d 40000)),
    .marginOrderRequest none 200 (order 1 (d (-1))) [] [] STATUS_ACTIVE ]

/-- Half a minute later the keeper executes them. -/
def fills : List Op :=
  [ .tick 1030, .processRequest 100 0 none, .processRequest 200 0 none ]

/-- The state after a list of calls (the old one if a call fails). -/
def after (s : State) (ops : List Op) : State :=
  match runOps env anyone s ops with
  | .ok r => r.1
  | .error _ => s

def ready : State := after genesis setup
def ordered : State := after ready orders
def open_ : State := after ordered fills

theorem runOps_reaches {env : Env} {cl : Caller} : ∀ {ops : List Op} {s : State} {r : State × List Out},
    Reach env s → runOps env cl s ops = Except.ok r → Reach env r.1 := by
  intro ops
  induction ops with
  | nil =>
    intro s r h hr
    simp only [runOps, Except.ok.injEq] at hr
    rw [← hr]; exact h
  | cons op ops ih =>
    intro s r h hr
    simp only [runOps, bind_ok, pure_ok] at hr
    obtain ⟨⟨s1, o⟩, h1, ⟨s2, os⟩, h2, rfl⟩ := hr
    exact ih (r := (s2, os)) (.step h h1) h2

theorem after_reach {s : State} (h : Reach env s) (ops : List Op) : Reach env (after s ops) := by
  unfold after
  split
  · rename_i r hr; exact runOps_reaches h hr
  · exact h

theorem ready_reach : Reach env ready := after_reach (.init genesis_ok) _
theorem ordered_reach : Reach env ordered := after_reach ready_reach _
theorem open_reach : Reach env open_ := after_reach ordered_reach _

/-- Run one call and test its result. -/
def trial (s : State) (op : Op) (P : State → Out → Bool) : Bool :=
  match step env anyone s op with
  | .ok r => P r.1 r.2
  | .error _ => false

/-- A successful trial is a successful call with the tested result. -/
theorem stepped {s : State} {op : Op} {P : State → Out → Prop} [∀ s o, Decidable (P s o)]
    (h : trial s op (fun s o => decide (P s o)) = true) :
    ∃ s' o, step env anyone s op = Except.ok (s', o) ∧ P s' o := by
  unfold trial at h
  split at h
  · rename_i r hr
    exact ⟨r.1, r.2, hr, of_decide_eq_true h⟩
  · cases h

/-- Test an account. -/
def acctTest (s : State) (a : Addr) (P : Account → Bool) : Bool :=
  match s.accounts.get a with
  | some acc => P acc
  | none => false

/-- A successful test is a stored account with the tested property. -/
theorem tested {s : State} {a : Addr} {P : Account → Prop} [DecidablePred P]
    (h : acctTest s a (fun acc => decide (P acc)) = true) : ∃ acc, s.accounts.get a = some acc ∧ P acc := by
  unfold acctTest at h
  split at h
  · rename_i acc hg
    exact ⟨acc, hg, of_decide_eq_true h⟩
  · cases h

/-- The scenario runs: every call of the three blocks succeeds. -/
example : (runOps env anyone genesis (setup ++ orders ++ fills)).toBool = true := by decide +kernel

/-- Account 100 holds a long position of 2, account 200 a short one of 1, and the take-profit and stop-loss orders of
account 100 are active. -/
example : (open_.accounts.get 100).map (fun a => (a.positions.entries.map (fun e => (e.1, e.2.amount)), a.requests.map KeeperRequest.status))
      = some ([(1, d 2)], [STATUS_EXECUTED, STATUS_ACTIVE, STATUS_ACTIVE]) ∧
    (open_.accounts.get 200).map (fun a => a.positions.entries.map (fun e => (e.1, e.2.amount))) = some [(1, d (-1))] := by
  decide +kernel

end Perp.Scn
