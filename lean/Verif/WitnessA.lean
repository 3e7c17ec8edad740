import Verif.Scenario
import Verif.Failures
import Verif.Executes

/-!
# Concrete cases for C01 to C15

Each example applies a theorem to the scenario of `Scenario.lean`: its hypotheses hold there, in a state with open positions,
pending requests, fees and funding.
-/

namespace Perp.Scn

theorem runOps_later {env : Env} {cl : Caller} : ∀ {ops : List Op} {s : State} {r : State × List Out},
    runOps env cl s ops = Except.ok r → ∀ t, Later env t s → Later env t r.1 := by
  intro ops
  induction ops with
  | nil =>
    intro s r hr t h
    simp only [runOps, Except.ok.injEq] at hr
    rw [← hr]; exact h
  | cons op ops ih =>
    intro s r hr t h
    simp only [runOps, bind_ok, pure_ok] at hr
    obtain ⟨⟨s1, o⟩, h1, ⟨s2, os⟩, h2, rfl⟩ := hr
    exact ih (r := (s2, os)) h2 t (.step h h1)

theorem after_later (s : State) (ops : List Op) : Later env s (after s ops) := by
  unfold after
  split
  · rename_i r hr; exact runOps_later hr s .refl
  · exact .refl

/-- The states of the scenario are states between transactions. -/
theorem after_tx {s : State} (h : ReachTx env s) (ops : List Op) (h0 : (after s ops).oathSupply = 0) :
    ReachTx env (after s ops) := by
  unfold after at h0 ⊢
  split
  · rename_i r hr
    rw [hr] at h0
    have := ReachTx.tx (env := env) anyone ops h
    unfold applyTx runTx at this
    rw [hr] at this
    change ReachTx env (match (require (decide (r.1.oathSupply = 0)) Err.oathOutstanding >>= fun _ => pure r : R _) with
      | .ok r => r.1 | .error _ => s) at this
    rw [decide_eq_true h0] at this
    exact this
  · exact h

theorem open_tx : ReachTx env open_ :=
  after_tx (after_tx (after_tx (.init genesis_ok) setup (by decide +kernel)) orders (by decide +kernel)) fills (by decide +kernel)

/-- `c01_ledger_zero_sum`: with every kind of balance in use the sum is still that of the outstanding oaths, here none. -/
example : open_.pool.vb ≠ 0 ∧ open_.dist.treasury ≠ 0 ∧ open_.dist.protocol ≠ 0 ∧
    open_.pool.vb + open_.accounts.sum (fun _ a => a.vb) + open_.dist.protocol + open_.dist.treasury
      + open_.referrals.sum (fun _ d => d.balance) + open_.delegator.vb = open_.oathSupply :=
  ⟨by decide +kernel, by decide +kernel, by decide +kernel, c01_ledger_zero_sum open_reach⟩

/-- `c01_between_transactions` -/
example : open_.pool.vb + open_.accounts.sum (fun _ a => a.vb) + open_.dist.protocol + open_.dist.treasury
      + open_.referrals.sum (fun _ d => d.balance) + open_.delegator.vb = 0 := c01_between_transactions open_tx

/-- A checked computation that gives a result. -/
theorem computed {α : Type} {x : R α} (h : x.toBool = true) : ∃ a, x = Except.ok a := by
  cases x with
  | ok a => exact ⟨a, rfl⟩
  | error e => cases h

/-- `c02_pool_value` -/
example : ∃ v, poolValue (VPool.new open_.pool open_.now []) = Except.ok v ∧
    v = open_.pool.baseTokens - open_.owed + open_.pool.unrealizedFunding + open_.pool.pnlSnap + open_.oathSupply := by
  obtain ⟨v, hv⟩ := computed (x := poolValue (VPool.new open_.pool open_.now [])) (by decide +kernel)
  exact ⟨v, hv, c02_pool_value open_reach hv⟩

/-- `c02_quoted_price` -/
example : ∃ x, getPoolDetails open_ = Except.ok x ∧ x.lpPrice = divT (max (open_.pool.baseTokens - open_.owed +
    open_.pool.unrealizedFunding + open_.pool.pnlSnap) ONE) open_.lpSupply := by
  obtain ⟨x, hx⟩ := computed (x := getPoolDetails open_) (by decide +kernel)
  have := (c02_quoted_price open_tx hx).1
  rw [if_neg (by decide +kernel)] at this
  exact ⟨x, hx, this⟩

/-- `c02_add_price` -/
example : ∃ s' o ev, opAddLiquidity env open_ ⟨BASE, d 100⟩ = Except.ok (s', o) ∧ o.ev = .liquidity ev ∧
    ev.lpPrice = divT (max (open_.pool.baseTokens - open_.owed + open_.pool.unrealizedFunding + open_.pool.pnlSnap) ONE)
      open_.lpSupply := by
  obtain ⟨⟨s', o⟩, hx⟩ := computed (x := opAddLiquidity env open_ ⟨BASE, d 100⟩) (by decide +kernel)
  obtain ⟨ev, h1, h2⟩ := c02_add_price open_tx hx
  rw [if_neg (by decide +kernel)] at h2
  exact ⟨s', o, ev, hx, h1, h2⟩

/-- `c02_remove_price` -/
example : ∃ s' o ev, opRemoveLiquidity env open_ ⟨LP, d 100⟩ = Except.ok (s', o) ∧ o.ev = .liquidity ev ∧
    ev.lpPrice = divT (max (open_.pool.baseTokens - open_.owed + open_.pool.unrealizedFunding + open_.pool.pnlSnap) 0)
      open_.lpSupply := by
  obtain ⟨⟨s', o⟩, hx⟩ := computed (x := opRemoveLiquidity env open_ ⟨LP, d 100⟩) (by decide +kernel)
  obtain ⟨ev, h1, h2⟩ := c02_remove_price open_tx hx
  exact ⟨s', o, ev, hx, h1, h2⟩

/-- `c03_open_interest`: 2 long and 1 short. -/
example : open_.accounts.sum (fun _ a => max ((a.positions.get 1).elim 0 AccountPosition.amount) 0) = d 2 ∧
    open_.accounts.sum (fun _ a => max (-(a.positions.get 1).elim 0 AccountPosition.amount) 0) = d 1 := by
  obtain ⟨h1, h2, -⟩ := c03_open_interest open_reach 1
  rw [← h1, ← h2]
  decide +kernel

/-- `c03_open_interest_covers` -/
example : ∃ pp, open_.pool.positions.get 1 = some pp ∧ d 2 ≤ pp.oiLong ∧ -d 2 ≤ pp.oiShort ∧ 0 ≤ pp.oiLong ∧ 0 ≤ pp.oiShort := by
  obtain ⟨acc, ha, pos, hp, hz⟩ := tested (s := open_) (a := 100) (P := fun acc => ∃ x ∈ acc.positions.get 1, x.amount = d 2)
    (by decide +kernel)
  obtain ⟨pp, h1, h2, h3, h4⟩ := c03_open_interest_covers open_reach ha hp
  rw [hz] at h2 h3
  exact ⟨pp, h1, h2, h3, h4⟩

/-- `c04_aggregate_snapshots`: the total is not zero. -/
example : open_.pool.skewAbsSnap = d 50000 ∧ open_.pool.positions.sum (fun _ x => x.skewAbsSnap) = d 50000 := by
  rw [← (c04_aggregate_snapshots open_reach).1]
  decide +kernel

/-- `c04_touched_pairs_marked`: updating pair 1 at a new price. -/
example : ∃ s' o pp price t, step env anyone open_ (.updatePairs [1] (some (prices 1031 (d 51000) (d 2000) (d 5 2)))) =
      Except.ok (s', o) ∧ s'.pool.positions.get 1 = some pp ∧ s'.oracle.prices.get 1 = some (price, t) ∧ pp.MarkedAt price := by
  obtain ⟨s', o, h, h1⟩ := stepped (s := open_) (op := .updatePairs [1] (some (prices 1031 (d 51000) (d 2000) (d 5 2))))
    (P := fun s' _ => s'.pool.positions.get 1 ≠ open_.pool.positions.get 1) (by decide +kernel)
  obtain ⟨pp, price, t, h2⟩ := c04_touched_pairs_marked h (Or.inr h1)
  exact ⟨s', o, pp, price, t, h, h2⟩

/-- `c05_no_empty_position` -/
example : ∃ acc pos, open_.accounts.get 200 = some acc ∧ acc.positions.get 1 = some pos ∧ pos.amount ≠ 0 := by
  obtain ⟨acc, ha, pos, hp, -⟩ := tested (s := open_) (a := 200) (P := fun acc => ∃ x ∈ acc.positions.get 1, True)
    (by decide +kernel)
  exact ⟨acc, pos, ha, hp, c05_no_empty_position open_reach ha hp⟩

/-- Account 100 asks for its whole position to be closed. -/
def closeAll : State := after open_ [.marginOrderRequest none 100 (order 1 (d (-2)) true) [] [] STATUS_ACTIVE, .tick 1060]

theorem closeAll_reach : Reach env closeAll := after_reach open_reach _

/-- `c05_closed_completely`: the order closes the position, and the open interest falls by 2. -/
example : ∃ s' o acc', ∃ pos : AccountPosition, step env anyone closeAll (.processRequest 100 3 none) = Except.ok (s', o) ∧
    s'.accounts.get 100 = some acc' ∧ acc'.positions.get 1 = none ∧ pos.amount = d 2 ∧
    (s'.pool.positions.get 1).elim 0 PoolPosition.oiLong =
      (closeAll.pool.positions.get 1).elim 0 PoolPosition.oiLong - max pos.amount 0 := by
  obtain ⟨acc, ha, pos, hp, hz⟩ := tested (s := closeAll) (a := 100) (P := fun acc => ∃ x ∈ acc.positions.get 1, x.amount = d 2)
    (by decide +kernel)
  obtain ⟨s', o, h, h1⟩ := stepped (s := closeAll) (op := .processRequest 100 3 none)
    (P := fun s' _ => acctTest s' 100 (fun acc => decide ((acc.positions.get 1).elim 0 AccountPosition.amount = 0)) = true)
    (by decide +kernel)
  obtain ⟨acc', ha', hz'⟩ := tested h1
  obtain ⟨h2, h3, -⟩ := c05_closed_completely closeAll_reach h ha ha' hp hz'
  exact ⟨s', o, acc', pos, h, ha', h2, hz, h3⟩

/-- The state in which the orders can be executed. -/
def due : State := after ordered [.tick 1030]

theorem due_reach : Reach env due := after_reach ordered_reach _

/-- The keeper has executed the first order. -/
theorem filled : ∃ s' o, step env anyone due (.processRequest 100 0 none) = Except.ok (s', o) ∧
    (o.ev ≠ .expired ∧ s'.statusOf 100 0 = some STATUS_EXECUTED ∧ s'.statusOf 100 1 = some STATUS_ACTIVE) :=
  stepped (by decide +kernel)

/-- `c06_status_moves`: executing the order wakes the take-profit order up. -/
example : ∃ s' o, step env anyone due (.processRequest 100 0 none) = Except.ok (s', o) ∧
    ∃ (acc' : Account) (r' : KeeperRequest), s'.accounts.get 100 = some acc' ∧ acc'.requests[1]? = some r' ∧
      (r'.status = STATUS_DORMANT ∨ Moves STATUS_DORMANT r'.status) := by
  obtain ⟨s', o, h, -⟩ := filled
  obtain ⟨acc, ha, r, hi, hr⟩ := tested (s := due) (a := 100) (P := fun acc => ∃ r ∈ acc.requests[1]?, r.status = STATUS_DORMANT)
    (by decide +kernel)
  obtain ⟨acc', r', h1, h2, h3⟩ := c06_status_moves due_reach h ha hi
  rw [hr] at h3
  exact ⟨s', o, h, acc', r', h1, h2, h3⟩

/-- `c06_created_pending`: the second request of account 200. -/
example : ∃ s' o, step env anyone open_ (.marginOrderRequest none 200 (order 1 (d 1)) [] [] STATUS_DORMANT) = Except.ok (s', o) ∧
    ∃ (acc' : Account) (r' : KeeperRequest), s'.accounts.get 200 = some acc' ∧ acc'.requests[1]? = some r' ∧
      (r'.status = STATUS_ACTIVE ∨ r'.status = STATUS_DORMANT) := by
  obtain ⟨acc, ha, hn⟩ := tested (s := open_) (a := 200) (P := fun acc => acc.requests[1]? = none) (by decide +kernel)
  obtain ⟨s', o, h, h1⟩ := stepped (s := open_) (op := .marginOrderRequest none 200 (order 1 (d 1)) [] [] STATUS_DORMANT)
    (P := fun s' _ => acctTest s' 200 (fun acc => decide (∃ r ∈ acc.requests[1]?, True)) = true) (by decide +kernel)
  obtain ⟨acc', ha', r', hi, -⟩ := tested h1
  refine ⟨s', o, h, acc', r', ha', hi, (c06_created_pending open_reach h ha' hi (fun acc1 h1 => ?_)).2⟩
  rw [ha] at h1; cases h1; exact hn

/-- `c06_terminal`: the executed order stays executed. -/
example : ∃ (acc' : Account) (r' : KeeperRequest), closeAll.accounts.get 100 = some acc' ∧ acc'.requests[0]? = some r' ∧
    r'.status = STATUS_EXECUTED := by
  obtain ⟨acc, ha, r, hi, hr⟩ := tested (s := open_) (a := 100) (P := fun acc => ∃ r ∈ acc.requests[0]?, r.status = STATUS_EXECUTED)
    (by decide +kernel)
  obtain ⟨acc', r', h1, h2, h3⟩ := c06_terminal open_reach (after_later open_ _ : Later env open_ closeAll) ha hi (Or.inl hr)
  exact ⟨acc', r', h1, h2, h3.trans hr⟩

/-- `c07_content_fixed` and `c07_never_shrinks`: over the execution of the orders and the next order. -/
example : ∃ (acc acc' : Account) (r r' : KeeperRequest), ordered.accounts.get 100 = some acc ∧ acc.requests[1]? = some r ∧
    open_.accounts.get 100 = some acc' ∧ acc'.requests[1]? = some r' ∧ r'.request = r.request ∧ r'.expiry = r.expiry ∧
    r'.status ≠ r.status := by
  obtain ⟨acc, ha, r, hi, hr⟩ := tested (s := ordered) (a := 100) (P := fun acc => ∃ r ∈ acc.requests[1]?, r.status = STATUS_DORMANT)
    (by decide +kernel)
  obtain ⟨acc1, ha1, r1, hi1, hr1⟩ := tested (s := open_) (a := 100) (P := fun acc => ∃ r ∈ acc.requests[1]?, r.status = STATUS_ACTIVE)
    (by decide +kernel)
  obtain ⟨acc', r', h1, h2, h3, -, h4, -⟩ := c07_content_fixed ordered_reach (after_later ordered fills : Later env ordered open_) ha hi
  change open_.accounts.get 100 = _ at h1
  rw [ha1] at h1; cases h1
  rw [show acc1.requests[1]? = some r1 from hi1] at h2; cases h2
  exact ⟨acc, acc1, r, r1, ha, hi, ha1, hi1, h3, h4, by rw [hr, hr1]; decide⟩

/-- `c07_never_shrinks` -/
example : ∃ acc acc', open_.accounts.get 100 = some acc ∧ closeAll.accounts.get 100 = some acc' ∧
    acc.requests.length ≤ acc'.requests.length := by
  obtain ⟨acc, ha, -⟩ := tested (s := open_) (a := 100) (P := fun acc => True) (by decide +kernel)
  obtain ⟨acc', h1, h2⟩ := c07_never_shrinks open_reach (after_later open_ _ : Later env open_ closeAll) ha
  exact ⟨acc, acc', ha, h1, h2⟩

/-- `c07_at_most_once`: the executed order cannot be executed again. -/
example : ∃ s' o, step env anyone due (.processRequest 100 0 none) = Except.ok (s', o) ∧
    ∀ cl u x, step env cl s' (.processRequest 100 0 u) ≠ Except.ok x := by
  obtain ⟨s', o, h, -⟩ := filled
  exact ⟨s', o, h, fun cl u => c07_at_most_once due_reach h .refl⟩

/-- `c08_window` -/
example : ∃ (acc : Account) (r : KeeperRequest), due.accounts.get 100 = some acc ∧ acc.requests[0]? = some r ∧
    acc.validStart ≤ 0 ∧ r.status = STATUS_ACTIVE ∧ r.submission < due.now ∧ due.now < r.expiry := by
  obtain ⟨s', o, h, h1, -⟩ := filled
  exact c08_window due_reach h h1

/-- Nobody executes the orders for a very long time. -/
def overdue : State := after ordered [.tick 5000]

theorem overdue_reach : Reach env overdue := after_reach ordered_reach _

/-- `c08_expired_changes_nothing` -/
example : ∃ s' o, step env anyone overdue (.processRequest 100 0 none) = Except.ok (s', o) ∧ o.ev = .expired ∧
    o.buckets = [] ∧ s'.pool = overdue.pool := by
  obtain ⟨acc, ha, r, hi, he⟩ := tested (s := overdue) (a := 100) (P := fun acc => ∃ r ∈ acc.requests[0]?, r.expiry ≤ overdue.now)
    (by decide +kernel)
  obtain ⟨s', o, h, -⟩ := stepped (s := overdue) (op := .processRequest 100 0 none) (P := fun _ _ => True) (by decide +kernel)
  obtain ⟨act, rfl, h2, h3, -⟩ := c08_expired_changes_nothing overdue_reach h ha hi he
  exact ⟨_, o, h, h2, h3, rfl⟩

/-- `c09_delay_partial`: the order of account 100 was placed with a delay of 5 seconds; at 1005 it cannot be executed. -/
example : ∃ s' o, step env anyone ready (.marginOrderRequest none 100 (order 1 (d 2)) [] [] STATUS_ACTIVE) = Except.ok (s', o) ∧
    ∀ cl u x, step env cl (after s' [.tick 1005]) (.processRequest 100 0 u) ≠ Except.ok x := by
  obtain ⟨s', o, h, h1, h2⟩ := stepped (s := ready) (op := .marginOrderRequest none 100 (order 1 (d 2)) [] [] STATUS_ACTIVE)
    (P := fun s' o => some 0 ∈ o.indexes ∧ (after s' [.tick 1005]).now ≤ ready.now + (5 : Nat)) (by decide +kernel)
  exact ⟨s', o, h, fun cl u => c09_delay_partial ready_reach h (.order h1) (by decide) (after_later s' _) h2⟩

/-- `c09_delay_wraps`: a delay of 2^64 - 10 seconds dates the request 10 seconds back. -/
example : ∃ s' o, step env anyone ready (.marginOrderRequest none 100 { order 1 (d 2) with delay := 2 ^ 64 - 10 } [] [] STATUS_ACTIVE) =
      Except.ok (s', o) ∧ ∃ (acc' : Account) (r : KeeperRequest), s'.accounts.get 100 = some acc' ∧ acc'.requests[0]? = some r ∧
      r.submission = ready.now - (10 : Nat) := by
  obtain ⟨s', o, h, h1⟩ := stepped (s := ready) (op := .marginOrderRequest none 100 { order 1 (d 2) with delay := 2 ^ 64 - 10 } [] [] STATUS_ACTIVE)
    (P := fun _ o => some 0 ∈ o.indexes) (by decide +kernel)
  exact ⟨s', o, h, c09_delay_wraps ready_reach h (.order h1) (by decide) (by decide) rfl⟩

/-- `c10_liquidation_invalidates`: the take-profit order of a liquidated account. -/
example : ∃ s' o, step env anyone underwater (.liquidate 100 ⟨BASE, d 3000⟩ none) = Except.ok (s', o) ∧
    ∀ cl u x, step env cl s' (.processRequest 100 1 u) ≠ Except.ok x := by
  obtain ⟨acc, ha, hi⟩ := tested (s := underwater) (a := 100) (P := fun acc => 1 < acc.requests.length) (by decide +kernel)
  obtain ⟨s', o, h, -⟩ := stepped (s := underwater) (op := .liquidate 100 ⟨BASE, d 3000⟩ none) (P := fun _ _ => True) (by decide +kernel)
  exact ⟨s', o, h, fun cl u => (c10_liquidation_invalidates underwater_reach h .refl ha hi).1⟩

/-- `c11_mutually_exclusive`: take profit and stop loss of account 100. -/
example (ops : List Op) : ¬ ((after ordered ops).statusOf 100 1 = some STATUS_EXECUTED ∧
    (after ordered ops).statusOf 100 2 = some STATUS_EXECUTED) := by
  obtain ⟨acc, ha, ⟨ri, hi, h1, h2⟩, rj, hj, h3, h4⟩ := tested (s := ordered) (a := 100) (P := fun acc =>
    (∃ r ∈ acc.requests[1]?, 2 ∈ r.request.cancels ∧ r.status ≠ STATUS_EXECUTED) ∧
    (∃ r ∈ acc.requests[2]?, 1 ∈ r.request.cancels ∧ r.status ≠ STATUS_EXECUTED)) (by decide +kernel)
  exact c11_mutually_exclusive ordered_reach (after_later ordered ops) ha (by decide) hi hj h1 h3 h2 h4

/-- `c11_not_before_main`: the take profit is active, so the main order has been executed. -/
example : open_.statusOf 100 0 = some STATUS_EXECUTED := by
  obtain ⟨acc, ha, r, hi, hr⟩ := tested (s := ordered) (a := 100) (P := fun acc => ∃ r ∈ acc.requests[1]?, r.status = STATUS_DORMANT)
    (by decide +kernel)
  obtain ⟨acc', ha', h1⟩ := tested (s := open_) (a := 100) (P := fun acc => acc.requests.length = 3 ∧
    (∀ r ∈ acc.requests[1]?, 1 ∉ r.request.activates) ∧ (∀ r ∈ acc.requests[2]?, 1 ∉ r.request.activates)) (by decide +kernel)
  refine c11_not_before_main ordered_reach (after_later ordered fills : Later env ordered open_) ha ha' (i := 1) (m := 0) hi hr
    (fun k x hx hk => ?_) (Or.inl (by decide +kernel))
  have hlt := (List.getElem?_eq_some_iff.mp hx).1
  rw [h1.1] at hlt
  obtain rfl | rfl | rfl : k = 0 ∨ k = 1 ∨ k = 2 := by omega
  · rfl
  · exact absurd hk (h1.2.1 x hx)
  · exact absurd hk (h1.2.2 x hx)

/-- `c11_tp_sl` and `c12_tp_sl_shape`: the three orders of account 100. -/
example : ∃ s' o, step env anyone ready (.marginOrderTpSlRequest none 100 (order 1 (d 2)) (some (d 60000)) (some (d 40000))) =
      Except.ok (s', o) ∧ (∀ ops, ¬ ((after s' ops).statusOf 100 1 = some STATUS_EXECUTED ∧
        (after s' ops).statusOf 100 2 = some STATUS_EXECUTED)) ∧
      ∃ acc' : Account, s'.accounts.get 100 = some acc' ∧ acc'.requests =
        [mainOrder ready.now (order 1 (d 2)) [1, 2] [] STATUS_ACTIVE,
         exitOrder ready.now (order 1 (d 2)) (takeProfitLimit (d 2) (d 60000)) [2],
         exitOrder ready.now (order 1 (d 2)) (stopLossLimit (d 2) (d 40000)) [1]] := by
  obtain ⟨s', o, h, h1⟩ := stepped (s := ready) (op := .marginOrderTpSlRequest none 100 (order 1 (d 2)) (some (d 60000)) (some (d 40000)))
    (P := fun _ o => o.indexes = [some 0, some 1, some 2]) (by decide +kernel)
  refine ⟨s', o, h, fun ops => (c11_tp_sl ready_reach h h1 (after_later s' ops)).1, ?_⟩
  obtain ⟨acc, ha, hn⟩ := tested (s := ready) (a := 100) (P := fun acc => acc.requests = []) (by decide +kernel)
  obtain ⟨acc0, acc', iTp, iSl, h2, h3, h4, h5, -, h6, -⟩ := c12_tp_sl_shape ready_reach h
  rw [ha] at h2; cases h2
  rw [hn] at h4 h5 h6
  exact ⟨acc', h3, by rw [h6, h4, h5]; rfl⟩

/-- `c13_active_exact`: the two exit orders are pending. -/
example : ∃ acc, open_.accounts.get 100 = some acc ∧ 0 ∉ acc.active ∧ 1 ∈ acc.active ∧ 2 ∈ acc.active := by
  obtain ⟨acc, ha, h0, h1, ⟨r, hr, h2⟩, r', hr', h3⟩ := tested (s := open_) (a := 100) (P := fun acc => acc.validStart = 0 ∧
    (∀ r ∈ acc.requests[0]?, r.status ≠ STATUS_ACTIVE ∧ r.status ≠ STATUS_DORMANT) ∧
    (∃ r ∈ acc.requests[1]?, r.status = STATUS_ACTIVE) ∧ (∃ r ∈ acc.requests[2]?, r.status = STATUS_ACTIVE)) (by decide +kernel)
  refine ⟨acc, ha, fun h => ?_, (c13_active_exact open_reach ha 1).mpr ⟨by omega, r, hr, Or.inl h2⟩,
    (c13_active_exact open_reach ha 2).mpr ⟨by omega, r', hr', Or.inl h3⟩⟩
  obtain ⟨-, r, hr, h | h⟩ := (c13_active_exact open_reach ha 0).mp h
  · exact (h1 r hr).1 h
  · exact (h1 r hr).2 h

/-- A newer price update, signed by the key of the oracle. -/
def news : PriceUpdate := prices 1031 (d 51000) (d 2000) (d 5 2)

/-- `c14_price_moves_forward` -/
example : ∃ s' o, step env anyone open_ (.oraclePush news) = Except.ok (s', o) ∧ s'.oracle.prices.get 1 = some (d 51000, 1031) ∧
    ∃ u key, (Op.oraclePush news).update = some u ∧ open_.oracle.keys.get u.keyId = some key ∧
      env.verify u.prices key u.sig = true ∧ ⟨1, d 51000, 1031⟩ ∈ u.prices ∧
      ∀ q0 t0, open_.oracle.prices.get 1 = some (q0, t0) → t0 < 1031 := by
  obtain ⟨s', o, h, h1, h2⟩ := stepped (s := open_) (op := .oraclePush news)
    (P := fun s' _ => s'.oracle.prices.get 1 = some (d 51000, 1031) ∧ open_.oracle.prices.get 1 ≠ some (d 51000, 1031)) (by decide +kernel)
  exact ⟨s', o, h, h1, c14_price_moves_forward h h1 h2⟩

/-- `c14_price_removed` -/
example : ∃ s' o, step env anyone open_ (.oracleRemovePrice 2) = Except.ok (s', o) ∧ s'.oracle.prices.get 2 = none ∧
    open_.oracleOwner.sat anyone.pf = true := by
  obtain ⟨s', o, h, h1, h2⟩ := stepped (s := open_) (op := .oracleRemovePrice 2)
    (P := fun s' _ => open_.oracle.prices.get 2 ≠ none ∧ s'.oracle.prices.get 2 = none) (by decide +kernel)
  exact ⟨s', o, h, h2, (c14_price_removed h h1 h2).2⟩

/-- `c14_replay`: the same update attached to a keeper's call later on. -/
example : ∃ s1 o s3 o', step env anyone open_ (.oraclePush news) = Except.ok (s1, o) ∧
    step env anyone s1 (.updatePairs [1] (some news)) = Except.ok (s3, o') ∧ s3.oracle.prices = s1.oracle.prices := by
  obtain ⟨s1, o, h, h1⟩ := stepped (s := open_) (op := .oraclePush news)
    (P := fun s1 _ => trial s1 (.updatePairs [1] (some news)) (fun _ _ => decide True) = true) (by decide +kernel)
  obtain ⟨s3, o', h3, -⟩ := stepped h1
  exact ⟨s1, o, s3, o', h, h3, c14_replay h .refl rfl h3⟩

/-- `c15_pair_prices`, `c15_collateral_prices` and `c15_reported_price`: the execution of the first order. -/
example : ∃ s' o e x y, step env anyone due (.processRequest 100 0 none) = Except.ok (s', o) ∧ o.ev = .order e ∧
    Usable due s'.oracle.prices (due.pairAge 1) 1 x ∧ Usable due s'.oracle.prices (due.pairAge e.pair) e.pair e.price ∧
    ∃ cc, due.config.collaterals.get 10 = some cc ∧ Usable due s'.oracle.prices (some cc.priceAgeMax) cc.pairId y := by
  obtain ⟨s', o, h, h0⟩ := stepped (s := due) (op := .processRequest 100 0 none)
    (P := fun _ o => (match o.ev with | .order _ => true | _ => false) = true) (by decide +kernel)
  obtain ⟨acc, ha, kr, hk, he, hq⟩ := tested (s := due) (a := 100) (P := fun acc => ∃ r ∈ acc.requests[0]?, due.now < r.expiry ∧
    (match r.request with | .marginOrder q => decide (q.pair = 1) | _ => false) = true) (by decide +kernel)
  have hf : Op.needsFeeds due (.processRequest 100 0 none) := ⟨acc, kr, ha, hk, he⟩
  have hp : Op.needsPair due (.processRequest 100 0 none) 1 := by
    refine ⟨acc, kr, ha, hk, he, Or.inr ?_⟩
    cases hr : kr.request with
    | marginOrder q => rw [hr] at hq; exact ⟨q, rfl, of_decide_eq_true hq⟩
    | removeCollateral q => rw [hr] at hq; cases hq
  obtain ⟨x, -, hx⟩ := c15_pair_prices h hf hp
  cases hev : o.ev with
  | order e =>
    cases hcc : due.config.collaterals.get 10 with
    | none => exact absurd hcc (by decide +kernel)
    | some cc =>
      obtain ⟨y, hy⟩ := c15_collateral_prices h hf hcc
      exact ⟨s', o, e, x, y, h, hev, hx, (c15_reported_price h hf (Or.inl ⟨e, hev, rfl, rfl⟩)).2, cc, rfl, hy⟩
  | _ => rw [hev] at h0; cases h0

end Perp.Scn
