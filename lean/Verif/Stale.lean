import Verif.FundingRate
import Verif.Liquidation
import Verif.Limits
import Verif.Executes

/-!
# What a margin check knows about funding (C69)

`_liquidate_positions` brings every pair of the account up to date before it values the positions (exchange.rs:2681-2684);
`_margin_order` does so for the traded pair only (exchange.rs:2137), a withdrawal and the settlement of a fee oath for none, and
`_value_positions` (exchange.rs:2642-2663) then uses the funding indexes as they are stored.
-/

namespace Perp

/-! ## Specification -/

/-- The funding of a pair has been brought up to date in this very second. -/
def State.Current (s : State) (p : PairId) : Prop := (s.pool.position s.now p).lastUpdate = s.now

/-- The funding an account owes at the time of a call that is not in the account value computed from the stored indexes: for every
position, what is due by the indexes after the call less what is due by the stored ones. -/
def State.missed (s s' : State) (acc : Account) : Dec :=
  acc.positions.sum (fun p pos =>
    pos.fundingDue (s'.pool.position s'.now p) - pos.fundingDue (s.pool.position s.now p))

/-! ## When a pair is up to date -/

/-- **C69, who brings pairs up to date.** A call leaves every pair it brings up to date (`Op.updates`: the pair of an executed
order or of a deleveraging, all pairs of a liquidated account, the pairs named to `update_pairs`) current, and as long as the
clock stands still, what is current stays so. -/
theorem c69_current {env : Env} {cl : Caller} {s s' : State} {op : Op} {o : Out} (hr : Reach env s)
    (h : step env cl s op = Except.ok (s', o)) :
    (∀ p ∈ op.updates s o, s'.Current p) ∧ (s'.now = s.now → ∀ p, s.Current p → s'.Current p) := by
  refine ⟨fun p hp => ?_, fun hn p hp => ?_⟩
  · obtain ⟨d, hb⟩ := (c43_update hr h).1 p hp
    exact hb.stamped.1
  · by_cases hu : p ∈ op.updates s o
    · obtain ⟨d, hb⟩ := (c43_update hr h).1 p hu
      exact hb.stamped.1
    · obtain ⟨-, -, -, -, e⟩ := (c43_update hr h).2 p hu
      unfold State.Current at hp ⊢
      rw [hn, e, hp]

/-- **C69, after an order.** An order that opens exposure leaves an account that nobody can liquidate at the same prices, provided
that the pairs of its other positions were brought up to date in the same second, and that the maintenance margins in force do
not exceed the initial ones.  In particular nothing is to be done for an account whose only position is in the traded pair.
The full property has no proviso on the other pairs; `c69_stale_order` shows that it fails. -/
theorem c69_order_partial {env : Env} {cl cl' : Caller} {s s' : State} {a : Addr} {i : Nat} {u : Option PriceUpdate} {o : Out}
    {acc acc' : Account} {e : MarginOrderEv} (h0 : Reach env s) (h : step env cl s (.processRequest a i u) = Except.ok (s', o))
    (ha : s.accounts.get a = some acc) (ha' : s'.accounts.get a = some acc') (he : o.ev = .order e)
    (hp : ¬ Shrunk (acc.size e.pair) (acc'.size e.pair))
    (hf : ∀ q x, acc'.positions.get q = some x → q ≠ e.pair → s.Current q) (ho : s'.MarginsOrdered acc') (b : Bucket)
    (r : State × Out) : step env cl' s' (.liquidate a b none) ≠ Except.ok r := by
  have hc := c69_current h0 h
  have hu : e.pair ∈ (Op.processRequest a i u).updates s o := by
    simp only [Op.updates, he, List.mem_singleton]
  refine c18_not_liquidatable_after_order h0 h ha ha' hp (fun q x hx => ?_) ho b r
  by_cases hq : q = e.pair
  · subst hq; exact hc.1 _ hu
  · exact hc.2 (updates_now h hu) q (hf q x hx hq)

/-- **C69, after a withdrawal.** A withdrawal leaves an account that nobody can liquidate at the same prices, provided that the
pairs of all its positions were brought up to date in the same second (and the margins in force are ordered).  The full property
has no proviso on the pairs; `c69_stale_withdrawal` shows that it fails. -/
theorem c69_withdrawal_partial {env : Env} {cl cl' : Caller} {s s' : State} {a : Addr} {i : Nat} {u : Option PriceUpdate}
    {o : Out} {acc acc' : Account} {kr : KeeperRequest} {q : RemoveCollateralReq} (h0 : Reach env s)
    (h : step env cl s (.processRequest a i u) = Except.ok (s', o)) (ha : s.accounts.get a = some acc)
    (hk : acc.requests[i]? = some kr) (hr : kr.request = .removeCollateral q) (hx : o.ev ≠ .expired)
    (ha' : s'.accounts.get a = some acc') (hf : ∀ p x, acc'.positions.get p = some x → s.Current p)
    (ho : s'.MarginsOrdered acc') (b : Bucket) (r : State × Out) :
    step env cl' s' (.liquidate a b none) ≠ Except.ok r := by
  intro hl
  obtain ⟨-, -, -, -, -, acc1, g1, -, -, hm⟩ := c17_withdrawal h0 h ha hk hr hx
  obtain rfl : acc1 = acc' := Option.some.inj (g1.symm.trans ha')
  have hn : s'.now = s.now := by
    rcases (body_admin (step_body h)).now with e | ⟨e, -, -⟩
    · exact e
    · cases e
  refine c18_healthy_not_liquidatable (s' := r.1) (o := r.2) ha' hm (fun p x hx => ?_) ho (liquidate_no_update hl) hl
  exact (c69_current h0 h).2 hn p (hf p x hx)

/-- **C69, what is missed.** The account value by which a liquidation decides is, at unchanged prices, the value computed from the
stored funding indexes (the one every margin check uses) less the funding accrued since the pairs were last brought up to date;
pairs that are current contribute nothing to the difference. -/
theorem c69_missed {env : Env} {cl : Caller} {s s' : State} {a : Addr} {b : Bucket} {u : Option PriceUpdate} {o : Out}
    {acc : Account} (hr : Reach env s) (h : step env cl s (.liquidate a b u) = Except.ok (s', o))
    (ha : s.accounts.get a = some acc) (hp : s'.oracle.prices = s.oracle.prices) :
    (∃ e, o.ev = .liquidate e ∧ e.accountValue = s.accountValue acc - s.missed s' acc ∧
      e.accountValue < e.margin ∧ e.margin = s.maintenanceMargin acc) ∧
    (∀ p pos, acc.positions.get p = some pos → s'.Current p) ∧
    ∀ p pos, acc.positions.get p = some pos → s.Current p →
      pos.fundingDue (s'.pool.position s'.now p) = pos.fundingDue (s.pool.position s.now p) := by
  obtain ⟨hlt, e, he, h1, h2⟩ := c19_only_below_maintenance h ha
  have hcfg : s'.config = s.config := by
    obtain ⟨acc0, acc', ids, s1, c, w0, w, tokens, e, hrun, -, -, hl, rfl⟩ := run_liquidate (step_body h)
    exact hrun.config
  have hpr : ∀ q, (Market.during s s').price q = s.market.price q := by
    intro q; simp only [Market.during, State.market, hp]
  have hpair : ∀ q, (Market.during s s').pair q = s.market.pair q := by
    intro q; simp only [Market.during, State.market, hcfg]
  have hcoll : ∀ r, (Market.during s s').coll r = s.market.coll r := by
    intro q; simp only [Market.during, State.market, hcfg]
  have hex : (Market.during s s').ex = s.market.ex := by simp only [Market.during, State.market, hcfg]
  have hdue : ∀ p (pos : AccountPosition), pos.fundingDue ((Market.during s s').pool p)
      = pos.fundingDue (s'.pool.position s'.now p) := fun p pos => rfl
  have hupd : ∀ p pos, acc.positions.get p = some pos → p ∈ (Op.liquidate a b u).updates s o := by
    intro p pos hx
    simp only [Op.updates, ha, Option.elim_some]
    exact AMap.mem_keys.mpr ⟨pos, hx⟩
  refine ⟨⟨e, he, ?_, by rw [h1, h2]; exact hlt, ?_⟩, fun p pos hx => (c69_current hr h).1 p (hupd p pos hx), ?_⟩
  · rw [h1]
    unfold State.accountValue State.missed Market.value
    have e1 : acc.positions.sum ((Market.during s s').pnl (s.rebateOf acc))
        = acc.positions.sum (s.market.pnl (s.rebateOf acc)) - acc.positions.sum (fun p pos =>
          pos.fundingDue (s'.pool.position s'.now p) - pos.fundingDue (s.pool.position s.now p)) := by
      rw [eq_sub_iff_add_eq, ← AMap.sum_add]
      refine AMap.sum_congr (fun p x hx => ?_)
      unfold Market.pnl
      rw [hpr, hpair, hex, hdue]
      have e2 : ((Market.during s s').pool p).oiLong = (s.market.pool p).oiLong := rfl
      have e3 : ((Market.during s s').pool p).oiShort = (s.market.pool p).oiShort := rfl
      have e4 : s.market.pool p = s.pool.position s.now p := rfl
      rw [e2, e3, e4]
      ring
    have e5 : acc.collateralBalances.sum (Market.during s s').collValue = acc.collateralBalances.sum s.market.collValue := by
      refine AMap.sum_congr (fun r x hx => ?_)
      unfold Market.collValue
      rw [hcoll]
      cases s.market.coll r with
      | none => rfl
      | some cc => simp only [hpr]
    rw [e1, e5]; ring
  · rw [h2]
    unfold State.maintenanceMargin Market.margin
    congr 1
    · refine AMap.sum_congr (fun p x hx => ?_)
      unfold Market.posMargin; rw [hpr, hpair]
    · refine AMap.sum_congr (fun r x hx => ?_)
      unfold Market.collMargin
      rw [hcoll]
      cases s.market.coll r with
      | none => rfl
      | some cc => simp only [hpr]
  · intro p pos hx hcur
    obtain ⟨d, hb⟩ := (c43_update hr h).1 p (hupd p pos hx)
    obtain ⟨i1, i2, -, -⟩ := hb.still hcur
    unfold AccountPosition.fundingDue
    rw [i1, i2]

end Perp
