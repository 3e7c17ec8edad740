import Verif.PoolSide
import Verif.WitnessK

/-!
# Concrete cases for C65
-/

namespace Perp.Scn

/-- `c65_call`: the price rises by a tenth and somebody updates the pair; the pool, short 1 against the traders, loses 5000. -/
example : ∃ s' o, step env anyone open_ (.updatePairs [1] (prices 1030 (d 55000) (d 2000) (d 5 2))) = Except.ok (s', o) ∧
    open_.poolGain s' [1] = -d 5000 ∧ s'.pool.value = open_.pool.value - d 5000 := by
  obtain ⟨s', o, h, h1⟩ := stepped (s := open_) (op := .updatePairs [1] (prices 1030 (d 55000) (d 2000) (d 5 2)))
    (P := fun s' _ => open_.poolGain s' [1] = -d 5000) (by decide +kernel)
  have h2 : s'.pool.value - open_.pool.value = -d 5000 := by
    obtain ⟨h3, h4⟩ := c65_call open_reach h
    have e : (Op.updatePairs [1] (prices 1030 (d 55000) (d 2000) (d 5 2))).updates open_ o = [1] := by simp [Op.updates]
    have ho : o.ev = .none := by
      obtain ⟨s1, c, pool, flags, n, -, -, -, -, ho⟩ := opUpdatePairs_ok (step_body h)
      rw [ho]
    rw [e, h1] at h3 h4
    simp only [Op.poolFlow, Op.poolRounds, Op.poolDust, ho, Nat.cast_zero] at h3 h4
    linarith
  exact ⟨s', o, h, h1, by linarith⟩

/-- `c65_call`: when time passes, funding accrues to the pool. -/
example : ∃ s' o, step env anyone (after open_ [.tick 5000]) (.updatePairs [1] (prices 5000 (d 50000) (d 2000) (d 5 2)))
      = Except.ok (s', o) ∧ 0 < (after open_ [.tick 5000]).poolGain s' [1] ∧
    (after open_ [.tick 5000]).pool.value < s'.pool.value := by
  obtain ⟨s', o, h, h1⟩ := stepped (s := after open_ [.tick 5000])
    (op := .updatePairs [1] (prices 5000 (d 50000) (d 2000) (d 5 2)))
    (P := fun s' o => 0 < (after open_ [.tick 5000]).poolGain s' [1] ∧ o.ev = .none) (by decide +kernel)
  obtain ⟨h3, -⟩ := c65_call (after_reach open_reach _) h
  have e : (Op.updatePairs [1] (prices 5000 (d 50000) (d 2000) (d 5 2))).updates (after open_ [.tick 5000]) o = [1] := by
    simp [Op.updates]
  rw [e] at h3
  simp only [Op.poolFlow, Op.poolRounds, h1.2, Nat.cast_zero] at h3
  exact ⟨s', o, h, h1.1, by linarith⟩

/-- `c65_call`, `c65_flow`: somebody redeems LP tokens; the pool pays. -/
example : ∃ s' o, step env anyone open_ (.removeLiquidity ⟨LP, d 1000⟩) = Except.ok (s', o) ∧
    (Op.removeLiquidity ⟨LP, d 1000⟩).poolFlow o < -d 900 ∧ d 900 < (Op.removeLiquidity ⟨LP, d 1000⟩).poolTakes o ∧
    s'.pool.value = open_.pool.value + (Op.removeLiquidity ⟨LP, d 1000⟩).poolFlow o := by
  obtain ⟨s', o, h, h1, h2⟩ := stepped (s := open_) (op := .removeLiquidity ⟨LP, d 1000⟩)
    (P := fun s' o => (Op.removeLiquidity ⟨LP, d 1000⟩).poolFlow o < -d 900 ∧
      d 900 < (Op.removeLiquidity ⟨LP, d 1000⟩).poolTakes o) (by decide +kernel)
  obtain ⟨h3, h4⟩ := c65_call open_reach h
  obtain ⟨ev, he⟩ : ∃ ev, o.ev = .liquidity ev := by
    obtain ⟨_, _, _, _, _, -, -, -, -, -, -, -, -, -, -, -, -, -, -, ev, he, -⟩ := opRemoveLiquidity_ok (step_body h)
    exact ⟨ev, he⟩
  have e1 : open_.poolGain s' ((Op.removeLiquidity ⟨LP, d 1000⟩).updates open_ o) = 0 := rfl
  have e2 : (Op.removeLiquidity ⟨LP, d 1000⟩).poolRounds open_ o = 0 := by simp only [Op.poolRounds, he]
  have e3 : (Op.removeLiquidity ⟨LP, d 1000⟩).poolDust env = 0 := rfl
  rw [e1, e2] at h3 h4
  rw [e3] at h4
  simp only [Nat.cast_zero] at h3 h4
  exact ⟨s', o, h, h1, h2, by linarith⟩

/-- A state whose stored pairs are all up to date. -/
theorem settled_of {s : State} (h : ∀ e ∈ s.pool.positions.entries, e.2.lastUpdate = s.now ∧ e.2.MarkedAt (s.market.price e.1)) :
    s.Settled := by
  intro p
  unfold Pool.position
  cases hg : s.pool.positions.get p with
  | none =>
    refine ⟨rfl, ?_⟩
    simp [PoolPosition.MarkedAt, PoolPosition.dflt, mulT]
  | some pp => exact h (p, pp) (AMap.get_eq_some.1 hg)

instance (pp : PoolPosition) (x : Dec) : Decidable (pp.MarkedAt x) := by unfold PoolPosition.MarkedAt; infer_instance

theorem entries_eq {K V : Type} [DecidableEq K] {m m' : AMap K V} (h : m.entries = m'.entries) : m = m' := by
  cases m; cases m'; cases h; rfl

theorem tourist_settled : tourist.Settled := settled_of (by decide +kernel)

/-- `c65_history`, `c65_still_history` and `c65_lp_holders`: somebody buys 2 and sells them at once; the pool keeps its part of
the fees, 140 of 200. -/
example : ∃ f, PoolStill env tourist f 4 0 back ∧ PoolCareer env tourist f 0 4 0 back ∧ f = d 140 ∧
    tourist.pool.value + f - 4 ≤ back.pool.value ∧ back.Settled ∧
    (tourist.lpPrice ≤ holding.lpPrice ∨ (holding.lpSupply = tourist.lpSupply ∧ tourist.pool.value - 2 ≤ holding.pool.value)) := by
  have s1 := step_out (s := tourist) (op := enter) (by decide +kernel)
  have s2 := step_out (s := holding) (op := quit) (by decide +kernel)
  have p1 : ∀ p, holding.market.price p = tourist.market.price p := same_price (entries_eq (by decide +kernel))
  have p2 : ∀ p, back.market.price p = holding.market.price p := same_price (entries_eq (by decide +kernel))
  have h2 := (PoolStill.start (env := env) (s := tourist)).call s1 (by decide +kernel) p1 |>.call s2 (by decide +kernel) p2
  have c2 := (PoolCareer.start (env := env) (s := tourist)).call s1 |>.call s2
  have e1 : 0 + enter.poolRounds tourist (outOf tourist enter) + quit.poolRounds holding (outOf holding quit) = 4 := by
    decide +kernel
  have e2 : 0 + enter.poolDust env + quit.poolDust env = 0 := by decide +kernel
  have e3 : (0 : Int) + enter.poolFlow (outOf tourist enter) + quit.poolFlow (outOf holding quit) = d 140 := by decide +kernel
  have e4 : (0 : Int) + tourist.poolGain (after tourist [enter]) (enter.updates tourist (outOf tourist enter))
      + holding.poolGain (after holding [quit]) (quit.updates holding (outOf holding quit)) = 0 := by decide +kernel
  have e5 : enter.poolRounds tourist (outOf tourist enter) = 2 := by decide +kernel
  have h2' : PoolStill env tourist (0 + enter.poolFlow (outOf tourist enter) + quit.poolFlow (outOf holding quit)) 4 0 back :=
    e1 ▸ e2 ▸ h2
  have c2' : PoolCareer env tourist (0 + enter.poolFlow (outOf tourist enter) + quit.poolFlow (outOf holding quit)) 0 4 0 back :=
    e1 ▸ e2 ▸ e4 ▸ c2
  obtain ⟨⟨h3, -⟩, h4⟩ := c65_still_history tourist_reach tourist_settled h2'
  have h5 := c65_lp_holders tourist_reach tourist_settled s1 p1 (fun e he => by
    have : ∀ e, (outOf tourist enter).ev ≠ .liquidate e := by
      have : (match (outOf tourist enter).ev with | .liquidate _ => false | _ => true) = true := by decide +kernel
      intro e he; rw [he] at this; cases this
    exact absurd he (this e)) (by decide +kernel) (by decide +kernel) (by decide +kernel) (by decide +kernel) (by decide +kernel)
  rw [e5] at h5
  exact ⟨_, h2', c2', e3, h3, h4, h5⟩

end Perp.Scn
