import Verif.WitnessC
import Verif.Wrapper
import Verif.Positions
import Verif.FeeRate
import Verif.Conserve
import Verif.Reads
import Verif.TradeFair
import Verif.Side
import Verif.RefusalsAll

/-!
# Concrete cases for C48 to C58

Each example applies a theorem to the scenario of `Scenario.lean`: its hypotheses hold there.
-/

namespace Perp.Wrapper

/-- `c48_backed_partial` and `c48_flash_repaid_partial`: wrapping, a flash loan paid back with interest and an unwrapping. -/
example : ∃ s os, wtx env1 w0 [.addInput CHILD, .wrap ⟨CHILD, 1000 * ONE⟩, .flashLoan (5 * ONE),
      .repay ⟨FLASH, 5 * ONE⟩ ⟨BASE, 7 * ONE⟩, .unwrap ⟨BASE, 400 * ONE⟩ CHILD] = Except.ok (s, os) ∧
    s.baseSupply ≤ held s ∧ s.flashSupply = 0 ∧ lentTotal os ≤ repaidTotal os ∧ lentTotal os = 5 * ONE := by
  have hx : ∃ s os, wtx env1 w0 [.addInput CHILD, .wrap ⟨CHILD, 1000 * ONE⟩,
      .flashLoan (5 * ONE), .repay ⟨FLASH, 5 * ONE⟩ ⟨BASE, 7 * ONE⟩,
      .unwrap ⟨BASE, 400 * ONE⟩ CHILD] = Except.ok (s, os) ∧ lentTotal os = 5 * ONE := ⟨_, _, rfl, rfl⟩
  obtain ⟨s, os, hx, h1⟩ := hx
  have h0 : WReach env1 PaysBase w0 := WReach.init ⟨rfl, rfl, rfl⟩
  have hp : ∀ op ∈ [WOp.addInput CHILD, .wrap ⟨CHILD, 1000 * ONE⟩, .flashLoan (5 * ONE),
      .repay ⟨FLASH, 5 * ONE⟩ ⟨BASE, 7 * ONE⟩, .unwrap ⟨BASE, 400 * ONE⟩ CHILD], PaysBase op := by
    intro op hop
    simp only [List.mem_cons, List.not_mem_nil, or_false] at hop
    rcases hop with rfl | rfl | rfl | rfl | rfl <;> simp [PaysBase]
  have h2 := c48_backed_partial (WReach.tx h0 hp hx)
  exact ⟨s, os, hx, h2.1, h2.2, c48_flash_repaid_partial h0 hp hx, h1⟩

end Perp.Wrapper

namespace Perp

/-- `c47_list_refines`, `c47_list_update_iff`, `c47_request_page` and `c47_tail_page`: a list of three with one entry changed. -/
example : ∃ (k : KList Nat) (out tail : List (Nat × Nat)),
    [ListOp.push 7, .push 8, .update 0 9, .push 5].foldlM KList.apply KList.new = Except.ok k ∧
    k.get 0 = [9, 8, 5][0]? ∧ ((∃ k', k.update 2 6 = Except.ok k') ∧ ¬ ∃ k', k.update 3 6 = Except.ok k') ∧
    k.page 2 (some 1) = Except.ok out ∧ out[0]? = some (1, 8) ∧ k.tailPage 2 none = Except.ok tail ∧ tail = [(2, 5), (1, 8)] := by
  obtain ⟨k, hk⟩ := Scn.computed (x := [ListOp.push 7, .push 8, .update 0 9, .push 5].foldlM KList.apply (KList.new (T := Nat)))
    (by decide)
  have hp : ∃ out tail, k.page 2 (some 1) = Except.ok out ∧ k.tailPage 2 none = Except.ok tail := by
    cases hk; exact ⟨_, _, rfl, rfl⟩
  obtain ⟨out, tail, h1, h2⟩ := hp
  refine ⟨k, out, tail, hk, (c47_list_refines _ k hk).2.1 0, ⟨(c47_list_update_iff _ k hk 2 6).2 (by decide), ?_⟩, h1, ?_, h2, ?_⟩
  · rw [c47_list_update_iff _ k hk 3 6]; decide
  · rw [c47_request_page _ k hk 2 _ out h1 0]; decide
  · rw [c47_tail_page _ k hk 2 _ tail h2]; decide

/-- `c47_hash_list_refines` and `c47_pages_concatenate`: three keys, one of them inserted twice, in two pages. -/
example : ∃ (h : KHashList Nat Nat) (out : Nat → List Nat),
    [(3, 30), (1, 10), (3, 31), (2, 20)].foldlM (fun h e => KHashList.insert h e.1 e.2) KHashList.new = Except.ok h ∧
    h.get 3 = some 31 ∧ (∀ i < 2, h.page 2 (some (i * 2)) = Except.ok (out i)) ∧ (List.range 2).flatMap out = [31, 10, 20] := by
  obtain ⟨h, hh⟩ := Scn.computed (x := [(3, 30), (1, 10), (3, 31), (2, 20)].foldlM (fun h e => KHashList.insert h e.1 e.2)
    (KHashList.new (K := Nat) (V := Nat))) (by decide)
  have h1 := c47_hash_list_refines _ h hh
  obtain ⟨out, h2, h3⟩ := c47_pages_concatenate _ h hh 2 2 (by rw [h1.1]; decide) (by decide)
  exact ⟨h, out, hh, by rw [h1.2.1]; decide, h2, h3.trans (by decide)⟩

end Perp

namespace Perp.Scn

/-- `c29_ranked_partial` -/
example : ∃ s' o acc e accrued, step env anyone (skewed (d 29 1)) (adlAt (d 60000)) = Except.ok (s', o) ∧ o.ev = .adl e ∧
    (skewed (d 29 1)).accounts.get 100 = some acc ∧ 0 < acc.costOf 1 ∧
    adlLine (skewed (d 29 1)).config.exchange.decompress ((skewed (d 29 1)).markedRatio 1 e.price accrued) <
      relativeProfit (acc.size 1) (acc.costOf 1) e.price := by
  obtain ⟨s', o, acc, acc', e, h, ha, -, he, -⟩ := deleveraged
  obtain ⟨e1, x, h5, -, h6, -⟩ := c28_adl (skewed_reach _) h ha
  rw [he] at h5; cases h5
  obtain ⟨acc1, ha1, hc⟩ := tested (s := skewed (d 29 1)) (a := 100) (P := fun acc => 0 < acc.costOf 1) (by decide +kernel)
  rw [ha] at ha1; cases ha1
  exact ⟨s', o, acc, e, x, h, he, ha, hc, c29_ranked_partial h he ha h6 hc⟩

/-- `c29_negative_cost_reversed`: a short position. -/
example : ∃ s' o acc e accrued, step env anyone (skewed (d (-29) 1)) (adlAt (d 65000)) = Except.ok (s', o) ∧ o.ev = .adl e ∧
    (skewed (d (-29) 1)).accounts.get 100 = some acc ∧ acc.costOf 1 < 0 ∧
    relativeProfit (acc.size 1) (acc.costOf 1) e.price <
      -adlLine (skewed (d (-29) 1)).config.exchange.decompress ((skewed (d (-29) 1)).markedRatio 1 e.price accrued) := by
  obtain ⟨acc, ha, hc⟩ := tested (s := skewed (d (-29) 1)) (a := 100) (P := fun acc => acc.costOf 1 < 0) (by decide +kernel)
  obtain ⟨s', o, h, -⟩ := stepped (s := skewed (d (-29) 1)) (op := adlAt (d 65000)) (P := fun _ _ => True) (by decide +kernel)
  obtain ⟨e, x, he, -, h6, -⟩ := c28_adl (skewed_reach _) h ha
  exact ⟨s', o, acc, e, x, h, he, ha, hc, c29_negative_cost_reversed h he ha h6 hc⟩

/-- `c35_allocation_respected`: two of the three codes of the allocation have been created. -/
example : ∃ l a, codes.refgen.allocations.get 1 = some l ∧ a ∈ l ∧ a.count = 2 ∧ a.count ≤ a.maxCount := by
  have hx : (match codes.refgen.allocations.get 1 with
    | some [a] => decide (a.count = 2) | _ => false) = true := by decide +kernel
  split at hx
  · rename_i a ha
    exact ⟨[a], a, ha, by simp, of_decide_eq_true hx, c35_allocation_respected codes_reach 1 ha a (by simp)⟩
  · cases hx

/-- `c49_others_untouched` and `c49_never_removed`: an order of account 100 is executed. -/
example : ∃ s' o acc', step env anyone due (.processRequest 100 0 none) = Except.ok (s', o) ∧ s' ≠ due ∧
    s'.accounts.get 200 = due.accounts.get 200 ∧ s'.accounts.get 100 = some acc' := by
  obtain ⟨s', o, acc, acc', h, ha, ha', h1⟩ := steppedOn (s := due) (a := 100) (op := .processRequest 100 0 none)
    (P := fun s' _ _ _ => s'.pool.vb ≠ due.pool.vb) (by decide +kernel)
  obtain ⟨acc'', ha''⟩ := c49_never_removed h ha
  exact ⟨s', o, acc'', h, fun e => h1 (by rw [e]), c49_others_untouched h (by decide), ha''⟩

/-- `c49_positions_moved_by`: a withdrawal changes the balance of account 100 and none of its positions. -/
example : ∃ s' o acc acc', step env anyone leaving (.processRequest 100 4 none) = Except.ok (s', o) ∧
    leaving.accounts.get 100 = some acc ∧ s'.accounts.get 100 = some acc' ∧ acc'.vb ≠ acc.vb ∧
    acc'.positions.get 1 = acc.positions.get 1 := by
  obtain ⟨s', o, acc, acc', h, ha, ha', h1, h2⟩ := steppedOn (s := leaving) (a := 100) (op := .processRequest 100 4 none)
    (P := fun _ o acc acc' => acc'.vb ≠ acc.vb ∧ (match o.ev with | .order _ => false | _ => true) = true) (by decide +kernel)
  refine ⟨s', o, acc, acc', h, ha, ha', h1, c49_positions_moved_by leaving_reach h ha ha' ?_ 1⟩
  rintro ⟨-, e, he⟩
  rw [he] at h2; cases h2

/-- `c49_new_account_flat` -/
example : ∃ s' o acc', step env anyone open_ (.createAccount 300 none (.prot (.proof 13)) [⟨BASE, d 50⟩] none) = Except.ok (s', o) ∧
    s'.accounts.get 300 = some acc' ∧ acc'.positions.get 1 = none := by
  obtain ⟨s', o, h, h1⟩ := stepped (s := open_) (op := .createAccount 300 none (.prot (.proof 13)) [⟨BASE, d 50⟩] none)
    (P := fun s' _ => (s'.accounts.get 300).isSome = true) (by decide +kernel)
  obtain ⟨acc', ha'⟩ := Option.isSome_iff_exists.1 h1
  exact ⟨s', o, acc', h, ha', c49_new_account_flat h (by decide +kernel) ha' 1⟩

/-- `c50_order_fee`, `c55_order` and `c55_pool`: the first order of account 100. -/
example : ∃ s' o acc acc' e s1, step env anyone due (.processRequest 100 0 none) = Except.ok (s', o) ∧
    due.accounts.get 100 = some acc ∧ s'.accounts.get 100 = some acc' ∧ o.ev = .order e ∧ 0 < e.fees.total ∧
    e.fees.total = due.tradeFee acc e.pair e.price (due.netOi e.pair) e.amountClose +
      due.tradeFee acc e.pair e.price (due.netOi e.pair + e.amountClose) e.amountOpen ∧
    due.Refreshed s1 none [e.pair] ∧ |s'.equity acc' - (s1.equity acc - e.fees.total)| ≤ 2 ∧
    ∃ s2, due.Refreshed s2 none [e.pair] ∧ s2.pool.value ≤ s'.pool.value + 2 := by
  obtain ⟨s', o, acc, acc', h, ha, ha', -, -, -, -, hev⟩ := bought
  cases he : o.ev with
  | order e =>
    rw [he] at hev
    have hev := of_decide_eq_true hev
    obtain ⟨s1, h1, h2, -⟩ := c55_order due_reach h he ha ha'
    obtain ⟨s2, h3, h4, -⟩ := c55_pool due_reach h he
    exact ⟨s', o, acc, acc', e, s1, h, ha, ha', he, hev.2.2, c50_order_fee h he ha, h1, h2, s2, h3, h4⟩
  | _ => rw [he] at hev; cases hev

/-- `c50_adl_fee` and `c55_adl` -/
example : ∃ s' o acc acc' e s1, step env anyone (skewed (d 29 1)) (adlAt (d 60000)) = Except.ok (s', o) ∧
    (skewed (d 29 1)).accounts.get 100 = some acc ∧ s'.accounts.get 100 = some acc' ∧ o.ev = .adl e ∧
    e.fees.total = (skewed (d 29 1)).tradeFee acc 1 e.price ((skewed (d 29 1)).netOi 1) e.amountClose ∧
    (skewed (d 29 1)).Refreshed s1 (some (prices 1040 (d 60000) (d 2000) (d 5 2))) [1] ∧
    |s'.equity acc' - (s1.equity acc - e.fees.total)| ≤ 1 := by
  obtain ⟨s', o, acc, acc', e, h, ha, ha', he, -⟩ := deleveraged
  obtain ⟨s1, h1, h2, -⟩ := c55_adl (skewed_reach _) h he ha ha'
  exact ⟨s', o, acc, acc', e, s1, h, ha, ha', he, c50_adl_fee h he ha, h1, h2⟩

/-- `c50_liquidation_fee` -/
example : ∃ s' o acc e, step env anyone underwater (.liquidate 100 ⟨BASE, d 3000⟩ none) = Except.ok (s', o) ∧
    underwater.accounts.get 100 = some acc ∧ o.ev = .liquidate e ∧ 0 < e.fees.total ∧
    e.fees.total = acc.positions.sum (fun p pos =>
      underwater.tradeFee acc p (s'.market.price p) (underwater.netOi p) (-pos.amount)) := by
  obtain ⟨s', o, acc, acc', h, ha, -, h2⟩ := steppedOn (s := underwater) (a := 100) (op := .liquidate 100 ⟨BASE, d 3000⟩ none)
    (P := fun _ o _ _ => (match o.ev with | .liquidate e => decide (0 < e.fees.total) | _ => false) = true) (by decide +kernel)
  cases he : o.ev with
  | liquidate e =>
    rw [he] at h2
    exact ⟨s', o, acc, e, h, ha, he, of_decide_eq_true h2, c50_liquidation_fee h he ha⟩
  | _ => rw [he] at h2; cases h2

/-- `c50_with_skew_costs_more` and `c50_direction`: more longs than shorts, so buying costs more than selling — strictly. -/
example : ∃ acc, open_.accounts.get 200 = some acc ∧ 0 < open_.netOi 1 ∧
    open_.tradeFee acc 1 (d 50000) (open_.netOi 1) (-d 1) ≤ open_.tradeFee acc 1 (d 50000) (open_.netOi 1) (d 1) ∧
    open_.tradeFee acc 1 (d 50000) (open_.netOi 1) (-d 1) ≠ open_.tradeFee acc 1 (d 50000) (open_.netOi 1) (d 1) := by
  obtain ⟨acc, ha, h⟩ := tested (s := open_) (a := 200) (P := fun acc =>
    open_.tradeFee acc 1 (d 50000) (open_.netOi 1) (-d 1) ≠ open_.tradeFee acc 1 (d 50000) (open_.netOi 1) (d 1)) (by decide +kernel)
  obtain ⟨x, hx⟩ := Option.isSome_iff_exists.1 (show (open_.config.pairs.get 1).isSome = true by decide +kernel)
  exact ⟨acc, ha, by decide +kernel, (c50_direction open_reach hx (by decide +kernel)).1 (by decide +kernel), h⟩

/-- `c51_call`, `c51_supplies`: a withdrawal, with base tokens paid out by the pool to the holder. -/
example : ∃ s' o, step env anyone leaving (.processRequest 100 4 none) = Except.ok (s', o) ∧ totalOf o.given BASE = d 1000 ∧
    s'.held BASE + totalOf o.given BASE + totalOf o.burnt BASE +
      totalOf (Op.locked (.processRequest 100 4 none)) BASE = leaving.held BASE +
      totalOf (Op.supplied (.processRequest 100 4 none)) BASE + totalOf (Op.minted (.processRequest 100 4 none) o) BASE ∧
    s'.rewardSupply = leaving.rewardSupply + o.reward ∧ 0 < o.reward := by
  obtain ⟨s', o, h, h1, h2⟩ := stepped (s := leaving) (op := .processRequest 100 4 none)
    (P := fun _ o => totalOf o.given BASE = d 1000 ∧ 0 < o.reward) (by decide +kernel)
  exact ⟨s', o, h, h1, c51_call h BASE, (c51_supplies h).2.1, h2⟩

/-- `c51_call`: the fee delegator pays a network fee of 4 XRD, its owner takes 2 out, and the owner of the exchange takes the
authority tokens out; each time the law is about the resource that moves. -/
example : (∃ s' o, step env anyone funded (.lockFee (d 4)) = Except.ok (s', o) ∧ s'.held XRD + d 4 = funded.held XRD ∧
      totalOf (Op.locked (.lockFee (d 4))) XRD = d 4) ∧
    (∃ s' o, step env anyone funded (.delegatorWithdraw (d 2)) = Except.ok (s', o) ∧ totalOf o.given XRD = d 2 ∧
      s'.held XRD + d 2 = funded.held XRD) ∧
    ∃ s' o, step env anyone open_ .withdrawAuthority = Except.ok (s', o) ∧ s'.held AUTHORITY = 0 ∧ open_.held AUTHORITY ≠ 0 ∧
      s'.held AUTHORITY + totalOf o.given AUTHORITY + totalOf o.burnt AUTHORITY + totalOf (Op.locked .withdrawAuthority) AUTHORITY =
        open_.held AUTHORITY + totalOf (Op.supplied .withdrawAuthority) AUTHORITY +
          totalOf (Op.minted .withdrawAuthority o) AUTHORITY := by
  refine ⟨?_, ?_, ?_⟩
  · obtain ⟨s', o, h, h1⟩ := stepped (s := funded) (op := .lockFee (d 4))
      (P := fun s' _ => s'.held XRD + d 4 = funded.held XRD) (by decide +kernel)
    exact ⟨s', o, h, h1, by decide +kernel⟩
  · obtain ⟨s', o, h, h1⟩ := stepped (s := funded) (op := .delegatorWithdraw (d 2))
      (P := fun s' o => totalOf o.given XRD = d 2 ∧ s'.held XRD + d 2 = funded.held XRD) (by decide +kernel)
    exact ⟨s', o, h, h1⟩
  · obtain ⟨s', o, h, h1⟩ := stepped (s := open_) (op := .withdrawAuthority)
      (P := fun s' _ => s'.held AUTHORITY = 0 ∧ open_.held AUTHORITY ≠ 0) (by decide +kernel)
    exact ⟨s', o, h, h1.1, h1.2, c51_call h AUTHORITY⟩

/-- `c51_held_nonneg` -/
example : 0 ≤ open_.held BASE ∧ 0 ≤ open_.pool.baseTokens ∧ open_.pool.baseTokens ≠ 0 :=
  ⟨(c51_held_nonneg open_reach BASE).1, (c51_held_nonneg open_reach BASE).2.1, by decide +kernel⟩

/-- A run of calls is a history. -/
theorem runOps_log {env : Env} {cl : Caller} : ∀ {ops : List Op} {s : State} {r : State × List Out},
    runOps env cl s ops = Except.ok r → ∃ l, Log env s l r.1 ∧ l.map Prod.fst = ops := by
  intro ops
  induction ops with
  | nil =>
    intro s r hr
    simp only [runOps, Except.ok.injEq] at hr
    rw [← hr]; exact ⟨[], .nil s, rfl⟩
  | cons op ops ih =>
    intro s r hr
    simp only [runOps, bind_ok, pure_ok] at hr
    obtain ⟨⟨s1, o⟩, h1, ⟨s2, os⟩, h2, rfl⟩ := hr
    obtain ⟨l, h3, h4⟩ := ih h2
    exact ⟨(op, o) :: l, .cons h1 h3, by simp [h4]⟩

theorem after_log {s : State} (ops : List Op) (h : (runOps env anyone s ops).toBool = true) :
    ∃ l, Log env s l (after s ops) ∧ l.map Prod.fst = ops := by
  unfold after
  split
  · rename_i r hr; exact runOps_log hr
  · rename_i e he; rw [he] at h; cases h

/-- `c51_history`, `c51_solvent` and `c51_lp`: the whole setup of the scenario. -/
example : ∃ l, Log env genesis l ready ∧ l.map Prod.fst = setup ∧
    (ready.held BASE + logTotal (fun _ o => o.given) l BASE + logTotal (fun _ o => o.burnt) l BASE +
        logTotal (fun op _ => op.locked) l BASE =
      genesis.held BASE + logTotal (fun op _ => op.supplied) l BASE + logTotal Op.minted l BASE) ∧
    logTotal (fun _ o => o.given) l BASE + logTotal (fun _ o => o.burnt) l BASE +
        logTotal (fun op _ => op.locked) l BASE ≤
      (if BASE = AUTHORITY then genesis.authority else 0) + logTotal (fun op _ => op.supplied) l BASE + logTotal Op.minted l BASE ∧
    ready.lpSupply = logTotal Op.minted l LP - logTotal (fun _ o => o.burnt) l LP ∧ ready.lpSupply ≠ 0 := by
  obtain ⟨l, h, hl⟩ := after_log (s := genesis) setup (by decide +kernel)
  exact ⟨l, h, hl, c51_history h BASE, c51_solvent genesis_ok h BASE, c51_lp genesis_ok h, by decide +kernel⟩

/-- `c52_account`, `c52_account_answers` -/
example : ∃ det acc, getAccountDetails open_ 100 2 (some 1) = Except.ok det ∧ open_.accounts.get 100 = some acc ∧
    AccountReported open_ acc 2 (some 1) det := by
  obtain ⟨det, hd⟩ := computed (x := getAccountDetails open_ 100 2 (some 1)) (by decide +kernel)
  obtain ⟨acc, ha, h⟩ := c52_account open_reach hd
  exact ⟨det, acc, hd, ha, h⟩

example : ∃ e, getAccountDetails open_ 100 2 (some (2 ^ 64 - 1)) = Except.error e ∧ e = .arithmetic := by
  obtain ⟨acc, ha, -⟩ := tested (s := open_) (a := 100) (P := fun _ => True) (by decide +kernel)
  cases he : getAccountDetails open_ 100 2 (some (2 ^ 64 - 1)) with
  | error e => exact ⟨e, rfl, c52_account_answers open_reach ha _ _ he⟩
  | ok x =>
    have : (getAccountDetails open_ 100 2 (some (2 ^ 64 - 1))).toBool = false := by decide +kernel
    rw [he] at this; cases this

/-- `c52_pool` -/
example : ∃ det, getPoolDetails open_ = Except.ok det ∧ det.virtualBalance = open_.pool.vb ∧ det.lpPrice = open_.lpPrice := by
  obtain ⟨det, hd⟩ := computed (x := getPoolDetails open_) (by decide +kernel)
  have := (c52_pool open_).1 det hd
  exact ⟨det, hd, this.2.1, this.2.2.2.2.2.1⟩

/-- `c52_pairs` -/
example : ∃ ds, getPairDetails open_ [2, 1] = Except.ok ds ∧ ds.map PairDetails.pair = [2, 1] := by
  obtain ⟨ds, hd⟩ := computed (x := getPairDetails open_ [2, 1]) (by decide +kernel)
  exact ⟨ds, hd, ((c52_pairs open_ [2, 1]).2 ds hd).1⟩

example : ¬ ∃ ds, getPairDetails open_ [2, 9] = Except.ok ds := by
  rw [(c52_pairs open_ [2, 9]).1]
  intro h
  obtain ⟨c, hc⟩ := h 9 (by simp)
  have : open_.config.pairs.get 9 = none := by decide +kernel
  rw [this] at hc; cases hc

/-- `c52_pair_pages`: two pages of one pair each. -/
example : ∃ out : Nat → List PairId, (∀ i < 2, getPairs open_ 1 (some (i * 1)) = Except.ok (out i)) ∧
    (List.range 2).flatMap out = open_.config.pairs.keys := by
  obtain ⟨out, h1, h2, -⟩ := c52_pair_pages open_reach 1 2 (by decide +kernel) (by decide)
  exact ⟨out, h1, h2⟩

/-- `c52_referrals`: the referral a code belongs to can be queried. -/
example : ∃ x, getReferralDetails codes 1 = Except.ok x := by
  obtain ⟨c, hc⟩ := Option.isSome_iff_exists.1 (show (codes.refgen.codes.get 5004).isSome = true by decide +kernel)
  have h := (c52_referrals codes_reach).2.2.1 5004 c hc
  have e : (codes.refgen.codes.get 5004).map ReferralCode.referralId = some 1 := by decide +kernel
  rw [hc] at e
  simp only [Option.map_some, Option.some.injEq] at e
  rw [e] at h; exact h

/-- `reach_resolves`: both accounts have a position in pair 1, which is configured. -/
example : ∃ x, open_.config.pairs.get 1 = some x := by
  obtain ⟨acc, ha, h1⟩ := tested (s := open_) (a := 200) (P := fun acc => (acc.positions.get 1).isSome = true) (by decide +kernel)
  obtain ⟨pos, hp⟩ := Option.isSome_iff_exists.1 h1
  exact (reach_resolves open_reach).position 200 acc 1 pos ha hp

/-- `c53_no_internal`: an order of a pair that does not exist is refused, but not for an internal reason. -/
example : ∃ e, step env anyone open_ (.marginOrderRequest none 100 (order 9 (d 1)) [] [] STATUS_ACTIVE) = Except.error e ∧
    e ≠ .missingPoolPosition ∧ e ≠ .missingPrice ∧ e ≠ .missingFeed ∧ e ≠ .outOfBounds := by
  have h := failed (s := open_) (op := .marginOrderRequest none 100 (order 9 (d 1)) [] [] STATUS_ACTIVE)
    (e := .missingPairConfig) (by decide +kernel)
  exact ⟨_, h, c53_no_internal open_reach (whole _) h⟩

/-- A withdrawal of more than account 100 can spare. -/
def greedy : State := after open_ [.removeCollateralRequest none 1000 100 55 [(BASE, d 9990), (10, d 50000)], .tick 1040]

theorem greedy_reach : Reach env greedy := after_reach open_reach _

/-- `c53_withdrawal`: the margin is not enough, and that is one of the six reasons. -/
example : step env anyone greedy (.processRequest 100 3 none) = Except.error .insufficientMargin ∧
    Err.insufficientMargin ∈ [Err.insufficientBalance, .insufficientPoolTokens, .vault, .invalidAccount, .insufficientMargin, .arithmetic] := by
  have h := failed (s := greedy) (op := .processRequest 100 3 none) (e := .insufficientMargin) (by decide +kernel)
  obtain ⟨acc, ha, h1, h2, h3⟩ := tested (s := greedy) (a := 100) (P := fun acc => acc.positions.keys = [1] ∧ acc.validStart ≤ 3 ∧
    (match acc.requests[3]? with
      | some r => decide (r.status = STATUS_ACTIVE ∧ r.submission < greedy.now) &&
        (match r.request with | .removeCollateral _ => true | _ => false)
      | none => false) = true) (by decide +kernel)
  cases hr : acc.requests[3]? with
  | none => rw [hr] at h3; cases h3
  | some r =>
    rw [hr] at h3
    dsimp only at h3
    rw [Bool.and_eq_true] at h3
    obtain ⟨h3, h4⟩ := h3
    have h3 := of_decide_eq_true h3
    cases hq : r.request with
    | removeCollateral q =>
      exact ⟨h, c53_withdrawal greedy_reach (whole _) (permitted (by decide +kernel)) ha hr hq h3.1 h2 h3.2
        (by rw [h1]; exact pricesReady (by decide +kernel)) h⟩
    | _ => rw [hq] at h4; cases h4

/-- `c53_update_pairs`: with recent prices the update goes through, as the only failure left does not happen. -/
example : ∀ e, step env anyone open_ (.updatePairs [1, 2] none) = Except.error e → e = .arithmetic := fun e he =>
  c53_update_pairs (whole _) (permitted (by decide +kernel))
    (by
      intro p hp
      simp only [List.mem_cons, List.not_mem_nil, or_false] at hp
      rcases hp with rfl | rfl
      · exact Option.isSome_iff_exists.1 (by decide +kernel)
      · exact Option.isSome_iff_exists.1 (by decide +kernel))
    (pricesReady (by decide +kernel)) he

/-- `c54_goes_through`: withdrawing from the fee delegator. -/
example : ∃ r, step env anyone oathed (.delegatorWithdraw (d 6)) = Except.ok r :=
  c54_goes_through oathed_reach (whole _) (permitted (by decide +kernel)) (by
    rintro e ⟨-, h | h⟩
    · exact absurd h (by decide +kernel)
    · exact absurd h (by decide +kernel))

/-- Account 100 has two pending requests. -/
theorem tpSl_counts : ∃ acc, open_.accounts.get 100 = some acc ∧ ((acc.rule .l3).sat anyone.pf = true ∧ acc.active.card = 2) :=
  tested (by decide +kernel)

/-- `c54_tp_sl_request_exact`: an order with a take-profit is accepted. -/
example : ∃ r, step env anyone open_ (.marginOrderTpSlRequest none 100 (order 1 (d 1)) (some (d 60000)) none) = Except.ok r := by
  rw [c54_tp_sl_request_exact open_reach (permitted (by decide +kernel))]
  obtain ⟨acc, ha, h1, h2⟩ := tpSl_counts
  refine ⟨acc, ha, h1, fun e he => ?_⟩
  cases e <;> try exact he
  case missingPairConfig => exact absurd (show open_.config.pairs.get 1 = none from he) (by decide +kernel)
  case tradeSizeMin => exact absurd (show |d 1| < (open_.market.pair 1).tradeSizeMin from he) (by decide +kernel)
  case activeTooMany =>
    have he : open_.config.exchange.decompress.activeRequestsMax < acc.active.card + 1 + 1 + 0 := he
    rw [h2] at he
    exact absurd he (by decide +kernel)
  case arithmetic =>
    rcases he with he | he
    · rcases he with he | he <;> exact absurd he (by decide +kernel)
    · exact absurd he (by decide +kernel)

/-- `c54_cancel_exact`: both pending requests can be cancelled at once. -/
example : ∃ r, step env anyone open_ (.cancelRequests none 100 [1, 2]) = Except.ok r := by
  rw [c54_cancel_exact open_reach (permitted (by decide +kernel))]
  obtain ⟨acc, ha, h1, h2, h3⟩ : ∃ acc, open_.accounts.get 100 = some acc ∧ ((acc.rule .l3).sat anyone.pf = true ∧
      acc.active.card = 2 ∧ (acc.requests.map (·.status))[1]? = some STATUS_ACTIVE ∧
        (acc.requests.map (·.status))[2]? = some STATUS_ACTIVE) := tested (by decide +kernel)
  rw [List.getElem?_map, List.getElem?_map, Option.map_eq_some_iff, Option.map_eq_some_iff] at h3
  obtain ⟨⟨r1, e1, s1⟩, r2, e2, s2⟩ := h3
  refine ⟨acc, ha, h1, fun e he => ?_⟩
  cases e <;> try exact he
  case missingRequest =>
    obtain ⟨i, hi, hl⟩ := he
    rw [← List.getElem?_eq_none_iff] at hl
    simp only [List.mem_cons, List.not_mem_nil, or_false] at hi
    rcases hi with rfl | rfl
    · rw [e1] at hl; cases hl
    · rw [e2] at hl; cases hl
  case cancelNotActive =>
    obtain ⟨i, hi, r, hr, n1, n2⟩ := he
    simp only [List.mem_cons, List.not_mem_nil, or_false] at hi
    rcases hi with rfl | rfl
    · rw [e1] at hr; cases hr; exact n1 s1
    · rw [e2] at hr; cases hr; exact n1 s2
  case arithmetic =>
    have he : acc.active.card < ([1, 2] : List Nat).toFinset.card := he
    rw [h2] at he
    exact absurd he (by decide)

/-- `c54_withdrawal_request_exact`: ten claims are accepted, eleven are not. -/
example : (∃ r, step env anyone open_ (.removeCollateralRequest none 1000 100 55 (List.replicate 10 (BASE, d 1))) = Except.ok r) ∧
    ¬ ∃ r, step env anyone open_ (.removeCollateralRequest none 1000 100 55 (List.replicate 11 (BASE, d 1))) = Except.ok r := by
  rw [c54_withdrawal_request_exact open_reach (permitted (by decide +kernel)),
    c54_withdrawal_request_exact open_reach (permitted (by decide +kernel))]
  refine ⟨?_, fun ⟨acc, ha, h1, h2⟩ => h2 .claimsTooMany (by change 10 < _; simp)⟩
  obtain ⟨acc, ha, h1, h2⟩ := tested (s := open_) (a := 100) (P := fun acc => (acc.rule .l2).sat anyone.pf = true ∧
    acc.active.card + 1 ≤ open_.config.exchange.decompress.activeRequestsMax) (by decide +kernel)
  refine ⟨acc, ha, h1, fun e he => ?_⟩
  cases e <;> try exact he
  case claimsTooMany => exact absurd he (by change ¬ (10 < _); simp)
  case activeTooMany => exact absurd h2 (not_le.mpr he)
  case arithmetic => rcases he with he | he <;> exact absurd he (by decide +kernel)

/-- `c54_pair_config_exact`: the configuration of the scenario passes; with a maintenance margin above the initial one it would
not. -/
example : (∀ c ∈ [pairCfg 1, pairCfg 2], c.WithinBounds ∧ ∀ x ∈ c.settings, x < storeLimit) ∧
    ¬ ∃ r, step env anyone open_ (.updatePairConfigs [{ pairCfg 1 with marginMaintenance := d 3 2 }]) = Except.ok r := by
  constructor
  · rw [← c54_pair_config_exact (env := env) (cl := anyone) (s := open_) (by decide +kernel) (permitted (by decide +kernel))]
    exact computed (by decide +kernel)
  · rintro ⟨r, hr⟩
    have : (step env anyone open_ (.updatePairConfigs [{ pairCfg 1 with marginMaintenance := d 3 2 }])).toBool = false := by
      decide +kernel
    rw [hr] at this; cases this

/-- `c54_collateral_config_exact` -/
example : ∀ c ∈ [((10 : Res), collCfg)], c.2.WithinBounds := by
  rw [← c54_collateral_config_exact (env := env) (cl := anyone) (s := open_) (permitted (by decide +kernel))]
  exact computed (by decide +kernel)

end Perp.Scn

namespace Perp.Registry

/-- `c56_last_write` and `c56_owner_only` -/
example : ∃ s answer, Hist [(true, .set [("a", "1"), ("b", "2"), ("a", "3")]), (true, .remove ["b"])] s ∧
    step false s (.get ["a", "b"]) = Except.ok (s, some answer) ∧ answer.get "a" = some "3" ∧ answer.get "b" = some "" ∧
    step false s (.remove ["a"]) = Except.error .role := by
  have h : Hist [(true, .set [("a", "1"), ("b", "2"), ("a", "3")]), (true, .remove ["b"])] _ :=
    Hist.step (l := [_]) (Hist.step (l := []) .init rfl) rfl
  obtain ⟨answer, h1, h2⟩ := c56_last_write h false ["a", "b"]
  refine ⟨_, answer, h, h1, ?_, ?_, ?_⟩
  · rw [h2]; decide +kernel
  · rw [h2]; decide +kernel
  · rcases c56_owner_only _ (.remove ["a"]) with ⟨keys, hk⟩ | h'
    · cases hk
    · exact h'

end Perp.Registry

namespace Perp.Faucet

/-- `c57_handout` and `c57_authorized`: the first handout. -/
example : ∃ s' o, step tenv ⟨false, true⟩ new .freeTokens = Except.ok (s', o) ∧ totalOf o BTC = new.gift BTC ∧ new.gift BTC = 10 ^ 15 ∧
    s'.amounts = new.amounts ∧ s'.supply.getD BTC 0 = 10 ^ 15 := by
  obtain ⟨⟨s', o⟩, h⟩ := Scn.computed (x := step tenv ⟨false, true⟩ new .freeTokens) (by decide +kernel)
  obtain ⟨h1, -, -, -, h2⟩ := c57_handout h
  have h3 := (c57_authorized h).2.2 rfl
  refine ⟨s', o, h, h1 BTC, by decide +kernel, h3, ?_⟩
  rw [h2]; decide +kernel

/-- `c57_available` -/
example : ∃ s' o, step tenv ⟨false, true⟩ new .freeTokens = Except.ok (s', o) := by
  have h : ∀ e ∈ new.amounts.entries, 0 < e.2 → ((tenv.mintable e.1 = true ∧ e.2 % (tenv.gran e.1 : Int) = 0) ∧ e.2 ≤ MAX_MINT) ∧
      0 ≤ new.supply.getD e.1 0 ∧ new.supply.getD e.1 0 + e.2 ≤ DMAX := by decide +kernel
  exact c57_available rfl (fun r x hr hx => (h (r, x) (AMap.get_eq_some.mp hr) hx).1)
    (fun r x hr hx => (h (r, x) (AMap.get_eq_some.mp hr) hx).2)

/-- `c57_supply` -/
example : ∃ s o, Hist tenv [(⟨false, true⟩, .freeTokens, o)] s ∧ s.supply.getD BTC 0 = totalOf o BTC + 0 ∧ totalOf o BTC ≠ 0 := by
  obtain ⟨⟨s', o⟩, h⟩ := Scn.computed (x := step tenv ⟨false, true⟩ new .freeTokens) (by decide +kernel)
  have h0 : Hist tenv ([] ++ [(⟨false, true⟩, .freeTokens, o)]) s' := .step .init h
  refine ⟨s', o, h0, c57_supply h0 (.inl rfl), ?_⟩
  rw [(c57_handout h).1]; decide +kernel

end Perp.Faucet
