import Verif.OrderV
import Verif.Executes
import Verif.WitnessG

/-!
# The theorems of C62 apply to concrete calls

`State.rev` stores every map, vault table and position list of a ledger the other way round; every state
and its reversed copy have the same content, the copy is a different value, and calls of every kind succeed
on both.
-/

namespace Perp

/-- The same map stored the other way round. -/
def AMap.rev {K V : Type} (m : AMap K V) : AMap K V :=
  ⟨m.entries.reverse, by rw [List.map_reverse]; exact List.nodup_reverse.mpr m.nodup⟩

theorem AMap.rev_same {K V : Type} [DecidableEq K] (m : AMap K V) : m.Same m.rev :=
  AMap.perm_same (List.reverse_perm _).symm

/-- The same request with its lists reversed. -/
def Request.rev : Request → Request
  | .removeCollateral r => .removeCollateral { r with claims := r.claims.reverse }
  | .marginOrder r => .marginOrder { r with activate := r.activate.reverse, cancel := r.cancel.reverse }

theorem Request.rev_canon (r : Request) : r.canon = r.rev.canon := by
  cases r with
  | removeCollateral r =>
    have := Multiset.coe_eq_coe.mpr (List.reverse_perm r.claims).symm
    simp only [Request.rev, Request.canon, this]
  | marginOrder r =>
    have h1 := Multiset.coe_eq_coe.mpr (List.reverse_perm r.activate).symm
    have h2 := Multiset.coe_eq_coe.mpr (List.reverse_perm r.cancel).symm
    simp only [Request.rev, Request.canon, h1, h2]

/-- The same account stored the other way round. -/
def Account.rev (a : Account) : Account :=
  { a with collateral := a.collateral.rev, collateralBalances := a.collateralBalances.rev, positions := a.positions.rev,
           requests := a.requests.map fun k => { k with request := k.request.rev } }

theorem Account.rev_same (a : Account) : a.Same a.rev :=
  { collateral := AMap.rev_same _, collateralBalances := AMap.rev_same _, positions := AMap.rev_same _, vb := rfl,
    requests := (by
      simp only [Account.rev, List.map_map]
      refine List.map_congr_left fun k _ => ?_
      simp only [KeeperRequest.canon, Function.comp_apply, ← Request.rev_canon])
    active := rfl, validStart := rfl, referralId := rfl, level1 := rfl, level2 := rfl, level3 := rfl }

/-- The same ledger with every map stored the other way round. -/
def State.rev (s : State) : State :=
  { s with
    oracle := ⟨s.oracle.keys.rev, s.oracle.prices.rev⟩
    config := ⟨s.config.exchange, s.config.pairs.rev, s.config.collaterals.rev⟩
    accounts := (s.accounts.mapV fun _ a => a.rev).rev
    pool := { s.pool with positions := s.pool.positions.rev }
    referrals := s.referrals.rev
    refgen := ⟨s.refgen.vaults.rev, s.refgen.allocations.rev, s.refgen.codes.rev⟩
    perms := s.perms.rev }

theorem State.rev_same (s : State) : s.Same s.rev :=
  { now := rfl, authority := rfl, roles := rfl, oracleOwner := rfl, delegatorOwner := rfl,
    oracle := ⟨AMap.rev_same _, AMap.rev_same _⟩,
    config := ⟨rfl, AMap.rev_same _, AMap.rev_same _⟩,
    accounts := (by
      intro k
      show Option.Rel _ _ ((s.accounts.mapV fun _ a => a.rev).rev.get k)
      rw [← AMap.rev_same _ k, AMap.get_mapV]
      cases s.accounts.get k with
      | none => exact .none
      | some a => exact .some a.rev_same),
    pool := ⟨AMap.rev_same _, rfl, rfl, rfl, rfl, rfl⟩,
    referrals := AMap.rev_same _,
    refgen := ⟨AMap.rev_same _, AMap.rev_same _, AMap.rev_same _⟩,
    dist := rfl, delegator := rfl, perms := AMap.rev_same _, lpSupply := rfl, oathSupply := rfl, rewardSupply := rfl,
    recoveryKeys := rfl }

namespace Scn

/-- `c62_call` and `c62_refusal`: the reversed ledgers are different values … -/
example : open_.rev.config.pairs.entries ≠ open_.config.pairs.entries ∧
    open_.rev.accounts.entries.map Prod.fst ≠ open_.accounts.entries.map Prod.fst ∧
    open_.rev.oracle.prices.entries ≠ open_.oracle.prices.entries := by decide +kernel

/-- … and a withdrawal of three claims, executed on both, with its claims reversed in one of them … -/
example : (leaving.Same leaving.rev ∧ Reach env leaving) ∧
    (∃ s' o, step env anyone leaving (.processRequest 100 4 none) = Except.ok (s', o) ∧ o.paid.length = 2) ∧
    (∃ s' o, step env anyone leaving.rev (.processRequest 100 4 none) = Except.ok (s', o) ∧ o.paid.length = 2) :=
  ⟨⟨State.rev_same _, leaving_reach⟩, stepped (by decide +kernel), stepped (by decide +kernel)⟩

/-- … the order … -/
example : (∃ s' o, step env anyone leaving (.processRequest 100 3 none) = Except.ok (s', o) ∧ s'.netOi 1 = 0) ∧
    (∃ s' o, step env anyone leaving.rev (.processRequest 100 3 none) = Except.ok (s', o) ∧ s'.netOi 1 = 0) :=
  ⟨stepped (by decide +kernel), stepped (by decide +kernel)⟩

/-- … a liquidation after a crash … -/
example : (∃ s' o, step env anyone (after open_ [.tick 1040]) (.liquidate 100 ⟨BASE, d 3000⟩ (some crash)) = Except.ok (s', o) ∧
      o.reward = d 1) ∧
    (∃ s' o, step env anyone (after open_ [.tick 1040]).rev (.liquidate 100 ⟨BASE, d 3000⟩ (some crash)) = Except.ok (s', o) ∧
      o.reward = d 1) :=
  ⟨stepped (by decide +kernel), stepped (by decide +kernel)⟩

/-- … a cancellation of two requests in either order … -/
example : Op.Same (.cancelRequests none 100 [1, 2]) (.cancelRequests none 100 [2, 1]) ∧
    (∃ s' o, step env anyone open_ (.cancelRequests none 100 [1, 2]) = Except.ok (s', o) ∧ o.buckets = []) ∧
    (∃ s' o, step env anyone open_.rev (.cancelRequests none 100 [2, 1]) = Except.ok (s', o) ∧ o.buckets = []) :=
  ⟨.cancel _ _ (List.Perm.swap 2 1 []), stepped (by decide +kernel), stepped (by decide +kernel)⟩

/-- … an update of two pairs, whose flags come out in the order of the set (finding k) … -/
example : Op.Same (.updatePairs [1, 2] none) (.updatePairs [2, 1] none) ∧
    (∃ s' o, step env anyone (after open_ [.tick 1040]) (.updatePairs [1, 2] none) = Except.ok (s', o) ∧ o.flags.length = 2) ∧
    (∃ s' o, step env anyone (after open_ [.tick 1040]).rev (.updatePairs [2, 1] none) = Except.ok (s', o) ∧ o.flags.length = 2) :=
  ⟨.pairs _ (fun x => by simp [or_comm]), stepped (by decide +kernel), stepped (by decide +kernel)⟩

/-- … a withdrawal request with its claims in either order, and an order with its effects in either order … -/
example : Op.Same (.removeCollateralRequest none 60 100 900 [(10, d 5), (BASE, d 1)])
      (.removeCollateralRequest none 60 100 900 [(BASE, d 1), (10, d 5)]) ∧
    (∃ s' o, step env anyone open_ (.removeCollateralRequest none 60 100 900 [(10, d 5), (BASE, d 1)]) = Except.ok (s', o) ∧
      o.indexes = [some 3]) ∧
    (∃ s' o, step env anyone open_.rev (.removeCollateralRequest none 60 100 900 [(BASE, d 1), (10, d 5)]) = Except.ok (s', o) ∧
      o.indexes = [some 3]) :=
  ⟨.withdraw _ _ _ _ (List.Perm.swap _ _ []), stepped (by decide +kernel), stepped (by decide +kernel)⟩
example : Op.Same (.marginOrderRequest none 100 (order 2 (d 3)) [.index 1, .index 2] [] STATUS_ACTIVE)
      (.marginOrderRequest none 100 (order 2 (d 3)) [.index 2, .index 1] [] STATUS_ACTIVE) ∧
    (∃ s' o, step env anyone open_ (.marginOrderRequest none 100 (order 2 (d 3)) [.index 1, .index 2] [] STATUS_ACTIVE) =
      Except.ok (s', o) ∧ o.indexes = [some 3]) ∧
    (∃ s' o, step env anyone open_.rev (.marginOrderRequest none 100 (order 2 (d 3)) [.index 2, .index 1] [] STATUS_ACTIVE) =
      Except.ok (s', o) ∧ o.indexes = [some 3]) :=
  ⟨.order _ _ _ _ (List.Perm.swap _ _ []) (.refl _), stepped (by decide +kernel), stepped (by decide +kernel)⟩

/-- … and a claim of a referral code. -/
example : (∃ s' o, step env anyone codes (.createAccount 300 none .allowAll [⟨BASE, d 1⟩] (some 1)) = Except.ok (s', o) ∧
      (s'.accounts.get 300).map (fun x => x.vb) = some (d 6)) ∧
    (∃ s' o, step env anyone codes.rev (.createAccount 300 none .allowAll [⟨BASE, d 1⟩] (some 1)) = Except.ok (s', o) ∧
      (s'.accounts.get 300).map (fun x => x.vb) = some (d 6)) := ⟨stepped (by decide +kernel), stepped (by decide +kernel)⟩

/-- `c62_account_details`, `c62_pair_details`, `c62_pool_details`: the reports exist on both, and the lists of collaterals
come in different orders. -/
example : (getAccountDetails open_ 100 10 none).toOption.map (fun x => (x.positions.length, x.requestsHistory.length)) = some (1, 3) ∧
    (getAccountDetails open_.rev 100 10 none).toOption.map (fun x => (x.positions.length, x.requestsHistory.length)) = some (1, 3) ∧
    (getPairDetails open_ [1, 2]).toOption.map (fun x => x.map (·.pair)) = some [1, 2] ∧
    (getPairDetails open_.rev [1, 2]).toOption.map (fun x => x.map (·.pair)) = some [1, 2] ∧
    (getPoolDetails open_).toOption.isSome := by decide +kernel

end Scn

end Perp
