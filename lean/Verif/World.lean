import Verif.Admin
import Verif.Ledger

/-!
# The components behind the exchange (C61)

The exchange keeps its state in separate components.  Anybody can address those components directly;
what keeps them consistent is that every state-changing method of theirs is `restrict_to: [authority]`,
a role that nobody can update and that asks for a proof of the authority token
(`rule!(require(AUTHORITY_RESOURCE))`), which lies in the exchange's vault.  This file models those
methods as callable by anyone, the roles of the fee delegator, and where the authority tokens are, and
shows that as long as the owner does not take the authority out, what the components contain is the
result of exchange calls only.
-/

namespace Perp

/-! ## The protected methods of the components -/

/-- `MarginPoolUpdates`: pool/src/margin_pool/structs.rs:44-51 -/
structure PoolUpdates where
  positions : AMap PairId PoolPosition
  vb : Dec
  unrealizedFunding : Dec
  skewAbsSnap : Dec
  pnlSnap : Dec

/-- `MarginPool::update`: margin_pool.rs:85-94 -/
def Pool.update (p : Pool) (u : PoolUpdates) : Pool where
  positions := u.positions.entries.foldl (fun m e => m.set e.1 e.2) p.positions
  baseTokens := p.baseTokens
  vb := u.vb
  unrealizedFunding := u.unrealizedFunding
  skewAbsSnap := u.skewAbsSnap
  pnlSnap := u.pnlSnap

/-- `MarginAccountUpdates`: account/src/margin_account/structs.rs:30-39 -/
structure AccountUpdates where
  positions : AMap PairId AccountPosition
  vb : Dec
  validStart : Nat
  requestAdditions : List KeeperRequest
  requestUpdates : AMap Nat KeeperRequest
  activeAdditions : List Nat
  activeRemovals : List Nat

/-- `MarginAccount::update`: margin_account.rs:138-161 -/
def Account.update (a : Account) (u : AccountUpdates) : R Account := do
  let positions := u.positions.entries.foldl
    (fun m e => if e.2.amount ≠ 0 then m.set e.1 e.2 else m.erase e.1) a.positions
  let active := if u.validStart > a.validStart then a.active.filter (fun i => i ≥ u.validStart)
                else a.active
  let requests ← u.requestUpdates.entries.foldlM requestUpdate (a.requests ++ u.requestAdditions)
  pure { a with
    positions
    vb := u.vb
    validStart := if u.validStart > a.validStart then u.validStart else a.validStart
    requests
    active := (active ∪ u.activeAdditions.toFinset) \ u.activeRemovals.toFinset }

/-- `MarginAccount::deposit_collateral_batch`: margin_account.rs:167-177 -/
def Account.depositBatch (a : Account) (bs : List Bucket) : R Account := do
  let ccb ← balanceAddBatch a.collateralBalances bs
  let vaults ← vaultPutBatch a.collateral bs
  pure { a with collateralBalances := ccb, collateral := vaults }

/-- `MarginAccount::withdraw_collateral_batch`: margin_account.rs:179-193 -/
def Account.withdrawBatch (env : Env) (a : Account) (claims : List (Res × Dec)) (st : Strategy) :
    R (Account × List Bucket) := do
  let (vaults, bs) ← vaultTakeBatch env st a.collateral claims
  let ccb ← balanceSubBatch a.collateralBalances bs
  pure ({ a with collateralBalances := ccb, collateral := vaults }, bs)

/-- The entries of a buffered map that are written back: virtual_margin_pool.rs:37,
virtual_margin_account.rs:69 -/
def AMap.only {K V : Type} [DecidableEq K] (m : AMap K V) (ids : List K) : AMap K V where
  entries := m.entries.filter (fun e => decide (e.1 ∈ ids))
  nodup := by
    have := m.nodup
    exact List.Nodup.sublist (List.Sublist.map _ List.filter_sublist) this

theorem foldl_filter_if {α β : Type} (p : α → Prop) [DecidablePred p] (f : β → α → β) :
    ∀ (l : List α) (b : β),
      (l.filter (fun e => decide (p e))).foldl f b = l.foldl (fun m e => if p e then f m e else m) b
  | [], _ => rfl
  | e :: l, b => by
    by_cases h : p e
    · simp only [List.filter_cons, h, decide_true, if_true, List.foldl_cons]
      exact foldl_filter_if p f l _
    · simp only [List.filter_cons, h, decide_false, if_false, List.foldl_cons, Bool.false_eq_true]
      exact foldl_filter_if p f l _

/-- What `VirtualLiquidityPool::realize` hands to `update`: virtual_margin_pool.rs:35-54 -/
def VPool.updates (v : VPool) : PoolUpdates :=
  ⟨v.positions.only v.updated, v.vb, v.unreal, v.skewSnap, v.pnlSnap⟩

/-- The buffered pool is written back by exactly the component's `update` method. -/
theorem pool_realize_update (v : VPool) : v.realize = v.comp.update v.updates := by
  simp only [VPool.realize, Pool.update, VPool.updates, VPool.realPositions, AMap.only]
  rw [foldl_filter_if (fun e : PairId × PoolPosition => e.1 ∈ v.updated)]

/-- What `VirtualMarginAccount::realize` hands to `update`: virtual_margin_account.rs:67-89 -/
def VAccount.updates (v : VAccount) : AccountUpdates :=
  ⟨v.positions.only v.positionsUpdated, v.vb, v.validStart, v.requestAdditions, v.requestUpdates,
    v.activeAdditions, v.activeRemovals⟩

/-- The buffered account is written back by exactly the component's `update` method. -/
theorem account_realize_update (v : VAccount) : v.realize = v.comp.update v.updates := by
  simp only [VAccount.realize, Account.update, VAccount.updates, VAccount.realPositions, AMap.only,
    VAccount.realActive]
  rw [foldl_filter_if (fun e : PairId × AccountPosition => e.1 ∈ v.positionsUpdated)]
  rfl

/-- The protected methods, called directly.  margin_pool.rs:24-30, margin_account.rs:17-42,
config.rs:27-31, fee_distributor.rs:16-18, fee_delegator.rs:26, referral_generator.rs:29-32,
permission_registry.rs:21, oracle.rs:23-24, and the burn rule of the fee oath
(fee_delegator.rs:61-64). -/
inductive Direct where
  | poolUpdate (u : PoolUpdates)
  | poolDeposit (b : Bucket)
  | poolWithdraw (amount : Dec) (st : Strategy)
  | accountNew (a : Addr) (l1 l2 l3 : Rule) (rid : Option RefId)
  | accountUpdate (a : Addr) (u : AccountUpdates)
  | accountReferral (a : Addr) (rid : Option RefId)
  | accountDeposit (a : Addr) (bs : List Bucket)
  | accountWithdraw (a : Addr) (claims : List (Res × Dec)) (st : Strategy)
  | accountLevel (a : Addr) (l : Level) (r : Rule)
  | configExchange (c : ExchangeConfig)
  | configPairs (cs : List PairConfig)
  | configCollaterals (cs : List (Res × CollateralConfig))
  | configRemove (r : Res)
  | distProtocol (x : Dec)
  | distTreasury (x : Dec)
  | distribute (protocol treasury : Dec)
  | delegatorBalance (x : Dec)
  | addAllocation (tokens : List Bucket) (rid : RefId) (claims : List (Res × Dec)) (count : Nat)
  | createCodes (tokens : List Bucket) (rid : RefId) (hashes : AMap Hash (List (Res × Dec) × Nat))
  | codesFromAllocation (rid : RefId) (index : Nat) (hashes : List Hash)
  | claimCode (h : Hash)
  | setPermissions (r : Rule) (p : Permissions)
  | oraclePush (u : PriceUpdate)
  | burnOath (b : Bucket)

/-- Calling a method of the account at an address. -/
def State.onAccount (s : State) (a : Addr) (f : Account → R Account) : R (State × Out) := do
  let acc ← expect (s.accounts.get a) .invalidMarginAccount
  let acc ← f acc
  pure ({ s with accounts := s.accounts.set a acc }, {})

/-- What the methods do once the role check has passed. -/
def Direct.run (env : Env) (s : State) : Direct → R (State × Out)
  | .poolUpdate u => pure ({ s with pool := s.pool.update u }, {})      -- margin_pool.rs:85-94
  | .poolDeposit b => do                                                  -- margin_pool.rs:96-98
      require (okBucket env s b && decide (b.res = BASE)) .badBucket
      let t ← dadd s.pool.baseTokens b.amt
      pure ({ s with pool := { s.pool with baseTokens := t } }, {})
  | .poolWithdraw x st => do                                              -- margin_pool.rs:100-102
      let y ← takeAmount (env.gran BASE) s.pool.baseTokens x st
      let t ← dsub s.pool.baseTokens y
      pure ({ s with pool := { s.pool with baseTokens := t } }, { buckets := [⟨BASE, y⟩] })
  | .accountNew a l1 l2 l3 rid => do                                      -- margin_account.rs:57-95
      require (!s.accounts.has a) .assertion
      let acc : Account := { Account.fresh l1 rid with level2 := l2, level3 := l3 }
      pure ({ s with accounts := s.accounts.set a acc }, {})
  | .accountUpdate a u => s.onAccount a (fun x => x.update u)             -- margin_account.rs:138-161
  | .accountReferral a rid =>                                             -- margin_account.rs:163-165
      s.onAccount a (fun x => pure { x with referralId := rid })
  | .accountDeposit a bs => do                                            -- margin_account.rs:167-177
      require (bs.all (okBucket env s)) .badBucket
      s.onAccount a (fun x => x.depositBatch bs)
  | .accountWithdraw a claims st => do                                    -- margin_account.rs:179-193
      let acc ← expect (s.accounts.get a) .invalidMarginAccount
      let (acc, bs) ← acc.withdrawBatch env claims st
      pure ({ s with accounts := s.accounts.set a acc }, { buckets := bs })
  | .accountLevel a l r => s.onAccount a (fun x => pure (x.setRule l r))  -- margin_account.rs:23-25
  | .configExchange c => do                                               -- config.rs:89-92
      let x ← s.config.updateExchange c
      pure ({ s with config := x }, {})
  | .configPairs cs => do                                                 -- config.rs:94-99
      let x ← s.config.updatePairs cs
      pure ({ s with config := x }, {})
  | .configCollaterals cs => do                                           -- config.rs:101-106
      let x ← s.config.updateCollaterals cs
      pure ({ s with config := x }, {})
  | .configRemove r => pure ({ s with config := s.config.removeCollateral r }, {})  -- config.rs:108-110
  | .distProtocol x => do                                                 -- fee_distributor.rs:48-51
      require (decide (0 ≤ x)) .assertion
      pure ({ s with dist := { s.dist with protocol := x } }, {})
  | .distTreasury x => do                                                 -- fee_distributor.rs:53-56
      require (decide (0 ≤ x)) .assertion
      pure ({ s with dist := { s.dist with treasury := x } }, {})
  | .distribute p t => do                                                 -- fee_distributor.rs:58-61
      let d ← s.dist.distribute p t
      pure ({ s with dist := d }, {})
  | .delegatorBalance x => do                                             -- fee_delegator.rs:114-117
      require (decide (0 ≤ x)) .assertion
      pure ({ s with delegator := { s.delegator with vb := x } }, {})
  | .addAllocation t rid cl n => do                                       -- referral_generator.rs:69-130
      require (t.all (okBucket env s)) .badBucket
      let (g, rest, i) ← s.refgen.addAllocation env t rid cl n
      pure ({ s with refgen := g }, { buckets := rest, indexes := [some i] })
  | .createCodes t rid h => do                                            -- referral_generator.rs:132-202
      require (t.all (okBucket env s)) .badBucket
      let (g, rest) ← s.refgen.createCodes env t rid h
      pure ({ s with refgen := g }, { buckets := rest })
  | .codesFromAllocation rid i h => do                                    -- referral_generator.rs:204-234
      let g ← s.refgen.codesFromAllocation rid i h
      pure ({ s with refgen := g }, {})
  | .claimCode h => do                                                    -- referral_generator.rs:236-248
      let (g, _, bs) ← s.refgen.claim env h
      pure ({ s with refgen := g }, { buckets := bs })
  | .setPermissions r p => pure ({ s with perms := s.perms.set r p }, {}) -- permission_registry.rs:46-48
  | .oraclePush u => do                                                   -- oracle.rs:87-89
      let o ← s.oracle.push env u
      pure ({ s with oracle := o }, {})
  | .burnOath b => do                                                     -- fee_delegator.rs:61-64
      require (decide (b.res = FEE_OATH)) .badBucket
      let s ← s.burnOath env b
      pure (s, { burnt := [b] })

/-! ## The roles of the fee delegator -/

/-- fee_delegator.rs:13-16 -/
inductive DRole where
  | admin | depositor | withdrawer | user
deriving DecidableEq

/-- The roles that let a call of the fee delegator through: fee_delegator.rs:23-30.  `owner` tells
whether the owner may call it as such. -/
def Op.delegatorRole : Op → Option (DRole × Bool)
  | .delegatorMaxLock _ | .delegatorMultiplier _ | .delegatorContingent _ => some (.admin, true)
  | .delegatorDeposit _ => some (.depositor, false)
  | .delegatorWithdraw _ => some (.withdrawer, false)
  | .lockFee _ => some (.user, false)
  | _ => none

/-! ## The whole ledger -/

/-- The components together with the authority tokens that are not in the exchange's vault and the
roles of the fee delegator (`none`: the role falls back to the component's owner). -/
structure World where
  st : State
  outside : Dec
  dRoles : DRole → Option Rule

/-- Who calls: as before, and whether a proof of the authority token is shown. -/
structure WCaller extends Caller where
  auth : Bool

/-- Everything that can be submitted. -/
inductive WCall where
  /-- a method of the exchange, the oracle, the fee delegator (`Verif.Step`), or the clock -/
  | call (op : Op)
  /-- a protected method of a component, called directly -/
  | direct (d : Direct)
  /-- assignment of a role of the fee delegator, by its owner: fee_delegator.rs:13-16 -/
  | assign (r : DRole) (rule : Rule)

/-- The rule a role of the fee delegator stands for: fee_delegator.rs:81-87. -/
def World.dRule (w : World) (r : DRole) : Rule := (w.dRoles r).getD w.st.delegatorOwner

/-- One call of a method of `Verif.Step`.  Calls of the fee delegator are let through by its roles,
the others as in `step`. -/
def callStep (env : Env) (cl : Caller) (w : World) (op : Op) : R (State × Out) :=
  match op.delegatorRole with
  | some (r, owner) => do
      require ((w.dRule r).sat cl.pf || (owner && w.st.delegatorOwner.sat cl.pf)) .role
      body env cl w.st op
  | none => step env cl w.st op

/-- Authority tokens outside the exchange after a call: exchange.rs:361-372.  What is deposited has
to come from there. -/
def outsideAfter (w : World) : Op → R Dec
  | .depositAuthority x => do
      require (decide (x ≤ w.outside)) .badBucket
      pure (w.outside - x)
  | .withdrawAuthority => pure (w.outside + w.st.authority)
  | _ => pure w.outside

/-- One call.  A protected method needs a proof of the authority token, which only somebody with
such a token can show. -/
def wstep (env : Env) (cl : WCaller) (w : World) : WCall → R (World × Out)
  | .call op => do
      let (s, o) ← callStep env cl.toCaller w op
      let x ← outsideAfter w op
      pure ({ w with st := s, outside := x }, o)
  | .direct d => do
      require (cl.auth && decide (1 ≤ w.outside)) .role
      let (s, o) ← d.run env w.st
      pure ({ w with st := s }, o)
  | .assign r rule => do
      require (w.st.delegatorOwner.sat cl.pf) .role
      pure ({ w with dRoles := fun x => if x = r then some rule else w.dRoles x }, {})

/-- Freshly instantiated components with `outside` authority tokens kept by somebody:
fee_delegator.rs:81-87 for the roles. -/
structure WGenesis (w : World) : Prop where
  st : Genesis w.st
  outside : 0 ≤ w.outside
  dRoles : w.dRoles = fun r => if r = .user then some .allowAll else none

/-- One world leads to another by calls none of which is the owner taking the authority out. -/
inductive Sealed (env : Env) (w : World) : World → Prop where
  | refl : Sealed env w w
  | step {w1 w2 : World} {cl : WCaller} {c : WCall} {o : Out} :
      Sealed env w w1 → c ≠ .call .withdrawAuthority → wstep env cl w1 c = Except.ok (w2, o) →
      Sealed env w w2

/-- Any history. -/
inductive WLater (env : Env) (w : World) : World → Prop where
  | refl : WLater env w w
  | step {w1 w2 : World} {cl : WCaller} {c : WCall} {o : Out} :
      WLater env w w1 → wstep env cl w1 c = Except.ok (w2, o) → WLater env w w2

/-! ## Proofs -/

/-- Calls of the fee delegator do the same whoever makes them. -/
theorem body_delegator {env : Env} {cl cl' : Caller} {s : State} {op : Op} {r : DRole × Bool}
    (h : op.delegatorRole = some r) : body env cl s op = body env cl' s op := by
  cases op <;> first | (cases h; done) | rfl

/-- Somebody can act as the owner of the fee delegator, unless its roles are still untouched. -/
def World.Owned (w : World) : Prop :=
  (∀ r, r ≠ .user → w.dRoles r = none) ∨ ∃ pf, w.st.delegatorOwner.sat pf = true

/-- What the world lets through is a call of `Verif.Step` by somebody. -/
theorem callStep_step {env : Env} {cl : Caller} {w : World} {op : Op} {r : State × Out}
    (hw : w.Owned) (h : callStep env cl w op = Except.ok r) :
    ∃ cl', step env cl' w.st op = Except.ok r := by
  unfold callStep at h
  cases hd : op.delegatorRole with
  | none => rw [hd] at h; exact ⟨cl, h⟩
  | some x =>
    obtain ⟨r0, owner⟩ := x
    rw [hd] at h
    simp only [bind_ok, require_ok, Bool.or_eq_true, Bool.and_eq_true] at h
    obtain ⟨⟨⟩, hr, hb⟩ := h
    have hex : ∃ cl' : Caller, checkOwner cl' w.st op = Except.ok () := by
      by_cases hu : r0 = .user
      · refine ⟨cl, ?_⟩
        subst hu
        cases op <;> simp only [Op.delegatorRole, Option.some.injEq, Prod.mk.injEq, reduceCtorEq,
          false_and] at hd
        rfl
      · have hs : ∃ pf, w.st.delegatorOwner.sat pf = true := by
          rcases hw with h0 | h0
          · rcases hr with h1 | h1
            · exact ⟨cl.pf, by simpa [World.dRule, h0 r0 hu] using h1⟩
            · exact ⟨cl.pf, h1.2⟩
          · exact h0
        obtain ⟨pf, hpf⟩ := hs
        refine ⟨⟨pf, cl.refs⟩, ?_⟩
        cases op <;> first | (cases hd; done) | skip
        all_goals simp only [checkOwner, Op.ownerRule, require_ok, hpf, pure_ok]
    obtain ⟨cl', ho⟩ := hex
    refine ⟨cl', step_ok.mpr ⟨?_, ho, ?_, ?_⟩⟩
    · cases op <;> first | (cases hd; done) | rfl
    · cases op <;> first | (cases hd; done) | rfl
    · rw [body_delegator (cl' := cl) hd]; exact hb

theorem callStep_body {env : Env} {cl : Caller} {w : World} {op : Op} {r : State × Out}
    (h : callStep env cl w op = Except.ok r) : body env cl w.st op = Except.ok r := by
  unfold callStep at h
  cases hd : op.delegatorRole with
  | none => rw [hd] at h; exact step_body h
  | some x =>
    rw [hd] at h
    simp only [bind_ok] at h
    obtain ⟨-, -, hb⟩ := h
    exact hb

/-- **C61.** A protected method of a component refuses everybody who shows no proof of the authority
token, and everybody while all authority tokens are in the exchange. -/
theorem c61_refused {env : Env} {cl : WCaller} {w : World} {d : Direct}
    (h : cl.auth = false ∨ w.outside = 0) : wstep env cl w (.direct d) = Except.error .role := by
  have : (cl.auth && decide (1 ≤ w.outside)) = false := by
    rcases h with h | h
    · simp [h]
    · simp [h]
  simp only [wstep, this]
  rfl

/-- The protected methods move no authority tokens and change no owner. -/
theorem direct_frame {env : Env} {s s' : State} {d : Direct} {o : Out}
    (h : d.run env s = Except.ok (s', o)) :
    s'.authority = s.authority ∧ s'.delegatorOwner = s.delegatorOwner ∧
      s'.oracleOwner = s.oracleOwner ∧ s'.roles = s.roles ∧ s'.now = s.now := by
  cases d <;> simp only [Direct.run, State.onAccount, State.burnOath, bind_ok, pure_ok, Prod.mk.injEq,
    Prod.exists] at h
  case poolUpdate => obtain ⟨rfl, -⟩ := h; exact ⟨rfl, rfl, rfl, rfl, rfl⟩
  case poolDeposit => obtain ⟨-, -, _, -, rfl, -⟩ := h; exact ⟨rfl, rfl, rfl, rfl, rfl⟩
  case poolWithdraw => obtain ⟨_, -, _, -, rfl, -⟩ := h; exact ⟨rfl, rfl, rfl, rfl, rfl⟩
  case accountNew => obtain ⟨-, -, rfl, -⟩ := h; exact ⟨rfl, rfl, rfl, rfl, rfl⟩
  case accountUpdate => obtain ⟨_, -, _, -, rfl, -⟩ := h; exact ⟨rfl, rfl, rfl, rfl, rfl⟩
  case accountReferral => obtain ⟨_, -, _, -, rfl, -⟩ := h; exact ⟨rfl, rfl, rfl, rfl, rfl⟩
  case accountDeposit => obtain ⟨-, -, _, -, _, -, rfl, -⟩ := h; exact ⟨rfl, rfl, rfl, rfl, rfl⟩
  case accountWithdraw => obtain ⟨_, -, _, _, -, rfl, -⟩ := h; exact ⟨rfl, rfl, rfl, rfl, rfl⟩
  case accountLevel => obtain ⟨_, -, _, -, rfl, -⟩ := h; exact ⟨rfl, rfl, rfl, rfl, rfl⟩
  case configExchange => obtain ⟨_, -, rfl, -⟩ := h; exact ⟨rfl, rfl, rfl, rfl, rfl⟩
  case configPairs => obtain ⟨_, -, rfl, -⟩ := h; exact ⟨rfl, rfl, rfl, rfl, rfl⟩
  case configCollaterals => obtain ⟨_, -, rfl, -⟩ := h; exact ⟨rfl, rfl, rfl, rfl, rfl⟩
  case configRemove => obtain ⟨rfl, -⟩ := h; exact ⟨rfl, rfl, rfl, rfl, rfl⟩
  case distProtocol => obtain ⟨-, -, rfl, -⟩ := h; exact ⟨rfl, rfl, rfl, rfl, rfl⟩
  case distTreasury => obtain ⟨-, -, rfl, -⟩ := h; exact ⟨rfl, rfl, rfl, rfl, rfl⟩
  case distribute => obtain ⟨_, -, rfl, -⟩ := h; exact ⟨rfl, rfl, rfl, rfl, rfl⟩
  case delegatorBalance => obtain ⟨-, -, rfl, -⟩ := h; exact ⟨rfl, rfl, rfl, rfl, rfl⟩
  case addAllocation => obtain ⟨-, -, _, _, _, -, rfl, -⟩ := h; exact ⟨rfl, rfl, rfl, rfl, rfl⟩
  case createCodes => obtain ⟨-, -, _, _, -, rfl, -⟩ := h; exact ⟨rfl, rfl, rfl, rfl, rfl⟩
  case codesFromAllocation => obtain ⟨_, -, rfl, -⟩ := h; exact ⟨rfl, rfl, rfl, rfl, rfl⟩
  case claimCode => obtain ⟨_, _, _, -, rfl, -⟩ := h; exact ⟨rfl, rfl, rfl, rfl, rfl⟩
  case setPermissions => obtain ⟨rfl, -⟩ := h; exact ⟨rfl, rfl, rfl, rfl, rfl⟩
  case oraclePush => obtain ⟨_, -, rfl, -⟩ := h; exact ⟨rfl, rfl, rfl, rfl, rfl⟩
  case burnOath => obtain ⟨-, -, _, ⟨-, -, rfl⟩, rfl, -⟩ := h; exact ⟨rfl, rfl, rfl, rfl, rfl⟩

/-- What a successful call of the world consists of. -/
theorem wstep_ok {env : Env} {cl : WCaller} {w w' : World} {c : WCall} {o : Out}
    (h : wstep env cl w c = Except.ok (w', o)) :
    (∃ op, c = .call op ∧ callStep env cl.toCaller w op = Except.ok (w'.st, o) ∧
      outsideAfter w op = Except.ok w'.outside ∧ w'.dRoles = w.dRoles) ∨
    (∃ d, c = .direct d ∧ cl.auth = true ∧ 1 ≤ w.outside ∧ d.run env w.st = Except.ok (w'.st, o) ∧
      w'.outside = w.outside ∧ w'.dRoles = w.dRoles) ∨
    (∃ r rule, c = .assign r rule ∧ w.st.delegatorOwner.sat cl.pf = true ∧ w'.st = w.st ∧
      w'.outside = w.outside ∧ w'.dRoles = (fun x => if x = r then some rule else w.dRoles x) ∧ o = {}) := by
  cases c with
  | call op =>
    simp only [wstep, bind_ok, pure_ok, Prod.mk.injEq, Prod.exists] at h
    obtain ⟨s, o', hc, x, hx, rfl, rfl⟩ := h
    exact .inl ⟨op, rfl, hc, hx, rfl⟩
  | direct d =>
    simp only [wstep, bind_ok, pure_ok, require_ok, Prod.mk.injEq, Prod.exists, Bool.and_eq_true,
      decide_eq_true_eq] at h
    obtain ⟨-, ⟨ha, hx⟩, s, o', hc, rfl, rfl⟩ := h
    exact .inr (.inl ⟨d, rfl, ha, hx, hc, rfl, rfl⟩)
  | assign r rule =>
    simp only [wstep, bind_ok, pure_ok, require_ok, Prod.mk.injEq] at h
    obtain ⟨-, ho, rfl, rfl⟩ := h
    exact .inr (.inr ⟨r, rule, rfl, ho, rfl, rfl, rfl, rfl⟩)

/-- **C61.** The authority tokens are in the exchange or outside, their number never changes, and
they leave the exchange only when its owner takes them out. -/
theorem c61_authority {env : Env} {cl : WCaller} {w w' : World} {c : WCall} {o : Out}
    (h : wstep env cl w c = Except.ok (w', o)) (h0 : 0 ≤ w.outside) (h0' : 0 ≤ w.st.authority) :
    w'.st.authority + w'.outside = w.st.authority + w.outside ∧ 0 ≤ w'.outside ∧
    0 ≤ w'.st.authority ∧
    (w.outside < w'.outside → c = .call .withdrawAuthority ∧ (w.st.roles .owner).sat cl.pf = true) := by
  rcases wstep_ok h with ⟨op, rfl, hc, hx, -⟩ | ⟨d, rfl, -, -, hr, hx, -⟩ | ⟨r, rule, rfl, -, hs, hx, -⟩
  · have hb := callStep_body hc
    have ha := (body_admin hb).authority
    by_cases h1 : ∃ x, op = .depositAuthority x
    · obtain ⟨x, rfl⟩ := h1
      simp only [outsideAfter, bind_ok, require_ok, pure_ok, decide_eq_true_eq] at hx
      obtain ⟨-, hle, hx⟩ := hx
      simp only [body, bind_ok, pure_ok, require_ok, decide_eq_true_eq, dadd_ok, Prod.mk.injEq] at hb
      obtain ⟨-, hpos, y, ⟨-, hy⟩, hs, -⟩ := hb
      have : w'.st.authority = w.st.authority + x := by rw [← hs]; exact hy.symm
      refine ⟨by omega, by omega, by omega, fun hlt => by omega⟩
    · by_cases h2 : op = .withdrawAuthority
      · subst h2
        simp only [outsideAfter, pure_ok] at hx
        simp only [body, pure_ok, Prod.mk.injEq] at hb
        have hz : w'.st.authority = 0 := by rw [← hb.1]
        have hrole : checkRole cl.toCaller w.st .withdrawAuthority = Except.ok () := by
          have : step env cl.toCaller w.st .withdrawAuthority = Except.ok (w'.st, o) := hc
          exact (step_ok.mp this).1
        simp only [checkRole, Op.role, require_ok] at hrole
        exact ⟨by omega, by omega, by omega, fun _ => ⟨rfl, hrole⟩⟩
      · have he : w'.st.authority = w.st.authority := by
          rcases ha with ha | ⟨x, hx, -⟩ | ⟨hx, -⟩
          · exact ha
          · exact absurd ⟨x, hx⟩ h1
          · exact absurd hx h2
        have hout : w'.outside = w.outside := by
          have : outsideAfter w op = Except.ok w.outside := by
            cases op <;> first | rfl | exact absurd ⟨_, rfl⟩ h1 | exact absurd rfl h2
          rw [this] at hx
          exact (Except.ok.inj hx).symm
        refine ⟨by omega, by omega, by omega, fun hlt => by omega⟩
  · have := (direct_frame hr).1
    refine ⟨by omega, by omega, by omega, fun hlt => by omega⟩
  · refine ⟨by rw [hs, hx], by omega, by rw [hs]; exact h0', fun hlt => by omega⟩

/-- Somebody can act as the owner of the fee delegator whenever its roles have been touched. -/
theorem owned_step {env : Env} {cl : WCaller} {w w' : World} {c : WCall} {o : Out}
    (hw : w.Owned) (h : wstep env cl w c = Except.ok (w', o)) : w'.Owned := by
  rcases wstep_ok h with ⟨op, rfl, hc, -, hd⟩ | ⟨d, rfl, -, -, hr, -, hd⟩ | ⟨r, rule, rfl, ho, hs, -, -, -⟩
  · have := (body_admin (callStep_body hc)).owners.2
    simpa only [World.Owned, hd, this] using hw
  · have := (direct_frame hr).2.1
    simpa only [World.Owned, hd, this] using hw
  · exact .inr ⟨cl.pf, by rw [hs]; exact ho⟩

theorem wlater_inv {env : Env} {w0 w : World} (hg : WGenesis w0) (h : WLater env w0 w) :
    w.Owned ∧ 0 ≤ w.outside ∧ 0 ≤ w.st.authority ∧
      w.st.authority + w.outside = w0.st.authority + w0.outside := by
  induction h with
  | refl =>
    exact ⟨.inl fun r hr => by rw [hg.dRoles]; simp [hr], hg.outside, hg.st.authority, rfl⟩
  | @step w1 w2 cl c o hs hstep ih =>
    obtain ⟨i1, i2, i3, i4⟩ := ih
    obtain ⟨a1, a2, a3, -⟩ := c61_authority hstep i2 i3
    exact ⟨owned_step i1 hstep, a2, a3, by omega⟩

theorem Sealed.later {env : Env} {w0 w : World} (h : Sealed env w0 w) : WLater env w0 w := by
  induction h with
  | refl => exact .refl
  | step _ _ hs ih => exact .step ih hs

/-- **C61.** In every history the number of authority tokens stays what it was. -/
theorem c61_conserved {env : Env} {w0 w : World} (hg : WGenesis w0) (h : WLater env w0 w) :
    w.st.authority + w.outside = w0.st.authority + w0.outside ∧ 0 ≤ w.outside ∧ 0 ≤ w.st.authority := by
  obtain ⟨-, h2, h3, h4⟩ := wlater_inv hg h
  exact ⟨h4, h2, h3⟩

/-- **C61.** In every history each successful call is a call of a public method, with the outcome
`step` gives it for some caller; or the assignment of a role of the fee delegator by its owner, which
leaves the components as they were; or a direct call of a protected method by somebody who shows an
authority token that is not in the exchange. -/
theorem c61_step {env : Env} {w0 w w' : World} (hg : WGenesis w0) (h : WLater env w0 w)
    {cl : WCaller} {c : WCall} {o : Out} (hstep : wstep env cl w c = Except.ok (w', o)) :
    (∃ op cl', c = .call op ∧ step env cl' w.st op = Except.ok (w'.st, o)) ∨
    (∃ r rule, c = .assign r rule ∧ w.st.delegatorOwner.sat cl.pf = true ∧ w'.st = w.st) ∨
    (∃ d, c = .direct d ∧ cl.auth = true ∧ 0 < w.outside) := by
  rcases wstep_ok hstep with ⟨op, rfl, hc, -, -⟩ | ⟨d, rfl, ha, hx, -⟩ | ⟨r, rule, rfl, ho, hs, -, -, -⟩
  · obtain ⟨cl', h'⟩ := callStep_step (wlater_inv hg h).1 hc
    exact .inl ⟨op, cl', rfl, h'⟩
  · exact .inr (.inr ⟨d, rfl, ha, by omega⟩)
  · exact .inr (.inl ⟨r, rule, rfl, ho, hs⟩)

/-- **C61.** Along every history in which the owner does not take the authority out, starting from
freshly instantiated components with all the authority in the exchange: no authority token is ever
outside, no protected method of a component ever lets anybody through, and the components hold what
some history of exchange, oracle and fee-delegator calls alone would have left there, so that
everything proved about reachable states holds of them. -/
theorem c61_sealed {env : Env} {w0 w : World} (hg : WGenesis w0) (h0 : w0.outside = 0)
    (h : Sealed env w0 w) :
    w.outside = 0 ∧ Reach env w.st ∧
    ∀ (cl : WCaller) (d : Direct), wstep env cl w (.direct d) = Except.error .role := by
  have key : w.outside = 0 ∧ Reach env w.st := by
    induction h with
    | refl => exact ⟨h0, .init hg.st⟩
    | @step w1 w2 cl c o hs hc hstep ih =>
      obtain ⟨i1, i2⟩ := ih
      obtain ⟨-, j2, j3, -⟩ := wlater_inv hg hs.later
      have hz : w2.outside = 0 := by
        obtain ⟨-, a2, -, a3⟩ := c61_authority hstep j2 j3
        by_contra hne
        exact hc (a3 (by omega)).1
      rcases c61_step hg hs.later hstep with ⟨op, cl', -, hst⟩ | ⟨r, rule, -, -, hst⟩ | ⟨d, -, -, hx⟩
      · exact ⟨hz, .step i2 hst⟩
      · exact ⟨hz, by rw [hst]; exact i2⟩
      · omega
  exact ⟨key.1, key.2, fun cl d => c61_refused (.inr key.1)⟩

/-- **C61**, for example C01: the ledger stays balanced whoever calls whatever component, as long as
the owner leaves the authority in the exchange. -/
theorem c61_ledger {env : Env} {w0 w : World} (hg : WGenesis w0) (h0 : w0.outside = 0)
    (h : Sealed env w0 w) :
    w.st.pool.vb + w.st.accounts.sum (fun _ a => a.vb) + w.st.dist.protocol + w.st.dist.treasury
      + w.st.referrals.sum (fun _ d => d.balance) + w.st.delegator.vb = w.st.oathSupply :=
  c01_ledger_zero_sum (c61_sealed hg h0 h).2.1

/-! ## The fee delegator's roles -/

/-- **C61.** Who may call the fee delegator: its settings need the admin role or the owner, money
goes in and out only through the depositor and withdrawer roles, fees are locked through the user
role, and a role is handed out by the owner only. -/
theorem c61_delegator {env : Env} {cl : WCaller} {w w' : World} {c : WCall} {o : Out}
    (h : wstep env cl w c = Except.ok (w', o)) :
    (∀ x, c = .call (.delegatorMaxLock x) ∨ c = .call (.delegatorMultiplier x) →
      (w.dRule .admin).sat cl.pf = true ∨ w.st.delegatorOwner.sat cl.pf = true) ∧
    (∀ b, c = .call (.delegatorContingent b) →
      (w.dRule .admin).sat cl.pf = true ∨ w.st.delegatorOwner.sat cl.pf = true) ∧
    (∀ x, c = .call (.delegatorDeposit x) → (w.dRule .depositor).sat cl.pf = true) ∧
    (∀ x, c = .call (.delegatorWithdraw x) → (w.dRule .withdrawer).sat cl.pf = true) ∧
    (∀ x, c = .call (.lockFee x) → (w.dRule .user).sat cl.pf = true) ∧
    (∀ r, w'.dRoles r ≠ w.dRoles r → w.st.delegatorOwner.sat cl.pf = true ∧
      ∃ rule, c = .assign r rule ∧ w'.dRoles r = some rule) := by
  have key : ∀ (op : Op) (r : DRole) (b : Bool), c = .call op → op.delegatorRole = some (r, b) →
      (w.dRule r).sat cl.pf = true ∨ (b = true ∧ w.st.delegatorOwner.sat cl.pf = true) := by
    rintro op r b rfl hop
    simp only [wstep, bind_ok, Prod.exists] at h
    obtain ⟨s, o', hc, -⟩ := h
    simp only [callStep, hop, bind_ok, require_ok, Bool.or_eq_true, Bool.and_eq_true] at hc
    obtain ⟨⟨⟩, hr, -⟩ := hc
    exact hr
  refine ⟨?_, ?_, ?_, ?_, ?_, ?_⟩
  · rintro x (hc | hc)
    · exact (key _ .admin true hc rfl).imp id (fun h => h.2)
    · exact (key _ .admin true hc rfl).imp id (fun h => h.2)
  · intro b hc
    exact (key _ .admin true hc rfl).imp id (fun h => h.2)
  · intro x hc
    exact (key _ .depositor false hc rfl).resolve_right (fun h => by cases h.1)
  · intro x hc
    exact (key _ .withdrawer false hc rfl).resolve_right (fun h => by cases h.1)
  · intro x hc
    exact (key _ .user false hc rfl).resolve_right (fun h => by cases h.1)
  · intro r hr
    rcases wstep_ok h with ⟨op, rfl, -, -, hd⟩ | ⟨d, rfl, -, -, -, -, hd⟩ | ⟨r', rule, rfl, ho, -, -, hd, -⟩
    · exact absurd (by rw [hd]) hr
    · exact absurd (by rw [hd]) hr
    · by_cases he : r = r'
      · subst he
        exact ⟨ho, rule, rfl, by rw [hd]; simp⟩
      · exact absurd (by rw [hd]; simp [he]) hr

end Perp
