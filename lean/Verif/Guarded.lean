import Verif.Admin
import Verif.Positions
import Verif.Tokens
import Verif.PriceProps
import Verif.Collecting

/-!
# Who may call what, and whose approval a change shows (C14, C40)

The table `Restricted` below is written from the `enable_method_auth!` block of the exchange
(exchange.rs:210-290) and the role tables of oracle and fee delegator, independently of the functions `Op.role`,
`Op.ownerRule` and `Role.userRole` by which the model checks a call.  The second half of the module does not mention
methods at all: it says whose approval a change of the state shows.
-/

namespace Perp

/-- The methods of the exchange that are restricted to a role: one line per method (specification of C40). -/
inductive Restricted : Op → Role → Prop
  | deposit_authority {x} : Restricted (.depositAuthority x) .owner
  | withdraw_authority : Restricted .withdrawAuthority .owner
  | signal_upgrade {a} : Restricted (.signalUpgrade a) .owner
  | update_exchange_config {c} : Restricted (.updateExchangeConfig c) .owner
  | update_pair_configs {c} : Restricted (.updatePairConfigs c) .owner
  | update_collateral_configs {c} : Restricted (.updateCollateralConfigs c) .owner
  | remove_collateral_config {r} : Restricted (.removeCollateralConfig r) .owner
  | collect_treasury : Restricted .collectTreasury .treasuryAdmin
  | collect_fee_delegator : Restricted .collectFeeDelegator .feeDelegatorAdmin
  | mint_referral {i f g m} : Restricted (.mintReferral i f g m) .referralAdmin
  | mint_referral_with_allocation {i f g m t c n} : Restricted (.mintReferralWithAllocation i f g m t c n) .referralAdmin
  | update_referral {i f g m} : Restricted (.updateReferral i f g m) .referralAdmin
  | add_referral_allocation {i t c n} : Restricted (.addReferralAllocation i t c n) .referralAdmin
  | swap_protocol_fee {b} : Restricted (.swapProtocolFee b) .protocolSwapUser
  | add_liquidity {b} : Restricted (.addLiquidity b) .liquidityUser
  | remove_liquidity {b} : Restricted (.removeLiquidity b) .liquidityUser
  | create_referral_codes {i t m} : Restricted (.createReferralCodes i t m) .referralUser
  | create_referral_codes_from_allocation {i n l} : Restricted (.createReferralCodesFromAllocation i n l) .referralUser
  | collect_referral_rewards {i} : Restricted (.collectReferralRewards i) .referralUser
  | create_account {a o r t c} : Restricted (.createAccount a o r t c) .accountCreationUser
  | create_recovery_key {o a} : Restricted (.createRecoveryKey o a) .accountManagementUser
  | add_auth_rule {o a l n} : Restricted (.addAuthRule o a l n) .accountManagementUser
  | set_level_auth {o a l r} : Restricted (.setLevelAuth o a l r) .accountManagementUser
  | add_collateral {o a t} : Restricted (.addCollateral o a t) .accountManagementUser
  | remove_collateral_request {o e a t c} : Restricted (.removeCollateralRequest o e a t c) .removeCollateralRequestUser
  | margin_order_request {o a g x y t} : Restricted (.marginOrderRequest o a g x y t) .marginOrderRequestUser
  | margin_order_tp_sl_request {o a g x y} : Restricted (.marginOrderTpSlRequest o a g x y) .marginOrderRequestUser
  | cancel_requests {o a l} : Restricted (.cancelRequests o a l) .cancelRequestUser
  | process_request {a i u} : Restricted (.processRequest a i u) .keeperProcess
  | swap_debt {a r b u} : Restricted (.swapDebt a r b u) .keeperSwapDebt
  | liquidate {a b u} : Restricted (.liquidate a b u) .keeperLiquidate
  | auto_deleverage {a p u} : Restricted (.autoDeleverage a p u) .keeperAutoDeleverage
  | update_pairs {l u} : Restricted (.updatePairs l u) .keeperUpdatePairs

/-- The caller satisfies the rule of a role. -/
def Caller.holds (cl : Caller) (s : State) (r : Role) : Prop := (s.roles r).sat cl.pf = true

/-- **C40, every method.** A restricted method goes through only for a caller who satisfies the rule the method's role has
at that moment. -/
theorem c40_methods {env : Env} {cl : Caller} {s s' : State} {op : Op} {o : Out} {r : Role}
    (h : step env cl s op = Except.ok (s', o)) (hr : Restricted op r) : cl.holds s r := by
  cases hr <;> exact c40_role_required h rfl

/-- The calls of oracle and fee delegator that only the owner of that component may make, with the rule of that owner. -/
inductive OwnersOnly (s : State) : Op → Rule → Prop
  | add_public_key {i k} : OwnersOnly s (.oracleAddKey i k) s.oracleOwner
  | remove_public_key {i} : OwnersOnly s (.oracleRemoveKey i) s.oracleOwner
  | remove_price {p} : OwnersOnly s (.oracleRemovePrice p) s.oracleOwner
  | set_max_lock {x} : OwnersOnly s (.delegatorMaxLock x) s.delegatorOwner
  | set_price_multiplier {x} : OwnersOnly s (.delegatorMultiplier x) s.delegatorOwner
  | set_contingent {b} : OwnersOnly s (.delegatorContingent b) s.delegatorOwner
  | deposit {x} : OwnersOnly s (.delegatorDeposit x) s.delegatorOwner
  | withdraw {x} : OwnersOnly s (.delegatorWithdraw x) s.delegatorOwner

/-- **C40, oracle and fee delegator.** Their administration goes through only for the owner of the component. -/
theorem c40_owners {env : Env} {cl : Caller} {s s' : State} {op : Op} {o : Out} {r : Rule}
    (h : step env cl s op = Except.ok (s', o)) (hr : OwnersOnly s op r) : r.sat cl.pf = true := by
  cases hr <;> exact c40_owner_required h rfl

/-- The roles that the user admin may assign besides the owner. -/
def userRoles : List Role :=
  [.protocolSwapUser, .liquidityUser, .referralUser, .accountCreationUser, .accountManagementUser,
   .removeCollateralRequestUser, .marginOrderRequestUser, .cancelRequestUser]

/-- **C40, assignment of roles.** Admin and keeper roles change only with the owner's approval, user roles only with the
owner's or the user admin's, and the owner's own rule never. -/
theorem c40_assignment {env : Env} {cl : Caller} {s s' : State} {op : Op} {o : Out} {r : Role}
    (h : step env cl s op = Except.ok (s', o)) (hr : s'.roles r ≠ s.roles r) :
    r ≠ .owner ∧ (cl.holds s .owner ∨ (r ∈ userRoles ∧ cl.holds s .userAdmin)) := by
  obtain ⟨h1, -, h2⟩ := c40_roles_change h hr
  refine ⟨h1, h2.imp id (fun ⟨h3, h4⟩ => ⟨?_, h4⟩)⟩
  cases r <;> first | (simp [userRoles]; done) | cases h3

/-! ## Whose approval a change shows -/

/-- **C40, configuration.** A configuration differs after a call only if the owner approved the call. -/
theorem c40_configuration {env : Env} {cl : Caller} {s s' : State} {op : Op} {o : Out}
    (h : step env cl s op = Except.ok (s', o)) (hc : s'.config ≠ s.config) : cl.holds s .owner := by
  rcases (body_admin (step_body h)).config with h1 | ⟨c, rfl, -⟩ | ⟨c, rfl, -⟩ | ⟨c, rfl, -⟩ | ⟨c, rfl, -⟩
  · exact absurd h1 hc
  all_goals exact c40_methods h (by constructor)

/-- **C40, authority.** The exchange gains or loses its authority only with the owner's approval. -/
theorem c40_authority {env : Env} {cl : Caller} {s s' : State} {op : Op} {o : Out}
    (h : step env cl s op = Except.ok (s', o)) (hc : s'.authority ≠ s.authority) : cl.holds s .owner := by
  rcases (body_admin (step_body h)).authority with h1 | ⟨c, rfl, -⟩ | ⟨rfl, -⟩
  · exact absurd h1 hc
  all_goals exact c40_methods h (by constructor)

/-- **C40, the owners of oracle and fee delegator never change.** -/
theorem c40_component_owners {env : Env} {cl : Caller} {s s' : State} {op : Op} {o : Out}
    (h : step env cl s op = Except.ok (s', o)) :
    s'.oracleOwner = s.oracleOwner ∧ s'.delegatorOwner = s.delegatorOwner ∧ s'.roles .owner = s.roles .owner := by
  obtain ⟨h1, h2⟩ := (body_admin (step_body h)).owners
  refine ⟨h1, h2, ?_⟩
  by_contra hn
  exact (c40_assignment h hn).1 rfl

/-- **C14, keys.** The keys under which price messages are accepted are those the oracle's owner has registered: a key
appears, changes or disappears only with that owner's approval. -/
theorem c14_keys {env : Env} {cl : Caller} {s s' : State} {op : Op} {o : Out} {id : Nat}
    (h : step env cl s op = Except.ok (s', o)) (hk : s'.oracle.keys.get id ≠ s.oracle.keys.get id) :
    s.oracleOwner.sat cl.pf = true ∧ ((∃ k, op = .oracleAddKey id k ∧ s'.oracle.keys.get id = some k) ∨
      (op = .oracleRemoveKey id ∧ s'.oracle.keys.get id = none)) := by
  rcases (body_admin (step_body h)).oracle with h1 | ⟨u, -, hp⟩ | ⟨i, k, rfl, he⟩ | ⟨i, rfl, he⟩ | ⟨p, rfl, he⟩
  · rw [h1] at hk; exact absurd rfl hk
  · obtain ⟨_, -, -, he⟩ := Oracle.push_ok hp
    rw [he] at hk; exact absurd rfl hk
  · simp only [Oracle.addKey, bind_ok, pure_ok, require_ok] at he
    obtain ⟨-, -, he⟩ := he
    rw [← he] at hk ⊢
    simp only [AMap.get_set] at hk ⊢
    split at hk
    · rename_i e
      subst e
      exact ⟨c40_owners h .add_public_key, .inl ⟨k, rfl, by simp⟩⟩
    · exact absurd rfl hk
  · rw [he] at hk ⊢
    simp only [Oracle.removeKey, AMap.get_erase] at hk ⊢
    split at hk
    · rename_i e
      subst e
      exact ⟨c40_owners h .remove_public_key, .inr ⟨rfl, by simp⟩⟩
    · exact absurd rfl hk
  · rw [he] at hk; exact absurd rfl hk

/-- **C40, accounts.** An account comes into being only with the approval of the account-creation role. -/
theorem c40_account_created {env : Env} {cl : Caller} {s s' : State} {op : Op} {o : Out} {a : Addr} {acc : Account}
    (h : step env cl s op = Except.ok (s', o)) (hn : s.accounts.get a = none) (hs : s'.accounts.get a = some acc) :
    cl.holds s .accountCreationUser := by
  have hb := step_body h
  have hop : op.account = some a := by
    by_contra hne
    rw [body_accounts hb a hne, hn] at hs; cases hs
  rcases body_account hb hop with ⟨lr, -, acc, hg⟩ | ⟨g, rule, rid, ⟨oath, t, c, rfl⟩, -, -⟩
  · rw [hn] at hg; cases hg
  · exact c40_methods h .create_account

/-- **C40, positions.** A position of an account differs after a call only if the caller holds the role of the keeper that
processes requests, that liquidates or that deleverages. -/
theorem c40_position_moved {env : Env} {cl : Caller} {s s' : State} {op : Op} {o : Out} {a : Addr} {acc acc' : Account}
    {p : PairId} (h0 : Reach env s) (h : step env cl s op = Except.ok (s', o)) (ha : s.accounts.get a = some acc)
    (ha' : s'.accounts.get a = some acc') (hp : acc'.positions.get p ≠ acc.positions.get p) :
    cl.holds s .keeperProcess ∨ cl.holds s .keeperLiquidate ∨ cl.holds s .keeperAutoDeleverage := by
  by_contra hn
  push Not at hn
  refine hp (c49_positions_moved_by h0 h ha ha' ?_ p)
  intro hm
  cases op <;> first
    | exact hn.1 (c40_methods h .process_request)
    | exact hn.2.1 (c40_methods h .liquidate)
    | exact hn.2.2 (c40_methods h .auto_deleverage)
    | exact hm

/-- **C40, the pool's book.** Open interest, skew and funding of a pair differ after a call only if the caller holds one of
the keeper roles. -/
theorem c40_book_moved {env : Env} {cl : Caller} {s s' : State} {op : Op} {o : Out}
    (h : step env cl s op = Except.ok (s', o))
    (hp : s'.pool.positions ≠ s.pool.positions ∨ s'.pool.unrealizedFunding ≠ s.pool.unrealizedFunding) :
    cl.holds s .keeperProcess ∨ cl.holds s .keeperLiquidate ∨ cl.holds s .keeperAutoDeleverage ∨
    cl.holds s .keeperUpdatePairs := by
  cases hm : op.marks with
  | false =>
    rw [body_pool_positions (step_body h) hm, body_pool_unreal (step_body h) hm] at hp
    simp at hp
  | true =>
    cases op <;> first
      | exact .inl (c40_methods h .process_request)
      | exact .inr (.inl (c40_methods h .liquidate))
      | exact .inr (.inr (.inl (c40_methods h .auto_deleverage)))
      | exact .inr (.inr (.inr (c40_methods h .update_pairs)))
      | cases hm

/-- The calls that touch the fee delegator. -/
def Op.ofDelegator : Op → Bool
  | .collectFeeDelegator | .lockFee _ | .delegatorMaxLock _ | .delegatorMultiplier _ | .delegatorContingent _
  | .delegatorDeposit _ | .delegatorWithdraw _ => true
  | _ => false

/-- What is the same after every call that is not about liquidity, referrals or the fee delegator. -/
structure Apart (s : State) (op : Op) (s' : State) : Prop where
  lp : s'.lpSupply = s.lpSupply ∨ (∃ b, op = .addLiquidity b) ∨ ∃ b, op = .removeLiquidity b
  delegator : s'.delegator = s.delegator ∨ op.ofDelegator = true
  issued : (∀ id, (s'.referrals.get id).isSome = (s.referrals.get id).isSome) ∨ Restricted op .referralAdmin

theorem body_apart {env : Env} {cl : Caller} {s s' : State} {op : Op} {o : Out} (h : body env cl s op = Except.ok (s', o)) :
    Apart s op s' := by
  have quiet : ∀ {s1 : State}, s1.lpSupply = s.lpSupply → s1.delegator = s.delegator → s1.referrals = s.referrals →
      Apart s op s1 := fun e1 e2 e3 => ⟨.inl e1, .inl e2, .inl fun id => by rw [e3]⟩
  have setRef : ∀ {s1 : State} {id : RefId} {d0 d1 : ReferralData}, s1.lpSupply = s.lpSupply → s1.delegator = s.delegator →
      s1.referrals = s.referrals.set id d1 → s.referrals.get id = some d0 → Apart s op s1 := by
    intro s1 id d0 d1 e1 e2 e3 hg
    refine ⟨.inl e1, .inl e2, .inl fun r => ?_⟩
    rw [e3]
    by_cases hq : id = r
    · subst hq
      rw [hg, AMap.get_set_self]; rfl
    · rw [AMap.get_set_ne _ _ hq]
  have accop : ∀ {s0 : State} {a : Addr} {lr : Option (Level × Rule)}, AccOp s0 a lr s' → s0.lpSupply = s.lpSupply →
      s0.delegator = s.delegator → s0.referrals = s.referrals → Apart s op s' := by
    intro s0 a lr hop e1 e2 e3
    cases hop with
    | mk o rw_ k hl hp hre =>
      refine ⟨.inl e1, .inl e2, .inl fun r => ?_⟩
      have hre := hre.2
      rw [e3] at hre
      simp only [State.realized]
      unfold VAccount.realizeReferral at hre
      split at hre
      · simp only [bind_ok, expect_ok, pure_ok] at hre
        obtain ⟨i, hi, d, hd, d0, hd0, rfl⟩ := hre
        by_cases hq : i = r
        · subst hq
          rw [AMap.get_set_self, hd0]; rfl
        · rw [AMap.get_set_ne _ _ hq]
      · simp only [pure_ok] at hre
        rw [hre]
  have acct : ∀ a, op.account = some a → Apart s op s' := by
    intro a ha
    rcases body_account h ha with ⟨lr, hop, -⟩ | ⟨g, rule, rid, -, -, hop⟩
    · exact accop hop rfl rfl rfl
    · exact accop hop rfl rfl rfl
  cases op with
  | collectTreasury => obtain ⟨pool, x, hp, rfl, -⟩ := collectTreasury_ok h; exact quiet rfl rfl rfl
  | collectFeeDelegator =>
    obtain ⟨pool, x, hp, rfl, -⟩ := collectFeeDelegator_ok h
    exact ⟨.inl rfl, .inr rfl, .inl fun _ => rfl⟩
  | swapProtocolFee b =>
    obtain ⟨cfg, pool, x, burn, -, -, -, -, hp, rfl, -⟩ := swapProtocolFee_ok h
    exact quiet rfl rfl rfl
  | collectReferralRewards id =>
    obtain ⟨d, pool, x, -, hd, hp, rfl, -⟩ := collectReferralRewards_ok h
    exact setRef rfl rfl rfl hd
  | mintReferral id a b m =>
    simp only [body, bind_ok, pure_ok, Prod.mk.injEq] at h
    obtain ⟨s1, hm, rfl, -⟩ := h
    obtain ⟨h1, h2, hn, rfl⟩ := mintReferral_ok hm
    exact ⟨.inl rfl, .inl rfl, .inr .mint_referral⟩
  | mintReferralWithAllocation id a b m t c n =>
    simp only [body, mintReferralWithAllocation, bind_ok] at h
    obtain ⟨s1, hm, h⟩ := h
    obtain ⟨h1, h2, hn, rfl⟩ := mintReferral_ok hm
    obtain ⟨cfg, s2, g, rest, i, -, hok, hg, ha, rfl, -⟩ := addReferralAllocation_ok h
    obtain ⟨d, hd, hle, -, rfl⟩ := grantReferrals_ok hg
    exact ⟨.inl rfl, .inl rfl, .inr .mint_referral_with_allocation⟩
  | updateReferral id a b m =>
    simp only [body, bind_ok, pure_ok, Prod.mk.injEq] at h
    obtain ⟨s1, hm, rfl, -⟩ := h
    rcases updateReferral_ok hm with rfl | ⟨d, hd, ha, hb, rfl⟩
    · exact quiet rfl rfl rfl
    exact setRef rfl rfl rfl hd
  | addReferralAllocation id t c n =>
    obtain ⟨cfg, s2, g, rest, i, -, hok, hg, ha, rfl, -⟩ := addReferralAllocation_ok h
    obtain ⟨d, hd, hle, -, rfl⟩ := grantReferrals_ok hg
    exact setRef rfl rfl rfl hd
  | addLiquidity b =>
    obtain ⟨cfg, fee, lp, price, hc, hb, -, hfee, -, hm, rfl, -⟩ := opAddLiquidity_ok h
    exact ⟨.inr (.inl ⟨_, rfl⟩), .inl rfl, .inl fun _ => rfl⟩
  | removeLiquidity b =>
    obtain ⟨cfg, price, value, fee, x, hc, hb, hres, hs0, hpr, hval, hfee, -, ht, rfl, -⟩ := opRemoveLiquidity_ok h
    exact ⟨.inr (.inr ⟨_, rfl⟩), .inl rfl, .inl fun _ => rfl⟩
  | createReferralCodes id t hs =>
    obtain ⟨cfg, n, s1, g, rest, -, -, hok, hn, hg, ha, rfl, -⟩ := createReferralCodes_ok h
    obtain ⟨d, hd, hle, -, rfl⟩ := grantReferrals_ok hg
    exact setRef rfl rfl rfl hd
  | createReferralCodesFromAllocation id i hs =>
    simp only [body, bind_ok, pure_ok, Prod.mk.injEq] at h
    obtain ⟨s1, hm, rfl, -⟩ := h
    obtain ⟨g, -, hf, rfl⟩ := createReferralCodesFromAllocation_ok hm
    exact quiet rfl rfl rfl
  | updatePairs ids u =>
    obtain ⟨s1, c, pool, flags, n, hk, hx, -, rfl, -⟩ := opUpdatePairs_ok h
    obtain ⟨-, -, -, -, -, -, hs1⟩ := keeperLoad_ok hk
    rw [hs1]
    exact quiet rfl rfl rfl
  | lockFee x =>
    obtain ⟨value, -, -, -, h1, hle, rfl, -⟩ := lockFee_ok h
    exact ⟨.inl rfl, .inr rfl, .inl fun _ => rfl⟩
  | setRole r rule =>
    simp only [body, bind_ok, pure_ok, Prod.mk.injEq] at h
    obtain ⟨s1, hm, rfl, -⟩ := h
    obtain ⟨-, -, rfl⟩ := setRole_ok hm
    exact quiet rfl rfl rfl
  | delegatorMaxLock x =>
    simp only [body, bind_ok, pure_ok, Prod.mk.injEq] at h
    obtain ⟨_, hd, rfl, -⟩ := h
    exact ⟨.inl rfl, .inr rfl, .inl fun _ => rfl⟩
  | delegatorMultiplier x =>
    simp only [body, bind_ok, pure_ok, Prod.mk.injEq] at h
    obtain ⟨_, hd, rfl, -⟩ := h
    exact ⟨.inl rfl, .inr rfl, .inl fun _ => rfl⟩
  | delegatorContingent x =>
    simp only [body, pure_ok, Prod.mk.injEq] at h
    obtain ⟨rfl, -⟩ := h
    exact ⟨.inl rfl, .inr rfl, .inl fun _ => rfl⟩
  | delegatorDeposit x =>
    simp only [body, bind_ok, pure_ok, Prod.mk.injEq] at h
    obtain ⟨_, hd, rfl, -⟩ := h
    exact ⟨.inl rfl, .inr rfl, .inl fun _ => rfl⟩
  | delegatorWithdraw x =>
    simp only [body, bind_ok, pure_ok, Prod.mk.injEq] at h
    obtain ⟨⟨_, _⟩, hd, rfl, -⟩ := h
    exact ⟨.inl rfl, .inr rfl, .inl fun _ => rfl⟩
  | _ =>
    first
    | exact acct _ rfl
    | (simp only [body, bind_ok, pure_ok, require_ok, Prod.mk.injEq] at h
       first
       | (obtain ⟨rfl, -⟩ := h; exact quiet rfl rfl rfl)
       | (obtain ⟨_, -, rfl, -⟩ := h; exact quiet rfl rfl rfl)
       | (obtain ⟨-, -, _, -, rfl, -⟩ := h; exact quiet rfl rfl rfl))

/-- **C40, LP tokens.** LP tokens are minted or burnt only with the approval of the liquidity role. -/
theorem c40_lp_supply {env : Env} {cl : Caller} {s s' : State} {op : Op} {o : Out}
    (h : step env cl s op = Except.ok (s', o)) (hc : s'.lpSupply ≠ s.lpSupply) : cl.holds s .liquidityUser := by
  rcases (body_apart (step_body h)).lp with h1 | ⟨b, rfl⟩ | ⟨b, rfl⟩
  · exact absurd h1 hc
  all_goals exact c40_methods h (by constructor)

/-- **C40, referrals.** A referral is issued only with the approval of the referral admin. -/
theorem c40_referral_issued {env : Env} {cl : Caller} {s s' : State} {op : Op} {o : Out} {id : RefId} {d : ReferralData}
    (h : step env cl s op = Except.ok (s', o)) (hn : s.referrals.get id = none) (hs : s'.referrals.get id = some d) :
    cl.holds s .referralAdmin := by
  rcases (body_apart (step_body h)).issued with h1 | h1
  · have := h1 id
    rw [hn, hs] at this; cases this
  · exact c40_methods h h1

/-- **C40, fee delegator.** The settings of the fee delegator change only with its owner's approval, and so does the amount
of fee tokens it holds unless a fee was locked. -/
theorem c40_delegator {env : Env} {cl : Caller} {s s' : State} {op : Op} {o : Out}
    (h : step env cl s op = Except.ok (s', o)) :
    (s'.delegator.maxLock ≠ s.delegator.maxLock ∨ s'.delegator.priceMultiplier ≠ s.delegator.priceMultiplier ∨
        s'.delegator.isContingent ≠ s.delegator.isContingent → s.delegatorOwner.sat cl.pf = true) ∧
    (s'.delegator.vault ≠ s.delegator.vault → s.delegatorOwner.sat cl.pf = true ∨
      ∃ x, op = .lockFee x ∧ s'.delegator.vault = s.delegator.vault - x) := by
  have hb := step_body h
  rcases (body_apart hb).delegator with h1 | h1
  · rw [h1]; simp
  · cases op <;> first | (cases h1; done) | skip
    case collectFeeDelegator =>
      obtain ⟨pool, x, hp, rfl, -⟩ := collectFeeDelegator_ok hb
      simp
    case lockFee x =>
      obtain ⟨value, -, -, -, -, hle, rfl, -⟩ := lockFee_ok hb
      exact ⟨by simp, fun _ => .inr ⟨x, rfl, rfl⟩⟩
    all_goals
      have := c40_owners h (by constructor)
      exact ⟨fun _ => this, fun _ => .inl this⟩

end Perp
