import Verif.Executes

/-!
# Every refusal has its reason, for the calls of the account holder (C54)

The first part of C54 (`Verif.Reasons` and its successors) is about the keeper methods.  Here are the methods an account holder
calls: for each error the fact about the state and the arguments that justifies it.
-/

namespace Perp

/-! ## Fee oaths -/

/-- A fee oath needs a price for each of the pairs `ids`, however old, and one for every collateral in the configuration, not
older than the age of the collateral. -/
def State.OathNeeds (s : State) (ids : List PairId) (p : PairId) (age : Int) : Prop :=
  (p ∈ ids ∧ age = I64MAX) ∨ ∃ r cc, s.config.collaterals.get r = some cc ∧ cc.pairId = p ∧ cc.priceAgeMax = age

/-- **Specification.** Why prices can be refused when a fee oath is paid. -/
def OathPricesRefused (s : State) (ids : List PairId) : Err → Prop
  | .missingPair => ∃ p age, s.OathNeeds ids p age ∧ s.oracle.prices.get p = none
  | .invalidPrice => ∃ p age x t, s.OathNeeds ids p age ∧ s.oracle.prices.get p = some (x, t) ∧ x ≤ 0
  | .priceTooOld => ∃ p age x t, s.OathNeeds ids p age ∧ s.oracle.prices.get p = some (x, t) ∧ age ≤ s.now - t
  | .arithmetic => True
  | _ => False

/-- **Specification.** Why the oath `b` for an account in the condition `acc` (everything else done, the oath not paid yet) can
be refused: it is not an oath, there are no such tokens, the account could not afford it, or a price is not in order. -/
def OathRefused (env : Env) (s : State) (acc : Account) (b : Bucket) (ids : List PairId) : Err → Prop
  | .invalidFeeOath => b.res ≠ FEE_OATH
  | .badBucket => okBucket env s b = false
  | .insufficientMargin =>
      s.accountValue { acc with vb := acc.vb - b.amt } < s.initialMargin { acc with vb := acc.vb - b.amt }
  | e => OathPricesRefused s ids e

theorem oathLoad_fails {env : Env} {s : State} {ids : List PairId}
    (hc : ∀ p ∈ ids, ∃ x, s.config.pairs.get p = some x) : Fails (OathPricesRefused s ids) (oathLoad env s ids) := by
  unfold oathLoad
  refine fails_bind (fails_of_ok (VConfig.new_total hc)) (fun cfg hcfg => ?_)
  obtain ⟨-, hcolls, hpairs, -⟩ := VConfig.new_ok hcfg
  have key : ∀ p b, (mergeFeeds (pairFeedsNoMaxAge ids) cfg.colls).get p = some b → s.OathNeeds ids p b := by
    intro p b hb
    rcases mergeFeedsL_from _ _ _ _ hb with h | ⟨e, he, rfl, rfl⟩
    · unfold pairFeedsNoMaxAge at h
      rw [AMap.get_build] at h
      split at h
      · rename_i hin; cases h; exact Or.inl ⟨hin, rfl⟩
      · cases h
    · have hg := AMap.get_mem he
      rw [hcolls, AMap.get_mapV] at hg
      cases hr : s.config.collaterals.get e.1 with
      | none => rw [hr] at hg; cases hg
      | some cc =>
        rw [hr] at hg
        simp only [Option.map_some, Option.some.injEq] at hg
        exact Or.inr ⟨e.1, cc, hr, by rw [← hg]; rfl, by rw [← hg]; rfl⟩
  refine fails_bind ?_ (fun _ _ => fails_pure _)
  unfold VOracle.new
  refine fails_bind (fails_pure _) (fun o ho => ?_)
  have hpr : o = s.oracle := by simp only [Oracle.maybePush, pure_ok] at ho; exact ho.symm
  subst hpr
  refine fails_bind ?_ (fun raw hraw => ?_)
  · refine fails_buildM (fun p hp => fails_expect (fun h => ?_))
    obtain ⟨b, hb⟩ := AMap.mem_keys.mp hp
    exact ⟨p, b, key p b hb, h⟩
  refine fails_bind (fails_buildM (fun p hp => ?_)) (fun _ _ => fails_pure _)
  obtain ⟨b, hb⟩ := AMap.mem_keys.mp hp
  have hg : ∃ v, raw.get p = some v ∧ s.oracle.prices.get p = some v := by
    obtain ⟨v, hv, hg⟩ := (AMap.buildM_ok hraw).1 p hp
    rw [expect_ok] at hv
    exact ⟨v, hg, hv⟩
  obtain ⟨⟨x, t⟩, hg, hst⟩ := hg
  unfold checkPrice
  rw [hg, hb]
  refine fails_bind (fails_of_ok ⟨_, rfl⟩) (fun y hy => ?_)
  cases hy
  refine fails_bind (fails_of_ok ⟨_, rfl⟩) (fun y hy => ?_)
  cases hy
  refine fails_bind ((errs_addSeconds (l := arith) (by decide) _ _).arithmetic trivial) (fun m hm => ?_)
  rw [addSeconds_ok] at hm
  have hm := hm.2
  refine fails_bind (fails_check (fun h => ?_)) (fun _ _ => fails_bind (fails_check (fun h => ?_)) (fun _ _ => fails_pure _))
  · exact ⟨p, b, x, t, key p b hb, hst, by simp only at h; omega⟩
  · exact ⟨p, b, x, t, key p b hb, hst, by simp only at h; omega⟩

theorem OathRefused.of_prices {env : Env} {s : State} {acc : Account} {b : Bucket} {ids : List PairId} {e : Err}
    (h : OathPricesRefused s ids e) : OathRefused env s acc b ids e := by
  cases e <;> first | exact h | exact False.elim h

/-- Paying the oath: `v` stands for the account `acc` of the state `s`. -/
theorem settleFeeOath_fails {env : Env} {s : State} {ids : List PairId} {c : Ctx} {pool0 pool : VPool} {v : VAccount}
    {acc : Account} {b : Bucket} (hl : oathLoad env s ids = Except.ok (c, pool0)) (hp : pool.positions = pool0.positions)
    (hids : ∀ p ∈ v.positions.keys, p ∈ ids) (e1 : acc.positions = v.positions)
    (e2 : acc.collateralBalances = v.collateralBalances) (e3 : acc.vb = v.vb) (e4 : s.rebateOf acc = v.rebate) :
    Fails (OathRefused env s acc b ids) (settleFeeOath c pool v b) := by
  obtain ⟨hr, hh⟩ := oathLoad_ready hl
  have hf : c.Feeds := (VOracle.new_ok (oathLoad_ok hl).2.2.2.1).1
  unfold settleFeeOath
  refine fails_bind (fails_check (fun h => h)) (fun _ _ => ?_)
  refine fails_bind ((errs_dneg (l := arith) (by decide) _).arithmetic trivial) (fun n hn => ?_)
  refine fails_bind ((addVb_errs _ _).arithmetic trivial) (fun v1 hv1 => ?_)
  rw [dneg_ok] at hn
  obtain ⟨-, rfl⟩ := hn
  simp only [VAccount.addVb, bind_ok, pure_ok, dadd_ok] at hv1
  obtain ⟨_, ⟨-, rfl⟩, rfl⟩ := hv1
  refine fails_bind (assertAccountIntegrity_fails (ids := ids) hr hf ?_ hids trivial (fun h1 h2 h3 => ?_))
    (fun _ _ => fails_pure _)
  · unfold VPool.Has; rw [hp]; exact hh
  · have ha := oath_agree hl hp (s' := s) rfl rfl rfl rfl h1 h2
    rw [ha.margin, ha.value] at h3
    change s.accountValue _ < s.initialMargin _
    unfold State.accountValue State.initialMargin
    have e5 : s.rebateOf { acc with vb := acc.vb - b.amt } = v.rebate := e4
    rw [e5, e1, e2, e3, sub_eq_add_neg]
    exact h3

/-! ## Calls of the account holder -/

/-- **Specification.** Why a call of the account holder at level `lv` can be refused: there is no such account, the caller does
not satisfy the rule of the level, the fee oath is refused, or the request itself (`Q`). -/
def HolderRefused (env : Env) (cl : Caller) (s : State) (a : Addr) (oath : Option Bucket) (lv : Level)
    (ids : Account → List PairId) (Q : Account → Err → Prop) (e : Err) : Prop :=
  (e = .invalidMarginAccount ∧ s.accounts.get a = none) ∨ ∃ acc, s.accounts.get a = some acc ∧
    ((e = .role ∧ (acc.rule lv).sat cl.pf = false) ∨ (∃ b, oath = some b ∧ OathRefused env s acc b (ids acc) e) ∨ Q acc e)

theorem load_fails_holder {env : Env} {s : State} (h : Reach env s) (a : Addr) :
    Fails (fun e => e = Err.invalidMarginAccount ∧ s.accounts.get a = none) (s.load a) := by
  intro e he
  refine ⟨?_, ?_⟩
  · have := load_errs h a e he
    simpa using this
  · cases hg : s.accounts.get a with
    | none => rfl
    | some acc =>
      obtain ⟨v, hv⟩ := State.load_total h hg
      rw [hv] at he; cases he

theorem payOath_fails {env : Env} {s : State} {a : Addr} {v : VAccount} {acc : Account} {oath : Option Bucket}
    {ids plain : List PairId} {P : Err → Prop} (hv : s.load a = Except.ok v) (ha : s.accounts.get a = some acc)
    (hids : ∀ p ∈ v.positions.keys, p ∈ ids)
    (hcfg : Fails P (VConfig.new s.config ids)) (hplain : Fails P (VConfig.new s.config plain))
    (ho : ∀ b e, oath = some b → OathRefused env s acc b ids e → P e) :
    Fails P (payOath env s v oath ids plain) := by
  unfold payOath
  cases oath with
  | none => exact fails_bind hplain (fun _ _ => fails_pure _)
  | some b =>
    simp only
    refine fails_bind ?_ (fun x hx => ?_)
    · cases hc : VConfig.new s.config ids with
      | error e =>
        intro e' he'
        unfold oathLoad at he'
        rw [hc] at he'
        cases he'
        exact hcfg e hc
      | ok cfg =>
        refine (oathLoad_fails (fun p hp => ?_)).mono (fun e he => ho b e rfl (.of_prices he))
        obtain ⟨x, hx, -⟩ := (VConfig.new_ok hc).2.2.1 p hp; exact ⟨x, hx⟩
    · obtain ⟨c, pool⟩ := x
      have hreb := load_rebateOf hv ha
      obtain ⟨acc', rd, ha', -, hv'⟩ := load_ok hv
      rw [ha] at ha'; cases ha'
      refine fails_bind ((settleFeeOath_fails hx rfl hids (by rw [hv']) (by rw [hv']) (by rw [hv']) hreb).mono
        (fun e he => ho b e rfl he)) (fun _ _ => ?_)
      unfold State.burnOath
      exact fails_bind (fails_bind (fails_require (fun h => ho b _ rfl h)) (fun _ _ => fails_pure _)) (fun _ _ => fails_pure _)

/-- The account methods, up to the request itself. -/
theorem holder_fails {env : Env} {cl : Caller} {s : State} (h : Reach env s) {a : Addr} {oath : Option Bucket} {lv : Level}
    {ids : List PairId → List PairId} {plain : List PairId} {Q : Account → Err → Prop} {α : Type}
    {f : State × VAccount × VConfig → R α} (hids : ∀ l, ∀ p ∈ l, p ∈ ids l)
    (hcfg : ∀ acc, s.accounts.get a = some acc → Fails (Q acc) (VConfig.new s.config (ids acc.positions.keys)))
    (hplain : ∀ acc, Fails (Q acc) (VConfig.new s.config plain))
    (hf : ∀ s1 v1 cfg v acc, s.accounts.get a = some acc → s.load a = Except.ok v →
      payOath env s v oath (ids v.positionIds) plain = Except.ok (s1, v1, cfg) → RInv v1 → RefOk s1.referrals v1 →
      Fails (Q acc) (f (s1, v1, cfg))) :
    Fails (HolderRefused env cl s a oath lv (fun acc => ids acc.positions.keys) Q)
      (s.load a >>= fun v => verifyLevel cl v lv >>= fun _ => payOath env s v oath (ids v.positionIds) plain >>= f) := by
  refine fails_bind ((load_fails_holder h a).mono (fun e he => Or.inl he)) (fun v hv => ?_)
  obtain ⟨acc, rd, ha, -, hv'⟩ := load_ok hv
  have hpos : v.positionIds = acc.positions.keys := by rw [hv']; rfl
  refine fails_bind (fails_require (fun hn => Or.inr ⟨acc, ha, Or.inl ⟨rfl, ?_⟩⟩)) (fun _ _ => ?_)
  · rw [hv'] at hn; exact hn
  refine fails_bind ?_ (fun x hx => ?_)
  · rw [hpos]
    refine payOath_fails hv ha ?_ ((hcfg acc ha).mono (fun e he => Or.inr ⟨acc, ha, Or.inr (Or.inr he)⟩))
      ((hplain acc).mono (fun e he => Or.inr ⟨acc, ha, Or.inr (Or.inr he)⟩))
      (fun b e hb he => Or.inr ⟨acc, ha, Or.inr (Or.inl ⟨b, hb, he⟩)⟩)
    intro p hp
    refine hids _ p ?_
    rw [← hpos]; exact hp
  · obtain ⟨s1, v1, cfg⟩ := x
    obtain ⟨hs1, hv1, -⟩ := payOath_frame hx
    refine (hf s1 v1 cfg v acc ha hv hx ?_ ?_).mono (fun e he => Or.inr ⟨acc, ha, Or.inr (Or.inr he)⟩)
    · refine rinv_congr ?_ (load_rinv hv (reach_requestsOk h)).1
      rw [hv1]; rfl
    · have := load_refOk hv
      rw [hs1, hv1]; exact this

/-- The time `delay` and the time until the expiry, added to the current time, leave the range of 64-bit integers. -/
def TimeOverflow (now : Int) (delay expiry : Nat) : Prop :=
  ¬ (I64MIN ≤ now + u64AsI64 delay ∧ now + u64AsI64 delay ≤ I64MAX) ∨
  ¬ (I64MIN ≤ now + u64AsI64 delay + u64AsI64 expiry ∧ now + u64AsI64 delay + u64AsI64 expiry ≤ I64MAX)

/-- **Specification.** Why changing the rules of an account can be refused beyond the reasons every call of the holder has. -/
def NoReason (_ : Account) (_ : Err) : Prop := False

/-- **Specification.** Why `add_auth_rule` can be refused. -/
def LevelRefused (level : Nat) (_ : Account) : Err → Prop
  | .invalidLevel => level ≠ 1 ∧ level ≠ 2 ∧ level ≠ 3
  | _ => False

/-- **Specification.** Why a withdrawal request can be refused: more than ten claims, or one pending request too many. -/
def RemovalRefused (s : State) (claims : List (Res × Dec)) (expiry : Nat) (acc : Account) : Err → Prop
  | .claimsTooMany => 10 < claims.length
  | .activeTooMany => s.config.exchange.decompress.activeRequestsMax < acc.active.card + 1
  | .arithmetic => TimeOverflow s.now 0 expiry
  | _ => False

/-- **Specification.** Why an order request can be refused: the pair does not exist, the order is too small, it names too many
other requests, it has neither of the two initial states, or it is one pending request too many. -/
def OrderRequestRefused (s : State) (o : OrderArgs) (activate cancel : List RequestIndexRef) (status : Status)
    (acc : Account) : Err → Prop
  | .missingPairConfig => s.config.pairs.get o.pair = none
  | .tradeSizeMin => |o.amount| < (s.market.pair o.pair).tradeSizeMin
  | .effectedTooMany => 2 < activate.length ∨ 2 < cancel.length
  | .invalidStatus => status ≠ STATUS_ACTIVE ∧ status ≠ STATUS_DORMANT
  | .activeTooMany => s.config.exchange.decompress.activeRequestsMax < acc.active.card + 1
  | .arithmetic => TimeOverflow s.now o.delay o.expiry ∨ ¬ InRange |o.amount| ∨
      ∃ off, (RequestIndexRef.relative off ∈ activate ∨ RequestIndexRef.relative off ∈ cancel) ∧
        ¬ (I64MIN ≤ u64AsI64 acc.requests.length + off ∧ u64AsI64 acc.requests.length + off ≤ I64MAX)
  | _ => False

/-- **Specification.** Why an order request with take profit and stop loss can be refused: each of the up to three requests
counts. -/
def TpSlRefused (s : State) (o : OrderArgs) (priceTp priceSl : Option Dec) (acc : Account) : Err → Prop
  | .missingPairConfig => s.config.pairs.get o.pair = none
  | .tradeSizeMin => |o.amount| < (s.market.pair o.pair).tradeSizeMin
  | .activeTooMany => s.config.exchange.decompress.activeRequestsMax <
      acc.active.card + 1 + priceTp.toList.length + priceSl.toList.length
  | .arithmetic => TimeOverflow s.now o.delay o.expiry ∨ ¬ InRange |o.amount|
  | _ => False

/-- **Specification.** Why cancelling requests can be refused: one does not exist, one is not pending, or more are named than the
account has pending since the last liquidation (so one was submitted before it). -/
def CancelRefused (indexes : List Nat) (acc : Account) : Err → Prop
  | .missingRequest => ∃ i ∈ indexes, acc.requests.length ≤ i
  | .cancelNotActive => ∃ i ∈ indexes, ∃ r : KeeperRequest, acc.requests[i]? = some r ∧ r.status ≠ STATUS_ACTIVE ∧
      r.status ≠ STATUS_DORMANT
  | .arithmetic => acc.active.card < indexes.toFinset.card
  | _ => False

/-! ## The requests -/

theorem dabs_fails {x : Dec} {P : Err → Prop} (h : ¬ InRange |x| → P .arithmetic) : Fails P (dabs x) := by
  intro e he
  unfold dabs chk at he
  split at he
  · cases he
  · rename_i hn; cases he; exact h (by simpa using hn)

theorem dneg_fails {x : Dec} {P : Err → Prop} (h : ¬ InRange (-x) → P .arithmetic) : Fails P (dneg x) := by
  intro e he
  unfold dneg chk at he
  split at he
  · cases he
  · rename_i hn; cases he; exact h (by simpa using hn)

theorem addSeconds_fails {t x : Int} {P : Err → Prop} (h : ¬ (I64MIN ≤ t + x ∧ t + x ≤ I64MAX) → P .arithmetic) :
    Fails P (addSeconds t x) := by
  intro e he
  unfold addSeconds at he
  split at he
  · cases he
  · rename_i hn; cases he; exact h hn

theorem pushRequest_fails {v : VAccount} {now : Int} {r : Request} {delay expiry : Nat} {st : Status} {eff : List Addr}
    {P : Err → Prop} (hst : (st ≠ STATUS_ACTIVE ∧ st ≠ STATUS_DORMANT) → P .invalidStatus)
    (ht : TimeOverflow now delay expiry → P .arithmetic) : Fails P (v.pushRequest now r delay expiry st eff) := by
  unfold VAccount.pushRequest
  refine fails_bind (fails_check (fun h => hst (by rw [not_or] at h; exact h))) (fun _ _ => ?_)
  refine fails_bind (addSeconds_fails (fun h => ht (Or.inl h))) (fun x hx => ?_)
  rw [addSeconds_ok] at hx
  obtain ⟨-, rfl⟩ := hx
  refine fails_bind (addSeconds_fails (fun h => ht (Or.inr h))) (fun _ _ => fails_pure _)

theorem resolveAll_fails {rs : List RequestIndexRef} {i : Nat} {P : Err → Prop}
    (h : ∀ off, RequestIndexRef.relative off ∈ rs → ¬ (I64MIN ≤ u64AsI64 i + off ∧ u64AsI64 i + off ≤ I64MAX) →
      P .arithmetic) : Fails P (resolveAll rs i) := by
  unfold resolveAll
  induction rs with
  | nil => exact fails_pure _
  | cons r rs ih =>
    rw [List.mapM_cons]
    refine fails_bind ?_ (fun _ _ => fails_bind (ih (fun off ho => h off (by simp [ho]))) (fun _ _ => fails_pure _))
    unfold RequestIndexRef.resolve
    split
    · exact fails_of_ok ⟨_, rfl⟩
    · exact fails_bind (addSeconds_fails (h _ (by simp))) (fun _ _ => fails_pure _)

/-- Loading the configuration of pairs that exist, and of one more. -/
theorem config_fails {c : Config} {ids : List PairId} {P : Err → Prop}
    (h : ∀ p ∈ ids, c.pairs.get p = none → P .missingPairConfig) : Fails P (VConfig.new c ids) := by
  unfold VConfig.new
  refine fails_bind (fails_buildM (fun p hp => ?_)) (fun _ _ => fails_pure _)
  unfold Config.pair
  exact fails_bind (fails_expect (h p hp)) (fun _ _ => fails_pure _)

theorem assertTradeSize_fails {c : Config} {ids : List PairId} {cfg : VConfig} {p : PairId} {x : Dec} {P : Err → Prop}
    (hcfg : VConfig.new c ids = Except.ok cfg) (hp : p ∈ ids) (ha : ¬ InRange |x| → P .arithmetic)
    (ht : ∀ y, c.pairs.get p = some y → |x| < y.decompress.tradeSizeMin → P .tradeSizeMin) :
    Fails P (assertTradeSize cfg p x) := by
  obtain ⟨y, hy, hy'⟩ := (VConfig.new_ok hcfg).2.2.1 p hp
  unfold assertTradeSize
  refine fails_bind (fails_of_ok ⟨_, (VConfig.pair_ok.mpr hy')⟩) (fun pc hpc => ?_)
  rw [VConfig.pair_ok, hy'] at hpc
  cases hpc
  refine fails_bind (dabs_fails ha) (fun z hz => ?_)
  rw [dabs_ok] at hz
  obtain ⟨-, rfl⟩ := hz
  exact fails_check (fun h => ht y hy (by simpa using h))

section
variable {env : Env} {cl : Caller} {s : State}

theorem createRecoveryKey_fails (h : Reach env s) (oath : Option Bucket) (a : Addr) :
    Fails (HolderRefused env cl s a oath .l1 (fun acc => acc.positions.keys) NoReason)
      (createRecoveryKey env cl s oath a) := by
  refine holder_fails h (ids := id) (fun _ _ hp => hp)
    (fun acc ha => fails_of_ok (VConfig.new_total (fun p hp => ?_))) (fun acc => fails_of_ok (VConfig.new_total (by simp)))
    (fun s1 v1 cfg v acc ha hv hp hr hf => ?_)
  · obtain ⟨pos, hpos⟩ := AMap.mem_keys.mp hp
    exact (reach_resolves h).position a acc p pos ha hpos
  · exact fails_bind (fails_of_ok (commitAcc_total (withRule_rinv hr s1.perms _ _) (withRule_refOk hf s1.perms _ _)))
      (fun _ _ => fails_pure _)

theorem setLevelAuth_fails (h : Reach env s) (oath : Option Bucket) (a : Addr) (l : Level) (r : Rule) :
    Fails (HolderRefused env cl s a oath .l1 (fun acc => acc.positions.keys) NoReason)
      (setLevelAuth env cl s oath a l r) := by
  refine holder_fails h (ids := id) (fun _ _ hp => hp)
    (fun acc ha => fails_of_ok (VConfig.new_total (fun p hp => ?_))) (fun acc => fails_of_ok (VConfig.new_total (by simp)))
    (fun s1 v1 cfg v acc ha hv hp hr hf => ?_)
  · obtain ⟨pos, hpos⟩ := AMap.mem_keys.mp hp
    exact (reach_resolves h).position a acc p pos ha hpos
  · exact fails_bind (fails_of_ok (commitAcc_total (withRule_rinv hr s1.perms _ _) (withRule_refOk hf s1.perms _ _)))
      (fun _ _ => fails_pure _)

theorem addAuthRule_fails (h : Reach env s) (oath : Option Bucket) (a : Addr) (level : Nat) (n : Node) :
    Fails (HolderRefused env cl s a oath .l1 (fun acc => acc.positions.keys) (LevelRefused level))
      (addAuthRule env cl s oath a level n) := by
  refine holder_fails h (ids := id) (fun _ _ hp => hp)
    (fun acc ha => fails_of_ok (VConfig.new_total (fun p hp => ?_))) (fun acc => fails_of_ok (VConfig.new_total (by simp)))
    (fun s1 v1 cfg v acc ha hv hp hr hf => ?_)
  · obtain ⟨pos, hpos⟩ := AMap.mem_keys.mp hp
    exact (reach_resolves h).position a acc p pos ha hpos
  · refine fails_bind ?_ (fun lv _ => ?_)
    · unfold levelOf
      split
      · exact fails_of_ok ⟨_, rfl⟩
      · exact fails_of_ok ⟨_, rfl⟩
      · exact fails_of_ok ⟨_, rfl⟩
      · rename_i h1 h2 h3
        intro e he; cases he; exact ⟨h1, h2, h3⟩
    · exact fails_bind (fails_of_ok (commitAcc_total (withRule_rinv hr s1.perms _ _) (withRule_refOk hf s1.perms _ _)))
        (fun _ _ => fails_pure _)

/-- What the request methods know after the oath. -/
theorem paid_facts {a : Addr} {v v1 : VAccount} {acc : Account} {s1 : State} {cfg : VConfig} {oath : Option Bucket}
    {ids plain : List PairId} (ha : s.accounts.get a = some acc) (hv : s.load a = Except.ok v)
    (hp : payOath env s v oath ids plain = Except.ok (s1, v1, cfg)) :
    v1.activeLen = acc.active.card ∧ v1.requestsLen = acc.requests.length ∧ s1.now = s.now ∧
    cfg.ex = s.config.exchange.decompress ∧ v1.comp = acc ∧ v1.requestUpdates = AMap.empty ∧
    VConfig.new s.config (if oath.isSome then ids else plain) = Except.ok cfg := by
  obtain ⟨hs1, hv1, -, -, hcfg⟩ := payOath_frame hp
  obtain ⟨acc', rd, ha', -, hv'⟩ := load_ok hv
  rw [ha] at ha'; cases ha'
  rw [hv1, hs1, hv']
  exact ⟨rfl, rfl, rfl, (VConfig.new_ok hcfg).1, rfl, rfl, hcfg⟩

theorem removeCollateralRequest_fails (h : Reach env s) (oath : Option Bucket) (expiry : Nat) (a target : Addr)
    (claims : List (Res × Dec)) :
    Fails (HolderRefused env cl s a oath .l2 (fun acc => acc.positions.keys) (RemovalRefused s claims expiry))
      (removeCollateralRequest env cl s oath expiry a target claims) := by
  refine holder_fails h (ids := id) (fun _ _ hp => hp)
    (fun acc ha => fails_of_ok (VConfig.new_total (fun p hp => ?_))) (fun acc => fails_of_ok (VConfig.new_total (by simp)))
    (fun s1 v1 cfg v acc ha hv hp hr hf => ?_)
  · obtain ⟨pos, hpos⟩ := AMap.mem_keys.mp hp
    exact (reach_resolves h).position a acc p pos ha hpos
  obtain ⟨f1, f2, f3, f4, -⟩ := paid_facts ha hv hp
  refine fails_bind (fails_check (fun hn => not_le.mp hn)) (fun _ _ => ?_)
  refine fails_bind (pushRequest_fails (fun hn => absurd rfl hn.1) (fun ht => by rw [f3] at ht; exact ht)) (fun v2 hv2 => ?_)
  refine fails_bind (fails_check (fun hn => ?_)) (fun _ _ => ?_)
  · have := (pushRequest_exact hr hv2).2.2.1
    rw [this, f1, f4] at hn
    exact not_le.mp hn
  · exact fails_bind (fails_of_ok (commitAcc_total (pushRequest_inv hr hv2).1 (refOk_reqOnly (pushRequest_reqOnly hv2) hf)))
      (fun _ _ => fails_pure _)

theorem order_config (h : Reach env s) {a : Addr} {acc : Account} (ha : s.accounts.get a = some acc) {p : PairId}
    {P : Err → Prop} (hP : s.config.pairs.get p = none → P .missingPairConfig) :
    Fails P (VConfig.new s.config (insertId acc.positions.keys p)) := by
  refine config_fails (fun q hq hn => ?_)
  rcases mem_insertId.mp hq with rfl | hq
  · exact hP hn
  · obtain ⟨pos, hpos⟩ := AMap.mem_keys.mp hq
    obtain ⟨x, hx⟩ := (reach_resolves h).position a acc q pos ha hpos
    rw [hn] at hx; cases hx

theorem trade_size {o : OrderArgs} {y : PairConfigC} (hy : s.config.pairs.get o.pair = some y)
    (hlt : |o.amount| < y.decompress.tradeSizeMin) : |o.amount| < (s.market.pair o.pair).tradeSizeMin := by
  unfold State.market
  simp only [hy, Option.map_some, Option.getD_some]
  exact hlt

theorem marginOrderRequest_fails (h : Reach env s) (oath : Option Bucket) (a : Addr) (o : OrderArgs)
    (activate cancel : List RequestIndexRef) (status : Status) :
    Fails (HolderRefused env cl s a oath .l3 (fun acc => insertId acc.positions.keys o.pair)
      (OrderRequestRefused s o activate cancel status)) (marginOrderRequest env cl s oath a o activate cancel status) := by
  refine holder_fails h (ids := fun l => insertId l o.pair) (fun _ _ hp => mem_insertId.mpr (Or.inr hp))
    (fun acc ha => order_config h ha (fun hn => hn)) (fun acc => config_fails (fun p hp hn => ?_))
    (fun s1 v1 cfg v acc ha hv hp hr hf => ?_)
  · rw [List.mem_singleton] at hp; subst hp; exact hn
  obtain ⟨f1, f2, f3, f4, -, -, hcfg⟩ := paid_facts ha hv hp
  have hin : o.pair ∈ (if oath.isSome then insertId v.positionIds o.pair else [o.pair]) := by
    split
    · exact mem_insertId.mpr (Or.inl rfl)
    · simp
  refine fails_bind (assertTradeSize_fails hcfg hin (fun hn => Or.inr (Or.inl hn)) (fun y hy hlt => trade_size hy hlt))
    (fun _ _ => ?_)
  refine fails_bind (fails_check (fun hn => Or.inl (not_le.mp hn))) (fun _ _ => ?_)
  refine fails_bind (fails_check (fun hn => Or.inr (not_le.mp hn))) (fun _ _ => ?_)
  refine fails_bind (resolveAll_fails (fun off ho hn => Or.inr (Or.inr ⟨off, Or.inl ho, by rw [f2] at hn; exact hn⟩))) (fun _ _ => ?_)
  refine fails_bind (resolveAll_fails (fun off ho hn => Or.inr (Or.inr ⟨off, Or.inr ho, by rw [f2] at hn; exact hn⟩))) (fun _ _ => ?_)
  refine fails_bind (pushRequest_fails (fun hn => hn) (fun ht => Or.inl (by rw [f3] at ht; exact ht))) (fun v2 hv2 => ?_)
  refine fails_bind (fails_check (fun hn => ?_)) (fun _ _ => ?_)
  · have := (pushRequest_exact hr hv2).2.2.1
    rw [this, f1, f4] at hn
    exact not_le.mp hn
  · exact fails_bind (fails_of_ok (commitAcc_total (pushRequest_inv hr hv2).1 (refOk_reqOnly (pushRequest_reqOnly hv2) hf)))
      (fun _ _ => fails_pure _)

theorem pushExit_fails {v : VAccount} {now : Int} {o : OrderArgs} {l : Option PriceLimit} {cs : List Nat} {P : Err → Prop}
    (ha : ¬ InRange (-o.amount) → P .arithmetic) (ht : TimeOverflow now o.delay o.expiry → P .arithmetic) :
    Fails P (pushExit v now o l cs) := by
  unfold pushExit
  split
  · exact fails_bind (dneg_fails ha) (fun _ _ => pushRequest_fails (fun hn => absurd rfl hn.2) ht)
  · exact fails_pure _

theorem pushExit_len {v v' : VAccount} {now : Int} {o : OrderArgs} {l : Option PriceLimit} {cs : List Nat}
    (hr : RInv v) (h : pushExit v now o l cs = Except.ok v') : RInv v' ∧ v'.activeLen = v.activeLen + l.toList.length := by
  unfold pushExit at h
  split at h
  · simp only [bind_ok] at h
    obtain ⟨_, -, h⟩ := h
    obtain ⟨h1, -, h2, -⟩ := pushRequest_exact hr h
    exact ⟨h1, h2⟩
  · rw [pure_ok] at h; subst h; exact ⟨hr, rfl⟩

theorem marginOrderTpSl_fails (h : Reach env s) (oath : Option Bucket) (a : Addr) (o : OrderArgs)
    (priceTp priceSl : Option Dec) :
    Fails (HolderRefused env cl s a oath .l3 (fun acc => insertId acc.positions.keys o.pair)
      (TpSlRefused s o priceTp priceSl)) (marginOrderTpSlRequest env cl s oath a o priceTp priceSl) := by
  refine holder_fails h (ids := fun l => insertId l o.pair) (fun _ _ hp => mem_insertId.mpr (Or.inr hp))
    (fun acc ha => order_config h ha (fun hn => hn)) (fun acc => config_fails (fun p hp hn => ?_))
    (fun s1 v1 cfg v acc ha hv hp hr hf => ?_)
  · rw [List.mem_singleton] at hp; subst hp; exact hn
  obtain ⟨f1, f2, f3, f4, -, -, hcfg⟩ := paid_facts ha hv hp
  have hin : o.pair ∈ (if oath.isSome then insertId v.positionIds o.pair else [o.pair]) := by
    split
    · exact mem_insertId.mpr (Or.inl rfl)
    · simp
  refine fails_bind (assertTradeSize_fails hcfg hin (fun hn => Or.inr hn) (fun y hy hlt => trade_size hy hlt))
    (fun _ hts => ?_)
  have habs : InRange |o.amount| := by
    simp only [assertTradeSize, bind_ok, dabs_ok] at hts
    obtain ⟨_, -, _, ⟨hh, -⟩, -⟩ := hts
    exact hh
  have hneg : ¬ ¬ InRange (-o.amount) := by
    rw [not_not, inRange_iff] at *
    have h1 := neg_abs_le o.amount
    have h2 := neg_le_abs o.amount
    have h3 := le_abs_self o.amount
    have e1 : DMIN = -DMAX - 1 := by decide
    omega
  refine fails_bind (pushRequest_fails (fun hn => absurd rfl hn.1) (fun ht => Or.inl (by rw [f3] at ht; exact ht))) (fun v2 hv2 => ?_)
  refine fails_bind (pushExit_fails (fun hn => absurd hn hneg) (fun ht => Or.inl (by rw [f3] at ht; exact ht))) (fun v3 hv3 => ?_)
  refine fails_bind (pushExit_fails (fun hn => absurd hn hneg) (fun ht => Or.inl (by rw [f3] at ht; exact ht))) (fun v4 hv4 => ?_)
  obtain ⟨r2, -, l2, -⟩ := pushRequest_exact hr hv2
  obtain ⟨r3, l3⟩ := pushExit_len r2 hv3
  obtain ⟨r4, l4⟩ := pushExit_len r3 hv4
  refine fails_bind (fails_check (fun hn => ?_)) (fun _ _ => ?_)
  · rw [l4, l3, l2, f1, f4] at hn
    have e : ∀ (x : Option Dec) f, (x.map (f : Dec → PriceLimit)).toList.length = x.toList.length := by
      intro x f; cases x <;> rfl
    rw [e, e] at hn
    exact not_le.mp hn
  · obtain ⟨hr3, hf3⟩ := pushExit_keeps hv3 (pushRequest_inv hr hv2).1 (refOk_reqOnly (pushRequest_reqOnly hv2) hf)
    obtain ⟨hr4, hf4⟩ := pushExit_keeps hv4 hr3 hf3
    exact fails_bind (fails_of_ok (commitAcc_total hr4 hf4)) (fun _ _ => fails_pure _)

theorem cancelFold_fails {P : Err → Prop} : ∀ (es : List (Nat × KeeperRequest)) {v : VAccount},
    (∀ e ∈ es, e.2.status ≠ STATUS_ACTIVE → e.2.status ≠ STATUS_DORMANT → P .cancelNotActive) →
    (v.activeLen < (es.filter (fun e => pending e.2.status)).length → P .arithmetic) →
    Fails P (es.foldlM VAccount.cancelOne v) := by
  intro es
  induction es with
  | nil => intro v _ _; exact fails_pure _
  | cons e es ih =>
    intro v hp hl
    rw [List.foldlM_cons]
    have hph : statusPhases STATUS_CANCELLED = Except.ok [STATUS_ACTIVE, STATUS_DORMANT] := by
      simp [statusPhases, STATUS_ACTIVE, STATUS_CANCELLED, STATUS_EXECUTED]
    have hstep : Fails P (v.cancelOne e) ∧ ∀ v', v.cancelOne e = Except.ok v' → pending e.2.status = true := by
      unfold VAccount.cancelOne
      rw [hph]
      have hin : e.2.status ∈ [STATUS_ACTIVE, STATUS_DORMANT] ↔ pending e.2.status = true := by
        rw [pending_iff]; simp
      refine ⟨fails_bind (fails_pure _) (fun ps hps => ?_), fun v' hv' => ?_⟩
      · cases hps
        refine fails_bind (fails_check (fun hn => ?_)) (fun _ hin' => fails_bind ?_ (fun _ _ => fails_pure _))
        · rw [hin, pending_iff, not_or] at hn
          exact hp e (by simp) hn.1 hn.2
        · rw [require_ok, decide_eq_true_eq, hin] at hin'
          have hc : pending STATUS_CANCELLED = false := by decide
          unfold VAccount.moveActive VAccount.removeActive
          rw [hc, hin']
          refine fails_bind (fails_check (fun hn => hl ?_)) (fun _ _ => fails_pure _)
          rw [List.filter_cons_of_pos (p := fun e : Nat × KeeperRequest => pending e.2.status) hin', List.length_cons]
          omega
      · simp only [bind_ok, require_ok, decide_eq_true_eq] at hv'
        obtain ⟨_, h1, _, h2, -⟩ := hv'
        cases h1
        exact hin.mp h2
    refine fails_bind hstep.1 (fun v1 hv1 => ?_)
    have hpend := hstep.2 v1 hv1
    rw [List.filter_cons_of_pos (p := fun e : Nat × KeeperRequest => pending e.2.status) hpend, List.length_cons] at hl
    refine ih (fun x hx => hp x (by simp [hx])) (fun hn => hl ?_)
    by_cases h0 : 0 < v.activeLen
    · obtain ⟨v2, h2, h3⟩ := cancelOne_total hpend h0
      rw [hv1] at h2; cases h2
      omega
    · omega

theorem keeperRequests_card {v : VAccount} {is : List Nat} {krs : AMap Nat KeeperRequest}
    (h : v.keeperRequests is = Except.ok krs) : krs.entries.length = is.toFinset.card := by
  have hnd : (krs.entries.map Prod.fst).Nodup := AMap.keys_nodup krs
  have e : is.toFinset = (krs.entries.map Prod.fst).toFinset := by
    ext j
    rw [List.mem_toFinset, List.mem_toFinset]
    exact (keeperRequests_keys h j).symm
  rw [e, List.toFinset_card_of_nodup hnd, List.length_map]

theorem cancelRequests_fails (h : Reach env s) (oath : Option Bucket) (a : Addr) (is : List Nat) :
    Fails (HolderRefused env cl s a oath .l3 (fun acc => acc.positions.keys) (CancelRefused is))
      (opCancelRequests env cl s oath a is) := by
  refine holder_fails h (ids := id) (fun _ _ hp => hp)
    (fun acc ha => fails_of_ok (VConfig.new_total (fun p hp => ?_))) (fun acc => fails_of_ok (VConfig.new_total (by simp)))
    (fun s1 v1 cfg v acc ha hv hp hr hf => ?_)
  · obtain ⟨pos, hpos⟩ := AMap.mem_keys.mp hp
    exact (reach_resolves h).position a acc p pos ha hpos
  obtain ⟨f1, -, -, -, f5, f6, -⟩ := paid_facts ha hv hp
  have hkr : ∀ i, v1.keeperRequest i = expect acc.requests[i]? .missingRequest := by
    intro i
    unfold VAccount.keeperRequest
    rw [f6, f5]; simp only [AMap.get_empty]
  refine fails_bind ?_ (fun v2 hv2 => ?_)
  · unfold VAccount.cancelRequests
    refine fails_bind (fails_buildM (fun i hi => ?_)) (fun krs hkrs => ?_)
    · rw [hkr]
      exact fails_expect (fun hn => ⟨i, hi, List.getElem?_eq_none_iff.mp hn⟩)
    have hget : ∀ e ∈ krs.entries, acc.requests[e.1]? = some e.2 ∧ e.1 ∈ is := by
      intro e he
      obtain ⟨h1, h2⟩ := AMap.buildM_get hkrs (AMap.get_mem he)
      rw [hkr, expect_ok] at h2
      exact ⟨h2, h1⟩
    refine cancelFold_fails _ (fun e he h1 h2 => ⟨e.1, (hget e he).2, e.2, (hget e he).1, h1, h2⟩) (fun hn => ?_)
    rw [f1] at hn
    show acc.active.card < is.toFinset.card
    refine lt_of_lt_of_le hn (le_trans (List.length_filter_le _ _) (le_of_eq ?_))
    exact keeperRequests_card hkrs
  · exact fails_bind (fails_of_ok (commitAcc_total (cancelRequests_inv hr hv2).1 (refOk_reqOnly (cancelRequests_reqOnly hv2) hf)))
      (fun _ _ => fails_pure _)

end

end Perp
