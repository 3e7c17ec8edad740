import Verif.Refusals

/-!
# Every refusal has its reason, for deposits and account creation (C54)
-/

namespace Perp

/-- **Specification.** `acc'` is `acc` with the tokens deposited: base tokens are credited to the virtual balance, the others
to the balance of the collateral. -/
structure Deposited (acc : Account) (tokens : List Bucket) (acc' : Account) : Prop where
  base : acc'.vb = acc.vb + totalOf tokens BASE
  coll : ∀ r, r ≠ BASE → acc'.collateralBalances.get r =
    if r ∈ tokens.map Bucket.res then some ((acc.collateralBalances.get r).getD 0 + totalOf tokens r)
    else acc.collateralBalances.get r
  kept : acc'.collateralBalances.get BASE = acc.collateralBalances.get BASE
  rest : acc'.positions = acc.positions ∧ acc'.referralId = acc.referralId

/-- **Specification.** Why depositing the tokens into the account can be refused: one of them is not accepted, the account would
hold too many kinds of collateral, one is a fee oath (which no vault holds), or the fee oath is refused for the account after
the deposit. -/
def DepositRefused (env : Env) (s : State) (oath : Option Bucket) (tokens : List Bucket) (acc : Account) : Err → Prop
  | .invalidCollateral => ∃ t ∈ tokens, t.res ≠ BASE ∧ s.config.collaterals.get t.res = none
  | .collateralsTooMany => ∃ acc', Deposited acc tokens acc' ∧
      s.config.exchange.decompress.collateralsMax < acc'.collateralBalances.size
  | .vault => ∃ t ∈ tokens, t.res = FEE_OATH
  | .arithmetic => True
  | e => ∃ b, oath = some b ∧ (OathPricesRefused s acc.positions.keys e ∨
      ∃ acc', Deposited acc tokens acc' ∧ OathRefused env s acc' b acc.positions.keys e)

/-- The tokens a referral code hands out, rounded down to what can be paid. -/
def State.codeTokens (env : Env) (s : State) (code : Option Nat) : List Bucket :=
  match code.bind (fun c => s.refgen.codes.get (env.hash c)) with
  | some c => rounded env c.claims
  | none => []

/-- The referral behind a code. -/
def State.codeReferral (env : Env) (s : State) (code : Option Nat) : Option RefId :=
  (code.bind (fun c => s.refgen.codes.get (env.hash c))).map ReferralCode.referralId

/-- **Specification.** Why `create_account` can be refused: a malformed bucket, an address in use, a code that does not exist or
is used up, or the deposit into the new account. -/
def CreateRefused (env : Env) (s : State) (a : Addr) (oath : Option Bucket) (rule : Rule) (tokens : List Bucket)
    (code : Option Nat) (e : Err) : Prop :=
  (e = .badBucket ∧ ∃ t ∈ tokens, okBucket env s t = false) ∨
  (e = .assertion ∧ (s.accounts.get a).isSome) ∨
  (e = .codeNotFound ∧ ∃ c, code = some c ∧ s.refgen.codes.get (env.hash c) = none) ∨
  (e = .codeClaimed ∧ ∃ c x, code = some c ∧ s.refgen.codes.get (env.hash c) = some x ∧ x.maxCount ≤ x.count) ∨
  DepositRefused env s oath (tokens ++ s.codeTokens env code) (Account.fresh rule (s.codeReferral env code)) e

/-- **Specification.** Why `add_collateral` can be refused. -/
def AddRefused (env : Env) (cl : Caller) (s : State) (a : Addr) (oath : Option Bucket) (tokens : List Bucket) (e : Err) : Prop :=
  (e = .badBucket ∧ ∃ t ∈ tokens, okBucket env s t = false) ∨
  HolderRefused env cl s a none .l3 (fun _ => []) (DepositRefused env s oath tokens) e

theorem balanceAdds_get : ∀ {bs : List Bucket} {m m' : AMap Res Dec}, balanceAddBatch m bs = Except.ok m' → ∀ r,
    m'.get r = if r ∈ bs.map Bucket.res then some ((m.get r).getD 0 + totalOf bs r) else m.get r := by
  intro bs
  induction bs with
  | nil =>
    intro m m' h r
    simp only [balanceAddBatch, List.foldlM_nil, pure_ok] at h
    subst h; simp
  | cons b bs ih =>
    intro m m' h r
    simp only [balanceAddBatch, List.foldlM_cons, bind_ok] at h
    obtain ⟨m1, h1, h2⟩ := h
    have e1 := balanceAdd_get h1 r
    rw [ih h2 r, e1, totalOf_cons, List.map_cons]
    by_cases hr : b.res = r
    · simp only [hr, if_true, List.mem_cons, true_or, Option.getD_some]
      split
      · simp only [Option.some.injEq]; ring
      · rename_i hn
        have : totalOf bs r = 0 := totalOf_none (fun x hx e => hn (List.mem_map.mpr ⟨x, hx, e⟩))
        rw [this]; simp
    · have hne : ¬ r = b.res := fun e => hr e.symm
      simp only [hr, if_false, List.mem_cons, hne, false_or, zero_add]

/-- What adding collateral does to the working account. -/
theorem addCollateral_deposited {w w1 : W} {tokens : List Bucket} {acc : Account} {v : VAccount}
    (hb : (tokens.filter (fun b => b.res = BASE)).foldlM addBase w = Except.ok w1)
    (hd : w1.acc.depositCollateral (tokens.filter (fun b => b.res ≠ BASE)) = Except.ok v)
    (e1 : w.acc.positions = acc.positions) (e2 : w.acc.collateralBalances = acc.collateralBalances) (e3 : w.acc.vb = acc.vb) :
    Deposited acc tokens { acc with vb := v.vb, collateralBalances := v.collateralBalances } ∧
    v.positions = acc.positions ∧ v.rebate = w.acc.rebate := by
  have h1 := addBases_acc _ (by simp) hb
  have h2 := depositCollateral_collOnly hd
  unfold CollOnly at h2
  rw [totalOf_filter _ _ _ (fun b _ e => by simp [e])] at h1
  have h3 := (depositCollateral_put hd).virt
  have h4 : w1.acc.collateralBalances = acc.collateralBalances := by rw [h1]; exact e2
  change balanceAddBatch w1.acc.collateralBalances _ = Except.ok v.collateralBalances at h3
  rw [h4] at h3
  have h5 := balanceAdds_get h3
  refine ⟨⟨?_, fun r hr => ?_, ?_, rfl, rfl⟩, ?_, ?_⟩
  · show v.vb = _
    rw [h2, h1, ← e3]
  · show v.collateralBalances.get r = _
    rw [h5 r, totalOf_filter _ _ _ (fun b _ e => by simp [e, hr])]
    have : r ∈ (tokens.filter (fun b => b.res ≠ BASE)).map Bucket.res ↔ r ∈ tokens.map Bucket.res := by
      simp only [List.mem_map, List.mem_filter]
      constructor
      · rintro ⟨b, ⟨hb1, -⟩, hb2⟩; exact ⟨b, hb1, hb2⟩
      · rintro ⟨b, hb1, hb2⟩; exact ⟨b, ⟨hb1, by simp [hb2, hr]⟩, hb2⟩
    simp only [this]
  · show v.collateralBalances.get BASE = _
    rw [h5 BASE, if_neg]
    simp
  · rw [h2, h1]; exact e1
  · unfold VAccount.rebate; rw [h2, h1]

/-- Depositing into a loaded account. -/
theorem depositTokens_fails {env : Env} {s : State} {a : Addr} {v : VAccount} {acc : Account} {oath : Option Bucket}
    {tokens : List Bucket} (hv : s.load a = Except.ok v) (ha : s.accounts.get a = some acc)
    (hids : ∀ p ∈ acc.positions.keys, ∃ x, s.config.pairs.get p = some x) :
    Fails (DepositRefused env s oath tokens acc) (depositTokens env s v oath tokens) := by
  have hreb := load_rebateOf hv ha
  obtain ⟨acc', rd, ha', -, hv'⟩ := load_ok hv
  rw [ha] at ha'; cases ha'
  have hpos : v.positionIds = acc.positions.keys := by rw [hv']; rfl
  have hadd : ∀ (cfg : VConfig) (ids : List PairId) (pool : VPool), VConfig.new s.config ids = Except.ok cfg →
      Fails (DepositRefused env s oath tokens acc) (addCollateral cfg { pool, acc := v, dist := s.dist } tokens) := by
    intro cfg ids pool hcfg
    obtain ⟨hex, hcolls, -⟩ := VConfig.new_ok hcfg
    unfold addCollateral
    refine fails_bind (fails_foldlM (fun _ => True) trivial (fun b _ w _ => ⟨?_, fun _ _ => trivial⟩)) (fun w1 hw1 => ?_)
    · unfold addBase
      exact fails_bind ((deposit_errs _ _).arithmetic trivial) (fun _ _ => (settleAccount_errs _ _).arithmetic trivial)
    refine fails_bind (fails_require (fun hn => ?_)) (fun _ _ => ?_)
    · rw [List.all_eq_false] at hn
      obtain ⟨b, hb, hh⟩ := hn
      rw [List.mem_filter] at hb
      refine ⟨b, hb.1, by simpa using hb.2, ?_⟩
      by_contra hne
      obtain ⟨x, hx⟩ := Option.ne_none_iff_exists'.mp hne
      refine hh ?_
      rw [AMap.has_iff]
      rw [hcolls, AMap.get_mapV, hx]
      exact ⟨_, rfl⟩
    refine fails_bind ?_ (fun v2 hv2 => ?_)
    · have hb : ∀ (m : AMap Res Dec) (b : Bucket), Fails (DepositRefused env s oath tokens acc) (balanceAdd m b) := by
        intro m b
        unfold balanceAdd
        split
        · exact fails_bind ((errs_dadd (l := arith) (by decide) _ _).arithmetic trivial) (fun _ _ => fails_pure _)
        · exact fails_pure _
      unfold VAccount.depositCollateral balanceAddBatch vaultPutBatch
      refine fails_bind (fails_foldlM (fun _ => True) trivial (fun b _ m _ => ⟨hb m b, fun _ _ => trivial⟩)) (fun _ _ => ?_)
      refine fails_bind (fails_foldlM (fun _ => True) trivial (fun b _ m _ => ⟨hb m b, fun _ _ => trivial⟩)) (fun _ _ => ?_)
      refine fails_bind (fails_foldlM (fun _ => True) trivial (fun b hin m _ => ⟨?_, fun _ _ => trivial⟩)) (fun _ _ => fails_pure _)
      unfold vaultPut
      refine fails_bind (fails_check (fun hn => ?_)) (fun _ _ => fails_bind ((errs_dadd (l := arith) (by decide) _ _).arithmetic trivial)
        (fun _ _ => fails_pure _))
      rw [not_not] at hn
      exact ⟨b, (List.mem_filter.mp hin).1, hn⟩
    · refine fails_bind (fails_check (fun hn => ?_)) (fun _ _ => fails_pure _)
      obtain ⟨hd, -, -⟩ := addCollateral_deposited (acc := acc) hw1 hv2 (by rw [hv']) (by rw [hv']) (by rw [hv'])
      rw [hex] at hn
      exact ⟨_, hd, not_le.mp hn⟩
  unfold depositTokens
  cases oath with
  | none =>
    refine fails_bind (fails_of_ok (VConfig.new_total (by simp))) (fun cfg hcfg => fails_bind (hadd cfg _ _ hcfg) (fun _ _ => fails_pure _))
  | some b =>
    simp only
    have up : ∀ e, (OathPricesRefused s acc.positions.keys e ∨
      ∃ acc', Deposited acc tokens acc' ∧ OathRefused env s acc' b acc.positions.keys e) → DepositRefused env s (some b) tokens acc e := by
      intro e he
      cases e <;> first
        | exact ⟨b, rfl, he⟩
        | exact trivial
        | (exfalso; rcases he with he | ⟨_, -, he⟩ <;> exact he)
    refine fails_bind ?_ (fun x hx => ?_)
    · rw [hpos]
      exact (oathLoad_fails hids).mono (fun e he => up e (Or.inl he))
    obtain ⟨c, pool⟩ := x
    have hcfg := (oathLoad_ok hx).2.2.1
    refine fails_bind (hadd _ _ _ hcfg) (fun w hw => ?_)
    obtain ⟨w1, v2, h1, -, h2, -, rfl⟩ := addCollateral_ok hw
    obtain ⟨hd, hp2, hr2⟩ := addCollateral_deposited (acc := acc) h1 h2 (by rw [hv']) (by rw [hv']) (by rw [hv'])
    refine fails_bind ((settleFeeOath_fails (acc := { acc with vb := v2.vb, collateralBalances := v2.collateralBalances })
      (pool := w1.pool) (v := v2) hx ?_ ?_ hp2.symm rfl rfl ?_).mono (fun e he => up e (Or.inr ⟨_, hd, ?_⟩))) (fun _ _ => ?_)
    · exact (addCollateral_pool hw).1
    · intro p hp; rw [hp2, ← hpos] at hp; exact hp
    · have e5 : s.rebateOf { acc with vb := v2.vb, collateralBalances := v2.collateralBalances } = s.rebateOf acc := rfl
      rw [e5, hreb, hr2]
    · rw [hpos] at he; exact he
    · unfold State.burnOath
      exact fails_bind (fails_bind (fails_require (fun h => up _ (Or.inr ⟨_, hd, h⟩))) (fun _ _ => fails_pure _)) (fun _ _ => fails_pure _)

section
variable {env : Env} {cl : Caller} {s : State}

theorem addCollateral_fails (h : Reach env s) (oath : Option Bucket) (a : Addr) (tokens : List Bucket) :
    Fails (AddRefused env cl s a oath tokens) (opAddCollateral env cl s oath a tokens) := by
  unfold opAddCollateral
  refine fails_bind (fails_require (fun hn => Or.inl ⟨rfl, ?_⟩)) (fun _ _ => ?_)
  · rw [List.all_eq_false] at hn
    obtain ⟨t, ht, hh⟩ := hn
    exact ⟨t, ht, by simpa using hh⟩
  refine fails_bind ((load_fails_holder h a).mono (fun e he => Or.inr (Or.inl he))) (fun v hv => ?_)
  have hload := hv
  obtain ⟨acc, rd, ha, -, hv'⟩ := load_ok hv
  refine fails_bind (fails_require (fun hn => Or.inr (Or.inr ⟨acc, ha, Or.inl ⟨rfl, ?_⟩⟩))) (fun _ _ => ?_)
  · rw [hv'] at hn; exact hn
  refine fails_bind ((depositTokens_fails hv ha (fun p hp => ?_)).mono (fun e he => Or.inr (Or.inr ⟨acc, ha, Or.inr (Or.inr he)⟩)))
    (fun x hx => ?_)
  · obtain ⟨pos, hpos⟩ := AMap.mem_keys.mp hp
    exact (reach_resolves h).position a acc p pos ha hpos
  · obtain ⟨s1, w⟩ := x
    exact fails_bind (fails_of_ok (depositTokens_commit hx (load_rinv hload (reach_requestsOk h)).1 (load_refOk hload)))
      (fun _ _ => fails_pure _)

theorem DepositRefused.same {s s' : State} {oath : Option Bucket} {tokens : List Bucket} {acc : Account} {e : Err}
    (h1 : s'.config = s.config) (h2 : s'.oracle = s.oracle) (h3 : s'.now = s.now) (h4 : s'.pool = s.pool)
    (h5 : s'.referrals = s.referrals) (h6 : s'.lpSupply = s.lpSupply) (h7 : s'.oathSupply = s.oathSupply)
    (h : DepositRefused env s' oath tokens acc e) : DepositRefused env s oath tokens acc e := by
  have hm : s'.market = s.market := by unfold State.market; rw [h1, h2, h3, h4]
  have hn : ∀ ids p age, s'.OathNeeds ids p age → s.OathNeeds ids p age := by
    intro ids p age hh; unfold State.OathNeeds at hh ⊢; rw [← h1]; exact hh
  have hp : ∀ ids e, OathPricesRefused s' ids e → OathPricesRefused s ids e := by
    intro ids e hh
    cases e <;> first | exact hh | skip
    case missingPair => obtain ⟨p, age, a1, a2⟩ := hh; exact ⟨p, age, hn _ _ _ a1, by rw [← h2]; exact a2⟩
    case invalidPrice =>
      obtain ⟨p, age, x, t, a1, a2, a3⟩ := hh; exact ⟨p, age, x, t, hn _ _ _ a1, by rw [← h2]; exact a2, a3⟩
    case priceTooOld =>
      obtain ⟨p, age, x, t, a1, a2, a3⟩ := hh
      exact ⟨p, age, x, t, hn _ _ _ a1, by rw [← h2]; exact a2, by rw [← h3]; exact a3⟩
  have ho : ∀ acc b ids e, OathRefused env s' acc b ids e → OathRefused env s acc b ids e := by
    intro acc b ids e hh
    cases e <;> first | exact hh | skip
    case missingPair => exact hp ids .missingPair hh
    case invalidPrice => exact hp ids .invalidPrice hh
    case priceTooOld => exact hp ids .priceTooOld hh
    · change okBucket env s b = false
      change okBucket env s' b = false at hh
      unfold okBucket at hh ⊢
      rw [h6, h7] at hh; exact hh
    · change s.accountValue _ < s.initialMargin _
      change s'.accountValue _ < s'.initialMargin _ at hh
      unfold State.accountValue State.initialMargin State.rebateOf at hh ⊢
      rw [hm, h5] at hh; exact hh
  have fallback : (∃ b, oath = some b ∧ (OathPricesRefused s' acc.positions.keys e ∨
      ∃ acc', Deposited acc tokens acc' ∧ OathRefused env s' acc' b acc.positions.keys e)) →
      ∃ b, oath = some b ∧ (OathPricesRefused s acc.positions.keys e ∨
      ∃ acc', Deposited acc tokens acc' ∧ OathRefused env s acc' b acc.positions.keys e) := by
    rintro ⟨b, hb, hh⟩
    refine ⟨b, hb, ?_⟩
    rcases hh with hh | ⟨acc', hd, hh⟩
    · exact Or.inl (hp _ _ hh)
    · exact Or.inr ⟨acc', hd, ho _ _ _ _ hh⟩
  cases e <;> first | exact fallback h | exact trivial | skip
  all_goals (unfold DepositRefused at h ⊢; first | exact h | (rw [← h1]; exact h))

theorem createAccount_fails (h : Reach env s) (a : Addr) (oath : Option Bucket) (rule : Rule) (tokens : List Bucket)
    (code : Option Nat) :
    Fails (CreateRefused env s a oath rule tokens code) (createAccount env s a oath rule tokens code) := by
  unfold createAccount
  refine fails_bind (fails_require (fun hn => Or.inl ⟨rfl, ?_⟩)) (fun _ _ => ?_)
  · rw [List.all_eq_false] at hn
    obtain ⟨t, ht, hh⟩ := hn
    exact ⟨t, ht, by simpa using hh⟩
  refine fails_bind (fails_require (fun hn => Or.inr (Or.inl ⟨rfl, ?_⟩))) (fun _ _ => ?_)
  · rw [Bool.not_eq_false', AMap.has_iff] at hn
    obtain ⟨x, hx⟩ := hn
    rw [hx]; rfl
  refine fails_bind ?_ (fun x hx => ?_)
  · unfold claimCode
    split
    · rename_i c
      refine fails_bind ?_ (fun _ _ => fails_pure _)
      unfold RefGen.claim
      refine fails_bind (fails_expect (fun hn => Or.inr (Or.inr (Or.inl ⟨rfl, c, rfl, hn⟩)))) (fun x hx => ?_)
      rw [expect_ok] at hx
      refine fails_bind (fails_check (fun hn => Or.inr (Or.inr (Or.inr (Or.inl ⟨rfl, c, x, rfl, hx, not_lt.mp hn⟩))))) (fun _ hlt => ?_)
      rw [require_ok, decide_eq_true_eq] at hlt
      obtain ⟨vaults, hv⟩ := vaultTakeBatch_pays (env := env) ((reach_genOk h).code _ _ hx).2.1 (code_backed h hx hlt)
      exact fails_bind (fails_of_ok ⟨_, hv⟩) (fun _ _ => fails_pure _)
    · exact fails_pure _
  obtain ⟨s1, rid, extra⟩ := x
  have hcl := hx
  have hs1 : (∃ g, s1 = { s with refgen := g }) ∧ extra = s.codeTokens env code ∧ rid = s.codeReferral env code ∧
      ∀ id, rid = some id → ∃ d, s.referrals.get id = some d := by
    rcases claimCode_ok hx with ⟨hc, hr, hb, rfl⟩ | ⟨cd, g, rf, hc, hg, hr, rfl⟩
    · subst hc hr
      exact ⟨⟨_, rfl⟩, hb, rfl, fun id hid => by cases hid⟩
    · subst hc hr
      obtain ⟨c, hcode, -, hrid, hbs, -⟩ := claim_ok hg
      refine ⟨⟨_, rfl⟩, ?_, ?_, fun id hid => ?_⟩
      · unfold State.codeTokens; rw [hbs]; simp only [Option.bind_some, hcode]
      · unfold State.codeReferral; rw [hrid]; simp only [Option.bind_some, hcode, Option.map_some]
      · cases hid
        rw [hrid]
        exact (reach_genKnown h).code _ _ hcode
  obtain ⟨⟨g, rfl⟩, rfl, hrid, href⟩ := hs1
  dsimp only
  have hload : ∃ v, State.load { s with refgen := g, accounts := s.accounts.set a (Account.fresh rule rid)
                                        perms := registerAccount s.perms a rule } a = Except.ok v := by
    simp only [State.load, VAccount.new, AMap.get_set_self, expect, bind, Except.bind]
    cases rid with
    | none => exact ⟨_, rfl⟩
    | some id =>
      obtain ⟨d, hd⟩ := href id rfl
      simp only [Account.fresh, loadReferral, expect, hd, bind, Except.bind, pure, Except.pure]
      exact ⟨_, rfl⟩
  refine fails_bind (fails_of_ok hload) (fun v hv => ?_)
  refine fails_bind ((depositTokens_fails (acc := Account.fresh rule rid) hv (AMap.get_set_self _ _ _)
    (fun p hp => absurd hp (by simp [Account.fresh, AMap.keys, AMap.empty]))).mono
    (fun e he => Or.inr (Or.inr (Or.inr (Or.inr ?_))))) (fun x hx => ?_)
  · rw [← hrid]
    exact DepositRefused.same rfl rfl rfl rfl rfl rfl rfl he
  obtain ⟨s2, w⟩ := x
  refine fails_bind (fails_of_ok (depositTokens_commit hx ?_ (load_refOk hv))) (fun _ _ => fails_pure _)
  refine (load_rinv hv (fun b acc hb => ?_)).1
  change (s.accounts.set a (Account.fresh rule rid)).get b = some acc at hb
  rw [AMap.get_set] at hb
  split at hb
  · cases hb
    exact ⟨le_refl _, fun i => by simp [Account.fresh]⟩
  · exact reach_requestsOk h b acc hb

end

end Perp
