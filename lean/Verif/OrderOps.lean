import Verif.OrderS

/-!
# Iteration order (C62): every call

The order in which hash maps and hash sets are iterated does not influence what a call does.
-/

namespace Perp

/-- Results of calls with the same content. -/
def Res2 (x x' : State × Out) : Prop := x.1.Same x'.1 ∧ x.2.Same x'.2

theorem res2 {s s' : State} (h : s.Same s') (o : Out) : Res2 (s, o) (s', o) := ⟨h, Out.Same.refl o⟩

theorem payout_agree (env : Env) {s s' : State} (h : s.Same s') (x : Dec) :
    Agree (fun a a' => a.1.Same a'.1 ∧ a.2 = a'.2) (payout env s x) (payout env s' x) := by
  unfold payout
  rw [h.now]
  have hp := VPool.new_same h.pool s'.now (ids := []) (ids' := []) fun _ => Iff.rfl
  simp only
  rw [hp.base]
  refine Agree.require rfl fun _ => Agree.bind (hp.addVb x) fun a a' _ _ ha => ?_
  refine Agree.bind (ha.withdraw env x .toZero) fun b b' _ _ hb => ?_
  exact Agree.pure ⟨hb.1.realize, hb.2⟩

theorem collectTreasury_agree (env : Env) {s s' : State} (h : s.Same s') :
    Agree Res2 (collectTreasury env s) (collectTreasury env s') := by
  unfold collectTreasury
  rw [h.dist]
  refine Agree.bind (payout_agree env h _) fun a a' _ _ ha => ?_
  obtain ⟨a, x⟩ := a
  obtain ⟨a', x'⟩ := a'
  obtain ⟨ha, rfl⟩ := ha
  exact Agree.pure ⟨{ h with pool := ha, dist := rfl }, Out.Same.refl _⟩

theorem collectFeeDelegator_agree (env : Env) {s s' : State} (h : s.Same s') :
    Agree Res2 (collectFeeDelegator env s) (collectFeeDelegator env s') := by
  unfold collectFeeDelegator
  rw [h.delegator]
  refine Agree.bind (payout_agree env h _) fun a a' _ _ ha => ?_
  obtain ⟨a, x⟩ := a
  obtain ⟨a', x'⟩ := a'
  obtain ⟨ha, rfl⟩ := ha
  exact Agree.pure ⟨{ h with pool := ha, delegator := rfl }, Out.Same.refl _⟩

theorem mintReferral_agree {s s' : State} (h : s.Same s') (id : RefId) (a b : Dec) (n : Nat) :
    Agree State.Same (mintReferral s id a b n) (mintReferral s' id a b n) := by
  unfold mintReferral
  rw [h.referrals.has]
  iterate 3 refine Agree.require rfl fun _ => ?_
  exact Agree.pure { h with referrals := h.referrals.set _ _ }

theorem updateReferral_agree {s s' : State} (h : s.Same s') (id : RefId) (a b : Option Dec) (n : Option Nat) :
    Agree State.Same (updateReferral s id a b n) (updateReferral s' id a b n) := by
  unfold updateReferral
  rw [h.referrals id]
  split
  · exact Agree.pure h
  · iterate 3 refine Agree.bind_same fun _ _ => ?_
    exact Agree.pure { h with referrals := h.referrals.set _ _ }

theorem checkReferralTokens_agree (env : Env) {s s' : State} (h : s.Same s') {c c' : VConfig} (hc : c.Same c') (t : List Bucket) :
    checkReferralTokens env s c t = checkReferralTokens env s' c' t := by
  unfold checkReferralTokens
  rw [okBucket_same env h]
  simp only [hc.colls.has]

theorem grantReferrals_agree {s s' : State} (h : s.Same s') (id : RefId) (n : Nat) :
    Agree State.Same (grantReferrals s id n) (grantReferrals s' id n) := by
  unfold grantReferrals
  rw [h.referrals id]
  refine Agree.bind_same fun d _ => Agree.bind_same fun m _ => Agree.require rfl fun _ => ?_
  exact Agree.pure { h with referrals := h.referrals.set _ _ }

theorem addReferralAllocation_agree (env : Env) {s s' : State} (h : s.Same s') (id : RefId) (t : List Bucket)
    (c : List (Res × Dec)) (n : Nat) :
    Agree Res2 (addReferralAllocation env s id t c n) (addReferralAllocation env s' id t c n) := by
  unfold addReferralAllocation
  refine Agree.bind (VConfig.new_agree h.config fun _ => Iff.rfl) fun x x' _ _ hx => ?_
  rw [checkReferralTokens_agree env h hx]
  refine Agree.bind_same fun _ _ => Agree.bind (grantReferrals_agree h id n) fun y y' _ _ hy => ?_
  refine Agree.bind (hy.refgen.addAllocation env t id c n) fun g g' _ _ hg => ?_
  obtain ⟨g, r, i⟩ := g
  obtain ⟨g', r', i'⟩ := g'
  obtain ⟨hg, hr, hi⟩ := hg
  dsimp only at hg hr hi
  subst hi
  exact Agree.pure ⟨{ hy with refgen := hg }, { Out.Same.refl _ with buckets := hr }⟩

theorem swapProtocolFee_agree (env : Env) {s s' : State} (h : s.Same s') (b : Bucket) :
    Agree Res2 (swapProtocolFee env s b) (swapProtocolFee env s' b) := by
  unfold swapProtocolFee
  refine Agree.bind (VConfig.new_agree h.config fun _ => Iff.rfl) fun x x' _ _ hx => ?_
  rw [okBucket_same env h, hx.ex, h.dist]
  iterate 3 refine Agree.require rfl fun _ => ?_
  refine Agree.bind_same fun _ _ => Agree.bind (payout_agree env h _) fun a a' _ _ ha => ?_
  obtain ⟨a, x⟩ := a
  obtain ⟨a', x'⟩ := a'
  obtain ⟨ha, rfl⟩ := ha
  exact Agree.pure ⟨{ h with pool := ha, dist := rfl }, Out.Same.refl _⟩

theorem opAddLiquidity_agree (env : Env) {s s' : State} (h : s.Same s') (b : Bucket) :
    Agree Res2 (opAddLiquidity env s b) (opAddLiquidity env s' b) := by
  unfold opAddLiquidity
  refine Agree.bind (VConfig.new_agree h.config fun _ => Iff.rfl) fun x x' _ _ hx => ?_
  rw [okBucket_same env h, h.dist, h.lpSupply, h.now]
  refine Agree.require rfl fun _ => ?_
  refine Agree.bind (addLiquidity_agree env hx (VPool.new_same h.pool _ fun _ => Iff.rfl) _ _ b) fun a a' _ _ ha => ?_
  obtain ⟨a, d, m, e⟩ := a
  obtain ⟨a', d', m', e'⟩ := a'
  obtain ⟨ha, he⟩ := ha
  cases he
  exact Agree.bind_same fun _ _ => Agree.pure ⟨{ h with pool := ha.realize, dist := rfl, lpSupply := rfl, now := rfl }, Out.Same.refl _⟩

theorem opRemoveLiquidity_agree (env : Env) {s s' : State} (h : s.Same s') (b : Bucket) :
    Agree Res2 (opRemoveLiquidity env s b) (opRemoveLiquidity env s' b) := by
  unfold opRemoveLiquidity
  refine Agree.bind (VConfig.new_agree h.config fun _ => Iff.rfl) fun x x' _ _ hx => ?_
  rw [okBucket_same env h, h.dist, h.lpSupply, h.now]
  refine Agree.require rfl fun _ => ?_
  refine Agree.bind (removeLiquidity_agree env hx (VPool.new_same h.pool _ fun _ => Iff.rfl) _ _ b) fun a a' _ _ ha => ?_
  obtain ⟨a, d, m, e⟩ := a
  obtain ⟨a', d', m', e'⟩ := a'
  obtain ⟨ha, he⟩ := ha
  cases he
  exact Agree.pure ⟨{ h with pool := ha.realize, dist := rfl, lpSupply := rfl, now := rfl }, Out.Same.refl _⟩

theorem createReferralCodes_agree (env : Env) (cl : Caller) {s s' : State} (h : s.Same s') (id : RefId) (t : List Bucket)
    {hs hs' : AMap Hash (List (Res × Dec) × Nat)} (hh : hs.Same hs') :
    Agree Res2 (createReferralCodes env cl s id t hs) (createReferralCodes env cl s' id t hs') := by
  unfold createReferralCodes
  refine Agree.require rfl fun _ => Agree.bind (VConfig.new_agree h.config fun _ => Iff.rfl) fun x x' _ _ hx => ?_
  refine Agree.bind (sumCounts_agree hh) fun n n' _ _ hn => ?_
  subst hn
  rw [checkReferralTokens_agree env h hx]
  refine Agree.bind_same fun _ _ => Agree.bind (grantReferrals_agree h id n) fun y y' _ _ hy => ?_
  refine Agree.bind (hy.refgen.createCodes env t id hh) fun g g' _ _ hg => ?_
  exact Agree.pure ⟨{ hy with refgen := hg.1 }, { Out.Same.refl _ with buckets := hg.2 }⟩

theorem createReferralCodesFromAllocation_agree (cl : Caller) {s s' : State} (h : s.Same s') (id : RefId) (i : Nat)
    {hs hs' : List Hash} (hh : ∀ x, x ∈ hs ↔ x ∈ hs') :
    Agree State.Same (createReferralCodesFromAllocation cl s id i hs) (createReferralCodesFromAllocation cl s' id i hs') := by
  unfold createReferralCodesFromAllocation
  refine Agree.require rfl fun _ => Agree.bind (h.refgen.codesFromAllocation id i hh) fun g g' _ _ hg => ?_
  exact Agree.pure { h with refgen := hg }

theorem collectReferralRewards_agree (env : Env) (cl : Caller) {s s' : State} (h : s.Same s') (id : RefId) :
    Agree Res2 (collectReferralRewards env cl s id) (collectReferralRewards env cl s' id) := by
  unfold collectReferralRewards
  rw [h.referrals id]
  refine Agree.require rfl fun _ => Agree.bind_same fun d _ => Agree.bind (payout_agree env h _) fun a a' _ _ ha => ?_
  obtain ⟨a, x⟩ := a
  obtain ⟨a', x'⟩ := a'
  obtain ⟨ha, rfl⟩ := ha
  exact Agree.pure ⟨{ h with pool := ha, referrals := h.referrals.set _ _ }, Out.Same.refl _⟩

theorem claimCode_agree (env : Env) {s s' : State} (h : s.Same s') (code : Option Nat) :
    Agree (fun x x' => x.1.Same x'.1 ∧ x.2 = x'.2) (claimCode env s code) (claimCode env s' code) := by
  unfold claimCode
  cases code with
  | none => exact Agree.pure ⟨h, rfl⟩
  | some c =>
    refine Agree.bind (h.refgen.claim env _) fun g g' _ _ hg => ?_
    obtain ⟨g, r, b⟩ := g
    obtain ⟨g', r', b'⟩ := g'
    obtain ⟨hg, he⟩ := hg
    cases he
    exact Agree.pure ⟨{ h with refgen := hg }, rfl⟩

theorem depositTokens_agree (env : Env) {s s' : State} (h : s.Same s') {v v' : VAccount} (hv : v.Same v') (oath : Option Bucket)
    (tokens : List Bucket) :
    Agree (fun x x' => x.1.Same x'.1 ∧ x.2.Same x'.2) (depositTokens env s v oath tokens) (depositTokens env s' v' oath tokens) := by
  unfold depositTokens
  cases oath with
  | none =>
    refine Agree.bind (VConfig.new_agree h.config fun _ => Iff.rfl) fun c c' _ _ hc => ?_
    rw [h.now]
    refine Agree.bind (addCollateral_agree hc ⟨VPool.new_same h.pool _ fun _ => Iff.rfl, hv, h.dist⟩ tokens) fun w w' _ _ hw => ?_
    exact Agree.pure ⟨h, hw⟩
  | some b =>
    refine Agree.bind (oathLoad_agree env h hv.positionIds) fun x x' _ _ hx => ?_
    refine Agree.bind (addCollateral_agree hx.1.cfg ⟨hx.2, hv, h.dist⟩ tokens) fun w w' _ _ hw => ?_
    refine Agree.bind (settleFeeOath_agree hx.1 hw.pool hw.acc b) fun y y' _ _ hy => ?_
    exact Agree.bind (h.burnOath env b) fun t t' _ _ ht => Agree.pure ⟨ht, hw.pool, hy, hw.dist⟩

theorem Account.Same.refl (a : Account) : a.Same a :=
  ⟨fun _ => rfl, fun _ => rfl, fun _ => rfl, rfl, rfl, rfl, rfl, rfl, rfl, rfl, rfl⟩

theorem createAccount_agree (env : Env) {s s' : State} (h : s.Same s') (a : Addr) (oath : Option Bucket) (rule : Rule)
    (tokens : List Bucket) (code : Option Nat) :
    Agree Res2 (createAccount env s a oath rule tokens code) (createAccount env s' a oath rule tokens code) := by
  unfold createAccount
  rw [okBucket_same env h, h.accounts.has]
  iterate 2 refine Agree.require rfl fun _ => ?_
  refine Agree.bind (claimCode_agree env h code) fun x x' _ _ hx => ?_
  obtain ⟨x, r, bs⟩ := x
  obtain ⟨x', r', bs'⟩ := x'
  obtain ⟨hx, he⟩ := hx
  cases he
  have hs : State.Same { x with accounts := x.accounts.set a (Account.fresh rule r), perms := registerAccount x.perms a rule }
      { x' with accounts := x'.accounts.set a (Account.fresh rule r), perms := registerAccount x'.perms a rule } :=
    { hx with accounts := hx.accounts.set _ (Account.Same.refl _),
              perms := permsFold_same _ _ (permsModify_same _ hx.perms _) }
  refine Agree.bind (hs.load a) fun v v' _ _ hv => Agree.bind (depositTokens_agree env hs hv oath _) fun y y' _ _ hy => ?_
  exact Agree.bind (hy.1.commit hy.2) fun t t' _ _ ht => Agree.pure (res2 ht _)

theorem createRecoveryKey_agree (env : Env) (cl : Caller) {s s' : State} (h : s.Same s') (oath : Option Bucket) (a : Addr) :
    Agree Res2 (createRecoveryKey env cl s oath a) (createRecoveryKey env cl s' oath a) := by
  unfold createRecoveryKey
  refine Agree.bind (h.load a) fun v v' _ _ hv => ?_
  rw [verifyLevel_same cl hv]
  refine Agree.bind_same fun _ _ => Agree.bind (payOath_agree env h hv oath hv.positionIds []) fun x x' _ _ hx => ?_
  obtain ⟨x, y, z⟩ := x
  obtain ⟨x', y', z'⟩ := x'
  obtain ⟨hx, hy, -⟩ := hx
  dsimp only at hx hy ⊢
  rw [hx.recoveryKeys, hy.comp.rule]
  have hs := setAuth_same hx.perms hy .l1 (extendRule (y'.comp.rule .l1) (.proof (env.recoveryProof x'.recoveryKeys)))
  refine Agree.bind (State.Same.commitAcc ?_ hs.2) fun t t' _ _ ht => Agree.pure (res2 ht _)
  exact { hx with perms := hs.1, recoveryKeys := rfl }

theorem addAuthRule_agree (env : Env) (cl : Caller) {s s' : State} (h : s.Same s') (oath : Option Bucket) (a : Addr) (level : Nat)
    (n : Node) : Agree Res2 (addAuthRule env cl s oath a level n) (addAuthRule env cl s' oath a level n) := by
  unfold addAuthRule
  refine Agree.bind (h.load a) fun v v' _ _ hv => ?_
  rw [verifyLevel_same cl hv]
  refine Agree.bind_same fun _ _ => Agree.bind (payOath_agree env h hv oath hv.positionIds []) fun x x' _ _ hx => ?_
  obtain ⟨x, y, z⟩ := x
  obtain ⟨x', y', z'⟩ := x'
  obtain ⟨hx, hy, -⟩ := hx
  dsimp only at hx hy ⊢
  refine Agree.bind_same fun l _ => ?_
  rw [hy.comp.rule]
  have hs := setAuth_same hx.perms hy l (extendRule (y'.comp.rule l) n)
  refine Agree.bind (State.Same.commitAcc ?_ hs.2) fun t t' _ _ ht => Agree.pure (res2 ht _)
  exact { hx with perms := hs.1 }

theorem setLevelAuth_agree (env : Env) (cl : Caller) {s s' : State} (h : s.Same s') (oath : Option Bucket) (a : Addr) (l : Level)
    (r : Rule) : Agree Res2 (setLevelAuth env cl s oath a l r) (setLevelAuth env cl s' oath a l r) := by
  unfold setLevelAuth
  refine Agree.bind (h.load a) fun v v' _ _ hv => ?_
  rw [verifyLevel_same cl hv]
  refine Agree.bind_same fun _ _ => Agree.bind (payOath_agree env h hv oath hv.positionIds []) fun x x' _ _ hx => ?_
  obtain ⟨x, y, z⟩ := x
  obtain ⟨x', y', z'⟩ := x'
  obtain ⟨hx, hy, -⟩ := hx
  dsimp only at hx hy ⊢
  have hs := setAuth_same hx.perms hy l r
  refine Agree.bind (State.Same.commitAcc ?_ hs.2) fun t t' _ _ ht => Agree.pure (res2 ht _)
  exact { hx with perms := hs.1 }

theorem opAddCollateral_agree (env : Env) (cl : Caller) {s s' : State} (h : s.Same s') (oath : Option Bucket) (a : Addr)
    (tokens : List Bucket) : Agree Res2 (opAddCollateral env cl s oath a tokens) (opAddCollateral env cl s' oath a tokens) := by
  unfold opAddCollateral
  rw [okBucket_same env h]
  refine Agree.require rfl fun _ => Agree.bind (h.load a) fun v v' _ _ hv => ?_
  rw [verifyLevel_same cl hv]
  refine Agree.bind_same fun _ _ => Agree.bind (depositTokens_agree env h hv oath _) fun y y' _ _ hy => ?_
  exact Agree.bind (hy.1.commit hy.2) fun t t' _ _ ht => Agree.pure (res2 ht _)

theorem removeCollateralRequest_agree (env : Env) (cl : Caller) {s s' : State} (h : s.Same s') (oath : Option Bucket)
    (expiry : Nat) (a target : Addr) {cs cs' : List (Res × Dec)} (hc : cs.Perm cs') :
    Agree Res2 (removeCollateralRequest env cl s oath expiry a target cs)
      (removeCollateralRequest env cl s' oath expiry a target cs') := by
  unfold removeCollateralRequest
  refine Agree.bind (h.load a) fun v v' _ _ hv => ?_
  rw [verifyLevel_same cl hv, hc.length_eq]
  refine Agree.bind_same fun _ _ => Agree.bind (payOath_agree env h hv oath hv.positionIds []) fun x x' _ _ hx => ?_
  obtain ⟨x, y, z⟩ := x
  obtain ⟨x', y', z'⟩ := x'
  obtain ⟨hx, hy, hz⟩ := hx
  dsimp only at hx hy hz ⊢
  rw [hx.now, hy.requestsLen]
  refine Agree.require rfl fun _ => Agree.bind (hy.pushRequest _ ?_ _ _ _ _) fun w w' _ _ hw => ?_
  · simp only [Request.canon, Multiset.coe_eq_coe.mpr hc]
  · refine Agree.unit (assertActiveLimit_agree hz hw) (Agree.bind (hx.commitAcc hw) fun t t' _ _ ht => Agree.pure (res2 ht _))

theorem assertTradeSize_agree {c c' : VConfig} (hc : c.Same c') (p : PairId) (x : Dec) :
    assertTradeSize c p x = assertTradeSize c' p x := by
  unfold assertTradeSize; rw [hc.pair]

theorem mapM_perm {A B : Type} (f : A → R B) {l l' : List A} (h : l.Perm l') :
    Agree List.Perm (l.mapM f) (l'.mapM f) := by
  induction h with
  | nil => exact Agree.pure (List.Perm.refl _)
  | cons x _ ih =>
    rw [List.mapM_cons, List.mapM_cons]
    exact Agree.bind_same fun y _ => Agree.bind ih fun r r' _ _ hr => Agree.pure (hr.cons y)
  | swap x y l =>
    simp only [List.mapM_cons]
    cases hx : f x <;> cases hy : f y <;> cases hl : l.mapM f
    all_goals first | exact Agree.error | exact Agree.pure (List.Perm.swap _ _ _)
  | trans p1 p2 ih1 ih2 =>
    rename_i l1 l2 l3
    have key : ∀ l : List A, (∃ r, l.mapM f = Except.ok r) ↔ ∀ x ∈ l, ∃ y, f x = Except.ok y := by
      intro l
      induction l with
      | nil => exact ⟨fun _ _ h => absurd h List.not_mem_nil, fun _ => ⟨[], rfl⟩⟩
      | cons x l ih =>
        rw [List.mapM_cons, List.forall_mem_cons, ← ih]
        constructor
        · rintro ⟨r, h⟩
          obtain ⟨y, h1, h2⟩ := bind_ok.mp h
          obtain ⟨z, h3, -⟩ := bind_ok.mp h2
          exact ⟨⟨y, h1⟩, ⟨z, h3⟩⟩
        · rintro ⟨⟨y, h1⟩, ⟨z, h3⟩⟩
          exact ⟨y :: z, by rw [h1, h3]; rfl⟩
    cases h2 : l2.mapM f with
    | error e =>
      have no : ∀ {l : List A} r, l.Perm l2 → l.mapM f ≠ Except.ok r := by
        intro l r hp hr
        obtain ⟨r', hr'⟩ := (key l2).mpr fun x hx => (key l).mp ⟨r, hr⟩ x (hp.mem_iff.mpr hx)
        rw [h2] at hr'; cases hr'
      exact ⟨fun a b h1 h3 => absurd h1 (no a p1), fun a e' h1 h3 => absurd h1 (no a p1),
        fun e' b h1 h3 => absurd h3 (no b p2.symm)⟩
    | ok r =>
      exact ⟨fun a b h1 h3 => (ih1.both a r h1 h2).trans (ih2.both r b h2 h3), fun a e' h1 h3 => ih2.left r e' h2 h3,
        fun e' b h1 h3 => ih1.right e' r h1 h2⟩

theorem marginOrderRequest_agree (env : Env) (cl : Caller) {s s' : State} (h : s.Same s') (oath : Option Bucket) (a : Addr)
    (o : OrderArgs) {p p' q q' : List RequestIndexRef} (hp : p.Perm p') (hq : q.Perm q') (st : Status) :
    Agree Res2 (marginOrderRequest env cl s oath a o p q st) (marginOrderRequest env cl s' oath a o p' q' st) := by
  unfold marginOrderRequest
  refine Agree.bind (h.load a) fun v v' _ _ hv => ?_
  rw [verifyLevel_same cl hv, hp.length_eq, hq.length_eq]
  refine Agree.bind_same fun _ _ => ?_
  refine Agree.bind (payOath_agree env h hv oath (insertId_same hv.positionIds o.pair) [o.pair]) fun x x' _ _ hx => ?_
  obtain ⟨x, y, z⟩ := x
  obtain ⟨x', y', z'⟩ := x'
  obtain ⟨hx, hy, hz⟩ := hx
  dsimp only at hx hy hz ⊢
  rw [hx.now, hy.requestsLen, assertTradeSize_agree hz]
  refine Agree.bind_same fun _ _ => ?_
  iterate 2 refine Agree.require rfl fun _ => ?_
  refine Agree.bind (mapM_perm _ hp) fun i i' _ _ hi => Agree.bind (mapM_perm _ hq) fun j j' _ _ hj => ?_
  refine Agree.bind (hy.pushRequest _ ?_ _ _ _ _) fun w w' _ _ hw => ?_
  · simp only [Request.canon, Multiset.coe_eq_coe.mpr hi, Multiset.coe_eq_coe.mpr hj]
  · refine Agree.unit (assertActiveLimit_agree hz hw) (Agree.bind (hx.commitAcc hw) fun t t' _ _ ht => Agree.pure (res2 ht _))

theorem pushExit_agree {v v' : VAccount} (hv : v.Same v') (now : Int) (o : OrderArgs) (l : Option PriceLimit) (c : List Nat) :
    Agree VAccount.Same (pushExit v now o l c) (pushExit v' now o l c) := by
  unfold pushExit
  cases l with
  | none => exact Agree.pure hv
  | some l => exact Agree.bind_same fun _ _ => hv.pushRequest _ rfl _ _ _ _

theorem marginOrderTpSlRequest_agree (env : Env) (cl : Caller) {s s' : State} (h : s.Same s') (oath : Option Bucket) (a : Addr)
    (o : OrderArgs) (tp sl : Option Dec) :
    Agree Res2 (marginOrderTpSlRequest env cl s oath a o tp sl) (marginOrderTpSlRequest env cl s' oath a o tp sl) := by
  unfold marginOrderTpSlRequest
  refine Agree.bind (h.load a) fun v v' _ _ hv => ?_
  rw [verifyLevel_same cl hv]
  refine Agree.bind_same fun _ _ => ?_
  refine Agree.bind (payOath_agree env h hv oath (insertId_same hv.positionIds o.pair) [o.pair]) fun x x' _ _ hx => ?_
  obtain ⟨x, y, z⟩ := x
  obtain ⟨x', y', z'⟩ := x'
  obtain ⟨hx, hy, hz⟩ := hx
  dsimp only at hx hy hz ⊢
  rw [hx.now, hy.requestsLen, assertTradeSize_agree hz]
  refine Agree.bind_same fun _ _ => ?_
  refine Agree.bind (hy.pushRequest _ rfl _ _ _ _) fun w w' _ _ hw => ?_
  refine Agree.bind (pushExit_agree hw _ _ _ _) fun w1 w1' _ _ hw1 => ?_
  refine Agree.bind (pushExit_agree hw1 _ _ _ _) fun w2 w2' _ _ hw2 => ?_
  exact Agree.unit (assertActiveLimit_agree hz hw2) (Agree.bind (hx.commitAcc hw2) fun t t' _ _ ht => Agree.pure (res2 ht _))

theorem opCancelRequests_agree (env : Env) (cl : Caller) {s s' : State} (h : s.Same s') (oath : Option Bucket) (a : Addr)
    {l l' : List Nat} (hl : l.Perm l') : Agree Res2 (opCancelRequests env cl s oath a l) (opCancelRequests env cl s' oath a l') := by
  unfold opCancelRequests
  refine Agree.bind (h.load a) fun v v' _ _ hv => ?_
  rw [verifyLevel_same cl hv]
  refine Agree.bind_same fun _ _ => Agree.bind (payOath_agree env h hv oath hv.positionIds []) fun x x' _ _ hx => ?_
  obtain ⟨x, y, z⟩ := x
  obtain ⟨x', y', z'⟩ := x'
  obtain ⟨hx, hy, hz⟩ := hx
  dsimp only at hx hy hz ⊢
  refine Agree.bind (hy.cancelRequests hl) fun w w' _ _ hw => ?_
  exact Agree.bind (hx.commitAcc hw) fun t t' _ _ ht => Agree.pure (res2 ht _)

/-! ## Keeper methods -/

theorem requestPairs_same {v v' : VAccount} (hv : v.Same v') {r r' : Request} (hr : r.canon = r'.canon) (p : PairId) :
    p ∈ requestPairs v r ↔ p ∈ requestPairs v' r' := by
  cases r with
  | removeCollateral q =>
    cases r' with
    | removeCollateral q' => exact hv.positionIds p
    | marginOrder q' => cases hr
  | marginOrder q =>
    cases r' with
    | removeCollateral q' => cases hr
    | marginOrder q' =>
      simp only [Request.canon, Sum.inr.injEq, Prod.mk.injEq] at hr
      simp only [requestPairs, hr.1]
      exact insertId_same hv.positionIds _ p

theorem executeRequest_agree {c c' : Ctx} {w w' : W} (hc : c.Same c') (hw : w.Same w') {r r' : Request} (hr : r.canon = r'.canon) :
    Agree (fun x x' => x.1.Same x'.1 ∧ x.2.Same x'.2) (executeRequest c w r) (executeRequest c' w' r') := by
  cases r with
  | removeCollateral q =>
    cases r' with
    | removeCollateral q' =>
      simp only [Request.canon, Sum.inl.injEq, Prod.mk.injEq, Multiset.coe_eq_coe] at hr
      unfold executeRequest
      refine Agree.bind (removeCollateral_agree hc hw hr.1 hr.2) fun x x' _ _ hx => ?_
      refine Agree.pure ⟨hx.1, { Out.Same.refl _ with paid := ?_, ev := ?_ }⟩
      · rw [hr.1]; exact hx.2.map _
      · rw [hr.1]; exact .withdrawal _ hx.2
    | marginOrder q' => cases hr
  | marginOrder q =>
    cases r' with
    | removeCollateral q' => cases hr
    | marginOrder q' =>
      unfold executeRequest
      refine Agree.bind (marginOrder_agree hc hw hr) fun x x' _ _ hx => ?_
      obtain ⟨x, e⟩ := x
      obtain ⟨x', e'⟩ := x'
      obtain ⟨hx, rfl⟩ := hx
      exact Agree.pure ⟨hx, Out.Same.refl _⟩

theorem processBody_agree (env : Env) {s s' : State} (h : s.Same s') {v v' : VAccount} (hv : v.Same v') {r r' : Request}
    (hr : r.canon = r'.canon) (b : Bool) (u : Option PriceUpdate) :
    Agree Res2 (processBody env s v r b u) (processBody env s' v' r' b u) := by
  unfold processBody
  cases b with
  | true => exact Agree.bind (h.commitAcc hv) fun t t' _ _ ht => Agree.pure (res2 ht _)
  | false =>
    simp only [Bool.false_eq_true, if_false]
    refine Agree.bind (keeperLoad_agree env h (requestPairs_same hv hr) u) fun x x' _ _ hx => ?_
    obtain ⟨x, y, z⟩ := x
    obtain ⟨x', y', z'⟩ := x'
    obtain ⟨hx, hy, hz⟩ := hx
    dsimp only at hx hy hz ⊢
    refine Agree.bind (executeRequest_agree hy ⟨hz, hv, hx.dist⟩ hr) fun w w' _ _ hw => ?_
    exact Agree.bind (hx.commit hw.1) fun t t' _ _ ht => Agree.pure ⟨ht, hw.2⟩

theorem processRequest_agree (env : Env) {s s' : State} (h : s.Same s') (a : Addr) (i : Nat) (u : Option PriceUpdate) :
    Agree Res2 (processRequest env s a i u) (processRequest env s' a i u) := by
  unfold processRequest
  rw [h.now]
  refine Agree.bind (h.load a) fun v v' _ _ hv => Agree.bind (hv.processRequest _ i) fun x x' _ _ hx => ?_
  obtain ⟨x, r, b⟩ := x
  obtain ⟨x', r', b'⟩ := x'
  obtain ⟨hx, hr, hb⟩ := hx
  dsimp only at hx hr hb ⊢
  subst hb
  refine Agree.bind (VConfig.new_agree h.config (requestPairs_same hx hr)) fun c c' _ _ hc => ?_
  refine Agree.bind (processBody_agree env h hx hr b u) fun y y' _ _ hy => ?_
  obtain ⟨y, o⟩ := y
  obtain ⟨y', o'⟩ := y'
  dsimp only
  rw [hc.ex]
  exact Agree.bind (hy.1.mintReward env _) fun t t' _ _ ht => Agree.pure ⟨ht, { hy.2 with reward := rfl }⟩

theorem opSwapDebt_agree (env : Env) {s s' : State} (h : s.Same s') (a : Addr) (r : Res) (b : Bucket) (u : Option PriceUpdate) :
    Agree Res2 (opSwapDebt env s a r b u) (opSwapDebt env s' a r b u) := by
  unfold opSwapDebt
  rw [okBucket_same env h]
  refine Agree.require rfl fun _ => Agree.bind (h.load a) fun v v' _ _ hv => ?_
  refine Agree.bind (keeperLoad_agree env h (fun _ => Iff.rfl) u) fun x x' _ _ hx => ?_
  obtain ⟨x, y, z⟩ := x
  obtain ⟨x', y', z'⟩ := x'
  obtain ⟨hx, hy, hz⟩ := hx
  dsimp only at hx hy hz ⊢
  refine Agree.bind (swapDebt_agree hy (w := { pool := z, acc := v, dist := x.dist }) ⟨hz, hv, hx.dist⟩ r b) fun w w' _ _ hw => ?_
  obtain ⟨w, t, q, e⟩ := w
  obtain ⟨w', t', q', e'⟩ := w'
  obtain ⟨hw, he⟩ := hw
  cases he
  exact Agree.bind (hx.commit hw) fun t t' _ _ ht => Agree.pure (res2 ht _)

theorem opLiquidate_agree (env : Env) {s s' : State} (h : s.Same s') (a : Addr) (b : Bucket) (u : Option PriceUpdate) :
    Agree Res2 (opLiquidate env s a b u) (opLiquidate env s' a b u) := by
  unfold opLiquidate
  rw [okBucket_same env h]
  refine Agree.require rfl fun _ => Agree.bind (h.load a) fun v v' _ _ hv => ?_
  refine Agree.bind (keeperLoad_agree env h hv.positionIds u) fun x x' _ _ hx => ?_
  obtain ⟨x, y, z⟩ := x
  obtain ⟨x', y', z'⟩ := x'
  obtain ⟨hx, hy, hz⟩ := hx
  dsimp only at hx hy hz ⊢
  refine Agree.bind (liquidate_agree hy (w := { pool := z, acc := v, dist := x.dist }) ⟨hz, hv, hx.dist⟩ b) fun w w' _ _ hw => ?_
  obtain ⟨w, t, e⟩ := w
  obtain ⟨w', t', e'⟩ := w'
  obtain ⟨hw, ht, he⟩ := hw
  dsimp only at hw ht he ⊢
  rw [hy.cfg.ex]
  refine Agree.bind (hx.commit hw) fun q q' _ _ hq => Agree.bind (hq.mintReward env _) fun k k' _ _ hk => ?_
  exact Agree.pure ⟨hk, { Out.Same.refl _ with buckets := ht, ev := .liquidation he }⟩

theorem opAutoDeleverage_agree (env : Env) {s s' : State} (h : s.Same s') (a : Addr) (p : PairId) (u : Option PriceUpdate) :
    Agree Res2 (opAutoDeleverage env s a p u) (opAutoDeleverage env s' a p u) := by
  unfold opAutoDeleverage
  refine Agree.bind (h.load a) fun v v' _ _ hv => ?_
  refine Agree.bind (keeperLoad_agree env h (insertId_same hv.positionIds p) u) fun x x' _ _ hx => ?_
  obtain ⟨x, y, z⟩ := x
  obtain ⟨x', y', z'⟩ := x'
  obtain ⟨hx, hy, hz⟩ := hx
  dsimp only at hx hy hz ⊢
  refine Agree.bind (autoDeleverage_agree hy (w := { pool := z, acc := v, dist := x.dist }) ⟨hz, hv, hx.dist⟩ p) fun w w' _ _ hw => ?_
  obtain ⟨w, e⟩ := w
  obtain ⟨w', e'⟩ := w'
  obtain ⟨hw, rfl⟩ := hw
  dsimp only
  rw [hy.cfg.ex]
  refine Agree.bind (hx.commit hw) fun q q' _ _ hq => Agree.bind (hq.mintReward env _) fun k k' _ _ hk => ?_
  exact Agree.pure (res2 hk _)

theorem updatePairsLoop_markAll (c : Ctx) : ∀ (ids : List PairId) (pool : VPool) (bs : List Bool),
    ids.foldlM (markAll c) (pool, bs) = updatePairsLoop c pool ids >>= fun r => pure (r.1, bs ++ r.2) := by
  intro ids
  induction ids with
  | nil => intro pool bs; simp only [List.foldlM_nil, updatePairsLoop]; exact congrArg Except.ok (by simp)
  | cons p ids ih =>
    intro pool bs
    rw [List.foldlM_cons]
    simp only [markAll, updatePairsLoop, bind_assoc, pure_bind]
    refine bind_congr fun x => ?_
    rw [ih]
    refine bind_congr fun y => ?_
    simp

theorem updatePairsLoop_agree {c c' : Ctx} {pool pool' : VPool} (hc : c.Same c') (hp : pool.Same pool') {ids ids' : List PairId}
    (hl : ids.Perm ids') (hn : ids.Nodup) :
    Agree (fun r r' => r.1.Same r'.1 ∧ r.2.Perm r'.2) (updatePairsLoop c pool ids) (updatePairsLoop c' pool' ids') := by
  have := markAll_agree hc hp hl hn
  rw [updatePairsLoop_markAll, updatePairsLoop_markAll] at this
  simpa using this

theorem opUpdatePairs_agree (env : Env) {s s' : State} (h : s.Same s') {ids ids' : List PairId} (hi : ∀ p, p ∈ ids ↔ p ∈ ids')
    (u : Option PriceUpdate) : Agree Res2 (opUpdatePairs env s ids u) (opUpdatePairs env s' ids' u) := by
  have hp : ids.dedup.Perm ids'.dedup := by
    rw [List.perm_ext_iff_of_nodup ids.nodup_dedup ids'.nodup_dedup]; simpa using hi
  unfold opUpdatePairs
  refine Agree.bind (keeperLoad_agree env h (fun p => hp.mem_iff) u) fun x x' _ _ hx => ?_
  obtain ⟨x, y, z⟩ := x
  obtain ⟨x', y', z'⟩ := x'
  obtain ⟨hx, hy, hz⟩ := hx
  dsimp only at hx hy hz ⊢
  refine Agree.bind (updatePairsLoop_agree hy hz hp ids.nodup_dedup) fun w w' _ _ hw => ?_
  obtain ⟨w, f⟩ := w
  obtain ⟨w', f'⟩ := w'
  obtain ⟨hw, hf⟩ := hw
  dsimp only at hw hf ⊢
  have hn : (f.filter fun b => b).length = (f'.filter fun b => b).length := (hf.filter _).length_eq
  rw [hn]
  refine Agree.bind (State.Same.mintReward (s := { x with pool := w.realize }) (s' := { x' with pool := w'.realize })
    { hx with pool := hw.realize } env _) fun t t' _ _ ht => ?_
  exact Agree.pure ⟨ht, { Out.Same.refl _ with flags := hf }⟩

/-! ## Every call -/

theorem Config.Same.updatePairs {c c' : Config} (h : c.Same c') (xs : List PairConfig) :
    Agree Config.Same (c.updatePairs xs) (c'.updatePairs xs) := by
  refine foldlM_same_list (fun x _ c c' h => ?_) h
  unfold Config.updatePair
  exact Agree.require rfl fun _ => Agree.bind_same fun _ _ => Agree.pure { h with pairs := h.pairs.set _ _ }

theorem Config.Same.updateCollaterals {c c' : Config} (h : c.Same c') (xs : List (Res × CollateralConfig)) :
    Agree Config.Same (c.updateCollaterals xs) (c'.updateCollaterals xs) := by
  refine foldlM_same_list (fun x _ c c' h => ?_) h
  unfold Config.updateCollateral
  exact Agree.require rfl fun _ => Agree.bind_same fun _ _ => Agree.pure { h with collaterals := h.collaterals.set _ _ }

/-- A method body that only changes a state. -/
theorem agree_call {x y : R State} (h : Agree State.Same x y) :
    Agree Res2 (x >>= fun s => pure (s, ({} : Out))) (y >>= fun s => pure (s, {})) :=
  Agree.bind h fun _ _ _ _ hs => Agree.pure (res2 hs _)

theorem body_same (env : Env) (cl : Caller) {s s' : State} (h : s.Same s') (op : Op) :
    Agree Res2 (body env cl s op) (body env cl s' op) := by
  cases op with
  | depositAuthority x =>
    unfold body
    rw [h.authority]
    exact Agree.require rfl fun _ => Agree.bind_same fun _ _ => Agree.pure ⟨{ h with authority := rfl }, Out.Same.refl _⟩
  | withdrawAuthority =>
    have e := h.authority
    exact Agree.pure ⟨{ h with authority := rfl }, by simp only [e]; exact Out.Same.refl _⟩
  | signalUpgrade _ => exact Agree.pure (res2 h _)
  | updateExchangeConfig c =>
    unfold body Config.updateExchange
    simp only [bind_assoc, pure_bind]
    exact Agree.require rfl fun _ => Agree.bind_same fun _ _ =>
      Agree.pure ⟨{ h with config := { h.config with exchange := rfl } }, Out.Same.refl _⟩
  | updatePairConfigs cs =>
    exact Agree.bind (h.config.updatePairs cs) fun c c' _ _ hc => Agree.pure ⟨{ h with config := hc }, Out.Same.refl _⟩
  | updateCollateralConfigs cs =>
    exact Agree.bind (h.config.updateCollaterals cs) fun c c' _ _ hc => Agree.pure ⟨{ h with config := hc }, Out.Same.refl _⟩
  | removeCollateralConfig r =>
    exact Agree.pure ⟨{ h with config := { h.config with collaterals := h.config.collaterals.erase r } }, Out.Same.refl _⟩
  | collectTreasury => exact collectTreasury_agree env h
  | collectFeeDelegator => exact collectFeeDelegator_agree env h
  | mintReferral id a b m => exact agree_call (mintReferral_agree h id a b m)
  | mintReferralWithAllocation id a b m t c n =>
    exact Agree.bind (mintReferral_agree h id a b m) fun x x' _ _ hx => addReferralAllocation_agree env hx id t c n
  | updateReferral id a b m => exact agree_call (updateReferral_agree h id a b m)
  | addReferralAllocation id t c n => exact addReferralAllocation_agree env h id t c n
  | swapProtocolFee b => exact swapProtocolFee_agree env h b
  | addLiquidity b => exact opAddLiquidity_agree env h b
  | removeLiquidity b => exact opRemoveLiquidity_agree env h b
  | createReferralCodes id t hs => exact createReferralCodes_agree env cl h id t (AMap.Same.refl hs)
  | createReferralCodesFromAllocation id i hs =>
    exact agree_call (createReferralCodesFromAllocation_agree cl h id i fun _ => Iff.rfl)
  | collectReferralRewards id => exact collectReferralRewards_agree env cl h id
  | createAccount a o r t c => exact createAccount_agree env h a o r t c
  | createRecoveryKey o a => exact createRecoveryKey_agree env cl h o a
  | addAuthRule o a l n => exact addAuthRule_agree env cl h o a l n
  | setLevelAuth o a l r => exact setLevelAuth_agree env cl h o a l r
  | addCollateral o a t => exact opAddCollateral_agree env cl h o a t
  | removeCollateralRequest o e a t c => exact removeCollateralRequest_agree env cl h o e a t (List.Perm.refl c)
  | marginOrderRequest o a x p q st => exact marginOrderRequest_agree env cl h o a x (.refl p) (.refl q) st
  | marginOrderTpSlRequest o a x tp sl => exact marginOrderTpSlRequest_agree env cl h o a x tp sl
  | cancelRequests o a l => exact opCancelRequests_agree env cl h o a (.refl l)
  | processRequest a i u => exact processRequest_agree env h a i u
  | swapDebt a r p u => exact opSwapDebt_agree env h a r p u
  | liquidate a p u => exact opLiquidate_agree env h a p u
  | autoDeleverage a p u => exact opAutoDeleverage_agree env h a p u
  | updatePairs ids u => exact opUpdatePairs_agree env h (fun _ => Iff.rfl) u
  | setRole r rule =>
    unfold body setRole
    rw [h.roles]
    simp only [bind_assoc, pure_bind]
    iterate 2 refine Agree.require rfl fun _ => ?_
    exact Agree.pure ⟨{ h with roles := rfl }, Out.Same.refl _⟩
  | oraclePush u => exact Agree.bind (h.oracle.push env u) fun o o' _ _ ho => Agree.pure ⟨{ h with oracle := ho }, Out.Same.refl _⟩
  | oracleAddKey id k =>
    simp only [body, Oracle.addKey, h.oracle.keys.has, bind_assoc, pure_bind]
    exact Agree.require rfl fun _ => Agree.pure ⟨{ h with oracle := { h.oracle with keys := h.oracle.keys.set _ _ } }, Out.Same.refl _⟩
  | oracleRemoveKey id =>
    exact Agree.pure ⟨{ h with oracle := { h.oracle with keys := h.oracle.keys.erase _ } }, Out.Same.refl _⟩
  | oracleRemovePrice p =>
    exact Agree.pure ⟨{ h with oracle := { h.oracle with prices := h.oracle.prices.erase _ } }, Out.Same.refl _⟩
  | delegatorMaxLock x =>
    unfold body; rw [h.delegator]
    exact Agree.bind_same fun _ _ => Agree.pure ⟨{ h with delegator := rfl }, Out.Same.refl _⟩
  | delegatorMultiplier x =>
    unfold body; rw [h.delegator]
    exact Agree.bind_same fun _ _ => Agree.pure ⟨{ h with delegator := rfl }, Out.Same.refl _⟩
  | delegatorContingent b =>
    unfold body; rw [h.delegator]
    exact Agree.pure ⟨{ h with delegator := rfl }, Out.Same.refl _⟩
  | delegatorDeposit x =>
    unfold body; rw [h.delegator]
    exact Agree.bind_same fun _ _ => Agree.pure ⟨{ h with delegator := rfl }, Out.Same.refl _⟩
  | delegatorWithdraw x =>
    unfold body; rw [h.delegator]
    exact Agree.bind_same fun _ _ => Agree.pure ⟨{ h with delegator := rfl }, Out.Same.refl _⟩
  | lockFee x =>
    unfold body lockFee
    rw [h.delegator, h.oathSupply]
    refine Agree.require rfl fun _ => ?_
    iterate 5 refine Agree.bind_same fun _ _ => ?_
    exact Agree.require rfl fun _ => Agree.pure ⟨{ h with delegator := rfl, oathSupply := rfl }, Out.Same.refl _⟩
  | tick t =>
    unfold body
    rw [h.now]
    exact Agree.require rfl fun _ => Agree.pure ⟨{ h with now := rfl }, Out.Same.refl _⟩

theorem body_agree (env : Env) (cl : Caller) {s s' : State} (h : s.Same s') {op op' : Op} (ho : op.Same op') :
    Agree Res2 (body env cl s op) (body env cl s' op') := by
  cases ho with
  | same op => exact body_same env cl h op
  | codes id t hh => exact createReferralCodes_agree env cl h id t hh
  | codesFrom id i hh => exact agree_call (createReferralCodesFromAllocation_agree cl h id i hh)
  | pairs u hh => exact opUpdatePairs_agree env h hh u
  | cancel o a hh => exact opCancelRequests_agree env cl h o a hh
  | withdraw o e a t hh => exact removeCollateralRequest_agree env cl h o e a t hh
  | order o a x st h1 h2 => exact marginOrderRequest_agree env cl h o a x h1 h2 st

theorem step_agree (env : Env) (cl : Caller) {s s' : State} (h : s.Same s') {op op' : Op} (ho : op.Same op') :
    Agree Res2 (step env cl s op) (step env cl s' op') := by
  have e1 : checkRole cl s op = checkRole cl s' op' := by
    unfold checkRole; rw [h.roles]; cases ho <;> rfl
  have e2 : checkOwner cl s op = checkOwner cl s' op' := by
    have : op.ownerRule s = op'.ownerRule s' := by
      cases ho with
      | same op => cases op <;> simp only [Op.ownerRule, h.oracleOwner, h.delegatorOwner]
      | _ => rfl
    unfold checkOwner; rw [this]
  have e3 : checkAuthority s op = checkAuthority s' op' := by
    unfold checkAuthority; rw [h.authority]; cases ho <;> rfl
  unfold step
  rw [e1, e2, e3]
  iterate 3 refine Agree.bind_same fun _ _ => ?_
  exact body_agree env cl h ho

/-- **C62.** The order in which the hash maps and hash sets are stored and iterated does not influence a
call: on two ledger states with the same content, the same call, passing its maps and sets in any order,
leaves states with the same content and the same outcome. -/
theorem c62_call {env : Env} {cl : Caller} {s s' t t' : State} {op op' : Op} {o o' : Out} (h : s.Same s') (ho : op.Same op')
    (h1 : step env cl s op = Except.ok (t, o)) (h2 : step env cl s' op' = Except.ok (t', o')) : t.Same t' ∧ o.Same o' :=
  (step_agree env cl h ho).both _ _ h1 h2

/-- **C62.** And it does not influence whether the call succeeds, except through an overflow of an
intermediate sum. -/
theorem c62_refusal {env : Env} {cl : Caller} {s s' t : State} {op op' : Op} {o : Out} {e : Err} (h : s.Same s')
    (ho : op.Same op') (h1 : step env cl s op = Except.ok (t, o)) (h2 : step env cl s' op' = Except.error e) :
    e = .arithmetic :=
  (step_agree env cl h ho).left _ _ h1 h2

theorem runOps_agree (env : Env) (cl : Caller) {ops ops' : List Op} (ho : List.Forall₂ Op.Same ops ops') :
    ∀ {s s' : State}, s.Same s' → Agree (fun x x' => x.1.Same x'.1 ∧ List.Forall₂ Out.Same x.2 x'.2)
      (runOps env cl s ops) (runOps env cl s' ops') := by
  induction ho with
  | nil => intro s s' h; exact Agree.pure ⟨h, .nil⟩
  | cons h1 _ ih =>
    intro s s' h
    unfold runOps
    refine Agree.bind (step_agree env cl h h1) fun x x' _ _ hx => Agree.bind (ih hx.1) fun y y' _ _ hy => ?_
    exact Agree.pure ⟨hy.1, .cons hx.2 hy.2⟩

/-- **C62.** The same for whole transactions. -/
theorem c62_transaction (env : Env) (cl : Caller) {ops ops' : List Op} (ho : List.Forall₂ Op.Same ops ops')
    {s s' : State} (h : s.Same s') : Agree (fun x x' => x.1.Same x'.1 ∧ List.Forall₂ Out.Same x.2 x'.2)
      (runTx env cl s ops) (runTx env cl s' ops') := by
  unfold runTx
  refine Agree.bind (runOps_agree env cl ho h) fun x x' _ _ hx => ?_
  rw [hx.1.oathSupply]
  exact Agree.require rfl fun _ => Agree.pure hx

end Perp
