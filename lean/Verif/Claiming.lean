import Verif.Referrals
import Verif.Scenario

/-!
# A valid unused referral code can always be claimed (C34, progress)
-/

namespace Perp

/-! ## Every code belongs to a referral, and the generator's vaults are ordinary amounts -/

/-- Invariant: codes and allocations belong to existing referrals; vault contents fit in a decimal. -/
structure State.GenKnown (s : State) : Prop where
  code : ∀ h c, s.refgen.codes.get h = some c → ∃ d, s.referrals.get c.referralId = some d
  alloc : ∀ id l, s.refgen.allocations.get id = some l → ∃ d, s.referrals.get id = some d
  vault : ∀ r, (s.refgen.vaults.get r).getD 0 ≤ DMAX

theorem totalOf_nonneg {bs : List Bucket} (h : ∀ b ∈ bs, 0 ≤ b.amt) (r : Res) : 0 ≤ totalOf bs r := by
  induction bs with
  | nil => simp [totalOf]
  | cons b bs ih =>
    rw [totalOf_cons]
    have := ih (fun x hx => h x (by simp [hx]))
    have := h b (by simp)
    split <;> omega

theorem vaultPutBatch_range {bs : List Bucket} : ∀ {m m' : AMap Res Dec}, vaultPutBatch m bs = Except.ok m' →
    (∀ r, (m.get r).getD 0 ≤ DMAX) → ∀ r, (m'.get r).getD 0 ≤ DMAX := by
  induction bs with
  | nil =>
    intro m m' h h0
    simp only [vaultPutBatch, List.foldlM_nil, pure_ok] at h
    subst h; exact h0
  | cons b bs ih =>
    intro m m' h h0
    simp only [vaultPutBatch, List.foldlM_cons, bind_ok] at h
    obtain ⟨m1, h1, h⟩ := h
    refine ih h ?_
    unfold vaultPut at h1
    simp only [bind_ok, pure_ok, dadd_ok, AMap.getD, require_ok] at h1
    obtain ⟨-, -, y, ⟨hy, rfl⟩, rfl⟩ := h1
    intro r
    rw [AMap.get_set]
    split
    · simp only [Option.getD_some]
      rw [inRange_iff] at hy; omega
    · exact h0 r

theorem genStep_known {env : Env} {s : State} {id : RefId} {n : Nat} {g : RefGen} (h : GenStep env s id n s.refgen g)
    (h0 : s.GenKnown) :
    (∀ hh c, g.codes.get hh = some c → (∃ d, s.referrals.get c.referralId = some d) ∨ c.referralId = id) ∧
    (∀ i l, g.allocations.get i = some l → (∃ d, s.referrals.get i = some d) ∨ i = id) ∧
    (∀ r, (g.vaults.get r).getD 0 ≤ DMAX) := by
  cases h with
  | same => exact ⟨fun hh c hc => Or.inl (h0.code hh c hc), fun i l hl => Or.inl (h0.alloc i l hl), h0.vault⟩
  | alloc _ h =>
    obtain ⟨e1, e2, -, -⟩ := addAllocation_ok h
    refine ⟨fun hh c hc => Or.inl (h0.code hh c (by rw [← e1]; exact hc)), ?_, ?_⟩
    · intro i l hl
      rw [e2] at hl
      by_cases e : id = i
      · exact Or.inr e.symm
      · rw [AMap.get_set_ne _ _ e] at hl; exact Or.inl (h0.alloc i l hl)
    · simp only [RefGen.addAllocation, bind_ok, pure_ok, Prod.mk.injEq] at h
      obtain ⟨totals, ht, ⟨taken, rest'⟩, hs, vaults, hv, rfl, -, -⟩ := h
      exact vaultPutBatch_range hv h0.vault
  | codes _ _ h =>
    obtain ⟨e1, e2, -, -⟩ := createCodes_ok h
    refine ⟨?_, fun i l hl => Or.inl (h0.alloc i l (by rw [← e1]; exact hl)), ?_⟩
    · intro hh c hc
      rcases (insertCodes_ok _ _ (fun _ => 0) _ e2).2.2 hh c hc with hc | ⟨e, he, rfl⟩
      · exact Or.inl (h0.code hh c hc)
      · exact Or.inr rfl
    · simp only [RefGen.createCodes, bind_ok, pure_ok, Prod.mk.injEq] at h
      obtain ⟨totals, ht, ⟨taken, rest'⟩, hs, codes, hcs, vaults, hv, rfl, -⟩ := h
      exact vaultPutBatch_range hv h0.vault
  | fromAllocation h =>
    obtain ⟨list, al, e1, e2, e3, e4, e5, e6⟩ := codesFromAllocation_ok h
    refine ⟨?_, ?_, by rw [e4]; exact h0.vault⟩
    · intro hh c hc
      rcases (insertCodes_ok _ _ (fun _ => 0) _ e5).2.2 hh c hc with hc | ⟨e, he, rfl⟩
      · exact Or.inl (h0.code hh c hc)
      · exact Or.inr rfl
    · intro i l hl
      rw [e6] at hl
      by_cases e : id = i
      · exact Or.inr e.symm
      · rw [AMap.get_set_ne _ _ e] at hl; exact Or.inl (h0.alloc i l hl)

theorem accOp_known {s s' : State} {a : Addr} {lr : Option (Level × Rule)} (h : AccOp s a lr s') (h0 : s.GenKnown) : s'.GenKnown := by
  have hq : ∀ id, (∃ d, s.referrals.get id = some d) → ∃ d, s'.referrals.get id = some d := by
    intro id ⟨d, hd⟩
    have := accOp_quota h id
    unfold State.quota at this
    rw [hd] at this
    cases hs : s'.referrals.get id with
    | none => rw [hs] at this; simp at this
    | some d' => exact ⟨d', rfl⟩
  have hg := accOp_refgen h
  exact ⟨fun hh c hc => hq _ (h0.code hh c (by rw [← hg]; exact hc)),
    fun i l hl => hq _ (h0.alloc i l (by rw [← hg]; exact hl)), by rw [hg]; exact h0.vault⟩

theorem shape_known {env : Env} {s s' : State} (h0 : s.GenKnown) (hok : s.refgen.Ok) (h : Shape env s s') : s'.GenKnown := by
  have put : ∀ {id : RefId} {d : ReferralData} {g : RefGen},
      ((∀ hh c, g.codes.get hh = some c → (∃ d, s.referrals.get c.referralId = some d) ∨ c.referralId = id) ∧
       (∀ i l, g.allocations.get i = some l → (∃ d, s.referrals.get i = some d) ∨ i = id) ∧
       (∀ r, (g.vaults.get r).getD 0 ≤ DMAX)) →
      State.GenKnown { s with referrals := s.referrals.set id d, refgen := g } := by
    intro id d g ⟨a, b, c⟩
    have ex : ∀ i, (∃ d, s.referrals.get i = some d) ∨ i = id → ∃ x, (s.referrals.set id d).get i = some x := by
      intro i hi
      by_cases e : id = i
      · exact ⟨d, by rw [← e, AMap.get_set_self]⟩
      · rw [AMap.get_set_ne _ _ e]
        rcases hi with hi | hi
        · exact hi
        · exact absurd hi.symm e
    exact ⟨fun hh c hc => ex _ (a hh c hc), fun i l hl => ex _ (b i l hl), c⟩
  have keep : (∀ hh c, s.refgen.codes.get hh = some c → (∃ d, s.referrals.get c.referralId = some d)) := h0.code
  cases h with
  | newReferral g hg => exact put (genStep_known hg.1 h0)
  | editReferral g hg => obtain ⟨n, hg, -⟩ := hg; exact put (genStep_known hg h0)
  | codes g hg =>
    obtain ⟨id, i, hs, hg⟩ := hg
    obtain ⟨hk1, hk2, hk3⟩ := genStep_known (.fromAllocation (env := env) (s := s) hg) h0
    obtain ⟨list, al, e1, -⟩ := codesFromAllocation_ok hg
    have hid := h0.alloc id list e1
    refine ⟨fun hh c hc => ?_, fun i l hl => ?_, hk3⟩
    · rcases hk1 hh c hc with h | h
      · exact h
      · rw [h]; exact hid
    · rcases hk2 i l hl with h | h
      · exact h
      · rw [h]; exact hid
  | referral hd hpay =>
    rename_i pl x i dd
    have := put (id := i) (d := { dd with balance := 0 }) (g := s.refgen)
      ⟨fun hh c hc => Or.inl (h0.code hh c hc), fun i l hl => Or.inl (h0.alloc i l hl), h0.vault⟩
    exact ⟨this.1, this.2, this.3⟩
  | account h => exact accOp_known h h0
  | create g hg hn h =>
    refine accOp_known h ?_
    rcases hg with ⟨rfl, rfl⟩ | ⟨c, r, bs, rfl, hc⟩
    · exact ⟨h0.1, h0.2, h0.3⟩
    · obtain ⟨code, e1, -, -, e3, e4, e5, e6⟩ := claim_ok hc
      have hcode := hok.code _ _ e1
      refine ⟨?_, ?_, ?_⟩
      · intro hh c' hc'
        simp only at hc' ⊢
        rw [e5, AMap.get_set] at hc'
        split at hc'
        · cases hc'; have := h0.code _ _ e1; exact this
        · exact h0.code _ _ hc'
      · intro i l hl
        simp only at hl ⊢
        rw [e4] at hl; exact h0.alloc i l hl
      · intro r
        simp only
        rw [e6 r, e3]
        have := h0.vault r
        have : 0 ≤ totalOf (rounded env code.claims) r := by
          apply totalOf_nonneg
          intro b hb
          obtain ⟨e, he, rfl⟩ := List.mem_map.mp hb
          exact (round_down (env.gran_pos e.1) (hcode.2.1 e he)).1
        omega
  | _ => exact ⟨h0.1, h0.2, h0.3⟩

theorem reach_genKnown {env : Env} {s : State} (h : Reach env s) : s.GenKnown := by
  have : s.refgen.Ok ∧ s.GenKnown := by
    refine Reach.induct (P := fun s => s.refgen.Ok ∧ s.GenKnown) (env := env) ?_ ?_ h
    · intro s g
      refine ⟨reach_genOk (.init (env := env) g), ?_⟩
      constructor <;> rw [g.refgen]
      · intro _ _ h; simp at h
      · intro _ _ h; simp at h
      · intro r; simp only [AMap.get_empty, Option.getD_none]; decide
    · intro s s' cl op o h0 hb
      exact ⟨shape_genOk h0.1 (body_shape hb), shape_known h0.2 h0.1 (body_shape hb)⟩
  exact this.2

/-! ## Deposits that fit succeed -/

theorem addBases_ok (bs : List Bucket) : ∀ (w : W), (∀ b ∈ bs, b.res = BASE ∧ 0 ≤ b.amt) → w.pool.base = w.pool.comp.baseTokens →
    DMIN ≤ w.pool.base → w.pool.base + totalOf bs BASE ≤ DMAX → DMIN ≤ w.pool.vb - totalOf bs BASE → w.pool.vb ≤ DMAX →
    0 ≤ w.acc.vb → w.acc.vb + totalOf bs BASE ≤ DMAX →
    ∃ w', bs.foldlM addBase w = Except.ok w' ∧ w'.acc = { w.acc with vb := w.acc.vb + totalOf bs BASE } := by
  induction bs with
  | nil =>
    intro w _ _ _ _ _ _ _ _
    exact ⟨w, rfl, by simp [totalOf]⟩
  | cons b bs ih =>
    intro w hb he h1 h2 h3 h4 h5 h6
    obtain ⟨hr, ha⟩ := hb b (by simp)
    have hbs : ∀ x ∈ bs, x.res = BASE ∧ 0 ≤ x.amt := fun x hx => hb x (List.mem_cons_of_mem _ hx)
    have hn' := totalOf_nonneg (fun x hx => (hbs x hx).2) BASE
    rw [totalOf_cons, if_pos hr] at h2 h3 h6
    have hD : DMIN ≤ 0 := by decide
    have hM : 0 ≤ DMAX := by decide
    have hDM : DMIN = -DMAX - 1 := by decide
    obtain ⟨w', e1, e2⟩ := ih
      { pool := { w.pool with base := w.pool.base + b.amt
                              comp := { w.pool.comp with baseTokens := w.pool.comp.baseTokens + b.amt }
                              vb := w.pool.vb + -b.amt }
        acc := { w.acc with vb := w.acc.vb + b.amt }
        dist := w.dist } hbs (by simp only; omega) (by simp only; omega) (by simp only; omega) (by simp only; omega)
        (by simp only; omega) (by simp only; omega) (by simp only; omega)
    refine ⟨w', ?_, ?_⟩
    · simp only [List.foldlM_cons, bind_ok]
      refine ⟨_, ?_, e1⟩
      simp only [addBase, VPool.deposit, settleAccount, VPool.addVb, VAccount.addVb, bind_ok, pure_ok, dadd_ok, dneg_ok, inRange_iff]
      refine ⟨_, ⟨_, ⟨by omega, rfl⟩, _, ⟨by omega, rfl⟩, rfl⟩, _, ⟨by omega, rfl⟩, _, ⟨_, ⟨by show _ ≤ w.pool.vb + -b.amt ∧ w.pool.vb + -b.amt ≤ _; omega, rfl⟩, rfl⟩,
        _, ⟨_, ⟨by omega, rfl⟩, rfl⟩, rfl⟩
    · rw [e2, totalOf_cons, if_pos hr]
      simp only [add_assoc]

theorem size_set_le {K V : Type} [DecidableEq K] (m : AMap K V) (k : K) (v : V) : (m.set k v).size ≤ m.size + 1 := by
  unfold AMap.size
  have : ∀ l : List (K × V), (AMap.lset k v l).length ≤ l.length + 1 := by
    intro l
    induction l with
    | nil => simp [AMap.lset]
    | cons e l ih =>
      unfold AMap.lset
      split <;> simp <;> omega
  exact this m.entries

theorem balanceAdds_ok (bs : List Bucket) : ∀ (m : AMap Res Dec), (∀ b ∈ bs, 0 ≤ b.amt) → (∀ r, 0 ≤ (m.get r).getD 0) →
    (∀ r, (m.get r).getD 0 + totalOf bs r ≤ DMAX) →
    ∃ m', balanceAddBatch m bs = Except.ok m' ∧ m'.size ≤ m.size + bs.length ∧
      ∀ r, (m'.get r).getD 0 = (m.get r).getD 0 + totalOf bs r := by
  induction bs with
  | nil =>
    intro m _ _ _
    exact ⟨m, rfl, by simp, by simp [totalOf]⟩
  | cons b bs ih =>
    intro m hb h0 h1
    have hD : DMIN ≤ 0 := by decide
    have ha := hb b (by simp)
    have hn := fun r => totalOf_nonneg (bs := bs) (fun x hx => hb x (by simp [hx])) r
    have key : balanceAdd m b = Except.ok (m.set b.res ((m.get b.res).getD 0 + b.amt)) := by
      unfold balanceAdd
      have k1 := h1 b.res
      have k2 := h0 b.res
      have k3 := hn b.res
      rw [totalOf_cons, if_pos rfl] at k1
      split
      · rename_i x e
        have hx : (m.get b.res).getD 0 = x := by rw [e]; rfl
        rw [hx] at k1 k2 ⊢
        simp only [bind_ok, pure_ok, dadd_ok, inRange_iff]
        exact ⟨_, ⟨by omega, rfl⟩, rfl⟩
      · rename_i e
        rw [e]; simp [pure, Except.pure]
    obtain ⟨m', e1, e2, e3⟩ := ih (m.set b.res ((m.get b.res).getD 0 + b.amt)) (fun x hx => hb x (by simp [hx]))
      (by
        intro r
        rw [AMap.get_set]
        have := h0 r
        have := h0 b.res
        split
        · simp only [Option.getD_some]; omega
        · assumption)
      (by
        intro r
        have := h1 r
        rw [totalOf_cons] at this
        rw [AMap.get_set]
        split
        · rename_i e; subst e; simp only [if_true, Option.getD_some] at this ⊢; omega
        · rename_i e; simp only [e, if_false] at this; omega)
    refine ⟨m', ?_, ?_, ?_⟩
    · simp only [balanceAddBatch, List.foldlM_cons, bind_ok]
      exact ⟨_, key, e1⟩
    · have := size_set_le m b.res ((m.get b.res).getD 0 + b.amt)
      simp only [List.length_cons]; omega
    · intro r
      rw [e3 r, totalOf_cons, AMap.get_set]
      split
      · rename_i e; subst e; simp only [Option.getD_some]; ring
      · ring

theorem vaultPuts_ok (bs : List Bucket) : ∀ (m : AMap Res Dec), (∀ b ∈ bs, 0 ≤ b.amt ∧ b.res ≠ FEE_OATH) → (∀ r, 0 ≤ (m.get r).getD 0) →
    (∀ r, (m.get r).getD 0 + totalOf bs r ≤ DMAX) → ∃ m', vaultPutBatch m bs = Except.ok m' := by
  induction bs with
  | nil =>
    intro m _ _ _
    exact ⟨m, rfl⟩
  | cons b bs ih =>
    intro m hb h0 h1
    have hD : DMIN ≤ 0 := by decide
    have ha := hb b (by simp)
    have hn := fun r => totalOf_nonneg (bs := bs) (fun x hx => (hb x (by simp [hx])).1) r
    have key : vaultPut m b = Except.ok (m.set b.res ((m.get b.res).getD 0 + b.amt)) := by
      have := h1 b.res
      have := h0 b.res
      have := hn b.res
      rw [totalOf_cons, if_pos rfl] at *
      simp only [vaultPut, bind_ok, pure_ok, dadd_ok, inRange_iff, require_ok, decide_eq_true_eq, AMap.getD]
      exact ⟨(), ha.2, _, ⟨by omega, rfl⟩, rfl⟩
    obtain ⟨m', e1⟩ := ih (m.set b.res ((m.get b.res).getD 0 + b.amt)) (fun x hx => hb x (by simp [hx]))
      (by
        intro r
        rw [AMap.get_set]
        have := h0 r
        have := h0 b.res
        split
        · simp only [Option.getD_some]; omega
        · assumption)
      (by
        intro r
        have := h1 r
        rw [totalOf_cons] at this
        rw [AMap.get_set]
        split
        · rename_i e; subst e; simp only [if_true, Option.getD_some] at this ⊢; omega
        · rename_i e; simp only [e, if_false] at this; omega)
    refine ⟨m', ?_⟩
    simp only [vaultPutBatch, List.foldlM_cons, bind_ok]
    exact ⟨_, key, e1⟩

theorem totalOf_filter (p : Bucket → Bool) (bs : List Bucket) (r : Res) (h : ∀ b ∈ bs, b.res = r → p b = true) :
    totalOf (bs.filter p) r = totalOf bs r := by
  induction bs with
  | nil => rfl
  | cons b bs ih =>
    have := ih (fun x hx => h x (by simp [hx]))
    rw [List.filter_cons]
    by_cases hp : p b = true
    · rw [if_pos hp, totalOf_cons, totalOf_cons, this]
    · rw [if_neg hp, totalOf_cons, this, if_neg (fun e => hp (h b (by simp) e)), zero_add]

theorem totalOf_none {bs : List Bucket} {r : Res} (h : ∀ b ∈ bs, b.res ≠ r) : totalOf bs r = 0 := by
  induction bs with
  | nil => rfl
  | cons b bs ih =>
    rw [totalOf_cons, if_neg (h b (by simp)), ih (fun x hx => h x (by simp [hx]))]; rfl

/-- The generator holds what a usable code promises. -/
theorem code_backed {env : Env} {s : State} (h0 : Reach env s) {code : Nat} {c : ReferralCode}
    (hc : s.refgen.codes.get (env.hash code) = some c) (hu : c.count < c.maxCount) (r : Res) :
    claimed c.claims r ≤ (s.refgen.vaults.get r).getD 0 := by
  have hok := reach_genOk h0
  obtain ⟨-, hpos, hone⟩ := hok.code _ _ hc
  have h1 := hok.backed r
  have h2 : c.owes r ≤ s.refgen.codes.sum (fun _ c => c.owes r) := by
    have := AMap.term_le_sum (f := fun _ c => ReferralCode.owes c r) (m := s.refgen.codes)
      (fun k x hx => owes_code_nonneg (hok.code k x hx).1 (hok.code k x hx).2.1 r) (env.hash code)
    rw [AMap.term_eq, hc] at this; exact this
  have h3 : 0 ≤ s.refgen.allocations.sum (fun _ l => (l.map (fun a => ReferralAllocation.owes a r)).sum) := by
    apply AMap.sum_nonneg
    intro k l hl
    apply list_sum_nonneg
    intro x hx
    obtain ⟨al, ha, rfl⟩ := List.mem_map.mp hx
    exact owes_alloc_nonneg (hok.alloc k l hl al ha).1 (hok.alloc k l hl al ha).2 r
  have h4 : claimed c.claims r ≤ c.owes r := by
    unfold ReferralCode.owes
    have := claimed_nonneg hpos r
    have : (1 : Int) ≤ (c.maxCount : Int) - c.count := by omega
    nlinarith
  unfold RefGen.total at h1
  simp only at h1 h2 h3
  have h5 := le_trans h4 h2
  exact le_trans (le_trans h5 (by linarith)) h1

/-- **C34, an unused code can always be claimed.** Take a code with a use left. A caller allowed to create accounts who
presents it for a new account succeeds, provided its tokens are still accepted as collateral and not too many kinds for one
account, and the pool's counters are not about to overflow: the generator always has the tokens. The new account receives
exactly the claims of the code, each rounded down to the granularity of its token. -/
theorem c34_claimable {env : Env} {s : State} (h0 : Reach env s) {cl : Caller} {code : Nat} {c : ReferralCode} {a : Addr} {rule : Rule}
    (hc : s.refgen.codes.get (env.hash code) = some c) (hu : c.count < c.maxCount)
    (hrole : (s.roles .accountCreationUser).sat cl.pf = true) (hauth : 1 ≤ s.authority) (hn : s.accounts.get a = none)
    (hacc : ∀ e ∈ c.claims, e.1 ≠ BASE → (s.config.collaterals.get e.1).isSome ∧ e.1 ≠ FEE_OATH)
    (hmax : c.claims.length ≤ s.config.exchange.decompress.collateralsMax)
    (hroom : DMIN ≤ s.pool.baseTokens ∧ s.pool.baseTokens + claimed c.claims BASE ≤ DMAX ∧
      DMIN ≤ s.pool.vb - claimed c.claims BASE ∧ s.pool.vb ≤ DMAX) :
    ∃ s' o acc', step env cl s (.createAccount a none rule [] (some code)) = Except.ok (s', o) ∧
      s'.accounts.get a = some acc' ∧ acc'.referralId = some c.referralId ∧
      acc'.vb = totalOf (rounded env c.claims) BASE ∧
      ∀ r, r ≠ BASE → (acc'.collateralBalances.get r).getD 0 = totalOf (rounded env c.claims) r := by
  have hok := reach_genOk h0
  have hkn := reach_genKnown h0
  obtain ⟨-, hpos, hone⟩ := hok.code _ _ hc
  obtain ⟨d, hd⟩ := hkn.code _ _ hc
  -- the generator can pay
  have hback := code_backed h0 hc hu
  obtain ⟨vaults, hv⟩ := vaultTakeBatch_pays (env := env) hpos hback
  let g : RefGen := { s.refgen with vaults, codes := s.refgen.codes.set (env.hash code) { c with count := c.count + 1 } }
  have hclaim : s.refgen.claim env (env.hash code) = Except.ok (g, c.referralId, rounded env c.claims) := by
    simp only [RefGen.claim, bind_ok, pure_ok, expect_ok, require_ok, decide_eq_true_eq, Prod.mk.injEq]
    exact ⟨c, hc, (), hu, _, hv, rfl, rfl, rfl⟩
  have hcc : claimCode env s (some code) = Except.ok ({ s with refgen := g }, some c.referralId, rounded env c.claims) := by
    simp only [claimCode, bind_ok, pure_ok]
    exact ⟨_, hclaim, rfl⟩
  -- the new account
  let s1 : State := { s with refgen := g
                             accounts := s.accounts.set a (Account.fresh rule (some c.referralId))
                             perms := registerAccount s.perms a rule }
  let fresh := Account.fresh rule (some c.referralId)
  obtain ⟨v, hv1, hv2⟩ : ∃ v, s1.load a = Except.ok v ∧
      v = { addr := a, comp := fresh, positions := fresh.positions, collateralBalances := fresh.collateralBalances, vb := fresh.vb,
            validStart := fresh.validStart, requestsLen := fresh.requests.length, activeLen := fresh.active.card, positionsUpdated := [],
            requestAdditions := [], requestUpdates := AMap.empty, activeAdditions := [], activeRemovals := [],
            referralId := fresh.referralId, referralData := some d, referralRewarded := false } := by
    refine ⟨_, ?_, rfl⟩
    simp only [State.load, VAccount.new, bind_ok, pure_ok, expect_ok]
    refine ⟨fresh, by simp only [s1]; rw [AMap.get_set_self], some d, ?_, rfl⟩
    show loadReferral s.referrals (some c.referralId) = _
    simp only [loadReferral, bind_ok, expect_ok, pure_ok]
    exact ⟨d, hd, rfl⟩
  -- the deposit
  have hamt : ∀ b ∈ rounded env c.claims, 0 ≤ b.amt := by
    intro b hb
    obtain ⟨e, he, rfl⟩ := List.mem_map.mp hb
    exact (round_down (env.gran_pos e.1) (hpos e he)).1
  have hle := fun r => rounded_le (env := env) hpos r
  have hnn := fun r => totalOf_nonneg hamt r
  have hfB : totalOf ((rounded env c.claims).filter (fun b => b.res = BASE)) BASE = totalOf (rounded env c.claims) BASE :=
    totalOf_filter _ _ _ (fun b _ e => by simp [e])
  have hbase := hle BASE
  have hbn := hnn BASE
  have hDM : DMIN ≤ 0 ∧ 0 ≤ DMAX := by decide
  have hvm := hkn.vault BASE
  have hbk := hback BASE
  obtain ⟨w1, hw1, hacc1⟩ := addBases_ok ((rounded env c.claims).filter (fun b => b.res = BASE))
    { pool := VPool.new s1.pool s1.now [], acc := v, dist := s1.dist }
    (by
      intro b hb
      simp only [List.mem_filter, decide_eq_true_eq] at hb
      exact ⟨hb.2, hamt b hb.1⟩) rfl hroom.1
    (by rw [hfB]; show s.pool.baseTokens + _ ≤ DMAX; omega)
    (by rw [hfB]; show DMIN ≤ s.pool.vb - _; omega) hroom.2.2.2
    (by simp only [hv2]; exact le_refl _) (by rw [hfB, hv2]; show 0 + _ ≤ DMAX; omega)
  rw [hfB] at hacc1
  have hrest : ∀ b ∈ (rounded env c.claims).filter (fun b => b.res ≠ BASE), 0 ≤ b.amt ∧ b.res ≠ FEE_OATH := by
    intro b hb
    simp only [List.mem_filter, decide_eq_true_eq] at hb
    refine ⟨hamt b hb.1, ?_⟩
    obtain ⟨e, he, rfl⟩ := List.mem_map.mp hb.1
    exact (hacc e he hb.2).2
  have hrng : ∀ r, ((AMap.empty : AMap Res Dec).get r).getD 0 + totalOf ((rounded env c.claims).filter (fun b => b.res ≠ BASE)) r ≤ DMAX := by
    intro r
    simp only [AMap.get_empty, Option.getD_none, zero_add]
    by_cases e : r = BASE
    · rw [totalOf_none]
      · exact hDM.2
      · intro b hb
        simp only [List.mem_filter, decide_eq_true_eq] at hb
        rw [e]; exact hb.2
    · rw [totalOf_filter _ _ _ (fun b _ e' => by simp [e', e])]
      have := hle r
      have := hback r
      have := hkn.vault r
      omega
  obtain ⟨cb, hcb, hsize, hget⟩ := balanceAdds_ok _ AMap.empty (fun b hb => (hrest b hb).1) (by simp) hrng
  obtain ⟨cv, hcv⟩ := vaultPuts_ok _ AMap.empty hrest (by simp) hrng
  have hcfg : VConfig.new s1.config [] = Except.ok
      { ex := s.config.exchange.decompress, pairs := AMap.empty, colls := s.config.collaterals.mapV (fun _ x => x.decompress) } := rfl
  have hdep : depositTokens env s1 v none ([] ++ rounded env c.claims) = Except.ok
      (s1, { w1 with acc := { w1.acc with collateralBalances := cb
                                          comp := { w1.acc.comp with collateralBalances := cb, collateral := cv } } }) := by
    simp only [depositTokens, bind_ok, pure_ok, addCollateral, List.nil_append, require_ok, Prod.mk.injEq, true_and,
      VAccount.depositCollateral, assertCollateralsLimit]
    refine ⟨_, hcfg, _, ⟨w1, hw1, (), ?_, _, ⟨cb, ?_, cb, ?_, cv, ?_, rfl⟩, (), ?_, rfl⟩, rfl⟩
    · rw [List.all_eq_true]
      intro b hb
      simp only [List.mem_filter, decide_eq_true_eq] at hb
      obtain ⟨e, he, rfl⟩ := List.mem_map.mp hb.1
      have := (hacc e he hb.2).1
      simp only [AMap.has, AMap.get_mapV, Option.isSome_map]
      exact this
    · rw [hacc1, hv2]; exact hcb
    · rw [hacc1, hv2]; exact hcb
    · rw [hacc1, hv2]; exact hcv
    · simp only [decide_eq_true_eq]
      refine le_trans hsize (le_trans ?_ hmax)
      simp only [AMap.size, AMap.empty, List.length_nil, zero_add]
      refine le_trans (List.length_filter_le _ _) ?_
      simp [rounded]
  obtain ⟨acc2, hreal, p1, p2, p3⟩ : ∃ acc2 : Account,
      ({ w1.acc with collateralBalances := cb
                     comp := { w1.acc.comp with collateralBalances := cb, collateral := cv } } : VAccount).realize = Except.ok acc2 ∧
      acc2.referralId = some c.referralId ∧ acc2.vb = totalOf (rounded env c.claims) BASE ∧ acc2.collateralBalances = cb := by
    simp only [VAccount.realize, bind_ok, pure_ok, hacc1, hv2]
    refine ⟨_, ⟨[], rfl, rfl⟩, rfl, ?_, rfl⟩
    show (0 : Int) + _ = _
    rw [zero_add]
  have haddr : w1.acc.addr = a := by rw [hacc1, hv2]
  refine ⟨{ s1 with pool := w1.pool.realize, accounts := s1.accounts.set a acc2, referrals := s1.referrals, dist := w1.dist },
    { ev := .created a (some c.referralId) }, acc2, ?_, ?_, p1, p2, ?_⟩
  · simp only [step, bind_ok]
    refine ⟨(), ?_, (), rfl, (), ?_, ?_⟩
    · simp only [checkRole, Op.role, require_ok]; exact hrole
    · simp only [checkAuthority, Op.authorized, Op.role, Option.isSome_some, if_true, require_ok, decide_eq_true_eq]; exact hauth
    · show createAccount env s a none rule [] (some code) = _
      simp only [createAccount, bind_ok, pure_ok, require_ok, Prod.mk.injEq]
      refine ⟨(), rfl, (), by simp [AMap.has, hn], _, hcc, v, hv1, _, hdep, _, ?_, rfl, rfl⟩
      simp only [State.commit, bind_ok, pure_ok]
      refine ⟨acc2, hreal, s1.referrals, ?_, ?_⟩
      · simp only [VAccount.realizeReferral, hacc1, hv2]; rfl
      · simp only [haddr]
  · simp only; rw [AMap.get_set_self]
  · intro r hr
    rw [p3, hget r, totalOf_filter _ _ _ (fun b _ e' => by simp [e', hr])]
    simp

namespace Scn

/-- Referral 1 with an allocation of three codes, two of them created, and two codes of its own: one worth 2, one for four
accounts worth nothing. -/
def codesOps : List Op :=
  [.mintReferralWithAllocation 1 (d 5 2) (d 5 2) 10 [⟨BASE, d 100⟩, ⟨10, d 100⟩] [(BASE, d 5), (10, d 7)] 3,
   .createReferralCodesFromAllocation 1 0 [5001, 5002],
   .createReferralCodes 1 [⟨BASE, d 10⟩] ((AMap.empty.set 5003 ([(BASE, d 2)], 1)).set 5004 ([], 4))]

def codes : State := after ready codesOps
/-- Two accounts have been opened with the code for four. -/
def claimedTwice : State := after codes [.createAccount 301 none .allowAll [] (some 4), .createAccount 302 none .allowAll [] (some 4)]

theorem codes_reach : Reach env codes := after_reach ready_reach _
theorem claimedTwice_reach : Reach env claimedTwice := after_reach codes_reach _

/-- The generator owes 5 * 3 + 2 of the base token and 7 * 3 of resource 10, and holds that; eight referrals are granted. -/
example : codes.promised BASE = d 17 ∧ codes.backing BASE = d 17 ∧ codes.promised 10 = d 21 ∧ codes.granted 1 = 8 ∧
    codes.issued 1 = 8 := by decide +kernel

/-- `c34_claimable` applies to the code with hash 5001, worth 5 base tokens and 7 of resource 10 ... -/
example : ∃ c, codes.refgen.codes.get (env.hash 1) = some c ∧ c.count < c.maxCount ∧ c.claims = [(BASE, d 5), (10, d 7)] ∧
    (codes.roles .accountCreationUser).sat anyone.pf = true ∧ 1 ≤ codes.authority ∧ codes.accounts.get 300 = none ∧
    (∀ e ∈ c.claims, e.1 ≠ BASE → (codes.config.collaterals.get e.1).isSome ∧ e.1 ≠ FEE_OATH) ∧
    c.claims.length ≤ codes.config.exchange.decompress.collateralsMax ∧
    (DMIN ≤ codes.pool.baseTokens ∧ codes.pool.baseTokens + claimed c.claims BASE ≤ DMAX ∧
      DMIN ≤ codes.pool.vb - claimed c.claims BASE ∧ codes.pool.vb ≤ DMAX) :=
  ⟨⟨1, [(BASE, d 5), (10, d 7)], 0, 1⟩, by decide +kernel⟩

/-- ... and a code for four accounts counts its uses. -/
example : claimedTwice.referred 1 = 2 ∧ claimedTwice.used 1 = 2 ∧
    ∃ c, claimedTwice.refgen.codes.get 5004 = some c ∧ c.count = 2 ∧ c.maxCount = 4 :=
  ⟨by decide +kernel, by decide +kernel, ⟨1, [], 2, 4⟩, by decide +kernel⟩

end Scn

end Perp
