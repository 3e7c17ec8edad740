import Verif.Orders

/-!
# Withdrawals and limits: C05 (second half), C17, C26
-/

namespace Perp

/-! ## Sums over lists of tokens -/

/-- Total amount of a resource in a list of claims. -/
def claimed (l : List (Res × Dec)) (r : Res) : Int := ((l.filter (fun e => e.1 = r)).map Prod.snd).sum

/-- Total amount of a resource in a list of buckets. -/
def totalOf (l : List Bucket) (r : Res) : Int := ((l.filter (fun b => b.res = r)).map Bucket.amt).sum

theorem claimed_cons (e : Res × Dec) (l : List (Res × Dec)) (r : Res) :
    claimed (e :: l) r = (if e.1 = r then e.2 else 0) + claimed l r := by
  unfold claimed
  by_cases h : e.1 = r <;> simp [h]

theorem totalOf_cons (b : Bucket) (l : List Bucket) (r : Res) :
    totalOf (b :: l) r = (if b.res = r then b.amt else 0) + totalOf l r := by
  unfold totalOf
  by_cases h : b.res = r <;> simp [h]

theorem totalOf_append (l l' : List Bucket) (r : Res) : totalOf (l ++ l') r = totalOf l r + totalOf l' r := by
  unfold totalOf; simp

theorem totalOf_nil (r : Res) : totalOf [] r = 0 := rfl

theorem addClaims_get {l : List (Res × Dec)} : ∀ {m m' : AMap Res Dec}, l.foldlM addClaim m = Except.ok m' →
    ∀ r, (m'.get r).getD 0 = (m.get r).getD 0 + claimed l r := by
  induction l with
  | nil =>
    intro m m' h r
    simp only [List.foldlM_nil, pure_ok] at h
    subst h; simp [claimed]
  | cons e l ih =>
    intro m m' h r
    simp only [List.foldlM_cons, bind_ok] at h
    obtain ⟨m1, h1, h2⟩ := h
    rw [ih h2 r, claimed_cons]
    have : (m1.get r).getD 0 = (m.get r).getD 0 + (if e.1 = r then e.2 else 0) := by
      unfold addClaim at h1
      split at h1
      · rename_i x hx
        simp only [bind_ok, pure_ok, dadd_ok] at h1
        obtain ⟨_, ⟨-, rfl⟩, rfl⟩ := h1
        rw [AMap.get_set]
        split
        · rename_i e'; subst e'; simp [hx]
        · simp
      · rename_i hx
        simp only [pure_ok] at h1
        subst h1
        rw [AMap.get_set]
        split
        · rename_i e'; subst e'; simp [hx]
        · simp
    rw [this]; ring

theorem amountFor_toZero_le {g : Nat} {a x : Dec} (h : amountFor g a .toZero = x) (h0 : 0 ≤ x) : x ≤ max a 0 := by
  unfold amountFor at h
  simp only at h
  by_cases ha : 0 ≤ a
  · have : a.tdiv g * g ≤ a := by
      rw [Int.tdiv_eq_ediv_of_nonneg ha]
      by_cases hg : (g : Int) = 0
      · rw [hg]; simpa using ha
      · exact Int.ediv_mul_le a hg
    omega
  · have : a.tdiv g * g ≤ 0 := by
      have : a.tdiv g ≤ 0 := by
        rw [show a = -(-a) by ring, Int.neg_tdiv, Int.tdiv_eq_ediv_of_nonneg (by omega)]
        have := Int.ediv_nonneg (a := -a) (b := g) (by omega) (by omega)
        omega
      exact mul_nonpos_of_nonpos_of_nonneg this (by omega)
    omega

/-- What a batch withdrawal yields of each resource. -/
theorem takeBatch_total {env : Env} {cs : List (Res × Dec)} :
    ∀ {m m' : AMap Res Dec} {bs : List Bucket}, vaultTakeBatch env .toZero m cs = Except.ok (m', bs) →
    (∀ b ∈ bs, 0 ≤ b.amt) ∧ bs.map Bucket.res = cs.map Prod.fst ∧ ∀ r, (cs.map Prod.fst).Nodup →
      totalOf bs r ≤ max (claimed cs r) 0 := by
  induction cs with
  | nil =>
    intro m m' bs h
    simp only [vaultTakeBatch, Except.ok.injEq, Prod.mk.injEq] at h
    obtain ⟨-, rfl⟩ := h
    exact ⟨by simp, rfl, by simp [totalOf]⟩
  | cons c cs ih =>
    intro m m' bs h
    simp only [vaultTakeBatch, bind_ok, pure_ok, Prod.mk.injEq] at h
    obtain ⟨⟨c3, x⟩, hv, ⟨d3, bs'⟩, hv', rfl, rfl⟩ := h
    obtain ⟨hr, ham, h0, hg, -, -⟩ := vaultTake_get hv
    obtain ⟨i1, i2, i3⟩ := ih hv'
    refine ⟨?_, by simp [hr, i2], ?_⟩
    · intro b hb
      rcases List.mem_cons.mp hb with rfl | hb
      · exact h0
      · exact i1 b hb
    · intro r hn
      simp only [List.map_cons, List.nodup_cons] at hn
      rw [totalOf_cons, claimed_cons, hr]
      have i3 := i3 r hn.2
      by_cases e : c.1 = r
      · simp only [e, if_true]
        have hz : totalOf bs' r = 0 := by
          unfold totalOf
          rw [List.filter_eq_nil_iff.mpr]; · rfl
          intro b hb
          have : b.res ∈ cs.map Prod.fst := by rw [← i2]; exact List.mem_map_of_mem hb
          simp only [decide_eq_true_eq]
          rintro rfl
          exact hn.1 (e ▸ this)
        have hz' : claimed cs r = 0 := by
          unfold claimed
          rw [List.filter_eq_nil_iff.mpr]; · rfl
          intro b hb
          have : b.1 ∈ cs.map Prod.fst := List.mem_map_of_mem hb
          simp only [decide_eq_true_eq]
          rintro rfl
          exact hn.1 (e ▸ this)
        rw [hz, hz']
        have := amountFor_toZero_le ham h0
        omega
      · simpa only [e, if_false, zero_add] using i3

theorem subBatch_get {bs : List Bucket} : ∀ {m m' : AMap Res Dec}, balanceSubBatch m bs = Except.ok m' →
    ∀ r, (m'.get r).getD 0 = (m.get r).getD 0 - totalOf bs r := by
  induction bs with
  | nil =>
    intro m m' h r
    simp only [balanceSubBatch, List.foldlM_nil, pure_ok] at h
    subst h; simp [totalOf]
  | cons b bs ih =>
    intro m m' h r
    simp only [balanceSubBatch, List.foldlM_cons, bind_ok] at h
    obtain ⟨m1, h1, h2⟩ := h
    obtain ⟨x, hx, hg⟩ := balanceSub_get h1
    rw [ih h2 r, totalOf_cons, hg r]
    by_cases e : b.res = r
    · subst e
      simp only [if_true, hx, Option.getD_some]
      split
      · rename_i hz; simp only [Option.getD_none]; omega
      · simp only [Option.getD_some]; ring
    · simp [e]

/-! ## C17 -/

/-- The loop over the claims: base tokens are paid from the pool against the virtual balance, everything else is left
for the collateral vaults. -/
theorem claims_ok {env : Env} {l : List (Res × Dec)} :
    ∀ {t t' : W × List Bucket × List (Res × Dec)}, l.foldlM (claimOne env) t = Except.ok t' → (l.map Prod.fst).Nodup →
    ∃ bb, t'.2.1 = t.2.1 ++ bb ∧ (∀ b ∈ bb, b.res = BASE ∧ 0 ≤ b.amt) ∧ totalOf bb BASE ≤ max (claimed l BASE) 0 ∧
      (bb ≠ [] → totalOf bb BASE ≤ max t.1.acc.vb 0) ∧ (BASE ∉ l.map Prod.fst → bb = []) ∧
      t'.1.acc = { t.1.acc with vb := t.1.acc.vb - totalOf bb BASE } ∧
      t'.2.2 = t.2.2 ++ l.filter (fun e => e.1 ≠ BASE) := by
  induction l with
  | nil =>
    intro t t' h _
    simp only [List.foldlM_nil, pure_ok] at h
    subst h
    exact ⟨[], by simp, by simp, by simp [totalOf], by simp, by simp, by simp [totalOf], by simp⟩
  | cons e l ih =>
    intro t t' h hn
    simp only [List.foldlM_cons, bind_ok] at h
    obtain ⟨t1, h1, h2⟩ := h
    simp only [List.map_cons, List.nodup_cons] at hn
    obtain ⟨bb, i1, i2, i3, i4, i5, i6, i7⟩ := ih h2 hn.2
    rcases claimOne_ok h1 with ⟨he, hvb, -, pool, x, w, hp, hw, rfl⟩ | ⟨he, -, rfl⟩
    · have hbb : bb = [] := i5 (he ▸ hn.1)
      subst hbb
      obtain ⟨ht, rfl⟩ := VPool.withdraw_ok hp
      rw [takeAmount_ok] at ht
      obtain ⟨hx, hx0, -, -⟩ := ht
      have hle := amountFor_toZero_le hx hx0
      have hc0 : claimed l BASE = 0 := by
        unfold claimed
        rw [List.filter_eq_nil_iff.mpr]; · rfl
        intro b hb
        have : b.1 ∈ l.map Prod.fst := List.mem_map_of_mem hb
        simp only [decide_eq_true_eq]
        intro hbb
        exact hn.1 (by rw [he, ← hbb]; exact this)
      have htot : totalOf [⟨BASE, x⟩] BASE = x := by simp [totalOf]
      refine ⟨[⟨BASE, x⟩], by simp [i1], by simpa using hx0, ?_, ?_, ?_, ?_, ?_⟩
      · rw [htot, claimed_cons, he, if_pos rfl, hc0]; omega
      · intro _
        rw [htot]; omega
      · simp [he]
      · rw [i6]
        simp [settleAccount_ok hw, htot, totalOf_nil, sub_eq_add_neg]
      · rw [i7]
        simp [he]
    · refine ⟨bb, i1, i2, ?_, i4, ?_, i6, ?_⟩
      · rw [claimed_cons, if_neg he, zero_add]; exact i3
      · intro h
        exact i5 (by simp only [List.map_cons, List.mem_cons, not_or] at h; exact h.2)
      · rw [i7]; simp [he]

theorem claimed_entries (m : AMap Res Dec) (r : Res) : claimed m.entries r = (m.get r).getD 0 := by
  have key : ∀ (l : List (Res × Dec)), (l.map Prod.fst).Nodup → claimed l r = (AMap.lget r l).getD 0 := by
    intro l
    induction l with
    | nil => intro _; rfl
    | cons e l ih =>
      intro hn
      simp only [List.map_cons, List.nodup_cons] at hn
      rw [claimed_cons]
      by_cases he : e.1 = r
      · have hz : claimed l r = 0 := by
          unfold claimed
          rw [List.filter_eq_nil_iff.mpr]; · rfl
          intro b hb
          have : b.1 ∈ l.map Prod.fst := List.mem_map_of_mem hb
          simp only [decide_eq_true_eq]
          rintro rfl
          exact hn.1 (he ▸ this)
        rw [hz]
        obtain ⟨k, v⟩ := e
        simp only at he
        simp [AMap.lget, he]
      · rw [if_neg he, ih hn.2]
        obtain ⟨k, v⟩ := e
        simp only at he
        simp [AMap.lget, he]
  exact key m.entries m.nodup

/-- The tokens paid out by a withdrawal and what they are taken from. -/
theorem removeCollateral_paid {c : Ctx} {w w' : W} {q : RemoveCollateralReq} {tokens : List Bucket}
    (h : removeCollateral c w q = Except.ok (w', tokens)) :
    ∃ cs bs, CollTake c.env w.acc.collPart w'.acc.collPart cs bs ∧ (∀ b ∈ tokens, 0 ≤ b.amt) ∧
      (∀ r, totalOf tokens r ≤ max (claimed q.claims r) 0) ∧ totalOf tokens BASE ≤ max w.acc.vb 0 ∧
      w'.acc.vb = w.acc.vb - totalOf tokens BASE ∧ (∀ r, r ≠ BASE → totalOf tokens r = totalOf bs r) ∧
      (∀ b ∈ bs, b.res ≠ BASE) ∧ assertAccountIntegrity c w'.pool w'.acc = Except.ok () := by
  obtain ⟨claims, t, acc, bs, hcl, ht, hw, -, hint, rfl, rfl⟩ := removeCollateral_ok h
  obtain ⟨bb, e1, e2, e3, e4, e5, e6, e7⟩ := claims_ok ht claims.nodup
  simp only [List.nil_append] at e1 e7
  have hget := addClaims_get hcl
  have htake := withdrawCollateral_take hw
  rw [claims_collPart ht] at htake
  obtain ⟨f1, f2, f3⟩ := takeBatch_total htake.vault
  have hsub : (t.2.2.map Prod.fst).Nodup := by
    rw [e7]
    exact List.Nodup.sublist (List.Sublist.map _ List.filter_sublist) claims.nodup
  have hnb : ∀ b ∈ bs, b.res ≠ BASE := by
    intro b hb
    have : b.res ∈ t.2.2.map Prod.fst := by rw [← f2]; exact List.mem_map_of_mem hb
    rw [e7] at this
    simp only [List.mem_map, List.mem_filter, decide_eq_true_eq] at this
    obtain ⟨x, ⟨-, hx⟩, hx'⟩ := this
    rw [← hx']; exact hx
  have hz : totalOf bs BASE = 0 := by
    unfold totalOf
    rw [List.filter_eq_nil_iff.mpr]; · rfl
    intro b hb
    simpa using hnb b hb
  have hz' : ∀ r, r ≠ BASE → totalOf bb r = 0 := by
    intro r hr
    unfold totalOf
    rw [List.filter_eq_nil_iff.mpr]; · rfl
    intro b hb
    simp only [decide_eq_true_eq]
    rintro rfl
    exact hr (e2 b hb).1
  have hcf : ∀ r, r ≠ BASE → claimed t.2.2 r = claimed claims.entries r := by
    intro r hr
    unfold claimed
    rw [e7, List.filter_filter]
    congr 2
    refine List.filter_congr (fun e _ => ?_)
    by_cases he : e.1 = r
    · simp [he, hr]
    · simp [he]
  have hcl' : ∀ r, claimed claims.entries r = claimed q.claims r := by
    intro r
    rw [claimed_entries, hget r]
    simp
  have hv : acc.vb = t.1.acc.vb := by
    have := withdrawCollateral_collOnly hw
    unfold CollOnly at this
    rw [this]
  refine ⟨_, bs, htake, ?_, ?_, ?_, ?_, ?_, hnb, hint⟩
  · intro b hb
    rw [e1] at hb
    rcases List.mem_append.mp hb with hb | hb
    · exact (e2 b hb).2
    · exact f1 b hb
  · intro r
    rw [e1, totalOf_append]
    by_cases hr : r = BASE
    · subst hr
      rw [hz, ← hcl']; simpa using e3
    · rw [hz' r hr, ← hcl', ← hcf r hr]
      simpa using f3 r hsub
  · rw [e1, totalOf_append, hz, add_zero]
    by_cases hb : bb = []
    · rw [hb]; simp [totalOf]
    · exact e4 hb
  · simp only
    rw [hv, e6, e1, totalOf_append, hz, add_zero]
  · intro r hr
    rw [e1, totalOf_append, hz' r hr, zero_add]

/-- **C17.** Executing a withdrawal pays only the recorded target; of every resource it pays at most what was claimed and at
most what the account owned (collateral balance, or virtual balance for the base token), charges the account exactly what
was paid, and leaves the account with at least its initial margin. -/
theorem c17_withdrawal {env : Env} {cl : Caller} {s s' : State} {a : Addr} {i : Nat} {u : Option PriceUpdate} {o : Out}
    {acc : Account} {kr : KeeperRequest} {q : RemoveCollateralReq} (h0 : Reach env s)
    (h : step env cl s (.processRequest a i u) = Except.ok (s', o)) (ha : s.accounts.get a = some acc)
    (hk : acc.requests[i]? = some kr) (hr : kr.request = .removeCollateral q) (hx : o.ev ≠ .expired) :
    o.buckets = [] ∧ (∀ x ∈ o.paid, x.1 = q.target ∧ 0 ≤ x.2.amt) ∧
    (∀ r, totalOf (o.paid.map Prod.snd) r ≤ max (claimed q.claims r) 0) ∧
    totalOf (o.paid.map Prod.snd) BASE ≤ max acc.vb 0 ∧
    (∀ r, r ≠ BASE → totalOf (o.paid.map Prod.snd) r ≤ (acc.collateralBalances.get r).getD 0) ∧
    ∃ acc', s'.accounts.get a = some acc' ∧ acc'.vb = acc.vb - totalOf (o.paid.map Prod.snd) BASE ∧
      (∀ r, r ≠ BASE → (acc'.collateralBalances.get r).getD 0 =
        (acc.collateralBalances.get r).getD 0 - totalOf (o.paid.map Prod.snd) r) ∧
      s'.initialMargin acc' ≤ s'.accountValue acc' := by
  obtain ⟨acc0, acc', kr', ids, s1, c, w0, w, out, hrun, hkr, hids, -, hex, hev, hpd, hbk⟩ := run_execute (step_body h) hx
  have e := hrun.before
  rw [ha] at e; cases e
  rw [hk] at hkr; cases hkr
  rw [hr] at hex
  rcases executeRequest_ok hex with ⟨q', tokens, hq, hrc, ho⟩ | ⟨q', e, hq, hmo, ho⟩
  case inr => cases hq
  cases hq
  obtain ⟨cs, bs, htake, hnn, hcl, hvb, hvb', hbs, hnb, hint⟩ := removeCollateral_paid hrc
  have hpaid : o.paid.map Prod.snd = tokens := by
    rw [hpd, ho]; simp
  have henv : c.env = env := by
    obtain ⟨h2, -⟩ := keeperLoad_ok hrun.load
    exact h2
  have hci : CollInv env w0.acc.collPart := by rw [hrun.collPart0]; exact reach_collOk h0 a acc ha
  have hci' : CollInv env w.acc.collPart := by rw [← henv] at hci ⊢; exact htake.inv hci
  have hbal : ∀ r, (acc'.collateralBalances.get r).getD 0 = (acc.collateralBalances.get r).getD 0 - totalOf bs r := by
    intro r
    rw [(realize_coll hrun.real).2]
    have := subBatch_get htake.comp r
    rw [hrun.collPart0] at this
    exact this
  have hge : ∀ r, 0 ≤ (acc'.collateralBalances.get r).getD 0 := by
    intro r
    cases hg : acc'.collateralBalances.get r with
    | none => simp
    | some x =>
      rw [(realize_coll hrun.real).2] at hg
      exact hci'.nonneg r x hg
  refine ⟨by rw [hbk, ho], ?_, by rw [hpaid]; exact hcl, by rw [hpaid]; rw [hrun.vb0] at hvb; exact hvb, ?_,
    acc', hrun.after, ?_, ?_, hrun.margin (reach_noEmpty h0) hci' hint⟩
  · intro x hx
    rw [hpd, ho] at hx
    simp only [List.mem_map] at hx
    obtain ⟨b, hb, rfl⟩ := hx
    exact ⟨rfl, hnn b hb⟩
  · intro r hr
    rw [hpaid, hbs r hr]
    have := hbal r
    have := hge r
    omega
  · rw [hpaid, ← hrun.vb0, ← hvb']
    obtain ⟨_, -, hacc⟩ := realize_ok hrun.real
    rw [hacc]
  · intro r hr
    rw [hpaid, hbs r hr, hbal r]

/-! ## C26 -/

theorem size_le_of_get {K V : Type} [DecidableEq K] {m m' : AMap K V} (h : ∀ k v, m.get k = some v → ∃ v', m'.get k = some v') :
    m.size ≤ m'.size := by
  have hs : m.keys ⊆ m'.keys := by
    intro k hk
    rw [AMap.mem_keys] at hk ⊢
    obtain ⟨v, hv⟩ := hk
    exact h k v hv
  have := (List.subperm_of_subset m.keys_nodup hs).length_le
  simpa [AMap.keys, AMap.size] using this

/-- **C26, positions and open interest.** After an executed order that gave the account exposure it did not have before, the
account has at most `positions_max` positions, and the open interest on the side the order opened is within `oi_max`. -/
theorem c26_open_limits {env : Env} {cl : Caller} {s s' : State} {a : Addr} {i : Nat} {u : Option PriceUpdate} {o : Out}
    {acc acc' : Account} {kr : KeeperRequest} {r : MarginOrderReq} (h0 : Reach env s)
    (h : step env cl s (.processRequest a i u) = Except.ok (s', o)) (ha : s.accounts.get a = some acc)
    (ha' : s'.accounts.get a = some acc') (hk : acc.requests[i]? = some kr) (hr : kr.request = .marginOrder r)
    (hx : o.ev ≠ .expired) (hp : ¬ Shrunk (acc.size r.pair) (acc'.size r.pair)) :
    acc'.positions.size ≤ s'.config.exchange.decompress.positionsMax ∧
    ∃ pc, s'.config.pairs.get r.pair = some pc ∧
      (0 < acc'.size r.pair → (s'.pool.position s'.now r.pair).oiLong ≤ pc.decompress.oiMax) ∧
      (acc'.size r.pair < 0 → (s'.pool.position s'.now r.pair).oiShort ≤ pc.decompress.oiMax) := by
  obtain ⟨acc1, ids, s1, c, w0, w, e, hrun, hpt, hev, hids, -⟩ := run_order (step_body h) ha hk hr hx
  have e' := hrun.after
  rw [ha'] at e'; cases e'
  have hsize := hrun.size (reach_noEmpty h0) r.pair
  rw [hpt.amount, hrun.size0] at hsize
  have hsp := hpt.split
  rw [hrun.size0] at hsp
  obtain ⟨hs1, hs2⟩ := splitOrder_ok hsp
  have hop : e.amountOpen ≠ 0 := by
    intro hz
    apply hp
    rw [hsize, hz, hs1]
    unfold Shrunk
    split_ifs <;> omega
  obtain ⟨-, hsz, pc, pp, hpc, hpp, hl, hsh⟩ := hpt.opened hop
  refine ⟨?_, ?_⟩
  · rw [hrun.config, ← hrun.ex]
    refine le_trans (size_le_of_get ?_) hsz
    intro k v hv
    rw [hrun.positions (reach_noEmpty h0)] at hv
    rw [Option.filter_eq_some_iff] at hv
    exact ⟨v, hv.1⟩
  · obtain ⟨-, -, hcfg, -, -, -, -⟩ := keeperLoad_ok hrun.load
    obtain ⟨-, -, -, h4⟩ := VConfig.new_ok hcfg
    obtain ⟨-, x, hx', rfl⟩ := h4 r.pair pc hpc
    refine ⟨x, by rw [hrun.config]; exact hx', ?_, ?_⟩
    · intro hpos
      rw [hrun.poolPos hpp]
      refine hl ?_
      rw [hsize] at hpos
      have hro : r.reduceOnly = false := by
        by_contra hc
        rw [Bool.not_eq_false] at hc
        rw [hc] at hs2; exact hop (by simpa using hs2)
      rw [hro] at hs2
      simp only [Bool.false_eq_true, if_false] at hs2
      by_contra hneg
      rw [hs2] at hop hneg hpos
      rw [hs1] at *
      split_ifs at * <;> omega
    · intro hpos
      rw [hrun.poolPos hpp]
      refine hsh ?_
      rw [hsize] at hpos
      have hro : r.reduceOnly = false := by
        by_contra hc
        rw [Bool.not_eq_false] at hc
        rw [hc] at hs2; exact hop (by simpa using hs2)
      rw [hro] at hs2
      simp only [Bool.false_eq_true, if_false] at hs2
      by_contra hneg
      rw [hs2] at hop hneg hpos
      rw [hs1] at *
      split_ifs at * <;> omega


/-- A deposit is only accepted if the account then holds at most the configured number of collateral kinds. -/
theorem depositTokens_limit {env : Env} {s s1 : State} {v : VAccount} {oath : Option Bucket} {tokens : List Bucket}
    {w : W} (h : depositTokens env s v oath tokens = Except.ok (s1, w)) (hc : CollInv env v.collPart)
    (hv : ∀ b ∈ tokens, 0 ≤ b.amt ∧ b.amt % (env.gran b.res : Int) = 0) :
    w.acc.comp.collateralBalances.size ≤ s.config.exchange.decompress.collateralsMax ∧ s1.config = s.config ∧
      w.acc.addr = v.addr := by
  obtain ⟨cfg, ids, w0, hcfg, hadd, hs1, -, -, rfl, -⟩ := depositTokens_ok h
  have haddr := (addCollateral_path (ex := ExchangeConfig.dflt) hadd).frame.1
  obtain ⟨w1, acc, hb, -, hd, hlim, rfl⟩ := addCollateral_ok hadd
  have e1 := addBases_collPart hb
  have hci : CollInv env w1.acc.collPart := by rw [e1]; exact hc
  have hput := (depositCollateral_put hd).inv (env := env)
    (fun x hx => hv x (List.mem_filter.mp hx).1) hci
  have hsame := hput.same
  refine ⟨?_, by rw [hs1]; rfl, haddr⟩
  show acc.comp.collateralBalances.size ≤ _
  rw [VConfig.new_ex hcfg] at hlim
  have : acc.comp.collateralBalances = acc.collateralBalances := hsame.symm
  rw [this]; exact hlim

/-- **C26, collaterals.** After `add_collateral` or `create_account` the account holds at most the configured number of
collateral kinds. -/
theorem c26_collaterals {env : Env} {cl : Caller} {s s' : State} {a : Addr} {op : Op} {o : Out} {acc' : Account}
    (h0 : Reach env s) (h : step env cl s op = Except.ok (s', o))
    (hop : (∃ oath t, op = .addCollateral oath a t) ∨ (∃ oath rule t code, op = .createAccount a oath rule t code))
    (ha' : s'.accounts.get a = some acc') :
    acc'.collateralBalances.size ≤ s'.config.exchange.decompress.collateralsMax := by
  have hb := step_body h
  rcases hop with ⟨oath, t, rfl⟩ | ⟨oath, rule, t, code, rfl⟩
  · obtain ⟨v, s1, w, acc1, refs, hok, hl, -, hd, hr, rfl, -⟩ := opAddCollateral_ok hb
    obtain ⟨acc, rd, hg, -, rfl⟩ := load_ok hl
    obtain ⟨h1, h2, h3⟩ := depositTokens_limit hd (reach_collOk h0 a acc hg)
      (fun b hx => okBucket_valid hok b hx)
    simp only [State.realized, h3, AMap.get_set_self, Option.some.injEq] at ha'
    subst ha'
    rw [(realize_coll hr.1).2]
    show _ ≤ s1.config.exchange.decompress.collateralsMax
    rw [h2]; exact h1
  · obtain ⟨s0, rid, extra, s1, v, s2, w, acc1, refs, hok, -, hc, hs1, hl, hd, hr, rfl, -⟩ := createAccount_ok hb
    obtain ⟨acc, rd, hg, -, rfl⟩ := load_ok hl
    have hg' := hg
    rw [hs1] at hg'
    simp only [AMap.get_set_self, Option.some.injEq] at hg'
    have hci : CollInv env (Account.fresh rule rid).collPart :=
      ⟨rfl, fun r => rfl, fun r x hx => by simp [Account.collPart, Account.fresh] at hx,
        fun r x hx => by simp [Account.collPart, Account.fresh] at hx⟩
    obtain ⟨h1, h2, h3⟩ := depositTokens_limit hd (by subst hg'; exact hci) (fun b hx => by
      rcases List.mem_append.mp hx with hx | hx
      · exact okBucket_valid hok b hx
      · exact claimCode_valid hc b hx)
    simp only [State.realized, h3, AMap.get_set_self, Option.some.injEq] at ha'
    subst ha'
    rw [(realize_coll hr.1).2]
    show _ ≤ s2.config.exchange.decompress.collateralsMax
    rw [h2]; exact h1

/-- **C05, closing.** If a call leaves an account without size in a pair in which it had a position, the position is gone
from the account and its whole size and its whole cost are gone from the pool. -/
theorem c05_closed_completely {env : Env} {cl : Caller} {s s' : State} {op : Op} {o : Out} {a : Addr}
    {acc acc' : Account} {p : PairId} {pos : AccountPosition} (h0 : Reach env s)
    (h : step env cl s op = Except.ok (s', o)) (ha : s.accounts.get a = some acc)
    (ha' : s'.accounts.get a = some acc') (hp : acc.positions.get p = some pos)
    (hz : (acc'.positions.get p).elim 0 AccountPosition.amount = 0) :
    acc'.positions.get p = none ∧
    (s'.pool.positions.get p).elim 0 PoolPosition.oiLong =
      (s.pool.positions.get p).elim 0 PoolPosition.oiLong - max pos.amount 0 ∧
    (s'.pool.positions.get p).elim 0 PoolPosition.oiShort =
      (s.pool.positions.get p).elim 0 PoolPosition.oiShort - max (-pos.amount) 0 ∧
    (s'.pool.positions.get p).elim 0 PoolPosition.cost =
      (s.pool.positions.get p).elim 0 PoolPosition.cost - pos.cost := by
  have h0' : Reach env s' := .step h0 h
  have hn : acc'.positions.get p = none := by
    cases hq : acc'.positions.get p with
    | none => rfl
    | some x => exact absurd (by rw [hq] at hz; exact hz) (c05_no_empty_position h0' ha' hq)
  refine ⟨hn, ?_⟩
  have hacc : s'.accounts = s.accounts.set a acc' := by
    have hb := step_body h
    by_cases ho : op.account = some a
    · rcases body_account hb ho with ⟨lr, hx, -⟩ | ⟨g, rule, rid, -, hn, hx⟩
      · obtain ⟨x, e⟩ := hx.accounts
        have : x = acc' := by rw [e, AMap.get_set_self] at ha'; exact Option.some.inj ha'
        rw [e, this]
      · rw [ha] at hn; cases hn
    · rw [body_accounts hb a ho, ha] at ha'
      cases ha'
      rw [hp] at hn; cases hn
  obtain ⟨l1, l2, l3⟩ := c03_open_interest h0 p
  obtain ⟨r1, r2, r3⟩ := c03_open_interest h0' p
  rw [hacc, AMap.sum_set] at r1 r2 r3
  simp only [AMap.term, ha, hp, hn, Option.elim_some, Option.elim_none] at r1 r2 r3
  refine ⟨?_, ?_, ?_⟩ <;> omega

end Perp
