import Verif.Liquidation
import Verif.Balances
import Verif.Limits

/-!
# Referral codes, allocations and limits (C34, C35)
-/

namespace Perp

/-! ## Specification -/

/-- The tokens of resource `r` still promised by one code: its claims times its remaining uses. -/
def ReferralCode.owes (c : ReferralCode) (r : Res) : Int := ((c.maxCount : Int) - c.count) * claimed c.claims r

/-- The tokens of resource `r` still promised by one allocation: its claims times the codes that can still be created. -/
def ReferralAllocation.owes (a : ReferralAllocation) (r : Res) : Int := ((a.maxCount : Int) - a.count) * claimed a.claims r

/-- Everything of resource `r` promised to future holders of codes. -/
def State.promised (s : State) (r : Res) : Int :=
  s.refgen.codes.sum (fun _ c => c.owes r) + s.refgen.allocations.sum (fun _ l => (l.map (·.owes r)).sum)

/-- What the referral generator holds of resource `r`. -/
def State.backing (s : State) (r : Res) : Int := (s.refgen.vaults.get r).getD 0

/-- Referrals granted to `id` so far, as recorded on its badge. -/
def State.granted (s : State) (id : RefId) : Nat := ((s.referrals.get id).map (·.referrals)).getD 0

/-- Uses of all codes of `id`, used or not, plus the codes its allocations can still create. -/
def State.issued (s : State) (id : RefId) : Int :=
  s.refgen.codes.sum (fun _ c => if c.referralId = id then (c.maxCount : Int) else 0) +
  s.refgen.allocations.sum (fun i l => if i = id then (l.map (fun a => (a.maxCount : Int) - a.count)).sum else 0)

/-- How often codes of `id` have been used. -/
def State.used (s : State) (id : RefId) : Int :=
  s.refgen.codes.sum (fun _ c => if c.referralId = id then (c.count : Int) else 0)

/-- The number of accounts referred by `id`. -/
def State.referred (s : State) (id : RefId) : Int :=
  s.accounts.sum (fun _ a => if a.referralId = some id then 1 else 0)

/-- Does this call claim the code with hash `h`? -/
def Op.claims (env : Env) (h : Hash) : Op → Bool
  | .createAccount _ _ _ _ (some c) => decide (env.hash c = h)
  | _ => false

/-! ## Totals over the generator -/

theorem list_sum_nonneg {l : List Int} (h : ∀ x ∈ l, 0 ≤ x) : 0 ≤ l.sum := by
  induction l with
  | nil => simp
  | cons x l ih =>
    rw [List.sum_cons]
    have := ih (fun y hy => h y (by simp [hy]))
    have := h x (by simp)
    omega

theorem AMap.sum_neg {K V : Type} [DecidableEq K] (f : K → V → Int) (m : AMap K V) :
    m.sum (fun k v => -f k v) = -m.sum f := by
  have := AMap.sum_add f (fun k v => -f k v) m
  have z : m.sum (fun k v => f k v + -f k v) = 0 := AMap.sum_zero (by intros; ring)
  omega

theorem withRule_comp_referralId (v : VAccount) (lr : Option (Level × Rule)) :
    (v.withRule lr).comp.referralId = v.comp.referralId := by
  rcases lr with _ | ⟨l, r⟩
  · rfl
  · cases l <;> rfl

/-- Weighted total over all codes and allocations. -/
def RefGen.total (f : ReferralCode → Int) (w : RefId → ReferralAllocation → Int) (g : RefGen) : Int :=
  g.codes.sum (fun _ c => f c) + g.allocations.sum (fun i l => (l.map (w i)).sum)

theorem AMap.term_eq {K V : Type} [DecidableEq K] (f : K → V → Int) (m : AMap K V) (k : K) :
    m.term f k = match m.get k with | some v => f k v | none => 0 := rfl

theorem insertCodes_ok {α : Type} (k : α → Hash) (v : α → ReferralCode) (f : ReferralCode → Int) (l : List α) :
    ∀ {m m' : AMap Hash ReferralCode}, l.foldlM (fun m e => insertCode m (k e) (v e)) m = Except.ok m' →
      m'.sum (fun _ c => f c) = m.sum (fun _ c => f c) + (l.map (fun e => f (v e))).sum ∧
      (∀ h c, m.get h = some c → m'.get h = some c) ∧
      (∀ h c, m'.get h = some c → m.get h = some c ∨ ∃ e ∈ l, v e = c) := by
  induction l with
  | nil =>
    intro m m' h
    simp only [List.foldlM_nil, pure_ok] at h
    subst h; simp
  | cons e l ih =>
    intro m m' h
    simp only [List.foldlM_cons, bind_ok, insertCode, require_ok, pure_ok] at h
    obtain ⟨m1, ⟨⟨⟩, hn, rfl⟩, h⟩ := h
    have hn' : m.get (k e) = none := by
      cases hg : m.get (k e) with
      | none => rfl
      | some x => simp [AMap.has, hg] at hn
    obtain ⟨i1, i2, i3⟩ := ih h
    refine ⟨?_, ?_, ?_⟩
    · rw [i1, AMap.sum_set, AMap.term_eq, hn']
      simp only [List.map_cons, List.sum_cons]; ring
    · intro h' c hc
      apply i2
      by_cases e' : k e = h'
      · subst e'; rw [hn'] at hc; cases hc
      · rw [AMap.get_set_ne _ _ e']; exact hc
    · intro h' c hc
      rcases i3 h' c hc with hc | ⟨x, hx, e'⟩
      · by_cases e' : k e = h'
        · subst e'; rw [AMap.get_set_self] at hc; cases hc
          exact Or.inr ⟨e, by simp, rfl⟩
        · rw [AMap.get_set_ne _ _ e'] at hc; exact Or.inl hc
      · exact Or.inr ⟨x, by simp [hx], e'⟩

theorem allocs_sum (w : RefId → ReferralAllocation → Int) (g : RefGen) (id : RefId) :
    g.allocations.term (fun i l => (l.map (w i)).sum) id = ((g.allocs id).map (w id)).sum := by
  rw [AMap.term_eq]; unfold RefGen.allocs AMap.getD
  cases g.allocations.get id <;> simp

/-! ## What the generator's methods do -/

theorem mulT_ofNat (x : Int) (n : Nat) : mulT x (ofInt n) = (n : Int) * x := by
  unfold mulT ofInt
  rw [show x * ((n : Int) * ONE) = (n : Int) * x * ONE by ring]
  exact Int.mul_tdiv_cancel _ (by decide)

theorem totalClaims_ok {n : Nat} {l : List (Res × Dec)} : ∀ {m m' : AMap Res Dec},
    l.foldlM (totalClaim n) m = Except.ok m' →
    (∀ e ∈ l, 0 < e.2) ∧ ∀ r, (m'.get r).getD 0 = (m.get r).getD 0 + (n : Int) * claimed l r := by
  induction l with
  | nil =>
    intro m m' h
    simp only [List.foldlM_nil, pure_ok] at h
    subst h; simp [claimed]
  | cons e l ih =>
    intro m m' h
    simp only [List.foldlM_cons, bind_ok, totalClaim, require_ok, pure_ok, dmul_ok, dadd_ok, decide_eq_true_eq] at h
    obtain ⟨m1, ⟨⟨⟩, hp, x, ⟨-, hx⟩, y, ⟨-, hy⟩, rfl⟩, h⟩ := h
    obtain ⟨i1, i2⟩ := ih h
    refine ⟨?_, ?_⟩
    · intro e' he
      rcases List.mem_cons.mp he with rfl | he
      · exact hp
      · exact i1 _ he
    · intro r
      rw [i2 r, claimed_cons, AMap.get_set]
      rw [mulT_ofNat] at hx
      unfold AMap.getD at hy
      by_cases e' : e.1 = r
      · subst e'; simp only [if_true, Option.getD_some]; subst hx; subst hy; ring
      · simp only [e', if_false]; ring

theorem codeTotals_ok {l : List (Hash × (List (Res × Dec) × Nat))} : ∀ {m m' : AMap Res Dec},
    l.foldlM codeTotals m = Except.ok m' →
    (∀ e ∈ l, (∀ x ∈ e.2.1, 0 < x.2) ∧ (e.2.1 ≠ [] → e.2.2 = 1)) ∧
    ∀ r, (m'.get r).getD 0 = (m.get r).getD 0 + (l.map (fun e => (e.2.2 : Int) * claimed e.2.1 r)).sum := by
  induction l with
  | nil =>
    intro m m' h
    simp only [List.foldlM_nil, pure_ok] at h
    subst h; simp
  | cons e l ih =>
    intro m m' h
    simp only [List.foldlM_cons, bind_ok] at h
    obtain ⟨m1, h1, h⟩ := h
    obtain ⟨i1, i2⟩ := ih h
    have key : ((∀ x ∈ e.2.1, 0 < x.2) ∧ (e.2.1 ≠ [] → e.2.2 = 1)) ∧
        ∀ r, (m1.get r).getD 0 = (m.get r).getD 0 + (e.2.2 : Int) * claimed e.2.1 r := by
      unfold codeTotals at h1
      split at h1
      · rename_i e1
        obtain ⟨a, b⟩ := totalClaims_ok h1
        refine ⟨⟨a, fun _ => e1⟩, ?_⟩
        intro r; rw [b r, e1]
      · simp only [bind_ok, require_ok, pure_ok, decide_eq_true_eq, List.length_eq_zero_iff] at h1
        obtain ⟨⟨⟩, hl, rfl⟩ := h1
        rw [hl]
        exact ⟨⟨by simp, by simp⟩, by simp [claimed]⟩
    refine ⟨?_, ?_⟩
    · intro e' he
      rcases List.mem_cons.mp he with rfl | he
      · exact key.1
      · exact i1 _ he
    · intro r
      rw [i2 r, key.2 r]; simp only [List.map_cons, List.sum_cons]; ring

theorem sum_replicate_int (n : Nat) (x : Int) : (List.replicate n x).sum = (n : Int) * x := by
  induction n with
  | zero => simp
  | succ n ih => rw [List.replicate_succ, List.sum_cons, ih]; push_cast; ring

theorem takeClaims_ok {env : Env} {l : List (Res × Dec)} : ∀ {t t' : AMap Res Dec × List Bucket},
    l.foldlM (takeClaim env) t = Except.ok t' →
    ∀ r, totalOf t.2 r + claimed l r ≤ totalOf t'.2 r := by
  induction l with
  | nil =>
    intro t t' h r
    simp only [List.foldlM_nil, pure_ok] at h
    subst h; simp [claimed]
  | cons e l ih =>
    intro t t' h r
    simp only [List.foldlM_cons, bind_ok] at h
    obtain ⟨t1, h1, h⟩ := h
    have := ih h r
    rw [claimed_cons]
    unfold takeClaim at h1
    split at h1
    · simp only [bind_ok, require_ok, pure_ok, takeAmount_ok, decide_eq_true_eq] at h1
      obtain ⟨⟨⟩, -, x, ⟨hx, -, -, -⟩, rfl⟩ := h1
      have hu := (amountFor_up (env.gran_pos e.1) e.2).1
      rw [hx] at hu
      rw [totalOf_append] at this
      by_cases e' : e.1 = r
      · simp only [totalOf_cons, e', if_true] at this ⊢
        simp only [totalOf, List.filter_nil, List.map_nil, List.sum_nil] at this ⊢
        omega
      · simp only [totalOf_cons, e', if_false] at this ⊢
        simp only [totalOf, List.filter_nil, List.map_nil, List.sum_nil] at this ⊢
        omega
    · simp only [bind_ok, require_ok, pure_ok, decide_eq_true_eq] at h1
      obtain ⟨⟨⟩, hz, rfl⟩ := h1
      rw [hz]; split <;> omega

theorem splitTokens_ok {env : Env} {tokens taken rest : List Bucket} {totals : AMap Res Dec}
    (h : splitTokens env tokens totals = Except.ok (taken, rest)) (r : Res) : (totals.get r).getD 0 ≤ totalOf taken r := by
  simp only [splitTokens, bind_ok, pure_ok, Prod.mk.injEq] at h
  obtain ⟨mapped, -, t, ht, rfl, -⟩ := h
  have := takeClaims_ok ht r
  rw [claimed_entries] at this
  simpa [totalOf] using this

theorem vaultPutBatch_get {bs : List Bucket} : ∀ {m m' : AMap Res Dec}, vaultPutBatch m bs = Except.ok m' →
    ∀ r, (m'.get r).getD 0 = (m.get r).getD 0 + totalOf bs r := by
  induction bs with
  | nil =>
    intro m m' h r
    simp only [vaultPutBatch, List.foldlM_nil, pure_ok] at h
    subst h; simp [totalOf]
  | cons b bs ih =>
    intro m m' h r
    simp only [vaultPutBatch, List.foldlM_cons, bind_ok] at h
    obtain ⟨m1, h1, h⟩ := h
    rw [ih h r, vaultPut_get h1, totalOf_cons]
    split <;> omega

theorem vaultTakeBatch_get {env : Env} {st : Strategy} {cs : List (Res × Dec)} : ∀ {m m' : AMap Res Dec} {bs : List Bucket},
    vaultTakeBatch env st m cs = Except.ok (m', bs) → ∀ r, (m'.get r).getD 0 = (m.get r).getD 0 - totalOf bs r := by
  induction cs with
  | nil =>
    intro m m' bs h r
    simp only [vaultTakeBatch, Except.ok.injEq, Prod.mk.injEq] at h
    obtain ⟨rfl, rfl⟩ := h; simp [totalOf]
  | cons c cs ih =>
    intro m m' bs h r
    simp only [vaultTakeBatch, bind_ok, pure_ok, Prod.mk.injEq] at h
    obtain ⟨⟨m1, b⟩, h1, ⟨m2, bs'⟩, h2, rfl, rfl⟩ := h
    obtain ⟨e1, -, -, -, -, e2⟩ := vaultTake_get h1
    rw [ih h2 r, e2 r, totalOf_cons, e1]
    simp only
    split <;> omega

/-- The buckets a list of claims is paid with: each claim rounded down to the granularity of its resource. -/
def rounded (env : Env) (cs : List (Res × Dec)) : List Bucket :=
  cs.map (fun c => ⟨c.1, amountFor (env.gran c.1) c.2 .toZero⟩)

theorem round_down {g : Nat} (hg : 0 < g) {a : Int} (ha : 0 < a) :
    0 ≤ amountFor g a .toZero ∧ amountFor g a .toZero ≤ a ∧ amountFor g a .toZero % (g : Int) = 0 := by
  unfold amountFor
  simp only
  have hg' : (0 : Int) < g := by exact_mod_cast hg
  rw [Int.tdiv_eq_ediv_of_nonneg ha.le]
  refine ⟨mul_nonneg (Int.ediv_nonneg ha.le hg'.le) hg'.le, Int.ediv_mul_le a hg'.ne', Int.mul_emod_left _ _⟩

theorem claimed_nonneg {cs : List (Res × Dec)} (h : ∀ e ∈ cs, 0 < e.2) (r : Res) : 0 ≤ claimed cs r := by
  induction cs with
  | nil => simp [claimed]
  | cons e cs ih =>
    rw [claimed_cons]
    have := ih (fun x hx => h x (by simp [hx]))
    have := h e (by simp)
    split <;> omega

theorem rounded_le {env : Env} {cs : List (Res × Dec)} (h : ∀ e ∈ cs, 0 < e.2) (r : Res) :
    totalOf (rounded env cs) r ≤ claimed cs r := by
  induction cs with
  | nil => simp [claimed, totalOf, rounded]
  | cons e cs ih =>
    have h1 := ih (fun x hx => h x (by simp [hx]))
    have h2 := (round_down (env.gran_pos e.1) (h e (by simp))).2.1
    rw [claimed_cons]
    unfold rounded at h1 ⊢
    rw [List.map_cons, totalOf_cons]
    simp only
    split <;> omega

/-- Enough in the vaults: the batch is paid, each claim rounded down. -/
theorem vaultTakeBatch_pays {env : Env} {cs : List (Res × Dec)} : ∀ {m : AMap Res Dec}, (∀ e ∈ cs, 0 < e.2) →
    (∀ r, claimed cs r ≤ (m.get r).getD 0) → ∃ m', vaultTakeBatch env .toZero m cs = Except.ok (m', rounded env cs) := by
  induction cs with
  | nil => intro m _ _; exact ⟨m, rfl⟩
  | cons c cs ih =>
    intro m hp hv
    have hp' : ∀ e ∈ cs, 0 < e.2 := fun x hx => hp x (by simp [hx])
    obtain ⟨r1, r2, r3⟩ := round_down (env.gran_pos c.1) (hp c (by simp))
    have hc := hv c.1
    rw [claimed_cons, if_pos rfl] at hc
    have hn := claimed_nonneg hp' c.1
    have h1 : vaultTake env .toZero m c = Except.ok (m.set c.1 (m.getD c.1 0 - amountFor (env.gran c.1) c.2 .toZero),
        ⟨c.1, amountFor (env.gran c.1) c.2 .toZero⟩) := by
      simp only [vaultTake, bind_ok, pure_ok, takeAmount_ok, Prod.mk.injEq]
      exact ⟨_, ⟨rfl, r1, r3, by unfold AMap.getD; omega⟩, rfl, rfl⟩
    obtain ⟨m', h2⟩ := ih (m := m.set c.1 (m.getD c.1 0 - amountFor (env.gran c.1) c.2 .toZero)) hp' (by
      intro r
      have := hv r
      rw [claimed_cons] at this
      rw [AMap.get_set]
      by_cases e : c.1 = r
      · subst e; simp only [if_true, Option.getD_some] at this ⊢; unfold AMap.getD; omega
      · simp only [e, if_false] at this ⊢; omega)
    refine ⟨m', ?_⟩
    simp only [vaultTakeBatch, bind_ok, pure_ok, Prod.mk.injEq]
    exact ⟨_, h1, _, h2, rfl, rfl⟩

theorem vaultTakeBatch_rounded {env : Env} {cs : List (Res × Dec)} : ∀ {m m' : AMap Res Dec} {bs : List Bucket},
    vaultTakeBatch env .toZero m cs = Except.ok (m', bs) → bs = rounded env cs := by
  induction cs with
  | nil =>
    intro m m' bs h
    simp only [vaultTakeBatch, Except.ok.injEq, Prod.mk.injEq] at h
    exact h.2.symm
  | cons c cs ih =>
    intro m m' bs h
    simp only [vaultTakeBatch, bind_ok, pure_ok, Prod.mk.injEq] at h
    obtain ⟨⟨m1, b⟩, h1, ⟨m2, bs'⟩, h2, rfl, rfl⟩ := h
    obtain ⟨e1, e2, -⟩ := vaultTake_get h1
    rw [ih h2]
    unfold rounded
    rw [List.map_cons, e2, ← e1]

/-! ## The invariant -/

structure RefGen.Ok (g : RefGen) : Prop where
  code : ∀ h c, g.codes.get h = some c →
    c.count ≤ c.maxCount ∧ (∀ e ∈ c.claims, 0 < e.2) ∧ (c.claims ≠ [] → c.maxCount = 1)
  alloc : ∀ id l, g.allocations.get id = some l → ∀ a ∈ l, a.count ≤ a.maxCount ∧ ∀ e ∈ a.claims, 0 < e.2
  backed : ∀ r, g.total (·.owes r) (fun _ a => a.owes r) ≤ (g.vaults.get r).getD 0

theorem addAllocation_ok {env : Env} {g g' : RefGen} {id : RefId} {tokens rest : List Bucket} {claims : List (Res × Dec)}
    {n i : Nat} (h : g.addAllocation env tokens id claims n = Except.ok (g', rest, i)) :
    g'.codes = g.codes ∧ g'.allocations = g.allocations.set id (g.allocs id ++ [⟨claims, 0, n⟩]) ∧
    (∀ e ∈ claims, 0 < e.2) ∧ ∀ r, (g.vaults.get r).getD 0 + (n : Int) * claimed claims r ≤ (g'.vaults.get r).getD 0 := by
  simp only [RefGen.addAllocation, bind_ok, pure_ok, Prod.mk.injEq] at h
  obtain ⟨totals, ht, ⟨taken, rest'⟩, hs, vaults, hv, rfl, -, -⟩ := h
  obtain ⟨p, q⟩ := totalClaims_ok ht
  refine ⟨rfl, rfl, p, ?_⟩
  intro r
  have a := q r
  have b := splitTokens_ok hs r
  have c := vaultPutBatch_get hv r
  simp only [AMap.get_empty, Option.getD_none] at a
  show _ ≤ (vaults.get r).getD 0
  simp only at c
  omega

theorem createCodes_ok {env : Env} {g g' : RefGen} {id : RefId} {tokens rest : List Bucket}
    {hashes : AMap Hash (List (Res × Dec) × Nat)} (h : g.createCodes env tokens id hashes = Except.ok (g', rest)) :
    g'.allocations = g.allocations ∧
    hashes.entries.foldlM (fun m e => insertCode m e.1 ⟨id, e.2.1, 0, e.2.2⟩) g.codes = Except.ok g'.codes ∧
    (∀ e ∈ hashes.entries, (∀ x ∈ e.2.1, 0 < x.2) ∧ (e.2.1 ≠ [] → e.2.2 = 1)) ∧
    ∀ r, (g.vaults.get r).getD 0 + (hashes.entries.map (fun e => (e.2.2 : Int) * claimed e.2.1 r)).sum
      ≤ (g'.vaults.get r).getD 0 := by
  simp only [RefGen.createCodes, bind_ok, pure_ok, Prod.mk.injEq] at h
  obtain ⟨totals, ht, ⟨taken, rest'⟩, hs, codes, hcs, vaults, hv, rfl, -⟩ := h
  obtain ⟨p, q⟩ := codeTotals_ok ht
  refine ⟨rfl, hcs, p, ?_⟩
  intro r
  have a := q r
  have b := splitTokens_ok hs r
  have c := vaultPutBatch_get hv r
  simp only [AMap.get_empty, Option.getD_none] at a
  show _ ≤ (vaults.get r).getD 0
  simp only at c
  omega

theorem codesFromAllocation_ok {g g' : RefGen} {id : RefId} {i : Nat} {hashes : List Hash}
    (h : g.codesFromAllocation id i hashes = Except.ok g') :
    ∃ list al, g.allocations.get id = some list ∧ list[i]? = some al ∧
      al.count + hashes.dedup.length ≤ al.maxCount ∧ g'.vaults = g.vaults ∧
      hashes.dedup.foldlM (fun m h => insertCode m h ⟨id, al.claims, 0, 1⟩) g.codes = Except.ok g'.codes ∧
      g'.allocations = g.allocations.set id (list.set i { al with count := al.count + hashes.dedup.length }) := by
  simp only [RefGen.codesFromAllocation, bind_ok, pure_ok, expect_ok, uadd_ok, require_ok, decide_eq_true_eq] at h
  obtain ⟨list, hl, al, ha, n, ⟨-, rfl⟩, ⟨⟩, hle, codes, hc, rfl⟩ := h
  exact ⟨list, al, hl, ha, hle, rfl, hc, rfl⟩

theorem claim_ok {env : Env} {g g' : RefGen} {h : Hash} {rid : RefId} {bs : List Bucket}
    (hc : g.claim env h = Except.ok (g', rid, bs)) :
    ∃ c, g.codes.get h = some c ∧ c.count < c.maxCount ∧ rid = c.referralId ∧ bs = rounded env c.claims ∧
      g'.allocations = g.allocations ∧ g'.codes = g.codes.set h { c with count := c.count + 1 } ∧
      ∀ r, (g'.vaults.get r).getD 0 = (g.vaults.get r).getD 0 - totalOf bs r := by
  simp only [RefGen.claim, bind_ok, pure_ok, expect_ok, require_ok, decide_eq_true_eq, Prod.mk.injEq] at hc
  obtain ⟨c, hg, ⟨⟩, hlt, ⟨vaults, bs'⟩, hv, rfl, rfl, rfl⟩ := hc
  exact ⟨c, hg, hlt, rfl, vaultTakeBatch_rounded hv, rfl, rfl, vaultTakeBatch_get hv⟩

theorem sum_map_set {α : Type} (f : α → Int) : ∀ (l : List α) (i : Nat) {a : α} (b : α), l[i]? = some a →
    ((l.set i b).map f).sum = (l.map f).sum - f a + f b := by
  intro l
  induction l with
  | nil => intro i a b h; simp at h
  | cons x l ih =>
    intro i a b h
    cases i with
    | zero => simp only [List.getElem?_cons_zero, Option.some.injEq] at h; subst h; simp [List.set]; ring
    | succ i =>
      simp only [List.getElem?_cons_succ] at h
      simp only [List.set, List.map_cons, List.sum_cons, ih i b h]; ring

/-- How the weighted totals move. -/
theorem genStep_total (f : ReferralCode → Int) (w : RefId → ReferralAllocation → Int) {g g' : RefGen} :
    (∀ {env : Env} {id : RefId} {tokens rest : List Bucket} {claims : List (Res × Dec)} {n i : Nat},
      g.addAllocation env tokens id claims n = Except.ok (g', rest, i) →
      g'.total f w = g.total f w + w id ⟨claims, 0, n⟩) ∧
    (∀ {env : Env} {id : RefId} {tokens rest : List Bucket} {hashes : AMap Hash (List (Res × Dec) × Nat)},
      g.createCodes env tokens id hashes = Except.ok (g', rest) →
      g'.total f w = g.total f w + (hashes.entries.map (fun e => f ⟨id, e.2.1, 0, e.2.2⟩)).sum) ∧
    (∀ {id : RefId} {i : Nat} {hashes : List Hash} {list : List ReferralAllocation} {al : ReferralAllocation},
      g.codesFromAllocation id i hashes = Except.ok g' → g.allocations.get id = some list → list[i]? = some al →
      g'.total f w = g.total f w + (hashes.dedup.length : Int) * f ⟨id, al.claims, 0, 1⟩ - w id al +
        w id { al with count := al.count + hashes.dedup.length }) ∧
    (∀ {env : Env} {h : Hash} {rid : RefId} {bs : List Bucket} {c : ReferralCode},
      g.claim env h = Except.ok (g', rid, bs) → g.codes.get h = some c →
      g'.total f w = g.total f w - f c + f { c with count := c.count + 1 }) := by
  refine ⟨?_, ?_, ?_, ?_⟩
  · intro env id tokens rest claims n i h
    obtain ⟨e1, e2, -, -⟩ := addAllocation_ok h
    unfold RefGen.total
    rw [e1, e2, AMap.sum_set, allocs_sum]
    simp only [List.map_append, List.map_cons, List.map_nil, List.sum_append, List.sum_cons, List.sum_nil]; ring
  · intro env id tokens rest hashes h
    obtain ⟨e1, e2, -, -⟩ := createCodes_ok h
    unfold RefGen.total
    rw [e1, (insertCodes_ok _ _ f _ e2).1]; ring
  · intro id i hashes list al h hl ha
    obtain ⟨list', al', e1, e2, -, -, e3, e4⟩ := codesFromAllocation_ok h
    rw [hl] at e1; cases e1
    rw [ha] at e2; cases e2
    unfold RefGen.total
    rw [e4, (insertCodes_ok _ _ f _ e3).1, AMap.sum_set, AMap.term_eq, hl, sum_map_set _ _ _ _ ha]
    simp only [List.map_const', sum_replicate_int]; ring
  · intro env h rid bs c hc hg
    obtain ⟨c', e1, -, -, -, e2, e3, -⟩ := claim_ok hc
    rw [hg] at e1; cases e1
    unfold RefGen.total
    rw [e2, e3, AMap.sum_set, AMap.term_eq, hg]; ring

theorem owes_code_nonneg {c : ReferralCode} (h : c.count ≤ c.maxCount) (hp : ∀ e ∈ c.claims, 0 < e.2) (r : Res) : 0 ≤ c.owes r := by
  unfold ReferralCode.owes
  exact mul_nonneg (by omega) (claimed_nonneg hp r)

theorem owes_alloc_nonneg {a : ReferralAllocation} (h : a.count ≤ a.maxCount) (hp : ∀ e ∈ a.claims, 0 < e.2) (r : Res) : 0 ≤ a.owes r := by
  unfold ReferralAllocation.owes
  exact mul_nonneg (by omega) (claimed_nonneg hp r)

theorem genStep_ok {env : Env} {s : State} {id : RefId} {n : Nat} {g g' : RefGen} (h0 : g.Ok) (h : GenStep env s id n g g') : g'.Ok := by
  cases h with
  | same => exact h0
  | alloc _ h =>
    rename_i tokens rest claims i
    obtain ⟨e1, e2, e3, e4⟩ := addAllocation_ok h
    refine ⟨by rw [e1]; exact h0.code, ?_, ?_⟩
    · intro id' l hl a ha
      rw [e2] at hl
      by_cases e : id = id'
      · subst e
        rw [AMap.get_set_self] at hl; cases hl
        rcases List.mem_append.mp ha with ha | ha
        · unfold RefGen.allocs AMap.getD at ha
          cases hg : g.allocations.get id with
          | none => rw [hg] at ha; simp at ha
          | some l' => rw [hg] at ha; exact h0.alloc id l' hg a ha
        · simp only [List.mem_singleton] at ha; subst ha; exact ⟨Nat.zero_le _, e3⟩
      · rw [AMap.get_set_ne _ _ e] at hl; exact h0.alloc id' l hl a ha
    · intro r
      have := (genStep_total (·.owes r) (fun _ a => a.owes r)).1 h
      have b := h0.backed r
      have c := e4 r
      rw [this]
      simp only [ReferralAllocation.owes, Nat.cast_zero, sub_zero] at b ⊢; omega
  | codes _ _ h =>
    obtain ⟨e1, e2, e3, e4⟩ := createCodes_ok h
    refine ⟨?_, by rw [e1]; exact h0.alloc, ?_⟩
    · intro hh c hc
      rcases (insertCodes_ok _ _ (fun _ => 0) _ e2).2.2 hh c hc with hc | ⟨e, he, rfl⟩
      · exact h0.code hh c hc
      · exact ⟨Nat.zero_le _, e3 e he⟩
    · intro r
      have := (genStep_total (·.owes r) (fun _ a => a.owes r)).2.1 h
      have b := h0.backed r
      have c := e4 r
      rw [this]
      simp only [ReferralCode.owes, Nat.cast_zero, sub_zero] at b ⊢; omega
  | fromAllocation h =>
    obtain ⟨list, al, e1, e2, e3, e4, e5, e6⟩ := codesFromAllocation_ok h
    have hal := h0.alloc id list e1 al (List.mem_of_getElem? e2)
    refine ⟨?_, ?_, ?_⟩
    · intro hh c hc
      rcases (insertCodes_ok _ _ (fun _ => 0) _ e5).2.2 hh c hc with hc | ⟨e, he, rfl⟩
      · exact h0.code hh c hc
      · exact ⟨Nat.zero_le _, hal.2, fun _ => rfl⟩
    · intro id' l hl a ha
      rw [e6] at hl
      by_cases e : id = id'
      · subst e
        rw [AMap.get_set_self] at hl; cases hl
        rcases List.mem_or_eq_of_mem_set ha with ha | rfl
        · exact h0.alloc id list e1 a ha
        · exact ⟨e3, hal.2⟩
      · rw [AMap.get_set_ne _ _ e] at hl; exact h0.alloc id' l hl a ha
    · intro r
      have := (genStep_total (·.owes r) (fun _ a => a.owes r)).2.2.1 h e1 e2
      have b := h0.backed r
      rw [this, e4]
      simp only [ReferralCode.owes, ReferralAllocation.owes, Nat.cast_zero, sub_zero, Nat.cast_add, Nat.cast_one, one_mul] at b ⊢
      refine le_trans (le_of_eq ?_) b; ring

theorem claimed_genOk {env : Env} {g g' : RefGen} {rid : Option RefId} (h0 : g.Ok) (h : Claimed env g rid g') : g'.Ok := by
  rcases h with ⟨-, rfl⟩ | ⟨c, r, bs, -, hc⟩
  · exact h0
  · obtain ⟨code, e1, e2, -, e3, e4, e5, e6⟩ := claim_ok hc
    have hcode := h0.code _ _ e1
    refine ⟨?_, by rw [e4]; exact h0.alloc, ?_⟩
    · intro hh c' hc'
      rw [e5] at hc'
      by_cases e : env.hash c = hh
      · subst e; rw [AMap.get_set_self] at hc'; cases hc'
        exact ⟨by simp only; omega, hcode.2⟩
      · rw [AMap.get_set_ne _ _ e] at hc'; exact h0.code hh c' hc'
    · intro r
      have := (genStep_total (·.owes r) (fun _ a => a.owes r)).2.2.2 hc e1
      have b := h0.backed r
      have p := rounded_le (env := env) hcode.2.1 r
      rw [this, e6 r, e3]
      have : ReferralCode.owes { code with count := code.count + 1 } r = code.owes r - claimed code.claims r := by
        unfold ReferralCode.owes; push_cast; ring
      rw [this]; omega

theorem accOp_refgen {s s' : State} {a : Addr} {lr : Option (Level × Rule)} (h : AccOp s a lr s') : s'.refgen = s.refgen := by
  cases h; rfl

theorem shape_genOk {env : Env} {s s' : State} (h0 : s.refgen.Ok) (h : Shape env s s') : s'.refgen.Ok := by
  cases h with
  | newReferral g hg => exact genStep_ok h0 hg.1
  | editReferral g hg => obtain ⟨n, hg, -⟩ := hg; exact genStep_ok h0 hg
  | codes g hg => obtain ⟨id, i, hs, hg⟩ := hg; replace hg := GenStep.fromAllocation (env := env) (s := s) hg; exact genStep_ok h0 hg
  | account h => rw [accOp_refgen h]; exact h0
  | create g hg _ h => rw [accOp_refgen h]; exact claimed_genOk h0 hg
  | _ => exact h0

theorem reach_genOk {env : Env} {s : State} (h : Reach env s) : s.refgen.Ok := by
  refine Reach.induct (P := fun s => s.refgen.Ok) (env := env) ?_ ?_ h
  · intro s g
    rw [g.refgen]
    exact ⟨by intro _ _ h; simp at h, by intro _ _ h; simp at h, by intro r; simp [RefGen.total]⟩
  · intro s s' cl op o h0 hb
    exact shape_genOk h0 (body_shape hb)

/-! ## C34 -/

/-- **C34, solvency.** In every reachable state the referral generator holds, of every resource, at least everything promised
by unused codes and unassigned allocations; and every code has been used at most as often as it allows. -/
theorem c34_backed {env : Env} {s : State} (h : Reach env s) :
    (∀ r, 0 ≤ s.promised r ∧ s.promised r ≤ s.backing r) ∧
    ∀ hh c, s.refgen.codes.get hh = some c → c.count ≤ c.maxCount := by
  have hok := reach_genOk h
  refine ⟨fun r => ⟨?_, hok.backed r⟩, fun hh c hc => (hok.code hh c hc).1⟩
  refine add_nonneg (AMap.sum_nonneg ?_) (AMap.sum_nonneg ?_)
  · intro k c hc
    exact owes_code_nonneg (hok.code k c hc).1 (hok.code k c hc).2.1 r
  · intro k l hl
    apply list_sum_nonneg
    intro x hx
    obtain ⟨a, ha, rfl⟩ := List.mem_map.mp hx
    exact owes_alloc_nonneg (hok.alloc k l hl a ha).1 (hok.alloc k l hl a ha).2 r

theorem genStep_codes {env : Env} {s : State} {id : RefId} {n : Nat} {g g' : RefGen} (h : GenStep env s id n g g')
    {hh : Hash} {c : ReferralCode} (hc : g.codes.get hh = some c) : g'.codes.get hh = some c := by
  cases h with
  | same => exact hc
  | alloc _ h => rw [(addAllocation_ok h).1]; exact hc
  | codes _ _ h => exact (insertCodes_ok _ _ (fun _ => 0) _ (createCodes_ok h).2.1).2.1 hh c hc
  | fromAllocation h =>
    obtain ⟨list, al, -, -, -, -, e, -⟩ := codesFromAllocation_ok h
    exact (insertCodes_ok _ _ (fun _ => 0) _ e).2.1 hh c hc

/-- A call that is not `create_account` never reaches the `create` shape. -/
theorem shape_not_create {env : Env} {cl : Caller} {s s' : State} {op : Op} {o : Out} (h : body env cl s op = Except.ok (s', o))
    (hop : ∀ a oath r t c, op ≠ .createAccount a oath r t c) {a : Addr} (hn : s.accounts.get a = none) :
    s'.accounts.get a = none := by
  by_cases ho : op.account = some a
  · rcases body_account h ho with ⟨lr, -, acc, hg⟩ | ⟨g, rule, rid, ⟨oath, t, c, e⟩, -⟩
    · rw [hn] at hg; cases hg
    · exact absurd e (hop _ _ _ _ _)
  · rw [body_accounts h a ho]; exact hn

/-- **C34, a code's life.** A code never changes its referral, its claims or its number of uses; its use count goes up by one
exactly in a successful `create_account` with that code, and such a call needs an unused use. -/
theorem c34_use_counted {env : Env} {cl : Caller} {s s' : State} {op : Op} {o : Out}
    (h : step env cl s op = Except.ok (s', o)) (hh : Hash) :
    (op.claims env hh = true → ∃ c, s.refgen.codes.get hh = some c ∧ c.count < c.maxCount) ∧
    ∀ c, s.refgen.codes.get hh = some c →
      s'.refgen.codes.get hh = some { c with count := c.count + (if op.claims env hh then 1 else 0) } := by
  have hb := step_body h
  by_cases hop : ∃ a oath r t c, op = .createAccount a oath r t c
  · obtain ⟨a, oath, r, t, code, rfl⟩ := hop
    obtain ⟨s0, rid, extra, s1, v, s2, w, acc, refs, -, hn, hc, rfl, hv, hd, hr, he, -⟩ := createAccount_ok hb
    have hacc := accOp_of_deposit hv hd hr he
    have hg := accOp_refgen hacc
    simp only at hg
    rcases claimCode_ok hc with ⟨rfl, -, -, hs⟩ | ⟨code', g, r', rfl, hcl, -, rfl⟩
    · subst hs
      rw [hg]; simp [Op.claims]
    · simp only at hg
      rw [hg]
      obtain ⟨c, e1, e2, -, -, -, e5, -⟩ := claim_ok hcl
      simp only [Op.claims, decide_eq_true_eq]
      refine ⟨?_, ?_⟩
      · rintro rfl; exact ⟨c, e1, e2⟩
      · intro c' hc'
        rw [e5, AMap.get_set]
        by_cases e : env.hash code' = hh
        · subst e; rw [hc'] at e1; cases e1; simp
        · simp [e, hc']
  · have hop' : ∀ a oath r t c, op ≠ .createAccount a oath r t c := fun a oath r t c e => hop ⟨a, oath, r, t, c, e⟩
    have hcl : op.claims env hh = false := by
      cases op <;> first | rfl | exact absurd rfl (hop' _ _ _ _ _)
    rw [hcl]
    refine ⟨by simp, ?_⟩
    intro c hc
    simp only [Bool.false_eq_true, if_false, add_zero]
    show s'.refgen.codes.get hh = some c
    have hnot := fun a (hn : s.accounts.get a = none) => shape_not_create hb hop' hn
    cases body_shape hb with
    | newReferral g hg => exact genStep_codes hg.1 hc
    | editReferral g hg => obtain ⟨n, hg, -⟩ := hg; exact genStep_codes hg hc
    | codes g hg => obtain ⟨id, i, hs, hg⟩ := hg; replace hg := GenStep.fromAllocation (env := env) (s := s) hg; exact genStep_codes hg hc
    | account h => rw [accOp_refgen h]; exact hc
    | create g hg hn h =>
      obtain ⟨acc', e⟩ := h.accounts
      have := hnot _ hn
      rw [e, AMap.get_set_self] at this
      cases this
    | _ => exact hc

/-- A sequence of successful calls by anyone. -/
inductive Trace (env : Env) : State → List Op → State → Prop where
  | nil (s : State) : Trace env s [] s
  | cons {s s' s'' : State} {cl : Caller} {op : Op} {ops : List Op} {o : Out} :
      step env cl s op = Except.ok (s', o) → Trace env s' ops s'' → Trace env s (op :: ops) s''

/-- **C34, at most `max_count` uses.** However the history continues, a code is claimed successfully at most as often as it
has uses left: never more than its `max_count` in total. -/
theorem c34_uses_bounded {env : Env} {s s' : State} {ops : List Op} (h0 : Reach env s) (h : Trace env s ops s') (hh : Hash)
    {c : ReferralCode} (hc : s.refgen.codes.get hh = some c) :
    c.count + ops.countP (fun op => op.claims env hh) ≤ c.maxCount := by
  induction h generalizing c with
  | nil s => simpa using (c34_backed h0).2 hh c hc
  | cons hs _ ih =>
    rename_i s1 s2 s3 cl op ops o _
    obtain ⟨-, h2⟩ := c34_use_counted hs hh
    have := ih (.step h0 hs) (h2 c hc)
    simp only at this
    rw [List.countP_cons]
    omega

/-! ## C35 -/

theorem sumCounts_ok {l : List (Hash × (List (Res × Dec) × Nat))} : ∀ {m n : Nat},
    l.foldlM (fun n e => uadd n e.2.2) m = Except.ok n → (n : Int) = m + (l.map (fun e => (e.2.2 : Int))).sum := by
  induction l with
  | nil =>
    intro m n h
    simp only [List.foldlM_nil, pure_ok] at h
    subst h; simp
  | cons e l ih =>
    intro m n h
    simp only [List.foldlM_cons, bind_ok, uadd_ok] at h
    obtain ⟨_, ⟨-, rfl⟩, h⟩ := h
    rw [ih h]; simp only [List.map_cons, List.sum_cons]; push_cast; ring

theorem issued_total (s : State) (id : RefId) : s.issued id =
    s.refgen.total (fun c => if c.referralId = id then (c.maxCount : Int) else 0)
      (fun i a => if i = id then (a.maxCount : Int) - a.count else 0) := by
  unfold State.issued RefGen.total
  congr 1
  apply AMap.sum_congr
  intro k l _
  by_cases e : k = id <;> simp [e]

theorem genStep_issued {env : Env} {s : State} {id : RefId} {n : Nat} {g g' : RefGen} (h : GenStep env s id n g g') (i : RefId) :
    g'.total (fun c => if c.referralId = i then (c.maxCount : Int) else 0)
      (fun j a => if j = i then (a.maxCount : Int) - a.count else 0) =
    g.total (fun c => if c.referralId = i then (c.maxCount : Int) else 0)
      (fun j a => if j = i then (a.maxCount : Int) - a.count else 0) + if id = i then (n : Int) else 0 := by
  cases h with
  | same => simp
  | alloc _ h =>
    rw [(genStep_total _ _).1 h]; simp
  | codes _ hn h =>
    rw [(genStep_total _ _).2.1 h]
    congr 1
    have := sumCounts_ok hn
    by_cases e : id = i
    · simp only [e, if_true, this]; simp
    · simp [e]
  | fromAllocation h =>
    obtain ⟨list, al, e1, e2, -⟩ := codesFromAllocation_ok h
    rw [(genStep_total _ _).2.2.1 h e1 e2]
    by_cases e : id = i
    · simp only [e, if_true]; push_cast; ring
    · simp [e]

theorem claimed_issued {env : Env} {g g' : RefGen} {rid : Option RefId} (h : Claimed env g rid g') (i : RefId) :
    g'.total (fun c => if c.referralId = i then (c.maxCount : Int) else 0)
      (fun j a => if j = i then (a.maxCount : Int) - a.count else 0) =
    g.total (fun c => if c.referralId = i then (c.maxCount : Int) else 0)
      (fun j a => if j = i then (a.maxCount : Int) - a.count else 0) := by
  rcases h with ⟨-, rfl⟩ | ⟨c, r, bs, -, hc⟩
  · rfl
  · obtain ⟨code, e1, -⟩ := claim_ok hc
    rw [(genStep_total _ _).2.2.2 hc e1]; simp

/-- The counts and limits of every referral badge. -/
def State.quota (s : State) (id : RefId) : Option (Nat × Nat) := (s.referrals.get id).map (fun d => (d.referrals, d.maxReferrals))

theorem granted_quota (s : State) (id : RefId) : s.granted id = ((s.quota id).map Prod.fst).getD 0 := by
  unfold State.granted State.quota
  cases s.referrals.get id <;> rfl

theorem accOp_quota {s s' : State} {a : Addr} {lr : Option (Level × Rule)} (h : AccOp s a lr s') (id : RefId) :
    s'.quota id = s.quota id := by
  cases h with
  | mk o rw k hl hp hr =>
    have h := hr.2
    unfold State.quota State.realized
    simp only
    unfold VAccount.realizeReferral at h
    split at h
    · simp only [bind_ok, expect_ok, pure_ok] at h
      obtain ⟨i, -, d, -, old, ho, e⟩ := h
      rw [← e, AMap.get_set]
      split
      · rename_i e; subst e; rw [ho]; rfl
      · rfl
    · simp only [pure_ok] at h
      rw [h]

theorem accOp_issued {s s' : State} {a : Addr} {lr : Option (Level × Rule)} (h : AccOp s a lr s') (id : RefId) :
    s'.issued id = s.issued id := by
  unfold State.issued; rw [accOp_refgen h]

/-- Calls move the granted count and the issued uses of every referral by the same number, which respects the limit. -/
theorem shape_granted {env : Env} {s s' : State} (h : Shape env s s') (id : RefId) :
    ∃ n : Nat, s'.granted id = s.granted id + n ∧ s'.issued id = s.issued id + n ∧
      (0 < n → ∃ d', s'.referrals.get id = some d' ∧ s'.granted id ≤ d'.maxReferrals) := by
  have same : ∀ {t : State}, t.quota id = s.quota id → t.issued id = s.issued id →
      ∃ n : Nat, t.granted id = s.granted id + n ∧ t.issued id = s.issued id + n ∧
      (0 < n → ∃ d', t.referrals.get id = some d' ∧ t.granted id ≤ d'.maxReferrals) := by
    intro t h1 h2
    exact ⟨0, by rw [granted_quota, h1, ← granted_quota, add_zero], by simp [h2], fun h => absurd h (by simp)⟩
  cases h with
  | newReferral g hg hn =>
    rename_i i d _ _ _ _
    obtain ⟨hg, hle⟩ := hg
    have hi := genStep_issued hg id
    by_cases e : i = id
    · subst e
      refine ⟨d.referrals, ?_, ?_, ?_⟩
      · simp [State.granted, hn]
      · rw [issued_total, issued_total, hi]; simp
      · intro h; exact ⟨d, by simp, by simpa [State.granted] using hle h⟩
    · refine same ?_ ?_
      · unfold State.quota; simp only; rw [AMap.get_set_ne _ _ e]
      · rw [issued_total, issued_total, hi]; simp [e]
  | editReferral g hg hd =>
    rename_i i d d' _ _ _ _
    obtain ⟨n, hg, hc, hle⟩ := hg
    have hi := genStep_issued hg id
    by_cases e : i = id
    · subst e
      refine ⟨n, ?_, ?_, ?_⟩
      · simp [State.granted, hd, hc]
      · rw [issued_total, issued_total, hi]; simp
      · intro h; exact ⟨d', by simp, by simpa [State.granted] using hle h⟩
    · refine same ?_ ?_
      · unfold State.quota; simp only; rw [AMap.get_set_ne _ _ e]
      · rw [issued_total, issued_total, hi]; simp [e]
  | codes g hg =>
    obtain ⟨i, k, hs, hg⟩ := hg
    replace hg := GenStep.fromAllocation (env := env) (s := s) hg
    refine same rfl ?_
    rw [issued_total, issued_total, genStep_issued hg id]; simp
  | referral hd _ =>
    refine same ?_ rfl
    unfold State.quota
    simp only
    rw [AMap.get_set]
    split
    · rename_i e; subst e; rw [hd]; rfl
    · rfl
  | account h => exact same (accOp_quota h id) (accOp_issued h id)
  | create g hg hn h =>
    refine same (accOp_quota h id) ?_
    rw [accOp_issued h id, issued_total, issued_total]
    exact claimed_issued hg id
  | _ => exact same rfl rfl

/-- **C35, limits at granting.** The granted count of a referral never falls, and whenever a call raises it the new count
is within the referral's `max_referrals`. -/
theorem c35_granted_within_limit {env : Env} {cl : Caller} {s s' : State} {op : Op} {o : Out}
    (h : step env cl s op = Except.ok (s', o)) (id : RefId) :
    s.granted id ≤ s'.granted id ∧
    (s.granted id < s'.granted id → ∃ d', s'.referrals.get id = some d' ∧ s'.granted id ≤ d'.maxReferrals) := by
  obtain ⟨n, h1, -, h3⟩ := shape_granted (body_shape (step_body h)) id
  refine ⟨by omega, fun hlt => h3 (by omega)⟩

theorem reach_issued {env : Env} {s : State} (h : Reach env s) (id : RefId) : (s.granted id : Int) = s.issued id := by
  refine Reach.induct (P := fun s => (s.granted id : Int) = s.issued id) (env := env) ?_ ?_ h
  · intro s g
    unfold State.granted State.issued
    rw [g.refgen, g.referrals]; simp
  · intro s s' cl op o h0 hb
    obtain ⟨n, h1, h2, -⟩ := shape_granted (body_shape hb) id
    rw [h1, h2]; push_cast; omega

/-- The referral of an account. -/
theorem accOp_referred {s s' : State} {a : Addr} {lr : Option (Level × Rule)} (h : AccOp s a lr s') (id : RefId) :
    s'.referred id = s.referred id := by
  cases h with
  | mk o rw k hl hp hr =>
    rename_i v ids w x acc refs
    obtain ⟨haddr, -, -, hcomp, -⟩ := hp.frame
    obtain ⟨acc0, rd, hg, -, hv⟩ := load_ok hl
    have haddr' : w.acc.addr = a := by rw [haddr, withRule_addr, hv]
    obtain ⟨reqs, -, he⟩ := realize_ok hr.1
    have hrid : acc.referralId = acc0.referralId := by
      rw [he]; simp only
      rw [hcomp]; simp only
      rw [withRule_comp_referralId, hv]
    unfold State.referred State.realized
    simp only
    rw [haddr', AMap.sum_set, AMap.term_eq, hg]
    simp only [hrid]; ring

theorem shape_used {env : Env} {s s' : State} (h : Shape env s s') (id : RefId) :
    s'.used id - s.used id = s'.referred id - s.referred id := by
  have same : ∀ {t : State}, t.used id = s.used id → t.accounts = s.accounts →
      t.used id - s.used id = t.referred id - s.referred id := by
    intro t h1 h2
    unfold State.referred
    rw [h1, h2]; ring
  have step : ∀ {g : RefGen} {i : RefId} {n : Nat}, GenStep env s i n s.refgen g →
      g.codes.sum (fun _ c => if c.referralId = id then (c.count : Int) else 0) = s.used id := by
    intro g i n hg
    unfold State.used
    cases hg with
    | same => rfl
    | alloc _ h => rw [(addAllocation_ok h).1]
    | codes _ _ h =>
      rw [(insertCodes_ok _ _ _ _ (createCodes_ok h).2.1).1]; simp
    | fromAllocation h =>
      obtain ⟨list, al, -, -, -, -, e, -⟩ := codesFromAllocation_ok h
      rw [(insertCodes_ok _ _ _ _ e).1]; simp
  cases h with
  | newReferral g hg => exact same (step hg.1) rfl
  | editReferral g hg => obtain ⟨n, hg, -⟩ := hg; exact same (step hg) rfl
  | codes g hg => obtain ⟨i, k, hs, hg⟩ := hg; replace hg := GenStep.fromAllocation (env := env) (s := s) hg; exact same (step hg) rfl
  | account h =>
    have e1 := accOp_referred h id
    have e2 := accOp_refgen h
    unfold State.used
    rw [e1, e2]; ring
  | create g hg hn h =>
    rename_i a rule rid
    have e1 := accOp_referred h id
    have e2 := accOp_refgen h
    unfold State.used
    rw [e1, e2]
    unfold State.referred
    simp only
    rw [AMap.sum_set, AMap.term_eq, hn]
    rcases hg with ⟨rfl, rfl⟩ | ⟨c, r, bs, rfl, hc⟩
    · simp [Account.fresh]
    · obtain ⟨code, e1, -, e3, -, -, e5, -⟩ := claim_ok hc
      rw [e5, AMap.sum_set, AMap.term_eq, e1]
      simp only [Account.fresh, Option.some.injEq, e3]
      by_cases e : code.referralId = id
      · simp only [e, if_true]; push_cast; ring
      · simp [e]
  | _ => exact same rfl rfl

theorem reach_used {env : Env} {s : State} (h : Reach env s) (id : RefId) : s.used id = s.referred id := by
  refine Reach.induct (P := fun s => s.used id = s.referred id) (env := env) ?_ ?_ h
  · intro s g
    unfold State.used State.referred
    rw [g.refgen, g.accounts]; simp
  · intro s s' cl op o h0 hb
    have := shape_used (body_shape hb) id
    omega

/-- **C35, everything is counted.** The count on a referral's badge is exactly the total of the uses of its codes plus the
codes its allocations can still create; and the number of accounts referred by it is the number of uses of its codes, so it
never exceeds the granted count. -/
theorem c35_counts_exact {env : Env} {s : State} (h : Reach env s) (id : RefId) :
    (s.granted id : Int) = s.issued id ∧ s.referred id = s.used id ∧ s.referred id ≤ s.granted id := by
  have h1 := reach_issued h id
  have h2 := reach_used h id
  refine ⟨h1, h2.symm, ?_⟩
  have hok := reach_genOk h
  rw [h1, ← h2]
  have a : 0 ≤ s.refgen.codes.sum (fun _ c => (if c.referralId = id then (c.maxCount : Int) else 0) +
      -(if c.referralId = id then (c.count : Int) else 0)) := by
    apply AMap.sum_nonneg
    intro k c hc
    have := (hok.code k c hc).1
    split <;> omega
  have b : 0 ≤ s.refgen.allocations.sum (fun i l => if i = id then (l.map (fun a => (a.maxCount : Int) - a.count)).sum else 0) := by
    apply AMap.sum_nonneg
    intro k l hl
    split
    · apply list_sum_nonneg
      intro x hx
      obtain ⟨al, ha, rfl⟩ := List.mem_map.mp hx
      have := (hok.alloc k l hl al ha).1
      omega
    · exact le_refl _
  rw [AMap.sum_add, AMap.sum_neg] at a
  unfold State.used State.issued
  omega

/-- **C35, allocations.** Codes created from an allocation never exceed it. -/
theorem c35_allocation_respected {env : Env} {s : State} (h : Reach env s) (id : RefId) {l : List ReferralAllocation}
    (hl : s.refgen.allocations.get id = some l) : ∀ a ∈ l, a.count ≤ a.maxCount :=
  fun a ha => ((reach_genOk h).alloc id l hl a ha).1

end Perp
