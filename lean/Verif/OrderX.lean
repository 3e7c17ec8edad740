import Verif.OrderW

/-!
# Iteration order (C62): collateral, requests, and the bodies of the methods
-/

namespace Perp

/-! ## Vaults and balances -/

theorem vaultPut_agree {m m' : AMap Res Dec} (h : m.Same m') (b : Bucket) :
    Agree AMap.Same (vaultPut m b) (vaultPut m' b) := by
  unfold vaultPut
  rw [h.getD]
  exact Agree.require rfl fun _ => Agree.bind_same fun x _ => Agree.pure (h.set _ _)

theorem vaultPutBatch_agree {m m' : AMap Res Dec} (h : m.Same m') (bs : List Bucket) :
    Agree AMap.Same (vaultPutBatch m bs) (vaultPutBatch m' bs) :=
  foldlM_same_list (fun b _ _ _ h => vaultPut_agree h b) h

theorem balanceAdd_agree {m m' : AMap Res Dec} (h : m.Same m') (b : Bucket) :
    Agree AMap.Same (balanceAdd m b) (balanceAdd m' b) := by
  unfold balanceAdd
  rw [h b.res]
  cases m'.get b.res with
  | none => exact Agree.pure (h.set _ _)
  | some x => exact Agree.bind_same fun x _ => Agree.pure (h.set _ _)

theorem balanceAddBatch_agree {m m' : AMap Res Dec} (h : m.Same m') (bs : List Bucket) :
    Agree AMap.Same (balanceAddBatch m bs) (balanceAddBatch m' bs) :=
  foldlM_same_list (fun b _ _ _ h => balanceAdd_agree h b) h

/-- Depositing buckets of different resources in another order. -/
theorem vaultPutBatch_perm {m m' : AMap Res Dec} (h : m.Same m') {bs bs' : List Bucket} (hl : bs.Perm bs')
    (hn : (bs.map Bucket.res).Nodup) : Agree AMap.Same (vaultPutBatch m bs) (vaultPutBatch m' bs') := by
  let g : Bucket → Option Dec → R (Option Dec × Unit) := fun b slot => do
    require (decide (b.res ≠ FEE_OATH)) .vault
    let x ← dadd (slot.getD 0) b.amt
    pure (some x, ())
  have pass : ∀ b : Bucket, Pass Bucket.res g (fun (_ : Unit) _ => ()) (fun m : AMap Res Dec => m.get) (fun _ => ())
      (fun m => vaultPut m b) b := by
    intro b
    refine Pass.of (fun m r => pure (m.set b.res (r.1.getD 0))) (fun m => ?_) (fun m r m1 hg h => ?_) (fun _ _ => errs_pure _)
    · simp only [vaultPut, g, bind_assoc, pure_bind, Option.getD_some]
      rfl
    · simp only [g, bind_ok, pure_ok] at hg
      obtain ⟨-, -, x, -, rfl⟩ := hg
      cases h
      exact ⟨get_set_update _ _ _, rfl⟩
  refine (keyed_agree (η := id) (η' := id) Bucket.res g (fun (_ : Unit) _ => ()) (fun _ _ _ => rfl)
    (fun m : AMap Res Dec => m.get) (fun _ => ()) (fun m : AMap Res Dec => m.get) (fun _ => ())
    (by simpa using hl) (by simpa using hn) (fun b _ => pass b) (fun b _ => pass b) (funext h) rfl).mono ?_
  exact fun a b hh => congrFun hh.1

theorem get_erase_update {K V : Type} [DecidableEq K] (m : AMap K V) (k : K) :
    (m.erase k).get = Function.update m.get k none := by
  funext q
  rw [AMap.get_erase, Function.update_apply]
  by_cases h : k = q
  · subst h; simp
  · have : ¬ q = k := fun e => h e.symm
    simp [h, this]

theorem balanceSubBatch_perm {m m' : AMap Res Dec} (h : m.Same m') {bs bs' : List Bucket} (hl : bs.Perm bs')
    (hn : (bs.map Bucket.res).Nodup) : Agree AMap.Same (balanceSubBatch m bs) (balanceSubBatch m' bs') := by
  let g : Bucket → Option Dec → R (Option Dec × Unit) := fun b slot => do
    let x ← expect slot .insufficientBalance
    let y ← dsub x b.amt
    pure (if y = 0 then none else some y, ())
  have pass : ∀ b : Bucket, Pass Bucket.res g (fun (_ : Unit) _ => ()) (fun m : AMap Res Dec => m.get) (fun _ => ())
      (fun m => balanceSub m b) b := by
    intro b
    refine Pass.of (fun m r => pure (match r.1 with | none => m.erase b.res | some y => m.set b.res y)) (fun m => ?_)
      (fun m r m1 hg h => ?_) (fun _ _ => errs_pure _)
    · simp only [balanceSub, g, bind_assoc, pure_bind]
      refine bind_congr fun x => bind_congr fun y => ?_
      split <;> rfl
    · cases h
      obtain ⟨o, u⟩ := r
      cases o with
      | none => exact ⟨get_erase_update _ _, rfl⟩
      | some y => exact ⟨get_set_update _ _ _, rfl⟩
  refine (keyed_agree (η := id) (η' := id) Bucket.res g (fun (_ : Unit) _ => ()) (fun _ _ _ => rfl)
    (fun m : AMap Res Dec => m.get) (fun _ => ()) (fun m : AMap Res Dec => m.get) (fun _ => ())
    (by simpa using hl) (by simpa using hn) (fun b _ => pass b) (fun b _ => pass b) (funext h) rfl).mono ?_
  exact fun a b hh => congrFun hh.1

/-- One withdrawal of a batch, collecting the buckets. -/
def takeStep (env : Env) (st : Strategy) (t : AMap Res Dec × List Bucket) (c : Res × Dec) :
    R (AMap Res Dec × List Bucket) := do
  let r ← vaultTake env st t.1 c
  pure (r.1, t.2 ++ [r.2])

theorem vaultTakeBatch_fold (env : Env) (st : Strategy) : ∀ (cs : List (Res × Dec)) (m : AMap Res Dec) (acc : List Bucket),
    cs.foldlM (takeStep env st) (m, acc) =
      (do let r ← vaultTakeBatch env st m cs; pure (r.1, acc ++ r.2) : R (AMap Res Dec × List Bucket)) := by
  intro cs
  induction cs with
  | nil => intro m acc; simp [vaultTakeBatch, pure, Except.pure, bind, Except.bind]
  | cons c cs ih =>
    intro m acc
    simp only [List.foldlM_cons, takeStep, vaultTakeBatch, bind_assoc, pure_bind]
    refine bind_congr fun r => ?_
    rw [ih]
    simp only [List.append_assoc, List.singleton_append]

theorem vaultTakeBatch_res (env : Env) (st : Strategy) : ∀ {cs : List (Res × Dec)} {m m1 : AMap Res Dec} {bs : List Bucket},
    vaultTakeBatch env st m cs = Except.ok (m1, bs) → bs.map Bucket.res = cs.map Prod.fst := by
  intro cs
  induction cs with
  | nil => intro m m1 bs h; cases h; rfl
  | cons c cs ih =>
    intro m m1 bs h
    simp only [vaultTakeBatch, vaultTake, bind_ok, pure_ok, Prod.mk.injEq] at h
    obtain ⟨⟨_, b⟩, ⟨x, -, rfl, rfl⟩, ⟨m2, bs2⟩, h2, rfl, rfl⟩ := h
    simp only [List.map_cons, ih h2]

/-- Withdrawing different resources in another order. -/
theorem vaultTakeBatch_perm {env : Env} {st : Strategy} {m m' : AMap Res Dec} (h : m.Same m') {cs cs' : List (Res × Dec)}
    (hl : cs.Perm cs') (hn : (cs.map Prod.fst).Nodup) :
    Agree (fun r r' => r.1.Same r'.1 ∧ r.2.Perm r'.2) (vaultTakeBatch env st m cs) (vaultTakeBatch env st m' cs') := by
  let g : Res × Dec → Option Dec → R (Option Dec × Bucket) := fun c slot => do
    let x ← takeAmount (env.gran c.1) (slot.getD 0) c.2 st
    pure (some (slot.getD 0 - x), ⟨c.1, x⟩)
  have pass : ∀ c : Res × Dec, Pass Prod.fst g (fun (s : Multiset Bucket) b => s + {b})
      (fun t : AMap Res Dec × List Bucket => t.1.get) (fun t => (t.2 : Multiset Bucket)) (fun t => takeStep env st t c) c := by
    intro c
    refine Pass.of (fun t r => pure (t.1.set c.1 (r.1.getD 0), t.2 ++ [r.2])) (fun t => ?_) (fun t r t1 hg h => ?_)
      (fun _ _ => errs_pure _)
    · simp only [takeStep, vaultTake, g, bind_assoc, pure_bind, Option.getD_some]
      rfl
    · simp only [g, bind_ok, pure_ok] at hg
      obtain ⟨x, -, rfl⟩ := hg
      cases h
      exact ⟨get_set_update _ _ _, by simp only [← Multiset.coe_add, Multiset.coe_singleton]⟩
  have main := keyed_agree (η := id) (η' := id) Prod.fst g (fun (s : Multiset Bucket) b => s + {b})
    (fun s x y => by simp only [Multiset.add_assoc, Multiset.add_comm {x} {y}])
    (fun t : AMap Res Dec × List Bucket => t.1.get) (fun t => (t.2 : Multiset Bucket))
    (fun t : AMap Res Dec × List Bucket => t.1.get) (fun t => (t.2 : Multiset Bucket))
    (f := takeStep env st) (f' := takeStep env st) (a := (m, [])) (a' := (m', []))
    (by simpa using hl) (by simpa using hn) (fun b _ => pass b) (fun b _ => pass b) (funext h) rfl
  have e : ∀ m cs, cs.foldlM (takeStep env st) (m, []) = vaultTakeBatch env st m cs := by
    intro m cs
    rw [vaultTakeBatch_fold]
    simp only [List.nil_append]
    exact bind_pure _
  rw [e, e] at main
  exact main.mono fun a b hh => ⟨congrFun hh.1, Multiset.coe_eq_coe.mp hh.2⟩

theorem VAccount.Same.depositCollateral {v v' : VAccount} (h : v.Same v') (bs : List Bucket) :
    Agree VAccount.Same (v.depositCollateral bs) (v'.depositCollateral bs) := by
  unfold VAccount.depositCollateral
  refine Agree.bind (balanceAddBatch_agree h.collateralBalances bs) fun a a' _ _ ha => ?_
  refine Agree.bind (balanceAddBatch_agree h.comp.collateralBalances bs) fun b b' _ _ hb => ?_
  refine Agree.bind (vaultPutBatch_agree h.comp.collateral bs) fun d d' _ _ hd => ?_
  exact Agree.pure { h with collateralBalances := ha, comp := { h.comp with collateralBalances := hb, collateral := hd } }

theorem VAccount.Same.withdrawCollateral {v v' : VAccount} (h : v.Same v') (env : Env) {cs cs' : List (Res × Dec)}
    (hl : cs.Perm cs') (hn : (cs.map Prod.fst).Nodup) (st : Strategy) :
    Agree (fun r r' => r.1.Same r'.1 ∧ r.2.Perm r'.2) (v.withdrawCollateral env cs st) (v'.withdrawCollateral env cs' st) := by
  unfold VAccount.withdrawCollateral
  refine Agree.bind (vaultTakeBatch_perm h.comp.collateral hl hn) fun r r' h1 _ hr => ?_
  obtain ⟨m, bs⟩ := r
  obtain ⟨m', bs'⟩ := r'
  have hb : (bs.map Bucket.res).Nodup := by rw [vaultTakeBatch_res env st h1]; exact hn
  refine Agree.bind (balanceSubBatch_perm h.comp.collateralBalances hr.2 hb) fun b b' _ _ hb1 => ?_
  refine Agree.bind (balanceSubBatch_perm h.collateralBalances hr.2 hb) fun d d' _ _ hd => ?_
  exact Agree.pure ⟨{ h with collateralBalances := hd, comp := { h.comp with collateralBalances := hb1, collateral := hr.1 } }, hr.2⟩

/-! ## Liquidated collateral -/

/-- The contribution of one collateral to a liquidation: exchange.rs:2776-2789 -/
def liqCollValue (c : Ctx) (e : Res × Dec) : R (Option (Dec × Dec × Dec × (Res × Dec))) :=
  match c.cfg.colls.get e.1 with
  | some cc => do
      let price ← c.orc.priceResource e.1
      let value ← dmul e.2 price
      let vd ← dmul value cc.discount
      let margin ← dmul value cc.margin
      pure (some (value, vd, margin, e))
  | none => pure none

def liqCollAdd (t : LiqColl) : Option (Dec × Dec × Dec × (Res × Dec)) → R LiqColl
  | some k => do
      let tv ← dadd t.value k.1
      let tvd ← dadd t.valueDiscounted k.2.1
      let tm ← dadd t.margin k.2.2.1
      pure { value := tv, valueDiscounted := tvd, margin := tm, amounts := t.amounts ++ [k.2.2.2] }
  | none => pure t

/-- Totals and amounts without order. -/
def LiqColl.obs (t : LiqColl) := (t.value, t.valueDiscounted, t.margin, (t.amounts : Multiset (Res × Dec)))

theorem liquidateCollateral_agree {c c' : Ctx} {a a' : VAccount} (hc : c.Same c') (ha : a.Same a') :
    Agree (fun t t' => t.obs = t'.obs) (liquidateCollateral c a) (liquidateCollateral c' a') := by
  unfold liquidateCollateral
  have eqn : ∀ c : Ctx, ∀ t e, liquidateCollateralOne c t e = liqCollValue c e >>= liqCollAdd t := by
    intro c t e
    unfold liquidateCollateralOne liqCollValue
    cases c.cfg.colls.get e.1 with
    | none => rfl
    | some cc => simp only [liqCollAdd, bind_assoc, pure_bind]
  refine accum_perm (g := liqCollValue c) (g' := liqCollValue c') liqCollAdd (rest := LiqColl.obs)
    (add := fun t k => match k with
      | none => t
      | some k => (t.1 + k.1, t.2.1 + k.2.1, t.2.2.1 + k.2.2.1, t.2.2.2 + {k.2.2.2})) (fun t b d => ?_) (fun t k r h => ?_)
    (fun t k => ?_)
    ha.collateralBalances.perm (eqn c) (eqn c') (fun e _ => ?_) rfl
  · cases b <;> cases d <;> simp only []
    rename_i x y
    simp only [Int.add_right_comm, Multiset.add_assoc, Multiset.add_comm {x.2.2.2} {y.2.2.2}]
  · cases k with
    | none => cases h; rfl
    | some k =>
      simp only [liqCollAdd, bind_ok, pure_ok, dadd_ok] at h
      obtain ⟨_, ⟨-, rfl⟩, _, ⟨-, rfl⟩, _, ⟨-, rfl⟩, rfl⟩ := h
      simp only [LiqColl.obs, ← Multiset.coe_add, Multiset.coe_singleton]
  · cases k with
    | none => exact errs_pure _
    | some k => unfold liqCollAdd; errs
  · unfold liqCollValue
    rw [hc.cfg.colls e.1, hc.priceResource]

theorem liquidateCollateral_nodup {c : Ctx} {a : VAccount} {t : LiqColl} (h : liquidateCollateral c a = Except.ok t) :
    (t.amounts.map Prod.fst).Nodup := by
  have key : ∀ (l : List (Res × Dec)) (t0 t : LiqColl), l.foldlM (liquidateCollateralOne c) t0 = Except.ok t →
      t.amounts.Sublist (t0.amounts ++ l) := by
    intro l
    induction l with
    | nil => intro t0 t h; cases h; simp
    | cons e l ih =>
      intro t0 t h
      rw [List.foldlM_cons] at h
      obtain ⟨t1, h1, h2⟩ := bind_ok.mp h
      have := ih t1 t h2
      unfold liquidateCollateralOne at h1
      split at h1
      · simp only [bind_ok, pure_ok] at h1
        obtain ⟨_, -, _, -, _, -, _, -, _, -, _, -, _, -, rfl⟩ := h1
        simpa using this
      · cases h1
        exact this.trans (List.Sublist.append_left (List.sublist_cons_self e l) _)
  have := key _ _ _ h
  simp only [List.nil_append] at this
  exact (this.map Prod.fst).nodup a.collateralBalances.nodup

end Perp
