import Verif.Claiming
import Verif.Orders
import Verif.Liquidation
import Verif.Oaths

/-!
# Tokens are conserved (C51)

Every call moves tokens between the caller, the vaults of the components and the addresses it pays; tokens appear and disappear
only where the code mints or burns them.
-/

namespace Perp

/-! ## Specification -/

/-- Tokens of one resource held in the vaults of all accounts, of the pool and of the referral generator. -/
def State.stored (s : State) (r : Res) : Int :=
  s.accounts.sum (fun _ a => (a.collateral.get r).getD 0) + (if r = BASE then s.pool.baseTokens else 0) +
    (s.refgen.vaults.get r).getD 0

/-- The buckets a caller passes to a method (besides the fee oath). -/
def Op.tokens : Op → List Bucket
  | .mintReferralWithAllocation _ _ _ _ t _ _ | .addReferralAllocation _ t _ _ | .createReferralCodes _ t _
  | .createAccount _ _ _ t _ | .addCollateral _ _ t => t
  | .swapProtocolFee b | .addLiquidity b | .removeLiquidity b | .swapDebt _ _ b _ | .liquidate _ b _ => [b]
  | _ => []

/-- The tokens among the returned buckets that a method mints: LP tokens and fee oaths. -/
def Op.minted (op : Op) (o : Out) : List Bucket :=
  match op with
  | .addLiquidity _ | .lockFee _ => o.buckets
  | _ => []

/-! ## Vaults -/

theorem vaultPutBatch_total {bs : List Bucket} : ∀ {m m' : AMap Res Dec}, vaultPutBatch m bs = Except.ok m' →
    ∀ r, (m'.get r).getD 0 = (m.get r).getD 0 + totalOf bs r := by
  induction bs with
  | nil =>
    intro m m' h r
    simp only [vaultPutBatch, List.foldlM_nil, pure_ok] at h
    subst h; simp [totalOf]
  | cons b bs ih =>
    intro m m' h r
    simp only [vaultPutBatch, List.foldlM_cons, bind_ok] at h
    obtain ⟨m1, h1, h⟩ := h
    rw [ih h r, vaultPut_get h1 r, totalOf_cons]
    split <;> omega

theorem vaultTakeBatch_total {env : Env} {st : Strategy} {cs : List (Res × Dec)} :
    ∀ {m m' : AMap Res Dec} {bs : List Bucket}, vaultTakeBatch env st m cs = Except.ok (m', bs) →
    ∀ r, (m'.get r).getD 0 + totalOf bs r = (m.get r).getD 0 := by
  induction cs with
  | nil =>
    intro m m' bs h r
    simp only [vaultTakeBatch, Except.ok.injEq, Prod.mk.injEq] at h
    obtain ⟨rfl, rfl⟩ := h
    simp [totalOf]
  | cons c cs ih =>
    intro m m' bs h r
    simp only [vaultTakeBatch, bind_ok, pure_ok, Prod.mk.injEq] at h
    obtain ⟨⟨m1, b⟩, h1, ⟨m2, bs'⟩, h2, rfl, rfl⟩ := h
    obtain ⟨e1, -, -, -, -, e6⟩ := vaultTake_get h1
    have := ih h2 r
    rw [e6 r] at this
    rw [totalOf_cons, e1]
    simp only at this ⊢
    split at this <;> rename_i hc
    · rw [if_pos hc]; omega
    · rw [if_neg hc]; omega

theorem mergeTokens_total {ts : List Bucket} : ∀ {m m' : AMap Res Dec}, ts.foldlM mergeToken m = Except.ok m' →
    ∀ r, (m'.get r).getD 0 = (m.get r).getD 0 + totalOf ts r := by
  induction ts with
  | nil =>
    intro m m' h r
    simp only [List.foldlM_nil, pure_ok] at h
    subst h; simp [totalOf]
  | cons b bs ih =>
    intro m m' h r
    simp only [List.foldlM_cons, bind_ok] at h
    obtain ⟨m1, h1, h⟩ := h
    have e1 := addClaims_get (l := [(b.res, b.amt)]) (m := m) (m' := m1) (by
      simp only [List.foldlM_cons, List.foldlM_nil, bind_ok, pure_ok]
      exact ⟨m1, h1, rfl⟩) r
    rw [ih h r, totalOf_cons, e1, claimed_cons]
    simp only [claimed, List.filter_nil, List.map_nil, List.sum_nil]
    split <;> omega

theorem takeClaims_total {env : Env} {l : List (Res × Dec)} : ∀ {t t' : AMap Res Dec × List Bucket},
    l.foldlM (takeClaim env) t = Except.ok t' → ∀ r, (t'.1.get r).getD 0 + totalOf t'.2 r = (t.1.get r).getD 0 + totalOf t.2 r := by
  induction l with
  | nil =>
    intro t t' h r
    simp only [List.foldlM_nil, pure_ok] at h
    subst h; rfl
  | cons e l ih =>
    intro t t' h r
    simp only [List.foldlM_cons, bind_ok] at h
    obtain ⟨t1, h1, h⟩ := h
    rw [ih h r]
    unfold takeClaim at h1
    split at h1
    · rename_i avail ha
      simp only [bind_ok, pure_ok] at h1
      obtain ⟨-, -, x, -, rfl⟩ := h1
      simp only
      rw [AMap.get_set, totalOf_append, totalOf_cons, totalOf_nil]
      split
      · rename_i hr; subst hr
        rw [ha]; simp only [Option.getD_some]; omega
      · omega
    · simp only [bind_ok, pure_ok] at h1
      obtain ⟨-, -, rfl⟩ := h1
      rfl

theorem totalOf_entries (m : AMap Res Dec) (r : Res) :
    totalOf (m.entries.map (fun e => (⟨e.1, e.2⟩ : Bucket))) r = (m.get r).getD 0 := by
  rw [← claimed_entries m r]
  unfold totalOf claimed
  induction m.entries with
  | nil => rfl
  | cons e l ih =>
    simp only [List.map_cons, List.filter_cons]
    split <;> simp_all

theorem splitTokens_total {env : Env} {tokens taken rest : List Bucket} {totals : AMap Res Dec}
    (h : splitTokens env tokens totals = Except.ok (taken, rest)) (r : Res) :
    totalOf taken r + totalOf rest r = totalOf tokens r := by
  simp only [splitTokens, bind_ok, pure_ok, Prod.mk.injEq] at h
  obtain ⟨mapped, h1, t, h2, rfl, rfl⟩ := h
  have a := mergeTokens_total h1 r
  have b := takeClaims_total h2 r
  rw [totalOf_entries]
  simp only [AMap.get_empty, Option.getD_none, totalOf_nil] at a b
  omega

theorem addAllocation_total {env : Env} {g g' : RefGen} {id : RefId} {tokens rest : List Bucket} {claims : List (Res × Dec)}
    {n i : Nat} (h : g.addAllocation env tokens id claims n = Except.ok (g', rest, i)) (r : Res) :
    (g'.vaults.get r).getD 0 + totalOf rest r = (g.vaults.get r).getD 0 + totalOf tokens r := by
  simp only [RefGen.addAllocation, bind_ok, pure_ok, Prod.mk.injEq] at h
  obtain ⟨totals, ht, ⟨taken, rest'⟩, hs, vaults, hv, rfl, rfl, -⟩ := h
  have a := splitTokens_total hs r
  have b := vaultPutBatch_total hv r
  simp only at a b ⊢
  omega

theorem createCodes_total {env : Env} {g g' : RefGen} {id : RefId} {tokens rest : List Bucket}
    {hashes : AMap Hash (List (Res × Dec) × Nat)} (h : g.createCodes env tokens id hashes = Except.ok (g', rest)) (r : Res) :
    (g'.vaults.get r).getD 0 + totalOf rest r = (g.vaults.get r).getD 0 + totalOf tokens r := by
  simp only [RefGen.createCodes, bind_ok, pure_ok, Prod.mk.injEq] at h
  obtain ⟨totals, ht, ⟨taken, rest'⟩, hs, codes, -, vaults, hv, rfl, rfl⟩ := h
  have a := splitTokens_total hs r
  have b := vaultPutBatch_total hv r
  simp only at a b ⊢
  omega

theorem fromAllocation_vaults {g g' : RefGen} {id : RefId} {i : Nat} {hs : List Hash}
    (h : g.codesFromAllocation id i hs = Except.ok g') : g'.vaults = g.vaults := by
  simp only [RefGen.codesFromAllocation, bind_ok, pure_ok] at h
  obtain ⟨_, -, _, -, _, -, -, -, _, -, rfl⟩ := h
  rfl

theorem claim_total {env : Env} {g g' : RefGen} {hh : Hash} {id : RefId} {bs : List Bucket}
    (h : g.claim env hh = Except.ok (g', id, bs)) (r : Res) :
    (g'.vaults.get r).getD 0 + totalOf bs r = (g.vaults.get r).getD 0 := by
  simp only [RefGen.claim, bind_ok, pure_ok, Prod.mk.injEq] at h
  obtain ⟨code, -, -, -, ⟨vaults, bs'⟩, hv, rfl, -, rfl⟩ := h
  exact vaultTakeBatch_total hv r

/-! ## The working state -/

/-- Tokens in the pool and in the account of the working state. -/
def W.heldIn (w : W) (r : Res) : Int := (if r = BASE then w.pool.comp.baseTokens else 0) + (w.acc.comp.collateral.get r).getD 0

theorem Touches.heldIn {p : PairId} {w w' : W} (h : Touches p w w') (r : Res) : w'.heldIn r = w.heldIn r := by
  unfold W.heldIn
  rw [h.comp, h.acc]

theorem addBases_held {bs : List Bucket} : ∀ {w w' : W}, (∀ b ∈ bs, b.res = BASE) → bs.foldlM addBase w = Except.ok w' →
    ∀ r, w'.heldIn r = w.heldIn r + totalOf bs r := by
  induction bs with
  | nil =>
    intro w w' _ h r
    simp only [List.foldlM_nil, pure_ok] at h
    subst h; simp [totalOf]
  | cons b bs ih =>
    intro w w' hb h r
    simp only [List.foldlM_cons, bind_ok] at h
    obtain ⟨w1, h1, h⟩ := h
    rw [ih (fun x hx => hb x (by simp [hx])) h r, totalOf_cons, hb b (by simp)]
    simp only [addBase, bind_ok] at h1
    obtain ⟨pool, hp, hs⟩ := h1
    have hp := VPool.deposit_ok hp
    have hs := settleAccount_ok hs
    subst hp hs
    unfold W.heldIn
    by_cases hr : r = BASE
    · subst hr; simp; ring
    · rw [if_neg hr, if_neg hr, if_neg (fun e => hr e.symm)]; simp

theorem totalOf_split (bs : List Bucket) (r : Res) :
    totalOf (bs.filter (fun b => b.res = BASE)) r + totalOf (bs.filter (fun b => b.res ≠ BASE)) r = totalOf bs r := by
  induction bs with
  | nil => rfl
  | cons b bs ih =>
    rw [List.filter_cons, List.filter_cons, totalOf_cons]
    by_cases hb : b.res = BASE
    · simp only [hb, decide_true, if_true, ne_eq, not_true, decide_false, Bool.false_eq_true, if_false]
      rw [totalOf_cons, hb]
      simp only [ne_eq] at ih; omega
    · simp only [hb, decide_false, Bool.false_eq_true, if_false, ne_eq, not_false_eq_true, decide_true, if_true]
      rw [totalOf_cons]
      simp only [ne_eq] at ih; omega

theorem addCollateral_held {cfg : VConfig} {w w' : W} {tokens : List Bucket} (h : addCollateral cfg w tokens = Except.ok w')
    (r : Res) : w'.heldIn r = w.heldIn r + totalOf tokens r := by
  obtain ⟨w1, acc, h1, -, hd, -, rfl⟩ := addCollateral_ok h
  have a := addBases_held (by simp) h1 r
  have b := vaultPutBatch_total (depositCollateral_put hd).vault r
  have c := totalOf_split tokens r
  simp only [VAccount.collPart] at b
  unfold W.heldIn at a ⊢
  simp only
  omega

theorem claims_held {env : Env} {l : List (Res × Dec)} : ∀ {t t' : W × List Bucket × List (Res × Dec)},
    l.foldlM (claimOne env) t = Except.ok t' → ∀ r, t'.1.heldIn r + totalOf t'.2.1 r = t.1.heldIn r + totalOf t.2.1 r := by
  induction l with
  | nil =>
    intro t t' h r
    simp only [List.foldlM_nil, pure_ok] at h
    subst h; rfl
  | cons e l ih =>
    intro t t' h r
    simp only [List.foldlM_cons, bind_ok] at h
    obtain ⟨t1, h1, h⟩ := h
    rw [ih h r]
    rcases claimOne_ok h1 with ⟨-, -, -, pool, x, w, hp, hw, rfl⟩ | ⟨-, -, rfl⟩
    · obtain ⟨-, hp⟩ := VPool.withdraw_ok hp
      have hw := settleAccount_ok hw
      subst hp hw
      simp only
      rw [totalOf_append, totalOf_cons, totalOf_nil]
      unfold W.heldIn
      by_cases hr : r = BASE
      · subst hr; simp only [if_true]; omega
      · rw [if_neg hr, if_neg hr, if_neg (fun e => hr e.symm)]; simp only; omega
    · rfl

theorem removeCollateral_held {c : Ctx} {w w' : W} {q : RemoveCollateralReq} {tokens : List Bucket}
    (h : removeCollateral c w q = Except.ok (w', tokens)) (r : Res) :
    w'.heldIn r + totalOf tokens r = w.heldIn r := by
  obtain ⟨claims, t, acc, bs, -, ht, hw, -, -, rfl, rfl⟩ := removeCollateral_ok h
  have a := claims_held ht r
  have b := vaultTakeBatch_total (withdrawCollateral_take hw).vault r
  simp only [VAccount.collPart, totalOf_nil] at a b
  rw [totalOf_append]
  unfold W.heldIn at a ⊢
  simp only at a ⊢
  omega

theorem swapDebt_held {c : Ctx} {w w' : W} {res : Res} {pay token rest : Bucket} {e : SwapDebtEv}
    (h : swapDebt c w res pay = Except.ok (w', token, rest, e)) (r : Res) :
    w'.heldIn r + totalOf [token, rest] r = w.heldIn r + totalOf [pay] r := by
  obtain ⟨cc, pr, priceRes, amount, value, taken, pool, w1, acc, bs, hb, -, -, -, -, -, -, hp, hs, hwd, hl, rfl,
    rfl, -⟩ := swapDebt_ok h
  have b := vaultTakeBatch_total (withdrawCollateral_take hwd).vault r
  have hbs : bs = [token] := by
    have := (takeBatch_total (withdrawCollateral_take hwd).vault).2.1
    match bs, this, hl with
    | [x], _, hl => simpa using hl
  subst hbs
  have hp := VPool.deposit_ok hp
  have hs := settleAccount_ok hs
  subst hp hs
  simp only [VAccount.collPart, totalOf_cons, totalOf_nil] at b ⊢
  unfold W.heldIn
  simp only [hb]
  by_cases hr : r = BASE
  · subst hr; simp only [if_true] at b ⊢; omega
  · simp only [if_neg hr, if_neg (fun e => hr e.symm : ¬ BASE = r)]; omega

theorem foldlM_comp {α : Type} {f : VPool → α → R VPool} (hf : ∀ {p p' a}, f p a = Except.ok p' → p'.comp = p.comp)
    {l : List α} {p p' : VPool} (h : l.foldlM f p = Except.ok p') : p'.comp = p.comp :=
  foldlM_rel (P := fun a b : VPool => b.comp = a.comp) (fun _ => rfl) (fun _ _ _ h1 h2 => h2.trans h1)
    (fun _ _ _ h => hf h) _ h

theorem liquidatePositions_comp {c : Ctx} {w w' : W} {tot : LiqTotals} (h : liquidatePositions c w = Except.ok (w', tot)) :
    w'.pool.comp = w.pool.comp ∧ w'.acc.comp = w.acc.comp := by
  obtain ⟨p1, p2, p3, h1, h2, h3, rfl⟩ := liquidatePositions_ok h
  refine ⟨?_, rfl⟩
  have a : p1.comp = w.pool.comp := foldlM_comp (fun {p p' a} h => by
    simp only [bind_ok, pure_ok] at h
    obtain ⟨⟨q, b⟩, hq, rfl⟩ := h
    exact (updatePair_touches (w := { w with pool := p }) hq).comp) h1
  have b : p2.comp = p1.comp := foldlM_rel (P := fun a b : VPool × LiqTotals => b.1.comp = a.1.comp) (fun _ => rfl)
    (fun _ _ _ h1 h2 => h2.trans h1) (fun x y z h => by
      obtain ⟨pc, price, pp, -, -, -, e, -⟩ := liquidateOne_ok h
      rw [e]; rfl) _ h2
  have d : p3.comp = { p2 with unreal := p2.unreal - tot.funding }.comp := foldlM_rel (P := fun a b : VPool => b.comp = a.comp) (fun _ => rfl)
    (fun _ _ _ h1 h2 => h2.trans h1) (fun x y z h => by
      obtain ⟨price, pp, -, -, rfl⟩ := updatePairSnaps_ok h; rfl) _ h3
  exact d.trans (b.trans a)

theorem liquidate_held {c : Ctx} {w w' : W} {pay : Bucket} {bs : List Bucket} {e : LiquidateEv}
    (h : liquidate c w pay = Except.ok (w', bs, e)) (r : Res) :
    w'.heldIn r + totalOf bs r = w.heldIn r + totalOf [pay] r := by
  obtain ⟨w1, lp, lc, value, acc, tokens, taken, pool, w2, w3, loss, w4, fees, hb, hlp, -, -, -, -, hwd, -, hp,
    hs, hwo, hfee, rfl, rfl, -⟩ := liquidate_ok h
  obtain ⟨e1, e2⟩ := liquidatePositions_comp hlp
  have b := vaultTakeBatch_total (withdrawCollateral_take hwd).vault r
  have hp := VPool.deposit_ok hp
  have hs := settleAccount_ok hs
  obtain ⟨-, hwo⟩ := writeOff_ok hwo
  have t := (settleFees_touches 0 hfee).heldIn r
  subst hp hs hwo
  simp only [VAccount.collPart, e2] at b
  simp only [W.heldIn, e1, totalOf_append, totalOf_cons, totalOf_nil, hb, VAccount.updateValidStart] at t ⊢
  by_cases hr : r = BASE
  · subst hr; simp only [if_true] at t ⊢; omega
  · rw [if_neg hr] at t ⊢; rw [if_neg hr, if_neg (fun e => hr e.symm)]
    rw [if_neg hr] at t; rw [if_neg (fun e => hr e.symm)]; omega

theorem order_held {c : Ctx} {w w' : W} {q : MarginOrderReq} {e : MarginOrderEv} (h : marginOrder c w q = Except.ok (w', e))
    (r : Res) : w'.heldIn r = w.heldIn r := by
  have hp := order_parts h
  have a := hp.comp
  have b := hp.coll
  simp only [VAccount.collPart, Prod.mk.injEq] at b
  unfold W.heldIn
  rw [a, b.2.2]

/-! ## Every call -/

/-- Tokens held when only one account changes. -/
theorem accounts_held {s s' : State} {a : Addr} {acc' : Account} (h : s'.accounts.get a = some acc')
    (ho : ∀ b, b ≠ a → s'.accounts.get b = s.accounts.get b) (r : Res) :
    s'.accounts.sum (fun _ x => (x.collateral.get r).getD 0) =
      s.accounts.sum (fun _ x => (x.collateral.get r).getD 0) -
        ((s.accounts.get a).map (fun x => (x.collateral.get r).getD 0)).getD 0 + (acc'.collateral.get r).getD 0 := by
  have : ∀ k, s'.accounts.get k = (s.accounts.set a acc').get k := by
    intro k
    rw [AMap.get_set]
    split
    · rename_i e; subst e; exact h
    · rename_i e; exact ho k (fun x => e x.symm)
  rw [AMap.sum_ext this, AMap.sum_set, AMap.term_eq]
  cases s.accounts.get a <;> rfl

theorem KeeperRun.held {env : Env} {s s' s1 : State} {a : Addr} {acc acc' : Account} {ids : List PairId}
    {u : Option PriceUpdate} {c : Ctx} {w0 w : W} (h : KeeperRun env s s' a acc acc' ids u s1 c w0 w)
    (hg : s'.refgen = s.refgen) (r : Res) : s'.stored r - s.stored r = w.heldIn r - w0.heldIn r := by
  have e := accounts_held h.after h.others r
  rw [h.before] at e
  simp only [Option.map_some, Option.getD_some] at e
  unfold State.stored W.heldIn
  rw [e, hg, h.pool, h.pool0, h.comp0, (realize_coll h.real).1]
  simp only [VPool.realize, VPool.new]
  omega

theorem opAddLiquidity_burnt {env : Env} {s s' : State} {b : Bucket} {o : Out}
    (h : opAddLiquidity env s b = Except.ok (s', o)) : o.burnt = [] := by
  simp only [opAddLiquidity, bind_ok, pure_ok, Prod.mk.injEq] at h
  obtain ⟨cfg, hc, -, hb, ⟨pool, dist, minted, ev⟩, -, _, -, rfl, rfl⟩ := h
  rfl

theorem payout_held {env : Env} {s : State} {amount x : Dec} {pool : Pool} (h : payout env s amount = Except.ok (pool, x)) :
    pool.baseTokens = s.pool.baseTokens - x := by
  obtain ⟨-, -, rfl⟩ := payout_ok h; rfl

/-- Refgen, buckets and burnt tokens of the calls of account holders and keepers. -/
theorem holder_quiet {env : Env} {cl : Caller} {s s' : State} {op : Op} {o : Out} (h : body env cl s op = Except.ok (s', o))
    (hh : op.holder = true) : o.given = [] ∧ o.burnt = [] ∧ s'.refgen = s.refgen := by
  have hs : ∀ {a : Addr}, op.account = some a → (∀ o' r t c, op ≠ .createAccount a o' r t c) → s'.refgen = s.refgen := by
    intro a ha hn
    rcases body_account h ha with ⟨lr, hx, -⟩ | ⟨g, rule, rid, ⟨o', t, c, e⟩, -, -⟩
    · exact accOp_refgen hx
    · exact absurd e (hn _ _ _ _)
  cases op with
  | createRecoveryKey oath a' =>
    obtain ⟨v, s1, v1, cfg, hv, -, hp, r, x, rfl, rfl, acc', refs, hr, he, rfl⟩ := createRecoveryKey_ok h
    exact ⟨rfl, rfl, hs rfl (by simp)⟩
  | addAuthRule oath a' l n =>
    obtain ⟨v, s1, v1, cfg, l', hv, -, hp, -, r, x, rfl, rfl, acc', refs, hr, he, rfl⟩ := addAuthRule_ok h
    exact ⟨rfl, rfl, hs rfl (by simp)⟩
  | setLevelAuth oath a' l r =>
    obtain ⟨v, s1, v1, cfg, hv, -, hp, x, rfl, acc', refs, hr, he, rfl⟩ := setLevelAuth_ok h
    exact ⟨rfl, rfl, hs rfl (by simp)⟩
  | removeCollateralRequest oath e a' t c =>
    obtain ⟨v, s1, v1, cfg, v2, acc', refs, hv, -, hp, hpush, -, hr, he, rfl⟩ := removeCollateralRequest_ok h
    exact ⟨rfl, rfl, hs rfl (by simp)⟩
  | marginOrderRequest oath a' args act can st =>
    obtain ⟨v, s1, v1, cfg, _, _, v2, acc, refs, hv, -, hp, -, -, hpush, -, hr, he, rfl⟩ := marginOrderRequest_ok h
    exact ⟨rfl, rfl, hs rfl (by simp)⟩
  | marginOrderTpSlRequest oath a' args tp sl =>
    obtain ⟨v, s1, v1, cfg, v2, v3, v4, acc, refs, iTp, iSl, hv, -, hp, -, -, h2, h3, h4, -, hr, he, rfl⟩ :=
      marginOrderTpSlRequest_ok h
    exact ⟨rfl, rfl, hs rfl (by simp)⟩
  | cancelRequests oath a' is =>
    obtain ⟨v, s1, v1, cfg, v2, acc, refs, hv, -, hp, h2, hr, he, rfl⟩ := opCancelRequests_ok h
    exact ⟨rfl, rfl, hs rfl (by simp)⟩
  | _ => cases hh

theorem keeper_refgen {env : Env} {cl : Caller} {s s' : State} {op : Op} {o : Out} {a : Addr}
    (h : body env cl s op = Except.ok (s', o)) (ha : op.account = some a) (hn : ∀ o' r t c, op ≠ .createAccount a o' r t c) :
    s'.refgen = s.refgen := by
  rcases body_account h ha with ⟨lr, hx, -⟩ | ⟨g, rule, rid, ⟨o', t, c, e⟩, -, -⟩
  · exact accOp_refgen hx
  · exact absurd e (hn _ _ _ _)

theorem deposit_held {env : Env} {s s1 : State} {v : VAccount} {oath : Option Bucket} {a : Addr} {acc acc' : Account}
    {tokens : List Bucket} {w : W} {refs : AMap RefId ReferralData} (hv : s.load a = Except.ok v)
    (ha : s.accounts.get a = some acc)
    (h : depositTokens env s v oath tokens = Except.ok (s1, w)) (hr : Realizes s1 w.acc acc' refs) (r : Res) :
    (s1.realized w acc' refs).stored r = s.stored r + totalOf tokens r := by
  obtain ⟨cfg, ids, w0, -, hw0, rfl, -, -, rfl, -⟩ := depositTokens_ok h
  obtain ⟨acc0, rd, ha', -, rfl⟩ := load_ok hv
  rw [ha] at ha'; cases ha'
  have e := addCollateral_held hw0 r
  have haddr := (addCollateral_path (ex := ExchangeConfig.dflt) hw0).frame.1
  obtain ⟨hr1, -⟩ := hr
  have hc := (realize_coll hr1).1
  simp only at haddr hc
  have := accounts_held (s := s) (s' := (s.burnt (oathAmt oath)).realized
    { w0 with acc := { w0.acc with vb := w0.acc.vb - oathAmt oath } } acc' refs) (a := a) (acc' := acc')
    (by simp only [State.realized, haddr]; rw [AMap.get_set_self])
    (by intro b hb; simp only [State.realized, haddr]; rw [AMap.get_set_ne _ _ (Ne.symm hb)]; rfl) r
  rw [ha] at this
  simp only [Option.map_some, Option.getD_some] at this
  unfold State.stored
  rw [this, hc]
  simp only [W.heldIn, VPool.new] at e
  simp only [State.realized, State.burnt, VPool.realize]
  omega

theorem updatePairsLoop_comp {c : Ctx} {ids : List PairId} : ∀ {p p' : VPool} {fl : List Bool},
    updatePairsLoop c p ids = Except.ok (p', fl) → p'.comp = p.comp := by
  induction ids with
  | nil =>
    intro p p' fl h
    simp only [updatePairsLoop, Except.ok.injEq, Prod.mk.injEq] at h
    rw [← h.1]
  | cons i ids ih =>
    intro p p' fl h
    simp only [updatePairsLoop, bind_ok, pure_ok, Prod.mk.injEq] at h
    obtain ⟨⟨p1, b⟩, h1, ⟨p2, bs⟩, h2, rfl, -⟩ := h
    obtain ⟨pc, price, pp0, pp1, dPool, seconds, period, -, -, -, -, -, -, e, -⟩ := updatePair_ok h1
    rw [ih h2, e]

/-- For every resource and every successful call other than the two that take tokens out of the fee delegator and the vault of
authority tokens: what the other vaults hold afterwards, plus what the
call hands out, plus what it burns, equals what they held before, plus what the caller supplied, plus what the call minted. -/
theorem body_stored {env : Env} {cl : Caller} {s s' : State} {op : Op} {o : Out}
    (h : body env cl s op = Except.ok (s', o)) (r : Res) (hn : op ≠ .withdrawAuthority) (hn' : ∀ x, op ≠ .delegatorWithdraw x) :
    s'.stored r + totalOf o.given r + totalOf o.burnt r = s.stored r + totalOf op.tokens r + totalOf (op.minted o) r := by
  have quiet : s'.accounts = s.accounts → s'.pool.baseTokens = s.pool.baseTokens → s'.refgen.vaults = s.refgen.vaults →
      s'.stored r = s.stored r := by
    intro h1 h2 h3; unfold State.stored; rw [h1, h2, h3]
  have holder : op.holder = true → op.tokens = [] → op.minted o = [] →
      s'.stored r + totalOf o.given r + totalOf o.burnt r = s.stored r + totalOf op.tokens r + totalOf (op.minted o) r := by
    intro hh h1 h2
    obtain ⟨a, acc, ha, hacc⟩ : ∃ a acc, op.account = some a ∧ s.accounts.get a = some acc := by
      cases ho : op.account with
      | none => cases op <;> first | exact (Bool.false_ne_true hh).elim | (simp [Op.account] at ho)
      | some a =>
        rcases body_account h ho with ⟨lr, -, acc, hx⟩ | ⟨g, rule, rid, ⟨o', t, c, e⟩, -, -⟩
        · exact ⟨a, acc, rfl, hx⟩
        · subst e; cases hh
    obtain ⟨g1, g2, g3⟩ := holder_quiet h hh
    obtain ⟨acc', he⟩ := holder_effect h ha hh hacc
    have := accounts_held he.account (fun b hb => body_accounts h b (by rw [ha]; intro e; cases e; exact hb rfl)) r
    rw [hacc] at this
    simp only [Option.map_some, Option.getD_some, he.coll] at this
    have e : s'.stored r = s.stored r := by
      unfold State.stored; rw [this, he.pool, g3]; omega
    rw [e, g1, g2, h1, h2]
  cases op with
  | depositAuthority x =>
    simp only [body, bind_ok, pure_ok, Prod.mk.injEq] at h
    obtain ⟨-, -, _, -, rfl, rfl⟩ := h
    rfl
  | withdrawAuthority => exact absurd rfl hn
  | signalUpgrade _ =>
    simp only [body, pure_ok, Prod.mk.injEq] at h
    obtain ⟨rfl, rfl⟩ := h
    rfl
  | updateExchangeConfig c =>
    simp only [body, bind_ok, pure_ok, Prod.mk.injEq] at h
    obtain ⟨_, -, rfl, rfl⟩ := h
    rfl
  | updatePairConfigs c =>
    simp only [body, bind_ok, pure_ok, Prod.mk.injEq] at h
    obtain ⟨_, -, rfl, rfl⟩ := h
    rfl
  | updateCollateralConfigs c =>
    simp only [body, bind_ok, pure_ok, Prod.mk.injEq] at h
    obtain ⟨_, -, rfl, rfl⟩ := h
    rfl
  | removeCollateralConfig c =>
    simp only [body, pure_ok, Prod.mk.injEq] at h
    obtain ⟨rfl, rfl⟩ := h
    rfl
  | collectTreasury =>
    obtain ⟨pool, x, hp, rfl, rfl⟩ := collectTreasury_ok h
    have := payout_held hp
    simp only [State.stored, this, Out.given, Op.tokens, Op.minted, List.map_nil, List.nil_append, totalOf_cons, totalOf_nil, eq_comm (a := r)]
    split <;> omega
  | collectFeeDelegator =>
    obtain ⟨pool, x, hp, rfl, rfl⟩ := collectFeeDelegator_ok h
    have := payout_held hp
    simp only [State.stored, this, Out.given, Op.tokens, Op.minted, List.map_nil, List.nil_append, totalOf_cons, totalOf_nil, eq_comm (a := r)]
    split <;> omega
  | mintReferral id a b m =>
    simp only [body, bind_ok, pure_ok, Prod.mk.injEq] at h
    obtain ⟨s1, hm, rfl, rfl⟩ := h
    obtain ⟨h1, h2, hn, rfl⟩ := mintReferral_ok hm
    rfl
  | mintReferralWithAllocation id a b m t c n =>
    simp only [body, mintReferralWithAllocation, bind_ok] at h
    obtain ⟨s1, hm, h⟩ := h
    obtain ⟨h1, h2, hn, rfl⟩ := mintReferral_ok hm
    obtain ⟨cfg, s2, g, rest, i, -, -, hg, ha, rfl, rfl⟩ := addReferralAllocation_ok h
    obtain ⟨d, hd, -, -, rfl⟩ := grantReferrals_ok hg
    have := addAllocation_total ha r
    simp only [State.stored, Out.given, Op.tokens, Op.minted, List.map_nil, List.nil_append, totalOf_nil] at this ⊢
    omega
  | updateReferral id a b m =>
    simp only [body, bind_ok, pure_ok, Prod.mk.injEq] at h
    obtain ⟨s1, hm, rfl, rfl⟩ := h
    rcases updateReferral_ok hm with rfl | ⟨d, hd, ha, hb, rfl⟩
    · rfl
    · rfl
  | addReferralAllocation id t c n =>
    obtain ⟨cfg, s2, g, rest, i, -, -, hg, ha, rfl, rfl⟩ := addReferralAllocation_ok h
    obtain ⟨d, hd, -, -, rfl⟩ := grantReferrals_ok hg
    have := addAllocation_total ha r
    simp only [State.stored, Out.given, Op.tokens, Op.minted, List.map_nil, List.nil_append, totalOf_nil]
    omega
  | swapProtocolFee b =>
    obtain ⟨cfg, pool, x, burn, -, hb, -, -, hp, rfl, rfl⟩ := swapProtocolFee_ok h
    have := payout_held hp
    simp only [State.stored, this, Out.given, Op.tokens, Op.minted, List.map_nil, List.nil_append, totalOf_cons, totalOf_nil, hb,
      eq_comm (a := r)]
    split <;> split <;> omega
  | addLiquidity b =>
    have hbt := opAddLiquidity_burnt h
    obtain ⟨cfg, fee, lp, price, hc, hb, hres, hfee, -, -, rfl, ho, hpd, -⟩ := opAddLiquidity_ok h
    simp only [State.stored, Out.given, hbt, ho, hpd, Op.tokens, Op.minted, List.map_nil, List.nil_append, totalOf_cons, totalOf_nil, hres,
      eq_comm (a := r)]
    split <;> omega
  | removeLiquidity b =>
    obtain ⟨cfg, price, value, fee, x, hc, hb, hres, hs0, hpr, hval, hfee, -, ht, rfl, -, ho, hbt, hpd, -⟩ := opRemoveLiquidity_ok h
    simp only [State.stored, Out.given, hbt, ho, hpd, Op.tokens, Op.minted, List.map_nil, List.nil_append, totalOf_cons, totalOf_nil,
      eq_comm (a := r)]
    split <;> omega
  | createReferralCodes id t hs =>
    obtain ⟨cfg, n, s1, g, rest, -, -, -, -, hg, ha, rfl, rfl⟩ := createReferralCodes_ok h
    obtain ⟨d, hd, -, -, rfl⟩ := grantReferrals_ok hg
    have := createCodes_total ha r
    simp only [State.stored, Out.given, Op.tokens, Op.minted, List.map_nil, List.nil_append, totalOf_nil]
    omega
  | createReferralCodesFromAllocation id i hs =>
    simp only [body, bind_ok, pure_ok, Prod.mk.injEq] at h
    obtain ⟨s1, hm, rfl, rfl⟩ := h
    obtain ⟨g, -, hg, rfl⟩ := createReferralCodesFromAllocation_ok hm
    rw [quiet rfl rfl (fromAllocation_vaults hg)]; rfl
  | collectReferralRewards id =>
    obtain ⟨d, pool, x, -, hd, hp, rfl, rfl⟩ := collectReferralRewards_ok h
    have := payout_held hp
    simp only [State.stored, this, Out.given, Op.tokens, Op.minted, List.map_nil, List.nil_append, totalOf_cons, totalOf_nil, eq_comm (a := r)]
    split <;> omega
  | createAccount a oath rule t c =>
    obtain ⟨s0, rid, extra, s1, v, s2, w, acc, refs, -, hn, hc, rfl, hv, hd, hr, rfl, rfl⟩ := createAccount_ok h
    have hx : (s0.refgen.vaults.get r).getD 0 + totalOf extra r = (s.refgen.vaults.get r).getD 0 ∧ s0.pool = s.pool ∧
        s0.accounts = s.accounts := by
      rcases claimCode_ok hc with ⟨-, -, rfl, rfl⟩ | ⟨_, g, r', -, hg, -, rfl⟩
      · simp [totalOf_nil]
      · exact ⟨claim_total hg r, rfl, rfl⟩
    obtain ⟨hx, hx1, hx2⟩ := hx
    have := deposit_held hv (by simp only; rw [AMap.get_set_self]) hd hr r
    rw [this, totalOf_append]
    have e := accounts_held (s := s0) (s' := { s0 with accounts := s0.accounts.set a (Account.fresh rule rid) }) (a := a)
      (acc' := Account.fresh rule rid) (AMap.get_set_self ..) (fun b hb => AMap.get_set_ne _ _ (Ne.symm hb)) r
    rw [hx2, hn] at e
    simp only [Option.map_none, Option.getD_none, Account.fresh, AMap.get_empty] at e
    simp only [State.stored, Out.given, Op.tokens, Op.minted, List.map_nil, List.nil_append, totalOf_nil, hx1, hx2]
    simp only [Account.fresh]
    rw [e]
    omega
  | createRecoveryKey oath a => exact holder rfl rfl rfl
  | addAuthRule oath a l n => exact holder rfl rfl rfl
  | setLevelAuth oath a l r => exact holder rfl rfl rfl
  | addCollateral oath a t =>
    obtain ⟨v, s1, w, acc', refs, -, hv, -, hd, hr, rfl, rfl⟩ := opAddCollateral_ok h
    obtain ⟨acc, ha, -⟩ := load_stored hv
    rw [deposit_held hv ha hd hr r]
    simp only [Out.given, Op.tokens, Op.minted, List.map_nil, List.nil_append, totalOf_nil]; omega
  | removeCollateralRequest oath e a t c => exact holder rfl rfl rfl
  | marginOrderRequest oath a args act can st => exact holder rfl rfl rfl
  | marginOrderTpSlRequest oath a args tp sl => exact holder rfl rfl rfl
  | cancelRequests oath a is => exact holder rfl rfl rfl
  | processRequest a i u =>
    have hg := keeper_refgen h rfl (by simp)
    by_cases hx : o.ev = .expired
    · obtain ⟨v, v1, q, expired, cfg, hv, hpr, -, -, -, h⟩ := processRequest_ok h
      rcases h with ⟨-, acc', refs, hr, rfl, rfl⟩ | ⟨-, s1, c, w, out, acc', refs, hkl, hex, hr', he, ho⟩
      · obtain ⟨acc0, rd, ha, -, rfl⟩ := load_ok hv
        have hq := processRequest_reqOnly hpr
        unfold ReqOnly at hq
        have hc := (realize_coll hr.1).1
        have haddr : v1.addr = a := by rw [hq]
        have := accounts_held (s := s) (s' := s.realizedAcc v1 acc' refs) (a := a) (acc' := acc')
          (by simp only [State.realizedAcc, haddr]; rw [AMap.get_set_self])
          (by intro b hb; simp only [State.realizedAcc, haddr]; rw [AMap.get_set_ne _ _ (Ne.symm hb)]) r
        have hcomp : v1.comp = acc0 := by rw [hq]
        rw [ha, hc, hcomp] at this
        simp only [Option.map_some, Option.getD_some] at this
        simp only [State.realizedAcc] at this
        simp only [State.stored, State.realizedAcc, Out.given, Op.tokens, Op.minted, List.map_nil, List.nil_append, totalOf_nil]
        rw [this]; omega
      · rw [ho] at hx
        rcases executeRequest_ok hex with ⟨q, tokens, -, -, rfl⟩ | ⟨q, e, -, -, rfl⟩ <;> simp at hx
    · obtain ⟨acc, acc', kr, ids, s1, c, w0, w, out, hrun, -, -, -, hex, hev, hpd, hbk⟩ := run_execute h hx
      have hb : o.burnt = [] := by
        obtain ⟨v, v1, q, expired, cfg, hv, hpr, -, -, -, h⟩ := processRequest_ok h
        rcases h with ⟨-, acc', refs, hr, -, rfl⟩ | ⟨-, s1, c, w, out, acc', refs, hkl, hex, hr', he, rfl⟩
        · rfl
        · rcases executeRequest_ok hex with ⟨q, tokens, -, -, rfl⟩ | ⟨q, e, -, -, rfl⟩ <;> rfl
      have hh := hrun.held hg r
      rw [hb]
      rcases executeRequest_ok hex with ⟨q, tokens, -, hrc, rfl⟩ | ⟨q, e, -, hmo, rfl⟩
      · have := removeCollateral_held hrc r
        have hgv : o.given = tokens := by
          unfold Out.given; rw [hpd, hbk]; simp
        rw [hgv]
        simp only [Op.tokens, Op.minted, totalOf_nil]; omega
      · have := order_held hmo r
        have hgv : o.given = [] := by
          unfold Out.given; rw [hpd, hbk]; rfl
        rw [hgv]
        simp only [Op.tokens, Op.minted, totalOf_nil]; omega
  | swapDebt a res b u =>
    have hg := keeper_refgen h rfl (by simp)
    obtain ⟨acc, acc', s1, c, w0, w, token, rest, e, hrun, -, hx, rfl⟩ := run_swapDebt h
    have hh := hrun.held hg r
    have := swapDebt_held hx r
    simp only [Out.given, Op.tokens, Op.minted, List.map_nil, List.nil_append, totalOf_nil]; omega
  | liquidate a b u =>
    have hg := keeper_refgen h rfl (by simp)
    obtain ⟨acc, acc', ids, s1, c, w0, w, tokens, e, hrun, -, -, hx, rfl⟩ := run_liquidate h
    have hh := hrun.held hg r
    have := liquidate_held hx r
    simp only [Out.given, Op.tokens, Op.minted, List.map_nil, List.nil_append, totalOf_nil]; omega
  | autoDeleverage a p u =>
    have hg := keeper_refgen h rfl (by simp)
    obtain ⟨acc, acc', ids, s1, c, w0, w, e, hrun, -, hx, rfl⟩ := run_adl h
    have hh := hrun.held hg r
    have := (autoDeleverage_touches hx).heldIn r
    simp only [Out.given, Op.tokens, Op.minted, List.map_nil, List.nil_append, totalOf_nil]; omega
  | updatePairs ids u =>
    obtain ⟨s1, c, pool, flags, n, hk, hx, -, rfl, rfl⟩ := opUpdatePairs_ok h
    obtain ⟨-, -, -, -, -, -, hs1⟩ := keeperLoad_ok hk
    have : pool.comp = s.pool := updatePairsLoop_comp hx
    rw [quiet (by simp only; rw [hs1]) (by simp only [VPool.realize, this]) (by simp only; rw [hs1])]; rfl
  | setRole r rule =>
    simp only [body, bind_ok, pure_ok, Prod.mk.injEq] at h
    obtain ⟨s1, hm, rfl, rfl⟩ := h
    obtain ⟨-, -, rfl⟩ := setRole_ok hm
    rfl
  | oraclePush u =>
    simp only [body, bind_ok, pure_ok, Prod.mk.injEq] at h
    obtain ⟨_, -, rfl, rfl⟩ := h
    rfl
  | oracleAddKey id k =>
    simp only [body, bind_ok, pure_ok, Prod.mk.injEq] at h
    obtain ⟨_, -, rfl, rfl⟩ := h
    rfl
  | oracleRemoveKey id =>
    simp only [body, pure_ok, Prod.mk.injEq] at h
    obtain ⟨rfl, rfl⟩ := h
    rfl
  | oracleRemovePrice p =>
    simp only [body, pure_ok, Prod.mk.injEq] at h
    obtain ⟨rfl, rfl⟩ := h
    rfl
  | delegatorMaxLock x =>
    simp only [body, Delegator.updateMaxLock, bind_ok, pure_ok, require_ok, dadd_ok, Prod.mk.injEq] at h
    obtain ⟨_, ⟨-, -, rfl⟩, rfl, rfl⟩ := h
    rfl
  | delegatorMultiplier x =>
    simp only [body, Delegator.updateMultiplier, bind_ok, pure_ok, require_ok, dadd_ok, Prod.mk.injEq] at h
    obtain ⟨_, ⟨-, -, rfl⟩, rfl, rfl⟩ := h
    rfl
  | delegatorContingent b =>
    simp only [body, pure_ok, Prod.mk.injEq] at h
    obtain ⟨rfl, rfl⟩ := h
    rfl
  | delegatorDeposit x =>
    simp only [body, Delegator.deposit, bind_ok, pure_ok, require_ok, dadd_ok, Prod.mk.injEq] at h
    obtain ⟨_, ⟨-, -, _, -, rfl⟩, rfl, rfl⟩ := h
    rfl
  | delegatorWithdraw x => exact absurd rfl (hn' x)
  | lockFee x =>
    obtain ⟨value, -, -, -, h0, hle, rfl, rfl⟩ := lockFee_ok h
    simp only [State.stored, Out.given, Op.tokens, Op.minted, List.map_nil, List.nil_append, totalOf_nil]; omega
  | tick t =>
    simp only [body, bind_ok, pure_ok, require_ok, Prod.mk.injEq] at h
    obtain ⟨-, -, rfl, rfl⟩ := h
    rfl

/-- Calls that touch neither the pool nor an account. -/
def Op.offPool : Op → Bool
  | .depositAuthority _ | .withdrawAuthority | .signalUpgrade _ | .updateExchangeConfig _ | .updatePairConfigs _
  | .updateCollateralConfigs _ | .removeCollateralConfig _ | .mintReferral .. | .mintReferralWithAllocation .. | .updateReferral ..
  | .addReferralAllocation .. | .createReferralCodes .. | .createReferralCodesFromAllocation .. | .setRole .. | .oraclePush _
  | .oracleAddKey .. | .oracleRemoveKey _ | .oracleRemovePrice _ | .delegatorMaxLock _ | .delegatorMultiplier _
  | .delegatorContingent _ | .delegatorDeposit _ | .delegatorWithdraw _ | .lockFee _ | .tick _ => true
  | _ => false

theorem body_off {env : Env} {cl : Caller} {s s' : State} {op : Op} {o : Out} (h : body env cl s op = Except.ok (s', o))
    (hop : op.offPool = true) : s'.pool = s.pool ∧ s'.lpSupply = s.lpSupply ∧ s'.rewardSupply = s.rewardSupply ∧ o.reward = 0 ∧
      o.burnt = [] := by
  cases op with
  | depositAuthority x =>
    simp only [body, bind_ok, pure_ok, Prod.mk.injEq] at h
    obtain ⟨-, -, _, -, rfl, rfl⟩ := h
    exact ⟨rfl, rfl, rfl, rfl, rfl⟩
  | withdrawAuthority =>
    simp only [body, pure_ok, Prod.mk.injEq] at h
    obtain ⟨rfl, rfl⟩ := h
    exact ⟨rfl, rfl, rfl, rfl, rfl⟩
  | signalUpgrade _ =>
    simp only [body, pure_ok, Prod.mk.injEq] at h
    obtain ⟨rfl, rfl⟩ := h
    exact ⟨rfl, rfl, rfl, rfl, rfl⟩
  | updateExchangeConfig c =>
    simp only [body, bind_ok, pure_ok, Prod.mk.injEq] at h
    obtain ⟨_, -, rfl, rfl⟩ := h
    exact ⟨rfl, rfl, rfl, rfl, rfl⟩
  | updatePairConfigs c =>
    simp only [body, bind_ok, pure_ok, Prod.mk.injEq] at h
    obtain ⟨_, -, rfl, rfl⟩ := h
    exact ⟨rfl, rfl, rfl, rfl, rfl⟩
  | updateCollateralConfigs c =>
    simp only [body, bind_ok, pure_ok, Prod.mk.injEq] at h
    obtain ⟨_, -, rfl, rfl⟩ := h
    exact ⟨rfl, rfl, rfl, rfl, rfl⟩
  | removeCollateralConfig c =>
    simp only [body, pure_ok, Prod.mk.injEq] at h
    obtain ⟨rfl, rfl⟩ := h
    exact ⟨rfl, rfl, rfl, rfl, rfl⟩
  | mintReferral id a b m =>
    simp only [body, bind_ok, pure_ok, Prod.mk.injEq] at h
    obtain ⟨s1, hm, rfl, rfl⟩ := h
    obtain ⟨h1, h2, hn, rfl⟩ := mintReferral_ok hm
    exact ⟨rfl, rfl, rfl, rfl, rfl⟩
  | mintReferralWithAllocation id a b m t c n =>
    simp only [body, mintReferralWithAllocation, bind_ok] at h
    obtain ⟨s1, hm, h⟩ := h
    obtain ⟨h1, h2, hn, rfl⟩ := mintReferral_ok hm
    obtain ⟨cfg, s2, g, rest, i, -, -, hg, ha, rfl, rfl⟩ := addReferralAllocation_ok h
    obtain ⟨d, hd, -, -, rfl⟩ := grantReferrals_ok hg
    exact ⟨rfl, rfl, rfl, rfl, rfl⟩
  | updateReferral id a b m =>
    simp only [body, bind_ok, pure_ok, Prod.mk.injEq] at h
    obtain ⟨s1, hm, rfl, rfl⟩ := h
    rcases updateReferral_ok hm with rfl | ⟨d, hd, ha, hb, rfl⟩
    · exact ⟨rfl, rfl, rfl, rfl, rfl⟩
    · exact ⟨rfl, rfl, rfl, rfl, rfl⟩
  | addReferralAllocation id t c n =>
    obtain ⟨cfg, s2, g, rest, i, -, -, hg, ha, rfl, rfl⟩ := addReferralAllocation_ok h
    obtain ⟨d, hd, -, -, rfl⟩ := grantReferrals_ok hg
    exact ⟨rfl, rfl, rfl, rfl, rfl⟩
  | createReferralCodes id t hs =>
    obtain ⟨cfg, n, s1, g, rest, -, -, -, -, hg, ha, rfl, rfl⟩ := createReferralCodes_ok h
    obtain ⟨d, hd, -, -, rfl⟩ := grantReferrals_ok hg
    exact ⟨rfl, rfl, rfl, rfl, rfl⟩
  | createReferralCodesFromAllocation id i hs =>
    simp only [body, bind_ok, pure_ok, Prod.mk.injEq] at h
    obtain ⟨s1, hm, rfl, rfl⟩ := h
    obtain ⟨g, -, hg, rfl⟩ := createReferralCodesFromAllocation_ok hm
    exact ⟨rfl, rfl, rfl, rfl, rfl⟩
  | setRole r rule =>
    simp only [body, bind_ok, pure_ok, Prod.mk.injEq] at h
    obtain ⟨s1, hm, rfl, rfl⟩ := h
    obtain ⟨-, -, rfl⟩ := setRole_ok hm
    exact ⟨rfl, rfl, rfl, rfl, rfl⟩
  | oraclePush u =>
    simp only [body, bind_ok, pure_ok, Prod.mk.injEq] at h
    obtain ⟨_, -, rfl, rfl⟩ := h
    exact ⟨rfl, rfl, rfl, rfl, rfl⟩
  | oracleAddKey id k =>
    simp only [body, bind_ok, pure_ok, Prod.mk.injEq] at h
    obtain ⟨_, -, rfl, rfl⟩ := h
    exact ⟨rfl, rfl, rfl, rfl, rfl⟩
  | oracleRemoveKey id =>
    simp only [body, pure_ok, Prod.mk.injEq] at h
    obtain ⟨rfl, rfl⟩ := h
    exact ⟨rfl, rfl, rfl, rfl, rfl⟩
  | oracleRemovePrice p =>
    simp only [body, pure_ok, Prod.mk.injEq] at h
    obtain ⟨rfl, rfl⟩ := h
    exact ⟨rfl, rfl, rfl, rfl, rfl⟩
  | delegatorMaxLock x =>
    simp only [body, Delegator.updateMaxLock, bind_ok, pure_ok, require_ok, dadd_ok, Prod.mk.injEq] at h
    obtain ⟨_, ⟨-, -, rfl⟩, rfl, rfl⟩ := h
    exact ⟨rfl, rfl, rfl, rfl, rfl⟩
  | delegatorMultiplier x =>
    simp only [body, Delegator.updateMultiplier, bind_ok, pure_ok, require_ok, dadd_ok, Prod.mk.injEq] at h
    obtain ⟨_, ⟨-, -, rfl⟩, rfl, rfl⟩ := h
    exact ⟨rfl, rfl, rfl, rfl, rfl⟩
  | delegatorContingent b =>
    simp only [body, pure_ok, Prod.mk.injEq] at h
    obtain ⟨rfl, rfl⟩ := h
    exact ⟨rfl, rfl, rfl, rfl, rfl⟩
  | delegatorDeposit x =>
    simp only [body, Delegator.deposit, bind_ok, pure_ok, require_ok, dadd_ok, Prod.mk.injEq] at h
    obtain ⟨_, ⟨-, -, _, -, rfl⟩, rfl, rfl⟩ := h
    exact ⟨rfl, rfl, rfl, rfl, rfl⟩
  | delegatorWithdraw x =>
    simp only [body, Delegator.withdraw, bind_ok, pure_ok, require_ok, dadd_ok, Prod.mk.injEq] at h
    obtain ⟨⟨_, _⟩, ⟨_, -, rfl, -⟩, rfl, rfl⟩ := h
    exact ⟨rfl, rfl, rfl, rfl, rfl⟩
  | lockFee x =>
    obtain ⟨value, -, -, -, h0, hle, rfl, rfl⟩ := lockFee_ok h
    exact ⟨rfl, rfl, rfl, rfl, rfl⟩
  | tick t =>
    simp only [body, bind_ok, pure_ok, require_ok, Prod.mk.injEq] at h
    obtain ⟨-, -, rfl, rfl⟩ := h
    exact ⟨rfl, rfl, rfl, rfl, rfl⟩
  | _ => cases hop

/-! ## The vaults are never overdrawn -/

theorem addBases_base {bs : List Bucket} : ∀ {w w' : W}, (∀ b ∈ bs, 0 ≤ b.amt) → bs.foldlM addBase w = Except.ok w' →
    w.pool.comp.baseTokens ≤ w'.pool.comp.baseTokens := by
  induction bs with
  | nil =>
    intro w w' _ h
    simp only [List.foldlM_nil, pure_ok] at h
    subst h; exact le_rfl
  | cons b bs ih =>
    intro w w' hb h
    simp only [List.foldlM_cons, bind_ok] at h
    obtain ⟨w1, h1, h⟩ := h
    refine le_trans ?_ (ih (fun x hx => hb x (by simp [hx])) h)
    simp only [addBase, bind_ok] at h1
    obtain ⟨pool, hp, hs⟩ := h1
    have hp := VPool.deposit_ok hp
    have hs := settleAccount_ok hs
    subst hp hs
    have := hb b (by simp)
    simp only
    omega

theorem addCollateral_base {cfg : VConfig} {w w' : W} {tokens : List Bucket} (h : addCollateral cfg w tokens = Except.ok w')
    (hb : ∀ b ∈ tokens, 0 ≤ b.amt) : w.pool.comp.baseTokens ≤ w'.pool.comp.baseTokens := by
  obtain ⟨w1, acc, h1, -, hd, -, rfl⟩ := addCollateral_ok h
  exact addBases_base (w' := w1) (fun b hx => hb b (List.mem_of_mem_filter hx)) h1

theorem removeCollateral_base {c : Ctx} {w w' : W} {q : RemoveCollateralReq} {tokens : List Bucket}
    (h : removeCollateral c w q = Except.ok (w', tokens)) (h0 : 0 ≤ w.pool.comp.baseTokens) : 0 ≤ w'.pool.comp.baseTokens := by
  obtain ⟨claims, t, acc, bs, -, ht, hw, -, -, rfl, rfl⟩ := removeCollateral_ok h
  refine foldlM_rel (P := fun a b : W × List Bucket × List (Res × Dec) =>
    0 ≤ a.1.pool.comp.baseTokens → 0 ≤ b.1.pool.comp.baseTokens) (fun _ h => h) (fun _ _ _ h1 h2 h => h2 (h1 h)) ?_ _ ht h0
  intro t e t' h1 h0
  rcases claimOne_ok h1 with ⟨-, -, -, pool, x, w, hp, hw, rfl⟩ | ⟨-, -, rfl⟩
  · obtain ⟨hx, hp⟩ := VPool.withdraw_ok hp
    have hw := settleAccount_ok hw
    subst hw
    rw [hp]
    have := (takeAmount_ok.mp hx).2.2.2
    simp only; omega
  · exact h0

theorem deposit_base {env : Env} {s s1 : State} {v : VAccount} {oath : Option Bucket} {tokens : List Bucket} {w : W}
    {acc : Account} {refs : AMap RefId ReferralData} (h : depositTokens env s v oath tokens = Except.ok (s1, w))
    (hb : ∀ b ∈ tokens, 0 ≤ b.amt) : s.pool.baseTokens ≤ (s1.realized w acc refs).pool.baseTokens := by
  obtain ⟨cfg, ids, w0, -, hw0, rfl, -, -, rfl, -⟩ := depositTokens_ok h
  exact addCollateral_base hw0 hb

theorem payout_base {env : Env} {s : State} {amount x : Dec} {pool : Pool} (h : payout env s amount = Except.ok (pool, x)) :
    0 ≤ pool.baseTokens := by
  obtain ⟨ht, -, rfl⟩ := payout_ok h
  have := (takeAmount_ok.mp ht).2.2.2
  simp only; omega

theorem body_base {env : Env} {cl : Caller} {s s' : State} {op : Op} {o : Out} (h : body env cl s op = Except.ok (s', o))
    (h0 : 0 ≤ s.pool.baseTokens) : 0 ≤ s'.pool.baseTokens := by
  have holder : op.holder = true → 0 ≤ s'.pool.baseTokens := by
    intro hh
    obtain ⟨a, acc, ha, hacc⟩ : ∃ a acc, op.account = some a ∧ s.accounts.get a = some acc := by
      cases ho : op.account with
      | none => cases op <;> first | exact (Bool.false_ne_true hh).elim | (simp [Op.account] at ho)
      | some a =>
        rcases body_account h ho with ⟨lr, -, acc, hx⟩ | ⟨g, rule, rid, ⟨o', t, c, e⟩, -, -⟩
        · exact ⟨a, acc, rfl, hx⟩
        · subst e; cases hh
    obtain ⟨acc', he⟩ := holder_effect h ha hh hacc
    rw [he.pool]; exact h0
  have run : ∀ {a acc acc' ids u s1 c w0 w}, KeeperRun env s s' a acc acc' ids u s1 c w0 w →
      (0 ≤ w0.pool.comp.baseTokens → 0 ≤ w.pool.comp.baseTokens) → 0 ≤ s'.pool.baseTokens := by
    intro a acc acc' ids u s1 c w0 w hr hw
    rw [hr.pool]
    exact hw (by rw [hr.pool0]; exact h0)
  cases op with
  | collectTreasury => obtain ⟨pool, x, hp, rfl, -⟩ := collectTreasury_ok h; exact payout_base hp
  | collectFeeDelegator => obtain ⟨pool, x, hp, rfl, -⟩ := collectFeeDelegator_ok h; exact payout_base hp
  | swapProtocolFee b => obtain ⟨cfg, pool, x, burn, -, -, -, -, hp, rfl, -⟩ := swapProtocolFee_ok h; exact payout_base hp
  | collectReferralRewards id => obtain ⟨d, pool, x, -, hd, hp, rfl, -⟩ := collectReferralRewards_ok h; exact payout_base hp
  | addLiquidity b =>
    obtain ⟨cfg, fee, lp, price, hc, hb, -, hfee, -, -, rfl, -⟩ := opAddLiquidity_ok h
    have := okBucket_nonneg hb
    simp only; omega
  | removeLiquidity b =>
    obtain ⟨cfg, price, value, fee, x, hc, hb, hres, hs0, hpr, hval, hfee, -, ht, rfl, -⟩ := opRemoveLiquidity_ok h
    have := (takeAmount_ok.mp ht).2.2.2
    simp only; omega
  | createAccount a oath rule t c =>
    obtain ⟨s0, rid, extra, s1, v, s2, w, acc, refs, hb, hn, hc, rfl, hv, hd, hr, rfl, rfl⟩ := createAccount_ok h
    have hx : s0.pool = s.pool := by
      rcases claimCode_ok hc with ⟨-, -, rfl, rfl⟩ | ⟨_, g, r', -, hg, -, rfl⟩ <;> rfl
    refine le_trans ?_ (deposit_base hd ?_)
    · simp only [hx]; exact h0
    · intro b hb'
      rcases List.mem_append.mp hb' with hb' | hb'
      · exact okBucket_nonneg (List.all_eq_true.mp hb b hb')
      · exact (claimCode_valid hc b hb').1
  | addCollateral oath a t =>
    obtain ⟨v, s1, w, acc', refs, hb, hv, -, hd, hr, rfl, rfl⟩ := opAddCollateral_ok h
    exact le_trans h0 (deposit_base hd (fun b hx => okBucket_nonneg (List.all_eq_true.mp hb b hx)))
  | processRequest a i u =>
    by_cases hx : o.ev = .expired
    · obtain ⟨v, v1, q, expired, cfg, hv, hpr, -, -, -, h⟩ := processRequest_ok h
      rcases h with ⟨-, acc', refs, hr, rfl, rfl⟩ | ⟨-, s1, c, w, out, acc', refs, hkl, hex, hr', he, ho⟩
      · exact h0
      · rw [ho] at hx
        rcases executeRequest_ok hex with ⟨q, tokens, -, -, rfl⟩ | ⟨q, e, -, -, rfl⟩ <;> simp at hx
    · obtain ⟨acc, acc', kr, ids, s1, c, w0, w, out, hrun, -, -, -, hex, hev, hpd, hbk⟩ := run_execute h hx
      refine run hrun ?_
      rcases executeRequest_ok hex with ⟨q, tokens, -, hrc, rfl⟩ | ⟨q, e, -, hmo, rfl⟩
      · exact removeCollateral_base hrc
      · rw [(order_parts hmo).comp]; exact id
  | swapDebt a res b u =>
    obtain ⟨acc, acc', s1, c, w0, w, token, rest, e, hrun, -, hx, rfl⟩ := run_swapDebt h
    refine run hrun ?_
    obtain ⟨cc, pr, priceRes, amount, value, taken, pool, w1, acc, bs, hb, -, -, -, -, -, htk, hp, hs, hwd, hl, rfl,
      rfl, -⟩ := swapDebt_ok hx
    have hp := VPool.deposit_ok hp
    have hs := settleAccount_ok hs
    subst hp hs
    have := (takeAmount_ok.mp htk).2.1
    simp only; omega
  | liquidate a b u =>
    obtain ⟨acc, acc', ids, s1, c, w0, w, tokens, e, hrun, -, -, hx, rfl⟩ := run_liquidate h
    refine run hrun ?_
    obtain ⟨w1, lp, lc, value, acc, tokens, taken, pool, w2, w3, loss, w4, fees, hb, hlp, -, -, -, -, hwd, htk, hp,
      hs, hwo, hfee, rfl, rfl, -⟩ := liquidate_ok hx
    obtain ⟨e1, -⟩ := liquidatePositions_comp hlp
    have hp := VPool.deposit_ok hp
    have hs := settleAccount_ok hs
    obtain ⟨-, hwo⟩ := writeOff_ok hwo
    have t := (settleFees_touches 0 hfee).comp
    subst hp hs hwo
    have := (takeAmount_ok.mp htk).2.1
    simp only [t, e1]; omega
  | autoDeleverage a p u =>
    obtain ⟨acc, acc', ids, s1, c, w0, w, e, hrun, -, hx, rfl⟩ := run_adl h
    refine run hrun ?_
    rw [(autoDeleverage_touches hx).comp]; exact id
  | updatePairs ids u =>
    obtain ⟨s1, c, pool, flags, n, hk, hx, -, rfl, rfl⟩ := opUpdatePairs_ok h
    have : pool.comp = s.pool := updatePairsLoop_comp hx
    simp only [VPool.realize, this]; exact h0
  | createRecoveryKey oath a => exact holder rfl
  | addAuthRule oath a l n => exact holder rfl
  | setLevelAuth oath a l r => exact holder rfl
  | removeCollateralRequest oath e a t c => exact holder rfl
  | marginOrderRequest oath a args act can st => exact holder rfl
  | marginOrderTpSlRequest oath a args tp sl => exact holder rfl
  | cancelRequests oath a is => exact holder rfl
  | _ => rw [(body_off h rfl).1]; exact h0

theorem reach_base {env : Env} {s : State} (h : Reach env s) : 0 ≤ s.pool.baseTokens :=
  Reach.induct (P := fun s => 0 ≤ s.pool.baseTokens) (env := env) (fun s g => by rw [g.pool]) (fun _ _ _ _ _ h0 hb => body_base hb h0) h

/-! ## Supplies -/

theorem body_supply {env : Env} {cl : Caller} {s s' : State} {op : Op} {o : Out} (h : body env cl s op = Except.ok (s', o)) :
    s'.lpSupply + totalOf o.burnt LP = s.lpSupply + totalOf (op.minted o) LP ∧ s'.rewardSupply = s.rewardSupply + o.reward := by
  have off : op.offPool = true → totalOf (op.minted o) LP = 0 →
      s'.lpSupply + totalOf o.burnt LP = s.lpSupply + totalOf (op.minted o) LP ∧ s'.rewardSupply = s.rewardSupply + o.reward := by
    intro ho hm
    obtain ⟨-, h1, h2, h3, h4⟩ := body_off h ho
    rw [h1, h2, h3, h4, hm, totalOf_nil]; simp
  cases op with
  | collectTreasury => obtain ⟨pool, x, hp, rfl, rfl⟩ := collectTreasury_ok h; simp [Op.minted, totalOf_nil]
  | collectFeeDelegator => obtain ⟨pool, x, hp, rfl, rfl⟩ := collectFeeDelegator_ok h; simp [Op.minted, totalOf_nil]
  | swapProtocolFee b =>
    obtain ⟨cfg, pool, x, burn, -, -, -, -, hp, rfl, rfl⟩ := swapProtocolFee_ok h
    simp [Op.minted, totalOf_nil, totalOf_cons, LP, PROTOCOL]
  | collectReferralRewards id =>
    obtain ⟨d, pool, x, -, hd, hp, rfl, rfl⟩ := collectReferralRewards_ok h; simp [Op.minted, totalOf_nil]
  | addLiquidity b =>
    have hbt := opAddLiquidity_burnt h
    have hrw : o.reward = 0 := by
      simp only [body, opAddLiquidity, bind_ok, pure_ok, Prod.mk.injEq] at h
      obtain ⟨cfg, hc, -, hb, ⟨pool, dist, minted, ev⟩, -, _, -, rfl, rfl⟩ := h
      rfl
    obtain ⟨cfg, fee, lp, price, hc, hb, hres, hfee, -, -, rfl, ho, hpd, -⟩ := opAddLiquidity_ok h
    simp [hbt, hrw, ho, Op.minted, totalOf_nil, totalOf_cons]
  | removeLiquidity b =>
    have hrw : o.reward = 0 := by
      simp only [body, opRemoveLiquidity, bind_ok, pure_ok, Prod.mk.injEq] at h
      obtain ⟨cfg, hc, -, hb, ⟨pool, dist, minted, ev⟩, -, _, -, rfl, rfl⟩ := h
      rfl
    obtain ⟨cfg, price, value, fee, x, hc, hb, hres, hs0, hpr, hval, hfee, -, ht, rfl, -, ho, hbt, hpd, -⟩ := opRemoveLiquidity_ok h
    simp [hbt, hrw, Op.minted, totalOf_nil, totalOf_cons, hres]
  | createAccount a oath rule t c =>
    obtain ⟨s0, rid, extra, s1, v, s2, w, acc, refs, hb, hn, hc, rfl, hv, hd, hr, rfl, rfl⟩ := createAccount_ok h
    have hx : s0.lpSupply = s.lpSupply ∧ s0.rewardSupply = s.rewardSupply := by
      rcases claimCode_ok hc with ⟨-, -, rfl, rfl⟩ | ⟨_, g, r', -, hg, -, rfl⟩ <;> exact ⟨rfl, rfl⟩
    obtain ⟨cfg, ids, w0, -, hw0, rfl, -, -, rfl, -⟩ := depositTokens_ok hd
    simp [Op.minted, totalOf_nil, State.realized, State.burnt, hx.1, hx.2]
  | addCollateral oath a t =>
    obtain ⟨v, s1, w, acc', refs, hb, hv, -, hd, hr, rfl, rfl⟩ := opAddCollateral_ok h
    obtain ⟨cfg, ids, w0, -, hw0, rfl, -, -, rfl, -⟩ := depositTokens_ok hd
    simp [Op.minted, totalOf_nil, State.realized, State.burnt]
  | createRecoveryKey oath a' =>
    obtain ⟨v, s1, v1, cfg, hv, -, hp, r, x, rfl, rfl, acc', refs, hr, rfl, rfl⟩ := createRecoveryKey_ok h
    rw [(payOath_frame hp).1]
    simp [Op.minted, totalOf_nil, State.realizedAcc, State.burnt]
  | addAuthRule oath a' l n =>
    obtain ⟨v, s1, v1, cfg, l', hv, -, hp, -, r, x, rfl, rfl, acc', refs, hr, rfl, rfl⟩ := addAuthRule_ok h
    rw [(payOath_frame hp).1]
    simp [Op.minted, totalOf_nil, State.realizedAcc, State.burnt]
  | setLevelAuth oath a' l r =>
    obtain ⟨v, s1, v1, cfg, hv, -, hp, x, rfl, acc', refs, hr, rfl, rfl⟩ := setLevelAuth_ok h
    rw [(payOath_frame hp).1]
    simp [Op.minted, totalOf_nil, State.realizedAcc, State.burnt]
  | removeCollateralRequest oath e a' t c =>
    obtain ⟨v, s1, v1, cfg, v2, acc', refs, hv, -, hp, hpush, -, hr, rfl, rfl⟩ := removeCollateralRequest_ok h
    rw [(payOath_frame hp).1]
    simp [Op.minted, totalOf_nil, State.realizedAcc, State.burnt]
  | marginOrderRequest oath a' args act can st =>
    obtain ⟨v, s1, v1, cfg, _, _, v2, acc, refs, hv, -, hp, -, -, hpush, -, hr, rfl, rfl⟩ := marginOrderRequest_ok h
    rw [(payOath_frame hp).1]
    simp [Op.minted, totalOf_nil, State.realizedAcc, State.burnt]
  | marginOrderTpSlRequest oath a' args tp sl =>
    obtain ⟨v, s1, v1, cfg, v2, v3, v4, acc, refs, iTp, iSl, hv, -, hp, -, -, h2, h3, h4, -, hr, rfl, rfl⟩ :=
      marginOrderTpSlRequest_ok h
    rw [(payOath_frame hp).1]
    simp [Op.minted, totalOf_nil, State.realizedAcc, State.burnt]
  | cancelRequests oath a' is =>
    obtain ⟨v, s1, v1, cfg, v2, acc, refs, hv, -, hp, h2, hr, rfl, rfl⟩ := opCancelRequests_ok h
    rw [(payOath_frame hp).1]
    simp [Op.minted, totalOf_nil, State.realizedAcc, State.burnt]
  | processRequest a i u =>
    obtain ⟨v, v1, q, expired, cfg, hv, hpr, -, -, -, h⟩ := processRequest_ok h
    rcases h with ⟨-, acc', refs, hr, rfl, rfl⟩ | ⟨-, s1, c, w, out, acc', refs, hkl, hex, hr', rfl, rfl⟩
    · simp [Op.minted, totalOf_nil, State.realizedAcc]
    · obtain ⟨-, -, -, -, -, -, hs1⟩ := keeperLoad_ok hkl
      rw [hs1]
      rcases executeRequest_ok hex with ⟨q, tokens, -, -, rfl⟩ | ⟨q, e, -, -, rfl⟩ <;>
        simp [Op.minted, totalOf_nil, State.realized]
  | swapDebt a r b u =>
    obtain ⟨v, s1, c, w, token, rest, e, acc, refs, hb, hv, hkl, hx, hr, rfl, rfl⟩ := opSwapDebt_ok h
    obtain ⟨-, -, -, -, -, -, hs1⟩ := keeperLoad_ok hkl
    rw [hs1]
    simp [Op.minted, totalOf_nil, State.realized]
  | liquidate a b u =>
    obtain ⟨v, s1, c, w, tokens, e, acc, refs, -, hv, hkl, hx, hr, -, rfl, rfl⟩ := opLiquidate_ok h
    obtain ⟨-, -, -, -, -, -, hs1⟩ := keeperLoad_ok hkl
    rw [hs1]
    simp [Op.minted, totalOf_nil, State.realized]
  | autoDeleverage a p u =>
    obtain ⟨v, s1, c, w, e, acc, refs, hv, hkl, hx, hr, -, rfl, rfl⟩ := opAutoDeleverage_ok h
    obtain ⟨-, -, -, -, -, -, hs1⟩ := keeperLoad_ok hkl
    rw [hs1]
    simp [Op.minted, totalOf_nil, State.realized]
  | updatePairs ids u =>
    obtain ⟨s1, c, pool, flags, n, hkl, hx, -, rfl, rfl⟩ := opUpdatePairs_ok h
    obtain ⟨-, -, -, -, -, -, hs1⟩ := keeperLoad_ok hkl
    rw [hs1]
    simp [Op.minted, totalOf_nil]
  | lockFee x =>
    refine off rfl ?_
    obtain ⟨value, -, -, -, h0, hle, rfl, rfl⟩ := lockFee_ok h
    simp [Op.minted, totalOf_nil, totalOf_cons, LP, FEE_OATH]
  | _ => exact off rfl rfl

end Perp
