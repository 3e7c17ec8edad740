import Verif.Failures
import Verif.FundingRate
import Verif.Adl

/-!
# Every refusal has its reason (C54)

C53 lists which errors a call can fail with.  Here each error comes with the fact about the state and the arguments that
justifies it: a call is not refused unless the documented condition for the refusal really holds.  Arithmetic overflow is the
only error without a condition.

`State.Refreshed s s1 u ids` is the vocabulary for what a keeper method looks at: `s1` is `s` with the prices of the update `u`
recorded and the pairs `ids` brought up to date.
-/

namespace Perp

/-! ## Computations that fail for a reason -/

/-- Whatever error the computation fails with satisfies `P`. -/
def Fails (P : Err → Prop) {α : Type} (x : R α) : Prop := ∀ e, x = Except.error e → P e

theorem Errs.fails {l : List Err} {P : Err → Prop} {α : Type} {x : R α} (h : Errs l x) (hl : ∀ e ∈ l, P e) : Fails P x :=
  fun e he => hl e (h e he)

theorem Errs.arithmetic {P : Err → Prop} {α : Type} {x : R α} (h : Errs arith x) (hP : P .arithmetic) : Fails P x :=
  h.fails (by intro e he; simp only [arith, List.mem_singleton] at he; rw [he]; exact hP)

section
variable {P : Err → Prop}

theorem fails_pure {α : Type} (a : α) : Fails P (pure a : R α) := by intro e h; cases h

theorem fails_of_ok {α : Type} {x : R α} (h : ∃ a, x = Except.ok a) : Fails P x := by
  obtain ⟨a, rfl⟩ := h; intro e h; cases h

theorem fails_bind {α β : Type} {x : R α} {f : α → R β} (hx : Fails P x)
    (hf : ∀ a, x = Except.ok a → Fails P (f a)) : Fails P (x >>= f) := by
  intro e h
  cases hxx : x with
  | error e' =>
    rw [hxx] at h
    simp only [bind, Except.bind, Except.error.injEq] at h
    rw [← h]; exact hx e' hxx
  | ok a =>
    rw [hxx] at h
    simp only [bind, Except.bind] at h
    exact hf a hxx e h

theorem Fails.mono {Q : Err → Prop} {α : Type} {x : R α} (h : Fails P x) (hPQ : ∀ e, P e → Q e) : Fails Q x :=
  fun e he => hPQ e (h e he)

theorem fails_require {c : Bool} {e : Err} (h : c = false → P e) : Fails P (require c e) := by
  intro e' he; unfold require at he; split at he
  · cases he
  · rename_i hc; cases he; exact h (by simpa using hc)

/-- The failure of a check on a proposition. -/
theorem fails_check {p : Prop} [Decidable p] {e : Err} (h : ¬ p → P e) : Fails P (require (decide p) e) :=
  fails_require (fun hc => h (by simpa using hc))

theorem fails_expect {α : Type} {o : Option α} {e : Err} (h : o = none → P e) : Fails P (expect o e) := by
  intro e' he
  cases o with
  | none => cases he; exact h rfl
  | some a => cases he

theorem fails_foldlM {α β : Type} (I : β → Prop) {f : β → α → R β} : ∀ {as : List α} {b : β}, I b →
    (∀ a ∈ as, ∀ b, I b → Fails P (f b a) ∧ ∀ b', f b a = Except.ok b' → I b') → Fails P (as.foldlM f b) := by
  intro as
  induction as with
  | nil => intro b _ _; exact fails_pure _
  | cons a as ih =>
    intro b hb h
    rw [List.foldlM_cons]
    obtain ⟨h1, h2⟩ := h a (by simp) b hb
    exact fails_bind h1 (fun b' hb' => ih (h2 b' hb') (fun x hx => h x (by simp [hx])))

theorem fails_buildM {K V : Type} [DecidableEq K] {f : K → R V} : ∀ {ks : List K}, (∀ k ∈ ks, Fails P (f k)) →
    Fails P (AMap.buildM f ks) := by
  intro ks
  induction ks with
  | nil => intro _; exact fails_pure _
  | cons k ks ih =>
    intro h
    unfold AMap.buildM
    exact fails_bind (h k (by simp)) (fun _ _ => fails_bind (ih (fun x hx => h x (by simp [hx]))) (fun _ _ => fails_pure _))

end

/-! ## Prices -/

/-- The prices on the ledger once an update is recorded. -/
def State.pricesWith (s : State) : Option PriceUpdate → AMap PairId (Dec × Int)
  | none => s.oracle.prices
  | some u => u.prices.foldl Oracle.pushOne s.oracle.prices

/-- A keeper method that works on the pairs `ids` needs a price for each of them, not older than the age of the pair, and one
for every collateral in the configuration, not older than the age of the collateral. -/
def State.Needs (s : State) (ids : List PairId) (p : PairId) (age : Int) : Prop :=
  (p ∈ ids ∧ s.pairAge p = some age) ∨
  ∃ r cc, s.config.collaterals.get r = some cc ∧ cc.pairId = p ∧ cc.priceAgeMax = age

/-- **Specification.** Why prices can be refused. -/
def PricesRefused (env : Env) (s : State) (ids : List PairId) (u : Option PriceUpdate) : Err → Prop
  | .badKey => ∃ x, u = some x ∧ s.oracle.keys.get x.keyId = none
  | .badSignature => ∃ x key, u = some x ∧ s.oracle.keys.get x.keyId = some key ∧ env.verify x.prices key x.sig = false
  | .missingPair => ∃ p age, s.Needs ids p age ∧ (s.pricesWith u).get p = none
  | .invalidPrice => ∃ p age x t, s.Needs ids p age ∧ (s.pricesWith u).get p = some (x, t) ∧ x ≤ 0
  | .priceTooOld => ∃ p age x t, s.Needs ids p age ∧ (s.pricesWith u).get p = some (x, t) ∧ age ≤ s.now - t
  | .arithmetic => True
  | _ => False

theorem maybePush_prices {env : Env} {s : State} {u : Option PriceUpdate} {o : Oracle}
    (h : s.oracle.maybePush env u = Except.ok o) : o.prices = s.pricesWith u ∧ o.keys = s.oracle.keys := by
  cases u with
  | none => simp only [Oracle.maybePush, pure_ok] at h; subst h; exact ⟨rfl, rfl⟩
  | some u =>
    obtain ⟨key, -, -, rfl⟩ := Oracle.push_ok h
    exact ⟨rfl, rfl⟩

theorem keeperLoad_fails {env : Env} {s : State} {ids : List PairId} {u : Option PriceUpdate}
    (hc : ∀ p ∈ ids, ∃ x, s.config.pairs.get p = some x) :
    Fails (PricesRefused env s ids u) (keeperLoad env s ids u) := by
  unfold keeperLoad
  refine fails_bind (fails_of_ok (VConfig.new_total hc)) (fun cfg hcfg => ?_)
  obtain ⟨-, hcolls, hpairs, -⟩ := VConfig.new_ok hcfg
  refine fails_bind (fails_of_ok (pairFeeds_total (fun p hp => ?_))) (fun feeds hfeeds => ?_)
  · obtain ⟨x, -, hx⟩ := hpairs p hp
    exact ⟨_, hx⟩
  have key : ∀ p b, (mergeFeeds feeds cfg.colls).get p = some b → s.Needs ids p b := by
    intro p b hb
    rcases mergeFeedsL_from _ _ _ _ hb with h | ⟨e, he, rfl, rfl⟩
    · obtain ⟨hin, hv⟩ := AMap.buildM_get hfeeds h
      simp only [bind_ok, pure_ok, VConfig.pair_ok] at hv
      obtain ⟨pc, hpc, rfl⟩ := hv
      obtain ⟨y, hy, hy'⟩ := hpairs p hin
      rw [hpc] at hy'; cases hy'
      exact Or.inl ⟨hin, by unfold State.pairAge; rw [hy]; rfl⟩
    · have hg := AMap.get_mem he
      rw [hcolls, AMap.get_mapV] at hg
      cases hr : s.config.collaterals.get e.1 with
      | none => rw [hr] at hg; cases hg
      | some cc =>
        rw [hr] at hg
        simp only [Option.map_some, Option.some.injEq] at hg
        exact Or.inr ⟨e.1, cc, hr, by rw [← hg]; rfl, by rw [← hg]; rfl⟩
  refine fails_bind ?_ (fun _ _ => fails_pure _)
  unfold VOracle.new
  refine fails_bind ?_ (fun o ho => ?_)
  · cases u with
    | none => exact fails_pure _
    | some u =>
      refine fails_bind (fails_expect (fun h => ⟨u, rfl, h⟩)) (fun k hk => fails_bind (fails_require (fun h => ?_))
        (fun _ _ => fails_pure _))
      rw [expect_ok] at hk
      exact ⟨u, k, rfl, hk, h⟩
  have hpr := (maybePush_prices ho).1
  refine fails_bind ?_ (fun raw hraw => ?_)
  · refine fails_buildM (fun p hp => fails_expect (fun h => ?_))
    obtain ⟨b, hb⟩ := AMap.mem_keys.mp hp
    exact ⟨p, b, key p b hb, by rw [← hpr]; exact h⟩
  refine fails_bind (fails_buildM (fun p hp => ?_)) (fun _ _ => fails_pure _)
  obtain ⟨b, hb⟩ := AMap.mem_keys.mp hp
  have hg : ∃ v, raw.get p = some v ∧ (s.pricesWith u).get p = some v := by
    obtain ⟨v, hv, hg⟩ := (AMap.buildM_ok hraw).1 p hp
    rw [expect_ok, hpr] at hv
    exact ⟨v, hg, hv⟩
  obtain ⟨⟨x, t⟩, hg, hst⟩ := hg
  unfold checkPrice
  rw [hg, hb]
  refine fails_bind (fails_of_ok ⟨_, rfl⟩) (fun y hy => ?_)
  cases hy
  refine fails_bind (fails_of_ok ⟨_, rfl⟩) (fun y hy => ?_)
  cases hy
  refine fails_bind ((errs_addSeconds (l := arith) (by decide) _ _).arithmetic trivial) (fun m hm => ?_)
  rw [addSeconds_ok] at hm
  have hm := hm.2
  refine fails_bind (fails_check (fun h => ?_)) (fun _ _ => fails_bind (fails_check (fun h => ?_)) (fun _ _ => fails_pure _))
  · exact ⟨p, b, x, t, key p b hb, hst, by simp only at h; omega⟩
  · exact ⟨p, b, x, t, key p b hb, hst, by simp only at h; omega⟩

/-! ## What a keeper method looks at -/

/-- **Specification.** `s1` is `s` with the prices of `u` recorded and the pairs `ids` brought up to date: their funding is
accrued (`PairBrought`), for the pool in total as much as the pairs pay it (`d`), and they are marked to the price; the open interest and the cost of every pair, the other pairs, the
tokens and the balances stay. -/
structure State.Refreshed (s s1 : State) (u : Option PriceUpdate) (ids : List PairId) : Prop where
  same : s1 = { s with oracle := s1.oracle, pool := s1.pool }
  prices : s1.oracle.prices = s.pricesWith u
  pairs : ∃ d : PairId → Dec, (∀ p ∈ ids, PairBrought s s1 p (d p)) ∧
    s1.pool.unrealizedFunding = s.pool.unrealizedFunding + (ids.map d).sum
  marked : ∀ p ∈ ids, (s1.pool.position s.now p).MarkedAt (s1.market.price p)
  sizes : ∀ p, (s1.pool.position s.now p).oiLong = (s.pool.position s.now p).oiLong ∧
    (s1.pool.position s.now p).oiShort = (s.pool.position s.now p).oiShort ∧
    (s1.pool.position s.now p).cost = (s.pool.position s.now p).cost
  rest : ∀ p, p ∉ ids → s1.pool.position s.now p = s.pool.position s.now p
  tokens : s1.pool.baseTokens = s.pool.baseTokens ∧ s1.pool.vb = s.pool.vb
  snaps : s1.pool.SnapsAgree

/-- The state in the middle of a call. -/
def State.midway (s1 : State) (v : VPool) : State := { s1 with pool := v.realize }

theorem fold_kept {c : Ctx} : ∀ (l : List PairId) {v v' : VPool},
    l.foldlM (fun pool p => do let r ← updatePair c pool p; pure r.1) v = Except.ok v' →
    (∀ q, q ∉ l → v'.positions.get q = v.positions.get q) ∧ v'.comp = v.comp ∧ v'.vb = v.vb ∧
    (∀ q ∈ l, ∀ pp, v'.positions.get q = some pp → ∃ x, c.orc.prices.get q = some x ∧ pp.MarkedAt x) := by
  intro l
  induction l with
  | nil => intro v v' h; simp only [List.foldlM_nil, pure_ok] at h; subst h; exact ⟨fun _ _ => rfl, rfl, rfl, by simp⟩
  | cons p l ih =>
    intro v v' h
    simp only [List.foldlM_cons, bind_ok, pure_ok] at h
    obtain ⟨v1, ⟨⟨v2, b⟩, h1, rfl⟩, h2⟩ := h
    obtain ⟨i1, i2, i3, i4⟩ := ih (by simpa only [bind_ok, pure_ok] using h2)
    obtain ⟨pc, price, pp0, pp1, d, sec, per, -, hprice, hpp, -, -, hf, rfl, -, -⟩ := updatePair_ok h1
    refine ⟨fun q hq => ?_, i2, i3, fun q hq pp hg => ?_⟩
    · rw [List.mem_cons, not_or] at hq
      rw [i1 q hq.2]
      exact AMap.get_set_ne _ _ (fun e => hq.1 e.symm)
    · by_cases hql : q ∈ l
      · exact i4 q hql pp hg
      · rcases List.mem_cons.mp hq with rfl | hq
        · rw [i1 q hql] at hg
          simp only [AMap.get_set_self, Option.some.injEq] at hg
          refine ⟨price, hprice, ?_⟩
          have ho := fundingStep_only hf
          unfold FundingOnly at ho
          rw [← hg, ho]
          exact ⟨rfl, rfl⟩
        · exact absurd hq hql

theorem fold_unreal {c : Ctx} : ∀ (l : List PairId) {v v' : VPool}, l.Nodup →
    l.foldlM (fun pool p => do let r ← updatePair c pool p; pure r.1) v = Except.ok v' →
    ∃ d : PairId → Dec, (∀ p ∈ l, ∃ pp pp' price, v.positions.get p = some pp ∧ v'.positions.get p = some pp' ∧
      Accrued c pp pp' p price (d p)) ∧ v'.unreal = v.unreal + (l.map d).sum := by
  intro l
  induction l with
  | nil =>
    intro v v' _ h
    simp only [List.foldlM_nil, pure_ok] at h
    subst h; exact ⟨fun _ => 0, by simp, by simp⟩
  | cons p l ih =>
    intro v v' hn h
    simp only [List.foldlM_cons, bind_ok, pure_ok] at h
    obtain ⟨v1, ⟨⟨v2, b⟩, h1, rfl⟩, h2⟩ := h
    rw [List.nodup_cons] at hn
    have h2 : l.foldlM (fun pool p => do let r ← updatePair c pool p; pure r.1) v2 = Except.ok v' := by
      simpa only [bind_ok, pure_ok] using h2
    obtain ⟨d, d1, d2⟩ := ih hn.2 h2
    obtain ⟨⟨pp, pp1, price, dp, g1, g2, g3, g4⟩, g5⟩ := updatePair_accrued h1
    have hk := (fold_kept l h2).1 p hn.1
    have hne : ∀ q ∈ l, q ≠ p := fun q hq e => hn.1 (e ▸ hq)
    refine ⟨fun q => if q = p then dp else d q, fun q hq => ?_, ?_⟩
    · by_cases e : q = p
      · subst e
        simp only [if_pos]
        exact ⟨pp, pp1, price, g1, by rw [hk]; exact g2, g3⟩
      · obtain ⟨qq, qq', pr, a1, a2, a3⟩ := d1 q (by simpa [e] using hq)
        simp only [if_neg e]
        exact ⟨qq, qq', pr, by rw [← g5 q e]; exact a1, a2, a3⟩
    · rw [d2]
      rw [g4, List.map_cons, List.sum_cons, if_pos rfl]
      have : l.map (fun q => if q = p then dp else d q) = l.map d :=
        List.map_congr_left (fun q hq => if_neg (hne q hq))
      rw [this]; ring

section
variable {env : Env} {s s1 : State} {ids : List PairId} {u : Option PriceUpdate} {c : Ctx} {pool : VPool}

theorem midway_price (hk : keeperLoad env s ids u = Except.ok (s1, c, pool)) (v : VPool) {p : PairId} {x : Dec}
    (hx : c.orc.prices.get p = some x) : (s1.midway v).market.price p = x ∧ 0 < x := by
  obtain ⟨h0, t, ht, -⟩ := (keeperLoad_prices hk).1 p x hx
  refine ⟨?_, h0⟩
  unfold State.market State.midway
  simp only [ht, Option.map_some, Option.getD_some]

theorem keeperLoad_state (hk : keeperLoad env s ids u = Except.ok (s1, c, pool)) :
    s1.config = s.config ∧ s1.now = s.now ∧ s1.accounts = s.accounts ∧ s1.pool = s.pool ∧ s1.referrals = s.referrals ∧
    s1.dist = s.dist := by
  obtain ⟨-, -, -, -, -, -, e⟩ := keeperLoad_ok hk
  rw [e]; exact ⟨rfl, rfl, rfl, rfl, rfl, rfl⟩

theorem keeperLoad_feeds (hk : keeperLoad env s ids u = Except.ok (s1, c, pool)) : c.Feeds := by
  obtain ⟨-, -, -, -, ⟨feeds, -, ho⟩, -, -⟩ := keeperLoad_ok hk
  exact (VOracle.new_ok ho).1

/-- The market seen in the middle of a call is the one of the state in the middle of the call. -/
theorem midway_agree (hk : keeperLoad env s ids u = Except.ok (s1, c, pool)) {v : VPool} (hcoh : PoolCoh s.now v)
    {pos : AMap PairId AccountPosition} {bal : AMap Res Dec} (hkn : ∀ p x, pos.get p = some x → c.Known v p)
    (hc : ∀ r x cc, bal.get r = some x → c.cfg.colls.get r = some cc → ∃ y, c.orc.prices.get cc.pairId = some y) :
    (c.market v).Agree (s1.midway v).market pos bal := by
  obtain ⟨-, -, hcfg, -, -, -, e⟩ := keeperLoad_ok hk
  obtain ⟨e1, e2, -, e4⟩ := VConfig.new_ok hcfg
  obtain ⟨k1, k2, -, -, -, -⟩ := keeperLoad_state hk
  have hcoll : ∀ r, c.cfg.colls.get r = (s1.midway v).market.coll r := by
    intro r
    rw [e2, AMap.get_mapV]
    simp only [State.market, State.midway, k1]
  refine ⟨?_, fun p x hp => ?_, fun p x hp => ?_, fun p x hp => ?_, fun r x hr => hcoll r, fun r x cc hr hcc => ?_⟩
  · simp only [Ctx.market, State.market, State.midway, k1]; exact e1
  · obtain ⟨-, ⟨y, hy⟩, -⟩ := hkn p x hp
    rw [(midway_price hk v hy).1]
    simp only [Ctx.market, hy, Option.getD_some]
  · obtain ⟨⟨y, hy⟩, -, -⟩ := hkn p x hp
    obtain ⟨-, z, hz, rfl⟩ := e4 p y hy
    simp only [Ctx.market, State.market, State.midway, hy, k1, hz, Option.getD_some, Option.map_some]
  · obtain ⟨-, -, y, hy⟩ := hkn p x hp
    have := hcoh p y hy
    simp only [Ctx.market, State.market, State.midway, hy, Option.getD_some, k2]
    exact this.symm
  · rw [← hcoll] at hcc
    obtain ⟨y, hy⟩ := hc r x cc hr hcc
    rw [(midway_price hk v hy).1]
    simp only [Ctx.market, hy, Option.getD_some]

/-- Bringing pairs up to date, as the methods do it, is what the specification says. -/
theorem midway_refreshed (hr : Reach env s) (hk : keeperLoad env s ids u = Except.ok (s1, c, pool)) {l : List PairId}
    (hl : ∀ p ∈ l, p ∈ ids) (hn : l.Nodup) {v : VPool}
    (hv : l.foldlM (fun pool p => do let r ← updatePair c pool p; pure r.1) pool = Except.ok v) :
    s.Refreshed (s1.midway v) u l ∧ PoolCoh s.now v := by
  obtain ⟨-, hnow, hcfg, hpush, -, rfl, e⟩ := keeperLoad_ok hk
  obtain ⟨k1, k2, -, -, -, -⟩ := keeperLoad_state hk
  obtain ⟨f1, f2, f3, f4⟩ := fold_kept l hv
  have acc0 : VAccount := default
  have hpath := updatePairs_path (ex := c.cfg.ex) (acc := acc0) (d := s.dist) l hv
  have hcoh : PoolCoh s.now v := poolCoh_path hpath (poolCoh_new s.pool s.now ids)
  have hsn : v.realize.SnapsAgree := snaps_realize hpath rfl (c04_aggregate_snapshots hr)
  have hac := fold_accrued l hn hv
  have hpos : ∀ q pp, v.positions.get q = some pp → (s1.midway v).pool.position s.now q = pp := by
    intro q pp hq
    exact hcoh q pp hq
  have hrest : ∀ q, v.positions.get q = (VPool.new s.pool s.now ids).positions.get q →
      (s1.midway v).pool.position s.now q = s.pool.position s.now q := by
    intro q hq
    change (v.realPositions.get q).getD _ = _
    rw [VPool.realPositions_get]
    simp only [VPool.new, AMap.get_build] at hq
    split at hq
    · have := hcoh q _ hq
      rw [VPool.realPositions_get] at this
      exact this
    · rw [hq, f2]
      simp only [Option.none_or, ite_self]
      rfl
  have hsz := updatePairs_size l hv
  obtain ⟨d, d1, d2⟩ := fold_unreal l hn hv
  refine ⟨⟨?_, ?_, ⟨d, fun p hp => ?_, ?_⟩, fun p hp => ?_, fun p => ?_, fun p hp => hrest p (f1 p hp), ⟨?_, ?_⟩, hsn⟩, hcoh⟩
  · unfold State.midway; rw [e]
  · exact (maybePush_prices hpush).1
  · obtain ⟨pp, pp', price, a1, a2, a3⟩ := d1 p hp
    exact brought_spec hr k2 (brought_of (s' := s1.midway v) hk rfl rfl hcoh a1 a2 a3).2
  · exact d2
  · obtain ⟨pp, pp', price, d, g1, g2, -⟩ := hac.1 p hp
    obtain ⟨x, hx, hm⟩ := f4 p hp pp' g2
    rw [(midway_price hk v hx).1, hpos p pp' g2]
    exact hm
  · have h1 := congrFun hsz p
    simp only [VPool.view] at h1
    by_cases hp : p ∈ ids
    · have hg : (VPool.new s.pool s.now ids).positions.get p = some (s.pool.position s.now p) := by
        simp only [VPool.new, AMap.get_build]; rw [if_pos hp]
      rw [hg, Option.map_some, Option.map_eq_some_iff] at h1
      obtain ⟨pp, hpp, he⟩ := h1
      rw [hpos p pp hpp]
      simp only [PoolPosition.size, Prod.mk.injEq] at he
      exact he
    · have : p ∉ l := fun h => hp (hl p h)
      rw [hrest p (f1 p this)]
      exact ⟨rfl, rfl, rfl⟩
  · change v.comp.baseTokens = _
    rw [f2]; rfl
  · change v.vb = _
    rw [f3]; rfl

end

/-! ## Accounts -/

theorem load_fails {env : Env} {s : State} (h : Reach env s) {P : Err → Prop} (a : Addr)
    (hP : s.accounts.get a = none → P .invalidMarginAccount) : Fails P (s.load a) := by
  cases ha : s.accounts.get a with
  | some acc => exact fails_of_ok (State.load_total h ha)
  | none =>
    intro e he
    have := load_errs h a e he
    simp only [List.mem_singleton] at this
    rw [this]; exact hP ha

/-- The fee multiplier of a loaded account. -/
theorem load_rebateOf {s : State} {a : Addr} {v : VAccount} {acc : Account} (hv : s.load a = Except.ok v)
    (ha : s.accounts.get a = some acc) : s.rebateOf acc = v.rebate := by
  have href := load_refOk hv
  obtain ⟨acc', rd, ha', -, hv'⟩ := load_ok hv
  rw [ha] at ha'; cases ha'
  have hid : v.referralId = acc.referralId := by rw [hv']
  unfold State.rebateOf VAccount.rebate
  rw [← hid]
  rcases href with ⟨h1, h2, h3⟩ | ⟨r, d, d0, h1, h2, h3, h4, h5⟩
  · rw [h1, h2]; rfl
  · rw [h1, h2]
    rw [Option.bind_some, h3]
    show ONE - d0.feeRebate = ONE - d.feeRebate
    rw [h4]

/-! ## Liquidation -/

/-- **Specification.** Why a liquidation can be refused: the bucket or the account does not exist, the payment is not in base
tokens, the prices are refused, the account is worth at least its maintenance margin (with the prices recorded and the
funding of its pairs accrued), or the payment is less than the discounted value of its collateral. -/
def LiquidationRefused (env : Env) (s : State) (a : Addr) (b : Bucket) (u : Option PriceUpdate) : Err → Prop
  | .badBucket => okBucket env s b = false
  | .invalidMarginAccount => s.accounts.get a = none
  | .invalidPaymentToken => b.res ≠ BASE
  | .sufficientMargin => ∃ acc s1, s.accounts.get a = some acc ∧ s.Refreshed s1 u acc.positions.keys ∧
      s1.maintenanceMargin acc ≤ s1.accountValue acc
  | .insufficientPayment => ∃ acc s1, s.accounts.get a = some acc ∧ s.Refreshed s1 u acc.positions.keys ∧
      b.amt < acc.collateralBalances.sum s1.market.collValue
  | e => ∃ acc, s.accounts.get a = some acc ∧ PricesRefused env s acc.positions.keys u e

theorem up_of_multiple {g : Nat} (hg : 0 < g) {x y : Dec} (hy : y % (g : Int) = 0) (h : x ≤ y) :
    amountFor g x .toInfinity ≤ y := by
  unfold amountFor
  simp only
  have hg' : (0 : Int) < g := by exact_mod_cast hg
  obtain ⟨k, rfl⟩ := Int.dvd_of_emod_eq_zero hy
  have : -k ≤ (-x) / (g : Int) := by
    rw [Int.le_ediv_iff_mul_le hg']; nlinarith
  nlinarith

theorem liquidate_fails {c : Ctx} {w : W} {b : Bucket} {ids : List PairId} {P : Err → Prop} (h : c.Ready ids) (hf : c.Feeds)
    (hh : w.pool.Has ids) (hids : ∀ p ∈ w.acc.positions.keys, p ∈ ids) (hcoll : CollInv c.env w.acc.collPart)
    (hprice : ∀ p x, c.orc.prices.get p = some x → 0 < x) (hdisc : ∀ r cc, c.cfg.colls.get r = some cc → 0 ≤ cc.discount)
    (hP : P .arithmetic) (htok : b.res ≠ BASE → P .invalidPaymentToken) (hb : b.amt % (c.env.gran b.res : Int) = 0)
    (hval : ∀ p1, w.acc.positions.keys.foldlM (fun pool p => do let r ← updatePair c pool p; pure r.1) w.pool = Except.ok p1 →
      (∀ p x, w.acc.positions.get p = some x → c.Known p1 p) →
      (∀ r x cc, w.acc.collateralBalances.get r = some x → c.cfg.colls.get r = some cc →
        ∃ y, c.orc.prices.get cc.pairId = some y) →
      ((c.market p1).margin PairConfig.marginMaintenance w.acc.positions w.acc.collateralBalances ≤
        (c.market p1).value w.acc.rebate w.acc.positions w.acc.collateralBalances w.acc.vb → P .sufficientMargin) ∧
      (b.amt < w.acc.collateralBalances.sum (c.market p1).collValue → P .insufficientPayment)) :
    Fails P (liquidate c w b) := by
  unfold liquidate
  refine fails_bind (fails_check htok) (fun _ hres => ?_)
  rw [require_ok, decide_eq_true_eq] at hres
  refine fails_bind ((liquidatePositions_errs h hh hids).arithmetic hP) (fun x hx => ?_)
  obtain ⟨w1, lp⟩ := x
  obtain ⟨p1, p2, p3, hu, hlo, -, rfl⟩ := liquidatePositions_ok hx
  obtain ⟨t1, t2, -, t3⟩ := liqLoop_value (p1 := p1) _ w.acc.positions.nodup (fun e _ => rfl) hlo
  refine fails_bind ((liquidateCollateral_errs h).arithmetic hP) (fun lc hlc => ?_)
  obtain ⟨c1, c2, c3, c4⟩ := liquidateCollateral_ok hf p1 hlc
  obtain ⟨r1, r2⟩ := hval p1 hu (fun p x hp => t3 (p, x) (AMap.get_eq_some.mp hp)) c4
  simp only
  refine fails_bind ((errs_dadd (l := arith) (by decide) _ _).arithmetic hP) (fun v1 hv1 => ?_)
  refine fails_bind ((errs_dadd (l := arith) (by decide) _ _).arithmetic hP) (fun v2 hv2 => ?_)
  refine fails_bind ((errs_dadd (l := arith) (by decide) _ _).arithmetic hP) (fun m hm => ?_)
  rw [dadd_ok] at hv1 hv2 hm
  obtain ⟨-, rfl⟩ := hv1
  obtain ⟨-, rfl⟩ := hv2
  obtain ⟨-, rfl⟩ := hm
  refine fails_bind (fails_check (fun hn => r1 ?_)) (fun _ _ => ?_)
  · simp only [zero_add] at t1 t2
    unfold Market.margin Market.value AMap.sum
    rw [t1, t2, c1, c2] at hn
    exact not_lt.mp hn
  refine fails_bind (fails_check (fun hn => r2 ?_)) (fun _ hpay => ?_)
  · rw [c1] at hn
    by_contra hge
    refine hn (up_of_multiple (c.env.gran_pos BASE) ?_ (not_lt.mp hge))
    rw [← hres]; exact hb
  rw [require_ok, decide_eq_true_eq] at hpay
  have hbal : ∀ r x, w.acc.collateralBalances.get r = some x → 0 ≤ x := by
    intro r x hx
    have e : w.acc.collateralBalances = w.acc.comp.collateralBalances := hcoll.same
    exact hcoll.nonneg r x (by rw [e] at hx; exact hx)
  refine fails_bind (Errs.arithmetic (withdrawCollateral_errs (v := w.acc.noPositions)
    (show CollInv c.env w.acc.noPositions.collPart from hcoll) (cs := lc.amounts) ?_ ?_) hP) (fun y hy => ?_)
  · rw [c3]
    exact (w.acc.collateralBalances.nodup).sublist (List.filter_sublist.map _)
  · intro e he
    rw [c3] at he
    have hg : w.acc.collateralBalances.get e.1 = some e.2 := AMap.get_mem (List.mem_of_mem_filter he)
    exact ⟨hbal _ _ hg, e.2, hg, le_refl _⟩
  obtain ⟨acc2, bs⟩ := y
  have hnn : 0 ≤ lc.valueDiscounted := by
    rw [c1]
    refine AMap.sum_nonneg (fun r x hx => ?_)
    unfold Market.collValue
    cases hcc : (c.market p1).coll r with
    | none => exact le_refl _
    | some cc =>
      have hcc' : c.cfg.colls.get r = some cc := hcc
      obtain ⟨y, hy⟩ := c4 r x cc hx hcc'
      refine mulT_nonneg (mulT_nonneg (hbal r x hx) ?_) (hdisc r cc hcc')
      have : (c.market p1).price cc.pairId = y := by
        change (c.orc.prices.get cc.pairId).getD 0 = y
        rw [hy]; rfl
      rw [this]; exact (hprice _ _ hy).le
  refine fails_bind (fails_of_ok ⟨amountFor (c.env.gran BASE) lc.valueDiscounted .toInfinity, ?_⟩) (fun taken _ => ?_)
  · rw [takeAmount_ok]
    refine ⟨rfl, ?_, ?_, hpay⟩
    · have := (amountFor_up (c.env.gran_pos BASE) lc.valueDiscounted).1
      exact le_trans hnn this
    · unfold amountFor; simp only; exact Int.mul_emod_left _ _
  refine fails_bind ((deposit_errs _ _).arithmetic hP) (fun _ _ => ?_)
  refine fails_bind ((errs_dadd (l := arith) (by decide) _ _).arithmetic hP) (fun _ _ => ?_)
  refine fails_bind ((settleAccount_errs _ _).arithmetic hP) (fun _ _ => ?_)
  refine fails_bind ?_ (fun _ _ => ?_)
  · refine Errs.arithmetic ?_ hP
    unfold writeOff; errs; exact settleAccount_errs _ _
  refine fails_bind ((settleFeesReferral_errs _ _ _).arithmetic hP) (fun _ _ => ?_)
  simp only
  exact fails_bind ((errs_dneg (l := arith) (by decide) _).arithmetic hP) (fun _ _ => fails_pure _)

/-- **C54, liquidation.** -/
theorem c54_liquidation {env : Env} {cl : Caller} {s : State} (h : Reach env s) (hw : s.RewardWhole env) {a : Addr}
    {b : Bucket} {u : Option PriceUpdate} {e : Err} (hp : Permitted cl s (.liquidate a b u))
    (hs : step env cl s (.liquidate a b u) = Except.error e) : LiquidationRefused env s a b u e := by
  rw [step_permitted hp] at hs
  revert hs e
  change Fails _ (opLiquidate env s a b u)
  unfold opLiquidate
  refine fails_bind (fails_require (fun h => h)) (fun _ hb => ?_)
  rw [require_ok] at hb
  refine fails_bind (load_fails h a (fun h => h)) (fun v hv => ?_)
  have hids := loaded_ids h hv
  obtain ⟨acc, rd, ha, -, hv'⟩ := load_ok hv
  have hpid : v.positionIds = acc.positions.keys := by rw [hv']; rfl
  have har : LiquidationRefused env s a b u .arithmetic := ⟨acc, ha, trivial⟩
  refine fails_bind ?_ (fun r hr => ?_)
  · refine (keeperLoad_fails hids).mono (fun e he => ?_)
    rw [hpid] at he
    cases e <;> first | exact False.elim he | exact ⟨acc, ha, he⟩
  obtain ⟨s1, c, pool⟩ := r
  obtain ⟨hready, hhas⟩ := keeperLoad_ready hr
  obtain ⟨henv, -, hcfg, -, ⟨feeds, hf, ho⟩, -, -⟩ := keeperLoad_ok hr
  obtain ⟨hres, -, hval⟩ := VOracle.new_ok ho
  have hcoll : CollInv c.env v.collPart := by
    rw [henv, hv']
    have := reach_collOk h a acc ha
    exact this
  have hbv := okBucket_valid (l := [b]) (by simpa using hb) b (by simp)
  have hst := keeperLoad_state hr
  refine fails_bind (liquidate_fails hready hres (w := { pool, acc := v, dist := s1.dist }) hhas (fun p hp => hp) hcoll
    (fun p x hx => (hval p x hx).1) (fun r cc hr => ?_) har (fun h => h) (by rw [henv]; exact hbv.2)
    (fun p1 hu hkn hcp => ?_)) (fun x hx => ?_)
  · rw [(VConfig.new_ok hcfg).2.1, AMap.get_mapV] at hr
    cases hg : s.config.collaterals.get r with
    | none => rw [hg] at hr; cases hr
    | some y =>
      rw [hg] at hr; cases hr
      have := (c46_collateral_in_force_partial h hg).1
      change 0 ≤ y.decompress.discount
      simp only [ONE] at this; omega
  · simp only at hu hkn hcp
    have e1 : v.positions = acc.positions := by rw [hv']
    have e2 : v.collateralBalances = acc.collateralBalances := by rw [hv']
    have e3 : v.vb = acc.vb := by rw [hv']
    obtain ⟨href, hcoh⟩ := midway_refreshed h hr (fun p hp => hp) (AMap.keys_nodup _) hu
    have hag := midway_agree hr hcoh hkn hcp
    have hrb : (s1.midway p1).rebateOf acc = v.rebate := by
      rw [← load_rebateOf hv ha]
      unfold State.rebateOf State.midway
      rw [hst.2.2.2.2.1]
    rw [hpid] at href
    constructor
    · intro hm
      refine ⟨acc, s1.midway p1, ha, href, ?_⟩
      rw [hag.value, hag.margin] at hm
      unfold State.maintenanceMargin State.accountValue
      rw [hrb, ← e1, ← e2, ← e3]
      exact hm
    · intro hm
      refine ⟨acc, s1.midway p1, ha, href, ?_⟩
      have := hag.value v.rebate 0
      have hcs : v.collateralBalances.sum (c.market p1).collValue = v.collateralBalances.sum (s1.midway p1).market.collValue := by
        refine AMap.sum_congr (fun r x hx => ?_)
        simp only [Market.collValue, hag.coll r x hx]
        cases hc : (s1.midway p1).market.coll r with
        | none => rfl
        | some cc => simp only [hag.collPrice r x cc hx hc]
      rw [← e2, ← hcs]; exact hm
  obtain ⟨w, tokens, e⟩ := x
  obtain ⟨va, e1, hwa⟩ := liquidate_reqPart hx
  have hinv := updateValidStart_inv (rinv_congr e1 (load_rinv hv (reach_requestsOk h)).1)
  rw [← hwa] at hinv
  refine fails_bind (fails_of_ok (keeper_commit hr hinv (refOk_path (liquidate_path hx) (load_refOk hv)))) (fun s2 _ => ?_)
  exact fails_bind ((keeper_mint h hw hcfg s2).arithmetic har) (fun _ _ => fails_pure _)

/-- Without a price update, and with the funding of the account's pairs up to date, refreshing changes no valuation. -/
theorem Refreshed.current {s s1 : State} {ids : List PairId} {acc : Account} (h : s.Refreshed s1 none ids)
    (hc : s.FundingCurrent acc) :
    s1.accountValue acc = s.accountValue acc ∧ s1.maintenanceMargin acc = s.maintenanceMargin acc ∧
    s1.initialMargin acc = s.initialMargin acc ∧ s1.market.collValue = s.market.collValue := by
  have hnow : s1.now = s.now := by rw [h.same]
  have e1 : s1.market.price = s.market.price := by
    funext p; simp only [State.market, h.prices]; rfl
  have e2 : s1.market.pair = s.market.pair := by
    funext p; simp only [State.market]; rw [h.same]
  have e3 : s1.market.coll = s.market.coll := by
    funext p; simp only [State.market]; rw [h.same]
  have e4 : s1.market.ex = s.market.ex := by
    simp only [State.market]; rw [h.same]
  have e5 : s1.rebateOf acc = s.rebateOf acc := by
    unfold State.rebateOf; rw [h.same]
  have e6 : s1.market.collValue = s.market.collValue := by
    funext r x; simp only [Market.collValue, e1, e3]
  have e7 : s1.market.collMargin = s.market.collMargin := by
    funext r x; simp only [Market.collMargin, e1, e3]
  have e8 : ∀ f, s1.market.posMargin f = s.market.posMargin f := by
    intro f; funext r x; simp only [Market.posMargin, e1, e2]
  have e9 : acc.positions.sum (s1.market.pnl (s.rebateOf acc)) = acc.positions.sum (s.market.pnl (s.rebateOf acc)) := by
    refine AMap.sum_congr (fun p x hx => ?_)
    have hix : (s1.pool.position s.now p).fundingLongIndex = (s.pool.position s.now p).fundingLongIndex ∧
        (s1.pool.position s.now p).fundingShortIndex = (s.pool.position s.now p).fundingShortIndex := by
      by_cases hp : p ∈ ids
      · obtain ⟨d, hd, -⟩ := h.pairs
        obtain ⟨a, b, -, -⟩ := (hd p hp).still (hc p x hx)
        rw [hnow] at a b
        exact ⟨a, b⟩
      · rw [h.rest p hp]; exact ⟨rfl, rfl⟩
    obtain ⟨z1, z2, -⟩ := h.sizes p
    have p1 : s1.market.pool p = s1.pool.position s.now p := by simp only [State.market, hnow]
    have p2 : s.market.pool p = s.pool.position s.now p := rfl
    simp only [Market.pnl_eq, e1, e2, e4, p1, p2, feeOf, rawFee, fundingOwed, z1, z2, hix.1, hix.2]
  refine ⟨?_, ?_, ?_, e6⟩
  · unfold State.accountValue Market.value
    rw [e5, e6, e9]
  · unfold State.maintenanceMargin Market.margin
    rw [e7, e8]
  · unfold State.initialMargin Market.margin
    rw [e7, e8]

/-- **C54, a liquidatable account can be liquidated.** With prices on the ledger and the funding of the account's pairs up to
date, an account that is worth less than its maintenance margin is liquidated by anyone permitted who pays at least the
discounted value of its collateral in base tokens — unless the arithmetic overflows. -/
theorem c54_liquidatable {env : Env} {cl : Caller} {s : State} (h : Reach env s) (hw : s.RewardWhole env) {a : Addr}
    {acc : Account} {b : Bucket} (hp : Permitted cl s (.liquidate a b none)) (ha : s.accounts.get a = some acc)
    (hb : okBucket env s b = true) (hbase : b.res = BASE) (hprices : s.PricesReady acc.positions.keys)
    (hf : s.FundingCurrent acc) (hm : s.accountValue acc < s.maintenanceMargin acc)
    (hpay : acc.collateralBalances.sum s.market.collValue ≤ b.amt) :
    (∃ s' o, step env cl s (.liquidate a b none) = Except.ok (s', o)) ∨
      step env cl s (.liquidate a b none) = Except.error .arithmetic := by
  cases hs : step env cl s (.liquidate a b none) with
  | ok r => exact Or.inl ⟨r.1, r.2, rfl⟩
  | error e =>
    right
    have h1 := c53_liquidation h hw hp ha hb hprices hs
    have h2 := c54_liquidation h hw hp hs
    simp only [List.mem_cons, List.not_mem_nil, or_false] at h1
    rcases h1 with rfl | rfl | rfl | rfl
    · exact absurd hbase h2
    · obtain ⟨acc', s1, ha', hr, hle⟩ := h2
      rw [ha] at ha'; cases ha'
      obtain ⟨e1, e2, -, -⟩ := Refreshed.current hr hf
      rw [e1, e2] at hle
      exact absurd hm (not_lt.mpr hle)
    · obtain ⟨acc', s1, ha', hr, hlt⟩ := h2
      rw [ha] at ha'; cases ha'
      obtain ⟨-, -, -, e4⟩ := Refreshed.current hr hf
      rw [e4] at hlt
      exact absurd hpay (not_le.mpr hlt)
    · rfl

end Perp
