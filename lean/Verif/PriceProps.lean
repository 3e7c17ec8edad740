import Verif.Admin

/-!
# C14, C15: oracle prices
-/

namespace Perp

/-! ## Effects of a price message -/

theorem pushOne_get (m : AMap PairId (Dec × Int)) (x : Price) (p : PairId) :
    (Oracle.pushOne m x).get p = m.get p ∨
    (x.pair = p ∧ (Oracle.pushOne m x).get p = some (x.quote, x.timestamp) ∧
      ∀ old, m.get p = some old → old.2 < x.timestamp) := by
  unfold Oracle.pushOne
  split
  · rename_i old ho
    split
    · rename_i ht
      by_cases e : x.pair = p
      · subst e
        right
        refine ⟨rfl, by simp, ?_⟩
        intro old' h'
        rw [ho] at h'; cases h'; exact ht
      · left; rw [AMap.get_set_ne _ _ e]
    · left; rfl
  · rename_i ho
    by_cases e : x.pair = p
    · subst e
      right
      refine ⟨rfl, by simp, ?_⟩
      intro old' h'
      rw [ho] at h'; cases h'
    · left; rw [AMap.get_set_ne _ _ e]

theorem pushOne_covers (m : AMap PairId (Dec × Int)) (x : Price) :
    ∃ y, (Oracle.pushOne m x).get x.pair = some y ∧ x.timestamp ≤ y.2 := by
  unfold Oracle.pushOne
  split
  · rename_i old ho
    split
    · exact ⟨(x.quote, x.timestamp), by simp, le_refl _⟩
    · rename_i ht
      exact ⟨old, ho, by omega⟩
  · exact ⟨(x.quote, x.timestamp), by simp, le_refl _⟩

theorem pushOne_noop (m : AMap PairId (Dec × Int)) (x : Price)
    (h : ∃ y, m.get x.pair = some y ∧ x.timestamp ≤ y.2) : Oracle.pushOne m x = m := by
  obtain ⟨y, hy, ht⟩ := h
  unfold Oracle.pushOne
  rw [hy]
  simp only
  rw [if_neg (by omega)]

/-- Timestamps never go back. -/
theorem pushOne_mono {m : AMap PairId (Dec × Int)} {x : Price} {p : PairId} {y : Dec × Int}
    (h : m.get p = some y) : ∃ z, (Oracle.pushOne m x).get p = some z ∧ y.2 ≤ z.2 := by
  rcases pushOne_get m x p with h1 | ⟨-, h1, h2⟩
  · exact ⟨y, by rw [h1, h], le_refl _⟩
  · exact ⟨_, h1, le_of_lt (h2 y h)⟩

theorem pushes_mono (l : List Price) : ∀ {m : AMap PairId (Dec × Int)} {p : PairId} {y : Dec × Int},
    m.get p = some y → ∃ z, (l.foldl Oracle.pushOne m).get p = some z ∧ y.2 ≤ z.2 := by
  induction l with
  | nil => intro m p y h; exact ⟨y, h, le_refl _⟩
  | cons x l ih =>
    intro m p y h
    obtain ⟨z, hz, hle⟩ := pushOne_mono (x := x) h
    obtain ⟨t, ht, hle'⟩ := ih hz
    exact ⟨t, ht, le_trans hle hle'⟩

theorem pushes_get (l : List Price) : ∀ (m : AMap PairId (Dec × Int)) (p : PairId),
    (l.foldl Oracle.pushOne m).get p = m.get p ∨
    ∃ x ∈ l, x.pair = p ∧ (l.foldl Oracle.pushOne m).get p = some (x.quote, x.timestamp) ∧
      ∀ old, m.get p = some old → old.2 < x.timestamp := by
  induction l with
  | nil => intro m p; exact .inl rfl
  | cons x l ih =>
    intro m p
    simp only [List.foldl_cons]
    rcases ih (Oracle.pushOne m x) p with h | ⟨y, hy, hp, hg, hlt⟩
    · rcases pushOne_get m x p with h1 | ⟨h1, h2, h3⟩
      · left; rw [h, h1]
      · right; exact ⟨x, List.mem_cons_self .., h1, by rw [h, h2], h3⟩
    · right
      refine ⟨y, List.mem_cons_of_mem _ hy, hp, hg, ?_⟩
      intro old ho
      obtain ⟨z, hz, hle⟩ := pushOne_mono (x := x) ho
      exact lt_of_le_of_lt hle (hlt z hz)

theorem pushes_cover (l : List Price) : ∀ (m : AMap PairId (Dec × Int)), ∀ x ∈ l,
    ∃ y, (l.foldl Oracle.pushOne m).get x.pair = some y ∧ x.timestamp ≤ y.2 := by
  induction l with
  | nil => intro m x hx; cases hx
  | cons x l ih =>
    intro m y hy
    simp only [List.foldl_cons]
    rcases List.mem_cons.mp hy with rfl | hy
    · obtain ⟨z, hz, hle⟩ := pushOne_covers m y
      obtain ⟨t, ht, hle'⟩ := pushes_mono l hz
      exact ⟨t, ht, le_trans hle hle'⟩
    · exact ih _ y hy

theorem pushes_noop (l : List Price) : ∀ (m : AMap PairId (Dec × Int)),
    (∀ x ∈ l, ∃ y, m.get x.pair = some y ∧ x.timestamp ≤ y.2) → l.foldl Oracle.pushOne m = m := by
  induction l with
  | nil => intro m _; rfl
  | cons x l ih =>
    intro m h
    simp only [List.foldl_cons]
    rw [pushOne_noop m x (h x (List.mem_cons_self ..))]
    exact ih m (fun y hy => h y (List.mem_cons_of_mem _ hy))

theorem Oracle.push_ok {env : Env} {o o' : Oracle} {u : PriceUpdate}
    (h : o.push env u = Except.ok o') :
    ∃ key, o.keys.get u.keyId = some key ∧ env.verify u.prices key u.sig = true ∧
      o' = { o with prices := u.prices.foldl Oracle.pushOne o.prices } := by
  simp only [Oracle.push, bind_ok, pure_ok, expect_ok, require_ok] at h
  obtain ⟨key, hk, -, hv, rfl⟩ := h
  exact ⟨key, hk, hv, rfl⟩

/-! ## C14 -/

/-- **C14, forward only.** If the stored price of a pair is a new one after a call, the call carried a
message signed under a registered key, the new price is in that message, and it is strictly later than
the price it replaces. -/
theorem c14_price_moves_forward {env : Env} {cl : Caller} {s s' : State} {op : Op} {o : Out} {p : PairId}
    {q : Dec} {t : Int} (h : step env cl s op = Except.ok (s', o))
    (hnew : s'.oracle.prices.get p = some (q, t)) (hold : s.oracle.prices.get p ≠ some (q, t)) :
    ∃ u key, op.update = some u ∧ s.oracle.keys.get u.keyId = some key ∧
      env.verify u.prices key u.sig = true ∧ ⟨p, q, t⟩ ∈ u.prices ∧
      ∀ q0 t0, s.oracle.prices.get p = some (q0, t0) → t0 < t := by
  rcases (body_admin (step_body h)).oracle with h1 | ⟨u, hu, hp⟩ | ⟨id, k, -, hk⟩ | ⟨id, -, hk⟩ | ⟨p', -, hk⟩
  · rw [h1] at hnew; exact absurd hnew hold
  · obtain ⟨key, hk, hv, he⟩ := Oracle.push_ok hp
    rw [he] at hnew
    rcases pushes_get u.prices s.oracle.prices p with h2 | ⟨x, hx, rfl, hg, hlt⟩
    · simp only [h2] at hnew; exact absurd hnew hold
    · simp only [hg, Option.some.injEq, Prod.mk.injEq] at hnew
      obtain ⟨rfl, rfl⟩ := hnew
      exact ⟨u, key, hu, hk, hv, hx, fun q0 t0 h0 => hlt _ h0⟩
  · simp only [Oracle.addKey, bind_ok, pure_ok, require_ok] at hk
    obtain ⟨-, -, he⟩ := hk
    rw [← he] at hnew; exact absurd hnew hold
  · rw [hk] at hnew; exact absurd hnew hold
  · rw [hk] at hnew
    simp only [Oracle.removePrice, AMap.get_erase] at hnew
    split at hnew
    · cases hnew
    · exact absurd hnew hold

/-- **C14, removal.** A stored price disappears only by `remove_price` of that pair, by the oracle's
owner. -/
theorem c14_price_removed {env : Env} {cl : Caller} {s s' : State} {op : Op} {o : Out} {p : PairId}
    (h : step env cl s op = Except.ok (s', o)) (hold : s.oracle.prices.get p ≠ none)
    (hnew : s'.oracle.prices.get p = none) :
    op = .oracleRemovePrice p ∧ s.oracleOwner.sat cl.pf = true := by
  have key : op = .oracleRemovePrice p := by
    rcases (body_admin (step_body h)).oracle with h1 | ⟨u, hu, hp⟩ | ⟨id, k, -, hk⟩ | ⟨id, -, hk⟩ | ⟨p', he, hk⟩
    · rw [h1] at hnew; exact absurd hnew hold
    · obtain ⟨key, hk, hv, he⟩ := Oracle.push_ok hp
      obtain ⟨y, hy⟩ := Option.ne_none_iff_exists'.mp hold
      obtain ⟨z, hz, -⟩ := pushes_mono u.prices hy
      rw [he] at hnew
      simp only [hz] at hnew; cases hnew
    · simp only [Oracle.addKey, bind_ok, pure_ok, require_ok] at hk
      obtain ⟨-, -, he⟩ := hk
      rw [← he] at hnew; exact absurd hnew hold
    · rw [hk] at hnew; exact absurd hnew hold
    · rw [hk] at hnew
      simp only [Oracle.removePrice, AMap.get_erase] at hnew
      split at hnew
      · rename_i e; rw [he, e]
      · exact absurd hnew hold
  subst key
  exact ⟨rfl, c40_owner_required h rfl⟩

/-- All prices of a message are superseded: each of its pairs has a stored price at least as recent. -/
def Superseded (o : Oracle) (u : PriceUpdate) : Prop :=
  ∀ x ∈ u.prices, ∃ q t, o.prices.get x.pair = some (q, t) ∧ x.timestamp ≤ t

theorem superseded_step {env : Env} {cl : Caller} {s s' : State} {op : Op} {o : Out} {u : PriceUpdate}
    (h : step env cl s op = Except.ok (s', o)) (hr : ∀ x ∈ u.prices, op ≠ .oracleRemovePrice x.pair)
    (hs : Superseded s.oracle u) : Superseded s'.oracle u := by
  intro x hx
  obtain ⟨q, t, hg, hle⟩ := hs x hx
  cases hg' : s'.oracle.prices.get x.pair with
  | none =>
    exact absurd (c14_price_removed h (by rw [hg]; simp) hg').1 (hr x hx)
  | some y =>
    refine ⟨y.1, y.2, rfl, ?_⟩
    by_cases e : s.oracle.prices.get x.pair = some (y.1, y.2)
    · rw [hg] at e; simp only [Option.some.injEq, Prod.mk.injEq] at e; omega
    · obtain ⟨u', key, -, -, -, -, hlt⟩ := c14_price_moves_forward h hg' e
      have := hlt q t hg
      omega

/-- **C14, replay.** After a message has been accepted, presenting it again (by itself or with any keeper
call) changes no stored price, in every later history in which the owner has not removed the price of one
of its pairs. -/
theorem c14_replay {env : Env} {cl cl' : Caller} {s s1 s2 s3 : State} {op : Op} {o o' : Out} {u : PriceUpdate}
    (h1 : step env cl s (.oraclePush u) = Except.ok (s1, o))
    (hist : Relation.ReflTransGen (fun a b => ∃ cl op o, (∀ x ∈ u.prices, op ≠ .oracleRemovePrice x.pair) ∧
      step env cl a op = Except.ok (b, o)) s1 s2)
    (hop : op.update = some u) (h3 : step env cl' s2 op = Except.ok (s3, o')) :
    s3.oracle.prices = s2.oracle.prices := by
  have hs1 : Superseded s1.oracle u := by
    have := step_body h1
    simp only [body, bind_ok, pure_ok, Prod.mk.injEq] at this
    obtain ⟨_, hp, rfl, -⟩ := this
    obtain ⟨key, -, -, rfl⟩ := Oracle.push_ok hp
    intro x hx
    obtain ⟨y, hy, hle⟩ := pushes_cover u.prices s.oracle.prices x hx
    exact ⟨y.1, y.2, hy, hle⟩
  have hs2 : Superseded s2.oracle u := by
    clear h3
    induction hist with
    | refl => exact hs1
    | tail _ hs ih =>
      obtain ⟨cl, op, o, hne, hs⟩ := hs
      exact superseded_step hs hne ih
  rcases (body_admin (step_body h3)).oracle with h | ⟨u', hu, hp⟩ | ⟨id, k, he, -⟩ | ⟨id, he, -⟩ | ⟨p', he, -⟩
  · rw [h]
  · rw [hop] at hu; cases hu
    obtain ⟨key, -, -, he⟩ := Oracle.push_ok hp
    rw [he]
    exact pushes_noop _ _ (fun x hx => by
      obtain ⟨q, t, a, b⟩ := hs2 x hx; exact ⟨(q, t), a, b⟩)
  · subst he; cases hop
  · subst he; cases hop
  · subst he; cases hop

/-! ## C15 -/

theorem mergeFeed_get (f : AMap PairId Int) (e : Res × CollateralConfig) (p : PairId) (a : Int)
    (h : f.get p = some a) : ∃ b, (mergeFeed f e).get p = some b ∧ b ≤ a := by
  unfold mergeFeed
  split
  · rename_i age hage
    split
    · rename_i hlt
      by_cases ep : e.2.pairId = p
      · subst ep; rw [h] at hage; cases hage
        exact ⟨_, by simp, le_of_lt hlt⟩
      · exact ⟨a, by rw [AMap.get_set_ne _ _ ep]; exact h, le_refl _⟩
    · exact ⟨a, h, le_refl _⟩
  · rename_i hage
    by_cases ep : e.2.pairId = p
    · subst ep; rw [h] at hage; cases hage
    · exact ⟨a, by rw [AMap.get_set_ne _ _ ep]; exact h, le_refl _⟩

theorem mergeFeed_covers (f : AMap PairId Int) (e : Res × CollateralConfig) :
    ∃ b, (mergeFeed f e).get e.2.pairId = some b ∧ b ≤ e.2.priceAgeMax := by
  unfold mergeFeed
  split
  · rename_i age hage
    split
    · exact ⟨_, by simp, le_refl _⟩
    · exact ⟨age, hage, by omega⟩
  · exact ⟨_, by simp, le_refl _⟩

theorem mergeFeedsL_get (l : List (Res × CollateralConfig)) : ∀ (f : AMap PairId Int) (p : PairId) (a : Int),
    f.get p = some a → ∃ b, (l.foldl mergeFeed f).get p = some b ∧ b ≤ a := by
  induction l with
  | nil => intro f p a h; exact ⟨a, h, le_refl _⟩
  | cons e l ih =>
    intro f p a h
    obtain ⟨b, hb, hle⟩ := mergeFeed_get f e p a h
    obtain ⟨c, hc, hle'⟩ := ih _ p b hb
    exact ⟨c, hc, le_trans hle' hle⟩

theorem mergeFeedsL_covers (l : List (Res × CollateralConfig)) : ∀ (f : AMap PairId Int), ∀ e ∈ l,
    ∃ b, (l.foldl mergeFeed f).get e.2.pairId = some b ∧ b ≤ e.2.priceAgeMax := by
  induction l with
  | nil => intro f e he; cases he
  | cons x l ih =>
    intro f e he
    rcases List.mem_cons.mp he with rfl | he
    · obtain ⟨b, hb, hle⟩ := mergeFeed_covers f e
      obtain ⟨c, hc, hle'⟩ := mergeFeedsL_get l _ _ b hb
      exact ⟨c, hc, le_trans hle' hle⟩
    · exact ih _ e he

/-- A stored price that may be used now for a pair with the given maximum age, under the current
configuration: it is positive and younger than the age of the pair (if given) and of every collateral
configured with this feed. -/
structure Usable (s : State) (prices : AMap PairId (Dec × Int)) (age : Option Int) (p : PairId) (x : Dec) :
    Prop where
  pos : 0 < x
  stored : ∃ t, prices.get p = some (x, t) ∧ (∀ a, age = some a → s.now - t < a) ∧
    ∀ r cc, s.config.collaterals.get r = some cc → cc.pairId = p → s.now - t < cc.priceAgeMax

/-- `VirtualOracle::new`: what is in it. -/
theorem VOracle.new_ok {env : Env} {now : Int} {o o' : Oracle} {colls : AMap Res CollateralConfig}
    {pf : AMap PairId Int} {u : Option PriceUpdate} {v : VOracle}
    (h : VOracle.new env now o colls pf u = Except.ok (o', v)) :
    v.resMap = colls.mapV (fun _ c => c.pairId) ∧
    (∀ p, (∃ a, pf.get p = some a) ∨ (∃ r cc, colls.get r = some cc ∧ cc.pairId = p) →
      ∃ x, v.prices.get p = some x) ∧
    (∀ p x, v.prices.get p = some x → 0 < x ∧ ∃ t, o'.prices.get p = some (x, t) ∧
      (∀ a, pf.get p = some a → now - t < a) ∧
      ∀ r cc, colls.get r = some cc → cc.pairId = p → now - t < cc.priceAgeMax) := by
  simp only [VOracle.new, bind_ok, pure_ok, Prod.mk.injEq] at h
  obtain ⟨o1, ho, raw, hraw, prices, hp, rfl, rfl⟩ := h
  refine ⟨rfl, ?_, ?_⟩
  · intro p hpf
    have hk : p ∈ (mergeFeeds pf colls).keys := by
      rw [AMap.mem_keys]
      rcases hpf with ⟨a, ha⟩ | ⟨r, cc, hc, rfl⟩
      · obtain ⟨b, hb, -⟩ := mergeFeedsL_get colls.entries pf p a ha
        unfold mergeFeeds; rw [hb]; simp
      · obtain ⟨b, hb, -⟩ := mergeFeedsL_covers colls.entries pf (r, cc) (AMap.get_eq_some.mp hc)
        unfold mergeFeeds; simp only at hb; rw [hb]; simp
    obtain ⟨x, -, hx⟩ := (AMap.buildM_ok hp).1 p hk
    exact ⟨x, hx⟩
  · intro p x hx
    obtain ⟨hk, hcp⟩ := AMap.buildM_get hp hx
    simp only [checkPrice, bind_ok, pure_ok, expect_ok, require_ok, decide_eq_true_eq, addSeconds_ok] at hcp
    obtain ⟨⟨x', t⟩, hr, age, hage, _, ⟨-, rfl⟩, -, ht, -, h0, rfl⟩ := hcp
    obtain ⟨-, hst⟩ := AMap.buildM_get hraw hr
    simp only [expect_ok] at hst
    refine ⟨h0, t, hst, ?_, ?_⟩
    · intro a ha
      obtain ⟨b, hb, hle⟩ := mergeFeedsL_get colls.entries pf p a ha
      have : (mergeFeeds pf colls).get p = some b := hb
      rw [this] at hage; cases hage
      simp only at ht; omega
    · rintro r cc hc rfl
      obtain ⟨b, hb, hle⟩ := mergeFeedsL_covers colls.entries pf (r, cc) (AMap.get_eq_some.mp hc)
      have : (mergeFeeds pf colls).get cc.pairId = some b := hb
      rw [this] at hage; cases hage
      simp only at ht hle; omega

/-- The effective maximum price age of a pair. -/
def State.pairAge (s : State) (p : PairId) : Option Int :=
  (s.config.pairs.get p).map (fun c => (c.priceAgeMax : Int))

theorem pairFeeds_get {cfg : VConfig} {ids : List PairId} {f : AMap PairId Int}
    (h : pairFeeds cfg ids = Except.ok f) (p : PairId) (hp : p ∈ ids) :
    ∃ pc, cfg.pairs.get p = some pc ∧ f.get p = some pc.priceAgeMax := by
  obtain ⟨v, hv, hg⟩ := (AMap.buildM_ok h).1 p hp
  simp only [bind_ok, pure_ok, VConfig.pair_ok] at hv
  obtain ⟨pc, hpc, rfl⟩ := hv
  exact ⟨pc, hpc, hg⟩

theorem VConfig.new_ok {c : Config} {ids : List PairId} {v : VConfig}
    (h : VConfig.new c ids = Except.ok v) :
    v.ex = c.exchange.decompress ∧ v.colls = c.collaterals.mapV (fun _ x => x.decompress) ∧
    (∀ p ∈ ids, ∃ x, c.pairs.get p = some x ∧ v.pairs.get p = some x.decompress) ∧
    (∀ p pc, v.pairs.get p = some pc → p ∈ ids ∧ ∃ x, c.pairs.get p = some x ∧ pc = x.decompress) := by
  simp only [VConfig.new, bind_ok, pure_ok] at h
  obtain ⟨m, hm, rfl⟩ := h
  refine ⟨rfl, rfl, ?_, ?_⟩
  · intro p hp
    obtain ⟨pc, hpc, hg⟩ := (AMap.buildM_ok hm).1 p hp
    simp only [Config.pair, bind_ok, pure_ok, expect_ok] at hpc
    obtain ⟨x, hx, rfl⟩ := hpc
    exact ⟨x, hx, hg⟩
  · intro p pc hg
    obtain ⟨hp, hpc⟩ := AMap.buildM_get hm hg
    simp only [Config.pair, bind_ok, pure_ok, expect_ok] at hpc
    obtain ⟨x, hx, rfl⟩ := hpc
    exact ⟨hp, x, hx, rfl⟩

/-- What a keeper call works with: every price in its price table is usable, and the table contains every
pair it loads and every collateral feed. -/
theorem keeperLoad_prices {env : Env} {s s1 : State} {ids : List PairId} {u : Option PriceUpdate} {c : Ctx}
    {pool : VPool} (h : keeperLoad env s ids u = Except.ok (s1, c, pool)) :
    (∀ p x, c.orc.prices.get p = some x → Usable s s1.oracle.prices none p x) ∧
    (∀ p ∈ ids, ∃ x, c.orc.prices.get p = some x ∧ (s.pairAge p).isSome ∧
      Usable s s1.oracle.prices (s.pairAge p) p x) ∧
    (∀ r cc, s.config.collaterals.get r = some cc →
      ∃ x, c.orc.priceResource r = Except.ok x ∧ c.orc.prices.get cc.pairId = some x) := by
  obtain ⟨-, -, hcfg, -, ⟨feeds, hf, ho⟩, -, -⟩ := keeperLoad_ok h
  obtain ⟨hres, hdom, hval⟩ := VOracle.new_ok ho
  obtain ⟨-, hcolls, hpairs, -⟩ := VConfig.new_ok hcfg
  have hcc : ∀ r cc, s.config.collaterals.get r = some cc →
      c.cfg.colls.get r = some cc.decompress := by
    intro r cc hr; rw [hcolls, AMap.get_mapV, hr]; rfl
  refine ⟨?_, ?_, ?_⟩
  · intro p x hx
    obtain ⟨h0, t, ht, -, h2⟩ := hval p x hx
    exact ⟨h0, t, ht, by simp, fun r cc hr hp => h2 r _ (hcc r cc hr) hp⟩
  · intro p hp
    obtain ⟨pc, hpc, hg⟩ := pairFeeds_get hf p hp
    obtain ⟨x, hx⟩ := hdom p (.inl ⟨_, hg⟩)
    obtain ⟨xc, hxc, hxc'⟩ := hpairs p hp
    rw [hpc] at hxc'; cases hxc'
    obtain ⟨h0, t, ht, h1, h2⟩ := hval p x hx
    have e : s.pairAge p = some (xc.priceAgeMax : Int) := by simp [State.pairAge, hxc]
    refine ⟨x, hx, by simp [e], h0, t, ht, ?_, fun r cc hr hp => h2 r _ (hcc r cc hr) hp⟩
    intro a ha
    rw [e] at ha; cases ha
    exact h1 _ hg
  · intro r cc hr
    obtain ⟨x, hx⟩ := hdom cc.pairId (.inr ⟨r, _, hcc r cc hr, rfl⟩)
    refine ⟨x, ?_, hx⟩
    simp only [VOracle.priceResource, bind_ok, expect_ok, VOracle.price_ok, hres, AMap.get_mapV,
      hcc r cc hr]
    exact ⟨_, rfl, hx⟩

/-- The pairs whose price a keeper call depends on: the pairs it names, the pairs in which the account has
positions, the pair of the order it processes. -/
def Op.needsPair (s : State) : Op → PairId → Prop
  | .processRequest a i _, p => ∃ acc kr, s.accounts.get a = some acc ∧ acc.requests[i]? = some kr ∧
      s.now < kr.expiry ∧ (acc.positions.has p = true ∨ ∃ q, kr.request = .marginOrder q ∧ q.pair = p)
  | .liquidate a _ _, p => ∃ acc, s.accounts.get a = some acc ∧ acc.positions.has p = true
  | .autoDeleverage a p' _, p => p = p' ∨ ∃ acc, s.accounts.get a = some acc ∧ acc.positions.has p = true
  | .updatePairs ids _, p => p ∈ ids
  | _, _ => False

/-- Does a keeper call value collateral (all but an expired request do load every collateral feed)? -/
def Op.needsFeeds (s : State) : Op → Prop
  | .processRequest a i _ => ∃ acc kr, s.accounts.get a = some acc ∧ acc.requests[i]? = some kr ∧
      s.now < kr.expiry
  | .liquidate .. | .autoDeleverage .. | .updatePairs .. | .swapDebt .. => True
  | _ => False

theorem processRequest_virtual_ok {v v1 : VAccount} {now : Int} {i : Nat} {r : Request} {e : Bool}
    (h : v.processRequest now i = Except.ok (v1, r, e)) :
    ∃ kr st, v.validStart ≤ i ∧ v.keeperRequest i = Except.ok kr ∧
      processStatus now kr = Except.ok st ∧ kr.submission < now ∧ 0 < v.activeLen ∧
      v1 = { v with activeLen := v.activeLen - 1, activeRemovals := v.activeRemovals ++ [i]
                    requestUpdates := v.requestUpdates.set i { kr with status := st } } ∧
      r = kr.request ∧ e = decide (now ≥ kr.expiry) := by
  simp only [VAccount.processRequest, bind_ok, pure_ok, require_ok, decide_eq_true_eq, Prod.mk.injEq] at h
  obtain ⟨-, h1, kr, hk, st, hst, -, h2, v2, h3, rfl, rfl, rfl⟩ := h
  obtain ⟨h0, rfl⟩ := removeActive_ok h3
  exact ⟨kr, st, h1, hk, hst, h2, h0, rfl, rfl, rfl⟩

theorem mem_insertId {ids : List PairId} {p q : PairId} : q ∈ insertId ids p ↔ q = p ∨ q ∈ ids := by
  unfold insertId
  split
  · rename_i h
    constructor
    · exact .inr
    · rintro (rfl | h') <;> assumption
  · simp [or_comm]

theorem keeperRequest_load {s : State} {a : Addr} {v : VAccount} (hv : s.load a = Except.ok v) {i : Nat}
    {kr : KeeperRequest} (h : v.keeperRequest i = Except.ok kr) :
    ∃ acc, s.accounts.get a = some acc ∧ acc.requests[i]? = some kr := by
  obtain ⟨acc, rd, ha, -, rfl⟩ := load_ok hv
  simp only [VAccount.keeperRequest, AMap.get_empty, expect_ok] at h
  exact ⟨acc, ha, h⟩

/-- The common part: which table a keeper call used. -/
theorem keeper_table {env : Env} {cl : Caller} {s s' : State} {op : Op} {o : Out}
    (h : step env cl s op = Except.ok (s', o)) (hn : op.needsFeeds s) :
    ∃ s1 c pool ids u, keeperLoad env s ids u = Except.ok (s1, c, pool) ∧ s'.oracle = s1.oracle ∧
      (∀ p, op.needsPair s p → p ∈ ids) ∧
      (∀ e, o.ev = .order e → c.orc.prices.get e.pair = some e.price ∧ e.pair ∈ ids) ∧
      (∀ e, o.ev = .adl e → c.orc.prices.get e.pair = some e.price ∧ e.pair ∈ ids) := by
  have hb := step_body h
  cases op with
  | processRequest a i u =>
    obtain ⟨v, v1, r, expired, cfg, hv, hpr, -, -, -, h⟩ := processRequest_ok hb
    obtain ⟨kr, st, -, hk, -, -, -, hv1, rfl, he⟩ := processRequest_virtual_ok hpr
    obtain ⟨acc', ha', hr'⟩ := keeperRequest_load hv hk
    obtain ⟨accN, krN, haN, hrN, hN⟩ := hn
    rw [ha'] at haN; cases haN
    rw [hr'] at hrN; cases hrN
    rcases h with ⟨hx, -⟩ | ⟨-, s1, c, w, out, acc, refs, hk', hx, hr, rfl, rfl⟩
    · rw [he] at hx; simp at hx; omega
    · refine ⟨s1, c, _, _, u, hk', rfl, ?_, ?_, ?_⟩
      · rintro p ⟨acc2, kr2, h1, h2, -, h4⟩
        rw [ha'] at h1; cases h1
        rw [hr'] at h2; cases h2
        have hpos : v1.positionIds = acc'.positions.keys := by
          obtain ⟨_, _, hh, -, rfl⟩ := load_ok hv
          rw [ha'] at hh; cases hh
          rw [hv1]; rfl
        unfold requestPairs
        rw [hpos]
        rcases h4 with h4 | ⟨q, hq, rfl⟩
        · have : p ∈ acc'.positions.keys := by rw [AMap.mem_keys]; simpa [AMap.has_iff] using h4
          split
          · exact mem_insertId.mpr (.inr this)
          · exact this
        · rw [hq]; exact mem_insertId.mpr (.inl rfl)
      · rintro e he'
        rcases executeRequest_ok hx with ⟨q, t, -, -, rfl⟩ | ⟨q, e', hq, hm, rfl⟩
        · simp at he'
        · simp only [Ev.order.injEq] at he'
          subst he'
          obtain ⟨price, pool, b, w1, funding, close, op, w2, pnl, fee, ok, w3, fees, a1, a2, hp, -, -, -,
            -, -, -, -, -, -, -, -, -, rfl⟩ := marginOrder_ok hm
          refine ⟨hp, ?_⟩
          rw [hq]; exact mem_insertId.mpr (.inl rfl)
      · rintro e he'
        rcases executeRequest_ok hx with ⟨q, t, -, -, rfl⟩ | ⟨q, e', hq, hm, rfl⟩
        · simp at he'
        · simp at he'
  | swapDebt a r p u =>
    obtain ⟨v, s1, c, w, token, rest, e, acc, refs, -, hv, hk, hx, hr, rfl, rfl⟩ := opSwapDebt_ok hb
    exact ⟨s1, c, _, _, u, hk, rfl, by rintro p ⟨⟩, by simp, by simp⟩
  | liquidate a p u =>
    obtain ⟨v, s1, c, w, tokens, e, acc, refs, -, hv, hk, hx, hr, -, rfl, rfl⟩ := opLiquidate_ok hb
    refine ⟨s1, c, _, _, u, hk, rfl, ?_, by simp, by simp⟩
    rintro p ⟨acc', h1, h2⟩
    obtain ⟨_, _, hh, -, rfl⟩ := load_ok hv
    rw [hh] at h1; cases h1
    show p ∈ AMap.keys _
    rw [AMap.mem_keys]; simpa [AMap.has_iff] using h2
  | autoDeleverage a p u =>
    obtain ⟨v, s1, c, w, e, acc, refs, hv, hk, hx, hr, -, rfl, rfl⟩ := opAutoDeleverage_ok hb
    refine ⟨s1, c, _, _, u, hk, rfl, ?_, by simp, ?_⟩
    · rintro p' (rfl | ⟨acc', h1, h2⟩)
      · exact mem_insertId.mpr (.inl rfl)
      · obtain ⟨_, _, hh, -, rfl⟩ := load_ok hv
        rw [hh] at h1; cases h1
        refine mem_insertId.mpr (.inr ?_)
        show p' ∈ AMap.keys _
        rw [AMap.mem_keys]; simpa [AMap.has_iff] using h2
    · intro e' he'
      simp only [Ev.adl.injEq] at he'
      subst he'
      obtain ⟨pool, b, w1, funding, ratio0, price, pct, thr, w2, pnl, fee, fees, ratio1, -, -, -, -, hp,
        -, -, -, -, -, -, -, -, -, rfl⟩ := autoDeleverage_ok hx
      exact ⟨hp, mem_insertId.mpr (.inl rfl)⟩
  | updatePairs ids u =>
    obtain ⟨s1, c, pool, flags, n, hk, hx, -, rfl, rfl⟩ := opUpdatePairs_ok hb
    refine ⟨s1, c, _, _, u, hk, rfl, ?_, by simp, by simp⟩
    intro p hp
    exact List.mem_dedup.mpr hp
  | _ => exact absurd hn (by simp [Op.needsFeeds])

/-- **C15, pairs.** After a successful keeper call (other than one that finds the request expired), every
pair it depends on has a configured maximum age, and its stored price is positive and younger than that
age and than the age of every collateral priced with the same feed. -/
theorem c15_pair_prices {env : Env} {cl : Caller} {s s' : State} {op : Op} {o : Out} {p : PairId}
    (h : step env cl s op = Except.ok (s', o)) (hn : op.needsFeeds s) (hp : op.needsPair s p) :
    ∃ x, (s.pairAge p).isSome ∧ Usable s s'.oracle.prices (s.pairAge p) p x := by
  obtain ⟨s1, c, pool, ids, u, hk, ho, hids, -, -⟩ := keeper_table h hn
  obtain ⟨x, -, ha, hu⟩ := (keeperLoad_prices hk).2.1 p (hids p hp)
  rw [ho]
  exact ⟨x, ha, hu⟩

/-- **C15, collateral.** The same for the feed of every configured collateral. -/
theorem c15_collateral_prices {env : Env} {cl : Caller} {s s' : State} {op : Op} {o : Out} {r : Res}
    {cc : CollateralConfigC} (h : step env cl s op = Except.ok (s', o)) (hn : op.needsFeeds s)
    (hr : s.config.collaterals.get r = some cc) :
    ∃ x, Usable s s'.oracle.prices (some cc.priceAgeMax) cc.pairId x := by
  obtain ⟨s1, c, pool, ids, u, hk, ho, -, -, -⟩ := keeper_table h hn
  obtain ⟨x, -, hx⟩ := (keeperLoad_prices hk).2.2 r cc hr
  obtain ⟨h0, t, ht, -, h2⟩ := (keeperLoad_prices hk).1 _ x hx
  rw [ho]
  exact ⟨x, h0, t, ht, fun a ha => by cases ha; exact h2 r cc hr rfl, h2⟩

/-- **C15, reported price.** The price reported by an executed order or auto-deleverage is the price stored
in the oracle, which is usable in the above sense. -/
theorem c15_reported_price {env : Env} {cl : Caller} {s s' : State} {op : Op} {o : Out} {p : PairId} {x : Dec}
    (h : step env cl s op = Except.ok (s', o)) (hn : op.needsFeeds s)
    (he : (∃ e, o.ev = .order e ∧ e.pair = p ∧ e.price = x) ∨ ∃ e, o.ev = .adl e ∧ e.pair = p ∧ e.price = x) :
    (s.pairAge p).isSome ∧ Usable s s'.oracle.prices (s.pairAge p) p x := by
  obtain ⟨s1, c, pool, ids, u, hk, ho, -, h1, h2⟩ := keeper_table h hn
  have : c.orc.prices.get p = some x ∧ p ∈ ids := by
    rcases he with ⟨e, he, rfl, rfl⟩ | ⟨e, he, rfl, rfl⟩
    · exact h1 e he
    · exact h2 e he
  obtain ⟨y, hy, ha, hu⟩ := (keeperLoad_prices hk).2.1 p this.2
  rw [this.1] at hy; cases hy
  rw [ho]
  exact ⟨ha, hu⟩

end Perp
