import Verif.BindingAll
import Mathlib.Algebra.BigOperators.Group.List.Basic

/-!
# C72: bringing the books up to date first changes no decision

`update_pairs` may be called by anyone at any time. If it is called, in the same second, on pairs that a keeper call would have
brought up to date anyway, the keeper call has afterwards exactly the reasons to be refused that it had before.
-/

namespace Perp

/-- A pair is brought up to date in one way only, whatever else is. -/
theorem Refreshed.pair_unique {s a b : State} {u : Option PriceUpdate} {ia ib : List PairId} (ha : s.Refreshed a u ia)
    (hb : s.Refreshed b u ib) {p : PairId} (pa : p ∈ ia) (pb : p ∈ ib) {x y : Dec} (h1 : PairBrought s a p x)
    (h2 : PairBrought s b p y) : a.pool.position s.now p = b.pool.position s.now p ∧ x = y := by
  have na : a.now = s.now := by rw [ha.same]
  have nb : b.now = s.now := by rw [hb.same]
  have hprice : a.market.price = b.market.price := by
    funext p; simp only [State.market, ha.prices, hb.prices]
  have hf : (a.pool.position s.now p).fundingLongIndex = (b.pool.position s.now p).fundingLongIndex ∧
      (a.pool.position s.now p).fundingShortIndex = (b.pool.position s.now p).fundingShortIndex ∧
      (a.pool.position s.now p).funding2Rate = (b.pool.position s.now p).funding2Rate ∧ x = y := by
    by_cases hl : (s.pool.position s.now p).lastUpdate = s.now
    · obtain ⟨x1, x2, x3, x4⟩ := h1.still hl
      obtain ⟨y1, y2, y3, y4⟩ := h2.still hl
      rw [na] at x1 x2 x3
      rw [nb] at y1 y2 y3
      rw [x1, x2, x3, x4, y1, y2, y3, y4]; exact ⟨rfl, rfl, rfl, rfl⟩
    · have x := (h1.moved hl).2
      have y := (h2.moved hl).2
      rw [na, hprice] at x
      rw [nb] at y
      obtain ⟨z1, z2, z3, z4⟩ := x.unique y
      exact ⟨z2, z3, z1, z4⟩
  refine ⟨?_, hf.2.2.2⟩
  obtain ⟨a1, a2, a3⟩ := ha.sizes p
  obtain ⟨b1, b2, b3⟩ := hb.sizes p
  have a4 := ha.marked p pa
  have b4 := hb.marked p pb
  have a5 := h1.stamped
  have b5 := h2.stamped
  rw [na] at a5
  rw [nb] at b5
  rw [← hprice] at b4 b5
  obtain ⟨a6, a7⟩ := a4
  obtain ⟨b6, b7⟩ := b4
  rw [a1, a2] at a6
  rw [b1, b2] at b6
  rw [a1, a2, a3] at a7
  rw [b1, b2, b3] at b7
  obtain ⟨f1, f2, f3, -⟩ := hf
  rw [PoolPosition.mk.injEq]
  exact ⟨by rw [a1, b1], by rw [a2, b2], by rw [a3, b3], by rw [a6, b6], by rw [a7, b7], f3, f1, f2, by rw [a5.1, b5.1],
    by rw [a5.2, b5.2]⟩

theorem sum_part {l l' : List PairId} (hn : l.Nodup) (hn' : l'.Nodup) (hs : ∀ p ∈ l', p ∈ l) (f : PairId → Int) :
    (l.map f).sum = (l'.map f).sum + (l.map (fun p => if p ∈ l' then 0 else f p)).sum := by
  have h1 : ∀ (l : List PairId), (l.map f).sum =
      (l.map (fun p => if p ∈ l' then f p else 0)).sum + (l.map (fun p => if p ∈ l' then 0 else f p)).sum := by
    intro l
    induction l with
    | nil => rfl
    | cons a l ih => simp only [List.map_cons, List.sum_cons, ih]; split <;> ring
  rw [h1 l]
  congr 1
  have h2 : ∀ (l : List PairId), (l.map (fun p => if p ∈ l' then f p else 0)).sum = ((l.filter (· ∈ l')).map f).sum := by
    intro l
    induction l with
    | nil => rfl
    | cons a l ih =>
      by_cases h : a ∈ l'
      · simp [h, ih]
      · simp [h, ih]
  rw [h2 l]
  refine List.Perm.sum_eq (List.Perm.map f ?_)
  refine (List.perm_ext_iff_of_nodup (hn.filter _) hn').mpr (fun p => ?_)
  rw [List.mem_filter, decide_eq_true_eq]
  exact ⟨fun h => h.2, fun h => ⟨hs p h, h⟩⟩

/-- Only the number of reward tokens differs. -/
def State.rewardsAs (s : State) (n : Dec) : State := { s with rewardSupply := n }

/-- **Specification.** `m` is `s` after a round of upkeep of the pairs `ids` with the prices of `u`, in the same second: what
`State.Refreshed` says, and reward tokens may have been minted. -/
def State.Upkept (s m : State) (u : Option PriceUpdate) (ids : List PairId) : Prop :=
  s.Refreshed (m.rewardsAs s.rewardSupply) u ids

/-- What is up to date after part of the pairs was brought up to date first, is what is up to date at once. -/
theorem State.Upkept.cut {env : Env} {s m b : State} {u : Option PriceUpdate} {ids ids' : List PairId} (hr : Reach env s)
    (hm : s.Upkept m u ids') (hn : ids.Nodup) (hn' : ids'.Nodup) (hs : ∀ p ∈ ids', p ∈ ids) (hb : s.Refreshed b u ids) :
    m.Refreshed (b.rewardsAs m.rewardSupply) none ids := by
  have em := hm.same
  have nm : m.now = s.now := by have := congrArg State.now em; exact this
  have nb : b.now = s.now := by rw [hb.same]
  have mc : m.config = s.config := by have := congrArg State.config em; exact this
  obtain ⟨dm, hdm, hum⟩ := hm.pairs
  obtain ⟨db, hdb, hub⟩ := hb.pairs
  have hmr := hm.rest
  have hms := hm.sizes
  change ∀ p, p ∉ ids' → m.pool.position s.now p = s.pool.position s.now p at hmr
  change m.pool.unrealizedFunding = _ at hum
  have key : ∀ p ∈ ids', m.pool.position s.now p = b.pool.position s.now p ∧ dm p = db p := by
    intro p hp
    exact Refreshed.pair_unique hm hb hp (hs p hp) (hdm p hp) (hdb p (hs p hp))
  refine ⟨?_, ?_, ⟨fun p => if p ∈ ids' then 0 else db p, fun p hp => ?_, ?_⟩, fun p hp => ?_, fun p => ?_, fun p hp => ?_,
    ⟨?_, ?_⟩, hb.snaps⟩
  · rw [hb.same]
    have e2 : m = ({ s with oracle := m.oracle, pool := m.pool } : State).rewardsAs m.rewardSupply := by
      conv_lhs => rw [show m = (m.rewardsAs s.rewardSupply).rewardsAs m.rewardSupply from rfl, em]
      rfl
    conv_rhs => rw [e2]
    rfl
  · change b.oracle.prices = m.oracle.prices
    rw [hb.prices]
    exact hm.prices.symm
  · have hd := hdb p hp
    by_cases hi : p ∈ ids'
    · simp only [if_pos hi]
      have hk := (key p hi).1
      have hst := (hdm p hi).stamped
      change (m.pool.position m.now p).lastUpdate = m.now ∧ _ at hst
      have hst := hst.1
      refine ⟨hd.price, hd.stamped, fun _ => ?_, fun h => absurd hst h, ?_, ?_⟩
      · change (b.pool.position b.now p).fundingLongIndex = _ ∧ (b.pool.position b.now p).fundingShortIndex = _ ∧
          (b.pool.position b.now p).funding2Rate = _ ∧ _
        rw [nb, nm, hk]; exact ⟨rfl, rfl, rfl, rfl⟩
      · rw [mc]; exact hd.pair
      · change |ONE * 0 - ((m.pool.position m.now p).oiLong * ((b.pool.position b.now p).fundingLongIndex - _) +
          _ * ((b.pool.position b.now p).fundingShortIndex - _))| ≤ _
        obtain ⟨z1, z2, -⟩ := hms p
        have ho := reach_oi_nonneg hr s.now p
        change (m.pool.position s.now p).oiLong = _ at z1
        change (m.pool.position s.now p).oiShort = _ at z2
        rw [nb, nm, ← hk, z1, z2]
        simp only [sub_self, mul_zero, add_zero, abs_zero]
        have := ho.1
        have := ho.2
        omega
    · simp only [if_neg hi]
      have hp2 := hmr p hi
      have hpair : m.market.pair p = s.market.pair p := by simp only [State.market, mc]
      refine ⟨hd.price, hd.stamped, fun h => ?_, fun h => ?_, ?_, ?_⟩
      · rw [nm, hp2] at h ⊢; exact hd.still h
      · rw [nm, hp2] at h ⊢; rw [hpair]; exact hd.moved h
      · rw [mc]; exact hd.pair
      · rw [nm, hp2]; exact hd.close
  · change b.pool.unrealizedFunding = _
    rw [hub, hum, sum_part hn hn' hs db]
    have : (ids'.map dm) = ids'.map db := List.map_congr_left (fun p hp => (key p hp).2)
    rw [this]; ring
  · rw [nm]; exact hb.marked p hp
  · rw [nm]
    obtain ⟨z1, z2, z3⟩ := hms p
    obtain ⟨y1, y2, y3⟩ := hb.sizes p
    exact ⟨y1.trans z1.symm, y2.trans z2.symm, y3.trans z3.symm⟩
  · rw [nm, hmr p (fun h => hp (hs p h))]; exact hb.rest p hp
  · exact hb.tokens.1.trans hm.tokens.1.symm
  · exact hb.tokens.2.trans hm.tokens.2.symm

/-- Bringing up to date in two rounds, in the same second, is bringing up to date at once. -/
theorem State.Upkept.trans {env : Env} {s m b : State} {u : Option PriceUpdate} {ids ids' : List PairId} (hr : Reach env s)
    (hm : s.Upkept m u ids') (hn : ids.Nodup) (hn' : ids'.Nodup) (hs : ∀ p ∈ ids', p ∈ ids) (hb : m.Refreshed b none ids) :
    s.Refreshed (b.rewardsAs s.rewardSupply) u ids := by
  have em := hm.same
  have nm : m.now = s.now := by have := congrArg State.now em; exact this
  have nb : b.now = s.now := by rw [hb.same]; exact nm
  have mc : m.config = s.config := by have := congrArg State.config em; exact this
  obtain ⟨dm, hdm, hum⟩ := hm.pairs
  obtain ⟨db, hdb, hub⟩ := hb.pairs
  have hmr := hm.rest
  have hms := hm.sizes
  change ∀ p, p ∉ ids' → m.pool.position s.now p = s.pool.position s.now p at hmr
  change m.pool.unrealizedFunding = _ at hum
  have hprices : b.oracle.prices = m.oracle.prices := hb.prices
  have hprice : b.market.price = m.market.price := by funext p; simp only [State.market, hprices]
  have hpp : ∀ p, (s.pool.position s.now p).oiLong = (m.pool.position s.now p).oiLong ∧
      (s.pool.position s.now p).oiShort = (m.pool.position s.now p).oiShort := fun p => ⟨(hms p).1.symm, (hms p).2.1.symm⟩
  -- a pair that was up to date stays as it is
  have key : ∀ p ∈ ids', (b.pool.position s.now p).fundingData = (m.pool.position s.now p).fundingData ∧ db p = 0 := by
    intro p hp
    have h1 := hdb p (hs p hp)
    have h2 := (hdm p hp).stamped
    change (m.pool.position m.now p).lastUpdate = m.now ∧ (m.pool.position m.now p).lastPrice = m.market.price p at h2
    obtain ⟨x1, x2, x3, x4⟩ := h1.still h2.1
    have h3 := h1.stamped
    rw [nb] at x1 x2 x3 h3
    rw [nm] at x1 x2 x3 h2
    refine ⟨?_, x4⟩
    simp only [PoolPosition.fundingData, Prod.mk.injEq]
    exact ⟨x1, x2, x3, by rw [h3.2, h2.2, hprice], by rw [h3.1, h2.1]⟩
  refine ⟨?_, ?_, ⟨fun p => if p ∈ ids' then dm p else db p, fun p hp => ?_, ?_⟩, fun p hp => ?_, fun p => ?_, fun p hp => ?_,
    ⟨?_, ?_⟩, hb.snaps⟩
  · have e2 : m = ({ s with oracle := m.oracle, pool := m.pool } : State).rewardsAs m.rewardSupply := by
      conv_lhs => rw [show m = (m.rewardsAs s.rewardSupply).rewardsAs m.rewardSupply from rfl, em]
      rfl
    rw [hb.same, e2]
    rfl
  · change b.oracle.prices = _
    rw [hprices]; exact hm.prices
  · have hd := hdb p hp
    by_cases hi : p ∈ ids'
    · simp only [if_pos hi]
      obtain ⟨hk, -⟩ := key p hi
      simp only [PoolPosition.fundingData, Prod.mk.injEq] at hk
      obtain ⟨k1, k2, k3, k4, k5⟩ := hk
      have hd' := hdm p hi
      have hst := hd.stamped
      refine ⟨hd.price, hst, fun h => ?_, fun h => ?_, hd'.pair, ?_⟩
      · have := hd'.still h
        change (m.pool.position m.now p).fundingLongIndex = _ ∧ (m.pool.position m.now p).fundingShortIndex = _ ∧
          (m.pool.position m.now p).funding2Rate = _ ∧ _ at this
        change (b.pool.position b.now p).fundingLongIndex = _ ∧ (b.pool.position b.now p).fundingShortIndex = _ ∧
          (b.pool.position b.now p).funding2Rate = _ ∧ _
        rw [nm] at this
        rw [nb, k1, k2, k3]; exact this
      · obtain ⟨y1, y2⟩ := hd'.moved h
        change FundingMove (s.market.pair p) _ (m.market.price p) _ (m.pool.position m.now p) _ at y2
        change _ ∧ FundingMove (s.market.pair p) _ (b.market.price p) _ (b.pool.position b.now p) _
        rw [nm] at y2
        rw [nb, hprice]
        refine ⟨y1, y2.congr ?_⟩
        simp only [PoolPosition.fundingData, Prod.mk.injEq]
        exact ⟨k1, k2, k3, k4, k5⟩
      · have := hd'.close
        change |ONE * dm p - (_ * ((m.pool.position m.now p).fundingLongIndex - _) +
          _ * ((m.pool.position m.now p).fundingShortIndex - _))| ≤ _ at this
        change |ONE * dm p - (_ * ((b.pool.position b.now p).fundingLongIndex - _) +
          _ * ((b.pool.position b.now p).fundingShortIndex - _))| ≤ _
        rw [nm] at this
        rw [nb, k1, k2]; exact this
    · simp only [if_neg hi]
      have hp2 := hmr p hi
      have hpair : m.market.pair p = s.market.pair p := by simp only [State.market, mc]
      refine ⟨hd.price, hd.stamped, fun h => ?_, fun h => ?_, ?_, ?_⟩
      · have h0 := hd.still
        rw [nm, hp2] at h0; exact h0 h
      · have h0 := hd.moved
        rw [nm, hp2, hpair] at h0; exact h0 h
      · rw [← mc]; exact hd.pair
      · have h0 := hd.close
        rw [nm, hp2] at h0; exact h0
  · change b.pool.unrealizedFunding = _
    rw [hub, hum, sum_part hn hn' hs (fun p => if p ∈ ids' then dm p else db p), sum_part hn hn' hs db]
    have e1 : ids'.map (fun p => if p ∈ ids' then dm p else db p) = ids'.map dm :=
      List.map_congr_left (fun p hp => if_pos hp)
    have e2 : (ids'.map db).sum = 0 := by
      rw [List.map_congr_left (g := fun _ => 0) (fun p hp => (key p hp).2)]
      simp
    have e3 : ids.map (fun p => if p ∈ ids' then 0 else if p ∈ ids' then dm p else db p) =
        ids.map (fun p => if p ∈ ids' then 0 else db p) := List.map_congr_left (fun p _ => by split <;> rfl)
    rw [e1, e2, e3]; ring
  · have := hb.marked p hp
    rw [nm] at this; exact this
  · obtain ⟨z1, z2, z3⟩ := hms p
    obtain ⟨y1, y2, y3⟩ := hb.sizes p
    rw [nm] at y1 y2 y3
    exact ⟨y1.trans z1, y2.trans z2, y3.trans z3⟩
  · have := hb.rest p hp
    rw [nm, hmr p (fun h => hp (hs p h))] at this; exact this
  · exact hb.tokens.1.trans hm.tokens.1
  · exact hb.tokens.2.trans hm.tokens.2

/-! ## Upkeep is what `update_pairs` does -/

theorem updatePairsLoop_fold {c : Ctx} : ∀ (l : List PairId) {v v' : VPool} {flags : List Bool},
    updatePairsLoop c v l = Except.ok (v', flags) →
    l.foldlM (fun pool p => do let r ← updatePair c pool p; pure r.1) v = Except.ok v' := by
  intro l
  induction l with
  | nil =>
    intro v v' flags h
    simp only [updatePairsLoop, Except.ok.injEq, Prod.mk.injEq] at h
    simp only [List.foldlM_nil, pure_ok]; exact h.1
  | cons p l ih =>
    intro v v' flags h
    simp only [updatePairsLoop, bind_ok, pure_ok, Prod.mk.injEq] at h
    obtain ⟨⟨v1, b⟩, h1, ⟨v2, bs⟩, h2, rfl, -⟩ := h
    simp only [List.foldlM_cons, bind_ok, pure_ok]
    refine ⟨v1, ⟨⟨v1, b⟩, h1, rfl⟩, ?_⟩
    have := ih h2
    simpa only [bind_ok, pure_ok] using this

theorem updatePairs_upkept {env : Env} {cl : Caller} {s m : State} {ids : List PairId} {u : Option PriceUpdate} {o : Out}
    (hr : Reach env s) (hs : step env cl s (.updatePairs ids u) = Except.ok (m, o)) :
    s.Upkept m u ids.dedup ∧ ¬ PricesRefused env s [] u .badKey ∧ ¬ PricesRefused env s [] u .badSignature := by
  obtain ⟨s1, c, pool, flags, n, hk, hx, -, rfl, -⟩ := opUpdatePairs_ok (step_body hs)
  have h1 := (midway_refreshed hr hk (fun _ h => h) (List.nodup_dedup ids) (updatePairsLoop_fold _ hx)).1
  refine ⟨?_, ?_, ?_⟩
  · have e : (({ s1 with pool := pool.realize, rewardSupply := s.rewardSupply + n } : State).rewardsAs s.rewardSupply) =
        s1.midway pool := by
      obtain ⟨-, -, -, -, -, -, e⟩ := keeperLoad_ok hk
      unfold State.rewardsAs State.midway
      rw [e]
    unfold State.Upkept
    rw [e]; exact h1
  · exact prices_cleared hk .badKey (by decide)
  · exact prices_cleared hk .badSignature (by decide)

/-! ## The reasons to refuse a call -/

section
variable {env : Env} {s m : State} {u : Option PriceUpdate} {ids : List PairId}

theorem State.Upkept.rest_same (h : s.Upkept m u ids) : m.config = s.config ∧ m.now = s.now ∧ m.accounts = s.accounts ∧
    m.referrals = s.referrals ∧ m.lpSupply = s.lpSupply ∧ m.oathSupply = s.oathSupply ∧ m.roles = s.roles ∧
    m.authority = s.authority := by
  have e := h.same
  rw [State.mk.injEq] at e
  obtain ⟨e1, e2, e3, -, -, -, e4, e5, -, e6, -, -, -, -, e7, e8, -, -⟩ := e
  exact ⟨e4, e1, e5, e6, e7, e8, e3, e2⟩

theorem State.Upkept.prices_iff (h : s.Upkept m u ids) (hk : ¬ PricesRefused env s [] u .badKey)
    (hg : ¬ PricesRefused env s [] u .badSignature) (l : List PairId) (e : Err) :
    PricesRefused env s l u e ↔ PricesRefused env m l none e := by
  obtain ⟨hc, hn, -⟩ := h.rest_same
  have hp : m.pricesWith none = s.pricesWith u := h.prices
  have hneed : ∀ p age, s.Needs l p age ↔ m.Needs l p age := by
    intro p age; unfold State.Needs State.pairAge; rw [hc]
  cases e <;> try exact Iff.rfl
  case badKey => exact ⟨fun x => absurd x hk, fun ⟨x, hx, _⟩ => nomatch hx⟩
  case badSignature => exact ⟨fun x => absurd x hg, fun ⟨x, _, hx, _⟩ => nomatch hx⟩
  case missingPair => simp only [PricesRefused, hneed, hp]
  case invalidPrice => simp only [PricesRefused, hneed, hp]
  case priceTooOld => simp only [PricesRefused, hneed, hp, hn]

theorem State.Upkept.decides {l : List PairId} (hr : Reach env s) (h : s.Upkept m u ids) (hn : l.Nodup) (hn' : ids.Nodup)
    (hs : ∀ p ∈ ids, p ∈ l) {φ : State → Prop} (hφ : ∀ b n, φ (b.rewardsAs n) ↔ φ b) :
    (∃ b, s.Refreshed b u l ∧ φ b) ↔ ∃ b, m.Refreshed b none l ∧ φ b := by
  constructor
  · rintro ⟨b, hb, hp⟩
    exact ⟨_, State.Upkept.cut hr h hn hn' hs hb, (hφ _ _).mpr hp⟩
  · rintro ⟨b, hb, hp⟩
    exact ⟨_, State.Upkept.trans hr h hn hn' hs hb, (hφ _ _).mpr hp⟩

theorem State.Upkept.liquidation_iff (hr : Reach env s) (h : s.Upkept m u ids) (hn' : ids.Nodup)
    (hk : ¬ PricesRefused env s [] u .badKey) (hg : ¬ PricesRefused env s [] u .badSignature) {a : Addr} (b : Bucket)
    (hs : ∀ acc, s.accounts.get a = some acc → ∀ p ∈ ids, p ∈ acc.positions.keys) (e : Err) :
    LiquidationRefused env s a b u e ↔ LiquidationRefused env m a b none e := by
  obtain ⟨hc, hn, ha, hrf, hl, ho, -⟩ := h.rest_same
  have hb : okBucket env m b = okBucket env s b := by unfold okBucket; rw [hl, ho]
  have hd : ∀ (φ : Account → State → Prop), (∀ acc b n, φ acc (b.rewardsAs n) ↔ φ acc b) →
      ((∃ acc s1, s.accounts.get a = some acc ∧ s.Refreshed s1 u acc.positions.keys ∧ φ acc s1) ↔
       ∃ acc s1, m.accounts.get a = some acc ∧ m.Refreshed s1 none acc.positions.keys ∧ φ acc s1) := by
    intro φ hφ
    rw [ha]
    constructor
    · rintro ⟨acc, s1, h1, h2⟩
      obtain ⟨s2, h3⟩ := (State.Upkept.decides hr h (AMap.keys_nodup _) hn' (hs acc h1) (hφ acc)).mp ⟨s1, h2⟩
      exact ⟨acc, s2, h1, h3⟩
    · rintro ⟨acc, s1, h1, h2⟩
      obtain ⟨s2, h3⟩ := (State.Upkept.decides hr h (AMap.keys_nodup _) hn' (hs acc h1) (hφ acc)).mpr ⟨s1, h2⟩
      exact ⟨acc, s2, h1, h3⟩
  cases e <;> try simp only [LiquidationRefused, ha, h.prices_iff hk hg, hb]
  case sufficientMargin =>
    have := hd (fun acc s1 => s1.maintenanceMargin acc ≤ s1.accountValue acc) (fun _ _ _ => Iff.rfl)
    rwa [ha] at this
  case insufficientPayment =>
    have := hd (fun acc s1 => b.amt < acc.collateralBalances.sum s1.market.collValue) (fun _ _ _ => Iff.rfl)
    rwa [ha] at this

theorem State.Upkept.adl_iff (hr : Reach env s) (h : s.Upkept m u ids) (hn' : ids.Nodup)
    (hk : ¬ PricesRefused env s [] u .badKey) (hg : ¬ PricesRefused env s [] u .badSignature) {a : Addr} {p : PairId}
    (hs : ∀ q ∈ ids, q = p) (e : Err) :
    AdlRefused env s a p u e ↔ AdlRefused env m a p none e := by
  obtain ⟨hc, hn, ha, hrf, hl, ho, -⟩ := h.rest_same
  have hs' : ∀ q ∈ ids, q ∈ [p] := fun q hq => List.mem_singleton.mpr (hs q hq)
  have hd : ∀ (φ : Account → State → Prop), (∀ acc b n, φ acc (b.rewardsAs n) ↔ φ acc b) →
      ((∃ acc s1, s.accounts.get a = some acc ∧ s.Refreshed s1 u [p] ∧ φ acc s1) ↔
       ∃ acc s1, s.accounts.get a = some acc ∧ m.Refreshed s1 none [p] ∧ φ acc s1) := by
    intro φ hφ
    constructor
    · rintro ⟨acc, s1, h1, h2⟩
      obtain ⟨s2, h3⟩ := (State.Upkept.decides hr h (List.nodup_singleton _) hn' hs' (hφ acc)).mp ⟨s1, h2⟩
      exact ⟨acc, s2, h1, h3⟩
    · rintro ⟨acc, s1, h1, h2⟩
      obtain ⟨s2, h3⟩ := (State.Upkept.decides hr h (List.nodup_singleton _) hn' hs' (hφ acc)).mpr ⟨s1, h2⟩
      exact ⟨acc, s2, h1, h3⟩
  cases e <;> try simp only [AdlRefused, ha, hc, h.prices_iff hk hg]
  case adlSkewTooLow =>
    exact State.Upkept.decides hr h (List.nodup_singleton _) hn' hs'
      (φ := fun s1 => s1.pool.skewRatio ≤ s.config.exchange.decompress.skewRatioCap) (fun _ _ => Iff.rfl)
  case adlPnlBelowThreshold =>
    exact hd (fun acc s1 => divT (mulT (acc.size p) (s1.market.price p) - acc.costOf p) (acc.costOf p) ≤
        adlLine s.config.exchange.decompress s1.pool.skewRatio) (fun _ _ _ => Iff.rfl)
  case adlSkewNotReduced =>
    exact hd (fun acc s1 => s1.pool.skewRatio ≤ s1.ratioAfter acc p (-acc.size p) 0) (fun _ _ _ => Iff.rfl)

theorem State.Upkept.order_iff (hr : Reach env s) (h : s.Upkept m u ids) (hn' : ids.Nodup)
    (hk : ¬ PricesRefused env s [] u .badKey) (hg : ¬ PricesRefused env s [] u .badSignature) (acc : Account)
    {q : MarginOrderReq} (hs : ∀ p ∈ ids, p = q.pair) (e : Err) :
    OrderRefused env s acc q u e ↔ OrderRefused env m acc q none e := by
  obtain ⟨hc, hn, ha, hrf, hl, ho, -⟩ := h.rest_same
  have hp : m.pricesWith none = s.pricesWith u := h.prices
  have hs' : ∀ p ∈ ids, p ∈ [q.pair] := fun p hq => List.mem_singleton.mpr (hs p hq)
  have hd : ∀ (φ : State → Prop), (∀ b n, φ (b.rewardsAs n) ↔ φ b) →
      ((∃ s1, s.Refreshed s1 u [q.pair] ∧ φ s1) ↔ ∃ s1, m.Refreshed s1 none [q.pair] ∧ φ s1) :=
    fun φ hφ => State.Upkept.decides hr h (List.nodup_singleton _) hn' hs' hφ
  cases e <;> try simp only [OrderRefused, hc, hp, h.prices_iff hk hg]
  all_goals exact hd _ (fun _ _ => Iff.rfl)

theorem State.Upkept.withdrawal_iff (h : s.Upkept m u ids)
    (hk : ¬ PricesRefused env s [] u .badKey) (hg : ¬ PricesRefused env s [] u .badSignature) {acc : Account}
    (q : RemoveCollateralReq) (hs : ∀ p ∈ ids, acc.positions.get p = none) (e : Err) :
    WithdrawalRefused env s acc q u e ↔ WithdrawalRefused env m acc q none e := by
  obtain ⟨hc, hn, ha, hrf, hl, ho, -⟩ := h.rest_same
  have hp : m.pricesWith none = s.pricesWith u := h.prices
  have hb : m.pool.baseTokens = s.pool.baseTokens := h.tokens.1
  cases e <;> try simp only [WithdrawalRefused, hb, h.prices_iff hk hg]
  case insufficientMargin =>
    refine exists_congr (fun acc' => and_congr_right (fun hw => ?_))
    have hpos : acc'.positions = acc.positions := by rw [hw.same]
    have hag : (s.priced u).market.Agree (m.priced none).market acc'.positions acc'.collateralBalances := by
      refine ⟨?_, fun p x _ => ?_, fun p x _ => ?_, fun p x hx => ?_, fun r x _ => ?_, fun r x cc _ _ => ?_⟩
      · simp only [State.market, State.priced, hc]
      · simp only [State.market, State.priced, hp]
      · simp only [State.market, State.priced, hc]
      · simp only [State.market, State.priced, hn]
        refine (h.rest p (fun hi => ?_)).symm
        rw [hpos, hs p hi] at hx; cases hx
      · simp only [State.market, State.priced, hc]
      · simp only [State.market, State.priced, hp]
    have hreb : (m.priced none).rebateOf acc' = (s.priced u).rebateOf acc' := by
      unfold State.rebateOf State.priced; rw [hrf]
    unfold State.accountValue State.initialMargin
    rw [hag.value, hag.margin, hreb]

theorem State.Upkept.request_iff (hr : Reach env s) (h : s.Upkept m u ids) (hn' : ids.Nodup)
    (hk : ¬ PricesRefused env s [] u .badKey) (hg : ¬ PricesRefused env s [] u .badSignature) {a : Addr} {i : Nat}
    (hs : ∀ (acc : Account) (kr : KeeperRequest), s.accounts.get a = some acc → acc.requests[i]? = some kr →
      match kr.request with
      | .marginOrder q => ∀ p ∈ ids, p = q.pair
      | .removeCollateral _ => ∀ p ∈ ids, acc.positions.get p = none) (e : Err) :
    RequestRefused env s a i u e ↔ RequestRefused env m a i none e := by
  obtain ⟨hc, hn, ha, hrf, hl, ho, -⟩ := h.rest_same
  cases e <;> simp only [RequestRefused, ha, hn]
  all_goals
    refine exists_congr (fun acc => and_congr_right (fun h1 => or_congr_right (exists_congr (fun kr =>
      and_congr_right (fun h2 => and_congr_right (fun _ => and_congr_right (fun _ => and_congr_right (fun _ =>
        and_congr_right (fun _ => ?_)))))))))
    have h3 := hs acc kr h1 h2
    split at h3
    · rename_i q hq; rw [hq]; exact h.order_iff hr hn' hk hg acc h3 _
    · rename_i q hq; rw [hq]; exact h.withdrawal_iff hk hg q h3 _

end

/-! ## C72 -/

/-- A keeper call with a given price update. -/
def Op.given (u : Option PriceUpdate) : Op → Op
  | .processRequest a i _ => .processRequest a i u
  | .swapDebt a r b _ => .swapDebt a r b u
  | .liquidate a b _ => .liquidate a b u
  | .autoDeleverage a p _ => .autoDeleverage a p u
  | .updatePairs ids _ => .updatePairs ids u
  | op => op

/-- **Specification.** The pairs whose upkeep does not matter to a keeper call: the ones it brings up to date itself — for an
order and a deleveraging its pair, for a liquidation the pairs of the account —, for a withdrawal the ones in which the account has
no position, and any for a debt swap and for more upkeep. -/
def Op.Covers (s : State) (ids : List PairId) : Op → Prop
  | .processRequest a i _ => ∀ (acc : Account) (kr : KeeperRequest), s.accounts.get a = some acc → acc.requests[i]? = some kr →
      match kr.request with
      | .marginOrder q => ∀ p ∈ ids, p = q.pair
      | .removeCollateral _ => ∀ p ∈ ids, acc.positions.get p = none
  | .swapDebt _ _ _ _ => True
  | .liquidate a _ _ => ∀ acc, s.accounts.get a = some acc → ∀ p ∈ ids, ∃ x, acc.positions.get p = some x
  | .autoDeleverage _ p _ => ∀ q ∈ ids, q = p
  | .updatePairs _ _ => True
  | _ => False

/-- Any number of rounds of upkeep in the same second, by anyone, of pairs among `ids`; the first one records the prices `u`. -/
inductive Upkeeps (env : Env) (ids : List PairId) (u : Option PriceUpdate) (s : State) : State → Prop
  | first {cl : Caller} {l : List PairId} {m : State} {o : Out} : (∀ p ∈ l, p ∈ ids) →
      step env cl s (.updatePairs l u) = Except.ok (m, o) → Upkeeps env ids u s m
  | more {cl : Caller} {l : List PairId} {m m' : State} {o : Out} : Upkeeps env ids u s m → (∀ p ∈ l, p ∈ ids) →
      step env cl m (.updatePairs l none) = Except.ok (m', o) → Upkeeps env ids u s m'

theorem Op.Covers.sub {s : State} {ids l : List PairId} {op : Op} (h : op.Covers s ids) (hl : ∀ p ∈ l, p ∈ ids) :
    op.Covers s l := by
  cases op <;> first | exact h | skip
  case processRequest a i u =>
    intro acc kr h1 h2
    have h3 := h acc kr h1 h2
    split at h3
    · exact fun p hp => h3 p (hl p hp)
    · exact fun p hp => h3 p (hl p hp)
  case liquidate a b u => exact fun acc ha p hp => h acc ha p (hl p hp)
  case autoDeleverage a p u => exact fun q hq => h q (hl q hq)

theorem Op.Covers.same {s m : State} {ids : List PairId} {op : Op} (h : op.Covers s ids) (ha : m.accounts = s.accounts) :
    op.Covers m ids := by
  cases op <;> first | exact h | skip
  case processRequest a i u => intro acc kr h1; rw [ha] at h1; exact h acc kr h1
  case liquidate a b u => intro acc h1; rw [ha] at h1; exact h acc h1

theorem round_reasons {env : Env} {cl cl' : Caller} {s m : State} {l : List PairId} {u : Option PriceUpdate} {o : Out}
    (hr : Reach env s) (hs : step env cl' s (.updatePairs l u) = Except.ok (m, o)) {op : Op} (hc : op.Covers s l) (e : Err) :
    (op.given u).Refused env cl s e ↔ (op.given none).Refused env cl m e := by
  obtain ⟨h, hk, hg⟩ := updatePairs_upkept hr hs
  have hn := List.nodup_dedup l
  have hd : ∀ p ∈ l.dedup, p ∈ l := fun p hp => List.mem_dedup.mp hp
  obtain ⟨c1, c2, c3, c4, c5, c6, -⟩ := h.rest_same
  replace hc := hc.sub hd
  cases op <;> try exact hc.elim
  case processRequest a i _ => exact h.request_iff hr hn hk hg hc e
  case liquidate a b _ => exact h.liquidation_iff hr hn hk hg b (fun acc ha p hp => AMap.mem_keys.mpr (hc acc ha p hp)) e
  case autoDeleverage a p _ => exact h.adl_iff hr hn hk hg hc e
  case swapDebt a r b _ =>
    have hb : okBucket env m b = okBucket env s b := by unfold okBucket; rw [c5, c6]
    cases e <;> simp only [Op.given, Op.Refused, SwapDebtRefused, hb, c1, c3, h.prices_iff hk hg]
  case updatePairs ids _ =>
    cases e <;> simp only [Op.given, Op.Refused, UpdatePairsRefused, c1, h.prices_iff hk hg]

theorem upkeeps_reach {env : Env} {ids : List PairId} {u : Option PriceUpdate} {s m : State} (hr : Reach env s)
    (h : Upkeeps env ids u s m) : Reach env m ∧ m.accounts = s.accounts ∧ m.config = s.config ∧ m.roles = s.roles ∧
      m.authority = s.authority := by
  induction h with
  | first hl hs =>
    obtain ⟨c1, -, c3, -, -, -, c7, c8⟩ := (updatePairs_upkept hr hs).1.rest_same
    exact ⟨Reach.step hr hs, c3, c1, c7, c8⟩
  | more _ hl hs ih =>
    obtain ⟨i1, i2, i3, i4, i5⟩ := ih
    obtain ⟨c1, -, c3, -, -, -, c7, c8⟩ := (updatePairs_upkept i1 hs).1.rest_same
    exact ⟨Reach.step i1 hs, c3.trans i2, c1.trans i3, c7.trans i4, c8.trans i5⟩

theorem given_given (op : Op) (u u' : Option PriceUpdate) : (op.given u).given u' = op.given u' := by cases op <;> rfl

theorem Op.Covers.given {s : State} {ids : List PairId} {op : Op} (h : op.Covers s ids) (u : Option PriceUpdate) :
    (op.given u).Covers s ids := by cases op <;> exact h

/-- **C72, the reasons.** However often, and by whomever, the pairs that a keeper call brings up to date are brought up to date
first in the same second: the call has then, without a price update, exactly the reasons to be refused that it had before with
the update. -/
theorem c72_reasons {env : Env} {cl : Caller} {s m : State} {ids : List PairId} {u : Option PriceUpdate} {op : Op}
    (hr : Reach env s) (hu : Upkeeps env ids u s m) (hc : op.Covers s ids) (e : Err) :
    (op.given u).Refused env cl s e ↔ (op.given none).Refused env cl m e := by
  induction hu with
  | first hl hs => exact round_reasons hr hs (hc.sub hl) e
  | more h hl hs ih =>
    obtain ⟨i1, i2, -⟩ := upkeeps_reach hr h
    rw [ih]
    exact round_reasons i1 hs ((hc.sub hl).same i2) e

/-- **C72.** Upkeep first changes no decision: the call goes through with the price update before the upkeep exactly if it goes
through without it after the upkeep, unless a number leaves the range of the decimal type. -/
theorem c72_decision {env : Env} {cl : Caller} {s m : State} {ids : List PairId} {u : Option PriceUpdate} {op : Op}
    (hr : Reach env s) (hw : s.RewardWhole env) (hu : Upkeeps env ids u s m) (hc : op.Covers s ids)
    (h1 : step env cl s (op.given u) ≠ Except.error .arithmetic) (h2 : step env cl m (op.given none) ≠ Except.error .arithmetic) :
    (∃ r, step env cl s (op.given u) = Except.ok r) ↔ ∃ r, step env cl m (op.given none) = Except.ok r := by
  obtain ⟨i1, i2, i3, i4, i5⟩ := upkeeps_reach hr hu
  have hw' : m.RewardWhole env := ⟨by rw [i3]; exact hw.reward, hw.unit⟩
  have ht : ∀ v, (op.given v).Typed := by intro v; cases op <;> first | exact hc.elim | trivial
  rw [c71_exact hr hw (ht u) h1, c71_exact i1 hw' (ht none) h2]
  refine and_congr ?_ (forall_congr' (fun e => imp_congr_right (fun _ => not_congr (c72_reasons hr hu hc e))))
  have e1 : (op.given u).role = (op.given none).role := by cases op <;> rfl
  have e2 : (op.given u).ownerRule s = (op.given none).ownerRule m := by cases op <;> first | exact hc.elim | rfl
  have e3 : (op.given u).authorized = (op.given none).authorized := by cases op <;> rfl
  constructor
  · rintro ⟨x1, x2, x3⟩
    exact ⟨by rw [← e1, i4]; exact x1, by rw [← e2]; exact x2, by rw [← e3, i5]; exact x3⟩
  · rintro ⟨x1, x2, x3⟩
    exact ⟨by rw [e1, ← i4]; exact x1, by rw [e2]; exact x2, by rw [e3, ← i5]; exact x3⟩

end Perp
