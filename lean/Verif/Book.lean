import Verif.Ledger

/-!
# Open interest, snapshots and stored positions (C03, C04, C05)
-/

namespace Perp

/-! ## Reading through the write buffer of the pool -/

theorem foldl_set_get {K V : Type} [DecidableEq K] (P : K → Prop) [DecidablePred P] (q : K)
    (l : List (K × V)) (hn : (l.map Prod.fst).Nodup) : ∀ m : AMap K V,
    (l.foldl (fun m e => if P e.1 then m.set e.1 e.2 else m) m).get q
      = if P q then (AMap.lget q l).or (m.get q) else m.get q := by
  induction l with
  | nil => intro m; simp [AMap.lget]
  | cons e l ih =>
    intro m
    obtain ⟨k, x⟩ := e
    simp only [List.map_cons, List.nodup_cons] at hn
    rw [List.foldl_cons, ih hn.2]
    by_cases hk : k = q
    · subst hk
      have : AMap.lget k l = none := AMap.lget_eq_none.mpr hn.1
      by_cases hP : P k
      · simp [hP, AMap.lget, this]
      · simp [hP]
    · by_cases hP : P q
      · by_cases hPk : P k <;> simp [hP, hPk, AMap.lget, hk, AMap.get_set]
      · by_cases hPk : P k <;> simp [hP, hPk, hk, AMap.get_set]

theorem VPool.realPositions_get (v : VPool) (q : PairId) :
    v.realPositions.get q =
      if q ∈ v.updated then (v.positions.get q).or (v.comp.positions.get q) else v.comp.positions.get q :=
  foldl_set_get (fun q => q ∈ v.updated) q _ v.positions.nodup _

/-- The buffered pool positions agree with what would be written back. -/
def PoolCoh (now : Int) (v : VPool) : Prop :=
  ∀ q pp, v.positions.get q = some pp → (v.realPositions.get q).getD (PoolPosition.dflt now) = pp

theorem poolCoh_new (pl : Pool) (now : Int) (ids : List PairId) : PoolCoh now (VPool.new pl now ids) := by
  intro q pp h
  rw [VPool.realPositions_get]
  simp only [VPool.new, List.not_mem_nil, if_false] at *
  rw [AMap.get_build] at h
  split at h
  · cases h; rfl
  · cases h

/-- Writing one position. -/
theorem VPool.real_set {v v' : VPool} {p : PairId} {x : PoolPosition}
    (hp : v'.positions = v.positions.set p x) (hu : ∀ q, q ∈ v'.updated ↔ q = p ∨ q ∈ v.updated)
    (hc : v'.comp.positions = v.comp.positions) (q : PairId) :
    v'.realPositions.get q = if p = q then some x else v.realPositions.get q := by
  rw [VPool.realPositions_get, VPool.realPositions_get, hp, hc, AMap.get_set]
  by_cases h : p = q
  · subst h; simp [hu]
  · have h' : ¬ q = p := fun e => h e.symm
    simp [hu, h, h']

theorem poolCoh_set {now : Int} {v v' : VPool} {p : PairId} {x : PoolPosition} (h0 : PoolCoh now v)
    (hp : v'.positions = v.positions.set p x) (hu : ∀ q, q ∈ v'.updated ↔ q = p ∨ q ∈ v.updated)
    (hc : v'.comp.positions = v.comp.positions) : PoolCoh now v' := by
  intro q pp h
  rw [VPool.real_set hp hu hc]
  rw [hp, AMap.get_set] at h
  split at h
  · rename_i he; cases h; simp [he]
  · rename_i he; simp [he, h0 q pp h]

/-- Pool effects of an elementary step: nothing is written, or one position. -/
theorem WStep.pool {ex : ExchangeConfig} {w w' : W} {x : Dec} (h : WStep ex w w' x) :
    (w'.pool.positions = w.pool.positions ∧ w'.pool.updated = w.pool.updated ∧
      w'.pool.skewSnap = w.pool.skewSnap ∧ w'.pool.pnlSnap = w.pool.pnlSnap) ∨
    ∃ p pp pp', w.pool.positions.get p = some pp ∧
      w'.pool.positions = w.pool.positions.set p pp' ∧
      (∀ q, q ∈ w'.pool.updated ↔ q = p ∨ q ∈ w.pool.updated) ∧
      w'.pool.skewSnap = w.pool.skewSnap + (pp'.skewAbsSnap - pp.skewAbsSnap) ∧
      w'.pool.pnlSnap = w.pool.pnlSnap + (pp'.pnlSnap - pp.pnlSnap) := by
  cases h with
  | fees h0 h =>
    left
    obtain ⟨hp, -, -, -⟩ := settleFeesReferral_ok h
    rw [hp]; exact ⟨rfl, rfl, rfl, rfl⟩
  | mark p price d hpp h1 h2 h3 h4 h5 =>
    right
    exact ⟨p, _, _, hpp, rfl, by intro q; simp, rfl, rfl⟩
  | trade p new price h1 h2 h3 h4 h5 =>
    right
    refine ⟨p, _, _, h1, rfl, ?_, rfl, rfl⟩
    intro q; simp [VPool.remark]
  | liq p h1 h2 h3 =>
    right
    rename_i pp pos
    refine ⟨p, _, _, h1, rfl, ?_, ?_, ?_⟩
    · intro q; simp [VPool.setPosition]
    · unfold PoolPosition.closed; split <;> simp [VPool.setPosition]
    · unfold PoolPosition.closed; split <;> simp [VPool.setPosition]
  | _ => exact Or.inl ⟨rfl, rfl, rfl, rfl⟩

theorem WStep.compPositions {ex : ExchangeConfig} {w w' : W} {x : Dec} (h : WStep ex w w' x) :
    w'.pool.comp.positions = w.pool.comp.positions := by
  have := h.frame.2.2.2.2
  rw [this]

theorem VPool.real_same {v v' : VPool} (hp : v'.positions = v.positions) (hu : v'.updated = v.updated)
    (hc : v'.comp.positions = v.comp.positions) (q : PairId) :
    v'.realPositions.get q = v.realPositions.get q := by
  rw [VPool.realPositions_get, VPool.realPositions_get, hp, hu, hc]

theorem poolCoh_step {now : Int} {ex : ExchangeConfig} {w w' : W} {x : Dec} (h : WStep ex w w' x)
    (h0 : PoolCoh now w.pool) : PoolCoh now w'.pool := by
  rcases h.pool with ⟨h1, h2, -, -⟩ | ⟨p, pp, pp', -, h1, h2, -, -⟩
  · intro q pp hq
    rw [VPool.real_same h1 h2 h.compPositions]
    rw [h1] at hq; exact h0 q pp hq
  · exact poolCoh_set h0 h1 h2 h.compPositions

theorem poolCoh_path {now : Int} {ex : ExchangeConfig} {w w' : W} {x : Dec} (h : WPath ex w w' x)
    (h0 : PoolCoh now w.pool) : PoolCoh now w'.pool :=
  h.keep (P := fun w => PoolCoh now w.pool) (fun _ _ _ hs => poolCoh_step hs) h0

/-! ## C04: aggregate snapshots -/

theorem real_sum_set {now : Int} {v v' : VPool} {p : PairId} {pp pp' : PoolPosition}
    (h0 : PoolCoh now v) (hpp : v.positions.get p = some pp)
    (hp : v'.positions = v.positions.set p pp') (hu : ∀ q, q ∈ v'.updated ↔ q = p ∨ q ∈ v.updated)
    (hc : v'.comp.positions = v.comp.positions) (f : PoolPosition → Int)
    (hf : f (PoolPosition.dflt now) = 0) :
    v'.realPositions.sum (fun _ x => f x) = v.realPositions.sum (fun _ x => f x) + (f pp' - f pp) := by
  rw [AMap.sum_ext (m' := v.realPositions.set p pp') (by
    intro q; rw [VPool.real_set hp hu hc, AMap.get_set])]
  rw [AMap.sum_set]
  have := h0 p pp hpp
  cases hr : v.realPositions.get p with
  | none => rw [hr] at this; simp only [Option.getD_none] at this; subst this; simp [AMap.term, hr, hf]
  | some y => rw [hr] at this; simp only [Option.getD_some] at this; subst this; simp [AMap.term, hr]; ring

/-- The differences between the aggregate snapshots and the sums of the written-back ones. -/
def VPool.snapGap (v : VPool) : Int × Int :=
  (v.skewSnap - v.realPositions.sum (fun _ x => x.skewAbsSnap),
   v.pnlSnap - v.realPositions.sum (fun _ x => x.pnlSnap))

theorem snapGap_step {now : Int} {ex : ExchangeConfig} {w w' : W} {x : Dec} (h : WStep ex w w' x)
    (h0 : PoolCoh now w.pool) : w'.pool.snapGap = w.pool.snapGap := by
  unfold VPool.snapGap
  rcases h.pool with ⟨h1, h2, h3, h4⟩ | ⟨p, pp, pp', hpp, h1, h2, h3, h4⟩
  · rw [h3, h4, AMap.sum_ext (VPool.real_same h1 h2 h.compPositions),
      AMap.sum_ext (VPool.real_same h1 h2 h.compPositions)]
  · rw [h3, h4, real_sum_set h0 hpp h1 h2 h.compPositions (·.skewAbsSnap) rfl,
      real_sum_set h0 hpp h1 h2 h.compPositions (·.pnlSnap) rfl]
    simp only [Prod.mk.injEq]
    constructor <;> ring

theorem snapGap_path {now : Int} {ex : ExchangeConfig} {w w' : W} {x : Dec} (h : WPath ex w w' x)
    (h0 : PoolCoh now w.pool) : w'.pool.snapGap = w.pool.snapGap := by
  induction h with
  | refl => rfl
  | tail hp hs ih => rw [snapGap_step hs (poolCoh_path hp h0), ih]

/-- **Specification of C04**: the aggregates are the sums over the pairs. -/
def Pool.SnapsAgree (pl : Pool) : Prop :=
  pl.skewAbsSnap = pl.positions.sum (fun _ x => x.skewAbsSnap) ∧
  pl.pnlSnap = pl.positions.sum (fun _ x => x.pnlSnap)

theorem snaps_realize {ex : ExchangeConfig} {pl : Pool} {now : Int} {ids : List PairId} {w w' : W}
    {x : Dec} (h : WPath ex w w' x) (hw : w.pool = VPool.new pl now ids) (h0 : pl.SnapsAgree) :
    w'.pool.realize.SnapsAgree := by
  have hg := snapGap_path h (by rw [hw]; exact poolCoh_new pl now ids)
  rw [hw] at hg
  have e : (VPool.new pl now ids).realPositions = pl.positions :=
    congrArg Pool.positions (VPool.realize_new pl now ids)
  simp only [VPool.snapGap, e, Prod.mk.injEq] at hg
  obtain ⟨a, b⟩ := h0
  simp only [VPool.new] at hg
  simp only [Pool.SnapsAgree, VPool.realize]
  constructor <;> omega

theorem shape_snaps {env : Env} {s s' : State} (h : Shape env s s') (h0 : s.pool.SnapsAgree) :
    s'.pool.SnapsAgree := by
  cases h with
  | quiet => exact h0
  | treasury h => rw [(payout_ok h).2.2]; exact h0
  | protocol h => rw [(payout_ok h).2.2]; exact h0
  | delegator h => rw [(payout_ok h).2.2]; exact h0
  | referral hd h => rw [(payout_ok h).2.2]; exact h0
  | liquidity b l h0 hr hf _ => assumption
  | lock v h0 h1 => assumption
  | newReferral g _ hn hb ht h1 h2 => exact h0
  | editReferral g _ hd hb ht h1 h2 => exact h0
  | codes g _ => exact h0
  | pairs o rw hp => exact snaps_realize (hp default s.dist) rfl h0
  | account h =>
    cases h with
    | mk o rw k hl hp hr => exact snaps_realize hp rfl h0
  | create g _ hn h =>
    cases h with
    | mk o rw k hl hp hr => exact snaps_realize hp rfl h0

/-- **C04, first half.** In every reachable state the pool's aggregate skew and pnl snapshots are the
sums of the per-pair snapshots. -/
theorem c04_aggregate_snapshots {env : Env} {s : State} (h : Reach env s) :
    s.pool.skewAbsSnap = s.pool.positions.sum (fun _ x => x.skewAbsSnap) ∧
    s.pool.pnlSnap = s.pool.positions.sum (fun _ x => x.pnlSnap) := by
  refine Reach.induct (P := fun s => s.pool.SnapsAgree) (env := env) ?_ ?_ h
  · intro s g; simp [Pool.SnapsAgree, g.pool]
  · intro s s' cl op o hs hb; exact shape_snaps (body_shape hb) hs

/-! ## C05: stored account positions -/

theorem foldl_edit_get (P : PairId → Prop) [DecidablePred P] (q : PairId)
    (l : List (PairId × AccountPosition)) (hn : (l.map Prod.fst).Nodup) :
    ∀ m : AMap PairId AccountPosition,
    (l.foldl (fun m e => if P e.1 then (if e.2.amount ≠ 0 then m.set e.1 e.2 else m.erase e.1) else m) m).get q
      = if P q then (match AMap.lget q l with
          | some x => if x.amount ≠ 0 then some x else none
          | none => m.get q) else m.get q := by
  induction l with
  | nil => intro m; simp [AMap.lget]
  | cons e l ih =>
    intro m
    obtain ⟨k, x⟩ := e
    simp only [List.map_cons, List.nodup_cons] at hn
    rw [List.foldl_cons, ih hn.2]
    by_cases hk : k = q
    · subst hk
      have : AMap.lget k l = none := AMap.lget_eq_none.mpr hn.1
      by_cases hP : P k
      · by_cases hx : x.amount = 0 <;> simp [hP, AMap.lget, this, hx, AMap.get_erase]
      · simp [hP]
    · by_cases hP : P q
      · simp only [hP, if_true, AMap.lget, hk, if_false]
        cases AMap.lget q l with
        | some y => rfl
        | none =>
          by_cases hPk : P k
          · by_cases hx : x.amount = 0 <;> simp [hPk, hx, AMap.get_erase, AMap.get_set, hk]
          · simp [hPk]
      · simp only [hP, if_false]
        by_cases hPk : P k
        · by_cases hx : x.amount = 0 <;> simp [hPk, hx, AMap.get_erase, AMap.get_set, hk]
        · simp [hPk]

theorem VAccount.realPositions_get (v : VAccount) (q : PairId) :
    v.realPositions.get q =
      if q ∈ v.positionsUpdated then (match v.positions.get q with
          | some x => if x.amount ≠ 0 then some x else none
          | none => v.comp.positions.get q) else v.comp.positions.get q :=
  foldl_edit_get (fun q => q ∈ v.positionsUpdated) q _ v.positions.nodup _

/-- Invariants of the position buffer of a loaded account. -/
structure AccCoh (v : VAccount) : Prop where
  keep : ∀ q, q ∉ v.positionsUpdated → v.positions.get q = v.comp.positions.get q
  grow : ∀ q, v.positions.get q = none → v.comp.positions.get q = none
  stored : ∀ q x, v.comp.positions.get q = some x → x.amount ≠ 0
  zero : ∀ q x, v.positions.get q = some x → x.amount = 0 → x.cost = 0

/-- Changes of positions by elementary effects. -/
theorem WStep.positions {ex : ExchangeConfig} {w w' : W} {x : Dec} (h : WStep ex w w' x) :
    w'.acc.comp.positions = w.acc.comp.positions ∧
    ((w'.acc.positions = w.acc.positions ∧ (∀ q, q ∈ w.acc.positionsUpdated → q ∈ w'.acc.positionsUpdated)) ∨
      ∃ p y, w'.acc.positions = w.acc.positions.set p y ∧
        (y.amount = 0 → y.cost = 0 ∨ ∃ z, w.acc.positions.get p = some z ∧ z.amount = 0 ∧ z.cost = y.cost) ∧
        p ∈ w'.acc.positionsUpdated ∧ ∀ q, q ∈ w.acc.positionsUpdated → q ∈ w'.acc.positionsUpdated) := by
  refine ⟨by have := h.frame.2.2.2.1; rw [this], ?_⟩
  cases h with
  | fees h0 h =>
    left
    obtain ⟨-, -, ha, -⟩ := settleFeesReferral_ok h
    rw [ha]; unfold VAccount.credited
    split <;> exact ⟨rfl, fun _ h => h⟩
  | touch => left; exact ⟨rfl, fun q h => by simp [VAccount.touchAll, h]⟩
  | fund p h1 h2 h3 =>
    right
    rename_i pp pos
    exact ⟨p, _, rfl, fun h => Or.inr ⟨pos, h2, h, rfl⟩, h3, fun _ h => h⟩
  | trade p new price h1 h2 h3 h4 h5 =>
    right
    exact ⟨p, new, rfl, fun h => Or.inl (h5 h), by simp [VAccount.setPosition],
      fun q h => by simp [VAccount.setPosition, h]⟩
  | liq p h1 h2 h3 =>
    right
    exact ⟨p, _, rfl, fun h => Or.inl rfl, h3, fun _ h => h⟩
  | deposit h => left; have := depositCollateral_collOnly h; simp only; rw [this]; exact ⟨rfl, fun _ h => h⟩
  | withdraw h => left; have := withdrawCollateral_collOnly h; simp only; rw [this]; exact ⟨rfl, fun _ h => h⟩
  | push h => left; have := pushRequest_reqOnly h; simp only; rw [this]; exact ⟨rfl, fun _ h => h⟩
  | setStatus h0 h => left; have := trySetStatus_reqOnly h; simp only; rw [this]; exact ⟨rfl, fun _ h => h⟩
  | cancel h => left; have := cancelRequests_reqOnly h; simp only; rw [this]; exact ⟨rfl, fun _ h => h⟩
  | process h => left; have := processRequest_reqOnly h; simp only; rw [this]; exact ⟨rfl, fun _ h => h⟩
  | _ => exact Or.inl ⟨rfl, fun _ h => h⟩

theorem accCoh_step {ex : ExchangeConfig} {w w' : W} {x : Dec} (h : WStep ex w w' x)
    (h0 : AccCoh w.acc) : AccCoh w'.acc := by
  obtain ⟨hc, ⟨h1, h2⟩ | ⟨p, y, h1, h2, h3, h4⟩⟩ := h.positions
  · refine ⟨?_, ?_, ?_, ?_⟩
    · intro q hq; rw [h1, hc]; exact h0.keep q (fun hm => hq (h2 q hm))
    · intro q hq; rw [hc]; rw [h1] at hq; exact h0.grow q hq
    · intro q z hq; rw [hc] at hq; exact h0.stored q z hq
    · intro q z hq; rw [h1] at hq; exact h0.zero q z hq
  · refine ⟨?_, ?_, ?_, ?_⟩
    · intro q hq
      rw [h1, hc, AMap.get_set, if_neg (fun (e : p = q) => hq (e ▸ h3))]
      exact h0.keep q (fun hm => hq (h4 q hm))
    · intro q hq; rw [hc]; rw [h1, AMap.get_set] at hq
      split at hq
      · cases hq
      · exact h0.grow q hq
    · intro q z hq; rw [hc] at hq; exact h0.stored q z hq
    · intro q z hq hz
      rw [h1, AMap.get_set] at hq
      split at hq
      · cases hq
        rcases h2 hz with h | ⟨u, hu1, hu2, hu3⟩
        · exact h
        · rw [← hu3]; exact h0.zero _ u hu1 hu2
      · exact h0.zero q z hq hz

theorem accCoh_path {ex : ExchangeConfig} {w w' : W} {x : Dec} (h : WPath ex w w' x)
    (h0 : AccCoh w.acc) : AccCoh w'.acc :=
  h.keep (P := fun w => AccCoh w.acc) (fun _ _ _ hs => accCoh_step hs) h0

/-- What is written back under the invariant: exactly the non-empty buffered positions. -/
theorem AccCoh.real {v : VAccount} (h : AccCoh v) (q : PairId) :
    v.realPositions.get q = (v.positions.get q).filter (fun x => decide (x.amount ≠ 0)) := by
  rw [VAccount.realPositions_get]
  split
  · cases hq : v.positions.get q with
    | none => simp [h.grow q hq]
    | some x => simp only [Option.filter_some]; simp
  · rename_i hu
    rw [h.keep q hu]
    cases hq : v.comp.positions.get q with
    | none => rfl
    | some x => simp only [Option.filter_some, h.stored q x hq, ne_eq, not_false_eq_true, decide_true, if_true]

theorem accCoh_load {s : State} {a : Addr} {v : VAccount} {lr : Option (Level × Rule)}
    (h : s.load a = Except.ok v)
    (h0 : ∀ b acc, s.accounts.get b = some acc → ∀ q x, acc.positions.get q = some x → x.amount ≠ 0) :
    AccCoh (v.withRule lr) := by
  obtain ⟨acc, rd, hg, -, rfl⟩ := load_ok h
  refine ⟨?_, ?_, ?_, ?_⟩
  · intro q _; simp
  · intro q hq; simpa using hq
  · intro q x hq; simp only [withRule_comp_positions] at hq; exact h0 a acc hg q x hq
  · intro q x hq hz; simp only [withRule_positions] at hq; exact absurd hz (h0 a acc hg q x hq)

/-- **Specification of C05**: no stored position is empty. -/
def State.NoEmpty (s : State) : Prop :=
  ∀ b acc, s.accounts.get b = some acc → ∀ q x, acc.positions.get q = some x → x.amount ≠ 0

theorem accOp_noEmpty {s s' : State} {a : Addr} {lr : Option (Level × Rule)} (h : AccOp s a lr s')
    (h0 : s.NoEmpty) : s'.NoEmpty := by
  cases h with
  | mk o rw k hl hp hr =>
    rename_i v ids w x acc refs
    intro b acc' hg q y hq
    simp only [State.realized, AMap.get_set] at hg
    split at hg
    · cases hg
      obtain ⟨_, -, hacc⟩ := realize_ok hr.1
      rw [hacc] at hq
      simp only at hq
      rw [(accCoh_path hp (accCoh_load hl h0)).real] at hq
      simp only [Option.filter_eq_some_iff, decide_eq_true_eq] at hq
      exact hq.2
    · exact h0 b acc' hg q y hq

theorem shape_noEmpty {env : Env} {s s' : State} (h : Shape env s s') (h0 : s.NoEmpty) : s'.NoEmpty := by
  cases h with
  | account h => exact accOp_noEmpty h h0
  | create g _ hn h =>
    refine accOp_noEmpty h ?_
    intro b acc hg q y hq
    simp only [AMap.get_set] at hg
    split at hg
    · cases hg; simp [Account.fresh] at hq
    · exact h0 b acc hg q y hq
  | _ => exact h0

theorem reach_noEmpty {env : Env} {s : State} (h : Reach env s) : s.NoEmpty := by
  refine Reach.induct (P := State.NoEmpty) (env := env) ?_ ?_ h
  · intro s g b acc hg; rw [g.accounts] at hg; simp at hg
  · intro s s' cl op o hs hb; exact shape_noEmpty (body_shape hb) hs

/-- **C05, stored positions.** No account of a reachable state stores a position of size zero. -/
theorem c05_no_empty_position {env : Env} {s : State} (h : Reach env s) {a : Addr} {acc : Account}
    (ha : s.accounts.get a = some acc) {p : PairId} {pos : AccountPosition}
    (hp : acc.positions.get p = some pos) : pos.amount ≠ 0 :=
  reach_noEmpty h a acc ha p pos hp

/-! ## C03: open interest -/

/-- The long, short and cost totals of a pool position. -/
def PoolPosition.book (pp : PoolPosition) : Int × Int × Int := (pp.oiLong, pp.oiShort, pp.cost)

/-- The contribution of an account position to these totals. -/
def AccountPosition.book (x : AccountPosition) : Int × Int × Int :=
  (max x.amount 0, max (-x.amount) 0, x.cost)

/-- The totals of a pair in the written-back pool. -/
def VPool.book (v : VPool) (q : PairId) : Int × Int × Int :=
  (v.realPositions.get q).elim (0, 0, 0) PoolPosition.book

theorem book_of_coh {now : Int} {v : VPool} {p : PairId} {pp : PoolPosition} (h : PoolCoh now v)
    (hp : v.positions.get p = some pp) : v.book p = pp.book := by
  have := h p pp hp
  unfold VPool.book
  cases hr : v.realPositions.get p with
  | none => rw [hr] at this; simp only [Option.getD_none] at this; subst this; rfl
  | some y => rw [hr] at this; simp only [Option.getD_some] at this; subst this; rfl

/-- An elementary effect changes the pool's totals by what it changes in the account. -/
theorem book_step {now : Int} {ex : ExchangeConfig} {w w' : W} {x : Dec} (h : WStep ex w w' x)
    (h0 : PoolCoh now w.pool) (q : PairId) :
    w'.pool.book q - (w'.acc.position q).book = w.pool.book q - (w.acc.position q).book := by
  have hsame : w'.pool.positions = w.pool.positions → w'.pool.updated = w.pool.updated →
      w'.pool.book q = w.pool.book q := by
    intro h1 h2; unfold VPool.book; rw [VPool.real_same h1 h2 h.compPositions]
  have hset : ∀ {p pp'}, w'.pool.positions = w.pool.positions.set p pp' →
      (∀ q, q ∈ w'.pool.updated ↔ q = p ∨ q ∈ w.pool.updated) →
      w'.pool.book q = if p = q then pp'.book else w.pool.book q := by
    intro p pp' h1 h2
    unfold VPool.book
    rw [VPool.real_set h1 h2 h.compPositions]
    split <;> rfl
  cases h with
  | fees h0 h =>
    obtain ⟨hp, -, ha, -⟩ := settleFeesReferral_ok h
    rw [hsame (by rw [hp]) (by rw [hp])]
    rw [ha]; unfold VAccount.credited
    split <;> rfl
  | mark p price d hpp h1 h2 h3 h4 h5 =>
    rename_i pp pp'
    rw [hset (p := p) (pp' := pp') rfl (by intro q; simp)]
    split
    · rename_i he; subst he
      rw [book_of_coh h0 hpp]
      simp [PoolPosition.book, h1, h2, h3]
    · rfl
  | fund p h1 h2 h3 =>
    rename_i pp pos
    rw [hsame rfl rfl]
    have : ({ w with acc := { w.acc with positions := w.acc.positions.set p (settledPos pp pos) } } : W).acc.position q
        = if p = q then settledPos pp pos else w.acc.position q := by
      simp only [VAccount.position, AMap.getD, AMap.get_set]; split <;> rfl
    rw [this]
    split
    · rename_i he; subst he
      simp [VAccount.position, AMap.getD, h2, settledPos, AccountPosition.book]
    · rfl
  | trade p new price h1 h2 h3 h4 h5 =>
    rename_i pp pp'
    rw [hset (p := p) (pp' := pp'.snapAt price) rfl (by intro q; simp [VPool.remark])]
    have : (w.acc.setPosition p new).position q = if p = q then new else w.acc.position q := by
      simp only [VAccount.position, VAccount.setPosition, AMap.getD, AMap.get_set]; split <;> rfl
    rw [this]
    split
    · rename_i he; subst he
      rw [book_of_coh h0 h1]
      simp only [PoolPosition.book, PoolPosition.snapAt, AccountPosition.book, h2, h3, h4, Prod.mk_sub_mk,
        Prod.mk.injEq]
      refine ⟨by ring, by ring, by ring⟩
    · rfl
  | liq p h1 h2 h3 =>
    rename_i pp pos
    rw [hset (p := p) (pp' := pp.closed (-pos.amount) pos.cost) rfl (by intro q; simp [VPool.setPosition])]
    have : ({ w.acc with positions := w.acc.positions.set p AccountPosition.zero } : VAccount).position q
        = if p = q then AccountPosition.zero else w.acc.position q := by
      simp only [VAccount.position, AMap.getD, AMap.get_set]; split <;> rfl
    rw [this]
    split
    · rename_i he; subst he
      rw [book_of_coh h0 h1]
      have hpos : w.acc.position p = pos := by simp [VAccount.position, AMap.getD, h2]
      rw [hpos]
      unfold PoolPosition.closed
      split
      · simp only [PoolPosition.book, AccountPosition.book, AccountPosition.zero, Prod.mk_sub_mk, Prod.mk.injEq]
        refine ⟨by omega, by omega, by ring⟩
      · simp only [PoolPosition.book, AccountPosition.book, AccountPosition.zero, Prod.mk_sub_mk, Prod.mk.injEq]
        refine ⟨by omega, by omega, by ring⟩
    · rfl
  | deposit h => rw [hsame rfl rfl]; have := depositCollateral_collOnly h; simp only; rw [this]; rfl
  | withdraw h => rw [hsame rfl rfl]; have := withdrawCollateral_collOnly h; simp only; rw [this]; rfl
  | push h => rw [hsame rfl rfl]; have := pushRequest_reqOnly h; simp only; rw [this]; rfl
  | setStatus h0 h => rw [hsame rfl rfl]; have := trySetStatus_reqOnly h; simp only; rw [this]; rfl
  | cancel h => rw [hsame rfl rfl]; have := cancelRequests_reqOnly h; simp only; rw [this]; rfl
  | process h => rw [hsame rfl rfl]; have := processRequest_reqOnly h; simp only; rw [this]; rfl
  | _ => first | (rw [hsame rfl rfl]; done) | (rw [hsame rfl rfl]; rfl)

theorem book_path {now : Int} {ex : ExchangeConfig} {w w' : W} {x : Dec} (h : WPath ex w w' x)
    (h0 : PoolCoh now w.pool) (q : PairId) :
    w'.pool.book q - (w'.acc.position q).book = w.pool.book q - (w.acc.position q).book := by
  induction h with
  | refl => rfl
  | tail hp hs ih => rw [book_step hs (poolCoh_path hp h0), ih]

/-- The size of an account's position, zero if there is none. -/
def Account.size (a : Account) (p : PairId) : Int := (a.positions.get p).elim 0 AccountPosition.amount

/-- The cost of an account's position, zero if there is none. -/
def Account.costOf (a : Account) (p : PairId) : Int := (a.positions.get p).elim 0 AccountPosition.cost

/-- **Specification of C03** for one pair. -/
def State.BookAgrees (s : State) (p : PairId) : Prop :=
  (s.pool.positions.get p).elim 0 PoolPosition.oiLong = s.accounts.sum (fun _ a => max (a.size p) 0) ∧
  (s.pool.positions.get p).elim 0 PoolPosition.oiShort = s.accounts.sum (fun _ a => max (-(a.size p)) 0) ∧
  (s.pool.positions.get p).elim 0 PoolPosition.cost = s.accounts.sum (fun _ a => a.costOf p)

theorem account_book (a : Account) (p : PairId) :
    ((a.positions.get p).getD AccountPosition.zero).book = (max (a.size p) 0, max (-(a.size p)) 0, a.costOf p) := by
  unfold Account.size Account.costOf
  cases a.positions.get p <;> rfl

theorem pool_book (pl : Pool) (p : PairId) :
    (pl.positions.get p).elim (0, 0, 0) PoolPosition.book
      = ((pl.positions.get p).elim 0 PoolPosition.oiLong, (pl.positions.get p).elim 0 PoolPosition.oiShort,
         (pl.positions.get p).elim 0 PoolPosition.cost) := by
  cases pl.positions.get p <;> rfl

theorem accOp_book {s s' : State} {a : Addr} {lr : Option (Level × Rule)} (h : AccOp s a lr s')
    (h0 : s.NoEmpty) {p : PairId} (hb : s.BookAgrees p) : s'.BookAgrees p := by
  cases h with
  | mk o rw k hl hp hr =>
    rename_i v ids w x acc refs
    have hcoh := accCoh_path hp (accCoh_load hl h0)
    have hbook := book_path hp (poolCoh_new s.pool s.now ids) p
    obtain ⟨haddr, -⟩ := hp.frame
    obtain ⟨acc0, rd, hg, -, hv⟩ := load_ok hl
    have haddr' : w.acc.addr = a := by rw [haddr, withRule_addr, hv]
    obtain ⟨_, -, hacc⟩ := realize_ok hr.1
    have e1 : (w.acc.position p).book = (max (acc.size p) 0, max (-(acc.size p)) 0, acc.costOf p) := by
      rw [← account_book, hacc]
      simp only [VAccount.position, AMap.getD]
      rw [hcoh.real]
      cases hq : w.acc.positions.get p with
      | none => rfl
      | some y =>
        simp only [Option.getD_some, Option.filter_some]
        split
        · rfl
        · rename_i hz
          have hz' : y.amount = 0 := by simpa using hz
          simp [AccountPosition.book, hz', hcoh.zero p y hq hz', AccountPosition.zero]
    have e0 : ((v.withRule lr).position p).book = (max (acc0.size p) 0, max (-(acc0.size p)) 0, acc0.costOf p) := by
      rw [← account_book, VAccount.position, withRule_positions, hv]; rfl
    have e2 : (VPool.new s.pool s.now ids).book p
        = ((s.pool.positions.get p).elim 0 PoolPosition.oiLong, (s.pool.positions.get p).elim 0 PoolPosition.oiShort,
         (s.pool.positions.get p).elim 0 PoolPosition.cost) := by
      rw [← pool_book]
      have e : (VPool.new s.pool s.now ids).realPositions = s.pool.positions :=
        congrArg Pool.positions (VPool.realize_new s.pool s.now ids)
      unfold VPool.book; rw [e]
    simp only at hbook
    rw [e0, e1, e2] at hbook
    have e3 : w.pool.book p
        = ((w.pool.realize.positions.get p).elim 0 PoolPosition.oiLong, (w.pool.realize.positions.get p).elim 0 PoolPosition.oiShort,
         (w.pool.realize.positions.get p).elim 0 PoolPosition.cost) := by
      rw [← pool_book]; rfl
    rw [e3] at hbook
    simp only [Prod.mk_sub_mk, Prod.mk.injEq] at hbook
    obtain ⟨b1, b2, b3⟩ := hb
    simp only [State.BookAgrees, State.realized, haddr', AMap.sum_set]
    simp only [AMap.term, hg]
    refine ⟨by omega, by omega, by omega⟩

theorem shape_book {env : Env} {s s' : State} (h : Shape env s s') (h0 : s.NoEmpty) {p : PairId}
    (hb : s.BookAgrees p) : s'.BookAgrees p := by
  cases h with
  | treasury h => rw [(payout_ok h).2.2]; exact hb
  | protocol h => rw [(payout_ok h).2.2]; exact hb
  | delegator h => rw [(payout_ok h).2.2]; exact hb
  | referral hd h => rw [(payout_ok h).2.2]; exact hb
  | pairs o rw hp =>
    rename_i ids pool
    have hbook := book_path (hp default s.dist) (poolCoh_new s.pool s.now ids) p
    have e2 : (VPool.new s.pool s.now ids).book p = (s.pool.positions.get p).elim (0, 0, 0) PoolPosition.book := by
      have e : (VPool.new s.pool s.now ids).realPositions = s.pool.positions :=
        congrArg Pool.positions (VPool.realize_new s.pool s.now ids)
      unfold VPool.book; rw [e]
    have e3 : pool.book p = (pool.realize.positions.get p).elim (0, 0, 0) PoolPosition.book := rfl
    have hbook : pool.book p = (VPool.new s.pool s.now ids).book p := by
      have h3 : ∀ a b c : Int × Int × Int, a - c = b - c → a = b := by
        rintro ⟨a1, a2, a3⟩ ⟨b1, b2, b3⟩ ⟨c1, c2, c3⟩ h
        simp only [Prod.mk_sub_mk, Prod.mk.injEq] at h ⊢
        omega
      exact h3 _ _ _ hbook
    rw [e2, e3, pool_book, pool_book] at hbook
    simp only [Prod.mk.injEq] at hbook
    obtain ⟨b1, b2, b3⟩ := hb
    simp only [State.BookAgrees]
    refine ⟨by omega, by omega, by omega⟩
  | account h => exact accOp_book h h0 hb
  | create g _ hn h =>
    refine accOp_book h ?_ ?_
    · intro b acc hg q y hq
      simp only [AMap.get_set] at hg
      split at hg
      · cases hg; simp [Account.fresh] at hq
      · exact h0 b acc hg q y hq
    · simpa [State.BookAgrees, AMap.sum_set, AMap.term, hn, Account.size, Account.costOf, Account.fresh] using hb
  | _ => exact hb

/-- **C03.** In every reachable state and for every pair the pool's long and short open interest and
its cost are exactly the sums over all accounts of their long sizes, short sizes and costs. -/
theorem c03_open_interest {env : Env} {s : State} (h : Reach env s) (p : PairId) :
    (s.pool.positions.get p).elim 0 PoolPosition.oiLong
      = s.accounts.sum (fun _ a => max ((a.positions.get p).elim 0 AccountPosition.amount) 0) ∧
    (s.pool.positions.get p).elim 0 PoolPosition.oiShort
      = s.accounts.sum (fun _ a => max (-(a.positions.get p).elim 0 AccountPosition.amount) 0) ∧
    (s.pool.positions.get p).elim 0 PoolPosition.cost
      = s.accounts.sum (fun _ a => (a.positions.get p).elim 0 AccountPosition.cost) := by
  have := Reach.induct (P := fun s => s.NoEmpty ∧ s.BookAgrees p) (env := env) ?_ ?_ h
  · exact this.2
  · intro s g
    refine ⟨reach_noEmpty (env := env) (.init g), ?_⟩
    simp [State.BookAgrees, g.pool, g.accounts]
  · intro s s' cl op o hs hb
    exact ⟨shape_noEmpty (body_shape hb) hs.1, shape_book (body_shape hb) hs.1 hs.2⟩

/-- Consequence of C03: open interest is never negative, and it covers every single account. -/
theorem c03_open_interest_covers {env : Env} {s : State} (h : Reach env s) {p : PairId} {a : Addr}
    {acc : Account} (ha : s.accounts.get a = some acc) {pos : AccountPosition}
    (hp : acc.positions.get p = some pos) :
    ∃ pp, s.pool.positions.get p = some pp ∧ pos.amount ≤ pp.oiLong ∧ -pos.amount ≤ pp.oiShort ∧
      0 ≤ pp.oiLong ∧ 0 ≤ pp.oiShort := by
  obtain ⟨h1, h2, -⟩ := c03_open_interest h p
  have t1 := AMap.term_le_sum (m := s.accounts)
    (f := fun _ a => max ((a.positions.get p).elim 0 AccountPosition.amount) 0) (fun _ _ _ => by omega) a
  have t2 := AMap.term_le_sum (m := s.accounts)
    (f := fun _ a => max (-(a.positions.get p).elim 0 AccountPosition.amount) 0) (fun _ _ _ => by omega) a
  simp only [AMap.term, ha, hp, Option.elim_some] at t1 t2
  have hne := c05_no_empty_position h ha hp
  cases hq : s.pool.positions.get p with
  | none => simp only [hq, Option.elim_none] at h1 h2; omega
  | some pp =>
    simp only [hq, Option.elim_some] at h1 h2
    exact ⟨pp, rfl, by omega, by omega, by omega, by omega⟩

end Perp
