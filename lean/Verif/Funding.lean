import Verif.Oaths

/-!
# Funding: conservation (C42), direction and bounds (C43), update rewards (C44)
-/

namespace Perp

/-! ## Sums over maps -/

namespace AMap
variable {K V A B : Type} [DecidableEq K]

omit [DecidableEq K] in
theorem sum_comm [DecidableEq A] (m : AMap K V) (n : AMap A B) (f : K → V → A → B → Int) :
    m.sum (fun k v => n.sum (fun a b => f k v a b)) = n.sum (fun a b => m.sum (fun k v => f k v a b)) := by
  unfold sum
  induction m.entries with
  | nil => simp
  | cons e l ih =>
    simp only [List.map_cons, List.sum_cons, ih]
    induction n.entries with
    | nil => simp
    | cons e' l' ih' =>
      simp only [List.map_cons, List.sum_cons] at ih' ⊢
      omega

omit [DecidableEq K] in
theorem sum_mul (m : AMap K V) (f : K → V → Int) (x : Int) :
    m.sum (fun k v => f k v * x) = m.sum f * x := by
  unfold sum
  induction m.entries with
  | nil => simp
  | cons e l ih => simp only [List.map_cons, List.sum_cons, ih]; ring

theorem sum_single (m : AMap K V) (k : K) (x : Int) :
    m.sum (fun q _ => if k = q then x else 0) = if m.has k = true then x else 0 := by
  have h := sum_erase (fun q (_ : V) => if k = q then x else 0) m k
  rw [sum_zero (m := m.erase k)] at h
  · have e : m.term (fun q (_ : V) => if k = q then x else 0) k = if m.has k = true then x else 0 := by
      unfold term
      cases hg : m.get k with
      | none => simp [has, hg]
      | some v => simp [has, hg]
    omega
  · intro q v hq
    rw [get_erase] at hq
    split at hq
    · cases hq
    · rename_i hne; simp [hne]

/-- A sum over a map whose keys all occur in another one. -/
theorem sum_over {U : Type} (m : AMap K V) (n : AMap K U) (f : K → V → Int)
    (h : ∀ k v, m.get k = some v → n.has k = true) :
    m.sum f = n.sum (fun k _ => (m.get k).elim 0 (f k)) := by
  obtain ⟨l, hl⟩ := m
  induction l with
  | nil => exact (sum_zero (fun k v _ => rfl)).symm
  | cons e l ih =>
    obtain ⟨k, v⟩ := e
    have hl' : (l.map Prod.fst).Nodup := (List.nodup_cons.mp hl).2
    have hk : k ∉ l.map Prod.fst := (List.nodup_cons.mp hl).1
    have hget : ∀ k', get ⟨(k, v) :: l, hl⟩ k' = if k = k' then some v else get ⟨l, hl'⟩ k' := by
      intro k'; simp [get, lget]
    have hkn : get (⟨l, hl'⟩ : AMap K V) k = none := lget_eq_none.mpr hk
    have h1 := ih hl' (fun q x hq => h q x (by
      rw [hget, if_neg (fun e => by rw [← e, hkn] at hq; cases hq)]; exact hq))
    have h2 : sum f ⟨(k, v) :: l, hl⟩ = f k v + sum f ⟨l, hl'⟩ := by simp [sum]
    rw [h2, h1]
    have h3 := sum_add (fun q (_ : U) => if k = q then f k v else 0)
      (fun q (_ : U) => (get ⟨l, hl'⟩ q).elim 0 (f q)) n
    rw [sum_single, if_pos (h k v (by rw [hget]; simp))] at h3
    rw [← h3]
    apply sum_congr
    intro q x _
    rw [hget]
    by_cases e : k = q
    · subst e; simp [hkn]
    · simp [e]

end AMap

/-- The buffered and the written-back pool positions change by the same sums. -/
theorem realGap_path {now : Int} {ex : ExchangeConfig} {w w' : W} {x : Dec} (h : WPath ex w w' x)
    (h0 : PoolCoh now w.pool) (f : PoolPosition → Int) (hf : f (PoolPosition.dflt now) = 0) :
    w'.pool.realPositions.sum (fun _ x => f x) - w'.pool.positions.sum (fun _ x => f x) =
      w.pool.realPositions.sum (fun _ x => f x) - w.pool.positions.sum (fun _ x => f x) := by
  induction h with
  | refl => rfl
  | tail hp hs ih =>
    rw [← ih]
    rcases hs.pool with ⟨h1, h2, -, -⟩ | ⟨p, pp, pp', hpp, h1, h2, -, -⟩
    · rw [h1, AMap.sum_ext (VPool.real_same h1 h2 hs.compPositions)]
    · rw [real_sum_set (poolCoh_path hp h0) hpp h1 h2 hs.compPositions f hf, h1, AMap.sum_set]
      simp only [AMap.term, hpp]
      omega

/-! ## Exact funding debt -/

/-- **Specification.** The funding a position owes at the indexes of its pair, without rounding, in units of 10⁻³⁶:
its size times the growth of its side's index since the position was last settled. -/
def AccountPosition.debt (pp : PoolPosition) (pos : AccountPosition) : Int :=
  if pos.amount > 0 then pos.amount * (pp.fundingLongIndex - pos.fundingIndex)
  else -pos.amount * (pp.fundingShortIndex - pos.fundingIndex)

/-- **Specification.** The funding all positions of all accounts owe together, without rounding. -/
def State.debt (s : State) : Int :=
  s.accounts.sum (fun _ acc => acc.positions.sum (fun p pos => pos.debt (s.pool.position s.now p)))

/-- **Specification.** By how much the funding the pool has booked as still to come exceeds what the accounts owe, in
units of 10⁻³⁶. -/
def State.fundingGap (s : State) : Int := ONE * s.pool.unrealizedFunding - s.debt

/-- Funding a pair has charged to its open interest over its lifetime, had it always been this large. -/
def PoolPosition.charged (pp : PoolPosition) : Int :=
  pp.oiLong * pp.fundingLongIndex + pp.oiShort * pp.fundingShortIndex

/-- The part of it a position has settled. -/
def AccountPosition.settled (pos : AccountPosition) : Int := |pos.amount| * pos.fundingIndex

theorem debt_split (pp : PoolPosition) (pos : AccountPosition) :
    pos.debt pp = max pos.amount 0 * pp.fundingLongIndex + max (-pos.amount) 0 * pp.fundingShortIndex
      - pos.settled := by
  unfold AccountPosition.debt AccountPosition.settled
  rcases lt_trichotomy pos.amount 0 with h | h | h
  · rw [if_neg (by omega), max_eq_right (by omega), max_eq_left (by omega), abs_of_neg h]; ring
  · simp [h]
  · rw [if_pos h, max_eq_left (by omega), max_eq_right (by omega), abs_of_pos h]; ring

/-- The gap in a form that separates pool and accounts. -/
theorem fundingGap_eq {env : Env} {s : State} (h : Reach env s) :
    s.fundingGap = ONE * s.pool.unrealizedFunding - s.pool.positions.sum (fun _ pp => pp.charged)
      + s.accounts.sum (fun _ acc => acc.positions.sum (fun _ pos => pos.settled)) := by
  have hin : ∀ a acc, s.accounts.get a = some acc → ∀ p pos, acc.positions.get p = some pos →
      s.pool.positions.has p = true := by
    intro a acc ha p pos hp
    obtain ⟨pp, hpp, -⟩ := c03_open_interest_covers h ha hp
    simp [AMap.has, hpp]
  have key : s.accounts.sum (fun _ acc => acc.positions.sum (fun p pos =>
      max pos.amount 0 * (s.pool.position s.now p).fundingLongIndex
        + max (-pos.amount) 0 * (s.pool.position s.now p).fundingShortIndex))
      = s.pool.positions.sum (fun _ pp => pp.charged) := by
    rw [AMap.sum_congr (g := fun _ acc => s.pool.positions.sum (fun p pp =>
      max (acc.size p) 0 * pp.fundingLongIndex + max (-acc.size p) 0 * pp.fundingShortIndex))]
    · rw [AMap.sum_comm]
      apply AMap.sum_congr
      intro p pp hpp
      obtain ⟨h1, h2, -⟩ := c03_open_interest h p
      rw [hpp] at h1 h2
      simp only [Option.elim_some] at h1 h2
      rw [AMap.sum_add (fun _ (acc : Account) => max (acc.size p) 0 * pp.fundingLongIndex)]
      unfold PoolPosition.charged
      rw [h1, h2, AMap.sum_mul, AMap.sum_mul]
      rfl
    · intro a acc ha
      rw [AMap.sum_over _ s.pool.positions _ (fun p pos hp => hin a acc ha p pos hp)]
      apply AMap.sum_congr
      intro p pp hpp
      unfold Account.size Pool.position
      rw [hpp]
      cases acc.positions.get p <;> simp
  have hsub : s.debt = s.accounts.sum (fun _ acc => acc.positions.sum (fun p pos =>
      max pos.amount 0 * (s.pool.position s.now p).fundingLongIndex
        + max (-pos.amount) 0 * (s.pool.position s.now p).fundingShortIndex))
      - s.accounts.sum (fun _ acc => acc.positions.sum (fun _ pos => pos.settled)) := by
    unfold State.debt
    rw [eq_sub_iff_add_eq, ← AMap.sum_add]
    apply AMap.sum_congr
    intro a acc ha
    rw [← AMap.sum_add]
    apply AMap.sum_congr
    intro p pos hp
    rw [debt_split]; ring
  unfold State.fundingGap
  rw [hsub, key]; ring

/-! ## Rounding of one accrual -/

theorem divT_abs_bound (x : Int) {d : Int} (hd : d ≠ 0) : |d * divT x d - ONE * x| < |d| := by
  unfold divT
  have h := Int.tmod_add_mul_tdiv (x * ONE) d
  have h2 : d * (x * ONE).tdiv d - ONE * x = -((x * ONE).tmod d) := by linarith
  rw [h2, abs_neg]
  rcases lt_or_gt_of_ne hd with h | h
  · rw [abs_of_neg h]
    rw [abs_lt]
    have e : (x * ONE).tmod d = (x * ONE).tmod (-d) := (Int.tmod_neg _ _).symm
    rw [e]
    exact ⟨Int.lt_tmod_of_pos _ (by omega), Int.tmod_lt_of_pos _ (by omega)⟩
  · rw [abs_of_pos h, abs_lt]
    exact ⟨Int.lt_tmod_of_pos _ h, Int.tmod_lt_of_pos _ h⟩

/-- What the pool books and what the two indexes charge differ by rounding only. -/
theorem accrue_close {pc : PairConfig} {oiLong oiShort price skew skewAbs period rate2 lo hi : Dec} {a : Accrual}
    (h : accrue pc oiLong oiShort price skew skewAbs period rate2 lo hi = Except.ok a) :
    |ONE * a.dPool - (oiLong * a.dLong + oiShort * a.dShort)| ≤ 2 * (|oiLong| + |oiShort|) := by
  simp only [accrue, bind_ok, pure_ok, dadd_ok, dmul_ok, ddiv_ok] at h
  obtain ⟨_, -, _, -, _, -, rate, -, ⟨li, si, share⟩, hs, _, ⟨-, rfl⟩, _, -, _, -, _, -, _, -, fp, -, _,
    ⟨hne, -, rfl⟩, _, ⟨-, rfl⟩, _, ⟨-, rfl⟩, _, ⟨-, rfl⟩, rfl⟩ := h
  simp only
  have h3 := divT_abs_bound fp hne
  have h4 : |oiLong + oiShort| ≤ |oiLong| + |oiShort| := abs_add_le _ _
  have key : |oiLong * li + oiShort * si - ONE * share| ≤ |oiLong| + |oiShort| := by
    unfold fundingSides at hs
    split at hs <;> simp only [bind_ok, pure_ok, dsub_ok, dmul_ok, ddiv_ok, dneg_ok, Prod.mk.injEq] at hs
    · obtain ⟨fl, -, _, ⟨h0, -, rfl⟩, sh, -, _, ⟨-, rfl⟩, _, ⟨-, rfl⟩, _, ⟨h1, -, rfl⟩, rfl, rfl, rfl⟩ := hs
      have e1 := divT_abs_bound fl h0
      have e2 := divT_abs_bound (-(fl - sh)) h1
      rw [abs_lt] at e1 e2
      rw [abs_le]
      constructor <;> nlinarith
    · obtain ⟨_, -, fs, -, _, ⟨h0, -, rfl⟩, sh, -, _, ⟨-, rfl⟩, _, ⟨-, rfl⟩, _, ⟨h1, -, rfl⟩, rfl, rfl, rfl⟩ := hs
      have e1 := divT_abs_bound fs h0
      have e2 := divT_abs_bound (-(fs - sh)) h1
      rw [abs_lt] at e1 e2
      rw [abs_le]
      constructor <;> nlinarith
  rw [abs_lt] at h3
  rw [abs_le] at key ⊢
  constructor <;> nlinarith

theorem fundingStep_close {pc : PairConfig} {pp pp' : PoolPosition} {price skew skewAbs period d : Dec}
    (h : fundingStep pc pp price skew skewAbs period = Except.ok (pp', d)) :
    |ONE * d - (pp'.charged - pp.charged)| ≤ 2 * (|pp.oiLong| + |pp.oiShort|) := by
  have h0 : (0 : Int) ≤ 2 * (|pp.oiLong| + |pp.oiShort|) := by positivity
  unfold fundingStep at h
  split at h
  · simp only [fundingUpdate, bind_ok] at h
    obtain ⟨hi, -, _, -, lo, -, _, -, _, -, rate, -, h⟩ := h
    split at h
    · simp only [bind_ok, pure_ok, dadd_ok, Prod.mk.injEq] at h
      obtain ⟨a, ha, _, ⟨-, rfl⟩, _, ⟨-, rfl⟩, rfl, rfl⟩ := h
      have := accrue_close ha
      refine le_trans (le_of_eq ?_) this
      congr 1
      unfold PoolPosition.charged
      simp only
      ring
    · simp only [pure_ok, Prod.mk.injEq] at h
      obtain ⟨rfl, rfl⟩ := h
      simpa [PoolPosition.charged] using h0
  · simp only [pure_ok, Prod.mk.injEq] at h
    obtain ⟨rfl, rfl⟩ := h
    simpa using h0

/-- Settling a position at its pair's indexes moves its debt, rounded toward zero to 18 decimals. -/
theorem fundingOwed_close (pp : PoolPosition) (pos : AccountPosition) : |ONE * fundingOwed pp pos - pos.debt pp| < ONE := by
  unfold fundingOwed AccountPosition.debt
  split
  · have := mulT_abs_bound pos.amount (pp.fundingLongIndex - pos.fundingIndex)
    rwa [mul_comm] at this
  · have := mulT_abs_bound (-pos.amount) (pp.fundingShortIndex - pos.fundingIndex)
    rwa [mul_comm] at this

/-! ## The gap while a call runs -/

def W.gap (w : W) : Int :=
  ONE * w.pool.unreal - w.pool.positions.sum (fun _ pp => pp.charged) + w.acc.positions.sum (fun _ pos => pos.settled)

theorem gap_congr {w w' : W} (h1 : w'.pool.unreal = w.pool.unreal) (h2 : w'.pool.positions = w.pool.positions)
    (h3 : w'.acc.positions = w.acc.positions) : w'.gap = w.gap := by
  unfold W.gap; rw [h1, h2, h3]

/-- Twice the open interest of a pair. -/
def VPool.slack (v : VPool) (p : PairId) : Int := (v.positions.get p).elim 0 (fun pp => 2 * (|pp.oiLong| + |pp.oiShort|))

theorem updatePair_gap {c : Ctx} {w : W} {pool : VPool} {p : PairId} {b : Bool}
    (h : updatePair c w.pool p = Except.ok (pool, b)) : |({ w with pool } : W).gap - w.gap| ≤ w.pool.slack p := by
  obtain ⟨pc, price, pp0, pp1, dPool, seconds, period, -, -, hpp, -, -, hf, rfl, -⟩ := updatePair_ok h
  have h1 := fundingStep_close hf
  unfold W.gap VPool.slack
  simp only [hpp, Option.elim_some, AMap.sum_set, AMap.term]
  have e : ({ pp0.snapAt price with lastPrice := price, lastUpdate := c.now } : PoolPosition).charged = pp0.charged := rfl
  rw [e] at h1
  have e2 : ({ pp0.snapAt price with lastPrice := price, lastUpdate := c.now } : PoolPosition).oiLong = pp0.oiLong := rfl
  have e3 : ({ pp0.snapAt price with lastPrice := price, lastUpdate := c.now } : PoolPosition).oiShort = pp0.oiShort := rfl
  rw [e2, e3] at h1
  refine le_trans (le_of_eq ?_) h1
  congr 1
  ring

theorem settledPos_settled (pp : PoolPosition) (pos : AccountPosition) :
    (settledPos pp pos).settled - pos.settled = pos.debt pp := by
  unfold settledPos AccountPosition.settled AccountPosition.debt
  simp only
  split
  · rename_i h; rw [abs_of_pos h]; ring
  · rename_i h; rw [abs_of_nonpos (by omega)]; ring

/-- The account's position in the pair, if it is not empty, is settled up to the pair's indexes. -/
def W.Settled (w : W) (p : PairId) : Prop :=
  ∃ pp, w.pool.positions.get p = some pp ∧ ((w.acc.position p).amount > 0 → (w.acc.position p).fundingIndex = pp.fundingLongIndex) ∧
    ((w.acc.position p).amount < 0 → (w.acc.position p).fundingIndex = pp.fundingShortIndex)

theorem settleFunding_gap {w w' : W} {p : PairId} {n : Dec} (h : settleFunding w p = Except.ok (w', n)) :
    |w'.gap - w.gap| ≤ ONE ∧ w'.Settled p := by
  obtain ⟨pp, hpp, hn, h1, h2, -⟩ := settleFunding_ok h
  cases hg : w.acc.positions.get p with
  | none =>
    rw [hg] at hn h2
    simp only [Option.elim_none] at hn
    have hn : n = 0 := by omega
    subst hn
    have hgap : w'.gap = w.gap := gap_congr (by rw [h1]; simp) (by rw [h1]) (by rw [h2])
    refine ⟨by rw [hgap]; simp [ONE_pos.le], pp, by rw [h1]; exact hpp, ?_, ?_⟩ <;>
      simp [h2, VAccount.position, AMap.getD, hg, AccountPosition.zero]
  | some pos =>
    rw [hg] at hn h2
    simp only [Option.elim_some] at hn h2
    refine ⟨?_, pp, by rw [h1]; exact hpp, ?_, ?_⟩
    · have e1 := settledPos_settled pp pos
      have e2 := fundingOwed_close pp pos
      have e : w'.gap - w.gap = -(ONE * fundingOwed pp pos - pos.debt pp) := by
        unfold W.gap
        rw [h1, h2, hn]
        simp only [AMap.sum_set, AMap.term, hg, ← e1]
        ring
      rw [e, abs_neg]
      exact e2.le
    · intro ha
      simp only [h2, VAccount.position, AMap.getD, AMap.get_set_self, Option.getD_some, settledPos] at ha ⊢
      rw [if_pos ha]
    · intro ha
      simp only [h2, VAccount.position, AMap.getD, AMap.get_set_self, Option.getD_some, settledPos] at ha ⊢
      rw [if_neg (by omega)]

theorem position_term (v : VAccount) (p : PairId) :
    v.positions.term (fun _ pos => pos.settled) p = (v.position p).settled := by
  unfold AMap.term VAccount.position AMap.getD
  cases v.positions.get p with
  | none => rfl
  | some x => rfl

/-- Replacing the position in a pair on both sides. -/
theorem gap_move {w w' : W} {p : PairId} {pp pp' : PoolPosition} {new : AccountPosition}
    (hpp : w.pool.positions.get p = some pp) (h1 : w'.pool.positions = w.pool.positions.set p pp')
    (h2 : w'.acc.positions = w.acc.positions.set p new) (h3 : w'.pool.unreal = w.pool.unreal) :
    w'.gap = w.gap - (pp'.charged - pp.charged) + (new.settled - (w.acc.position p).settled) := by
  unfold W.gap
  rw [h1, h2, h3, AMap.sum_set, AMap.sum_set, position_term]
  simp only [AMap.term, hpp]
  ring

theorem closed_charged (pp : PoolPosition) (x cost price : Dec) :
    ((pp.closed x cost).snapAt price).charged - pp.charged =
      if x < 0 then x * pp.fundingLongIndex else -x * pp.fundingShortIndex := by
  unfold PoolPosition.closed PoolPosition.charged PoolPosition.snapAt
  split <;> (simp only; ring)

theorem opened_charged (pp : PoolPosition) (x cost price : Dec) :
    ((pp.opened x cost).snapAt price).charged - pp.charged =
      if x > 0 then x * pp.fundingLongIndex else -x * pp.fundingShortIndex := by
  unfold PoolPosition.opened PoolPosition.charged PoolPosition.snapAt
  split <;> (simp only; ring)

theorem closed_index (pp : PoolPosition) (x cost price : Dec) :
    ((pp.closed x cost).snapAt price).fundingLongIndex = pp.fundingLongIndex ∧
    ((pp.closed x cost).snapAt price).fundingShortIndex = pp.fundingShortIndex := by
  unfold PoolPosition.closed PoolPosition.snapAt
  split <;> exact ⟨rfl, rfl⟩

theorem opened_index (pp : PoolPosition) (x cost price : Dec) :
    ((pp.opened x cost).snapAt price).fundingLongIndex = pp.fundingLongIndex ∧
    ((pp.opened x cost).snapAt price).fundingShortIndex = pp.fundingShortIndex := by
  unfold PoolPosition.opened PoolPosition.snapAt
  split <;> exact ⟨rfl, rfl⟩

theorem closePosition_gap {c : Ctx} {w w' : W} {p : PairId} {x pnl fee : Dec}
    (h : closePosition c w p x = Except.ok (w', pnl, fee)) (h0 : w.Settled p) : w'.gap = w.gap ∧ w'.Settled p := by
  obtain ⟨pc, price, pp, -, -, hpp, hne, hsign, habs, -, -, -, h1, h2, -⟩ := closePosition_ok h
  obtain ⟨pp0, hpp0, hl, hs⟩ := h0
  rw [hpp] at hpp0; cases hpp0
  have hpos : w'.acc.position p = { w.acc.position p with
      amount := (w.acc.position p).amount + x
      cost := (w.acc.position p).cost - closedCost (w.acc.position p) x } := by
    rw [h2]; simp [VAccount.position, AMap.getD, VAccount.setPosition]
  obtain ⟨i1, i2⟩ := closed_index pp x (closedCost (w.acc.position p) x) price
  have hc : ((w.acc.position p).amount > 0 ∧ x ≤ 0 ∧ 0 ≤ (w.acc.position p).amount + x) ∨
      ((w.acc.position p).amount < 0 ∧ 0 ≤ x ∧ (w.acc.position p).amount + x ≤ 0) := by
    rcases lt_or_gt_of_ne hne with ha | ha
    · right
      rw [Int.sign_eq_neg_one_of_neg ha] at hsign
      have hx : 0 ≤ x := by
        by_contra hx
        rw [Int.sign_eq_neg_one_of_neg (by omega)] at hsign
        omega
      rw [abs_of_nonneg hx, abs_of_neg ha] at habs
      exact ⟨ha, hx, by omega⟩
    · left
      rw [Int.sign_eq_one_of_pos ha] at hsign
      have hx : x ≤ 0 := by
        by_contra hx
        rw [Int.sign_eq_one_of_pos (by omega)] at hsign
        omega
      rw [abs_of_nonpos hx, abs_of_pos ha] at habs
      exact ⟨ha, hx, by omega⟩
  constructor
  · rw [gap_move hpp (by rw [h1]; rfl) (by rw [h2]; rfl) (by rw [h1]; rfl), closed_charged]
    unfold AccountPosition.settled
    simp only
    rcases hc with ⟨ha, hx, hs'⟩ | ⟨ha, hx, hs'⟩
    · rw [hl ha, abs_of_nonneg hs', abs_of_pos ha]
      split
      · ring
      · have : x = 0 := by omega
        subst this; ring
    · rw [hs ha, abs_of_nonpos hs', abs_of_neg ha, if_neg (by omega)]
      ring
  · refine ⟨_, by rw [h1]; exact AMap.get_set_self _ _ _, ?_, ?_⟩
    · rw [hpos, i1]; simp only
      intro hp
      exact hl (by rcases hc with h | h <;> omega)
    · rw [hpos, i2]; simp only
      intro hp
      exact hs (by rcases hc with h | h <;> omega)

theorem openPosition_gap {c : Ctx} {w w' : W} {p : PairId} {x fee : Dec}
    (h : openPosition c w p x = Except.ok (w', fee)) (h0 : w.Settled p) : w'.gap = w.gap := by
  obtain ⟨pc, price, pp, -, -, hpp, hsign, -, -, -, -, h1, h2, -⟩ := openPosition_ok h
  obtain ⟨pp0, hpp0, hl, hs⟩ := h0
  rw [hpp] at hpp0; cases hpp0
  rw [gap_move hpp (by rw [h1]; rfl) (by rw [h2]; rfl) (by rw [h1]; rfl), opened_charged]
  unfold AccountPosition.settled
  simp only
  rcases lt_trichotomy (w.acc.position p).amount 0 with ha | ha | ha
  · rw [Int.sign_eq_neg_one_of_neg ha] at hsign
    have hx : x ≤ 0 := by
      by_contra hx
      rw [Int.sign_eq_one_of_pos (by omega)] at hsign
      omega
    rw [hs ha, if_neg (by omega), if_neg (by omega), abs_of_nonpos (by omega), abs_of_neg ha]
    ring
  · rw [ha]
    simp only [zero_add, abs_zero]
    split
    · rename_i hx; rw [abs_of_pos hx]; ring
    · rename_i hx; rw [abs_of_nonpos (by omega)]; ring
  · rw [Int.sign_eq_one_of_pos ha] at hsign
    have hx : 0 ≤ x := by
      by_contra hx
      rw [Int.sign_eq_neg_one_of_neg (by omega)] at hsign
      omega
    rw [hl ha, if_pos (show (w.acc.position p).amount + x > 0 by omega),
      abs_of_pos (show (w.acc.position p).amount + x > 0 by omega), abs_of_pos ha]
    split
    · ring
    · have : x = 0 := by omega
      subst this; ring

theorem settleFees_gap {ex : ExchangeConfig} {w w' : W} {fee : Dec} {f : FeeSplit}
    (h : settleFeesReferral ex w fee = Except.ok (w', f)) : w'.gap = w.gap := by
  have hs := settleFees_same h
  obtain ⟨hp, -⟩ := settleFeesReferral_ok h
  exact gap_congr (by rw [hp]) hs.2.2.2.2.2 hs.1

theorem updatePair_slack {c : Ctx} {v v' : VPool} {p : PairId} {b : Bool}
    (h : updatePair c v p = Except.ok (v', b)) (q : PairId) : v'.slack q = v.slack q := by
  obtain ⟨pc, price, pp0, pp1, dPool, seconds, period, -, -, hpp, -, -, hf, rfl, -⟩ := updatePair_ok h
  have h1 := fundingStep_only hf
  unfold VPool.slack
  simp only [AMap.get_set]
  split
  · rename_i e; subst e
    rw [hpp]
    rw [h1]; rfl
  · rfl

/-- An executed order moves the gap by rounding only. -/
theorem marginOrder_gap {c : Ctx} {w w' : W} {r : MarginOrderReq} {e : MarginOrderEv}
    (h : marginOrder c w r = Except.ok (w', e)) : |w'.gap - w.gap| ≤ w.pool.slack r.pair + ONE := by
  obtain ⟨price, pool, b, w1, funding, close, op, w2, pnl, fee, ok, w3, fees, a1, a2, -, -, hup, hf,
    -, hx, -, -, hfee, ha1, ha2, hw', -, -⟩ := marginOrder_ok h
  obtain ⟨wc, f1, f2, hc, ho, rfl⟩ := executeOrder_ok hx
  have g1 := updatePair_gap hup
  obtain ⟨g2, hs⟩ := settleFunding_gap hf
  have g3 : wc.gap = w1.gap ∧ wc.Settled r.pair := by
    unfold closePart at hc
    split at hc
    · exact closePosition_gap hc hs
    · simp only [pure_ok, Prod.mk.injEq] at hc
      rw [← hc.1]; exact ⟨rfl, hs⟩
  have g4 : w2.gap = wc.gap := by
    unfold openPart at ho
    split at ho
    · exact openPosition_gap ho g3.2
    · simp only [pure_ok, Prod.mk.injEq] at ho
      rw [← ho.1]
  have g5 := settleFees_gap hfee
  have g6 : w'.gap = w3.gap := by
    rw [hw']
    refine gap_congr rfl rfl ?_
    rw [(trySetStatus_reqOnly ha2).same.1, (trySetStatus_reqOnly ha1).same.1]
  rw [abs_le] at g1 g2 ⊢
  have := g3.1
  omega

theorem autoDeleverage_gap {c : Ctx} {w w' : W} {p : PairId} {e : AdlEv}
    (h : autoDeleverage c w p = Except.ok (w', e)) : |w'.gap - w.gap| ≤ w.pool.slack p + ONE := by
  obtain ⟨pool, b, w1, funding, ratio0, price, pct, thr, w2, pnl, fee, fees, ratio1, hup, hf, -, -, -,
    -, -, -, -, -, hcl, hfee, -, -, -⟩ := autoDeleverage_ok h
  have g1 := updatePair_gap hup
  obtain ⟨g2, hs⟩ := settleFunding_gap hf
  have g3 := (closePosition_gap hcl hs).1
  have g4 := settleFees_gap hfee
  rw [abs_le] at g1 g2 ⊢
  omega

theorem updates_gap {c : Ctx} : ∀ (l : List PairId) {w : W} {pool : VPool},
    l.foldlM (fun pool p => do let r ← updatePair c pool p; pure r.1) w.pool = Except.ok pool →
    |({ w with pool } : W).gap - w.gap| ≤ (l.map w.pool.slack).sum ∧ ∀ q, pool.slack q = w.pool.slack q := by
  intro l
  induction l with
  | nil =>
    intro w pool h
    simp only [List.foldlM_nil, pure_ok] at h
    subst h
    simp
  | cons p l ih =>
    intro w pool h
    simp only [List.foldlM_cons, bind_ok, pure_ok] at h
    obtain ⟨v1, ⟨⟨v2, b⟩, h1, rfl⟩, h2⟩ := h
    obtain ⟨g2, e2⟩ := ih (w := { w with pool := v2 }) (by simpa only [bind_ok, pure_ok] using h2)
    have g1 := updatePair_gap h1
    have e1 := updatePair_slack h1
    refine ⟨?_, fun q => (e2 q).trans (e1 q)⟩
    have e3 : l.map v2.slack = l.map w.pool.slack := List.map_congr_left (fun q _ => e1 q)
    simp only [e3] at g2
    simp only [List.map_cons, List.sum_cons]
    rw [abs_le] at g1 g2 ⊢
    omega

theorem liqLoop_gap {c : Ctx} {rebate : Dec} : ∀ (l : List (PairId × AccountPosition)) {t t' : VPool × LiqTotals},
    l.foldlM (liquidateOne c rebate) t = Except.ok t' →
    t'.1.unreal = t.1.unreal ∧
    |(t.1.positions.sum (fun _ pp => pp.charged) + ONE * t.2.funding)
      - (t'.1.positions.sum (fun _ pp => pp.charged) + ONE * t'.2.funding)
      - (l.map (fun e => e.2.settled)).sum| ≤ ONE * l.length := by
  intro l
  induction l with
  | nil =>
    intro t t' h
    simp only [List.foldlM_nil, pure_ok] at h
    subst h; simp
  | cons e l ih =>
    intro t t' h
    simp only [List.foldlM_cons, bind_ok] at h
    obtain ⟨t1, h1, h2⟩ := h
    obtain ⟨pc, price, pp, -, -, hpp, e1, e2⟩ := liquidateOne_ok h1
    obtain ⟨u, g⟩ := ih h2
    refine ⟨u.trans (by rw [e1]; rfl), ?_⟩
    have e3 : t1.1.positions.sum (fun _ pp => pp.charged) = t.1.positions.sum (fun _ pp => pp.charged)
        - (e.2.debt pp + e.2.settled) := by
      rw [e1]
      simp only [VPool.setPosition, AMap.sum_set, AMap.term, hpp]
      have := closed_charged pp (-e.2.amount) e.2.cost 0
      have e5 : ((pp.closed (-e.2.amount) e.2.cost).snapAt 0).charged = (pp.closed (-e.2.amount) e.2.cost).charged := rfl
      rw [e5] at this
      have e6 : e.2.debt pp + e.2.settled = if -e.2.amount < 0 then e.2.amount * pp.fundingLongIndex
          else -e.2.amount * pp.fundingShortIndex := by
        rw [debt_split]
        split
        · rw [max_eq_left (by omega), max_eq_right (by omega)]; ring
        · rw [max_eq_right (by omega), max_eq_left (by omega)]; ring
      rw [e6]
      split at this
      · rename_i hlt; rw [if_pos hlt]; linarith
      · rename_i hlt; rw [if_neg hlt]; linarith
    have e4 : t1.2.funding = t.2.funding + fundingOwed pp e.2 := by rw [e2]
    have e7 := fundingOwed_close pp e.2
    simp only [List.map_cons, List.sum_cons, List.length_cons, Nat.cast_add, Nat.cast_one]
    rw [e3, e4] at g
    rw [abs_lt] at e7
    rw [abs_le] at g ⊢
    constructor <;> nlinarith [e7.1, e7.2, g.1, g.2]

theorem snaps_gap {c : Ctx} {acc : VAccount} {d : FeeDist} (l : List PairId) {v v' : VPool}
    (h : l.foldlM (updatePairSnaps c) v = Except.ok v') :
    (⟨v', acc, d⟩ : W).gap = (⟨v, acc, d⟩ : W).gap := by
  refine (foldlM_rel (P := fun v v' : VPool => (⟨v', acc, d⟩ : W).gap = (⟨v, acc, d⟩ : W).gap)
    (fun _ => rfl) (fun a b c h1 h2 => h2.trans h1) (fun a b p h => ?_) _ h)
  obtain ⟨price, pp, -, hpp, rfl⟩ := updatePairSnaps_ok h
  unfold W.gap
  simp only [AMap.sum_set, AMap.term, hpp]
  have : (pp.snapAt price).charged = pp.charged := rfl
  rw [this]; ring

theorem liquidatePositions_gap {c : Ctx} {w w' : W} {tot : LiqTotals}
    (h : liquidatePositions c w = Except.ok (w', tot)) :
    |w'.gap - w.gap| ≤ (w.acc.positions.keys.map (fun p => w.pool.slack p + ONE)).sum := by
  obtain ⟨p1, p2, p3, h1, h2, h3, rfl⟩ := liquidatePositions_ok h
  obtain ⟨g1, -⟩ := updates_gap _ h1
  obtain ⟨u2, g2⟩ := liqLoop_gap _ h2
  have g3 := snaps_gap (acc := w.acc.noPositions) (d := w.dist) _ h3
  have e1 : (⟨{ p2 with unreal := p2.unreal - tot.funding }, w.acc.noPositions, w.dist⟩ : W).gap
      = ONE * (p2.unreal - tot.funding) - p2.positions.sum (fun _ pp => pp.charged) := by
    unfold W.gap
    simp only
    rw [AMap.sum_zero (m := w.acc.noPositions.positions)]
    · ring
    · intro q x hq
      simp only [VAccount.noPositions, AMap.get_mapV, Option.map_eq_some_iff] at hq
      obtain ⟨_, -, rfl⟩ := hq
      simp [AccountPosition.settled, AccountPosition.zero]
  have e2 : (({ w with pool := p1 } : W)).gap = ONE * p1.unreal - p1.positions.sum (fun _ pp => pp.charged)
      + (w.acc.positions.entries.map (fun e => e.2.settled)).sum := rfl
  have e3 : (w.acc.positions.keys.map (fun p => w.pool.slack p + ONE)).sum
      = (w.acc.positions.keys.map w.pool.slack).sum + ONE * w.acc.positions.entries.length := by
    have : ∀ l : List PairId, (l.map (fun p => w.pool.slack p + ONE)).sum = (l.map w.pool.slack).sum + ONE * l.length := by
      intro l
      induction l with
      | nil => simp
      | cons x l ih => simp only [List.map_cons, List.sum_cons, ih, List.length_cons]; push_cast; ring
    rw [this]; simp [AMap.keys]
  rw [e3, g3, e1]
  simp only at u2 g2
  rw [e2] at g1
  rw [← u2] at g1
  rw [abs_le] at g1 g2 ⊢
  constructor <;> nlinarith [g1.1, g1.2, g2.1, g2.2]

theorem liquidate_gap {c : Ctx} {w w' : W} {pay : Bucket} {bs : List Bucket} {e : LiquidateEv}
    (h : liquidate c w pay = Except.ok (w', bs, e)) :
    |w'.gap - w.gap| ≤ (w.acc.positions.keys.map (fun p => w.pool.slack p + ONE)).sum := by
  obtain ⟨w1, lp, lc, value, acc, tokens, taken, pool, w2, w3, loss, w4, fees, -, hlp, -, -, -, -, hwd, -, hp,
    hs, hwo, hfee, rfl, -, -⟩ := liquidate_ok h
  have g1 := liquidatePositions_gap hlp
  have e1 : w2.gap = w1.gap := by
    rw [settleAccount_ok hs]
    refine gap_congr ?_ ?_ ?_
    · rw [VPool.deposit_ok hp]
    · rw [VPool.deposit_ok hp]
    · have := withdrawCollateral_collOnly hwd
      simp only; rw [this]
  have e2 : w3.gap = w2.gap := by
    obtain ⟨-, rfl⟩ := writeOff_ok hwo
    exact gap_congr rfl rfl rfl
  have e3 := settleFees_gap hfee
  have e4 : ({ w4 with acc := w4.acc.updateValidStart } : W).gap = w4.gap := gap_congr rfl rfl rfl
  rw [e4, e3, e2, e1]
  exact g1

/-! ## The gap across a call -/

theorem KeeperRun.gap {env : Env} {s s' : State} {a : Addr} {acc acc' : Account} {ids : List PairId}
    {u : Option PriceUpdate} {s1 : State} {c : Ctx} {w0 w : W} (h : KeeperRun env s s' a acc acc' ids u s1 c w0 w)
    (hr : Reach env s) (hr' : Reach env s') : s'.fundingGap - s.fundingGap = w.gap - w0.gap := by
  have h0 := reach_noEmpty hr
  rw [fundingGap_eq hr, fundingGap_eq hr']
  have hcoh : PoolCoh s.now w0.pool := by rw [h.pool0]; exact poolCoh_new s.pool s.now ids
  have g := realGap_path h.path hcoh PoolPosition.charged rfl
  have e1 : s'.pool.positions = w.pool.realPositions := by rw [h.pool]; rfl
  have e2 : s.pool.positions = w0.pool.realPositions := by
    rw [h.pool0]
    exact (congrArg Pool.positions (VPool.realize_new s.pool s.now ids)).symm
  have e3 : s'.pool.unrealizedFunding = w.pool.unreal := by rw [h.pool]; rfl
  have e4 : s.pool.unrealizedFunding = w0.pool.unreal := by rw [h.pool0]; rfl
  have e5 : s'.accounts.sum (fun _ acc => acc.positions.sum (fun _ pos => pos.settled))
      = s.accounts.sum (fun _ acc => acc.positions.sum (fun _ pos => pos.settled))
        - acc.positions.sum (fun _ pos => pos.settled) + acc'.positions.sum (fun _ pos => pos.settled) := by
    rw [AMap.sum_ext (m' := s.accounts.set a acc') (by
      intro b
      rw [AMap.get_set]
      split
      · rename_i e; subst e; exact h.after
      · rename_i e; exact h.others b (fun e' => e e'.symm))]
    rw [AMap.sum_set]
    simp only [AMap.term, h.before]
  have e6 : acc'.positions.sum (fun _ pos => pos.settled) = w.acc.positions.sum (fun _ pos => pos.settled) :=
    AMap.sum_of_filter (P := fun x => decide (x.amount ≠ 0)) (h.positions h0) (by
      intro p x _ hx
      simp only [ne_eq, decide_not, Bool.not_eq_eq_eq_not, Bool.not_false, decide_eq_true_eq] at hx
      simp [AccountPosition.settled, hx])
  have e7 : acc.positions.sum (fun _ pos => pos.settled) = w0.acc.positions.sum (fun _ pos => pos.settled) := by
    rw [h.pos0]
  unfold W.gap
  rw [e1, e2, e3, e4, e5, e6, e7]
  omega

theorem removeCollateral_unreal {c : Ctx} {w w' : W} {r : RemoveCollateralReq} {tokens : List Bucket}
    (h : removeCollateral c w r = Except.ok (w', tokens)) : w'.pool.unreal = w.pool.unreal := by
  obtain ⟨claims, t, acc, bs, -, ht, hw, -, -, rfl, -⟩ := removeCollateral_ok h
  refine foldlM_rel (P := fun a b : W × List Bucket × List (Res × Dec) => b.1.pool.unreal = a.1.pool.unreal)
    (fun _ => rfl) (fun a b c h1 h2 => h2.trans h1) (fun a b d h => ?_) _ ht
  rcases claimOne_ok h with ⟨-, -, -, pool, x, w, hp, hw, rfl⟩ | ⟨-, -, rfl⟩
  · obtain ⟨-, rfl⟩ := VPool.withdraw_ok hp
    simp only [settleAccount_ok hw]
  · rfl

theorem loop_gap {c : Ctx} : ∀ (l : List PairId) {w : W} {pool : VPool} {flags : List Bool},
    updatePairsLoop c w.pool l = Except.ok (pool, flags) →
    |({ w with pool } : W).gap - w.gap| ≤ (l.map w.pool.slack).sum := by
  intro l
  induction l with
  | nil =>
    intro w pool flags h
    simp only [updatePairsLoop, Except.ok.injEq, Prod.mk.injEq] at h
    rw [← h.1]; simp
  | cons p l ih =>
    intro w pool flags h
    simp only [updatePairsLoop, bind_ok, pure_ok, Prod.mk.injEq] at h
    obtain ⟨⟨v2, b⟩, h1, ⟨p2, bs⟩, h2, rfl, -⟩ := h
    have g2 := ih (w := { w with pool := v2 }) h2
    have g1 := updatePair_gap h1
    have e3 : l.map v2.slack = l.map w.pool.slack := List.map_congr_left (fun q _ => updatePair_slack h1 q)
    simp only [e3] at g2
    simp only [List.map_cons, List.sum_cons]
    rw [abs_le] at g1 g2 ⊢
    omega

theorem accounts_settled {env : Env} {cl : Caller} {s s' : State} {op : Op} {o : Out} (hr : Reach env s)
    (h : step env cl s op = Except.ok (s', o)) (hm : ∀ a, ¬ op.moves o a) :
    s'.accounts.sum (fun _ acc => acc.positions.sum (fun _ pos => pos.settled))
      = s.accounts.sum (fun _ acc => acc.positions.sum (fun _ pos => pos.settled)) := by
  cases ho : op.account with
  | none => rw [(body_no_account (step_body h) ho).1]
  | some a =>
    have hothers : ∀ b, b ≠ a → s'.accounts.get b = s.accounts.get b := fun b hb =>
      body_accounts (step_body h) b (by rw [ho]; intro e; exact hb (Option.some.inj e).symm)
    have ext : ∀ acc', s'.accounts.get a = some acc' →
        s'.accounts.sum (fun _ acc => acc.positions.sum (fun _ pos => pos.settled))
          = s.accounts.sum (fun _ acc => acc.positions.sum (fun _ pos => pos.settled))
            - s.accounts.term (fun _ acc => acc.positions.sum (fun _ pos => pos.settled)) a
            + acc'.positions.sum (fun _ pos => pos.settled) := by
      intro acc' ha'
      rw [AMap.sum_ext (m' := s.accounts.set a acc') (by
        intro b
        rw [AMap.get_set]
        split
        · rename_i e; subst e; exact ha'
        · rename_i e; exact hothers b (fun e' => e e'.symm))]
      rw [AMap.sum_set]
    cases hg : s.accounts.get a with
    | some acc =>
      obtain ⟨acc', ha'⟩ := c49_never_removed h hg
      rw [ext acc' ha', AMap.sum_ext (c49_positions_moved_by hr h hg ha' (hm a))]
      simp [AMap.term, hg]
    | none =>
      cases hg' : s'.accounts.get a with
      | none =>
        apply AMap.sum_ext
        intro b
        by_cases e : b = a
        · subst e; rw [hg, hg']
        · exact hothers b e
      | some acc' =>
        rw [ext acc' hg', AMap.sum_zero (m := acc'.positions) (by
          intro p x hx
          rw [c49_new_account_flat h hg hg' p] at hx; cases hx)]
        simp [AMap.term, hg]

/-- **Specification.** The pairs a successful call brings up to date, without repetition. -/
def Op.updates (s : State) (op : Op) (o : Out) : List PairId :=
  match op with
  | .processRequest _ _ _ =>
    match o.ev with
    | .order e => [e.pair]
    | _ => []
  | .liquidate a _ _ => (s.accounts.get a).elim [] (fun acc => acc.positions.keys)
  | .autoDeleverage _ p _ => [p]
  | .updatePairs ids _ => ids.dedup
  | _ => []

/-- **Specification.** The rounding allowed when these pairs are brought up to date, in units of 10⁻³⁶: twice the open
interest of each pair (each of its indexes is a fraction of 10⁻¹⁸ per unit off) plus 10⁻¹⁸ for the one position
that may be settled in it. -/
def State.fundingRounding (s : State) (ps : List PairId) : Int :=
  (ps.map (fun p => 2 * ((s.pool.position s.now p).oiLong + (s.pool.position s.now p).oiShort) + ONE)).sum

theorem reach_oi_nonneg {env : Env} {s : State} (h : Reach env s) (now : Int) (p : PairId) :
    0 ≤ (s.pool.position now p).oiLong ∧ 0 ≤ (s.pool.position now p).oiShort := by
  obtain ⟨h1, h2, -⟩ := c03_open_interest h p
  unfold Pool.position
  cases hg : s.pool.positions.get p with
  | none => exact ⟨le_refl _, le_refl _⟩
  | some pp =>
    rw [hg] at h1 h2
    simp only [Option.elim_some] at h1 h2
    simp only [Option.getD_some]
    rw [h1, h2]
    exact ⟨AMap.sum_nonneg (fun _ _ _ => le_max_right _ _), AMap.sum_nonneg (fun _ _ _ => le_max_right _ _)⟩

theorem slack_new {env : Env} {s : State} (h : Reach env s) (ids : List PairId) (p : PairId) :
    (VPool.new s.pool s.now ids).slack p
      ≤ 2 * ((s.pool.position s.now p).oiLong + (s.pool.position s.now p).oiShort) := by
  obtain ⟨h1, h2⟩ := reach_oi_nonneg h s.now p
  unfold VPool.slack
  simp only [VPool.new, AMap.get_build]
  split
  · simp only [Option.elim_some]
    rw [abs_of_nonneg h1, abs_of_nonneg h2]
  · simp only [Option.elim_none]; omega

theorem list_sum_le {α : Type} (l : List α) {f g : α → Int} (h : ∀ x, f x ≤ g x) : (l.map f).sum ≤ (l.map g).sum := by
  induction l with
  | nil => simp
  | cons x l ih => simp only [List.map_cons, List.sum_cons]; have := h x; omega

/-- **C42 (conservation).** Every successful call changes the difference between the funding the pool has booked as
still to come and the funding the accounts owe by rounding only: less than 10⁻¹⁸ times (twice the open interest plus
one) for every pair the call brings up to date, and not at all if it brings none up to date. -/
theorem c42_conserved {env : Env} {cl : Caller} {s s' : State} {op : Op} {o : Out} (hr : Reach env s)
    (h : step env cl s op = Except.ok (s', o)) :
    |s'.fundingGap - s.fundingGap| ≤ s.fundingRounding (op.updates s o) := by
  have hr' : Reach env s' := .step hr h
  have hb := step_body h
  have quiet : s'.pool.fundingPart = s.pool.fundingPart → (∀ a, ¬ op.moves o a) → s'.fundingGap = s.fundingGap := by
    intro e hm
    have e1 : s'.pool.positions = s.pool.positions := congrArg Prod.fst e
    have e2 : s'.pool.unrealizedFunding = s.pool.unrealizedFunding := congrArg Prod.snd e
    rw [fundingGap_eq hr, fundingGap_eq hr', accounts_settled hr h hm, e1, e2]
  by_cases hm : op.marks = true
  · cases op <;> first | exact (Bool.false_ne_true hm).elim | skip
    case processRequest a i u =>
      by_cases hx : o.ev = .expired
      · have e : s'.fundingGap = s.fundingGap := by
          refine quiet ?_ ?_
          · obtain ⟨v, v1, r, expired, cfg, -, -, -, -, -, hh⟩ := processRequest_ok hb
            rcases hh with ⟨-, acc, refs, -, rfl, -⟩ | ⟨-, s1, c, w, out, acc, refs, -, hex, -, -, ho⟩
            · rfl
            · rw [ho] at hx
              rcases executeRequest_ok hex with ⟨_, _, -, -, rfl⟩ | ⟨_, _, -, -, rfl⟩ <;> cases hx
          · rintro b ⟨-, e, he⟩; rw [hx] at he; cases he
        rw [e]; simp [Op.updates, hx, State.fundingRounding]
      · obtain ⟨acc, acc', kr, ids, s1, c, w0, w, out, hk, -, -, -, hex, hev, -, -⟩ := run_execute hb hx
        rcases executeRequest_ok hex with ⟨rc, tokens, -, hrm, ho⟩ | ⟨mo, e, -, hrm, ho⟩
        · have hev' : o.ev = out.ev := hev
          have hp := removeCollateral_pool hrm
          rw [hk.gap hr hr', gap_congr (removeCollateral_unreal hrm) hp.1 hp.2.2.2.1]
          simp only [Op.updates, hev', ho, sub_self, abs_zero, State.fundingRounding, List.map_nil, List.sum_nil, le_refl]
        · have hg := marginOrder_gap hrm
          have hpr : e.pair = mo.pair := (order_parts hrm).pair
          have hs := slack_new hr ids mo.pair
          rw [hk.pool0] at hg
          rw [hk.gap hr hr']
          simp only [Op.updates, hev, ho, State.fundingRounding, List.map_cons, List.map_nil, List.sum_cons, List.sum_nil,
            hpr]
          omega
    case liquidate a b u =>
      obtain ⟨acc, acc', ids, s1, c, w0, w, tokens, e, hk, -, -, hx, -⟩ := run_liquidate hb
      have hg := liquidate_gap hx
      rw [hk.gap hr hr']
      refine le_trans hg ?_
      simp only [Op.updates, hk.before, Option.elim_some, State.fundingRounding, hk.pos0]
      apply list_sum_le
      intro p
      have := slack_new hr ids p
      rw [hk.pool0]
      omega
    case autoDeleverage a p u =>
      obtain ⟨acc, acc', ids, s1, c, w0, w, e, hk, -, hx, -⟩ := run_adl hb
      have hg := autoDeleverage_gap hx
      have hs := slack_new hr ids p
      rw [hk.pool0] at hg
      rw [hk.gap hr hr']
      simp only [Op.updates, State.fundingRounding, List.map_cons, List.map_nil, List.sum_cons, List.sum_nil]
      omega
    case updatePairs ids u =>
      obtain ⟨s1, c, pool, flags, n, hk, hx, -, he, -⟩ := opUpdatePairs_ok hb
      have hp := updatePairsLoop_path (ex := c.cfg.ex) (acc := default) (d := s.dist) _ hx
      have g := realGap_path hp (poolCoh_new s.pool s.now ids.dedup) PoolPosition.charged rfl
      have hg := loop_gap ids.dedup (w := ⟨VPool.new s.pool s.now ids.dedup, default, s.dist⟩) hx
      have hacc := accounts_settled hr h (fun a => by simp [Op.moves])
      rw [fundingGap_eq hr, fundingGap_eq hr', hacc]
      have e1 : s'.pool.positions = pool.realPositions := by rw [he]; rfl
      have e2 : s'.pool.unrealizedFunding = pool.unreal := by rw [he]; rfl
      have e3 : s.pool.positions = (VPool.new s.pool s.now ids.dedup).realPositions :=
        (congrArg Pool.positions (VPool.realize_new s.pool s.now ids.dedup)).symm
      have e4 : s.pool.unrealizedFunding = (VPool.new s.pool s.now ids.dedup).unreal := rfl
      rw [e1, e2]
      simp only [W.gap] at hg g
      rw [← e3] at g
      rw [← e4] at hg
      have hle : (ids.dedup.map (VPool.new s.pool s.now ids.dedup).slack).sum
          ≤ s.fundingRounding (Op.updates s (.updatePairs ids u) o) := by
        simp only [Op.updates, State.fundingRounding]
        apply list_sum_le
        intro p
        have := slack_new hr ids.dedup p
        have := ONE_pos
        omega
      rw [abs_le] at hg ⊢
      omega
  · have hm : op.marks = false := by simpa using hm
    rw [quiet (body_pool_frame hb hm) (by
      intro a hma
      cases op <;> first | exact hma | cases hm)]
    have : (op.updates s o) = [] := by cases op <;> first | rfl | cases hm
    rw [this]
    simp [State.fundingRounding]

/-! ## What an update does to its pair -/

/-- The fields of a pool position that only pair updates write. -/
def PoolPosition.fundingData (pp : PoolPosition) : Dec × Dec × Dec × Dec × Int :=
  (pp.fundingLongIndex, pp.fundingShortIndex, pp.funding2Rate, pp.lastPrice, pp.lastUpdate)

/-- The funding data a pair has after an update at `price` in context `c`. -/
def Accrued (c : Ctx) (pp pp' : PoolPosition) (p : PairId) (price d : Dec) : Prop :=
  ∃ pc pp1, c.cfg.pairs.get p = some pc ∧ c.orc.prices.get p = some price ∧
    fundingStep pc { pp.snapAt price with lastPrice := price, lastUpdate := c.now } price
      (pp.skewAt price) |pp.skewAt price| (divT (ofInt (c.now - pp.lastUpdate)) YEAR) = Except.ok (pp1, d) ∧
    pp'.fundingData = pp1.fundingData

/-- The pool positions keep their funding data. -/
def VPool.SameFunding (v v' : VPool) : Prop :=
  ∀ q, (v'.positions.get q).map PoolPosition.fundingData = (v.positions.get q).map PoolPosition.fundingData

theorem sameFunding_refl (v : VPool) : v.SameFunding v := fun _ => rfl

theorem VPool.SameFunding.trans {a b c : VPool} (h1 : a.SameFunding b) (h2 : b.SameFunding c) : a.SameFunding c :=
  fun q => (h2 q).trans (h1 q)

theorem sameFunding_set {v v' : VPool} {p : PairId} {pp pp' : PoolPosition} (hpp : v.positions.get p = some pp)
    (h : v'.positions = v.positions.set p pp') (e : pp'.fundingData = pp.fundingData) : v.SameFunding v' := by
  intro q
  rw [h, AMap.get_set]
  split
  · rename_i hq; subst hq; rw [hpp]; simp [e]
  · rfl

theorem VPool.SameFunding.get {v v' : VPool} (h : v.SameFunding v') {p : PairId} {pp : PoolPosition}
    (hp : v.positions.get p = some pp) : ∃ pp', v'.positions.get p = some pp' ∧ pp'.fundingData = pp.fundingData := by
  have := h p
  rw [hp] at this
  simpa using this

theorem updatePair_accrued {c : Ctx} {v v' : VPool} {p : PairId} {b : Bool}
    (h : updatePair c v p = Except.ok (v', b)) :
    (∃ pp pp' price d, v.positions.get p = some pp ∧ v'.positions.get p = some pp' ∧ Accrued c pp pp' p price d ∧
      v'.unreal = v.unreal + d) ∧
    ∀ q, q ≠ p → v'.positions.get q = v.positions.get q := by
  obtain ⟨pc, price, pp0, pp1, dPool, seconds, period, hpc, hpr, hpp, rfl, rfl, hf, rfl, -⟩ := updatePair_ok h
  exact ⟨⟨pp0, pp1, price, dPool, hpp, AMap.get_set_self _ _ _, ⟨pc, pp1, hpc, hpr, hf, rfl⟩, rfl⟩,
    fun q hq => AMap.get_set_ne _ _ (Ne.symm hq)⟩

theorem settleFunding_sameFunding {w w' : W} {p : PairId} {n : Dec} (h : settleFunding w p = Except.ok (w', n)) :
    w.pool.SameFunding w'.pool := by
  obtain ⟨pp, -, -, h1, -⟩ := settleFunding_ok h
  rw [h1]; exact fun _ => rfl

theorem closePosition_sameFunding {c : Ctx} {w w' : W} {p : PairId} {x pnl fee : Dec}
    (h : closePosition c w p x = Except.ok (w', pnl, fee)) :
    w.pool.SameFunding w'.pool ∧ w'.pool.unreal = w.pool.unreal := by
  obtain ⟨pc, price, pp, -, -, hpp, -, -, -, -, -, -, h1, -⟩ := closePosition_ok h
  refine ⟨sameFunding_set hpp (by rw [h1]; rfl) ?_, by rw [h1]; rfl⟩
  unfold PoolPosition.closed PoolPosition.snapAt
  split <;> rfl

theorem openPosition_sameFunding {c : Ctx} {w w' : W} {p : PairId} {x fee : Dec}
    (h : openPosition c w p x = Except.ok (w', fee)) :
    w.pool.SameFunding w'.pool ∧ w'.pool.unreal = w.pool.unreal := by
  obtain ⟨pc, price, pp, -, -, hpp, -, -, -, -, -, h1, -⟩ := openPosition_ok h
  refine ⟨sameFunding_set hpp (by rw [h1]; rfl) ?_, by rw [h1]; rfl⟩
  unfold PoolPosition.opened PoolPosition.snapAt
  split <;> rfl

theorem executeOrder_sameFunding {c : Ctx} {w w' : W} {p : PairId} {close op pnl fee : Dec}
    (h : executeOrder c w p close op = Except.ok (w', pnl, fee)) :
    w.pool.SameFunding w'.pool ∧ w'.pool.unreal = w.pool.unreal := by
  obtain ⟨wc, f1, f2, hc, ho, rfl⟩ := executeOrder_ok h
  have h1 : w.pool.SameFunding wc.pool ∧ wc.pool.unreal = w.pool.unreal := by
    unfold closePart at hc
    split at hc
    · exact closePosition_sameFunding hc
    · simp only [pure_ok, Prod.mk.injEq] at hc
      rw [← hc.1]; exact ⟨sameFunding_refl _, rfl⟩
  have h2 : wc.pool.SameFunding w'.pool ∧ w'.pool.unreal = wc.pool.unreal := by
    unfold openPart at ho
    split at ho
    · exact openPosition_sameFunding ho
    · simp only [pure_ok, Prod.mk.injEq] at ho
      rw [← ho.1]; exact ⟨sameFunding_refl _, rfl⟩
  exact ⟨h1.1.trans h2.1, h2.2.trans h1.2⟩

theorem settleFees_sameFunding {ex : ExchangeConfig} {w w' : W} {fee : Dec} {f : FeeSplit}
    (h : settleFeesReferral ex w fee = Except.ok (w', f)) :
    w.pool.SameFunding w'.pool ∧ w'.pool.unreal = w.pool.unreal := by
  obtain ⟨hp, -⟩ := settleFeesReferral_ok h
  exact ⟨fun q => by rw [hp], by rw [hp]⟩

/-- The funding settled by a keeper call on one pair. -/
structure OneSettled (c : Ctx) (w w' : W) (p : PairId) (price funding : Dec) : Prop where
  accrued : ∃ pp pp' d, w.pool.positions.get p = some pp ∧ w'.pool.positions.get p = some pp' ∧
    Accrued c pp pp' p price d ∧ w'.pool.unreal = w.pool.unreal + d + funding ∧
    funding = -((w.acc.positions.get p).elim 0 (fundingOwed pp'))
  other : ∀ q, q ≠ p → (w'.pool.positions.get q).map PoolPosition.fundingData
    = (w.pool.positions.get q).map PoolPosition.fundingData

theorem fundingOwed_congr {pp pp' : PoolPosition} (h : pp'.fundingData = pp.fundingData) (pos : AccountPosition) :
    fundingOwed pp' pos = fundingOwed pp pos := by
  simp only [PoolPosition.fundingData, Prod.mk.injEq] at h
  unfold fundingOwed
  rw [h.1, h.2.1]

theorem oneSettled_mk {c : Ctx} {w w1 w' : W} {pool : VPool} {p : PairId} {b : Bool} {funding : Dec}
    (hup : updatePair c w.pool p = Except.ok (pool, b)) (hf : settleFunding { w with pool } p = Except.ok (w1, funding))
    (h : w1.pool.SameFunding w'.pool) (hu : w'.pool.unreal = w1.pool.unreal) :
    ∃ price, OneSettled c w w' p price funding := by
  obtain ⟨⟨pp, pp1, price, d, h1, h2, h3, h4⟩, h5⟩ := updatePair_accrued hup
  obtain ⟨pp2, g1, g2, g3, g4, -⟩ := settleFunding_ok hf
  rw [h2] at g1; cases g1
  obtain ⟨pp', h6, h7⟩ := h.get (p := p) (pp := pp1) (by rw [g3]; exact h2)
  refine ⟨price, ⟨pp, pp', d, h1, h6, ?_, ?_, ?_⟩, ?_⟩
  · obtain ⟨pc, x, a1, a2, a3, a4⟩ := h3
    exact ⟨pc, x, a1, a2, a3, h7.trans a4⟩
  · rw [hu, g3]; simp only; rw [h4]
  · rw [g2]
    simp only
    cases w.acc.positions.get p with
    | none => rfl
    | some pos => simp only [Option.elim_some]; rw [fundingOwed_congr h7]
  · intro q hq
    rw [h q, g3]
    simp only
    rw [h5 q hq]

theorem marginOrder_settled {c : Ctx} {w w' : W} {r : MarginOrderReq} {e : MarginOrderEv}
    (h : marginOrder c w r = Except.ok (w', e)) : OneSettled c w w' r.pair e.price e.funding := by
  obtain ⟨price, pool, b, w1, funding, close, op, w2, pnl, fee, ok, w3, fees, a1, a2, hpr, -, hup, hf,
    -, hx, -, -, hfee, ha1, ha2, hw', -, rfl⟩ := marginOrder_ok h
  have h1 := executeOrder_sameFunding hx
  have h2 := settleFees_sameFunding hfee
  obtain ⟨pr, hs⟩ := oneSettled_mk (w' := w') hup hf (by rw [hw']; exact h1.1.trans h2.1)
    (by rw [hw']; exact h2.2.trans h1.2)
  have : pr = price := by
    obtain ⟨_, _, _, -, -, ⟨pc, x, -, a2, -⟩, -⟩ := hs.accrued
    rw [hpr] at a2; exact (Option.some.inj a2).symm
  rw [this] at hs
  exact hs

theorem autoDeleverage_settled {c : Ctx} {w w' : W} {p : PairId} {e : AdlEv}
    (h : autoDeleverage c w p = Except.ok (w', e)) : OneSettled c w w' p e.price e.funding := by
  obtain ⟨pool, b, w1, funding, ratio0, price, pct, thr, w2, pnl, fee, fees, ratio1, hup, hf, -, -, hpr,
    -, -, -, -, -, hcl, hfee, -, -, rfl⟩ := autoDeleverage_ok h
  have h1 := closePosition_sameFunding hcl
  have h2 := settleFees_sameFunding hfee
  obtain ⟨pr, hs⟩ := oneSettled_mk (w' := w') hup hf (h1.1.trans h2.1) (h2.2.trans h1.2)
  have : pr = price := by
    obtain ⟨_, _, _, -, -, ⟨pc, x, -, a2, -⟩, -⟩ := hs.accrued
    rw [hpr] at a2; exact (Option.some.inj a2).symm
  rw [this] at hs
  exact hs

/-- Several pairs brought up to date one after the other. -/
def AllAccrued (c : Ctx) (v v' : VPool) (l : List PairId) : Prop :=
  (∀ p ∈ l, ∃ pp pp' price d, v.positions.get p = some pp ∧ v'.positions.get p = some pp' ∧ Accrued c pp pp' p price d) ∧
  ∀ q, q ∉ l → (v'.positions.get q).map PoolPosition.fundingData = (v.positions.get q).map PoolPosition.fundingData

theorem allAccrued_cons {c : Ctx} {v v1 v' : VPool} {p : PairId} {b : Bool} {l : List PairId} (hn : p ∉ l)
    (h1 : updatePair c v p = Except.ok (v1, b)) (h2 : AllAccrued c v1 v' l) : AllAccrued c v v' (p :: l) := by
  obtain ⟨⟨pp, pp1, price, d, g1, g2, g3, -⟩, g5⟩ := updatePair_accrued h1
  constructor
  · intro q hq
    by_cases e : q = p
    · subst e
      have := h2.2 q hn
      rw [g2, Option.map_some, Option.map_eq_some_iff] at this
      obtain ⟨pp', a, b⟩ := this
      obtain ⟨pc, x, a1, a2, a3, a4⟩ := g3
      exact ⟨pp, pp', price, d, g1, a, ⟨pc, x, a1, a2, a3, b.trans a4⟩⟩
    · obtain ⟨qq, qq', pr, d', a1, a2, a3⟩ := h2.1 q (by simpa [e] using hq)
      exact ⟨qq, qq', pr, d', by rw [← g5 q e]; exact a1, a2, a3⟩
  · intro q hq
    simp only [List.mem_cons, not_or] at hq
    rw [h2.2 q hq.2, g5 q hq.1]

theorem loop_accrued {c : Ctx} : ∀ (l : List PairId) {v v' : VPool} {flags : List Bool}, l.Nodup →
    updatePairsLoop c v l = Except.ok (v', flags) → AllAccrued c v v' l := by
  intro l
  induction l with
  | nil =>
    intro v v' flags _ h
    simp only [updatePairsLoop, Except.ok.injEq, Prod.mk.injEq] at h
    rw [← h.1]; exact ⟨by simp, fun _ _ => rfl⟩
  | cons p l ih =>
    intro v v' flags hn h
    simp only [updatePairsLoop, bind_ok, pure_ok, Prod.mk.injEq] at h
    obtain ⟨⟨v2, b⟩, h1, ⟨p2, bs⟩, h2, rfl, -⟩ := h
    rw [List.nodup_cons] at hn
    exact allAccrued_cons hn.1 h1 (ih hn.2 h2)

theorem fold_accrued {c : Ctx} : ∀ (l : List PairId) {v v' : VPool}, l.Nodup →
    l.foldlM (fun pool p => do let r ← updatePair c pool p; pure r.1) v = Except.ok v' → AllAccrued c v v' l := by
  intro l
  induction l with
  | nil =>
    intro v v' _ h
    simp only [List.foldlM_nil, pure_ok] at h
    rw [← h]; exact ⟨by simp, fun _ _ => rfl⟩
  | cons p l ih =>
    intro v v' hn h
    simp only [List.foldlM_cons, bind_ok, pure_ok] at h
    obtain ⟨v1, ⟨⟨v2, b⟩, h1, rfl⟩, h2⟩ := h
    rw [List.nodup_cons] at hn
    exact allAccrued_cons hn.1 h1 (ih hn.2 (by simpa only [bind_ok, pure_ok] using h2))

theorem AllAccrued.same {c : Ctx} {v v1 v' : VPool} {l : List PairId} (h : AllAccrued c v v1 l) (h2 : v1.SameFunding v') :
    AllAccrued c v v' l := by
  constructor
  · intro p hp
    obtain ⟨pp, pp1, price, d, g1, g2, ⟨pc, x, a1, a2, a3, a4⟩⟩ := h.1 p hp
    obtain ⟨pp', g3, g4⟩ := h2.get g2
    exact ⟨pp, pp', price, d, g1, g3, ⟨pc, x, a1, a2, a3, g4.trans a4⟩⟩
  · intro q hq
    rw [h2 q, h.2 q hq]

theorem liqLoop_sameFunding {c : Ctx} {rebate : Dec} (l : List (PairId × AccountPosition)) {t t' : VPool × LiqTotals}
    (h : l.foldlM (liquidateOne c rebate) t = Except.ok t') : t.1.SameFunding t'.1 := by
  refine foldlM_rel (P := fun a b : VPool × LiqTotals => a.1.SameFunding b.1) (fun _ => sameFunding_refl _)
    (fun a b c h1 h2 => h1.trans h2) (fun a b e h => ?_) _ h
  obtain ⟨pc, price, pp, -, -, hpp, e1, -⟩ := liquidateOne_ok h
  refine sameFunding_set hpp (by rw [e1]; rfl) ?_
  unfold PoolPosition.closed
  split <;> rfl

theorem snaps_sameFunding {c : Ctx} (l : List PairId) {v v' : VPool}
    (h : l.foldlM (updatePairSnaps c) v = Except.ok v') : v.SameFunding v' := by
  refine foldlM_rel (P := fun a b : VPool => a.SameFunding b) (fun _ => sameFunding_refl _)
    (fun a b c h1 h2 => h1.trans h2) (fun a b p h => ?_) _ h
  obtain ⟨price, pp, -, hpp, rfl⟩ := updatePairSnaps_ok h
  exact sameFunding_set hpp rfl rfl

theorem liquidate_accrued {c : Ctx} {w w' : W} {pay : Bucket} {bs : List Bucket} {e : LiquidateEv}
    (h : liquidate c w pay = Except.ok (w', bs, e)) : AllAccrued c w.pool w'.pool w.acc.positions.keys := by
  obtain ⟨w1, lp, lc, value, acc, tokens, taken, pool, w2, w3, loss, w4, fees, -, hlp, -, -, -, -, hwd, -, hp,
    hs, hwo, hfee, rfl, -, -⟩ := liquidate_ok h
  obtain ⟨p1, p2, p3, h1, h2, h3, rfl⟩ := liquidatePositions_ok hlp
  have a1 := fold_accrued _ w.acc.positions.keys_nodup h1
  have a2 := liqLoop_sameFunding _ h2
  have a3 := snaps_sameFunding _ h3
  have a4 : p3.SameFunding w2.pool := by rw [settleAccount_ok hs, VPool.deposit_ok hp]; exact fun _ => rfl
  have a5 : w2.pool.SameFunding w3.pool := by obtain ⟨-, rfl⟩ := writeOff_ok hwo; exact fun _ => rfl
  have a6 := (settleFees_sameFunding hfee).1
  have a3' : p2.SameFunding p3 := fun q => (a3 q)
  exact ((((a1.same a2).same a3').same a4).same a5).same a6

end Perp
