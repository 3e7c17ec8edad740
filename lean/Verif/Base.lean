import Mathlib.Tactic.Ring
import Mathlib.Tactic.Linarith

/-!
# Base layer: errors, the result monad, checked decimals, ledger rounding

Models the parts of `scrypto::prelude` (Scrypto 1.2.0) that the code in /repo uses:
`Decimal` arithmetic, `Instant` arithmetic, panics, `WithdrawStrategy` rounding.
-/

namespace Perp

/-- Reasons for a panic.  exchange/src/exchange/errors.rs:1-68 and the error constants of the other
blueprints, collapsed to the cases that the model distinguishes. -/
inductive Err where
  | arithmetic | vault | badBucket | role | authority | invalidFeeOath
  | skewTooHigh | pairOiTooHigh | insufficientMargin
  | priceLimit | slippageLimit
  | invalidPaymentToken | invalidProtocolToken | invalidLpToken
  | insufficientPayment | insufficientBalance | insufficientPoolTokens
  | sufficientMargin
  | adlSkewTooLow | adlPnlBelowThreshold | adlSkewNotReduced | adlNoPosition
  | noDebt | claimsTooMany | effectedTooMany | tradeSizeMin
  | invalidCollateral | positionsTooMany | collateralsTooMany | activeTooMany
  | invalidAccount | invalidMarginAccount | invalidStatus | invalidLevel
  | invalidPrice | priceTooOld
  | missingPoolPosition | missingPairConfig | missingPrice | missingFeed | missingRequest
  | cancelNotActive | processNotActive | processBeforeStart | processBeforeSubmission
  | invalidReferralData | invalidReferral | referralLimit
  | keyExists | badKey | badSignature | missingPair
  | claimAmount | insufficientToken | codeExists | codeNotFound | codeClaimed
  | allocNotFound | allocLimit | multiUseWithClaims
  | maxLock | oathOutstanding | invalidConfig | outOfBounds | assertion
  | childToken | wrapDisabled | flashOath | flashPayment
deriving DecidableEq, Repr

/-- Result of a call: a value or a panic (which aborts the transaction). -/
abbrev R (α : Type) := Except Err α

/-- `assert!(cond, err)`. -/
def require (c : Bool) (e : Err) : R Unit := if c then .ok () else .error e

/-- `Option::expect(err)`. -/
def expect {α : Type} (o : Option α) (e : Err) : R α :=
  match o with
  | some a => .ok a
  | none => .error e

theorem bind_ok {α β : Type} {x : R α} {f : α → R β} {b : β} :
    (x >>= f) = Except.ok b ↔ ∃ a, x = Except.ok a ∧ f a = Except.ok b := by
  cases x with
  | error e => simp [bind, Except.bind]
  | ok a => simp [bind, Except.bind]

theorem pure_ok {α : Type} {a b : α} : (pure a : R α) = Except.ok b ↔ a = b := by
  simp [pure, Except.pure]

theorem require_ok {c : Bool} {e : Err} {u : Unit} : require c e = Except.ok u ↔ c = true := by
  unfold require; split <;> simp_all

theorem expect_ok {α : Type} {o : Option α} {e : Err} {a : α} :
    expect o e = Except.ok a ↔ o = some a := by
  unfold expect; cases o <;> simp

theorem ite_ok {α : Type} {c : Prop} [Decidable c] {x y : R α} {b : α} :
    (if c then x else y) = Except.ok b ↔ (c ∧ x = Except.ok b) ∨ (¬ c ∧ y = Except.ok b) := by
  split <;> simp_all

/-! ## Decimals -/

/-- `Decimal`: a fixed-point number with 18 decimals, represented by its integer number of attos. -/
notation "Dec" => Int

/-- `Decimal::ONE` in attos. -/
def ONE : Int := 1000000000000000000

theorem ONE_pos : 0 < ONE := by decide

/-- I192 bounds, the representation of `Decimal`. -/
def DMAX : Int := 2 ^ 191 - 1
def DMIN : Int := -(2 ^ 191)

/-- The value fits in an I192. -/
def InRange (a : Int) : Bool := decide (DMIN ≤ a ∧ a ≤ DMAX)

theorem inRange_iff {a : Int} : InRange a = true ↔ DMIN ≤ a ∧ a ≤ DMAX := by
  unfold InRange; exact decide_eq_true_iff

/-- Every decimal operation panics when its result leaves the I192 range. -/
def chk (a : Int) : R Dec := if InRange a then .ok a else .error .arithmetic

theorem chk_ok {a b : Int} : chk a = Except.ok b ↔ InRange a = true ∧ a = b := by
  unfold chk; split <;> simp_all

/-- Truncating fixed-point product (attos in, attos out). -/
def mulT (a b : Int) : Int := (a * b).tdiv ONE
/-- Truncating fixed-point quotient (attos in, attos out). -/
def divT (a b : Int) : Int := (a * ONE).tdiv b

/-- `Decimal + Decimal`. -/
def dadd (a b : Dec) : R Dec := chk (a + b)
/-- `Decimal - Decimal`. -/
def dsub (a b : Dec) : R Dec := chk (a - b)
/-- `-Decimal`. -/
def dneg (a : Dec) : R Dec := chk (-a)
/-- `Decimal * Decimal`: product truncated toward zero. -/
def dmul (a b : Dec) : R Dec := chk (mulT a b)
/-- `Decimal / Decimal`: quotient truncated toward zero, panics on zero divisor. -/
def ddiv (a b : Dec) : R Dec := if b = 0 then .error .arithmetic else chk (divT a b)
/-- `Decimal::checked_abs().expect(..)`. -/
def dabs (a : Dec) : R Dec := chk |a|
/-- `Ord::clamp`, which panics if `lo > hi`. -/
def dclamp (a lo hi : Dec) : R Dec :=
  if lo ≤ hi then .ok (max lo (min a hi)) else .error .arithmetic
/-- `Decimal::from(integer)`. -/
def ofInt (n : Int) : Dec := n * ONE

theorem dadd_ok {a b c : Int} : dadd a b = Except.ok c ↔ InRange (a + b) = true ∧ a + b = c := chk_ok
theorem dsub_ok {a b c : Int} : dsub a b = Except.ok c ↔ InRange (a - b) = true ∧ a - b = c := chk_ok
theorem dneg_ok {a c : Int} : dneg a = Except.ok c ↔ InRange (-a) = true ∧ -a = c := chk_ok
theorem dmul_ok {a b c : Int} : dmul a b = Except.ok c ↔ InRange (mulT a b) = true ∧ mulT a b = c :=
  chk_ok
theorem ddiv_ok {a b c : Int} :
    ddiv a b = Except.ok c ↔ b ≠ 0 ∧ InRange (divT a b) = true ∧ divT a b = c := by
  unfold ddiv; split <;> simp_all [chk_ok]
theorem dabs_ok {a c : Int} : dabs a = Except.ok c ↔ InRange |a| = true ∧ |a| = c := chk_ok
theorem dclamp_ok {a lo hi c : Int} :
    dclamp a lo hi = Except.ok c ↔ lo ≤ hi ∧ max lo (min a hi) = c := by
  unfold dclamp; split <;> simp_all

/-! ## Instants -/

/-- i64 bounds. -/
def I64MAX : Int := 2 ^ 63 - 1
def I64MIN : Int := -(2 ^ 63)

/-- `Instant::add_seconds(s).expect(..)`: checked i64 addition. -/
def addSeconds (t s : Int) : R Int :=
  if I64MIN ≤ t + s ∧ t + s ≤ I64MAX then .ok (t + s) else .error .arithmetic

theorem addSeconds_ok {t s r : Int} :
    addSeconds t s = Except.ok r ↔ (I64MIN ≤ t + s ∧ t + s ≤ I64MAX) ∧ t + s = r := by
  unfold addSeconds; split <;> simp_all

/-- Rust `x as i64` for `x : u64` (two's complement reinterpretation). -/
def u64AsI64 (n : Nat) : Int :=
  let m : Int := (n : Int) % 2 ^ 64
  if m < 2 ^ 63 then m else m - 2 ^ 64

/-- Rust `x as u64` for `x : i64`. -/
def i64AsU64 (i : Int) : Nat := (i % 2 ^ 64).toNat

/-- Rust `x as u16` for `x : i64`. -/
def i64AsU16 (i : Int) : Nat := (i % 65536).toNat

/-! ## Ledger rounding -/

/-- `WithdrawStrategy`: common/src/consts.rs:8-9 uses `Rounded(ToZero)` and
`Rounded(ToPositiveInfinity)`; plain `take` uses `Exact`. -/
inductive Strategy where
  | exact | toZero | toInfinity
deriving DecidableEq, Repr

/-- `ResourceManager::amount_for_withdrawal` for a resource whose smallest unit is `g` attos. -/
def amountFor (g : Nat) (a : Dec) (st : Strategy) : Dec :=
  match st with
  | .exact => a
  | .toZero => a.tdiv g * g
  | .toInfinity => -((-a) / (g : Int)) * g

/-- A vault/bucket withdrawal: rounds, then panics unless the result is a valid amount that is
available. Returns the amount taken. -/
def takeAmount (g : Nat) (avail a : Dec) (st : Strategy) : R Dec :=
  let x := amountFor g a st
  if 0 ≤ x ∧ x % (g : Int) = 0 ∧ x ≤ avail then .ok x else .error .vault

theorem takeAmount_ok {g : Nat} {avail a x : Dec} {st : Strategy} :
    takeAmount g avail a st = Except.ok x ↔
      amountFor g a st = x ∧ 0 ≤ x ∧ x % (g : Int) = 0 ∧ x ≤ avail := by
  unfold takeAmount
  constructor
  · intro h
    simp only at h
    split at h
    · cases h; simp_all
    · cases h
  · rintro ⟨rfl, h0, h1, h2⟩
    simp [h0, h1, h2]

/-- The most that one `mint` call may create: 2^152 attos (radix-engine, `check_mint_amount`). -/
def MAX_MINT : Int := 2 ^ 152

/-- Minting needs a non-negative multiple of the granularity, at most `MAX_MINT`.  (Exceeding the cap counts as an arithmetic
failure.) -/
def mintAmount (g : Nat) (a : Dec) : R Dec :=
  if 0 ≤ a ∧ a % (g : Int) = 0 then (if a ≤ MAX_MINT then .ok a else .error .arithmetic) else .error .vault

theorem mintAmount_ok {g : Nat} {a x : Dec} :
    mintAmount g a = Except.ok x ↔ 0 ≤ a ∧ a % (g : Int) = 0 ∧ a ≤ MAX_MINT ∧ a = x := by
  unfold mintAmount; split
  · split <;> simp_all
  · simp_all

/-! ## Facts about truncation -/

theorem mulT_zero_left (b : Int) : mulT 0 b = 0 := by simp [mulT]
theorem mulT_zero_right (a : Int) : mulT a 0 = 0 := by simp [mulT]
theorem mulT_one_left (b : Int) : mulT ONE b = b := by
  unfold mulT; rw [Int.mul_comm]; exact Int.mul_tdiv_cancel b (by decide)
theorem mulT_one_right (a : Int) : mulT a ONE = a := by
  unfold mulT; exact Int.mul_tdiv_cancel a (by decide)
theorem mulT_comm (a b : Int) : mulT a b = mulT b a := by unfold mulT; rw [Int.mul_comm]
theorem mulT_neg_left (a b : Int) : mulT (-a) b = -mulT a b := by
  unfold mulT; rw [Int.neg_mul, Int.neg_tdiv]
theorem mulT_neg_right (a b : Int) : mulT a (-b) = -mulT a b := by
  unfold mulT; rw [Int.mul_neg, Int.neg_tdiv]
theorem divT_self {a : Int} (h : a ≠ 0) : divT a a = ONE := by
  unfold divT; rw [Int.mul_comm]; exact Int.mul_tdiv_cancel ONE h
theorem divT_zero_left (b : Int) : divT 0 b = 0 := by simp [divT]

theorem tdiv_nonneg_bounds {x d : Int} (hx : 0 ≤ x) (hd : 0 < d) :
    0 ≤ x.tdiv d ∧ x.tdiv d * d ≤ x ∧ x < x.tdiv d * d + d := by
  rw [Int.tdiv_eq_ediv_of_nonneg hx]
  refine ⟨Int.ediv_nonneg hx hd.le, Int.ediv_mul_le x hd.ne', ?_⟩
  have := Int.lt_ediv_add_one_mul_self x hd
  linarith

/-- Non-negative products truncate downward. -/
theorem mulT_nonneg {a b : Int} (ha : 0 ≤ a) (hb : 0 ≤ b) : 0 ≤ mulT a b :=
  (tdiv_nonneg_bounds (Int.mul_nonneg ha hb) ONE_pos).1

theorem mulT_mul_le {a b : Int} (ha : 0 ≤ a) (hb : 0 ≤ b) : mulT a b * ONE ≤ a * b :=
  (tdiv_nonneg_bounds (Int.mul_nonneg ha hb) ONE_pos).2.1

theorem lt_mulT_mul {a b : Int} (ha : 0 ≤ a) (hb : 0 ≤ b) : a * b < mulT a b * ONE + ONE :=
  (tdiv_nonneg_bounds (Int.mul_nonneg ha hb) ONE_pos).2.2

theorem divT_nonneg {a b : Int} (ha : 0 ≤ a) (hb : 0 < b) : 0 ≤ divT a b :=
  (tdiv_nonneg_bounds (Int.mul_nonneg ha ONE_pos.le) hb).1

theorem divT_mul_le {a b : Int} (ha : 0 ≤ a) (hb : 0 < b) : divT a b * b ≤ a * ONE :=
  (tdiv_nonneg_bounds (Int.mul_nonneg ha ONE_pos.le) hb).2.1

theorem lt_divT_mul {a b : Int} (ha : 0 ≤ a) (hb : 0 < b) : a * ONE < divT a b * b + b :=
  (tdiv_nonneg_bounds (Int.mul_nonneg ha ONE_pos.le) hb).2.2

/-- Truncation moves a value by less than one unit, toward zero. -/
theorem tdiv_abs_bound (x : Int) {d : Int} (hd : 0 < d) : |x.tdiv d * d - x| < d := by
  rcases Int.le_total 0 x with hx | hx
  · have := tdiv_nonneg_bounds hx hd
    rw [abs_lt]; constructor <;> linarith [this.2.1, this.2.2]
  · have := tdiv_nonneg_bounds (Int.neg_nonneg.mpr hx) hd
    rw [Int.neg_tdiv] at this
    rw [abs_lt]; constructor <;> linarith [this.2.1, this.2.2]

/-- Truncating twice is truncating once by the product. -/
theorem tdiv_tdiv (x : Int) {a b : Int} (ha : 0 < a) :
    (x.tdiv a).tdiv b = x.tdiv (a * b) := by
  have key : ∀ y : Int, 0 ≤ y → (y.tdiv a).tdiv b = y.tdiv (a * b) := by
    intro y hy
    rw [Int.tdiv_eq_ediv_of_nonneg hy, Int.tdiv_eq_ediv_of_nonneg (Int.ediv_nonneg hy ha.le),
      Int.tdiv_eq_ediv_of_nonneg hy, Int.ediv_ediv_of_nonneg ha.le]
  rcases Int.le_total 0 x with h | h
  · exact key x h
  · have := key (-x) (by omega)
    simpa [Int.neg_tdiv] using this

theorem tdiv_nonpos {x d : Int} (hx : x ≤ 0) (hd : 0 < d) : x.tdiv d ≤ 0 := by
  have := Int.tdiv_nonneg (a := -x) (b := d) (by omega) hd.le
  rw [Int.neg_tdiv] at this; omega

theorem mulT_abs_bound (a b : Int) : |mulT a b * ONE - a * b| < ONE := tdiv_abs_bound _ ONE_pos

theorem mulT_mono_left {a b c : Int} (h : a ≤ b) (hc : 0 ≤ c) : mulT a c ≤ mulT b c := by
  unfold mulT
  exact Int.tdiv_le_tdiv ONE_pos (Int.mul_le_mul_of_nonneg_right h hc)

theorem mulT_le_self {a b : Int} (ha : 0 ≤ a) (hb1 : b ≤ ONE) (_hb : 0 ≤ b) : mulT a b ≤ a := by
  rw [mulT_comm]
  calc mulT b a ≤ mulT ONE a := mulT_mono_left hb1 ha
    _ = a := mulT_one_left a

end Perp
