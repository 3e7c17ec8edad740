import Verif.AMap

/-!
# DFloat16 — common/src/d_float.rs

A 16-bit decimal float: 5 bits of exponent, 11 bits of biased significand, stored in a `u16`.
-/

namespace Perp

/-- The raw `u16` of a `DFloat16`.  common/src/d_float.rs:6-7 -/
structure DFloat where
  bits : Nat
deriving DecidableEq, Repr

/-- `DFloat16::new(exp, sig)`: biases, range assertions, packing.  common/src/d_float.rs:24-34.
The casts `as u16` of negative numbers give values that fail the range assertions. -/
def DFloat.mk' (exp sig : Int) : R DFloat :=
  if 0 ≤ exp + 15 ∧ exp + 15 < 32 ∧ 0 ≤ sig + 1023 ∧ sig + 1023 < 2048 then
    .ok ⟨((exp + 15).toNat <<< 11) ||| (sig + 1023).toNat⟩
  else .error .invalidConfig

/-- `impl Into<Decimal> for DFloat16`.  common/src/d_float.rs:37-41 -/
def DFloat.toDec (f : DFloat) : Dec :=
  (((f.bits &&& 2047 : Nat) : Int) - 1023) * 10 ^ (f.bits >>> 11)

/-- `I192::BITS - value.abs().leading_zeros()`: the bit length.  common/src/d_float.rs:49 -/
def bitLen (n : Nat) : Nat := if n = 0 then 0 else Nat.log2 n + 1

/-- `pos_10` of common/src/d_float.rs:50 -/
def pos10 (v : Int) : Nat := max (bitLen v.natAbs * 30103 / 100000) 3

/-- `impl From<Decimal> for DFloat16`.  common/src/d_float.rs:43-63.  `to_i16().unwrap()` always
succeeds (the quotient is below 10^4), `sig /= 10` truncates toward zero. -/
def DFloat.ofDec (v : Dec) : R DFloat :=
  if v = 0 then DFloat.mk' 0 0
  else
    let p := pos10 v
    let exp : Int := (p : Int) - 18
    let sig : Int := v.tdiv (10 ^ (p - 3))
    if sig > 1024 ∨ sig < -1023 then DFloat.mk' (exp + 1) (sig.tdiv 10)
    else DFloat.mk' exp sig

end Perp
