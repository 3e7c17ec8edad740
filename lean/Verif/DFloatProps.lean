import Verif.Config
import Mathlib.Algebra.Order.Ring.Abs

/-!
# C45: 16-bit decimal floats

`DFloat.ofDec` compresses a decimal (attos) into 16 bits, `DFloat.toDec` expands it again.
-/

namespace Perp

/-- Decoding a packed pair. -/
theorem DFloat.mk'_toDec {exp sig : Int} {f : DFloat} (h : DFloat.mk' exp sig = Except.ok f) :
    f.toDec = sig * 10 ^ (exp + 15).toNat ∧ f.bits < 65536 := by
  unfold DFloat.mk' at h
  split at h
  · rename_i hc
    obtain ⟨h1, h2, h3, h4⟩ := hc
    simp only [Except.ok.injEq] at h
    subst h
    have hs : (sig + 1023).toNat < 2 ^ 11 := by omega
    have he : (exp + 15).toNat < 32 := by omega
    have e : ((exp + 15).toNat <<< 11) ||| (sig + 1023).toNat
        = 2 ^ 11 * (exp + 15).toNat + (sig + 1023).toNat := by
      rw [← Nat.shiftLeft_add_eq_or_of_lt hs, Nat.shiftLeft_eq]; ring
    refine ⟨?_, ?_⟩
    · unfold DFloat.toDec
      simp only [e]
      have hand : (2 ^ 11 * (exp + 15).toNat + (sig + 1023).toNat) &&& 2047 = (sig + 1023).toNat := by
        rw [show (2047 : Nat) = 2 ^ 11 - 1 by norm_num, Nat.and_two_pow_sub_one_eq_mod]
        rw [Nat.mul_add_mod]
        exact Nat.mod_eq_of_lt hs
      have hshr : (2 ^ 11 * (exp + 15).toNat + (sig + 1023).toNat) >>> 11 = (exp + 15).toNat := by
        rw [Nat.shiftRight_eq_div_pow, Nat.mul_add_div (by norm_num), Nat.div_eq_of_lt hs]; rfl
      rw [hand, hshr]
      congr 1
      omega
    · simp only [e]
      omega
  · cases h

/-- Packing succeeds on the representable range. -/
theorem DFloat.mk'_total {exp sig : Int} (h1 : -15 ≤ exp) (h2 : exp ≤ 16) (h3 : -1023 ≤ sig)
    (h4 : sig ≤ 1024) : ∃ f, DFloat.mk' exp sig = Except.ok f := by
  unfold DFloat.mk'
  rw [if_pos (by omega)]
  exact ⟨_, rfl⟩

/-- The decimal-length estimate brackets the powers of two that fit an I192. -/
theorem pow_table : ∀ b : Fin 193,
    10 ^ ((b : Nat) * 30103 / 100000) ≤ 2 ^ (b : Nat) ∧
    2 ^ (b : Nat) < 10 ^ ((b : Nat) * 30103 / 100000 + 1) := by decide +kernel

theorem bitLen_bounds {n : Nat} (h : n ≠ 0) : 2 ^ bitLen n ≤ 2 * n ∧ n < 2 ^ bitLen n := by
  unfold bitLen
  rw [if_neg h]
  refine ⟨?_, Nat.lt_log2_self⟩
  rw [Nat.pow_succ]
  have := Nat.log2_self_le h
  omega

theorem bitLen_le {n : Nat} (h : n ≤ 2 ^ 191) : bitLen n ≤ 192 := by
  unfold bitLen
  split
  · omega
  · rename_i h0
    have : Nat.log2 n < 192 := (Nat.log2_lt h0).mpr (by
      have : (2:Nat) ^ 191 < 2 ^ 192 := by norm_num
      omega)
    omega

/-- Facts about the decimal exponent chosen for `v`. -/
theorem pos10_bounds {v : Int} (h : v ≠ 0) (hr : v.natAbs ≤ 2 ^ 191) :
    3 ≤ pos10 v ∧ v.natAbs < 10 ^ (pos10 v + 1) ∧
    (3 < pos10 v → 10 ^ pos10 v ≤ 2 * v.natAbs) := by
  have hn : v.natAbs ≠ 0 := Int.natAbs_ne_zero.mpr h
  obtain ⟨b1, b2⟩ := bitLen_bounds hn
  have hb := bitLen_le hr
  have t := pow_table ⟨bitLen v.natAbs, by omega⟩
  simp only at t
  obtain ⟨t1, t2⟩ := t
  unfold pos10
  refine ⟨le_max_right _ _, ?_, ?_⟩
  · refine lt_of_lt_of_le (lt_of_lt_of_le b2 t2.le) ?_
    exact Nat.pow_le_pow_right (by norm_num) (by omega)
  · intro h3
    have : max (bitLen v.natAbs * 30103 / 100000) 3 = bitLen v.natAbs * 30103 / 100000 := by omega
    rw [this]; omega

/-- What compression does to a non-zero value: it truncates the magnitude to a multiple of a power of
ten, keeping at least three significant digits (or everything). -/
theorem ofDec_spec {v : Dec} {f : DFloat} (hv : v ≠ 0) (hr : v.natAbs ≤ 2 ^ 191)
    (h : DFloat.ofDec v = Except.ok f) :
    ∃ k : Nat, f.toDec = v.tdiv (10 ^ k) * 10 ^ k ∧ (k = 0 ∨ 102 * 10 ^ k ≤ v.natAbs) := by
  obtain ⟨p3, pu, pl⟩ := pos10_bounds hv hr
  unfold DFloat.ofDec at h
  rw [if_neg hv] at h
  simp only at h
  obtain ⟨q, hq⟩ : ∃ q, pos10 v = q + 3 := ⟨pos10 v - 3, by omega⟩
  have hsub : pos10 v - 3 = q := by omega
  rw [hsub] at h
  split at h
  · rename_i hbig
    obtain ⟨hd, -⟩ := DFloat.mk'_toDec h
    refine ⟨q + 1, ?_, Or.inr ?_⟩
    · rw [hd]
      have : ((pos10 v : Int) - 18 + 1 + 15).toNat = q + 1 := by omega
      rw [this, tdiv_tdiv v (by positivity), pow_succ]
    · have hp : (0 : Int) < 10 ^ q := by positivity
      have hb : 1024 * (10 : Int) ^ q ≤ |v| := by
        rcases hbig with hb | hb
        · have h0 : 0 ≤ v := by
            by_contra hneg
            have := tdiv_nonpos (x := v) (not_le.mp hneg).le hp
            omega
          have := tdiv_nonneg_bounds h0 hp
          have h5 : 1024 * (10:Int) ^ q ≤ v.tdiv (10 ^ q) * 10 ^ q :=
            Int.mul_le_mul_of_nonneg_right (by omega) hp.le
          rw [abs_of_nonneg h0]; linarith [this.2.1]
        · have h0 : 0 ≤ -v := by
            by_contra hneg
            have : 0 ≤ v.tdiv (10 ^ q) := Int.tdiv_nonneg (by linarith [not_le.mp hneg]) hp.le
            linarith
          have := tdiv_nonneg_bounds h0 hp
          rw [Int.neg_tdiv] at this
          have h5 : 1024 * (10:Int) ^ q ≤ (-v.tdiv (10 ^ q)) * 10 ^ q :=
            Int.mul_le_mul_of_nonneg_right (by omega) hp.le
          rw [abs_of_nonpos (by linarith)]; linarith [this.2.1]
      have : 1024 * 10 ^ q ≤ v.natAbs := by
        have e : ((v.natAbs : Nat) : Int) = |v| := Int.natCast_natAbs v
        have : ((1024 * 10 ^ q : Nat) : Int) ≤ (v.natAbs : Nat) := by
          rw [e]; push_cast; exact hb
        exact_mod_cast this
      rw [pow_succ]; omega
  · obtain ⟨hd, -⟩ := DFloat.mk'_toDec h
    refine ⟨q, ?_, ?_⟩
    · rw [hd]
      have : ((pos10 v : Int) - 18 + 15).toNat = q := by omega
      rw [this]
    · by_cases hq0 : q = 0
      · exact Or.inl hq0
      · right
        have := pl (by omega)
        rw [hq, pow_add] at this
        have hp : 0 < 10 ^ q := by positivity
        omega

theorem ofDec_zero {f : DFloat} (h : DFloat.ofDec 0 = Except.ok f) : f.toDec = 0 := by
  unfold DFloat.ofDec at h
  rw [if_pos rfl] at h
  have := (DFloat.mk'_toDec h).1
  rw [this]; simp

/-- **C45**, magnitude and sign: compressing a value never increases its magnitude and never flips its
sign. -/
theorem c45_magnitude {v : Dec} {f : DFloat} (hr : InRange v = true)
    (h : DFloat.ofDec v = Except.ok f) :
    |f.toDec| ≤ |v| ∧ (0 ≤ v → 0 ≤ f.toDec) ∧ (v ≤ 0 → f.toDec ≤ 0) := by
  have hn : v.natAbs ≤ 2 ^ 191 := by
    rw [inRange_iff] at hr; unfold DMIN DMAX at hr; omega
  by_cases hv : v = 0
  · subst hv; rw [ofDec_zero h]; simp
  · obtain ⟨k, hk, -⟩ := ofDec_spec hv hn h
    have hp : (0 : Int) < 10 ^ k := by positivity
    rw [hk]
    rcases Int.le_total 0 v with h0 | h0
    · have := tdiv_nonneg_bounds h0 hp
      have hm := Int.mul_nonneg this.1 hp.le
      refine ⟨?_, fun _ => hm, fun h' => ?_⟩
      · rw [abs_of_nonneg h0, abs_of_nonneg hm]; exact this.2.1
      · have : v = 0 := le_antisymm h' h0
        exact absurd this hv
    · have := tdiv_nonneg_bounds (Int.neg_nonneg.mpr h0) hp
      rw [Int.neg_tdiv] at this
      have hm := Int.mul_nonneg this.1 hp.le
      rw [Int.neg_mul] at hm this
      refine ⟨?_, fun h' => ?_, fun _ => Int.nonpos_of_neg_nonneg hm⟩
      · rw [abs_of_nonpos h0, abs_of_nonpos (Int.nonpos_of_neg_nonneg hm)]; exact this.2.1
      · have : v = 0 := le_antisymm h0 h'
        exact absurd this hv

/-- **C45**, precision: compression loses less than one part in a hundred; in particular only zero
becomes zero. -/
theorem c45_precision {v : Dec} {f : DFloat} (hr : InRange v = true) (hv : v ≠ 0)
    (h : DFloat.ofDec v = Except.ok f) :
    (|v| - |f.toDec|) * 100 < |v| ∧ f.toDec ≠ 0 := by
  have hn : v.natAbs ≤ 2 ^ 191 := by
    rw [inRange_iff] at hr; unfold DMIN DMAX at hr; omega
  obtain ⟨k, hk, hbig⟩ := ofDec_spec hv hn h
  have hp : (0 : Int) < 10 ^ k := by positivity
  have hb : k = 0 ∨ 102 * (10 : Int) ^ k ≤ |v| := by
    rcases hbig with h0 | h0
    · exact Or.inl h0
    · right
      rw [← Int.natCast_natAbs v]
      exact_mod_cast h0
  have hvpos : 0 < |v| := abs_pos.mpr hv
  have herr : |f.toDec - v| < 10 ^ k ∧ (k = 0 → f.toDec = v) := by
    rw [hk]
    refine ⟨tdiv_abs_bound v hp, ?_⟩
    rintro rfl; simp
  have hm := (c45_magnitude hr h).1
  have key : (|v| - |f.toDec|) * 100 < |v| := by
    rcases hb with h0 | h0
    · rw [herr.2 h0]; simpa using hvpos
    · have := abs_sub_abs_le_abs_sub v f.toDec
      rw [abs_sub_comm] at this
      linarith [herr.1]
  refine ⟨key, fun h0 => ?_⟩
  rw [h0] at key
  simp only [abs_zero] at key
  linarith

/-- **C45**, representable values survive: any of the 65536 bit patterns decodes to a value that
compresses successfully, to a float of exactly the same value. -/
theorem c45_round_trip (f : DFloat) (hf : f.bits < 65536) :
    ∃ g, DFloat.ofDec f.toDec = Except.ok g ∧ g.toDec = f.toDec := by
  have hd : ∃ (s : Int) (e : Nat), f.toDec = s * 10 ^ e ∧ -1023 ≤ s ∧ s ≤ 1024 ∧ e ≤ 31 := by
    refine ⟨((f.bits &&& 2047 : Nat) : Int) - 1023, f.bits >>> 11, rfl, ?_, ?_, ?_⟩
    · omega
    · have : f.bits &&& 2047 ≤ 2047 := Nat.and_le_right
      omega
    · rw [Nat.shiftRight_eq_div_pow]; omega
  obtain ⟨s, e, hv, hs1, hs2, he⟩ := hd
  rw [hv]
  by_cases hs0 : s = 0
  · subst hs0
    obtain ⟨g, hg⟩ := DFloat.mk'_total (exp := 0) (sig := 0) (by omega) (by omega) (by omega) (by omega)
    refine ⟨g, ?_, ?_⟩
    · simp only [zero_mul]; unfold DFloat.ofDec; rw [if_pos rfl]; exact hg
    · rw [(DFloat.mk'_toDec hg).1]; simp
  · have hpe : (0 : Int) < 10 ^ e := by positivity
    set v : Int := s * 10 ^ e with hvdef
    have hv0 : v ≠ 0 := by
      rw [hvdef]; exact mul_ne_zero hs0 hpe.ne'
    have hnat : v.natAbs = s.natAbs * 10 ^ e := by
      rw [hvdef, Int.natAbs_mul, Int.natAbs_pow]; rfl
    have hpe31 : (10 : Nat) ^ e ≤ 10 ^ 31 := Nat.pow_le_pow_right (by norm_num) he
    have hr : v.natAbs ≤ 2 ^ 191 := by
      rw [hnat]
      calc s.natAbs * 10 ^ e ≤ 1024 * 10 ^ 31 := Nat.mul_le_mul (by omega) hpe31
        _ ≤ 2 ^ 191 := by norm_num
    obtain ⟨p3, pu, pl⟩ := pos10_bounds hv0 hr
    obtain ⟨q, hq⟩ : ∃ q, pos10 v = q + 3 := ⟨pos10 v - 3, by omega⟩
    have hqe : q ≤ e := by
      by_contra hlt
      have hlt : e + 1 ≤ q := by omega
      have h1 := pl (by omega)
      rw [hq, hnat] at h1
      have h2 : 10 ^ (e + 1) ≤ 10 ^ q := Nat.pow_le_pow_right (by norm_num) hlt
      have h3 : s.natAbs * 10 ^ e ≤ 1024 * 10 ^ e := Nat.mul_le_mul_right _ (by omega)
      have h4 : 0 < 10 ^ e := by positivity
      rw [pow_add] at h1
      rw [pow_succ] at h2
      omega
    obtain ⟨j, hj⟩ : ∃ j, e = q + j := ⟨e - q, by omega⟩
    have hpq : (10 : Int) ^ q ≠ 0 := by positivity
    have hsig : v.tdiv (10 ^ q) = s * 10 ^ j := by
      rw [hvdef, hj, pow_add, show s * (10 ^ q * 10 ^ j) = (s * 10 ^ j) * (10 : Int) ^ q by ring]
      exact Int.mul_tdiv_cancel _ hpq
    unfold DFloat.ofDec
    rw [if_neg hv0]
    simp only
    rw [show pos10 v - 3 = q by omega, hsig]
    by_cases hbig : s * 10 ^ j > 1024 ∨ s * 10 ^ j < -1023
    · rw [if_pos hbig]
      obtain ⟨i, rfl⟩ : ∃ i, j = i + 1 := by
        cases j with
        | zero => simp at hbig; omega
        | succ i => exact ⟨i, rfl⟩
      have hd : (s * 10 ^ (i + 1)).tdiv 10 = s * 10 ^ i := by
        rw [show s * 10 ^ (i + 1) = (s * 10 ^ i) * (10:Int) by ring]
        exact Int.mul_tdiv_cancel _ (by norm_num)
      rw [hd]
      have hlt : |s * 10 ^ i| * 10 < 10 ^ 4 := by
        have h5 : ((v.natAbs : Nat) : Int) < ((10 ^ (pos10 v + 1) : Nat) : Int) := by exact_mod_cast pu
        rw [Int.natCast_natAbs, hq, hvdef, hj] at h5
        push_cast at h5
        rw [show s * 10 ^ (q + (i + 1)) = ((s * 10 ^ i) * 10) * (10 : Int) ^ q by ring,
          abs_mul, abs_mul, abs_of_pos (show (0:Int) < 10 ^ q by positivity),
          show (10:Int) ^ (q + 3 + 1) = 10 ^ 4 * 10 ^ q by ring] at h5
        have := lt_of_mul_lt_mul_right h5 (by positivity)
        simpa using this
      have hab := abs_lt.mp (show |s * 10 ^ i| < 1000 by linarith)
      obtain ⟨g, hg⟩ := DFloat.mk'_total (exp := (pos10 v : Int) - 18 + 1) (sig := s * 10 ^ i)
        (by omega) (by omega) (by omega) (by omega)
      refine ⟨g, hg, ?_⟩
      rw [(DFloat.mk'_toDec hg).1, show ((pos10 v : Int) - 18 + 1 + 15).toNat = q + 1 by omega, hvdef, hj]
      ring
    · rw [if_neg hbig]
      obtain ⟨g, hg⟩ := DFloat.mk'_total (exp := (pos10 v : Int) - 18) (sig := s * 10 ^ j)
        (by omega) (by omega) (by omega) (by omega)
      refine ⟨g, hg, ?_⟩
      rw [(DFloat.mk'_toDec hg).1, show ((pos10 v : Int) - 18 + 15).toNat = q by omega, hvdef, hj]
      ring

/-- **C45**, decoding then encoding is the identity on values whatever was compressed: compressing
twice is the same as compressing once. -/
theorem c45_idempotent {v : Dec} {f : DFloat} (h : DFloat.ofDec v = Except.ok f) :
    f.bits < 65536 ∧ ∃ g, DFloat.ofDec f.toDec = Except.ok g ∧ g.toDec = f.toDec := by
  have hb : f.bits < 65536 := by
    unfold DFloat.ofDec at h
    split at h
    · exact (DFloat.mk'_toDec h).2
    · simp only at h
      split at h
      · exact (DFloat.mk'_toDec h).2
      · exact (DFloat.mk'_toDec h).2
  exact ⟨hb, c45_round_trip f hb⟩

/-- A lower bound with at most 102 in front of a power of ten survives compression. -/
theorem ofDec_ge {v : Dec} {f : DFloat} (hr : InRange v = true) {m k : Nat} (hm : m ≤ 102)
    (hv : (m : Int) * 10 ^ k ≤ v) (h : DFloat.ofDec v = Except.ok f) : (m : Int) * 10 ^ k ≤ f.toDec := by
  have hn : v.natAbs ≤ 2 ^ 191 := by
    rw [inRange_iff] at hr; unfold DMIN DMAX at hr; omega
  have hpk : (0:Int) < 10 ^ k := by positivity
  have hv0 : 0 ≤ v := le_trans (by positivity) hv
  by_cases hz : v = 0
  · subst hz; rw [ofDec_zero h]; exact hv
  · obtain ⟨j, hj, hbig⟩ := ofDec_spec hz hn h
    have hpj : (0:Int) < 10 ^ j := by positivity
    rw [hj]
    by_cases hjk : j ≤ k
    · obtain ⟨i, rfl⟩ : ∃ i, k = j + i := ⟨k - j, by omega⟩
      have h1 : (m : Int) * 10 ^ i ≤ v.tdiv (10 ^ j) := by
        rw [Int.tdiv_eq_ediv_of_nonneg hv0]
        apply Int.le_ediv_of_mul_le hpj
        calc (m : Int) * 10 ^ i * 10 ^ j = (m:Int) * 10 ^ (j + i) := by ring
          _ ≤ v := hv
      calc (m:Int) * 10 ^ (j + i) = (m : Int) * 10 ^ i * 10 ^ j := by ring
        _ ≤ v.tdiv (10 ^ j) * 10 ^ j := Int.mul_le_mul_of_nonneg_right h1 hpj.le
    · rcases hbig with h0 | h0
      · omega
      · have h2 : (102 : Int) * 10 ^ j ≤ v := by
          have e : ((v.natAbs : Nat) : Int) = v := Int.natAbs_of_nonneg hv0
          rw [← e]; exact_mod_cast h0
        have h1 : (102 : Int) ≤ v.tdiv (10 ^ j) := by
          rw [Int.tdiv_eq_ediv_of_nonneg hv0]
          exact Int.le_ediv_of_mul_le hpj h2
        have h3 : (10:Int) ^ k ≤ 10 ^ j := pow_le_pow_right₀ (by norm_num) (by omega)
        calc (m:Int) * 10 ^ k ≤ 102 * 10 ^ j := by
              apply mul_le_mul (by exact_mod_cast hm) h3 hpk.le (by norm_num)
          _ ≤ v.tdiv (10 ^ j) * 10 ^ j := Int.mul_le_mul_of_nonneg_right h1 hpj.le

/-- Non-vacuity: 0.1025 is compressed to 0.102 and 1 (a representable value) to itself. -/
example : (DFloat.ofDec 102500000000000000).map DFloat.toDec = Except.ok 102000000000000000 ∧
    (DFloat.ofDec ONE).map DFloat.toDec = Except.ok ONE ∧
    (DFloat.ofDec (-102500000000000000)).map DFloat.toDec = Except.ok (-102000000000000000) := by
  decide +kernel

/-- Compression is not monotone: 0.1025 compresses to less than 0.1024 does, because the significand
1024 is still representable and 1025 is not. -/
theorem c45_not_monotone : ∃ a b : Dec, ∃ f g : DFloat, a < b ∧ DFloat.ofDec a = Except.ok f ∧
    DFloat.ofDec b = Except.ok g ∧ g.toDec < f.toDec := by
  refine ⟨102400000000000000, 102500000000000000, ⟨30719⟩, ⟨31845⟩, by norm_num, ?_, ?_, ?_⟩ <;>
    decide +kernel

/-- A value above the bound needs an exponent of at least 34. -/
theorem pos10_le {v : Int} (h : v.natAbs < 1025 * 10 ^ 31) : pos10 v ≤ 34 := by
  have hb : bitLen v.natAbs ≤ 113 := by
    unfold bitLen
    split
    · omega
    · rename_i h0
      have : Nat.log2 v.natAbs < 113 := (Nat.log2_lt h0).mpr (by
        have : (1025 * 10 ^ 31 : Nat) ≤ 2 ^ 113 := by norm_num
        omega)
      omega
  unfold pos10
  omega

theorem DFloat.mk'_iff {exp sig : Int} : (∃ f, DFloat.mk' exp sig = Except.ok f) ↔
    0 ≤ exp + 15 ∧ exp + 15 < 32 ∧ 0 ≤ sig + 1023 ∧ sig + 1023 < 2048 := by
  unfold DFloat.mk'
  split <;> simp_all

/-- **C45, storable values.** The values that can be stored are exactly those between -1.024 * 10^16 and 1.025 * 10^16,
exclusive; compressing any other is refused. -/
theorem c45_storable {v : Dec} (hr : InRange v = true) :
    (∃ f, DFloat.ofDec v = Except.ok f) ↔ -(1024 * 10 ^ 31) < v ∧ v < 1025 * 10 ^ 31 := by
  by_cases hv : v = 0
  · subst hv
    refine iff_of_true ⟨_, rfl⟩ (by norm_num)
  have hn : v.natAbs ≤ 2 ^ 191 := by
    rw [inRange_iff] at hr; unfold DMIN DMAX at hr; omega
  obtain ⟨p3, pu, -⟩ := pos10_bounds hv hn
  unfold DFloat.ofDec
  rw [if_neg hv]
  simp only
  obtain ⟨q, hq⟩ : ∃ q, pos10 v = q + 3 := ⟨pos10 v - 3, by omega⟩
  have hsub : pos10 v - 3 = q := by omega
  rw [hsub]
  have hp : (0 : Int) < 10 ^ q := by positivity
  have hpu : (v.natAbs : Int) < 10000 * 10 ^ q := by
    rw [hq] at pu
    have e : (10 : Nat) ^ (q + 3 + 1) = 10000 * 10 ^ q := by rw [pow_add, pow_add]; ring
    rw [e] at pu
    exact_mod_cast pu
  have hq34 : v.natAbs < 1025 * 10 ^ 31 → q ≤ 31 := fun h => by have := pos10_le h; omega
  have hpow : ∀ n, q ≤ n → (10 : Int) ^ q ≤ 10 ^ n := fun n h => pow_le_pow_right₀ (by norm_num) h
  rcases lt_or_gt_of_ne hv with hneg | hpos
  · have h0 := tdiv_nonneg_bounds (x := -v) (by omega) hp
    rw [Int.neg_tdiv] at h0
    obtain ⟨s0, s1, s2⟩ := h0
    generalize hs : v.tdiv (10 ^ q) = sig at *
    have hs4 : -10000 < sig := by
      by_contra hc
      have : 10000 * (10 : Int) ^ q ≤ -sig * 10 ^ q := Int.mul_le_mul_of_nonneg_right (by omega) hp.le
      omega
    split
    · rename_i hb
      have h1 : 1024 * (10 : Int) ^ q ≤ -sig * 10 ^ q := Int.mul_le_mul_of_nonneg_right (by omega) hp.le
      have hd : -999 ≤ sig.tdiv 10 ∧ sig.tdiv 10 ≤ 0 := by
        have := tdiv_nonneg_bounds (x := -sig) (d := 10) (by omega) (by norm_num)
        rw [Int.neg_tdiv] at this
        omega
      rw [DFloat.mk'_iff]
      constructor
      · rintro ⟨-, h2, -, -⟩
        have := hpow 30 (by omega)
        norm_num at this ⊢
        omega
      · rintro ⟨h2, -⟩
        have := hq34 (by norm_num at h2 ⊢; omega)
        have hne : q ≠ 31 := by rintro rfl; norm_num at h1 h2; omega
        omega
    · rename_i hb
      rw [DFloat.mk'_iff]
      constructor
      · rintro ⟨-, h2, h3, -⟩
        have := hpow 31 (by omega)
        have h4 : -sig * (10 : Int) ^ q ≤ 1023 * 10 ^ q := Int.mul_le_mul_of_nonneg_right (by omega) hp.le
        norm_num at this ⊢
        omega
      · rintro ⟨h2, -⟩
        have := hq34 (by norm_num at h2 ⊢; omega)
        omega
  · obtain ⟨s0, s1, s2⟩ := tdiv_nonneg_bounds (x := v) (by omega) hp
    generalize hs : v.tdiv (10 ^ q) = sig at *
    have hs4 : sig < 10000 := by
      by_contra hc
      have : 10000 * (10 : Int) ^ q ≤ sig * 10 ^ q := Int.mul_le_mul_of_nonneg_right (by omega) hp.le
      omega
    split
    · rename_i hb
      have h1 : 1025 * (10 : Int) ^ q ≤ sig * 10 ^ q := Int.mul_le_mul_of_nonneg_right (by omega) hp.le
      have hd : 0 ≤ sig.tdiv 10 ∧ sig.tdiv 10 ≤ 999 := by
        have := tdiv_nonneg_bounds (x := sig) (d := 10) (by omega) (by norm_num)
        omega
      rw [DFloat.mk'_iff]
      constructor
      · rintro ⟨-, h2, -, -⟩
        have := hpow 30 (by omega)
        norm_num at this ⊢
        omega
      · rintro ⟨-, h2⟩
        have := hq34 (by norm_num at h2 ⊢; omega)
        have hne : q ≠ 31 := by rintro rfl; norm_num at h1 h2; omega
        omega
    · rename_i hb
      rw [DFloat.mk'_iff]
      constructor
      · rintro ⟨-, h2, -, h3⟩
        have := hpow 31 (by omega)
        have h4 : sig * (10 : Int) ^ q ≤ 1024 * 10 ^ q := Int.mul_le_mul_of_nonneg_right (by omega) hp.le
        norm_num at this ⊢
        omega
      · rintro ⟨-, h2⟩
        have := hq34 (by norm_num at h2 ⊢; omega)
        omega

end Perp
