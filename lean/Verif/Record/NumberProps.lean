import Verif.Record.NumberModel
import Mathlib.Tactic.Common
import Mathlib.Data.Nat.Log
/-
C36: numeric accessors.
-/
namespace Verif.Record

/-- The number denoted by a float is exactly the integer `n`. -/
def Flt.Denotes (v : Flt) (n : Int) : Prop :=
  ∃ neg m e, v = .fin neg m e ∧ sig neg m * 2 ^ e.toNat = n * 2 ^ (-e).toNat

/-! Rounding -/

theorem lt_two_pow_bitLen (n : Nat) : n < 2 ^ bitLen n := by
  unfold bitLen
  split
  · omega
  · exact Nat.lt_log2_self

theorem bitLen_le {n k : Nat} (h : n < 2 ^ k) : bitLen n ≤ k := by
  unfold bitLen
  split
  · omega
  · rename_i hn
    have := (Nat.log2_lt hn).2 h
    omega

theorem roundNat_small {p n : Nat} (h : n < 2 ^ p) : roundNat p n = n := by
  unfold roundNat
  have := bitLen_le h
  simp only
  rw [if_pos (by omega)]

theorem roundNat_dvd {p n : Nat} (h : 2 ^ (bitLen n - p) ∣ n) : roundNat p n = n := by
  unfold roundNat
  simp only
  split
  · rfl
  · have hr : n % 2 ^ (bitLen n - p) = 0 := Nat.mod_eq_zero_of_dvd h
    have hp : 0 < 2 ^ (bitLen n - p - 1) := Nat.two_pow_pos _
    rw [hr, if_neg (by omega)]
    exact Nat.div_mul_cancel h

theorem roundNat_scaled {p m k : Nat} (h : m < 2 ^ p) : roundNat p (m * 2 ^ k) = m * 2 ^ k := by
  apply roundNat_dvd
  have hb : bitLen (m * 2 ^ k) ≤ p + k := by
    apply bitLen_le
    rw [Nat.pow_add]
    exact Nat.mul_lt_mul_of_pos_right h (Nat.two_pow_pos _)
  exact Nat.dvd_trans (Nat.pow_dvd_pow 2 (by omega)) (Nat.dvd_mul_left _ _)

theorem sig_natAbs (c : Int) : sig (decide (c < 0)) c.natAbs = c := by
  unfold sig
  split
  · rename_i h; simp at h; omega
  · rename_i h; simp at h; omega

theorem two_pow_pos' (k : Nat) : (0 : Int) < 2 ^ k := Int.pow_pos (by decide)

/-- An integer converted exactly equals the float iff the float denotes it. -/
theorem eq_iff_denotes {c : Int} {v : Flt} (hr : roundNat 53 c.natAbs = c.natAbs) :
    (intToFlt 53 c).eq v = true ↔ v.Denotes c := by
  unfold intToFlt
  rw [hr]
  cases v with
  | nan => simp [Flt.eq, Flt.Denotes]
  | inf b => simp [Flt.eq, Flt.Denotes]
  | fin neg m e =>
    simp only [Flt.eq, beq_iff_eq, sig_natAbs, Flt.Denotes]
    constructor
    · intro h
      refine ⟨neg, m, e, rfl, ?_⟩
      rcases Int.le_total 0 e with he | he
      · rw [Int.min_eq_left he] at h
        simp only [Int.sub_zero, Int.toNat_zero, Int.pow_zero, Int.mul_one] at h
        rw [Int.toNat_of_nonpos (by omega : -e ≤ 0), ← h]; simp
      · rw [Int.min_eq_right he] at h
        rw [Int.toNat_of_nonpos he]
        simp only [Int.sub_self, Int.toNat_zero, Int.pow_zero, Int.mul_one, Int.zero_sub] at h ⊢
        exact h.symm
    · rintro ⟨neg', m', e', hv, h⟩
      simp only [Flt.fin.injEq] at hv
      obtain ⟨rfl, rfl, rfl⟩ := hv
      rcases Int.le_total 0 e with he | he
      · rw [Int.min_eq_left he]
        rw [Int.toNat_of_nonpos (by omega : -e ≤ 0)] at h
        simp only [Int.sub_zero, Int.toNat_zero, Int.pow_zero, Int.mul_one] at h ⊢
        exact h.symm
      · rw [Int.min_eq_right he]
        rw [Int.toNat_of_nonpos he] at h
        simp only [Int.sub_self, Int.toNat_zero, Int.pow_zero, Int.mul_one, Int.zero_sub] at h ⊢
        exact h.symm

theorem sig_cast_mul (neg : Bool) (m k : Nat) : sig neg (m * k) = sig neg m * k := by
  unfold sig; split <;> simp [Int.neg_mul]

theorem sig_natAbs_eq (neg : Bool) (m : Nat) : (sig neg m).natAbs = m := by
  unfold sig; split <;> simp

/-- The truncated integer is denoted exactly, or it is small. -/
theorem trunc_cases {neg : Bool} {m : Nat} {e : Int} (hm : m < 2 ^ 53) :
    Flt.Denotes (.fin neg m e) (sig neg (truncAbs m e)) ∨ truncAbs m e < 2 ^ 53 := by
  unfold truncAbs
  split
  · rename_i he
    left
    refine ⟨neg, m, e, rfl, ?_⟩
    rw [Int.toNat_of_nonpos (by omega : -e ≤ 0), sig_cast_mul]
    simp
  · right
    exact Nat.lt_of_le_of_lt (Nat.div_le_self _ _) hm

/-- C36, integer accessors on integers: the result is the stored number, and it is reported exactly when it
is in range. -/
theorem C36_int_of_int (lo hi : Int) (v c : Int) :
    ((Num.i64 v).asInt lo hi = some c ↔ c = v ∧ lo ≤ c ∧ c ≤ hi) ∧
    (∀ n : Nat, (Num.u64 n).asInt lo hi = some c ↔ c = n ∧ lo ≤ c ∧ c ≤ hi) := by
  constructor
  · simp only [Num.asInt]
    split
    · rename_i h
      simp only [Option.some.injEq]
      exact ⟨fun h' => by omega, fun h' => h'.1.symm⟩
    · rename_i h
      simp only [reduceCtorEq, false_iff]
      rintro ⟨rfl, h1, h2⟩
      exact h ⟨h1, h2⟩
  · intro n
    simp only [Num.asInt]
    split
    · rename_i h
      simp only [Option.some.injEq]
      exact ⟨fun h' => by omega, fun h' => h'.1.symm⟩
    · rename_i h
      simp only [reduceCtorEq, false_iff]
      rintro ⟨rfl, h1, h2⟩
      exact h ⟨h1, h2⟩

/-- C36, integer accessors on floats: for a type with range `lo..=hi` whose lower end is a power of two (or
zero), a result that is not the type's maximum denotes exactly the stored number; for types of at most 32 bits
also the maximum does.  Missing: the 64-bit maximum (see `C36_int_of_float_lossy`). -/
theorem C36_int_of_float_partial (lo hi : Int) (v : Flt) (c : Int) (hv : v.prec 53)
    (hlo : lo = 0 ∨ ∃ k : Nat, lo = -(2 ^ k : Nat)) (hle : lo ≤ 0 ∧ 0 ≤ hi)
    (h : (Num.f64 v).asInt lo hi = some c) (hmax : c ≠ hi ∨ hi < 9007199254740992) : v.Denotes c := by
  simp only [Num.asInt] at h
  split at h
  · rename_i heq
    simp only [Option.some.injEq] at h
    subst h
    cases v with
    | nan => simp [Flt.eq, intToFlt] at heq
    | inf b => simp [Flt.eq, intToFlt] at heq
    | fin neg m e =>
      have hm : m < 2 ^ 53 := hv
      obtain ⟨t, ht⟩ : ∃ t, t = sig neg (truncAbs m e) := ⟨_, rfl⟩
      have hc : (Flt.fin neg m e).toInt lo hi = max lo (min hi t) := by simp [Flt.toInt, ht]
      generalize (Flt.fin neg m e).toInt lo hi = c at *
      by_cases hin : c = t
      · rcases trunc_cases (neg := neg) (e := e) hm with hd | hs
        · rw [hin, ht]; exact hd
        · refine (eq_iff_denotes ?_).1 heq
          apply roundNat_small
          rw [hin, ht, sig_natAbs_eq]; exact hs
      · have h2 : c = lo ∨ c = hi := by
          rw [hc] at hin ⊢
          rcases Int.le_total hi t with h | h
          · rw [Int.min_eq_left h]; right; omega
          · rw [Int.min_eq_right h] at hin ⊢; omega
        refine (eq_iff_denotes ?_).1 heq
        rcases h2 with h2 | h2
        · rw [h2]
          rcases hlo with h0 | ⟨k, hk⟩
          · subst h0; rfl
          · have := roundNat_scaled (p := 53) (m := 1) (k := k) (by decide)
            rw [Nat.one_mul] at this
            rw [hk, Int.natAbs_neg, Int.natAbs_natCast]; exact this
        · rcases hmax with h3 | h3
          · exact absurd h2 h3
          · apply roundNat_small
            have : (2 : Nat) ^ 53 = 9007199254740992 := by decide
            omega
  · simp at h

/-- C36: a float that denotes an integer in the range of the type is always read successfully. -/
theorem C36_int_of_float_complete (lo hi : Int) (v : Flt) (c : Int) (hv : v.prec 53)
    (hd : v.Denotes c) (h1 : lo ≤ c) (h2 : c ≤ hi) : (Num.f64 v).asInt lo hi = some c := by
  obtain ⟨neg, m, e, rfl, hden⟩ := hd
  have hm : m < 2 ^ 53 := hv
  have key : sig neg (truncAbs m e) = c ∧ roundNat 53 c.natAbs = c.natAbs := by
    unfold truncAbs
    split
    · rename_i he
      rw [Int.toNat_of_nonpos (by omega : -e ≤ 0)] at hden
      simp only [Int.pow_zero, Int.mul_one] at hden
      have hc : sig neg (m * 2 ^ e.toNat) = c := by rw [sig_cast_mul, ← hden]; simp
      refine ⟨hc, ?_⟩
      rw [← hc, sig_natAbs_eq]
      exact roundNat_scaled hm
    · rename_i he
      rw [Int.toNat_of_nonpos (by omega : e ≤ 0)] at hden
      simp only [Int.pow_zero, Int.mul_one] at hden
      have habs : m = c.natAbs * 2 ^ (-e).toNat := by
        have := congrArg Int.natAbs hden
        rw [sig_natAbs_eq, Int.natAbs_mul, Int.natAbs_pow] at this
        exact this
      have hdiv : m / 2 ^ (-e).toNat = c.natAbs := by
        rw [habs]; exact Nat.mul_div_cancel _ (Nat.two_pow_pos _)
      have hle : c.natAbs ≤ m := by
        rw [habs]; exact Nat.le_mul_of_pos_right _ (Nat.two_pow_pos _)
      rw [hdiv]
      refine ⟨?_, roundNat_small (by omega)⟩
      have hp := two_pow_pos' (-e).toNat
      have : sig neg c.natAbs * 2 ^ (-e).toNat = c * 2 ^ (-e).toNat := by
        rw [← hden]
        conv => rhs; rw [habs, sig_cast_mul]
        simp
      exact Int.eq_of_mul_eq_mul_right (by omega) this
  have hto : (Flt.fin neg m e).toInt lo hi = c := by
    simp only [Flt.toInt, key.1]; omega
  simp only [Num.asInt, hto]
  rw [if_pos ((eq_iff_denotes key.2).2 ⟨neg, m, e, rfl, hden⟩)]

/-- C36 fails at the 64-bit maxima: the float `2^63` is read as the `i64` `2^63 - 1`, and `2^64` as the `u64`
`2^64 - 1`. -/
theorem C36_int_of_float_lossy :
    (Num.f64 (.fin false 1 63)).asInt i64Min i64Max = some 9223372036854775807 ∧
    ¬ Flt.Denotes (.fin false 1 63) 9223372036854775807 ∧
    (Num.f64 (.fin false 1 64)).asInt 0 u64Max = some 18446744073709551615 ∧
    ¬ Flt.Denotes (.fin false 1 64) 18446744073709551615 := by
  refine ⟨by decide +kernel, ?_, by decide +kernel, ?_⟩
  · rintro ⟨neg, m, e, hv, h⟩
    simp only [Flt.fin.injEq] at hv
    obtain ⟨rfl, rfl, rfl⟩ := hv
    revert h; decide +kernel
  · rintro ⟨neg, m, e, hv, h⟩
    simp only [Flt.fin.injEq] at hv
    obtain ⟨rfl, rfl, rfl⟩ := hv
    revert h; decide +kernel

/-- An integer-valued float read back as an integer type, saturating. -/
theorem toInt_intToFlt (p : Nat) (lo hi v : Int) :
    (intToFlt p v).toInt lo hi = max lo (min hi (sig (decide (v < 0)) (roundNat p v.natAbs))) := by
  simp [intToFlt, Flt.toInt, truncAbs]

/-- C36, float accessors on integers, for a stored number that is not the maximum of its type: a reported
float denotes exactly the stored number.  Missing: the maxima (see `C36_float_of_int_lossy`). -/
theorem C36_float_of_int_partial (p : Nat) (hp : 0 < p) (cast : Flt → Flt) (c : Flt) :
    (∀ v : Nat, (v : Int) < u64Max → (Num.u64 v).asFlt p cast = some c → c.Denotes v) ∧
    (∀ v : Int, i64Min ≤ v → v < i64Max → (Num.i64 v).asFlt p cast = some c → c.Denotes v) := by
  have hmin : roundNat p i64Min.natAbs = i64Min.natAbs := by
    have := roundNat_scaled (p := p) (m := 1) (k := 63) (Nat.one_lt_two_pow (by omega))
    rw [Nat.one_mul] at this
    have h2 : i64Min.natAbs = 2 ^ 63 := by decide
    rw [h2]; exact this
  have key : ∀ lo hi v : Int, lo ≤ v → v < hi → (v = lo → roundNat p v.natAbs = v.natAbs) →
      (intToFlt p v).toInt lo hi = v → (intToFlt p v).Denotes v := by
    intro lo hi v hlo hlt hedge h
    rw [toInt_intToFlt] at h
    by_cases hv : v = lo
    · have := hedge hv
      refine ⟨decide (v < 0), v.natAbs, 0, by unfold intToFlt; rw [this], ?_⟩
      rw [sig_natAbs]; simp
    · refine ⟨_, _, 0, rfl, ?_⟩
      have : sig (decide (v < 0)) (roundNat p v.natAbs) = v := by omega
      rw [this]; simp
  constructor
  · intro v hv h
    simp only [Num.asFlt] at h
    split at h
    · rename_i heq
      simp only [Option.some.injEq] at h
      subst h
      exact key 0 u64Max v (by omega) hv (fun h0 => by
        have : v = 0 := by omega
        subst this
        simp [roundNat, bitLen]) heq
    · simp at h
  · intro v h1 h2 h
    simp only [Num.asFlt] at h
    split at h
    · rename_i heq
      simp only [Option.some.injEq] at h
      subst h
      exact key i64Min i64Max v h1 h2 (fun h0 => by rw [h0]; exact hmin) heq
    · simp at h

/-- C36 fails at the maxima: `u64::MAX` read as `f64` or `f32` gives `2^64`, `i64::MAX` gives `2^63`. -/
theorem C36_float_of_int_lossy : ∃ c d e, (Num.u64 18446744073709551615).asF64 = some c ∧
    ¬ c.Denotes 18446744073709551615 ∧ (Num.i64 9223372036854775807).asF64 = some d ∧
    ¬ d.Denotes 9223372036854775807 ∧ (Num.u64 18446744073709551615).asFlt 24 id = some e ∧
    ¬ e.Denotes 18446744073709551615 := by
  refine ⟨.fin false 18446744073709551616 0, .fin false 9223372036854775808 0,
    .fin false 18446744073709551616 0, by decide +kernel, ?_, by decide +kernel, ?_, by decide +kernel, ?_⟩ <;>
  · rintro ⟨neg, m, e, hv, h⟩
    simp only [Flt.fin.injEq] at hv
    obtain ⟨rfl, rfl, rfl⟩ := hv
    revert h; decide +kernel

/-- IEEE equality is reflexive away from NaN. -/
theorem Flt.eq_refl (v : Flt) (h : v ≠ .nan) : v.eq v = true := by
  cases v with
  | nan => exact absurd rfl h
  | inf b => simp [Flt.eq]
  | fin s m e => simp [Flt.eq]

/-- C36, float accessors on floats: whatever the narrowing cast does, a reported float equals the stored one
(`==`), `NaN` stays `NaN`, and reading as `f64` always succeeds with the same number. -/
theorem C36_float_of_float (p : Nat) (cast : Flt → Flt) (hnan : cast .nan = .nan) (v c : Flt) :
    ((Num.f64 v).asFlt p cast = some c → (v = .nan ∧ c = .nan) ∨ c.eq v = true) ∧
    (Num.f64 v).asF64 = some v := by
  constructor
  · intro h
    cases v with
    | nan => simp only [Num.asFlt, Option.some.injEq] at h; left; exact ⟨rfl, by rw [← h, hnan]⟩
    | inf b =>
      simp only [Num.asFlt] at h
      split at h
      · rename_i heq; simp only [Option.some.injEq] at h; subst h; exact Or.inr heq
      · simp at h
    | fin s m e =>
      simp only [Num.asFlt] at h
      split at h
      · rename_i heq; simp only [Option.some.injEq] at h; subst h; exact Or.inr heq
      · simp at h
  · cases v with
    | nan => rfl
    | inf b => simp [Num.asF64, Num.asFlt, Flt.eq]
    | fin s m e => simp [Num.asF64, Num.asFlt, Flt.eq]

/-- 2.5 is not a `u32`, 6 = 3 * 2^1 is, -1 is not, 2^40 + 1 is not an `f32`, and -0.0 reads as 0. -/
example : (Num.f64 (.fin false 5 (-1))).asInt 0 4294967295 = none ∧
    (Num.f64 (.fin false 3 1)).asInt 0 4294967295 = some 6 ∧
    (Num.f64 (.fin true 1 0)).asInt 0 4294967295 = none ∧
    (Num.u64 1099511627777).asFlt 24 id = none ∧ (Num.f64 (.fin true 0 0)).asInt 0 255 = some 0 := by
  decide +kernel

/-- The hypotheses of the partial theorems are met by `i64` and 2^53. -/
example : (Flt.fin false 1 53).prec 53 ∧ (∃ k : Nat, i64Min = -(2 ^ k : Nat)) ∧
    (Num.f64 (.fin false 1 53)).asInt i64Min i64Max = some 9007199254740992 :=
  ⟨by unfold Flt.prec; decide, ⟨63, by decide⟩, by decide +kernel⟩

end Verif.Record
