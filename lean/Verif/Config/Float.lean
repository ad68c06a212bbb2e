import Mathlib.Data.Int.Log
import Mathlib.Data.Rat.Floor
import Mathlib.Algebra.Order.Round
import Mathlib.Tactic.Linarith
import Mathlib.Tactic.Positivity
import Mathlib.Tactic.NormNum
import Mathlib.Tactic.Ring
import Mathlib.Tactic.FieldSimp

/-!
# Rounding to `f32`

The value of an `f32` operation whose exact result is the rational `x`: round to nearest, ties to even, with gradual
underflow (IEEE 754, which Rust prescribes for `f32`). Overflow is left out: the largest exponent is not bounded. All
results above `2 ^ 64` are used through a saturating cast only, which does not tell them from infinity.
-/

namespace Verif.F32

/-- The finite `f32` values: 24 bits times a power of two, not below `2 ^ -149`. -/
def IsFloat (x : Rat) : Prop := ∃ m e : Int, |m| ≤ 2 ^ 24 ∧ -149 ≤ e ∧ x = m * (2 : Rat) ^ e

/-- Round to the nearest integer, ties to even. -/
def roundEven (q : Rat) : Int :=
  if q - ⌊q⌋ < 1 / 2 then ⌊q⌋
  else if 1 / 2 < q - ⌊q⌋ then ⌊q⌋ + 1
  else if ⌊q⌋ % 2 = 0 then ⌊q⌋ else ⌊q⌋ + 1

/-- Exponent of the last bit of a result near `x > 0`. -/
def lastBit (x : Rat) : Int := max (-149) (Int.log 2 x - 23)

/-- Rounding of a positive number. -/
def rndPos (x : Rat) : Rat := roundEven (x / (2 : Rat) ^ lastBit x) * (2 : Rat) ^ lastBit x

/-- Rounding to `f32`. -/
def rnd (x : Rat) : Rat := if 0 < x then rndPos x else if x < 0 then -rndPos (-x) else 0

theorem roundEven_spec (q : Rat) : |(roundEven q : Rat) - q| ≤ 1 / 2 ∧ ⌊q⌋ ≤ roundEven q ∧ roundEven q ≤ ⌊q⌋ + 1 := by
  have h1 := Int.floor_le q
  have h2 := Int.lt_floor_add_one q
  unfold roundEven
  split
  · refine ⟨?_, by omega, by omega⟩
    rw [abs_le]; constructor <;> push_cast <;> linarith
  · split
    · refine ⟨?_, by omega, by omega⟩
      rw [abs_le]; constructor <;> push_cast <;> linarith
    · split
      · refine ⟨?_, by omega, by omega⟩
        rw [abs_le]; constructor <;> push_cast <;> linarith
      · refine ⟨?_, by omega, by omega⟩
        rw [abs_le]; constructor <;> push_cast <;> linarith

theorem roundEven_nearest (q : Rat) (n : Int) : |(roundEven q : Rat) - q| ≤ |(n : Rat) - q| := by
  have h0 := (roundEven_spec q).1
  have h1 := Int.floor_le q
  have h2 := Int.lt_floor_add_one q
  by_cases hn : n ≤ ⌊q⌋
  · have hn' : (n : Rat) ≤ ⌊q⌋ := by exact_mod_cast hn
    rw [abs_sub_comm (n : Rat), abs_of_nonneg (show 0 ≤ q - n by linarith)]
    unfold roundEven
    split
    · rw [abs_sub_comm, abs_of_nonneg (by linarith)]; linarith
    · split
      · push_cast; rw [abs_of_nonneg (by linarith)]; linarith
      · split
        · rw [abs_sub_comm, abs_of_nonneg (by linarith)]; linarith
        · push_cast; rw [abs_of_nonneg (by linarith)]; linarith
  · have hn' : (⌊q⌋ : Rat) + 1 ≤ n := by exact_mod_cast (by omega : ⌊q⌋ + 1 ≤ n)
    rw [abs_of_nonneg (show 0 ≤ (n : Rat) - q by linarith)]
    unfold roundEven
    split
    · rw [abs_sub_comm, abs_of_nonneg (by linarith)]; linarith
    · split
      · push_cast; rw [abs_of_nonneg (by linarith)]; linarith
      · split
        · rw [abs_sub_comm, abs_of_nonneg (by linarith)]; linarith
        · push_cast; rw [abs_of_nonneg (by linarith)]; linarith

theorem roundEven_mono {p q : Rat} (h : p ≤ q) : roundEven p ≤ roundEven q := by
  have hf := Int.floor_mono h
  rcases Int.lt_or_eq_of_le hf with h1 | h1
  · have := (roundEven_spec p).2.2
    have := (roundEven_spec q).2.1
    omega
  · have e : (⌊p⌋ : Rat) = ⌊q⌋ := by exact_mod_cast h1
    unfold roundEven
    rw [h1]
    split
    · split
      · exact le_rfl
      · split
        · omega
        · split <;> omega
    · split
      · rw [if_neg (by linarith), if_pos (by linarith)]
      · split
        · rw [if_neg (by linarith)]
          split
          · omega
          · exact le_rfl
        · rw [if_neg (by linarith)]
          split
          · exact le_rfl
          · exact le_rfl

theorem roundEven_int (n : Int) : roundEven (n : Rat) = n := by
  unfold roundEven
  simp

theorem two_zpow_pos (e : Int) : (0 : Rat) < 2 ^ e := zpow_pos (by norm_num) e

/-- A rounded positive number is at most the next power of two above, and at least the power of two below if that is
not among the smallest numbers. -/
theorem rndPos_bounds {x : Rat} (hx : 0 < x) :
    0 ≤ rndPos x ∧ rndPos x ≤ (2 : Rat) ^ (lastBit x + 24) ∧
      (-149 < lastBit x → (2 : Rat) ^ (lastBit x + 23) ≤ rndPos x) := by
  have hu := two_zpow_pos (lastBit x)
  have hq : 0 < x / (2 : Rat) ^ lastBit x := div_pos hx hu
  have h0 : 0 ≤ roundEven (x / (2 : Rat) ^ lastBit x) := by
    have := roundEven_mono hq.le
    rw [show (0 : Rat) = ((0 : Int) : Rat) by simp, roundEven_int] at this
    exact this
  refine ⟨mul_nonneg (by exact_mod_cast h0) hu.le, ?_, ?_⟩
  · have hlt : x < (2 : Rat) ^ (lastBit x + 24) := by
      have h1 := Int.lt_zpow_succ_log_self (R := Rat) (b := 2) (by norm_num) x
      refine lt_of_lt_of_le h1 ?_
      have : Int.log 2 x + 1 ≤ lastBit x + 24 := by unfold lastBit; omega
      exact_mod_cast zpow_le_zpow_right₀ (by norm_num : (1 : Rat) ≤ 2) this
    have h2 : x / (2 : Rat) ^ lastBit x ≤ ((2 ^ 24 : Int) : Rat) := by
      rw [div_le_iff₀ hu]
      rw [zpow_add₀ (by norm_num)] at hlt
      push_cast
      have : (2 : Rat) ^ (24 : Int) = 2 ^ 24 := by norm_cast
      rw [this] at hlt
      linarith
    have h3 := roundEven_mono h2
    rw [roundEven_int] at h3
    have h4 : (roundEven (x / (2 : Rat) ^ lastBit x) : Rat) ≤ 2 ^ 24 := by exact_mod_cast h3
    unfold rndPos
    rw [zpow_add₀ (by norm_num), show (2 : Rat) ^ (24 : Int) = 2 ^ 24 by norm_cast, mul_comm]
    exact mul_le_mul_of_nonneg_left h4 hu.le
  · intro hb
    have hge : (2 : Rat) ^ (lastBit x + 23) ≤ x := by
      have h1 := Int.zpow_log_le_self (R := Rat) (b := 2) (by norm_num) hx
      refine le_trans ?_ (by exact_mod_cast h1)
      have : lastBit x + 23 = Int.log 2 x := by unfold lastBit at *; omega
      rw [this]
    have h2 : ((2 ^ 23 : Int) : Rat) ≤ x / (2 : Rat) ^ lastBit x := by
      rw [le_div_iff₀ hu]
      rw [zpow_add₀ (by norm_num)] at hge
      push_cast
      rw [show (2 : Rat) ^ (23 : Int) = 2 ^ 23 by norm_cast] at hge
      linarith
    have h3 := roundEven_mono h2
    rw [roundEven_int] at h3
    have h4 : (2 : Rat) ^ 23 ≤ (roundEven (x / (2 : Rat) ^ lastBit x) : Rat) := by exact_mod_cast h3
    unfold rndPos
    rw [zpow_add₀ (by norm_num), show (2 : Rat) ^ (23 : Int) = 2 ^ 23 by norm_cast, mul_comm]
    exact mul_le_mul_of_nonneg_right h4 hu.le

theorem rndPos_mono {x y : Rat} (hx : 0 < x) (h : x ≤ y) : rndPos x ≤ rndPos y := by
  have hy : 0 < y := lt_of_lt_of_le hx h
  have hl : lastBit x ≤ lastBit y := by
    have := Int.log_mono_right (b := 2) hx h
    unfold lastBit; omega
  rcases Int.lt_or_eq_of_le hl with h1 | h1
  · refine (rndPos_bounds hx).2.1.trans (le_trans ?_ ((rndPos_bounds hy).2.2 ?_))
    · exact zpow_le_zpow_right₀ (by norm_num : (1 : Rat) ≤ 2) (by omega)
    · have : -149 ≤ lastBit x := by unfold lastBit; omega
      omega
  · unfold rndPos
    rw [h1]
    have hu := two_zpow_pos (lastBit y)
    have h3 : (roundEven (x / (2 : Rat) ^ lastBit y) : Rat) ≤ roundEven (y / (2 : Rat) ^ lastBit y) := by
      exact_mod_cast roundEven_mono (by gcongr)
    exact mul_le_mul_of_nonneg_right h3 hu.le

/-- Rounding is monotone. -/
theorem rnd_mono {x y : Rat} (h : x ≤ y) : rnd x ≤ rnd y := by
  unfold rnd
  by_cases h1 : 0 < x
  · rw [if_pos h1, if_pos (lt_of_lt_of_le h1 h)]
    exact rndPos_mono h1 h
  · rw [if_neg h1]
    by_cases h2 : 0 < y
    · rw [if_pos h2]
      refine le_trans ?_ (rndPos_bounds h2).1
      split
      · rename_i hx
        have := (rndPos_bounds (x := -x) (by linarith)).1
        linarith
      · exact le_rfl
    · rw [if_neg h2]
      by_cases h3 : y < 0
      · rw [if_pos h3, if_pos (by linarith)]
        have := rndPos_mono (x := -y) (y := -x) (by linarith) (by linarith)
        linarith
      · rw [if_neg h3]
        split
        · rename_i hx
          have := (rndPos_bounds (x := -x) (by linarith)).1
          linarith
        · exact le_rfl

/-- Rounding of a positive number picks a nearest `f32`. -/
theorem rndPos_nearest {x : Rat} (hx : 0 < x) {y : Rat} (hy : IsFloat y) : |rndPos x - x| ≤ |y - x| := by
  have hu := two_zpow_pos (lastBit x)
  have key : ∀ n : Int, |rndPos x - x| ≤ |(n : Rat) * (2 : Rat) ^ lastBit x - x| := by
    intro n
    have h1 := roundEven_nearest (x / (2 : Rat) ^ lastBit x) n
    have e : ∀ k : Rat, |k * (2 : Rat) ^ lastBit x - x| = |k - x / (2 : Rat) ^ lastBit x| * (2 : Rat) ^ lastBit x := by
      intro k
      rw [← abs_of_pos hu, ← abs_mul, abs_of_pos hu]
      congr 1
      field_simp
    unfold rndPos
    rw [e, e]
    exact mul_le_mul_of_nonneg_right h1 hu.le
  obtain ⟨m, f, hm, hf, rfl⟩ := hy
  by_cases hle : lastBit x ≤ f
  · obtain ⟨k, rfl⟩ : ∃ k : Nat, f = lastBit x + k := ⟨(f - lastBit x).toNat, by omega⟩
    have := key (m * 2 ^ k)
    rw [zpow_add₀ (by norm_num), zpow_natCast]
    push_cast at this
    rw [show (m : Rat) * ((2 : Rat) ^ lastBit x * 2 ^ k) = m * 2 ^ k * (2 : Rat) ^ lastBit x by ring]
    exact this
  · have hge : (2 : Rat) ^ (lastBit x + 23) ≤ x := by
      have h1 := Int.zpow_log_le_self (R := Rat) (b := 2) (by norm_num) hx
      refine le_trans ?_ (by exact_mod_cast h1)
      have : lastBit x + 23 = Int.log 2 x := by unfold lastBit at *; omega
      rw [this]
    have hy : (m : Rat) * (2 : Rat) ^ f ≤ (2 : Rat) ^ (lastBit x + 23) := by
      have h1 : (m : Rat) ≤ 2 ^ 24 := by exact_mod_cast (abs_le.1 hm).2
      have h2 : (m : Rat) * (2 : Rat) ^ f ≤ 2 ^ 24 * (2 : Rat) ^ f :=
        mul_le_mul_of_nonneg_right h1 (two_zpow_pos f).le
      refine h2.trans ?_
      rw [show (2 : Rat) ^ 24 = (2 : Rat) ^ (24 : Int) by norm_cast, ← zpow_add₀ (by norm_num)]
      exact zpow_le_zpow_right₀ (by norm_num : (1 : Rat) ≤ 2) (by omega)
    refine (key (2 ^ 23)).trans ?_
    have e : ((2 ^ 23 : Int) : Rat) * (2 : Rat) ^ lastBit x = (2 : Rat) ^ (lastBit x + 23) := by
      rw [zpow_add₀ (by norm_num), show (2 : Rat) ^ (23 : Int) = 2 ^ 23 by norm_cast]
      push_cast; ring
    rw [e, abs_sub_comm, abs_sub_comm ((m : Rat) * _), abs_of_nonneg (by linarith), abs_of_nonneg (by linarith)]
    linarith

theorem IsFloat.neg {x : Rat} (h : IsFloat x) : IsFloat (-x) := by
  obtain ⟨m, e, hm, he, rfl⟩ := h
  exact ⟨-m, e, by rwa [abs_neg], he, by push_cast; ring⟩

/-- Rounding picks a nearest `f32`. -/
theorem rnd_nearest (x : Rat) {y : Rat} (hy : IsFloat y) : |rnd x - x| ≤ |y - x| := by
  unfold rnd
  split
  · rename_i h; exact rndPos_nearest h hy
  · split
    · rename_i h
      have := rndPos_nearest (x := -x) (by linarith) hy.neg
      rw [show -rndPos (-x) - x = -(rndPos (-x) - -x) by ring, abs_neg]
      rw [show y - x = -(-y - -x) by ring, abs_neg]
      exact this
    · have : x = 0 := by linarith
      subst this; simp

/-- An `f32` is not changed. -/
theorem rnd_float {x : Rat} (h : IsFloat x) : rnd x = x := by
  have := rnd_nearest x h
  rw [sub_self, abs_zero] at this
  have := abs_nonpos_iff.1 this
  linarith

/-- The result of rounding is an `f32`. -/
theorem rnd_isFloat (x : Rat) : IsFloat (rnd x) := by
  have key : ∀ x : Rat, 0 < x → IsFloat (rndPos x) := by
    intro x hx
    refine ⟨roundEven (x / (2 : Rat) ^ lastBit x), lastBit x, ?_, by unfold lastBit; omega, rfl⟩
    have hu := two_zpow_pos (lastBit x)
    have hb := rndPos_bounds hx
    have h1 := hb.2.1
    have h0 := hb.1
    unfold rndPos at h1 h0
    rw [zpow_add₀ (by norm_num), show (2 : Rat) ^ (24 : Int) = 2 ^ 24 by norm_cast, mul_comm] at h1
    have h2 := le_of_mul_le_mul_left h1 hu
    have h3 := nonneg_of_mul_nonneg_left h0 hu
    rw [abs_le]
    constructor
    · have : (0 : Int) ≤ roundEven (x / (2 : Rat) ^ lastBit x) := by exact_mod_cast h3
      omega
    · exact_mod_cast h2
  unfold rnd
  split
  · exact key _ ‹_›
  · split
    · exact (key (-x) (by linarith)).neg
    · exact ⟨0, 0, by norm_num, by norm_num, by simp⟩

/-- Integers of 24 bits are `f32` values. -/
theorem isFloat_int {n : Int} (h : |n| ≤ 2 ^ 24) : IsFloat (n : Rat) := ⟨n, 0, h, by norm_num, by simp⟩

theorem isFloat_nat {n : Nat} (h : n ≤ 2 ^ 24) : IsFloat (n : Rat) := by
  have := isFloat_int (n := n) (by rw [abs_of_nonneg (by omega)]; exact_mod_cast h)
  exact_mod_cast this

/-- Between 24-bit integers, rounding does not leave the unit interval around. -/
theorem rnd_floor_ceil {x : Rat} (h : |x| ≤ 2 ^ 24) : (⌊x⌋ : Rat) ≤ rnd x ∧ rnd x ≤ (⌈x⌉ : Rat) := by
  have hf : |⌊x⌋| ≤ 2 ^ 24 := by
    rw [abs_le] at h ⊢
    constructor
    · rw [Int.le_floor]; push_cast; exact h.1
    · have := Int.floor_le x
      exact_mod_cast this.trans h.2
  have hc : |⌈x⌉| ≤ 2 ^ 24 := by
    rw [abs_le] at h ⊢
    constructor
    · have := Int.le_ceil x
      exact_mod_cast h.1.trans this
    · rw [Int.ceil_le]; push_cast; exact h.2
  constructor
  · rw [← rnd_float (isFloat_int hf)]; exact rnd_mono (Int.floor_le x)
  · rw [← rnd_float (isFloat_int hc)]; exact rnd_mono (Int.le_ceil x)

theorem roundEven_tie (m : Int) : roundEven ((m : Rat) + 1 / 2) = if m % 2 = 0 then m else m + 1 := by
  have hf : ⌊(m : Rat) + 1 / 2⌋ = m := by
    rw [Int.floor_eq_iff]; constructor <;> linarith
  unfold roundEven
  rw [hf, if_neg (by linarith), if_neg (by linarith)]

theorem rnd_tie (m e : Int) (h1 : 2 ^ 23 ≤ m) (h2 : m < 2 ^ 24) (he : -149 ≤ e) :
    rnd (((m : Rat) + 1 / 2) * (2 : Rat) ^ e) = (if m % 2 = 0 then m else m + 1 : Int) * (2 : Rat) ^ e := by
  have hu := two_zpow_pos e
  have h1' : (2 : Rat) ^ 23 ≤ m := by exact_mod_cast h1
  have h2' : (m : Rat) + 1 ≤ 2 ^ 24 := by exact_mod_cast (by omega : m + 1 ≤ 2 ^ 24)
  have hx : 0 < ((m : Rat) + 1 / 2) * (2 : Rat) ^ e := mul_pos (by linarith) hu
  have hlog : Int.log 2 (((m : Rat) + 1 / 2) * (2 : Rat) ^ e) = e + 23 := by
    refine le_antisymm (Int.lt_add_one_iff.1 ?_) ?_
    · rw [← Int.lt_zpow_iff_log_lt (by norm_num) hx]
      push_cast
      rw [show e + 23 + 1 = 24 + e by ring, zpow_add₀ (by norm_num)]
      refine mul_lt_mul_of_pos_right ?_ hu
      have : (2 : Rat) ^ (24 : Int) = 2 ^ 24 := by norm_cast
      rw [this]; linarith
    · rw [← Int.zpow_le_iff_le_log (by norm_num) hx]
      push_cast
      rw [show e + 23 = 23 + e by ring, zpow_add₀ (by norm_num)]
      refine mul_le_mul_of_nonneg_right ?_ hu.le
      have : (2 : Rat) ^ (23 : Int) = 2 ^ 23 := by norm_cast
      rw [this]; linarith
  have hlast : lastBit (((m : Rat) + 1 / 2) * (2 : Rat) ^ e) = e := by unfold lastBit; rw [hlog]; omega
  unfold rnd rndPos
  rw [if_pos hx, hlast, mul_div_assoc, div_self hu.ne', mul_one, roundEven_tie]

end Verif.F32
