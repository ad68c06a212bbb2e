import Verif.Quant.AffineSpec
import Verif.Quant.MinMaxModel
import Mathlib.Tactic.Linarith
import Mathlib.Tactic.Ring
import Mathlib.Tactic.FieldSimp
import Mathlib.Tactic.NormNum

/-! # Helper lemmas for C73 and C74 -/

namespace Verif.Quant.Affine

open Verif.Quant.Scalar Verif.Quant.MinMax

theorem bitScale_pos {n : Nat} (h : 1 ≤ n) : 1 ≤ bitScale n := by
  have : 2 ^ 1 ≤ 2 ^ n := Nat.pow_le_pow_right (by omega) h
  unfold bitScale; omega

theorem clamp_mem (hi q : Rat) (h : 0 ≤ hi) : 0 ≤ clamp 0 hi q ∧ clamp 0 hi q ≤ hi := by
  unfold clamp; split
  · exact ⟨le_refl _, h⟩
  · split
    · exact ⟨h, le_refl _⟩
    · constructor <;> linarith

theorem roundAway_nonneg {q : Rat} (h : 0 ≤ q) : roundAway q = ⌊q + 1 / 2⌋ := by
  simp [roundAway, h]

theorem round_clamp_cast (m : Nat) (t : Rat) :
    0 ≤ roundAway (clamp 0 m t) ∧ roundAway (clamp 0 m t) ≤ (m : Int) := by
  have hc := clamp_mem (m : Rat) t (by positivity)
  rw [roundAway_nonneg hc.1]
  constructor
  · apply Int.floor_nonneg.mpr; linarith [hc.1]
  · have h2 : ⌊clamp 0 (m : Rat) t + 1 / 2⌋ < (m : Int) + 1 := by
      apply Int.floor_lt.mpr; push_cast; linarith [hc.2]
    omega

/-- The code computed by "clamp, then round" is a closest one. -/
theorem round_clamp_best (m : Nat) (t : Rat) :
    (roundAway (clamp 0 m t)).toNat ≤ m ∧
      ∀ c' : Nat, c' ≤ m →
        |((roundAway (clamp 0 m t)).toNat : Rat) - t| ≤ |(c' : Rat) - t| := by
  obtain ⟨h0, hm⟩ := round_clamp_cast m t
  have hc := clamp_mem (m : Rat) t (by positivity)
  have hr : roundAway (clamp 0 m t) = ⌊clamp 0 (m : Rat) t + 1 / 2⌋ := roundAway_nonneg hc.1
  have hcast : (((roundAway (clamp 0 m t)).toNat : Nat) : Rat) = ((roundAway (clamp 0 m t) : Int) : Rat) := by
    have : (((roundAway (clamp 0 m t)).toNat : Nat) : Int) = roundAway (clamp 0 m t) :=
      Int.toNat_of_nonneg h0
    exact_mod_cast congrArg (fun z : Int => (z : Rat)) this
  refine ⟨by omega, fun c' hc' => ?_⟩
  rw [hcast]
  generalize hz : roundAway (clamp 0 (m : Rat) t) = z at *
  have hc'' : (c' : Rat) ≤ m := by exact_mod_cast hc'
  have hc0 : (0 : Rat) ≤ c' := by positivity
  have hz0 : (0 : Rat) ≤ z := by exact_mod_cast h0
  have hzm : (z : Rat) ≤ m := by exact_mod_cast hm
  have hlo : (z : Rat) ≤ clamp 0 (m : Rat) t + 1 / 2 := by rw [hr]; exact Int.floor_le _
  have hhi : clamp 0 (m : Rat) t + 1 / 2 < z + 1 := by rw [hr]; exact Int.lt_floor_add_one _
  by_cases h1 : t < 0
  · have : clamp 0 (m : Rat) t = 0 := by simp [clamp, h1]
    have hz' : z = 0 := by
      rw [this] at hr; rw [hr]; norm_num
    subst hz'
    rw [abs_of_nonneg (by push_cast; linarith), abs_of_nonneg (by linarith)]
    push_cast; linarith
  · by_cases h2 : (m : Rat) < t
    · have : clamp 0 (m : Rat) t = m := by simp [clamp, h1, h2]
      have hz' : z = m := by
        rw [this] at hr; rw [hr, Int.floor_eq_iff]; push_cast; constructor <;> linarith
      subst hz'
      rw [abs_of_nonpos (by push_cast; linarith), abs_of_nonpos (by linarith)]
      push_cast; linarith
    · have hct : clamp 0 (m : Rat) t = t := by simp [clamp, h1, h2]
      rw [hct] at hlo hhi
      have habs : |(z : Rat) - t| ≤ 1 / 2 := by
        rw [abs_le]; constructor <;> linarith
      rcases lt_trichotomy (c' : Int) z with h | h | h
      · have : (c' : Rat) + 1 ≤ z := by exact_mod_cast h
        have h3 : t - c' ≤ |(c' : Rat) - t| := by
          rw [abs_sub_comm]; exact le_abs_self _
        linarith
      · have : (c' : Rat) = z := by exact_mod_cast h
        rw [this]
      · have : (z : Rat) + 1 ≤ c' := by exact_mod_cast h
        have h3 : c' - t ≤ |(c' : Rat) - t| := le_abs_self _
        linarith

/-- Within the range, the rounding error is at most half a step. -/
theorem round_clamp_half (m : Nat) (t : Rat) (h0 : 0 ≤ t) (h1 : t ≤ m) :
    |((roundAway (clamp 0 m t)).toNat : Rat) - t| ≤ 1 / 2 := by
  obtain ⟨hz0, hm⟩ := round_clamp_cast m t
  have hct : clamp 0 (m : Rat) t = t := by
    simp [clamp, not_lt.mpr h0, not_lt.mpr h1]
  rw [hct] at hz0 ⊢
  have hcast : (((roundAway t).toNat : Nat) : Rat) = ((roundAway t : Int) : Rat) := by
    have : (((roundAway t).toNat : Nat) : Int) = roundAway t := Int.toNat_of_nonneg hz0
    exact_mod_cast congrArg (fun z : Int => (z : Rat)) this
  rw [hcast, roundAway_nonneg h0]
  have a1 := Int.floor_le (t + 1 / 2)
  have a2 := Int.lt_floor_add_one (t + 1 / 2)
  rw [abs_le]; constructor <;> linarith

theorem roundEven_near (q : Rat) : |((roundEven q : Int) : Rat) - q| ≤ 1 / 2 := by
  have a1 := Int.floor_le q
  have a2 := Int.lt_floor_add_one q
  unfold roundEven
  dsimp only
  rw [abs_le]
  split
  · constructor <;> linarith
  · split
    · push_cast; constructor <;> linarith
    · split
      · constructor <;> linarith
      · push_cast; constructor <;> linarith

/-- The code computed by "round, then clamp" is a closest one. -/
theorem recode_best (m : Nat) (t : Rat) (r : Int) (hr : |((r : Int) : Rat) - t| ≤ 1 / 2) :
    (max 0 (min (m : Int) r)).toNat ≤ m ∧
      ∀ c' : Nat, c' ≤ m →
        |((max 0 (min (m : Int) r)).toNat : Rat) - t| ≤ |(c' : Rat) - t| := by
  generalize hz : max 0 (min (m : Int) r) = z
  have hz0 : 0 ≤ z := by omega
  have hcast : ((z.toNat : Nat) : Rat) = ((z : Int) : Rat) := by
    have : ((z.toNat : Nat) : Int) = z := Int.toNat_of_nonneg hz0
    exact_mod_cast congrArg (fun z : Int => (z : Rat)) this
  refine ⟨by omega, fun c' hc' => ?_⟩
  rw [hcast]
  have habs := abs_le.mp hr
  have hc'' : (c' : Rat) ≤ m := by exact_mod_cast hc'
  have hc0 : (0 : Rat) ≤ c' := by positivity
  by_cases h1 : r < 0
  · have hz' : z = 0 := by omega
    have hr1 : (r : Rat) ≤ -1 := by exact_mod_cast (show r ≤ -1 by omega)
    subst hz'
    rw [abs_of_nonneg (by push_cast; linarith), abs_of_nonneg (by linarith)]
    push_cast; linarith
  · by_cases h2 : (m : Int) < r
    · have hz' : z = m := by omega
      have hr1 : (m : Rat) + 1 ≤ r := by exact_mod_cast h2
      subst hz'
      rw [abs_of_nonpos (by push_cast; linarith), abs_of_nonpos (by linarith)]
      push_cast; linarith
    · have hz' : z = r := by omega
      subst hz'
      rcases lt_trichotomy (c' : Int) z with h | h | h
      · have : (c' : Rat) + 1 ≤ z := by exact_mod_cast h
        have h3 : t - c' ≤ |(c' : Rat) - t| := by
          rw [abs_sub_comm]; exact le_abs_self _
        linarith
      · have : (c' : Rat) = z := by exact_mod_cast h
        rw [this]
      · have : (z : Rat) + 1 ≤ c' := by exact_mod_cast h
        have h3 : c' - t ≤ |(c' : Rat) - t| := le_abs_self _
        linarith

/-- Rescaling a best code: if `value k - v = w * (k - t)` for every `k`, closeness to `t`
is closeness to `v`. -/
theorem best_scale {m c : Nat} {value : Nat → Rat} {v w t : Rat}
    (hv : ∀ k, value k - v = w * ((k : Rat) - t))
    (h : c ≤ m ∧ ∀ c' : Nat, c' ≤ m → |(c : Rat) - t| ≤ |(c' : Rat) - t|) :
    BestCode m value v c := by
  refine ⟨h.1, fun c' hc' => ?_⟩
  rw [hv, hv, abs_mul, abs_mul]
  exact mul_le_mul_of_nonneg_left (h.2 c' hc') (abs_nonneg _)

end Verif.Quant.Affine
