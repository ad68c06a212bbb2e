import Mathlib.Tactic.Ring
import Mathlib.Tactic.Linarith
import Mathlib.Tactic.FieldSimp
import Mathlib.Tactic.LinearCombination
import Mathlib.Tactic.Positivity
import Mathlib.Algebra.Order.Floor.Ring
import Verif.Spherical.Spec

/-! # Lemmas: inner products of reconstructions -/

namespace Verif.Spherical

open Verif.Rotate (inner distSq)

section algebra
variable {K : Type} [Field K]

theorem inner_nil (y : List K) : inner [] y = 0 := by simp [inner]
theorem inner_cons (a b : K) (x y : List K) : inner (a :: x) (b :: y) = a * b + inner x y := by simp [inner]

theorem inner_comm (x y : List K) : inner x y = inner y x := by
  induction x generalizing y with
  | nil => cases y <;> simp [inner]
  | cons a x ih => cases y with
    | nil => simp [inner]
    | cons b y => rw [inner_cons, inner_cons, ih]; ring

theorem inner_map (f g : K → K) (a c : K) (hf : ∀ x, f x = a * x) (hg : ∀ x, g x = c * x) (x y : List K) :
    inner (x.map f) (y.map g) = a * c * inner x y := by
  induction x generalizing y with
  | nil => simp [inner]
  | cons u x ih => cases y with
    | nil => simp [inner]
    | cons v y => simp only [List.map_cons, inner_cons, ih, hf, hg]; ring

theorem codesDot_cons (a b : Nat) (x y : List Nat) : codesDot (a :: x) (b :: y) = a * b + codesDot x y := by
  simp [codesDot]

/-- Inner product of two affine images of code lists. -/
theorem inner_affine (cx ox cy oy : K) (x y : List Nat) (h : x.length = y.length) :
    inner (x.map (fun c : Nat => cx * ((c : K) + ox))) (y.map (fun c : Nat => cy * ((c : K) + oy))) =
      cx * cy * (((codesDot x y : Nat) : K) + oy * ((x.sum : Nat) : K) + ox * ((y.sum : Nat) : K) + ox * oy * (x.length : K)) := by
  induction x generalizing y with
  | nil => cases y with
    | nil => simp [inner, codesDot]
    | cons _ _ => simp at h
  | cons u x ih => cases y with
    | nil => simp at h
    | cons v y =>
      have h' : x.length = y.length := by simpa using h
      rw [List.map_cons, List.map_cons, inner_cons, ih y h', codesDot_cons]
      simp only [List.sum_cons, List.length_cons]
      push_cast
      ring

theorem inner_mixed (n cy oy : K) (x : List K) (y : List Nat) (h : x.length = y.length) :
    inner (x.map (fun a => n * a)) (y.map (fun c : Nat => cy * ((c : K) + oy))) = n * cy * (mixedDot x y + x.sum * oy) := by
  induction x generalizing y with
  | nil => cases y <;> simp [inner, mixedDot]
  | cons u x ih => cases y with
    | nil => simp at h
    | cons v y =>
      have h' : x.length = y.length := by simpa using h
      have hm : mixedDot (u :: x) (v :: y) = u * (v : K) + mixedDot x y := by simp [mixedDot]
      rw [List.map_cons, List.map_cons, inner_cons, ih y h', hm, List.sum_cons]
      ring

theorem recon_eq (b : Nat) (d : Data K) :
    recon b d = d.codes.map (fun c : Nat => d.info.correction * ((c : K) + -offsetTerm b)) := by
  unfold recon offsetTerm
  refine List.map_congr_left (fun c _ => by ring)

/-- Data whose metadata belongs to its codes. -/
def WF (n : Nat) (d : Data K) : Prop :=
  d.codes.length = n ∧ (d.info.correction = 0 ∨ d.info.bitSum = d.codes.sum)

theorem kernel_eq {n b : Nat} {x y : Data K} (hx : WF n x) (hy : WF n y) :
    kernel b (n : K) x y = inner (recon b x) (recon b y) := by
  rw [recon_eq, recon_eq, inner_affine _ _ _ _ _ _ (by rw [hx.1, hy.1]), hx.1]
  unfold kernel
  rcases hx.2 with h | h
  · rw [h]; ring
  · rcases hy.2 with h' | h'
    · rw [h']; ring
    · rw [h, h']; ring

end algebra

section shift
variable {K : Type} [Field K]

theorem inner_shift (a c : K) (x y s : List K) (hx : x.length = s.length) (hy : y.length = s.length) :
    inner (List.zipWith (fun f s => a * f - s) x s) (List.zipWith (fun f s => c * f - s) y s) =
      a * c * inner x y - a * inner x s - c * inner y s + inner s s := by
  induction s generalizing x y with
  | nil =>
    obtain rfl : x = [] := List.length_eq_zero_iff.mp hx
    obtain rfl : y = [] := List.length_eq_zero_iff.mp hy
    simp [inner]
  | cons s0 s ih =>
    obtain ⟨x0, x, rfl⟩ := List.exists_cons_of_length_eq_add_one hx
    obtain ⟨y0, y, rfl⟩ := List.exists_cons_of_length_eq_add_one hy
    simp only [List.zipWith_cons_cons, inner_cons]
    rw [ih x y (by simpa using hx) (by simpa using hy)]
    ring

theorem inner_shift_center (a : K) (x s : List K) (hx : x.length = s.length) :
    inner (List.zipWith (fun f s => a * f - s) x s) s = a * inner x s - inner s s := by
  induction s generalizing x with
  | nil =>
    obtain rfl : x = [] := List.length_eq_zero_iff.mp hx
    simp [inner]
  | cons s0 s ih =>
    obtain ⟨x0, x, rfl⟩ := List.exists_cons_of_length_eq_add_one hx
    simp only [List.zipWith_cons_cons, inner_cons]
    rw [ih x (by simpa using hx)]
    ring

theorem distSq_eq (x y : List K) (h : x.length = y.length) :
    distSq x y = inner x x - 2 * inner x y + inner y y := by
  induction x generalizing y with
  | nil => cases y with
    | nil => simp [distSq, inner]
    | cons _ _ => simp at h
  | cons u x ih => cases y with
    | nil => simp at h
    | cons v y =>
      have h' := ih y (by simpa using h)
      unfold distSq at h' ⊢
      simp only [List.zipWith_cons_cons, List.sum_cons, inner_cons] at h' ⊢
      rw [h']; ring

end shift

section order
variable {K : Type} [Field K] [LinearOrder K] [IsStrictOrderedRing K]

theorem inner_self_nonneg (x : List K) : 0 ≤ inner x x := by
  induction x with
  | nil => simp [inner]
  | cons a x ih => rw [inner_cons]; nlinarith [mul_self_nonneg a]

theorem inner_self_eq_zero {x : List K} (h : inner x x = 0) : ∀ z ∈ x, z = 0 := by
  induction x with
  | nil => simp
  | cons a x ih =>
    rw [inner_cons] at h
    have h1 := mul_self_nonneg a
    have h2 := inner_self_nonneg x
    have ha : a * a = 0 := by linarith
    have hx : inner x x = 0 := by linarith
    intro z hz
    rcases List.mem_cons.mp hz with rfl | hz
    · exact mul_self_eq_zero.mp ha
    · exact ih hx z hz

/-- `x + k y`, to the shorter length. -/
theorem inner_add_smul (k : K) (x y z : List K) (h : x.length = y.length) (hz : z.length = y.length) :
    inner (List.zipWith (fun a b => a + k * b) x y) z = inner x z + k * inner y z := by
  induction y generalizing x z with
  | nil =>
    obtain rfl : x = [] := List.length_eq_zero_iff.mp h
    obtain rfl : z = [] := List.length_eq_zero_iff.mp hz
    simp [inner]
  | cons b y ih =>
    obtain ⟨a, x, rfl⟩ := List.exists_cons_of_length_eq_add_one h
    obtain ⟨c, z, rfl⟩ := List.exists_cons_of_length_eq_add_one hz
    simp only [List.zipWith_cons_cons, inner_cons]
    rw [ih x z (by simpa using h) (by simpa using hz)]
    ring

theorem cauchy_schwarz (x y : List K) (h : x.length = y.length) :
    inner x y * inner x y ≤ inner x x * inner y y := by
  have hl : (List.zipWith (fun a b => a + (-(inner x y) / inner y y) * b) x y).length = y.length := by simp [h]
  by_cases h0 : inner y y = 0
  · have hz := inner_self_eq_zero h0
    have : inner x y = 0 := by
      clear h0 hl
      induction x generalizing y with
      | nil => simp [inner]
      | cons a x ih => cases y with
        | nil => simp [inner]
        | cons b y =>
          rw [inner_cons, hz b (by simp), ih y (by simpa using h) (fun z hm => hz z (by simp [hm]))]; ring
    rw [this, h0]; simp
  · have hp : 0 < inner y y := lt_of_le_of_ne (inner_self_nonneg y) (Ne.symm h0)
    set k := -(inner x y) / inner y y with hk
    have h1 := inner_self_nonneg (List.zipWith (fun a b => a + k * b) x y)
    rw [inner_add_smul k x y _ h hl, inner_comm x, inner_comm y, inner_add_smul k x y x h h,
      inner_add_smul k x y y h rfl, inner_comm y x] at h1
    have hky : k * inner y y = -(inner x y) := by rw [hk]; field_simp
    have h2 : 0 ≤ inner x x + k * inner x y := by
      have : inner x x + k * inner x y + k * (inner x y + k * inner y y) = inner x x + k * inner x y := by
        rw [hky]; ring
      linarith
    have h3 := mul_nonneg h2 hp.le
    have : (inner x x + k * inner x y) * inner y y = inner x x * inner y y - inner x y * inner x y := by
      calc _ = inner x x * inner y y + (k * inner y y) * inner x y := by ring
        _ = _ := by rw [hky]; ring
    linarith

/-- The error bound: if `z` has the inner product `x x` with `x`, its inner product with `y` differs from that of `x` by no
more than the parts of both that are orthogonal to `x`. -/
theorem error_bound {x y z : List K} (hxy : x.length = y.length) (hzy : z.length = y.length)
    (hz : inner z x = inner x x) :
    (inner z y - inner x y) * (inner z y - inner x y) * inner x x ≤
      (inner z z - inner x x) * (inner x x * inner y y - inner x y * inner x y) := by
  by_cases h0 : inner x x = 0
  · have hx := inner_self_eq_zero h0
    have hxz : inner x y = 0 := by
      have := cauchy_schwarz x y hxy
      rw [h0, zero_mul] at this
      exact mul_self_eq_zero.mp (le_antisymm this (mul_self_nonneg _))
    rw [h0, hxz]; simp
  · have hp : 0 < inner x x := lt_of_le_of_ne (inner_self_nonneg x) (Ne.symm h0)
    -- e = z - x, f = y - (<x,y>/<x,x>) x
    have hle : (List.zipWith (fun a b => a + (-1) * b) z x).length = y.length := by simp [hxy, hzy]
    set k := -(inner x y) / inner x x with hk
    have hlf : (List.zipWith (fun a b => a + k * b) y x).length = y.length := by simp [hxy]
    have hcs := cauchy_schwarz (List.zipWith (fun a b => a + (-1) * b) z x) (List.zipWith (fun a b => a + k * b) y x)
      (by rw [hle, hlf])
    have hzx : z.length = x.length := by rw [hzy, hxy]
    have e1 : inner (List.zipWith (fun a b => a + (-1) * b) z x) (List.zipWith (fun a b => a + k * b) y x) =
        inner z y - inner x y := by
      rw [inner_add_smul (-1) z x _ hzx (by rw [hlf, hxy]), inner_comm z, inner_comm x,
        inner_add_smul k y x z hxy.symm hzx, inner_add_smul k y x x hxy.symm rfl, inner_comm x z, hz,
        inner_comm y z, inner_comm y x]
      ring
    have e2 : inner (List.zipWith (fun a b => a + (-1) * b) z x) (List.zipWith (fun a b => a + (-1) * b) z x) =
        inner z z - inner x x := by
      rw [inner_add_smul (-1) z x _ hzx (by rw [hle, hxy]), inner_comm z, inner_comm x,
        inner_add_smul (-1) z x z hzx hzx, inner_add_smul (-1) z x x hzx rfl, inner_comm x z, hz]
      ring
    have e3 : inner (List.zipWith (fun a b => a + k * b) y x) (List.zipWith (fun a b => a + k * b) y x) =
        inner y y + k * inner x y := by
      rw [inner_add_smul k y x _ hxy.symm (by rw [hlf, hxy]), inner_comm y, inner_comm x,
        inner_add_smul k y x y hxy.symm hxy.symm, inner_add_smul k y x x hxy.symm rfl, inner_comm y x]
      have hkx : k * inner x x = -(inner x y) := by rw [hk]; field_simp
      have : k * (inner x y + k * inner x x) = 0 := by rw [hkx]; ring
      linarith
    rw [e1, e2, e3] at hcs
    have h3 := mul_le_mul_of_nonneg_right hcs hp.le
    have hkx : k * inner x x = -(inner x y) := by rw [hk]; field_simp
    calc _ ≤ (inner z z - inner x x) * (inner y y + k * inner x y) * inner x x := h3
      _ = (inner z z - inner x x) * (inner x x * inner y y + (k * inner x x) * inner x y) := by ring
      _ = _ := by rw [hkx]; ring

end order

end Verif.Spherical
