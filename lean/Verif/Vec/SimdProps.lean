import Verif.Vec.SimdInst
import Mathlib.Algebra.Order.Field.Basic
import Mathlib.Algebra.Order.Field.Rat
import Mathlib.Data.Real.Sqrt
import Mathlib.Tactic.Linarith
import Mathlib.Tactic.Positivity
import Mathlib.Tactic.NormNum

/-! # C76: distances between dense vectors -/

namespace Verif.Vec

open Verif.Quant Spec

/-! ## Lemmas -/

section

variable {K : Type} [Field K] [LinearOrder K]

omit [LinearOrder K] in
theorem l2_run (arch : Arch) (ty : FloatTy) (x y : List K) (h : x.length = y.length) :
    simdOp (l2Float arch ty) x y = some (.ok (sqDist x y)) := by
  obtain ⟨w, hr, hs⟩ := l2Float_sound (K := K) arch ty
  obtain ⟨a, h1, h2⟩ := simdOp_ok hs x y h
  rw [h1, hr, h2]; rfl

omit [LinearOrder K] in
theorem ip_run (arch : Arch) (ty : FloatTy) (x y : List K) (h : x.length = y.length) :
    simdOp (ipFloat arch ty) x y = some (.ok (dot x y)) := by
  obtain ⟨w, hr, hs⟩ := ipFloat_sound (K := K) arch ty
  obtain ⟨a, h1, h2⟩ := simdOp_ok hs x y h
  rw [h1, hr, h2]; rfl

theorem zip_fst_map {α β γ : Type} (f : α → γ) : ∀ (x : List α) (y : List β), x.length = y.length →
    (x.zip y).map (fun p => f p.1) = x.map f
  | [], [], _ => rfl
  | a :: x, b :: y, h => by
    simp only [List.zip_cons_cons, List.map_cons]
    rw [zip_fst_map f x y (by simpa using h)]
  | [], _ :: _, h => by simp at h
  | _ :: _, [], h => by simp at h

theorem zip_snd_map {α β γ : Type} (f : β → γ) : ∀ (x : List α) (y : List β), x.length = y.length →
    (x.zip y).map (fun p => f p.2) = y.map f
  | [], [], _ => rfl
  | a :: x, b :: y, h => by
    simp only [List.zip_cons_cons, List.map_cons]
    rw [zip_snd_map f x y (by simpa using h)]
  | [], _ :: _, h => by simp at h
  | _ :: _, [], h => by simp at h

theorem dot_self {R : Type} [CommRing R] : ∀ (x : List R), dot x x = (x.map (fun v => v * v)).sum
  | [] => rfl
  | a :: x => by
    have := dot_self x
    unfold dot at this ⊢
    simp only [List.zip_cons_cons, List.map_cons, List.sum_cons, this]

theorem cos_run_raw (sqrt : K → K) (arch : Arch) (ty : FloatTy) (x y : List K) (h : x.length = y.length) :
    simdOp (cosFloat sqrt arch ty) x y = some (.ok (cosineSum sqrt (dot x x) (dot y y) (dot x y))) := by
  obtain ⟨w, hr, hs⟩ := cosFloat_sound sqrt arch ty
  obtain ⟨a, h1, h2⟩ := simdOp_ok hs x y h
  rw [triple_list_sum (x.zip y) (fun p => p.1 * p.1) (fun p => p.2 * p.2) (fun p => p.1 * p.2)] at h2
  rw [h1, hr, h2, zip_fst_map (fun v => v * v) x y h, zip_snd_map (fun v => v * v) x y h, dot_self x, dot_self y]
  rfl

variable [IsStrictOrderedRing K]

theorem cauchy (x y : List K) (h : x.length = y.length) : dot x y ^ 2 ≤ dot x x * dot y y := by
  have e1 : dot x y = _ := zip_sum (fun a b => a * b) x y h
  have e2 : dot x x = _ := zip_sum (fun a b => a * b) x x rfl
  have e3 : dot y y = _ := zip_sum (fun a b => a * b) y y rfl
  rw [e1, e2, e3, ← h]
  have := Finset.sum_mul_sq_le_sq_mul_sq (Finset.range x.length) (fun j => x.getD j 0) (fun j => y.getD j 0)
  simpa only [sq] using this

theorem minPositive_pos : (0 : K) < 1 / 2 ^ 126 := by positivity

theorem ratio_bound (sqrt : K → K) (hs : IsSqrt sqrt) (a b p : K) (ha : 0 < a) (hb : 0 < b) (hp : p ^ 2 ≤ a * b) :
    -1 ≤ p / (sqrt a * sqrt b) ∧ p / (sqrt a * sqrt b) ≤ 1 := by
  obtain ⟨a0, a1⟩ := hs a ha.le
  obtain ⟨b0, b1⟩ := hs b hb.le
  have ap : 0 < sqrt a := lt_of_le_of_ne a0 (fun e => by rw [← e, mul_zero] at a1; exact ha.ne a1)
  have bp : 0 < sqrt b := lt_of_le_of_ne b0 (fun e => by rw [← e, mul_zero] at b1; exact hb.ne b1)
  have hd := mul_pos ap bp
  have hsq : p ^ 2 ≤ (sqrt a * sqrt b) ^ 2 := by
    calc p ^ 2 ≤ a * b := hp
      _ = (sqrt a * sqrt a) * (sqrt b * sqrt b) := by rw [a1, b1]
      _ = (sqrt a * sqrt b) ^ 2 := by ring
  obtain ⟨l, u⟩ := abs_le.mp (abs_le_of_sq_le_sq hsq hd.le)
  constructor
  · rw [le_div_iff₀ hd]; linarith
  · rw [div_le_iff₀ hd]; linarith

theorem cosineSum_eq (sqrt : K → K) (hs : IsSqrt sqrt) (x y : List K) (h : x.length = y.length) :
    cosineSum sqrt (dot x x) (dot y y) (dot x y) = cosine sqrt x y := by
  unfold cosineSum cosine minPositive
  simp only
  split
  · rfl
  · rename_i hn
    rw [not_or, not_lt, not_lt] at hn
    obtain ⟨l, u⟩ := ratio_bound sqrt hs _ _ _ (lt_of_lt_of_le minPositive_pos hn.1)
      (lt_of_lt_of_le minPositive_pos hn.2) (cauchy x y h)
    rw [min_eq_right u, max_eq_right l]

end

theorem zip_map' {α β γ δ : Type} (f : α → γ) (g : β → δ) (x : List α) (y : List β) :
    (x.map f).zip (y.map g) = (x.zip y).map (fun p => (f p.1, g p.2)) := by
  rw [List.zip_map]; rfl

/-- The integers in a slice. -/
def IntTy.values (t : IntTy) (x : List Byte) : List Int := match t with
  | .i8 => signed x
  | .u8 => unsigned x

theorem IntTy.values_eq (t : IntTy) (x : List Byte) : t.values x = x.map t.value := by cases t <;> rfl

theorem l2Int_run (arch : Arch) (t : IntTy) (x y : List Byte) (h : x.length = y.length) :
    simdOp (l2Int arch t) x y
      = some (.ok ((accTy arch t).asF32 (BitVec.ofInt 32 (sqDist (t.values x) (t.values y))))) := by
  obtain ⟨w, hr, hs⟩ := l2Int_sound arch t
  obtain ⟨a, h1, h2⟩ := simdOp_ok hs x y h
  rw [h1, hr, h2]
  simp only [l2Scalar_eq]
  rw [ofInt_list_sum, sqDist, t.values_eq, t.values_eq, zip_map', List.map_map]
  rfl

theorem dot_values (t : IntTy) (x y : List Byte) :
    dot (t.values x) (t.values y) = ((x.zip y).map (fun p => t.value p.1 * t.value p.2)).sum := by
  rw [dot, t.values_eq, t.values_eq, zip_map', List.map_map]
  rfl

theorem ipInt_run (arch : Arch) (t : IntTy) (x y : List Byte) (h : x.length = y.length) :
    simdOp (ipInt arch t) x y
      = some (.ok ((accTy arch t).asF32 (BitVec.ofInt 32 (dot (t.values x) (t.values y))))) := by
  obtain ⟨w, hr, hs⟩ := ipInt_sound arch t
  obtain ⟨a, h1, h2⟩ := simdOp_ok hs x y h
  rw [h1, hr, h2]
  simp only [ipScalar_eq]
  rw [ofInt_list_sum, dot_values]

theorem cosInt_run {K : Type} [Field K] [LinearOrder K] (sqrt : K → K) (arch : Arch) (t : IntTy) (x y : List Byte)
    (h : x.length = y.length) :
    simdOp (cosInt sqrt arch t) x y = some (.ok (cosineSum sqrt
      ((accTy arch t).asF32 (BitVec.ofInt 32 (dot (t.values x) (t.values x))))
      ((accTy arch t).asF32 (BitVec.ofInt 32 (dot (t.values y) (t.values y))))
      ((accTy arch t).asF32 (BitVec.ofInt 32 (dot (t.values x) (t.values y)))))) := by
  obtain ⟨w, hr, hs⟩ := cosInt_sound sqrt arch t
  obtain ⟨a, h1, h2⟩ := simdOp_ok hs x y h
  unfold cosTerm at h2
  rw [triple_list_sum (x.zip y) (fun p => ipScalar t p.1 p.1) (fun p => ipScalar t p.2 p.2)
    (fun p => ipScalar t p.1 p.2)] at h2
  simp only [ipScalar_eq] at h2
  rw [ofInt_list_sum, ofInt_list_sum, ofInt_list_sum, ← dot_values,
    zip_fst_map (fun v => t.value v * t.value v) x y h, zip_snd_map (fun v => t.value v * t.value v) x y h] at h2
  rw [h1, hr, h2, dot_self (t.values x), dot_self (t.values y), t.values_eq, t.values_eq, List.map_map, List.map_map]
  rfl

theorem Int.dot_self_nonneg (x : List Int) : 0 ≤ dot x x := by
  rw [dot_self]
  apply List.sum_nonneg
  simp only [List.mem_map]
  rintro _ ⟨a, -, rfl⟩
  exact mul_self_nonneg a

theorem sqDist_nonneg (x y : List Int) : 0 ≤ sqDist x y := by
  unfold sqDist
  apply List.sum_nonneg
  simp only [List.mem_map]
  rintro _ ⟨a, -, rfl⟩
  exact mul_self_nonneg _

theorem unsigned_dot_nonneg (x y : List Byte) : 0 ≤ dot (unsigned x) (unsigned y) := by
  unfold dot Spec.unsigned
  rw [zip_map']
  apply List.sum_nonneg
  simp only [List.mem_map]
  rintro _ ⟨_, ⟨a, -, rfl⟩, rfl⟩
  exact mul_nonneg (Int.natCast_nonneg _) (Int.natCast_nonneg _)

theorem list_sum_le {β : Type} (l : List β) (f : β → Int) (c : Int) (h : ∀ b, f b ≤ c) : (l.map f).sum ≤ c * l.length := by
  induction l with
  | nil => simp
  | cons a l ih =>
    simp only [List.map_cons, List.sum_cons, List.length_cons]
    push_cast
    have := h a
    nlinarith

/-- `as_f32` is the same on every architecture for a sum that fits in 31 bits. -/
theorem asF32_arch (arch : Arch) (t : IntTy) (z : Int) (h1 : t = .i8 ∨ 0 ≤ z) (h2 : z < 2 ^ 31) :
    (accTy arch t).asF32 (BitVec.ofInt 32 z) = AccTy.i32.asF32 (BitVec.ofInt 32 z) := by
  cases arch <;> cases t <;> try rfl
  rcases h1 with h1 | h1
  · cases h1
  · have e1 : (BitVec.ofInt 32 z).toInt = z := by
      rw [BitVec.toInt_ofInt]; exact Int.bmod_eq_of_le (by omega) (by omega)
    have e2 : (BitVec.ofInt 32 z).toNat = z.toNat := by
      rw [BitVec.toNat_ofInt]; omega
    simp only [accTy, AccTy.asF32, e1, e2]
    have e3 : z.natAbs = z.toNat := by omega
    rw [e3]
    rcases h1.lt_or_eq with h | h
    · rw [Int.sign_eq_one_of_pos h, one_mul]
    · subst h; rfl

theorem specialize_eq {T U R : Type} (dims : List Nat) (f : List T → List U → Option (Except LenPanic R))
    (dim : Option Nat) (x : List T) (y : List U) (h : x.length = y.length) (hd : ∀ d, dim = some d → d = x.length) :
    specialize dims f dim x y = f x y := by
  cases dim with
  | none => rfl
  | some d =>
    have hx := hd d rfl
    unfold specialize
    simp only
    cases hf : dims.find? (fun N => d == N) with
    | none => rfl
    | some N =>
      have := List.find?_some hf
      rw [beq_iff_eq] at this
      simp only [specialized]
      rw [if_neg (by push Not; omega)]

theorem specialize_err {T U R : Type} (dims : List Nat) (f : List T → List U → Option (Except LenPanic R))
    (dim : Option Nat) (x : List T) (y : List U) (h : f x y = some (.error .lengths)) :
    specialize dims f dim x y = some (.error .lengths) := by
  cases dim with
  | none => exact h
  | some d =>
    unfold specialize
    simp only
    cases hf : dims.find? (fun N => d == N) with
    | none => exact h
    | some N =>
      simp only [specialized]
      split
      · rfl
      · exact h

/-! ## Theorems -/

section

variable {K : Type} [Field K] [LinearOrder K]

/-- **C76.** Squared Euclidean distance of `f32`, `f16` and mixed vectors: the sum of the squared differences, for every
length, on every architecture. -/
theorem C76_float_l2 (sqrt : K → K) (arch : Arch) (ty : FloatTy) (out : Out) (x y : List K) (h : x.length = y.length) :
    evalFloat sqrt arch ty .squaredL2 out x y = some (.ok (sqDist x y)) := by
  unfold evalFloat
  simp only [l2_run arch ty x y h]
  cases out <;> rfl

/-- Euclidean distance: the square root of that. -/
theorem C76_float_full_l2 (sqrt : K → K) (arch : Arch) (ty : FloatTy) (out : Out) (x y : List K)
    (h : x.length = y.length) :
    evalFloat sqrt arch ty .fullL2 out x y = some (.ok (sqrt (sqDist x y))) := by
  unfold evalFloat
  simp only [l2_run arch ty x y h]
  cases out <;> rfl

/-- Inner product: as a mathematical value, or negated as a similarity score. -/
theorem C76_float_inner_product (sqrt : K → K) (arch : Arch) (ty : FloatTy) (x y : List K) (h : x.length = y.length) :
    evalFloat sqrt arch ty .innerProduct .mathematical x y = some (.ok (dot x y)) ∧
    evalFloat sqrt arch ty .innerProduct .similarity x y = some (.ok (-dot x y)) ∧
    evalFloat sqrt arch ty .innerProduct .f32 x y = some (.ok (-dot x y)) := by
  unfold evalFloat
  simp only [ip_run arch ty x y h]
  exact ⟨rfl, rfl, rfl⟩

/-- Cosine for vectors said to have norm one: the inner product, or one minus it. -/
theorem C76_float_cosine_normalized (sqrt : K → K) (arch : Arch) (ty : FloatTy) (x y : List K)
    (h : x.length = y.length) :
    evalFloat sqrt arch ty .cosineNormalized .mathematical x y = some (.ok (dot x y)) ∧
    evalFloat sqrt arch ty .cosineNormalized .similarity x y = some (.ok (1 - dot x y)) ∧
    evalFloat sqrt arch ty .cosineNormalized .f32 x y = some (.ok (1 - dot x y)) := by
  unfold evalFloat
  simp only [ip_run arch ty x y h]
  exact ⟨rfl, rfl, rfl⟩

/-- Cosine: the cosine of the angle, or one minus it; a vector whose squared norm is below the smallest normal `f32` is at
cosine zero from every vector. The final clamp never changes the value. -/
theorem C76_float_cosine [IsStrictOrderedRing K] (sqrt : K → K) (hs : IsSqrt sqrt) (arch : Arch) (ty : FloatTy)
    (x y : List K) (h : x.length = y.length) :
    evalFloat sqrt arch ty .cosine .mathematical x y = some (.ok (cosine sqrt x y)) ∧
    evalFloat sqrt arch ty .cosine .similarity x y = some (.ok (1 - cosine sqrt x y)) ∧
    evalFloat sqrt arch ty .cosine .f32 x y = some (.ok (1 - cosine sqrt x y)) := by
  unfold evalFloat
  simp only [cos_run_raw sqrt arch ty x y h, cosineSum_eq sqrt hs x y h]
  exact ⟨rfl, rfl, rfl⟩

/-- The cosine is between -1 and 1. -/
theorem C76_cosine_range [IsStrictOrderedRing K] (sqrt : K → K) (hs : IsSqrt sqrt) (x y : List K)
    (h : x.length = y.length) : -1 ≤ cosine sqrt x y ∧ cosine sqrt x y ≤ 1 := by
  unfold cosine
  split
  · constructor <;> linarith
  · rename_i hn
    rw [not_or, not_lt, not_lt] at hn
    exact ratio_bound sqrt hs _ _ _ (lt_of_lt_of_le minPositive_pos hn.1)
      (lt_of_lt_of_le minPositive_pos hn.2) (cauchy x y h)

/-- On vectors of norm one, both cosine functors agree. -/
theorem C76_normalized_agrees [IsStrictOrderedRing K] (sqrt : K → K) (hs : IsSqrt sqrt) (arch : Arch) (ty : FloatTy)
    (out : Out) (x y : List K) (h : x.length = y.length) (hx : dot x x = 1) (hy : dot y y = 1) :
    evalFloat sqrt arch ty .cosineNormalized out x y = evalFloat sqrt arch ty .cosine out x y := by
  have e : cosine sqrt x y = dot x y := by
    unfold cosine
    have h1 : ¬ ((1 : K) < 1 / 2 ^ 126) := by
      rw [not_lt, div_le_one (by positivity)]
      exact one_le_pow₀ (by norm_num)
    rw [hx, hy, if_neg (by simp only [or_self]; exact h1)]
    obtain ⟨a, b⟩ := hs 1 zero_le_one
    rw [b, div_one]
  unfold evalFloat
  simp only [cos_run_raw sqrt arch ty x y h, cosineSum_eq sqrt hs x y h, ip_run arch ty x y h, e]
  cases out <;> rfl

/-- Vectors of different lengths: a panic, for every functor and architecture, never a read past an end. -/
theorem C76_float_lengths (sqrt : K → K) (arch : Arch) (ty : FloatTy) (f : Functor') (out : Out) (x y : List K)
    (h : x.length ≠ y.length) : evalFloat sqrt arch ty f out x y = some (.error .lengths) := by
  unfold evalFloat
  cases f <;> simp only [simdOp_len x y h] <;> rfl

theorem C76_int_lengths (sqrt : K → K) (arch : Arch) (t : IntTy) (f : Functor') (hf : f ≠ .cosineNormalized) (out : Out)
    (x y : List Byte) (h : x.length ≠ y.length) : evalInt sqrt arch t f out x y = some (.error .lengths) := by
  unfold evalInt
  cases f <;> first
    | exact absurd rfl hf
    | (simp only [simdOp_len x y h]; rfl)

/-- **C76.** Squared Euclidean distance of integer vectors: the exact sum of the squared differences rounded to single
precision, the same on every architecture, as long as the sum is below `2 ^ 31`. -/
theorem C76_int_l2 (sqrt : K → K) (t : IntTy) (x y : List Byte) (h : x.length = y.length)
    (hz : sqDist (t.values x) (t.values y) < 2 ^ 31) :
    ∃ v : Int, Single (sqDist (t.values x) (t.values y)) v ∧
      (∀ arch out, evalInt sqrt arch t .squaredL2 out x y = some (.ok (v : K))) ∧
      (∀ arch out, evalInt sqrt arch t .fullL2 out x y = some (.ok (sqrt (v : K)))) := by
  have h0 := sqDist_nonneg (t.values x) (t.values y)
  refine ⟨_, asF32_i32 _ (by omega) hz, fun arch out => ?_, fun arch out => ?_⟩
  · unfold evalInt
    simp only [l2Int_run arch t x y h, asF32_arch arch t _ (Or.inr h0) hz]
    cases out <;> rfl
  · unfold evalInt
    simp only [l2Int_run arch t x y h, asF32_arch arch t _ (Or.inr h0) hz]
    cases out <;> rfl

/-- Inner product of integer vectors. -/
theorem C76_int_inner_product (sqrt : K → K) (t : IntTy) (x y : List Byte) (h : x.length = y.length)
    (hz : |dot (t.values x) (t.values y)| < 2 ^ 31) :
    ∃ v : Int, Single (dot (t.values x) (t.values y)) v ∧
      (∀ arch, evalInt sqrt arch t .innerProduct .mathematical x y = some (.ok (v : K))) ∧
      (∀ arch out, out ≠ .mathematical → evalInt sqrt arch t .innerProduct out x y = some (.ok (-(v : K)))) := by
  rw [abs_lt] at hz
  have h0 : t = .i8 ∨ 0 ≤ dot (t.values x) (t.values y) := by
    cases t
    · exact Or.inl rfl
    · exact Or.inr (unsigned_dot_nonneg x y)
  refine ⟨_, asF32_i32 _ (by omega) hz.2, fun arch => ?_, fun arch out ho => ?_⟩
  · unfold evalInt
    simp only [ipInt_run arch t x y h, asF32_arch arch t _ h0 hz.2]
    rfl
  · unfold evalInt
    simp only [ipInt_run arch t x y h, asF32_arch arch t _ h0 hz.2]
    cases out <;> first | rfl | exact absurd rfl ho

/-- The cosine of integer vectors is between -1 and 1, whatever their length. -/
theorem C76_int_cosine_range [IsStrictOrderedRing K] (sqrt : K → K) (arch : Arch) (t : IntTy) (x y : List Byte)
    (h : x.length = y.length) :
    ∃ v : K, -1 ≤ v ∧ v ≤ 1 ∧ evalInt sqrt arch t .cosine .mathematical x y = some (.ok v) ∧
      ∀ out, out ≠ .mathematical → evalInt sqrt arch t .cosine out x y = some (.ok (1 - v)) := by
  unfold evalInt
  simp only [cosInt_run sqrt arch t x y h]
  refine ⟨_, ?_, ?_, rfl, fun out ho => ?_⟩
  · unfold cosineSum
    simp only
    split
    · change (-1 : K) ≤ 0; linarith
    · exact le_max_left _ _
  · unfold cosineSum
    simp only
    split
    · change (0 : K) ≤ 1; linarith
    · exact max_le (by linarith) (min_le_left _ _)
  · cases out <;> first | rfl | exact absurd rfl ho

theorem dot_cast (x y : List Int) : ((dot x y : Int) : K) = dot (x.map (fun (v : Int) => (v : K))) (y.map (fun (v : Int) => (v : K))) := by
  unfold dot
  rw [zip_map', List.map_map]
  induction x.zip y with
  | nil => simp
  | cons a l ih => simp [ih]

/-- When the squared norms are at most `2 ^ 24` (up to 258 dimensions), the cosine of integer vectors is exact. -/
theorem C76_int_cosine [IsStrictOrderedRing K] (sqrt : K → K) (hs : IsSqrt sqrt) (arch : Arch) (t : IntTy) (x y : List Byte)
    (h : x.length = y.length) (hx : dot (t.values x) (t.values x) ≤ 2 ^ 24) (hy : dot (t.values y) (t.values y) ≤ 2 ^ 24) :
    evalInt sqrt arch t .cosine .mathematical x y = some (.ok (cosine sqrt
      ((t.values x).map (fun (v : Int) => (v : K))) ((t.values y).map (fun (v : Int) => (v : K))))) := by
  have hx0 := Int.dot_self_nonneg (t.values x)
  have hy0 := Int.dot_self_nonneg (t.values y)
  have hc : |dot (t.values x) (t.values y)| ≤ 2 ^ 24 := by
    have e1 := zip_sum (fun (a b : Int) => a * b) (t.values x) (t.values y) (by simp [t.values_eq, h])
    have e2 := zip_sum (fun (a b : Int) => a * b) (t.values x) (t.values x) rfl
    have e3 := zip_sum (fun (a b : Int) => a * b) (t.values y) (t.values y) rfl
    have := Finset.sum_mul_sq_le_sq_mul_sq (Finset.range (t.values x).length) (fun j => (t.values x).getD j 0)
      (fun j => (t.values y).getD j 0)
    have hl : (t.values x).length = (t.values y).length := by simp [t.values_eq, h]
    have h3 : dot (t.values x) (t.values y) ^ 2 ≤ dot (t.values x) (t.values x) * dot (t.values y) (t.values y) := by
      unfold dot; rw [e1, e2, e3, ← hl]; simpa only [sq] using this
    apply abs_le_of_sq_le_sq _ (by omega)
    calc _ ≤ _ := h3
      _ ≤ 2 ^ 24 * 2 ^ 24 := mul_le_mul hx hy hy0 (by omega)
      _ = _ := by norm_num
  have h0 : t = .i8 ∨ 0 ≤ dot (t.values x) (t.values y) := by
    cases t
    · exact Or.inl rfl
    · exact Or.inr (unsigned_dot_nonneg x y)
  have hc' := abs_le.mp hc
  unfold evalInt
  simp only [cosInt_run sqrt arch t x y h]
  rw [asF32_arch arch t _ (Or.inr hx0) (by omega), asF32_arch arch t _ (Or.inr hy0) (by omega),
    asF32_arch arch t _ h0 (by omega), (asF32_i32 _ (by omega) (by omega)).1 (by rwa [abs_of_nonneg hx0]),
    (asF32_i32 _ (by omega) (by omega)).1 (by rwa [abs_of_nonneg hy0]), (asF32_i32 _ (by omega) (by omega)).1 hc,
    dot_cast, dot_cast, dot_cast, cosineSum_eq sqrt hs _ _ (by simp [t.values_eq, h])]
  rfl

/-- Dimensions for which no integer sum reaches `2 ^ 31`. -/
theorem C76_int_dimensions (t : IntTy) (x y : List Byte) (h : x.length = y.length) :
    (x.length ≤ 33025 → sqDist (t.values x) (t.values y) < 2 ^ 31) ∧
    (x.length ≤ 33025 ∨ (t = .i8 ∧ x.length ≤ 131071) → |dot (t.values x) (t.values y)| < 2 ^ 31) := by
  have hlen : (x.zip y).length = x.length := by simp [h]
  constructor
  · intro hd
    have e : sqDist (t.values x) (t.values y)
        = ((x.zip y).map (fun p => (t.value p.1 - t.value p.2) * (t.value p.1 - t.value p.2))).sum := by
      rw [sqDist, t.values_eq, t.values_eq, zip_map', List.map_map]; rfl
    rw [e]
    have := list_sum_le (x.zip y) (fun p => (t.value p.1 - t.value p.2) * (t.value p.1 - t.value p.2)) 65025 (by
      intro p
      have key : ∀ a b : Byte, -255 ≤ t.value a - t.value b ∧ t.value a - t.value b ≤ 255 := by
        intro a b
        have ha := a.isLt
        have hb := b.isLt
        have a1 := BitVec.toInt_lt (x := a)
        have a2 := BitVec.le_toInt (x := a)
        have b1 := BitVec.toInt_lt (x := b)
        have b2 := BitVec.le_toInt (x := b)
        cases t <;> simp only [IntTy.value] <;> omega
      obtain ⟨l, u⟩ := key p.1 p.2
      nlinarith)
    rw [hlen] at this
    refine lt_of_le_of_lt this ?_
    omega
  · intro hd
    rw [dot_values]
    rw [abs_lt]
    have key : ∀ a b : Byte, (t = .i8 → -16384 ≤ t.value a * t.value b ∧ t.value a * t.value b ≤ 16384) ∧
        (t = .u8 → 0 ≤ t.value a * t.value b ∧ t.value a * t.value b ≤ 65025) := by
      intro a b
      have ha := a.isLt
      have hb := b.isLt
      have a1 := BitVec.toInt_lt (x := a)
      have a2 := BitVec.le_toInt (x := a)
      have b1 := BitVec.toInt_lt (x := b)
      have b2 := BitVec.le_toInt (x := b)
      constructor
      · rintro rfl
        simp only [IntTy.value]
        norm_num at a1 a2 b1 b2
        constructor <;> nlinarith
      · rintro rfl
        simp only [IntTy.value]
        constructor
        · positivity
        · have ha' : (a.toNat : Int) ≤ 255 := by omega
          have hb' : (b.toNat : Int) ≤ 255 := by omega
          have := mul_le_mul ha' hb' (Int.natCast_nonneg _) (by omega)
          omega
    have hneg : ((x.zip y).map (fun p => -(t.value p.1 * t.value p.2))).sum
        = -((x.zip y).map (fun p => t.value p.1 * t.value p.2)).sum := by
      induction x.zip y with
      | nil => rfl
      | cons a l ih => simp only [List.map_cons, List.sum_cons, ih]; ring
    cases t
    · have u := list_sum_le (x.zip y) (fun p => IntTy.i8.value p.1 * IntTy.i8.value p.2) 16384
        (fun p => ((key p.1 p.2).1 rfl).2)
      have l := list_sum_le (x.zip y) (fun p => -(IntTy.i8.value p.1 * IntTy.i8.value p.2)) 16384
        (fun p => by have := ((key p.1 p.2).1 rfl).1; omega)
      rw [hneg] at l
      rw [hlen] at u l
      have hd' : x.length ≤ 131071 := by rcases hd with hd | hd <;> omega
      constructor <;> omega
    · have u := list_sum_le (x.zip y) (fun p => IntTy.u8.value p.1 * IntTy.u8.value p.2) 65025
        (fun p => ((key p.1 p.2).2 rfl).2)
      have l := list_sum_le (x.zip y) (fun p => -(IntTy.u8.value p.1 * IntTy.u8.value p.2)) 0
        (fun p => by have := ((key p.1 p.2).2 rfl).1; omega)
      rw [hneg] at l
      rw [hlen] at u
      have hd' : x.length ≤ 33025 := by
        rcases hd with hd | hd
        · exact hd
        · exact absurd hd.1 (by decide)
      constructor <;> omega

theorem replicate_sqDist (n : Nat) :
    sqDist (IntTy.u8.values (List.replicate n 255#8)) (IntTy.u8.values (List.replicate n 0#8)) = 65025 * n := by
  simp only [IntTy.values, Spec.unsigned, List.map_replicate]
  unfold sqDist
  rw [List.zip_replicate']
  simp
  ring

/-- The bound is sharp: at 33026 dimensions the squared distance of two `u8` vectors is reported negative by the x86 and
the portable implementations, and positive by the Neon one. -/
theorem C76_int_overflow [IsStrictOrderedRing K] (sqrt : K → K) :
    ∃ x y : List Byte, x.length = 33026 ∧ y.length = 33026 ∧
      (∀ arch, arch ≠ .neon → ∃ v : K, v < 0 ∧ evalInt sqrt arch .u8 .squaredL2 .f32 x y = some (.ok v)) ∧
      ∃ v : K, 0 < v ∧ evalInt sqrt .neon .u8 .squaredL2 .f32 x y = some (.ok v) := by
  refine ⟨List.replicate 33026 255#8, List.replicate 33026 0#8, List.length_replicate, List.length_replicate, ?_, ?_⟩
  · intro arch ha
    unfold evalInt
    simp only [l2Int_run arch .u8 _ _ (show (List.replicate 33026 255#8).length = (List.replicate 33026 0#8).length by
      rw [List.length_replicate, List.length_replicate]), replicate_sqDist]
    have e : (accTy arch .u8).asF32 (BitVec.ofInt 32 (65025 * ((33026 : Nat) : Int))) = -2147451648 := by
      cases arch <;> first | exact absurd rfl ha | decide +kernel
    rw [e]
    exact ⟨((-2147451648 : Int) : K), by norm_num, rfl⟩
  · unfold evalInt
    simp only [l2Int_run .neon .u8 _ _ (show (List.replicate 33026 255#8).length = (List.replicate 33026 0#8).length by
      rw [List.length_replicate, List.length_replicate]), replicate_sqDist]
    have e : (accTy .neon .u8).asF32 (BitVec.ofInt 32 (65025 * ((33026 : Nat) : Int))) = 2147515648 := by
      decide +kernel
    rw [e]
    exact ⟨((2147515648 : Int) : K), by norm_num, rfl⟩

/-- The value a metric is documented to give to a pair of float vectors. -/
def metricValue (sqrt : K → K) (m : Metric) (x y : List K) : K :=
  match m with
  | .l2 => sqDist x y
  | .innerProduct => -dot x y
  | .cosine => 1 - cosine sqrt x y
  | .cosineNormalized => 1 - dot x y

/-- A distance function obtained for a metric, with or without announcing the dimension, computes that metric. -/
theorem C76_provider [IsStrictOrderedRing K] (sqrt : K → K) (hs : IsSqrt sqrt) (arch : Arch) (ty : FloatTy) (m : Metric)
    (dim : Option Nat) (x y : List K) (h : x.length = y.length) (hd : ∀ d, dim = some d → d = x.length) :
    comparerFloat sqrt arch ty m dim x y = some (.ok (metricValue sqrt m x y)) := by
  have key : evalFloat sqrt arch ty m.functorFloat .f32 x y = some (.ok (metricValue sqrt m x y)) := by
    cases m
    · exact (C76_float_cosine sqrt hs arch ty x y h).2.2
    · exact (C76_float_inner_product sqrt arch ty x y h).2.2
    · exact C76_float_l2 sqrt arch ty .f32 x y h
    · exact (C76_float_cosine_normalized sqrt arch ty x y h).2.2
  unfold comparerFloat
  rw [specialize_eq _ _ _ x y h hd]
  exact key

/-- The same on integers, where the normalized cosine is the cosine. -/
theorem C76_provider_int (sqrt : K → K) (arch : Arch) (t : IntTy) (m : Metric) (dim : Option Nat) (x y : List Byte)
    (h : x.length = y.length) (hd : ∀ d, dim = some d → d = x.length) :
    comparerInt sqrt arch t m dim x y = evalInt sqrt arch t
      (match m with | .l2 => .squaredL2 | .innerProduct => .innerProduct | .cosine => .cosine | .cosineNormalized => .cosine)
      .f32 x y := by
  unfold comparerInt
  rw [specialize_eq _ _ _ x y h hd]
  cases m <;> rfl

/-- A distance function never returns a value for vectors of different lengths, nor reads past an end. -/
theorem C76_provider_lengths (sqrt : K → K) (arch : Arch) (m : Metric) (dim : Option Nat) :
    (∀ ty (x y : List K), x.length ≠ y.length → comparerFloat sqrt arch ty m dim x y = some (.error .lengths)) ∧
    (∀ t (x y : List Byte), x.length ≠ y.length → comparerInt sqrt arch t m dim x y = some (.error .lengths)) := by
  constructor
  · intro ty x y h
    have key := C76_float_lengths sqrt arch ty m.functorFloat .f32 x y h
    exact specialize_err _ _ _ x y key
  · intro t x y h
    have key := C76_int_lengths sqrt arch t m.functorInt (by cases m <;> decide) .f32 x y h
    exact specialize_err _ _ _ x y key

/-- A dimension that has a specialised kernel is enforced. -/
theorem C76_provider_enforced (sqrt : K → K) (arch : Arch) (ha : arch ≠ .scalar) (ty : FloatTy) (m : Metric) (d : Nat)
    (hd : d ∈ [768, 384, 128, 100]) (x y : List K) (h : x.length ≠ d) :
    comparerFloat sqrt arch ty m (some d) x y = some (.error .lengths) := by
  have hf : (specFloat arch ty).find? (fun N => d == N) = some d := by
    cases arch <;> first
      | exact absurd rfl ha
      | (simp only [specFloat]
         simp only [List.mem_cons, List.not_mem_nil, or_false] at hd
         rcases hd with rfl | rfl | rfl | rfl <;> rfl)
  unfold comparerFloat specialize
  simp only [hf]
  unfold specialized
  rw [if_pos (Or.inl h)]

/-- Norms. -/
theorem C76_norms (sqrt : K → K) (arch : Arch) (ty : FloatTy) (x : List K) :
    normSquaredFloat sqrt arch ty x = some (.ok (dot x x)) ∧
    normFloat sqrt arch ty x = some (.ok (sqrt (dot x x))) ∧
    (ty ≠ .f32f16 → l1Norm arch ty x = some (.ok (l1 x))) := by
  have key := (C76_float_inner_product sqrt arch ty x x rfl).1
  refine ⟨key, ?_, ?_⟩
  · unfold normFloat normSquaredFloat
    rw [key]; rfl
  · intro ht
    have hex : ∃ S, (l1Float arch ty : Option (Schema K K (Lanes K) K)) = some S := by
      cases arch <;> cases ty <;> first | exact ⟨_, rfl⟩ | exact absurd rfl ht
    obtain ⟨S, hS⟩ := hex
    obtain ⟨w, hr, hs⟩ := l1Float_sound arch ty S hS
    obtain ⟨a, h1, h2⟩ := simdOp_ok hs x x rfl
    unfold l1Norm
    rw [hS]
    simp only [Option.bind_eq_bind, Option.bind_some]
    rw [h1, hr, h2, zip_fst_map (fun v => |v|) x x rfl]
    rfl

theorem foldl_max (x : List K) : ∀ m : K, m ≤ x.foldl (fun m v => max m |v|) m ∧
    (∀ v ∈ x, |v| ≤ x.foldl (fun m v => max m |v|) m) ∧
    (x.foldl (fun m v => max m |v|) m = m ∨ ∃ v ∈ x, x.foldl (fun m v => max m |v|) m = |v|) := by
  induction x with
  | nil => intro m; exact ⟨le_refl _, by simp, Or.inl rfl⟩
  | cons a x ih =>
    intro m
    obtain ⟨h1, h2, h3⟩ := ih (max m |a|)
    simp only [List.foldl_cons]
    refine ⟨le_trans (le_max_left _ _) h1, ?_, ?_⟩
    · intro v hv
      rcases List.mem_cons.mp hv with rfl | hv
      · exact le_trans (le_max_right _ _) h1
      · exact h2 v hv
    · rcases h3 with h3 | ⟨v, hv, h3⟩
      · rcases le_total m |a| with h | h
        · right; exact ⟨a, by simp, by rw [h3, max_eq_right h]⟩
        · left; rw [h3, max_eq_left h]
      · right; exact ⟨v, by simp [hv], h3⟩

/-- The maximum norm: the largest absolute value, zero for the empty vector. -/
theorem C76_max_norm [IsStrictOrderedRing K] (x : List K) :
    (∀ v ∈ x, |v| ≤ lInfNorm x) ∧ (x = [] → lInfNorm x = 0) ∧ (x ≠ [] → ∃ v ∈ x, lInfNorm x = |v|) := by
  obtain ⟨h1, h2, h3⟩ := foldl_max x 0
  refine ⟨h2, by rintro rfl; rfl, fun hne => ?_⟩
  rcases h3 with h3 | h3
  · obtain ⟨v, hv⟩ := List.exists_mem_of_ne_nil x hne
    have := h2 v hv
    rw [h3] at this
    exact ⟨v, hv, by unfold lInfNorm; rw [h3]; exact le_antisymm (abs_nonneg v) this⟩
  · exact h3

theorem feed_sum {T U M : Type} [AddCommMonoid M] (f : T → U → M) : ∀ (ps : List (List T × List U)),
    (∀ p ∈ ps, p.1.length = p.2.length) →
    (ps.map (fun p => ((p.1.zip p.2).map (fun q => f q.1 q.2)).sum)).sum
      = (((ps.map Prod.fst).flatten.zip (ps.map Prod.snd).flatten).map (fun q => f q.1 q.2)).sum
  | [], _ => rfl
  | p :: ps, h => by
    simp only [List.map_cons, List.sum_cons, List.flatten_cons]
    rw [feed_sum f ps (fun q hq => h q (by simp [hq])), List.zip_append (h p (by simp)), List.map_append, List.sum_append]

/-- Feeding a vector pair in pieces to a resumable computation gives the value of the whole, however it is cut. -/
theorem C76_resumable [IsStrictOrderedRing K] (sqrt : K → K) (hs : IsSqrt sqrt) (arch : Arch) (ty : FloatTy)
    (ps : List (List K × List K)) (h : ∀ p ∈ ps, p.1.length = p.2.length) :
    (l2Float arch ty).runResumable ps
      = some (.ok (sqDist (ps.map Prod.fst).flatten (ps.map Prod.snd).flatten)) ∧
    (ipFloat arch ty).runResumable ps
      = some (.ok (dot (ps.map Prod.fst).flatten (ps.map Prod.snd).flatten)) ∧
    (cosFloat sqrt arch ty).runResumable ps
      = some (.ok (cosine sqrt (ps.map Prod.fst).flatten (ps.map Prod.snd).flatten)) := by
  refine ⟨?_, ?_, ?_⟩
  · obtain ⟨w, hr, hS⟩ := l2Float_sound (K := K) arch ty
    obtain ⟨s, h1, h2⟩ := feed_ok hS (by simp) ps (l2Float arch ty).init h
    unfold Schema.runResumable
    rw [h1]
    simp only [Option.bind_eq_bind, Option.bind_some]
    rw [hr, h2, hS.init, zero_add, feed_sum (fun x y => (x - y) * (x - y)) ps h]
    rfl
  · obtain ⟨w, hr, hS⟩ := ipFloat_sound (K := K) arch ty
    obtain ⟨s, h1, h2⟩ := feed_ok hS (by simp) ps (ipFloat arch ty).init h
    unfold Schema.runResumable
    rw [h1]
    simp only [Option.bind_eq_bind, Option.bind_some]
    rw [hr, h2, hS.init, zero_add, feed_sum (fun x y => x * y) ps h]
    rfl
  · obtain ⟨w, hr, hS⟩ := cosFloat_sound sqrt arch ty
    obtain ⟨s, h1, h2⟩ := feed_ok hS (by simp) ps (cosFloat sqrt arch ty).init h
    have hl : (ps.map Prod.fst).flatten.length = (ps.map Prod.snd).flatten.length := by
      rw [List.length_flatten, List.length_flatten, List.map_map, List.map_map]
      congr 1
      exact List.map_congr_left (fun p hp => h p hp)
    unfold Schema.runResumable
    rw [h1]
    simp only [Option.bind_eq_bind, Option.bind_some]
    rw [hr, h2, hS.init, zero_add, feed_sum (fun x y => (x * x, y * y, x * y)) ps h,
      triple_list_sum _ (fun (p : K × K) => p.1 * p.1) (fun p => p.2 * p.2) (fun p => p.1 * p.2),
      zip_fst_map (fun v => v * v) _ _ hl, zip_snd_map (fun v => v * v) _ _ hl, ← dot_self, ← dot_self]
    exact congrArg (fun v => some (Except.ok v)) (cosineSum_eq sqrt hs _ _ hl)

end

/-! ## Concrete cases -/

/-- The real square root meets `IsSqrt`. -/
example : IsSqrt Real.sqrt := fun a ha => ⟨Real.sqrt_nonneg a, Real.mul_self_sqrt ha⟩

/-- Nine elements: one vector of eight and a remainder of one. -/
example : evalFloat (K := Rat) id .v3 .f32 .squaredL2 .f32 [1, 2, 3, 4, 5, 6, 7, 8, 9] [0, 2, 3, 4, 5, 6, 7, 8, 11]
    = some (.ok 5) := by
  rw [C76_float_l2 _ _ _ _ _ _ (by decide)]; congr 2; decide +kernel

example : (evalFloat (K := Rat) id .neon .f16 .innerProduct .f32 [1, 2, 3, 4, 5] [1, 1, 1, 1, 2]) = some (.ok (-20)) := by
  rw [(C76_float_inner_product _ _ _ _ _ (by decide)).2.2]; congr 2; decide +kernel

/-- Integer vectors: `i8` 127 against -128 in 40 dimensions. -/
example : sqDist (IntTy.i8.values (List.replicate 40 127#8)) (IntTy.i8.values (List.replicate 40 128#8)) = 40 * 65025 := by
  decide +kernel

example : (simdOp (l2Int .v4 .i8) (List.replicate 40 127#8) (List.replicate 40 128#8)) = some (.ok 2601000) := by
  decide +kernel

/-- Vectors of different lengths. -/
example : evalFloat (K := Rat) id .v4 .f32 .cosine .f32 [1, 2] [1] = some (.error .lengths) :=
  C76_float_lengths _ _ _ _ _ _ _ (by decide)

/-- An announced dimension of 100 is enforced; an announced dimension of 3 is not. -/
example : comparerFloat (K := Rat) id .v3 .f32 .l2 (some 100) [1, 2] [1, 3] = some (.error .lengths) :=
  C76_provider_enforced _ _ (by decide) _ _ _ (by decide) _ _ (by decide)

example : comparerFloat (K := Rat) id .v3 .f32 .l2 (some 3) [1, 2] [1, 3] = some (.ok 1) := by decide +kernel

example : lInfNorm ([1, -7, 3] : List Rat) = 7 := by decide +kernel

example : ∃ x y : List Rat, x.length = y.length ∧ dot x x = 1 ∧ dot y y = 1 ∧ dot x y = 24 / 25 :=
  ⟨[3 / 5, 4 / 5], [4 / 5, 3 / 5], rfl, by decide +kernel, by decide +kernel, by decide +kernel⟩

end Verif.Vec
