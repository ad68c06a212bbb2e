import Verif.Spherical.Props

/-!
# C92: errors of queries and distances

Which error a query or a one bit vector that cannot be compressed gets, that distances of unequal lengths are refused,
and that a query at the center has its true distance to every compressed vector.
-/

namespace Verif.Spherical

open Verif.Rotate (inner)

variable {K : Type} [Field K] [LinearOrder K] [IsStrictOrderedRing K] [FloorRing K]

theorem finite_none {α : Type} (x : List (Option α)) (h : none ∈ x) : finite x = none := by
  induction x with
  | nil => simp at h
  | cons a x ih =>
    cases a with
    | none => rfl
    | some a => simp [finite, ih (by simpa using h)]

/-- Compression of a query fails exactly when its length, the length of the destination or a component is wrong, with
the error that says so. -/
theorem C92_query_errors (norm : List K → K) (top : K) (q : Quantizer K) (b : Nat) (x : List (Option K)) (old : List Nat) :
    (x.length ≠ q.shift.length → compressQuery norm top q b x old = .error (.source q.shift.length)) ∧
    (x.length = q.shift.length → old.length ≠ q.outDim →
      compressQuery norm top q b x old = .error (.destination q.outDim)) ∧
    (x.length = q.shift.length → old.length = q.outDim → none ∈ x → compressQuery norm top q b x old = .error .nan) ∧
    (x.length = q.shift.length → old.length = q.outDim → none ∉ x → ∃ d, compressQuery norm top q b x old = .ok d) := by
  refine ⟨fun h => ?_, fun h1 h2 => ?_, fun h1 h2 h3 => ?_, fun h1 h2 h3 => ?_⟩
  · unfold compressQuery checkDims; rw [if_pos h]
  · unfold compressQuery checkDims; rw [if_neg (by simpa using h1), if_pos h2]
  · unfold compressQuery checkDims; rw [if_neg (by simpa using h1), if_neg (by simpa using h2)]
    dsimp only
    rw [finite_none x h3]
  · unfold compressQuery checkDims; rw [if_neg (by simpa using h1), if_neg (by simpa using h2)]
    dsimp only
    cases hf : finite x with
    | some y => exact ⟨_, rfl⟩
    | none =>
      exfalso
      apply h3
      clear h1 h2 h3
      induction x with
      | nil => simp [finite] at hf
      | cons a x ih =>
        cases a with
        | none => simp
        | some a =>
          cases hx : finite x with
          | none => exact List.mem_cons_of_mem _ (ih hx)
          | some y => simp [finite, hx] at hf

/-- A correction that does not fit half precision is reported as such, also if nothing else fits. One bit. -/
theorem C92_correction_error {norm : List K → K} {f16 : K → Option K} {pick : Nat → List (Crit K) → Nat} {q : Quantizer K}
    {x : List K} {old : List Nat} (h1 : x.length = q.shift.length) (h2 : old.length = q.outDim)
    (h0 : norm (shifted norm q x) ≠ 0) (hf : ∀ k, f16 k = none) :
    compress norm f16 pick q 1 (x.map some) old = some (.error .correction) := by
  unfold compress checkDims
  rw [List.length_map, if_neg (by simpa using h1), if_neg (by simpa using h2)]
  dsimp only
  rw [finite_map]
  dsimp only
  unfold compressFinite
  rw [if_neg h0]
  unfold finish
  rw [if_pos rfl]
  unfold finishOne Meta.new
  have : ∀ c : Option K, c.bind f16 = none := by
    intro c; cases c <;> simp [hf]
  rw [this]
  rfl

/-- Distances of vectors of unequal lengths are refused, for data, queries and full-precision queries. -/
theorem C92_unequal_lengths (q : Quantizer K) (b : Nat) (x y : Data K) (u : Query K) (f : Full K) :
    (x.codes.length ≠ y.codes.length → distData q b x y = none) ∧
    (u.codes.length ≠ y.codes.length → distQuery q b u y = none) ∧
    (f.data.length ≠ y.codes.length → distFull q b f y = none) := by
  refine ⟨fun h => ?_, fun h => ?_, fun h => ?_⟩
  · unfold distData l2Data ipData; cases q.metric <;> simp [h]
  · unfold distQuery l2Query ipQuery; cases q.metric <;> simp [h]
  · unfold distFull l2Full ipFull; cases q.metric <;> simp [h]

/-- A query at the center has its true distance to every compressed vector. -/
theorem C92_center_query {norm : List K → K} {f16 : K → Option K} (hf : Exact f16) {pick : Nat → List (Crit K) → Nat}
    {top : K} {q : Quantizer K} (hq : Sized q) {b : Nat} {x y : List K} {ox oy : List Nat} {dx : Data K} {qy : Query K}
    (hn : ∀ u ∈ [x, y, shifted norm q x, shifted norm q y], IsNorm norm u) (h0 : norm (shifted norm q y) = 0)
    (hx : compress norm f16 pick q b (x.map some) ox = some (.ok dx))
    (hy : compressQuery norm top q b (y.map some) oy = .ok qy) :
    distQuery q b qy dx = some (some (trueDistance norm q.metric q.preScale y x)) := by
  obtain ⟨hyl, h2, h3⟩ := compressQuery_ok hy
  have hxl := (compress_ok hx).1
  have hqy : qy = ⟨oy, 0, some 0, some 0, 0⟩ := by
    rw [h3]; unfold compressQueryFinite; rw [if_pos h0]
  have hn' : ∀ u ∈ [y, x, shifted norm q y, shifted norm q x], IsNorm norm u := by
    intro u hu; apply hn; simp at hu ⊢; tauto
  rw [C92_query_distance hq hx hy (off := 0) (by rw [hqy]), stored_term hf (hn _ (by simp)) hx,
    ← estimate_true hyl hxl hn']
  have hms : qy.metricSpecific = metricSpecific norm q y := by
    rw [hqy]
    have nz := norm_zero (hn (shifted norm q y) (by simp)) h0
    by_cases hm : q.metric = .squaredL2
    · rw [metricSpecific_l2 hm (hn _ (by simp)), inner_zero_left nz]
    · rw [metricSpecific_ip hm, inner_zero_left nz]
  have hin : inner (reconQuery qy 0) (recon b dx) = inner (shifted norm q y) (shifted norm q x) := by
    rw [inner_zero_left (norm_zero (hn (shifted norm q y) (by simp)) h0)]
    apply inner_zero_left
    intro z hz
    rw [hqy] at hz
    unfold reconQuery at hz
    simp only [List.mem_map] at hz
    obtain ⟨c, _, rfl⟩ := hz
    ring
  rw [hms, hin]

/-! ## Instances -/

example : compressQuery ratNorm 1000 (plain 2 .squaredL2 1) 4 [some 3, none] [0, 0] = .error .nan ∧
    compressQuery ratNorm 1000 (plain 2 .squaredL2 1) 4 [some 3] [0, 0] = .error (.source 2) ∧
    compressQuery ratNorm 1000 (plain 2 .squaredL2 1) 4 [some 3, none] [0] = .error (.destination 2) := by
  refine ⟨?_, ?_, ?_⟩ <;> decide +kernel
example : compress ratNorm (fun _ => none) firstLeast (plain 2 .squaredL2 1) 1 ([3, 4].map some) [0, 0] =
    some (.error .correction) ∧ ratNorm (shifted ratNorm (plain 2 .squaredL2 1) [3, 4]) ≠ 0 := by
  constructor <;> decide +kernel
example : distData (plain 2 .squaredL2 1) 1 ⟨[1], ⟨1, 1, 1⟩⟩ three4 = none := by decide +kernel
/-- A query at the center keeps the codes that were there; the true squared distance of `(0, 0)` and `(3, 4)` is 25. -/
example : compressQuery ratNorm 1000 (plain 2 .squaredL2 1) 1 ([0, 0].map some) [0, 1] =
      .ok ⟨[0, 1], 0, some 0, some 0, 0⟩ ∧
    distQuery (plain 2 .squaredL2 1) 1 ⟨[0, 1], 0, some 0, some 0, 0⟩ three4 = some (some 25) ∧
    ∀ u ∈ [[3, 4], [0, 0], shifted ratNorm (plain 2 .squaredL2 1) [3, 4], shifted ratNorm (plain 2 .squaredL2 1) [0, 0]],
      IsNorm ratNorm u := by
  unfold IsNorm
  refine ⟨?_, ?_, ?_⟩ <;> decide +kernel

end Verif.Spherical
