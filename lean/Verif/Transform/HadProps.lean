import Verif.Transform.ApiLemmas
import Mathlib.Data.Rat.Init
import Mathlib.Algebra.Order.Ring.Rat
import Mathlib.Algebra.Field.Rat
import Mathlib.Tactic.NormNum
import Mathlib.Analysis.Real.Sqrt

/-! # C83: the transforms applied before quantization preserve distances -/

namespace Verif.Rotate

open Finset

variable {K : Type} [Field K] [LinearOrder K] [IsStrictOrderedRing K]

/-! ## The Hadamard transform -/

/-- The Hadamard transform refuses a vector whose length is not a power of two. Any other it replaces, on every
architecture, by its product with the Hadamard matrix, divided by the root of the length. -/
theorem C83_hadamard {sqrt : K → K} (arch : Arch) (x : List K) :
    ((∀ k, x.length ≠ 2 ^ k) → hadamardTransform sqrt arch x = some none) ∧
    ∀ k, x.length = 2 ^ k → IsRoot (sqrt (2 ^ k)) (2 ^ k) →
      hadamardTransform sqrt arch x = some (some ((List.range (2 ^ k)).map fun i =>
        (∑ j ∈ range (2 ^ k), entry i j * x.getD j 0) / sqrt (2 ^ k))) := by
  refine ⟨hadamardTransform_err arch, fun k hk hs => ?_⟩
  rw [hadamardTransform_ok arch hk hs]
  refine congrArg (fun l => some (some l)) (eq_map_range (length_scaled hk) ?_)
  intro i hi
  unfold scaled
  have hlt : i < (had k x).length := by rw [length_had hk]; exact hi
  have hm : ((had k x).map (· * (1 / sqrt (2 ^ k)))).getD i 0 = (had k x).getD i 0 * (1 / sqrt (2 ^ k)) := by
    simp [List.getD_eq_getElem?_getD, hlt]
  rw [hm, had_entry hk hi, mul_one_div]

/-- The Hadamard transform preserves inner products and is its own inverse. -/
theorem C83_hadamard_isometry {sqrt : K → K} (arch : Arch) {k : Nat} {x y x' y' : List K} (hx : x.length = 2 ^ k)
    (hy : y.length = 2 ^ k) (hs : IsRoot (sqrt (2 ^ k)) (2 ^ k)) (hx' : hadamardTransform sqrt arch x = some (some x'))
    (hy' : hadamardTransform sqrt arch y = some (some y')) :
    inner x' y' = inner x y ∧ hadamardTransform sqrt arch x' = some (some x) := by
  rw [hadamardTransform_ok arch hx hs] at hx'
  rw [hadamardTransform_ok arch hy hs] at hy'
  simp only [Option.some.injEq] at hx' hy'
  subst hx' hy'
  exact ⟨inner_scaled hx hy hs, by rw [hadamardTransform_ok arch (length_scaled hx) hs, scaled_scaled hx hs]⟩

/-- The roots that occur in the examples. -/
def ratRoot (q : Rat) : Rat := if q = 4 then 2 else if q = 16 then 4 else if q = 64 then 8 else if q = 1 then 1 else 0

example : hadamardTransform ratRoot .v3 [1, 2, 3, (4 : Rat)] = some (some [5, -1, -2, 0]) := by decide +kernel
example : hadamardTransform ratRoot .scalar [1, 2, (3 : Rat)] = some none := by decide +kernel
example : IsRoot (ratRoot (2 ^ 2)) (2 ^ 2) ∧ IsRoot (ratRoot (2 ^ 6)) (2 ^ 6) := by
  unfold IsRoot; decide +kernel
/-- The kernel for 64 elements and the recursion agree. -/
example : hadamardTransform ratRoot .v3 ((List.range 64).map fun (i : Nat) => (i * i : Rat)) =
    hadamardTransform ratRoot .scalar ((List.range 64).map fun (i : Nat) => (i * i : Rat)) := by decide +kernel

/-! ## Construction -/

theorem allowed_dims {dim : Nat} {target : TargetDim} (h : dim ≤ 2 ^ 32) (ht : target.Allowed) :
    (Padding.dims dim target).1 ≤ 2 ^ 32 := by
  have hn := nextPowerOfTwo_spec
  cases target with
  | same => exact (hn dim).2.2 32 h
  | natural => exact (hn dim).2.2 32 h
  | override n =>
    have h2 : n ≤ 2 ^ 32 := ht.2
    exact (hn (max n dim)).2.2 32 (by omega)

/-- A new transform has the input dimension asked for and the documented output dimension. Without a random number
generator only the null transform can be made. -/
theorem C83_new {sqrt : K → K} {d : Draws K} (hd : d.Fair) {kind : Kind} (hk : kind.Allowed) {dim : Nat}
    (h1 : dim ≤ 2 ^ 32) :
    (∃ t, Transform.new sqrt kind dim (some d) = some (.ok t) ∧ t.inputDim = dim ∧ kind.HasOutput dim t.outputDim) ∧
    Transform.new sqrt kind dim none =
      if kind = .null then some (.ok (.null dim)) else some (.error (.rngMissing kind)) := by
  constructor
  · cases kind with
    | padding target =>
      have hsize := allowed_dims h1 hk
      refine ⟨_, rfl, by simp [Transform.inputDim, Padding.inputDim, Padding.new], ?_⟩
      have hout := Padding.new_output hd dim target hsize
      show Kind.HasOutput dim (Padding.new d dim target).outputDim _
      rw [hout]
      cases target with
      | same => rfl
      | natural => exact nextPowerOfTwo_spec dim
      | override n => rfl
    | double target =>
      refine ⟨_, rfl, by simp [Transform.inputDim, Double.inputDim, Double.new], ?_⟩
      cases target <;> rfl
    | null => exact ⟨_, rfl, rfl, rfl⟩
    | rotation target =>
      refine ⟨_, by unfold Transform.new; dsimp only; rw [Rotation.new_ok hd]; rfl, rfl, ?_⟩
      cases target <;> rfl
  · cases kind <;> rfl

/-- Norms are said to be preserved exactly when no coordinate is dropped: by the padding transform when the output dimension
is a power of two not below the input dimension, by the others when it is not below the input dimension. -/
theorem C83_preserves_norms {sqrt : K → K} {d : Draws K} (hd : d.Fair) {kind : Kind} (hk : kind.Allowed) {dim : Nat}
    (h0 : 0 < dim) (h1 : dim ≤ 2 ^ 32) {t : Transform K} (ht : Transform.new sqrt kind dim (some d) = some (.ok t)) :
    t.preservesNorms = true ↔
      dim ≤ t.outputDim ∧ (∀ target, kind = .padding target → ∃ k, t.outputDim = 2 ^ k) := by
  cases kind with
  | padding target =>
    have hsize := allowed_dims h1 hk
    obtain rfl : .padding (Padding.new d dim target) = t := by
      have : some (Except.ok (ε := NewError) (Transform.padding (Padding.new d dim target))) = some (.ok t) := ht
      simpa using this
    have hout := Padding.new_output hd dim target hsize
    have hs := Padding.dims_spec dim target
    show (Padding.new d dim target).preservesNorms = true ↔
      dim ≤ (Padding.new d dim target).outputDim ∧ (∀ target', Kind.padding target = .padding target' →
        ∃ k, (Padding.new d dim target).outputDim = 2 ^ k)
    rw [hout]
    have hp : (Padding.new d dim target).preservesNorms = true ↔
        ¬ (Padding.dims dim target).1 > (Padding.dims dim target).2 := by
      unfold Padding.preservesNorms Padding.new
      dsimp only
      split
      · simp_all
      · simp_all
    rw [hp]
    obtain ⟨⟨k, hk'⟩, hle, hleast⟩ := hs
    constructor
    · intro h
      have heq : (Padding.dims dim target).2 = (Padding.dims dim target).1 := by omega
      exact ⟨by omega, fun _ _ => ⟨k, by omega⟩⟩
    · rintro ⟨ha, hb⟩ hgt
      obtain ⟨j, hj⟩ := hb target rfl
      have := hleast j (by omega)
      omega
  | double target =>
    obtain rfl : .double (Double.new d dim target) = t := by
      have : some (Except.ok (ε := NewError) (Transform.double (Double.new d dim target))) = some (.ok t) := ht
      simpa using this
    show (Double.new d dim target).preservesNorms = true ↔ dim ≤ Double.target dim target ∧ _
    have hp : (Double.new d dim target).preservesNorms = true ↔ ¬ dim > Double.target dim target := by
      unfold Double.preservesNorms Double.new
      dsimp only
      split
      · simp_all
      · simp_all
    rw [hp]
    exact ⟨fun h => ⟨by omega, by intro _ h'; cases h'⟩, fun h => by omega⟩
  | null =>
    obtain rfl : .null dim = t := by
      have : some (Except.ok (ε := NewError) (Transform.null (K := K) dim)) = some (.ok t) := ht
      simpa using this
    exact ⟨fun _ => ⟨le_refl _, by intro _ h'; cases h'⟩, fun _ => rfl⟩
  | rotation target =>
    have hnew := ht
    unfold Transform.new at hnew
    dsimp only at hnew
    rw [Rotation.new_ok hd] at hnew
    obtain rfl : .rotation ⟨Rotation.matrixOf sqrt d dim (Double.target dim target), Double.target dim target, dim⟩ = t := by
      have : some (Except.ok (ε := NewError) (Transform.rotation
        ⟨Rotation.matrixOf sqrt d dim (Double.target dim target), Double.target dim target, dim⟩)) = some (.ok t) := hnew
      simpa using this
    show (decide _ = true) ↔ dim ≤ Double.target dim target ∧ _
    rw [decide_eq_true_iff]
    exact ⟨fun h => ⟨h, by intro _ h'; cases h'⟩, fun h => h.1⟩

/-! ## Application -/

/-- A vector or a destination of another length is refused, by every transform, with both lengths in the error. -/
theorem C83_lengths {sqrt : K → K} (arch : Arch) (t : Transform K) (dst src : List K) :
    (src.length ≠ t.inputDim →
      t.transformInto sqrt arch dst src = some (.error (.source t.inputDim src.length))) ∧
    (src.length = t.inputDim → dst.length ≠ t.outputDim →
      t.transformInto sqrt arch dst src = some (.error (.destination t.outputDim dst.length))) := by
  have hc1 : src.length ≠ t.inputDim →
      checkDims dst src t.inputDim t.outputDim = some (.source t.inputDim src.length) := by
    intro h; unfold checkDims; rw [if_pos h]
  have hc2 : src.length = t.inputDim → dst.length ≠ t.outputDim →
      checkDims dst src t.inputDim t.outputDim = some (.destination t.outputDim dst.length) := by
    intro h h'; unfold checkDims; rw [if_neg (by omega), if_pos h']
  constructor
  · intro h
    have hc := hc1 h
    cases t with
    | padding t => show t.transformInto sqrt arch dst src = _; unfold Padding.transformInto; simp only [Transform.inputDim, Transform.outputDim] at hc; rw [hc]; rfl
    | double t => show t.transformInto sqrt arch dst src = _; unfold Double.transformInto; simp only [Transform.inputDim, Transform.outputDim] at hc; rw [hc]; rfl
    | null n => show nullTransformInto n dst src = _; unfold nullTransformInto; simp only [Transform.inputDim, Transform.outputDim] at hc; rw [hc]; rfl
    | rotation t => show some (t.transformInto dst src) = _; unfold Rotation.transformInto; simp only [Transform.inputDim, Transform.outputDim] at hc; rw [hc]; rfl
  · intro h h'
    have hc := hc2 h h'
    cases t with
    | padding t => show t.transformInto sqrt arch dst src = _; unfold Padding.transformInto; simp only [Transform.inputDim, Transform.outputDim] at hc; rw [hc]; rfl
    | double t => show t.transformInto sqrt arch dst src = _; unfold Double.transformInto; simp only [Transform.inputDim, Transform.outputDim] at hc; rw [hc]; rfl
    | null n => show nullTransformInto n dst src = _; unfold nullTransformInto; simp only [Transform.inputDim, Transform.outputDim] at hc; rw [hc]; rfl
    | rotation t => show some (t.transformInto dst src) = _; unfold Rotation.transformInto; simp only [Transform.inputDim, Transform.outputDim] at hc; rw [hc]; rfl

/-- The padding transform: random signs, zeros up to the next power of two, the Hadamard matrix; if the output is shorter
than that, a sorted sample of the coordinates, rescaled. -/
theorem C83_padding {sqrt : K → K} (hs : ∀ a : K, 0 ≤ a → IsRoot (sqrt a) a) (arch : Arch) {d : Draws K} (hd : d.Fair)
    {target : TargetDim} (hk : target.Allowed) {dim : Nat} (h1 : dim ≤ 2 ^ 32) {t : Transform K}
    (ht : Transform.new sqrt (.padding target) dim (some d) = some (.ok t)) {dst src : List K}
    (hsrc : src.length = t.inputDim) (hdst : dst.length = t.outputDim) {p : Nat} (hp : IsNextPower (max dim t.outputDim) p) :
    ∃ y, t.transformInto sqrt arch dst src = some (.ok y) ∧ y.length = t.outputDim ∧
      Sampled sqrt (paddingCoords sqrt d p src) p
        (if t.outputDim < p then some ((d.sample p t.outputDim).mergeSort) else none) y := by
  have hsize := allowed_dims h1 hk
  obtain rfl : .padding (Padding.new d dim target) = t := by
    have : some (Except.ok (ε := NewError) (Transform.padding (Padding.new d dim target))) = some (.ok t) := ht
    simpa using this
  have hout : (Padding.new d dim target).outputDim = (Padding.dims dim target).2 := Padding.new_output hd dim target hsize
  have hsp := Padding.dims_spec dim target
  have hv := Padding.new_valid hd target hsize
  have hin : (Padding.new d dim target).inputDim = dim := by simp [Padding.inputDim, Padding.new]
  have hsl : (Padding.new d dim target).signs.length = dim := hin
  simp only [Transform.inputDim, Transform.outputDim] at hsrc hdst hp ⊢
  rw [hin] at hsrc
  rw [hout] at hp
  obtain rfl : p = (Padding.dims dim target).1 := hp.unique hsp
  obtain ⟨y, hy, hsam, hlen⟩ := Padding.body_ok (sqrt := sqrt) arch hv (dst := dst) (src := src) (by omega) hdst
    (hs _ (by positivity))
  refine ⟨y, ?_, hlen, ?_⟩
  · show (Padding.new d dim target).transformInto sqrt arch dst src = _
    unfold Padding.transformInto
    rw [checkDims_ok (by rw [hin]; exact hsrc) hdst]
    dsimp only
    rw [hy]
    rfl
  · have hdef : (Padding.new d dim target).subsample =
        if (Padding.dims dim target).1 > (Padding.dims dim target).2 then
          some (subsampleIndices d (Padding.dims dim target).1 (Padding.dims dim target).2) else none := rfl
    have hsub : (if (Padding.new d dim target).outputDim < (Padding.dims dim target).1 then
          some ((d.sample (Padding.dims dim target).1 (Padding.new d dim target).outputDim).mergeSort) else none) =
        (Padding.new d dim target).subsample := by
      rw [hout, hdef]
      by_cases hgt : (Padding.dims dim target).1 > (Padding.dims dim target).2
      · rw [if_pos hgt, if_pos hgt, subsample_eq hd (by omega) hsize]
      · rw [if_neg hgt, if_neg hgt]
    refine Eq.subst (motive := fun s => Sampled sqrt _ _ s y) hsub.symm ?_
    refine Sampled.congr (fun i hi => Padding.coords_new d target (by omega) hi) ?_ hsam
    intro l hl i hi
    exact hv.sample l hl i hi

/-- The double transform: random signs, zeros up to the greater of the two dimensions, the Hadamard matrix on the longest
head whose length is a power of two, random signs again, the Hadamard matrix on the tail of that length; if the output is
shorter than the input, a sorted sample of the coordinates, rescaled. -/
theorem C83_double {sqrt : K → K} (hs : ∀ a : K, 0 ≤ a → IsRoot (sqrt a) a) (arch : Arch) {d : Draws K} (hd : d.Fair)
    {target : TargetDim} {dim : Nat} (h0 : 0 < dim) (h1 : dim ≤ 2 ^ 32) {t : Transform K}
    (ht : Transform.new sqrt (.double target) dim (some d) = some (.ok t)) {dst src : List K}
    (hsrc : src.length = t.inputDim) (hdst : dst.length = t.outputDim) {k : Nat} (hk1 : 2 ^ k ≤ max dim t.outputDim)
    (hk2 : max dim t.outputDim < 2 ^ (k + 1)) :
    ∃ y, t.transformInto sqrt arch dst src = some (.ok y) ∧ y.length = t.outputDim ∧
      Sampled sqrt (doubleCoords sqrt d dim (max dim t.outputDim) k src) (max dim t.outputDim)
        (if t.outputDim < dim then some ((d.sample dim t.outputDim).mergeSort) else none) y := by
  obtain rfl : .double (Double.new d dim target) = t := by
    have : some (Except.ok (ε := NewError) (Transform.double (Double.new d dim target))) = some (.ok t) := ht
    simpa using this
  have hv := Double.new_valid hd target h0 h1
  have hin : (Double.new d dim target).inputDim = dim := by simp [Double.inputDim, Double.new]
  have hsl : (Double.new d dim target).signs0.length = dim := hin
  have hout : (Double.new d dim target).outputDim = Double.target dim target := rfl
  have htd : (Double.new d dim target).targetDim = Double.target dim target := rfl
  simp only [Transform.inputDim, Transform.outputDim] at hsrc hdst hk1 hk2
  rw [hin] at hsrc
  rw [hout] at hdst hk1 hk2
  change ∃ y, _ = _ ∧ y.length = Double.target dim target ∧
    Sampled sqrt (doubleCoords sqrt d dim (max dim (Double.target dim target)) k src) (max dim (Double.target dim target))
      (if Double.target dim target < dim then some ((d.sample dim (Double.target dim target)).mergeSort) else none) y
  obtain ⟨y, hy, hsam, hlen⟩ := Double.body_ok (sqrt := sqrt) arch hv (dst := dst) (src := src) (by omega) (by omega)
    (hs _ (by positivity))
  refine ⟨y, ?_, by omega, ?_⟩
  · show (Double.new d dim target).transformInto sqrt arch dst src = _
    unfold Double.transformInto
    rw [checkDims_ok (by rw [hin]; exact hsrc) (by rw [hout]; exact hdst)]
    dsimp only
    rw [hy]
    rfl
  · rw [hsl, htd] at hsam
    have hsub : (Double.new d dim target).subsample =
        if Double.target dim target < dim then some ((d.sample dim (Double.target dim target)).mergeSort) else none := by
      show (if dim > Double.target dim target then _ else _) = _
      by_cases hgt : dim > Double.target dim target
      · rw [if_pos hgt, if_pos hgt, subsample_eq hd (by omega) h1]
      · rw [if_neg hgt, if_neg hgt]
    rw [← hsub]
    refine Sampled.congr (fun i hi => Double.coords_new d target (by omega) hk1 hk2 hi) ?_ hsam
    intro l hl i hi
    have := hv.sample
    rw [hl] at this
    have h2 := this.2 i hi
    rw [hsl, htd] at h2
    exact h2

/-- The rotation: the product of a random orthogonal matrix and the vector, with zeros up to the output dimension; if the
output is shorter than the input, a sample of the coordinates, rescaled. -/
theorem C83_rotation {sqrt : K → K} (arch : Arch) {d : Draws K} (hd : d.Fair) {target : TargetDim} {dim : Nat}
    {t : Transform K} (ht : Transform.new sqrt (.rotation target) dim (some d) = some (.ok t)) {dst src : List K}
    (hsrc : src.length = t.inputDim) (hdst : dst.length = t.outputDim) :
    ∃ y, t.transformInto sqrt arch dst src = some (.ok y) ∧ y.length = t.outputDim ∧
      Sampled sqrt (rotationCoords d (max dim t.outputDim) src) (max dim t.outputDim)
        (if t.outputDim < dim then some (d.sample dim t.outputDim) else none) y := by
  have hnew := ht
  unfold Transform.new at hnew
  dsimp only at hnew
  rw [Rotation.new_ok hd] at hnew
  obtain rfl : .rotation ⟨Rotation.matrixOf sqrt d dim (Double.target dim target), Double.target dim target, dim⟩ = t := by
    have : some (Except.ok (ε := NewError) (Transform.rotation
      ⟨Rotation.matrixOf sqrt d dim (Double.target dim target), Double.target dim target, dim⟩)) = some (.ok t) := hnew
    simpa using this
  simp only [Transform.inputDim, Transform.outputDim] at hsrc hdst ⊢
  have hsh := Rotation.new_shaped (sqrt := sqrt) hd dim (Double.target dim target)
  refine ⟨_, ?_, ?_, Rotation.sampled_new hd hsrc⟩
  · show some (Rotation.transformInto _ dst src) = _
    unfold Rotation.transformInto
    dsimp only
    rw [checkDims_ok hsrc hdst]
  · rw [List.length_map]
    exact hsh.1

/-- The null transform copies the vector. -/
theorem C83_null {sqrt : K → K} (arch : Arch) (dim : Nat) {dst src : List K} (hsrc : src.length = dim)
    (hdst : dst.length = dim) : (Transform.null dim).transformInto sqrt arch dst src = some (.ok src) := by
  show nullTransformInto dim dst src = _
  unfold nullTransformInto
  rw [checkDims_ok hsrc hdst]
  unfold copyFromSlice
  rw [if_pos (by omega)]
  rfl

/-! ## Preservation of distances -/

/-- The coordinates a transform computes before sampling: how many, and what they are for a vector. -/
theorem coords_of_new {sqrt : K → K} (hs : ∀ a : K, 0 ≤ a → IsRoot (sqrt a) a) {d : Draws K} (hd : d.Fair)
    {kind : Kind} (hk : kind.Allowed) {dim : Nat} (h0 : 0 < dim) (h1 : dim ≤ 2 ^ 32) {t : Transform K}
    (ht : Transform.new sqrt kind dim (some d) = some (.ok t)) :
    ∃ (o : Nat) (coords : List K → Nat → K) (s : Option (List Nat)),
      (∀ x y : List K, x.length = dim → y.length = dim → ∑ i ∈ range o, coords x i * coords y i = inner x y) ∧
      (t.preservesNorms = true → s = none) ∧
      ∀ arch dst src, src.length = dim → dst.length = t.outputDim →
        ∃ y, t.transformInto sqrt arch dst src = some (.ok y) ∧ y.length = t.outputDim ∧
          Sampled sqrt (coords src) o s y := by
  cases kind with
  | padding target =>
    have hsize := allowed_dims h1 hk
    have hv := Padding.new_valid hd target hsize
    have hin : (Padding.new d dim target).signs.length = dim := by simp [Padding.new]
    obtain rfl : .padding (Padding.new d dim target) = t := by
      have : some (Except.ok (ε := NewError) (Transform.padding (Padding.new d dim target))) = some (.ok t) := ht
      simpa using this
    refine ⟨(Padding.new d dim target).paddedDim, (Padding.new d dim target).coords sqrt,
      (Padding.new d dim target).subsample, ?_, ?_, ?_⟩
    · intro x y hx hy
      exact Padding.coords_inner hv (by omega) (by omega) (hs _ (by positivity))
    · intro h
      exact Option.isNone_iff_eq_none.1 h
    · intro arch dst src hsrc hdst
      obtain ⟨y, hy, hsam, hlen⟩ := Padding.body_ok (sqrt := sqrt) arch hv (dst := dst) (src := src) (by omega) hdst
        (hs _ (by positivity))
      refine ⟨y, ?_, hlen, hsam⟩
      show (Padding.new d dim target).transformInto sqrt arch dst src = _
      unfold Padding.transformInto
      rw [checkDims_ok (a := (Padding.new d dim target).inputDim) (b := (Padding.new d dim target).outputDim)
        (by unfold Padding.inputDim; omega) hdst]
      dsimp only
      rw [hy]
      rfl
  | double target =>
    have hv := Double.new_valid hd target h0 h1
    have hin : (Double.new d dim target).signs0.length = dim := by simp [Double.new]
    obtain rfl : .double (Double.new d dim target) = t := by
      have : some (Except.ok (ε := NewError) (Transform.double (Double.new d dim target))) = some (.ok t) := ht
      simpa using this
    refine ⟨max (Double.new d dim target).signs0.length (Double.new d dim target).targetDim,
      (Double.new d dim target).coords sqrt, (Double.new d dim target).subsample, ?_, ?_, ?_⟩
    · intro x y hx hy
      exact Double.coords_inner (by omega) (by omega) (by omega) (hs _ (by positivity))
    · intro h
      exact Option.isNone_iff_eq_none.1 h
    · intro arch dst src hsrc hdst
      obtain ⟨y, hy, hsam, hlen⟩ := Double.body_ok (sqrt := sqrt) arch hv (dst := dst) (src := src) (by omega) hdst
        (hs _ (by positivity))
      refine ⟨y, ?_, hlen, hsam⟩
      show (Double.new d dim target).transformInto sqrt arch dst src = _
      unfold Double.transformInto
      rw [checkDims_ok (a := (Double.new d dim target).inputDim) (b := (Double.new d dim target).outputDim)
        (by unfold Double.inputDim; omega) hdst]
      dsimp only
      rw [hy]
      rfl
  | null =>
    obtain rfl : .null dim = t := by
      have : some (Except.ok (ε := NewError) (Transform.null (K := K) dim)) = some (.ok t) := ht
      simpa using this
    refine ⟨dim, pad, none, fun x y hx hy => sum_pad hx hy (le_refl _), fun _ => rfl, ?_⟩
    intro arch dst src hsrc hdst
    refine ⟨src, C83_null arch dim hsrc hdst, hsrc, ?_⟩
    show src = (List.range dim).map (pad src)
    rw [← hsrc, map_range_getD]
  | rotation target =>
    have hnew := ht
    unfold Transform.new at hnew
    dsimp only at hnew
    rw [Rotation.new_ok hd] at hnew
    obtain rfl : .rotation ⟨Rotation.matrixOf sqrt d dim (Double.target dim target), Double.target dim target, dim⟩ = t := by
      have : some (Except.ok (ε := NewError) (Transform.rotation
        ⟨Rotation.matrixOf sqrt d dim (Double.target dim target), Double.target dim target, dim⟩)) = some (.ok t) := hnew
      simpa using this
    refine ⟨max dim (Double.target dim target), rotationCoords d (max dim (Double.target dim target)),
      if Double.target dim target < dim then some (d.sample dim (Double.target dim target)) else none, ?_, ?_, ?_⟩
    · intro x y hx hy
      exact rotationCoords_inner hd (by omega) hx hy
    · intro h
      have h' : dim ≤ Double.target dim target := by
        have : decide (dim ≤ Double.target dim target) = true := h
        exact of_decide_eq_true this
      rw [if_neg (by omega)]
    · intro arch dst src hsrc hdst
      exact C83_rotation arch hd ht hsrc hdst

/-- A transform that says it preserves norms preserves inner products, norms and distances. It never panics, and what it
returns depends neither on the architecture nor on what the destination held. -/
theorem C83_preserves {sqrt : K → K} (hs : ∀ a : K, 0 ≤ a → IsRoot (sqrt a) a) {d : Draws K} (hd : d.Fair)
    {kind : Kind} (hk : kind.Allowed) {dim : Nat} (h0 : 0 < dim) (h1 : dim ≤ 2 ^ 32) {t : Transform K}
    (ht : Transform.new sqrt kind dim (some d) = some (.ok t)) :
    ∃ T : List K → List K,
      (∀ arch dst src, src.length = dim → dst.length = t.outputDim →
        t.transformInto sqrt arch dst src = some (.ok (T src)) ∧ (T src).length = t.outputDim) ∧
      (t.preservesNorms = true → ∀ x y : List K, x.length = dim → y.length = dim →
        inner (T x) (T y) = inner x y ∧ distSq (T x) (T y) = distSq x y) := by
  obtain ⟨o, coords, s, hin, hnone, happ⟩ := coords_of_new hs hd hk h0 h1 ht
  refine ⟨fun x => sampledList sqrt (coords x) o s, ?_, ?_⟩
  · intro arch dst src hsrc hdst
    obtain ⟨y, hy, hlen, hsam⟩ := happ arch dst src hsrc hdst
    have := hsam.eq
    subst this
    exact ⟨hy, hlen⟩
  · intro hp x y hx hy
    have hn := hnone hp
    subst hn
    dsimp only [sampledList]
    have hi : ∀ u v : List K, u.length = dim → v.length = dim →
        inner ((List.range o).map (coords u)) ((List.range o).map (coords v)) = inner u v := by
      intro u v hu hv
      rw [inner_map_range, hin u v hu hv]
    refine ⟨hi x y hx hy, ?_⟩
    rw [distSq_eq (by simp), distSq_eq (by omega), hi x x hx hx, hi x y hx hy, hi y y hy hy]

/-- If coordinates are dropped, the rescaling makes inner products right on average over all samples of that size. -/
theorem C83_unbiased {sqrt : K → K} (hs : ∀ a : K, 0 ≤ a → IsRoot (sqrt a) a) (arch : Arch) {d : Draws K} (hd : d.Fair)
    {dim m o : Nat} (h0 : 0 < dim) (h1 : dim ≤ 2 ^ 32) (hm : 0 < m) (hmo : m < o) {kind : Kind}
    (hkind : (kind = .padding (.override m) ∧ IsNextPower (max dim m) o) ∨ (kind = .double (.override m) ∧ o = dim) ∨
      (kind = .rotation (.override m) ∧ o = dim))
    (hm32 : m ≤ 2 ^ 32)
    {x y : List K} (hx : x.length = dim) (hy : y.length = dim) {x' y' : Finset Nat → List K} {t : Finset Nat → Transform K}
    (ht : ∀ S ∈ (range o).powersetCard m,
      Transform.new sqrt kind dim (some (d.withSample o m (S.sort))) = some (.ok (t S)))
    (hx' : ∀ S ∈ (range o).powersetCard m,
      (t S).transformInto sqrt arch (List.replicate m 0) x = some (.ok (x' S)))
    (hy' : ∀ S ∈ (range o).powersetCard m,
      (t S).transformInto sqrt arch (List.replicate m 0) y = some (.ok (y' S))) :
    ∑ S ∈ (range o).powersetCard m, inner (x' S) (y' S) = (o.choose m : Nat) * inner x y := by
  have hfair : ∀ S ∈ (range o).powersetCard m, (d.withSample o m S.sort).Fair := by
    intro S hS
    have hS' := Finset.mem_powersetCard.1 hS
    refine hd.withSample (Finset.sort_nodup _ _) (by rw [Finset.length_sort]; exact hS'.2) ?_
    intro i hi
    exact Finset.mem_range.1 (hS'.1 ((Finset.mem_sort _).1 hi))
  have hmerge : ∀ S : Finset Nat, (S.sort).mergeSort.Nodup ∧ (S.sort).mergeSort.toFinset = S := by
    intro S
    refine ⟨(List.mergeSort_perm _ _).nodup_iff.2 (Finset.sort_nodup _ _), ?_⟩
    ext i
    rw [List.mem_toFinset, (List.mergeSort_perm _ _).mem_iff, Finset.mem_sort]
  have hok : ∀ {a b : List K} {e : Option (Except Failed (List K))}, e = some (.ok a) → e = some (.ok b) → a = b := by
    intro a b e h1 h2
    rw [h1] at h2
    simpa using h2
  rcases hkind with ⟨rfl, hp⟩ | ⟨rfl, rfl⟩ | ⟨rfl, rfl⟩
  · have hall : (TargetDim.override m).Allowed := ⟨hm, hm32⟩
    have hone : ∀ (z : List K) (z' : Finset Nat → List K), z.length = dim →
        (∀ S ∈ (range o).powersetCard m, (t S).transformInto sqrt arch (List.replicate m 0) z = some (.ok (z' S))) →
        ∀ S ∈ (range o).powersetCard m, Sampled sqrt (paddingCoords sqrt d o z) o (some (S.sort).mergeSort) (z' S) := by
      intro z z' hz hz' S hS
      have hf := hfair S hS
      obtain ⟨t', ht', hti, hto⟩ := (C83_new (sqrt := sqrt) hf (kind := .padding (.override m)) hall h1).1
      have hte : t' = t S := by
        have := ht S hS
        rw [ht'] at this
        simpa using this
      subst hte
      have hto' : (t S).outputDim = m := hto
      obtain ⟨w, hw, _, hsam⟩ := C83_padding hs arch hf hall h1 (ht S hS) (dst := List.replicate m 0) (src := z)
        (by omega) (by rw [List.length_replicate]; omega) (by rw [hto']; exact hp)
      rw [hok (hz' S hS) hw]
      rw [hto', if_pos hmo, Draws.withSample_sample] at hsam
      exact hsam
    have hpinner : ∑ i ∈ range o, paddingCoords sqrt d o x i * paddingCoords sqrt d o y i = inner x y := by
      obtain ⟨⟨k, rfl⟩, hle, _⟩ := hp
      unfold paddingCoords
      rw [sum_mix (by omega) (hs _ (by positivity))]
      rw [← sum_pad hx hy (Nat.le_trans (Nat.le_max_left _ _) hle)]
      refine Finset.sum_congr rfl fun i _ => ?_
      unfold negated
      split
      · rw [neg_mul_neg]
      · rfl
    rw [Sampled.average hs hm (by omega) (fun S _ => hmerge S) (hone x x' hx hx') (hone y y' hy hy'), hpinner]
  · obtain ⟨k, hk1, hk2⟩ : ∃ k, 2 ^ k ≤ o ∧ o < 2 ^ (k + 1) :=
      ⟨o.log2, Nat.log2_self_le (by omega), Nat.lt_log2_self⟩
    have hone : ∀ (z : List K) (z' : Finset Nat → List K), z.length = o →
        (∀ S ∈ (range o).powersetCard m, (t S).transformInto sqrt arch (List.replicate m 0) z = some (.ok (z' S))) →
        ∀ S ∈ (range o).powersetCard m, Sampled sqrt (doubleCoords sqrt d o o k z) o (some (S.sort).mergeSort) (z' S) := by
      intro z z' hz hz' S hS
      have hf := hfair S hS
      obtain ⟨t', ht', hti, hto⟩ := (C83_new (sqrt := sqrt) hf (kind := .double (.override m)) ⟨hm, hm32⟩ h1).1
      have hte : t' = t S := by
        have := ht S hS
        rw [ht'] at this
        simpa using this
      subst hte
      have hto' : (t S).outputDim = m := hto
      obtain ⟨w, hw, _, hsam⟩ := C83_double hs arch hf h0 h1 (ht S hS) (dst := List.replicate m 0) (src := z)
        (by omega) (by rw [List.length_replicate]; omega) (k := k) (by rw [hto', Nat.max_eq_left (by omega)]; exact hk1)
        (by rw [hto', Nat.max_eq_left (by omega)]; exact hk2)
      rw [hok (hz' S hS) hw]
      rw [hto', if_pos hmo, Draws.withSample_sample, Nat.max_eq_left (by omega)] at hsam
      exact hsam
    have hpinner : ∑ i ∈ range o, doubleCoords sqrt d o o k x i * doubleCoords sqrt d o o k y i = inner x y := by
      unfold doubleCoords
      have hneg : ∀ (b : Nat → Bool) (f g : Nat → K),
          ∑ i ∈ range o, negated b f i * negated b g i = ∑ i ∈ range o, f i * g i := by
        intro b f g
        refine Finset.sum_congr rfl fun i _ => ?_
        unfold negated
        split
        · rw [neg_mul_neg]
        · rfl
      rw [sum_mix (by omega) (hs _ (by positivity)), hneg, sum_mix (by omega) (hs _ (by positivity)), hneg,
        sum_pad hx hy (le_refl _)]
    rw [Sampled.average hs hm (by omega) (fun S _ => hmerge S) (hone x x' hx hx') (hone y y' hy hy'), hpinner]
  · have hone : ∀ (z : List K) (z' : Finset Nat → List K), z.length = o →
        (∀ S ∈ (range o).powersetCard m, (t S).transformInto sqrt arch (List.replicate m 0) z = some (.ok (z' S))) →
        ∀ S ∈ (range o).powersetCard m, Sampled sqrt (rotationCoords d o z) o (some S.sort) (z' S) := by
      intro z z' hz hz' S hS
      have hf := hfair S hS
      obtain ⟨t', ht', hti, hto⟩ := (C83_new (sqrt := sqrt) hf (kind := .rotation (.override m)) ⟨hm, hm32⟩ h1).1
      have hte : t' = t S := by
        have := ht S hS
        rw [ht'] at this
        simpa using this
      subst hte
      have hto' : (t S).outputDim = m := hto
      obtain ⟨w, hw, _, hsam⟩ := C83_rotation arch hf (ht S hS) (dst := List.replicate m 0) (src := z)
        (by omega) (by rw [List.length_replicate]; omega)
      rw [hok (hz' S hS) hw]
      rw [hto', if_pos hmo, Draws.withSample_sample, Nat.max_eq_left (by omega)] at hsam
      exact hsam
    rw [Sampled.average hs hm (by omega) (fun S _ => ⟨Finset.sort_nodup _ _, by
      ext i; rw [List.mem_toFinset, Finset.mem_sort]⟩) (hone x x' hx hx') (hone y y' hy hy'),
      rotationCoords_inner hd (le_refl _) hx hy]

/-! ## The hypotheses can be met -/

/-- Draws with alternating signs, the first indices and the identity matrix. -/
def plainDraws : Draws K where
  sign i := i % 2 == 1
  sample _ m := List.range m
  matrix n := (List.range n).map fun i => (List.range n).map fun j => if i = j then 1 else 0

omit [LinearOrder K] [IsStrictOrderedRing K] in
theorem plainDraws_fair : (plainDraws : Draws K).Fair := by
  refine ⟨fun _ _ _ => List.nodup_range, fun _ _ _ => List.length_range, ?_, ?_, ?_⟩
  · intro n m h i hi
    have := List.mem_range.1 hi
    omega
  · intro n
    refine ⟨by simp [plainDraws], ?_⟩
    intro row hrow
    obtain ⟨i, _, rfl⟩ := List.mem_map.1 hrow
    simp
  · intro n i j hi hj
    have hg : ∀ k c, k < n → c < n → ((plainDraws (K := K).matrix n).getD k []).getD c 0 = if k = c then (1 : K) else 0 := by
      intro k c hk hc
      simp [plainDraws, List.getD_eq_getElem?_getD, hk, hc]
    rw [Finset.sum_congr rfl fun k hk => by rw [hg k i (Finset.mem_range.1 hk) hi, hg k j (Finset.mem_range.1 hk) hj]]
    simp [hj, eq_comm]

example : (plainDraws : Draws Real).Fair ∧ ∀ a : Real, 0 ≤ a → IsRoot (Real.sqrt a) a :=
  ⟨plainDraws_fair, fun a ha => ⟨Real.sqrt_nonneg a, Real.mul_self_sqrt ha⟩⟩

/-- Six dimensions, padded to eight: the norms are preserved. -/
example : ∃ t : Transform Real, Transform.new Real.sqrt (.padding .natural) 6 (some plainDraws) = some (.ok t) ∧
    t.preservesNorms = true ∧ t.inputDim = 6 ∧ t.outputDim = 8 :=
  ⟨_, rfl, by decide +kernel, by decide +kernel, by decide +kernel⟩

/-- Six dimensions to five: a sample. -/
example : ∃ t : Transform Real, Transform.new Real.sqrt (.double (.override 5)) 6 (some plainDraws) = some (.ok t) ∧
    t.preservesNorms = false ∧ t.outputDim = 5 :=
  ⟨_, rfl, by decide +kernel, by decide +kernel⟩

example : (Transform.double (K := Rat) (Double.new (K := Rat) plainDraws 6 .same)).transformInto ratRoot .scalar
    [0, 0, 0, 0, 0, 0] [1, 2, 3, 4, 5, 6] = some (.ok [-1, -5, 13 / 2, -3 / 2, -9 / 2, -1 / 2]) := by decide +kernel

/-! ## Disagreements with the documentation -/

/-- The documentation of the double transform and a comment in it say that only one transform is applied if the intermediate
dimension is a power of two. Two are: without sign changes the vector comes back unchanged. -/
theorem C83_single_transform_false :
    ∃ (d : Draws Rat) (x single : List Rat),
      hadamardTransform ratRoot .scalar x = some (some single) ∧
      (Transform.double (Double.new { d with sign := fun _ => false } 4 .same)).transformInto ratRoot .scalar
        [0, 0, 0, 0] x = some (.ok x) ∧ single ≠ x :=
  ⟨plainDraws, [1, 2, 3, 4], [5, -1, -2, 0], by decide +kernel, by decide +kernel, by decide +kernel⟩

end Verif.Rotate
