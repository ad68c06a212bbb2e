import Verif.Transform.TransLemmas
import Mathlib.Data.List.Perm.Basic
import Mathlib.Data.List.Sort
import Mathlib.Data.List.Nodup

/-! Lemmas for C83: freshly made transforms are valid, and the dense rotation. -/

namespace Verif.Rotate

open Finset

variable {K : Type}

/-! ## Samples and powers -/

theorem sample_map [Field K] {d : Draws K} (hd : d.Fair) {n m : Nat} (hm : m ≤ n) (hn : n ≤ 2 ^ 32) :
    (d.sample n m).map asU32 = d.sample n m := by
  conv_rhs => rw [← List.map_id (d.sample n m)]
  refine List.map_congr_left fun i hi => ?_
  have := hd.lt n m hm i hi
  exact Nat.mod_eq_of_lt (by omega)

theorem subsample_eq [Field K] {d : Draws K} (hd : d.Fair) {n m : Nat} (hm : m ≤ n) (hn : n ≤ 2 ^ 32) :
    subsampleIndices d n m = (d.sample n m).mergeSort := by
  unfold subsampleIndices; rw [sample_map hd hm hn]

theorem subsample_length [Field K] {d : Draws K} (hd : d.Fair) {n m : Nat} (hm : m ≤ n) (hn : n ≤ 2 ^ 32) :
    (subsampleIndices d n m).length = m := by
  rw [subsample_eq hd hm hn, (List.mergeSort_perm _ _).length_eq, hd.length n m hm]

theorem subsample_lt [Field K] {d : Draws K} (hd : d.Fair) {n m : Nat} (hm : m ≤ n) (hn : n ≤ 2 ^ 32) {i : Nat}
    (hi : i ∈ subsampleIndices d n m) : i < n := by
  rw [subsample_eq hd hm hn] at hi
  exact hd.lt n m hm i ((List.mergeSort_perm _ _).mem_iff.1 hi)

theorem strict_iff (l : List Nat) : isStrictlyMonotonic l = true ↔ l.Pairwise (· < ·) := by
  induction l with
  | nil => simp [isStrictlyMonotonic]
  | cons a l ih =>
    cases l with
    | nil => simp [isStrictlyMonotonic]
    | cons b l =>
      rw [isStrictlyMonotonic]
      split
      · rename_i h
        constructor
        · intro h'; cases h'
        · intro h'
          have := (List.pairwise_cons.1 h').1 b List.mem_cons_self
          omega
      · rename_i h
        rw [ih]
        constructor
        · intro h'
          refine List.pairwise_cons.2 ⟨?_, h'⟩
          intro c hc
          rcases List.mem_cons.1 hc with rfl | hc
          · omega
          · have := (List.pairwise_cons.1 h').1 c hc
            omega
        · intro h'
          exact (List.pairwise_cons.1 h').2

theorem subsample_strict [Field K] {d : Draws K} (hd : d.Fair) {n m : Nat} (hm : m ≤ n) (hn : n ≤ 2 ^ 32) :
    (subsampleIndices d n m).Pairwise (· < ·) := by
  rw [subsample_eq hd hm hn]
  have h1 := List.pairwise_mergeSort (le := fun a b : Nat => decide (a ≤ b)) (by simp; intros; omega)
    (by simp; intros; omega) (d.sample n m)
  have h2 : ((d.sample n m).mergeSort).Nodup := (List.mergeSort_perm _ _).nodup_iff.2 (hd.nodup n m hm)
  refine (h1.and h2).imp ?_
  intro a b hab
  have : a ≤ b := by simpa using hab.1
  have := hab.2
  omega

theorem signs_draw (b : Nat → Bool) (n : Nat) : Signs ((List.range n).map fun i => boolToSign (b i)) := by
  intro w hw
  obtain ⟨i, _, rfl⟩ := List.mem_map.1 hw
  unfold boolToSign
  split
  · exact Or.inr rfl
  · exact Or.inl rfl

theorem signed_draw [Field K] (b : Nat → Bool) (n : Nat) (f : Nat → K) {i : Nat} (h : i < n ∨ f i = 0) :
    signed ((List.range n).map fun i => boolToSign (b i)) f i = negated b f i := by
  unfold signed negated
  rcases h with h | h
  · have : ((List.range n).map fun i => boolToSign (b i)).getD i 0 = boolToSign (b i) := by
      simp [List.getD_eq_getElem?_getD, h]
    rw [this]
    unfold boolToSign
    cases b i <;> simp
  · rw [h, neg_zero, ite_self, ite_self]

theorem nextPowerOfTwo_spec (n : Nat) : IsNextPower n (nextPowerOfTwo n) := by
  unfold nextPowerOfTwo IsNextPower
  split
  · rename_i h
    exact ⟨⟨0, rfl⟩, h, fun k _ => Nat.two_pow_pos k⟩
  · rename_i h
    have h1 : 2 ^ (n - 1).log2 ≤ n - 1 := Nat.log2_self_le (by omega)
    have h2 : n - 1 < 2 ^ ((n - 1).log2 + 1) := Nat.lt_log2_self
    refine ⟨⟨(n - 1).log2 + 1, by rw [Nat.pow_succ, Nat.mul_comm]⟩, by rw [Nat.pow_succ] at h2; omega, ?_⟩
    intro k hk
    have : (n - 1).log2 < k := (Nat.log2_lt (by omega)).2 (by omega)
    rw [show 2 * 2 ^ (n - 1).log2 = 2 ^ ((n - 1).log2 + 1) by rw [Nat.pow_succ, Nat.mul_comm]]
    exact Nat.pow_le_pow_right (by omega) this

theorem IsNextPower.unique {n p q : Nat} (hp : IsNextPower n p) (hq : IsNextPower n q) : p = q := by
  obtain ⟨⟨a, rfl⟩, h1, h2⟩ := hp
  obtain ⟨⟨b, rfl⟩, h3, h4⟩ := hq
  exact Nat.le_antisymm (h2 b h3) (h4 a h1)

theorem log2_unique {n k : Nat} (h1 : 2 ^ k ≤ n) (h2 : n < 2 ^ (k + 1)) : n.log2 = k := by
  have hn : n ≠ 0 := by have := Nat.two_pow_pos k; omega
  have ha : n.log2 < k + 1 := (Nat.log2_lt hn).2 h2
  have hb : ¬ n.log2 < k := fun h => by
    have := (Nat.log2_lt hn).1 h
    omega
  omega

/-! ## New transforms -/

theorem Double.target_pos {dim : Nat} {target : TargetDim} (h : 0 < dim) (ht : target.Allowed) :
    0 < Double.target dim target := by
  cases target with
  | same => exact h
  | natural => exact h
  | override n => exact ht.1

theorem Double.new_valid [Field K] {d : Draws K} (hd : d.Fair) {dim : Nat} (target : TargetDim) (h : 0 < dim)
    (hsize : dim ≤ 2 ^ 32) : (Double.new d dim target).Valid := by
  refine ⟨by simpa [Double.new] using h, signs_draw _ _, signs_draw _ _, by simp [Double.new], ?_⟩
  unfold Double.new
  dsimp only
  by_cases hlt : dim > Double.target dim target
  · rw [if_pos hlt]
    dsimp only
    refine ⟨subsample_length hd (by omega) hsize, ?_⟩
    intro i hi
    have := subsample_lt hd (by omega) hsize hi
    rw [List.length_map, List.length_range]
    omega
  · rw [if_neg hlt]
    dsimp only
    rw [List.length_map, List.length_range]
    omega

theorem Padding.dims_spec (dim : Nat) (target : TargetDim) :
    IsNextPower (max dim (Padding.dims dim target).2) (Padding.dims dim target).1 := by
  cases target with
  | same =>
    show IsNextPower (max dim dim) _
    rw [Nat.max_self]
    exact nextPowerOfTwo_spec dim
  | natural =>
    have h := nextPowerOfTwo_spec dim
    show IsNextPower (max dim (nextPowerOfTwo dim)) (nextPowerOfTwo dim)
    rw [Nat.max_eq_right h.2.1]
    exact ⟨h.1, le_refl _, fun k hk => hk⟩
  | override n =>
    show IsNextPower (max dim n) (nextPowerOfTwo (max n dim))
    rw [Nat.max_comm]
    exact nextPowerOfTwo_spec _

theorem Padding.new_valid [Field K] {d : Draws K} (hd : d.Fair) {dim : Nat} (target : TargetDim)
    (hsize : (Padding.dims dim target).1 ≤ 2 ^ 32) : (Padding.new d dim target).Valid := by
  have hs := Padding.dims_spec dim target
  refine ⟨signs_draw _ _, ?_, hs.1, ?_⟩
  · show ((List.range dim).map _).length ≤ (Padding.dims dim target).1
    rw [List.length_map, List.length_range]
    exact Nat.le_trans (Nat.le_max_left _ _) hs.2.1
  · intro s hsub i hi
    have hsub' : (if (Padding.dims dim target).1 > (Padding.dims dim target).2
      then some (subsampleIndices d (Padding.dims dim target).1 (Padding.dims dim target).2) else none) = some s := hsub
    show i < (Padding.dims dim target).1
    split at hsub'
    · rename_i hgt
      simp only [Option.some.injEq] at hsub'
      rw [← hsub'] at hi
      exact subsample_lt hd (by omega) hsize hi
    · cases hsub'

theorem Padding.new_output [Field K] {d : Draws K} (hd : d.Fair) (dim : Nat) (target : TargetDim)
    (hsize : (Padding.dims dim target).1 ≤ 2 ^ 32) :
    (Padding.new d dim target).outputDim = (Padding.dims dim target).2 := by
  have hs := Padding.dims_spec dim target
  unfold Padding.outputDim Padding.new
  dsimp only
  by_cases hgt : (Padding.dims dim target).1 > (Padding.dims dim target).2
  · rw [if_pos hgt]
    exact subsample_length hd (by omega) hsize
  · rw [if_neg hgt]
    dsimp only
    have : (Padding.dims dim target).2 ≤ (Padding.dims dim target).1 :=
      Nat.le_trans (Nat.le_max_right _ _) hs.2.1
    omega

/-! ## The dense rotation -/

section

variable [Field K]

/-- A matrix with `nrows` rows of length `ncols`. -/
def Rotation.Shaped (t : Rotation K) : Prop := t.rows.length = t.nrows ∧ ∀ row ∈ t.rows, row.length = t.ncols

theorem pickRows_ok {sqrt : K → K} {initial : List (List K)} {dim target : Nat} {indices : List Nat}
    (h : ∀ i ∈ indices, i < initial.length) :
    Rotation.pickRows sqrt initial dim target indices =
      some (indices.map fun i => (initial.getD i []).map (sqrt ((dim : K) / (target : K)) * ·)) := by
  unfold Rotation.pickRows
  induction indices with
  | nil => rfl
  | cons i l ih =>
    have hi := h i List.mem_cons_self
    rw [List.mapM_cons, ih fun j hj => h j (List.mem_cons_of_mem _ hj), List.getElem?_eq_getElem hi]
    simp [List.getD_eq_getElem?_getD, hi]

/-- The matrix of a new rotation. -/
def Rotation.matrixOf (sqrt : K → K) (d : Draws K) (dim targetDim : Nat) : List (List K) :=
  if targetDim = dim then d.matrix dim
  else if targetDim < dim then
    (d.sample dim targetDim).map fun i => ((d.matrix dim).getD i []).map (sqrt ((dim : K) / (targetDim : K)) * ·)
  else (d.matrix targetDim).map (·.take dim)

theorem Rotation.dims_eq (dim : Nat) (target : TargetDim) :
    Rotation.dims dim target = (Double.target dim target, max dim (Double.target dim target)) := by
  cases target with
  | same => simp [Rotation.dims, Double.target]
  | natural => simp [Rotation.dims, Double.target]
  | override n =>
    simp only [Rotation.dims, Double.target]
    split
    · rw [Nat.max_eq_left (by assumption)]
    · rw [Nat.max_eq_right (by omega)]

theorem Rotation.new_ok {sqrt : K → K} {d : Draws K} (hd : d.Fair) (dim : Nat) (target : TargetDim) :
    Rotation.new sqrt d dim target =
      some ⟨Rotation.matrixOf sqrt d dim (Double.target dim target), Double.target dim target, dim⟩ := by
  unfold Rotation.new Rotation.matrixOf
  rw [Rotation.dims_eq]
  dsimp only
  by_cases h1 : Double.target dim target = dim
  · rw [if_pos h1, if_pos h1, h1, Nat.max_self]
  · rw [if_neg h1, if_neg h1]
    by_cases h2 : Double.target dim target < dim
    · rw [if_pos h2, if_pos h2, Nat.max_eq_left (by omega), pickRows_ok (by
        intro i hi
        rw [(hd.square dim).1]
        exact hd.lt _ _ (by omega) i hi)]
      rfl
    · rw [if_neg h2, if_neg h2, Nat.max_eq_right (by omega)]

theorem getD_row_length {d : Draws K} (hd : d.Fair) {n i : Nat} (hi : i < n) : ((d.matrix n).getD i []).length = n := by
  have hl := (hd.square n).1
  rw [List.getD_eq_getElem?_getD, List.getElem?_eq_getElem (by omega)]
  exact (hd.square n).2 _ (List.getElem_mem _)

theorem Rotation.new_shaped {sqrt : K → K} {d : Draws K} (hd : d.Fair) (dim m : Nat) :
    Rotation.Shaped (⟨Rotation.matrixOf sqrt d dim m, m, dim⟩ : Rotation K) := by
  unfold Rotation.Shaped Rotation.matrixOf
  dsimp only
  by_cases h1 : m = dim
  · rw [if_pos h1]
    subst h1
    exact hd.square m
  · rw [if_neg h1]
    by_cases h2 : m < dim
    · rw [if_pos h2]
      refine ⟨by rw [List.length_map, hd.length _ _ (by omega)], ?_⟩
      intro row hrow
      obtain ⟨i, hi, rfl⟩ := List.mem_map.1 hrow
      rw [List.length_map, getD_row_length hd (hd.lt _ _ (by omega) i hi)]
    · rw [if_neg h2]
      refine ⟨by rw [List.length_map, (hd.square m).1], ?_⟩
      intro row hrow
      obtain ⟨r, hr, rfl⟩ := List.mem_map.1 hrow
      rw [List.length_take, (hd.square m).2 r hr]
      omega

/-- The product of a matrix and a vector, by coordinates. -/
theorem product_eq {t : Rotation K} (h : t.Shaped) {x : List K} (hx : x.length = t.ncols) :
    (t.rows.map fun row => (List.zipWith (· * ·) row x).sum) =
      (List.range t.nrows).map fun i => ∑ j ∈ range t.ncols, (t.rows.getD i []).getD j 0 * x.getD j 0 := by
  apply List.ext_getElem
  · simp [h.1]
  · intro i h1 h2
    have hi : i < t.rows.length := by simpa using h1
    simp only [List.getElem_map, List.getElem_range]
    have := inner_eq_sum (x := t.rows[i]) (y := x) (n := t.ncols) (h.2 _ (List.getElem_mem _)) hx
    unfold inner at this
    rw [this]
    simp [List.getD_eq_getElem?_getD, hi]

theorem sum_delta {n : Nat} (f : Nat → Nat → K) (hf : ∀ i j, i < n → j < n → f i j = if i = j then 1 else 0)
    (x y : Nat → K) :
    ∑ i ∈ range n, ∑ j ∈ range n, f i j * (x i * y j) = ∑ i ∈ range n, x i * y i := by
  refine Finset.sum_congr rfl fun i hi => ?_
  rw [Finset.sum_eq_single i]
  · rw [hf i i (Finset.mem_range.1 hi) (Finset.mem_range.1 hi), if_pos rfl, one_mul]
  · intro j hj hne
    rw [hf i j (Finset.mem_range.1 hi) (Finset.mem_range.1 hj), if_neg (Ne.symm hne), zero_mul]
  · intro h; exact absurd hi h

theorem Rotation.new_columns {sqrt : K → K} {d : Draws K} (hd : d.Fair) {dim m : Nat} (hm : dim ≤ m) {i j : Nat}
    (hi : i < dim) (hj : j < dim) :
    ∑ k ∈ range m, ((Rotation.matrixOf sqrt d dim m).getD k []).getD i 0 *
      ((Rotation.matrixOf sqrt d dim m).getD k []).getD j 0 = if i = j then 1 else 0 := by
  unfold Rotation.matrixOf
  by_cases h1 : m = dim
  · rw [if_pos h1]
    subst h1
    exact hd.columns m i j hi hj
  · rw [if_neg h1, if_neg (by omega), ← hd.columns m i j (by omega) (by omega)]
    refine Finset.sum_congr rfl fun k hk => ?_
    have hk' : k < (d.matrix m).length := by rw [(hd.square m).1]; exact Finset.mem_range.1 hk
    have : ((d.matrix m).map (·.take dim)).getD k [] = ((d.matrix m).getD k []).take dim := by
      simp [List.getD_eq_getElem?_getD, hk']
    rw [this]
    have hget : ∀ i, i < dim → (((d.matrix m).getD k []).take dim).getD i 0 = ((d.matrix m).getD k []).getD i 0 := by
      intro i hi
      rw [List.getD_eq_getElem?_getD, List.getElem?_take_of_lt hi, ← List.getD_eq_getElem?_getD]
    rw [hget i hi, hget j hj]

theorem Rotation.inner_ok {sqrt : K → K} {d : Draws K} (hd : d.Fair) {dim m : Nat} (hm : dim ≤ m) {x y : List K}
    (hx : x.length = dim) (hy : y.length = dim) :
    inner ((Rotation.matrixOf sqrt d dim m).map fun row => (List.zipWith (· * ·) row x).sum)
      ((Rotation.matrixOf sqrt d dim m).map fun row => (List.zipWith (· * ·) row y).sum) = inner x y := by
  have hsh := Rotation.new_shaped (sqrt := sqrt) hd dim m
  have h1 := product_eq hsh hx
  have h2 := product_eq hsh hy
  dsimp only at h1 h2
  rw [h1, h2, inner_map_range, inner_eq_sum hx hy,
    ← sum_delta (n := dim) (fun i j => ∑ k ∈ range m, ((Rotation.matrixOf sqrt d dim m).getD k []).getD i 0 *
      ((Rotation.matrixOf sqrt d dim m).getD k []).getD j 0) (fun i j hi hj => Rotation.new_columns hd hm hi hj)
      (fun i => x.getD i 0) (fun j => y.getD j 0)]
  have hk : ∀ k, (∑ j ∈ range dim, ((Rotation.matrixOf sqrt d dim m).getD k []).getD j 0 * x.getD j 0) *
      (∑ j ∈ range dim, ((Rotation.matrixOf sqrt d dim m).getD k []).getD j 0 * y.getD j 0) =
      ∑ i ∈ range dim, ∑ j ∈ range dim, (((Rotation.matrixOf sqrt d dim m).getD k []).getD i 0 *
        ((Rotation.matrixOf sqrt d dim m).getD k []).getD j 0) * (x.getD i 0 * y.getD j 0) := by
    intro k
    rw [Finset.sum_mul_sum]
    exact Finset.sum_congr rfl fun i _ => Finset.sum_congr rfl fun j _ => by ring
  simp only [hk]
  rw [Finset.sum_comm]
  refine Finset.sum_congr rfl fun i _ => ?_
  rw [Finset.sum_comm]
  refine Finset.sum_congr rfl fun j _ => ?_
  rw [Finset.sum_mul]

/-! ## Distances -/

theorem distSq_eq {x y : List K} (h : x.length = y.length) :
    distSq x y = inner x x - 2 * inner x y + inner y y := by
  unfold distSq inner
  induction x generalizing y with
  | nil =>
    obtain rfl : y = [] := List.eq_nil_of_length_eq_zero h.symm
    simp
  | cons a x ih =>
    match y, h with
    | b :: y, h =>
      have := ih (y := y) (by simpa using h)
      simp only [List.zipWith_cons_cons, List.sum_cons] at this ⊢
      rw [this]
      ring

end

end Verif.Rotate
