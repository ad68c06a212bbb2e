import Verif.Transform.NewLemmas
import Mathlib.Data.Finset.Powerset
import Mathlib.Data.Finset.Sort
import Mathlib.Data.Nat.Choose.Basic

/-! Lemmas for C83: what each kind of transform returns, and the average over samples. -/

namespace Verif.Rotate

open Finset

variable {K : Type}

section

variable [Field K]

theorem checkDims_ok {dst src : List K} {a b : Nat} (h1 : src.length = a) (h2 : dst.length = b) :
    checkDims dst src a b = none := by
  unfold checkDims
  rw [if_neg (by omega), if_neg (by omega)]

/-- The vector with the sampled coordinates. -/
def sampledList (sqrt : K → K) (f : Nat → K) (o : Nat) : Option (List Nat) → List K
  | none => (List.range o).map f
  | some s => s.map fun i => f i * sqrt ((o : K) / (s.length : K))

theorem Sampled.eq {sqrt : K → K} {f : Nat → K} {o : Nat} {s : Option (List Nat)} {y : List K}
    (h : Sampled sqrt f o s y) : y = sampledList sqrt f o s := by
  cases s <;> exact h

theorem Sampled.congr {sqrt : K → K} {f g : Nat → K} {o : Nat} {s : Option (List Nat)} {y : List K}
    (h : ∀ i, i < o → f i = g i) (hs : ∀ l, s = some l → ∀ i ∈ l, i < o) (hy : Sampled sqrt f o s y) :
    Sampled sqrt g o s y := by
  cases s with
  | none =>
    unfold Sampled at hy ⊢
    rw [hy]
    exact List.map_congr_left fun i hi => h i (List.mem_range.1 hi)
  | some l =>
    unfold Sampled at hy ⊢
    rw [hy]
    exact List.map_congr_left fun i hi => by rw [h i (hs l rfl i hi)]

theorem pad_zero {x : List K} {i : Nat} (h : x.length ≤ i) : pad x i = 0 := by
  unfold pad
  rw [List.getD_eq_getElem?_getD, List.getElem?_eq_none h]
  rfl

theorem signed_pad (b : Nat → Bool) {n : Nat} {x : List K} (hx : x.length = n) (i : Nat) :
    signed ((List.range n).map fun i => boolToSign (b i)) (pad x) i = negated b (pad x) i := by
  refine signed_draw b n (pad x) ?_
  rcases Nat.lt_or_ge i n with h | h
  · exact Or.inl h
  · exact Or.inr (pad_zero (by omega))

theorem Double.coords_new {sqrt : K → K} (d : Draws K) {dim k : Nat} (target : TargetDim) {x : List K}
    (hx : x.length = dim) (h1 : 2 ^ k ≤ max dim (Double.target dim target))
    (h2 : max dim (Double.target dim target) < 2 ^ (k + 1)) {i : Nat} (hi : i < max dim (Double.target dim target)) :
    (Double.new d dim target).coords sqrt x i =
      doubleCoords sqrt d dim (max dim (Double.target dim target)) k x i := by
  unfold Double.coords doubleCoords
  have hl : (Double.new d dim target).signs0.length = dim := by simp [Double.new]
  have ht : (Double.new d dim target).targetDim = Double.target dim target := rfl
  rw [hl, ht, log2_unique h1 h2]
  generalize hO : max dim (Double.target dim target) = o at *
  refine mix_congr (o := o) ?_ (by omega) hi
  intro j hj
  have hs1 : (Double.new d dim target).signs1 = (List.range o).map fun i => boolToSign (d.sign (dim + i)) := by
    rw [← hO]; rfl
  rw [hs1, signed_draw (fun i => d.sign (dim + i)) o _ (Or.inl hj)]
  unfold negated
  have : mix sqrt (2 ^ k) 0 (signed (Double.new d dim target).signs0 (pad x)) j =
      mix sqrt (2 ^ k) 0 (fun i => if d.sign i = true then -pad x i else pad x i) j :=
    mix_congr (o := o) (fun i _ => signed_pad d.sign hx i) (by omega) hj
  rw [this]

theorem Padding.coords_new {sqrt : K → K} (d : Draws K) {dim : Nat} (target : TargetDim) {x : List K}
    (hx : x.length = dim) {i : Nat} (hi : i < (Padding.dims dim target).1) :
    (Padding.new d dim target).coords sqrt x i = paddingCoords sqrt d (Padding.dims dim target).1 x i := by
  unfold Padding.coords paddingCoords
  exact mix_congr (o := (Padding.dims dim target).1) (fun i _ => signed_pad d.sign hx i) (by
    show 0 + (Padding.dims dim target).1 ≤ _
    omega) hi

theorem sum_zipWith_mul (c : K) (a b : List K) :
    (List.zipWith (fun a b => c * a * b) a b).sum = c * (List.zipWith (· * ·) a b).sum := by
  induction a generalizing b with
  | nil => simp
  | cons u a ih =>
    cases b with
    | nil => simp
    | cons v b =>
      simp only [List.zipWith_cons_cons, List.sum_cons, ih]
      ring

theorem Rotation.sampled_new {sqrt : K → K} {d : Draws K} (hd : d.Fair) {dim m : Nat} {x : List K}
    (hx : x.length = dim) :
    Sampled sqrt (rotationCoords d (max dim m) x) (max dim m) (if m < dim then some (d.sample dim m) else none)
      ((Rotation.matrixOf sqrt d dim m).map fun row => (List.zipWith (· * ·) row x).sum) := by
  have hrow : ∀ n, n = dim → ∀ i, i < n →
      (List.zipWith (· * ·) ((d.matrix n).getD i []) x).sum = rotationCoords d n x i := by
    intro n hn i hi
    have := inner_eq_sum (x := (d.matrix n).getD i []) (y := x) (n := n) (getD_row_length hd hi) (by omega)
    unfold inner at this
    rw [this]
    rfl
  unfold Rotation.matrixOf
  by_cases h1 : m = dim
  · subst h1
    rw [if_neg (by omega), if_pos rfl, Nat.max_self]
    unfold Sampled
    have hl := (hd.square m).1
    apply List.ext_getElem
    · simp [hl]
    · intro i h1 h2
      have hi : i < m := by simpa using h2
      simp only [List.getElem_map, List.getElem_range]
      rw [← hrow m rfl i hi]
      simp [List.getD_eq_getElem?_getD, hl, hi]
  · rw [if_neg h1]
    by_cases h2 : m < dim
    · rw [if_pos h2, if_pos h2, Nat.max_eq_left (by omega)]
      unfold Sampled
      dsimp only
      rw [List.map_map, hd.length dim m (by omega)]
      refine List.map_congr_left fun i hi => ?_
      have hi' := hd.lt _ _ (by omega) i hi
      show (List.zipWith (· * ·) (((d.matrix dim).getD i []).map (sqrt ((dim : K) / (m : K)) * ·)) x).sum = _
      rw [← hrow dim rfl i hi', List.zipWith_map_left, mul_comm]
      exact sum_zipWith_mul _ _ _
    · rw [if_neg h2, if_neg h2, Nat.max_eq_right (by omega)]
      unfold Sampled
      have hl := (hd.square m).1
      apply List.ext_getElem
      · simp [hl]
      · intro i h1 h2
        have hi : i < m := by simpa using h2
        simp only [List.getElem_map, List.getElem_range]
        have hlen := getD_row_length hd hi
        have hg : (d.matrix m)[i]'(by omega) = (d.matrix m).getD i [] := by
          simp [List.getD_eq_getElem?_getD, hl, hi]
        rw [hg]
        have := inner_eq_sum (x := ((d.matrix m).getD i []).take dim) (y := x) (n := dim)
          (by rw [List.length_take]; omega) hx
        unfold inner at this
        rw [this]
        unfold rotationCoords
        obtain ⟨e, he⟩ : ∃ e, m = dim + e := ⟨m - dim, by omega⟩
        have hsplit : ∑ j ∈ range m, ((d.matrix m).getD i []).getD j 0 * pad x j =
            ∑ j ∈ range dim, ((d.matrix m).getD i []).getD j 0 * pad x j := by
          rw [he, Finset.sum_range_add, ← he]
          have h0 : ∑ j ∈ range e, ((d.matrix m).getD i []).getD (dim + j) 0 * pad x (dim + j) = 0 :=
            Finset.sum_eq_zero fun j _ => by rw [pad_zero (by omega), mul_zero]
          rw [h0, add_zero]
        rw [hsplit]
        refine Finset.sum_congr rfl fun j hj => ?_
        congr 1
        rw [List.getD_eq_getElem?_getD, List.getElem?_take_of_lt (Finset.mem_range.1 hj),
          ← List.getD_eq_getElem?_getD]

theorem rotationCoords_inner {d : Draws K} (hd : d.Fair) {n o : Nat} (h : n ≤ o) {x y : List K} (hx : x.length = n)
    (hy : y.length = n) :
    ∑ i ∈ range o, rotationCoords d o x i * rotationCoords d o y i = inner x y := by
  rw [← sum_pad hx hy h, ← sum_delta (n := o) (fun i j => ∑ k ∈ range o, ((d.matrix o).getD k []).getD i 0 *
      ((d.matrix o).getD k []).getD j 0) (fun i j hi hj => hd.columns o i j hi hj) (pad x) (pad y)]
  have hk : ∀ k, rotationCoords d o x k * rotationCoords d o y k =
      ∑ i ∈ range o, ∑ j ∈ range o, (((d.matrix o).getD k []).getD i 0 * ((d.matrix o).getD k []).getD j 0) *
        (pad x i * pad y j) := by
    intro k
    unfold rotationCoords
    rw [Finset.sum_mul_sum]
    exact Finset.sum_congr rfl fun i _ => Finset.sum_congr rfl fun j _ => by ring
  simp only [hk]
  rw [Finset.sum_comm]
  refine Finset.sum_congr rfl fun i _ => ?_
  rw [Finset.sum_comm]
  refine Finset.sum_congr rfl fun j _ => ?_
  rw [Finset.sum_mul]

/-! ## Inner products of sampled coordinates -/

theorem Sampled.inner_none {sqrt : K → K} {f g : Nat → K} {o : Nat} {y z : List K} (hy : Sampled sqrt f o none y)
    (hz : Sampled sqrt g o none z) : inner y z = ∑ i ∈ range o, f i * g i := by
  unfold Sampled at hy hz
  rw [hy, hz, inner_map_range]

theorem inner_map {f g : Nat → K} (l : List Nat) : inner (l.map f) (l.map g) = (l.map fun i => f i * g i).sum := by
  unfold inner
  induction l with
  | nil => rfl
  | cons a l ih => simp only [List.map_cons, List.zipWith_cons_cons, List.sum_cons, ih]

theorem Sampled.inner_some {sqrt : K → K} {f g : Nat → K} {o : Nat} {s : List Nat} {y z : List K}
    (hy : Sampled sqrt f o (some s) y) (hz : Sampled sqrt g o (some s) z) :
    inner y z = sqrt ((o : K) / (s.length : K)) * sqrt ((o : K) / (s.length : K)) *
      (s.map fun i => f i * g i).sum := by
  unfold Sampled at hy hz
  rw [hy, hz, inner_map, ← List.sum_map_mul_left]
  congr 1
  exact List.map_congr_left fun i _ => by ring

end

section

variable [Field K] [LinearOrder K] [IsStrictOrderedRing K]

/-- The samples of `m` out of `o` together count every coordinate equally often. -/
theorem sum_samples {o m : Nat} (hm : 0 < m) (hmo : m ≤ o) (f : Nat → K) :
    ∑ S ∈ (range o).powersetCard m, ∑ i ∈ S, f i = ((o - 1).choose (m - 1) : Nat) * ∑ i ∈ range o, f i := by
  have h1 : ∀ S ∈ (range o).powersetCard m, ∑ i ∈ S, f i = ∑ i ∈ range o, if i ∈ S then f i else 0 := by
    intro S hS
    rw [← Finset.sum_filter]
    congr 1
    ext i
    rw [Finset.mem_filter]
    exact ⟨fun h => ⟨(Finset.mem_powersetCard.1 hS).1 h, h⟩, fun h => h.2⟩
  rw [Finset.sum_congr rfl h1, Finset.sum_comm, Finset.mul_sum]
  refine Finset.sum_congr rfl fun i hi => ?_
  rw [← Finset.sum_filter, Finset.sum_const, nsmul_eq_mul]
  congr 2
  have := Finset.card_filter_powersetCard_subset {i} (range o) m (by simpa using hi) (by rw [Finset.card_singleton]; omega)
  rw [Finset.card_range, Finset.card_singleton] at this
  rw [← this]
  congr 1
  ext S
  simp

/-- Choosing and then pointing at one of the chosen. -/
theorem choose_mul_div {o m : Nat} (hm : 0 < m) (hmo : m ≤ o) :
    (o : K) / (m : K) * ((o - 1).choose (m - 1) : Nat) = (o.choose m : Nat) := by
  obtain ⟨o', rfl⟩ : ∃ o', o = o' + 1 := ⟨o - 1, by omega⟩
  obtain ⟨m', rfl⟩ : ∃ m', m = m' + 1 := ⟨m - 1, by omega⟩
  have h := Nat.add_one_mul_choose_eq o' m'
  have hne : ((m' + 1 : Nat) : K) ≠ 0 := by exact_mod_cast Nat.succ_ne_zero m'
  rw [div_mul_eq_mul_div, div_eq_iff hne]
  simp only [Nat.add_sub_cancel]
  exact_mod_cast h

theorem Sampled.average {sqrt : K → K} (hs : ∀ a : K, 0 ≤ a → IsRoot (sqrt a) a) {f g : Nat → K} {o m : Nat}
    (hm : 0 < m) (hmo : m ≤ o) {list : Finset Nat → List Nat} {y z : Finset Nat → List K}
    (hl : ∀ S ∈ (range o).powersetCard m, (list S).Nodup ∧ (list S).toFinset = S)
    (hy : ∀ S ∈ (range o).powersetCard m, Sampled sqrt f o (some (list S)) (y S))
    (hz : ∀ S ∈ (range o).powersetCard m, Sampled sqrt g o (some (list S)) (z S)) :
    ∑ S ∈ (range o).powersetCard m, inner (y S) (z S) = (o.choose m : Nat) * ∑ i ∈ range o, f i * g i := by
  have h1 : ∀ S ∈ (range o).powersetCard m, inner (y S) (z S) = (o : K) / (m : K) * ∑ i ∈ S, f i * g i := by
    intro S hS
    obtain ⟨hn, hS'⟩ := hl S hS
    have hlen : (list S).length = m := by
      rw [← List.toFinset_card_of_nodup hn, hS', (Finset.mem_powersetCard.1 hS).2]
    rw [(hy S hS).inner_some (hz S hS), hlen, (hs _ (by positivity)).2]
    congr 1
    conv_rhs => rw [← hS']
    rw [List.sum_toFinset _ hn]
  rw [Finset.sum_congr rfl h1, ← Finset.mul_sum, sum_samples hm hmo, ← mul_assoc, choose_mul_div hm hmo]

theorem Draws.Fair.withSample {d : Draws K} (hd : d.Fair) {n m : Nat} {l : List Nat} (hn : l.Nodup)
    (hl : l.length = m) (hlt : ∀ i ∈ l, i < n) : (d.withSample n m l).Fair := by
  refine ⟨?_, ?_, ?_, hd.square, hd.columns⟩
  · intro n' m' h
    show (if n' = n ∧ m' = m then l else d.sample n' m').Nodup
    split
    · exact hn
    · exact hd.nodup n' m' h
  · intro n' m' h
    show (if n' = n ∧ m' = m then l else d.sample n' m').length = m'
    split
    · rename_i hc; rw [hl, hc.2]
    · exact hd.length n' m' h
  · intro n' m' h i hi
    have hi' : i ∈ (if n' = n ∧ m' = m then l else d.sample n' m') := hi
    split at hi'
    · rename_i hc; rw [hc.1]; exact hlt i hi'
    · exact hd.lt n' m' h i hi'

omit [Field K] [LinearOrder K] [IsStrictOrderedRing K] in
theorem Draws.withSample_sample (d : Draws K) (n m : Nat) (l : List Nat) : (d.withSample n m l).sample n m = l :=
  if_pos ⟨rfl, rfl⟩

end

end Verif.Rotate
