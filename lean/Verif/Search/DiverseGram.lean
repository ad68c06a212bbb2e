import Verif.Search.DiverseSpec
import Mathlib.LinearAlgebra.Matrix.SchurComplement
import Mathlib.LinearAlgebra.Span.Basic
import Mathlib.LinearAlgebra.Finsupp.LinearCombination

/-! Gram determinants: adding a vector multiplies the determinant by the squared length of its component
orthogonal to the others. -/

namespace Verif.Diversity

open Matrix

variable {K : Type} [Field K] {d : Nat}

/-- The Gram matrix of vectors given as functions. -/
def gramV (u : Nat → Fin d → K) (l : List Nat) : Matrix (Fin l.length) (Fin l.length) K :=
  Matrix.of fun a b => u l[a] ⬝ᵥ u l[b]

/-- The span of the vectors numbered by `l`. -/
def spanOf (u : Nat → Fin d → K) (l : List Nat) : Submodule K (Fin d → K) :=
  Submodule.span K (Set.range fun a : Fin l.length => u l[a])

theorem mem_spanOf {u : Nat → Fin d → K} {l : List Nat} {i : Nat} (h : i ∈ l) : u i ∈ spanOf u l := by
  obtain ⟨n, hn, rfl⟩ := List.getElem_of_mem h
  exact Submodule.subset_span ⟨⟨n, hn⟩, rfl⟩

theorem spanOf_mono {u : Nat → Fin d → K} {l l' : List Nat} (h : ∀ i ∈ l, i ∈ l') : spanOf u l ≤ spanOf u l' := by
  refine Submodule.span_le.mpr ?_
  rintro _ ⟨a, rfl⟩
  exact mem_spanOf (h _ (List.getElem_mem _))

theorem orth_spanOf {u : Nat → Fin d → K} {l : List Nat} {r w : Fin d → K} (ho : ∀ i ∈ l, u i ⬝ᵥ r = 0)
    (hw : w ∈ spanOf u l) : w ⬝ᵥ r = 0 := by
  refine Submodule.span_induction (p := fun w _ => w ⬝ᵥ r = 0) ?_ ?_ ?_ ?_ hw
  · rintro _ ⟨a, rfl⟩; exact ho _ (List.getElem_mem _)
  · simp
  · intro x y _ _ hx hy; rw [add_dotProduct, hx, hy, add_zero]
  · intro a x _ hx; rw [smul_dotProduct, hx, smul_zero]

theorem det_gramV_append (u : Nat → Fin d → K) (l : List Nat) (j : Nat) (r : Fin d → K)
    (hs : u j - r ∈ spanOf u l) (ho : ∀ i ∈ l, u i ⬝ᵥ r = 0) :
    (gramV u (l ++ [j])).det = (gramV u l).det * (r ⬝ᵥ r) := by
  obtain ⟨c, hc⟩ := (Submodule.mem_span_range_iff_exists_fun K).mp hs
  have hj : u j = r + ∑ a, c a • u l[a] := by rw [hc]; abel
  let e : Fin l.length ⊕ Fin 1 ≃ Fin (l ++ [j]).length := finSumFinEquiv.trans (finCongr (by simp))
  let C : Matrix (Fin l.length) (Fin 1) K := Matrix.of fun a _ => c a
  have hel : ∀ a, (l ++ [j])[(e (.inl a)).val] = l[a] := by
    intro a
    have : (e (.inl a)).val = a.val := by simp [e]
    simp only [this]
    exact List.getElem_append_left a.2
  have her : ∀ a, (l ++ [j])[(e (.inr a)).val] = j := by
    intro a
    have : (e (.inr a)).val = l.length := by simp [e]
    simp only [this]
    simp
  have hAj : ∀ a : Fin l.length, u l[a] ⬝ᵥ u j = ∑ b : Fin l.length, (u l[a] ⬝ᵥ u l[b]) * c b := by
    intro a
    have h0 : u l[a] ⬝ᵥ r = 0 := ho _ (List.getElem_mem _)
    rw [hj, dotProduct_add, h0, zero_add, dotProduct_sum]
    exact Finset.sum_congr rfl fun b _ => by rw [dotProduct_smul, smul_eq_mul, mul_comm]
  have hr : ∀ b : Fin l.length, r ⬝ᵥ u l[b] = 0 := fun b => by
    rw [dotProduct_comm]; exact ho _ (List.getElem_mem _)
  have hjj : u j ⬝ᵥ u j = r ⬝ᵥ r + ∑ a : Fin l.length, c a * (u l[a] ⬝ᵥ u j) := by
    have h1 : r ⬝ᵥ u j = r ⬝ᵥ r := by
      rw [hj, dotProduct_add, dotProduct_sum]
      rw [Finset.sum_eq_zero, add_zero]
      intro b _
      rw [dotProduct_smul, hr b, smul_zero]
    conv_lhs => lhs; rw [hj]
    rw [add_dotProduct, h1, sum_dotProduct]
    congr 1
    exact Finset.sum_congr rfl fun b _ => by rw [smul_dotProduct, smul_eq_mul]
  have hG : (gramV u (l ++ [j])).submatrix e e
      = fromBlocks 1 0 Cᵀ 1 * fromBlocks (gramV u l) 0 0 (Matrix.of fun _ _ => r ⬝ᵥ r) * fromBlocks 1 C 0 1 := by
    rw [fromBlocks_multiply, fromBlocks_multiply]
    ext a b
    rcases a with a | a <;> rcases b with b | b
    · simp only [submatrix_apply, gramV, of_apply, Fin.getElem_fin, hel, fromBlocks_apply₁₁]
      simp
    · simp only [submatrix_apply, gramV, of_apply, Fin.getElem_fin, hel, her, fromBlocks_apply₁₂]
      have := hAj a
      simp only [Fin.getElem_fin] at this
      rw [this]
      simp [Matrix.mul_apply, C]
    · simp only [submatrix_apply, gramV, of_apply, Fin.getElem_fin, hel, her, fromBlocks_apply₂₁]
      have := hAj b
      simp only [Fin.getElem_fin] at this
      rw [dotProduct_comm, this]
      simp only [Matrix.mul_zero, add_zero, Matrix.mul_one, Matrix.mul_apply, C, Matrix.transpose_apply, of_apply]
      exact Finset.sum_congr rfl fun x _ => by rw [mul_comm, dotProduct_comm]
    · simp only [submatrix_apply, gramV, of_apply, Fin.getElem_fin, her, fromBlocks_apply₂₂]
      rw [hjj]
      simp only [hAj]
      simp [Matrix.mul_apply, C, Finset.sum_mul, Finset.mul_sum]
      rw [add_comm, Finset.sum_comm]
      congr 1
      exact Finset.sum_congr rfl fun x _ => Finset.sum_congr rfl fun y _ => by ring
  rw [← Matrix.det_submatrix_equiv_self e, hG, det_mul, det_mul, det_fromBlocks_zero₁₂, det_fromBlocks_zero₁₂,
    det_fromBlocks_zero₂₁]
  simp

end Verif.Diversity
