import Verif.Spherical.Spec
import Verif.Transform.HadProps

/-! # Instances for the examples -/

namespace Verif.Spherical

open Verif.Rotate (inner)

section
variable {K : Type} [Field K] [LinearOrder K]

theorem Crit.le_refl (c : Crit K) : c.le c = true := by cases c <;> simp [Crit.le]
theorem Crit.le_total (c d : Crit K) : c.le d = true ∨ d.le c = true := by
  cases c <;> cases d <;> simp [Crit.le, _root_.le_total]
theorem Crit.le_trans {c d e : Crit K} (h : c.le d = true) (h' : d.le e = true) : c.le e = true := by
  cases c <;> cases d <;> cases e <;> simp [Crit.le] at * <;> exact _root_.le_trans h h'

/-- The first position of a least critical value. -/
def firstLeast (_ : Nat) (l : List (Crit K)) : Nat := l.findIdx (fun c => l.all (fun d => c.le d))

theorem firstLeast_picks : PicksLeast (K := K) firstLeast := by
  intro n l hne
  have hex : ∃ c ∈ l, ∀ d ∈ l, c.le d = true := by
    clear n
    induction l with
    | nil => exact absurd rfl hne
    | cons a l ih =>
      by_cases hl : l = []
      · exact ⟨a, by simp, by subst hl; simp [Crit.le_refl]⟩
      · obtain ⟨c, hc, h⟩ := ih hl
        rcases Crit.le_total a c with g | g
        · refine ⟨a, by simp, fun d hd => ?_⟩
          rcases List.mem_cons.mp hd with e | e
          · rw [e]; exact Crit.le_refl a
          · exact Crit.le_trans g (h d e)
        · refine ⟨c, by simp [hc], fun d hd => ?_⟩
          rcases List.mem_cons.mp hd with e | e
          · rw [e]; exact g
          · exact h d e
  obtain ⟨c, hc, h⟩ := hex
  have hlt : l.findIdx (fun c => l.all (fun d => c.le d)) < l.length :=
    List.findIdx_lt_length_of_exists ⟨c, hc, by simpa using h⟩
  refine ⟨_, List.getElem?_eq_getElem hlt, ?_⟩
  have := List.findIdx_getElem (w := hlt)
  simpa using this

end

/-- The norms that occur in the examples. -/
def ratNorm (x : List Rat) : Rat :=
  if inner x x = 25 then 5 else if inner x x = 100 then 10 else if inner x x = 16 then 4 else if inner x x = 1 then 1
  else if inner x x = 4 then 2 else if inner x x = 9 then 3 else 0

/-- A quantizer around the origin without a transform (`TransformKind::Null`). -/
def plain (n : Nat) (m : Metric) (p : Rat) : Quantizer Rat :=
  { shift := List.replicate n 0, outDim := n, transform := fun x => x, preservesNorms := true, metric := m, meanNorm := 1,
    preScale := p }

theorem plain_isometric (n : Nat) (m : Metric) (p : Rat) : Isometric (plain n m p) := by
  intro u v hu _
  exact ⟨by simpa [plain] using hu, rfl⟩

theorem plain_sized (n : Nat) (m : Metric) (p : Rat) : Sized (plain n m p) := by
  intro u hu
  simpa [plain] using hu

theorem some_exact : Exact (K := Rat) some := by
  intro c y h
  simpa using h.symm

/-- A quantizer of four dimensions with the Hadamard transform of the code (`TransformKind::PaddingHadamard`). -/
def hadamard4 : Quantizer Rat :=
  { shift := [1, 0, 0, 0], outDim := 4, preservesNorms := true, metric := .innerProduct, meanNorm := 1, preScale := 1
    transform := fun x =>
      match (Verif.Rotate.Transform.padding (Verif.Rotate.Padding.new (K := Rat) Verif.Rotate.plainDraws 4 .same)).transformInto
        Verif.Rotate.ratRoot .scalar [0, 0, 0, 0] x with
      | some (.ok y) => y
      | _ => [0, 0, 0, 0] }

end Verif.Spherical
