/-
Lemmas for C118: the names of the files differ.
-/
import Verif.Bftree.SaveModel

namespace Verif.Bftree.Save

/-- The last twelve characters. -/
def tag (n : List Char) : List Char := n.reverse.take 12

@[simp] theorem paramsName_inj (p q : List Char) : paramsName p = paramsName q ↔ p = q := by
  unfold paramsName
  exact List.append_left_inj _

@[simp] theorem vectorsName_inj (p q : List Char) : vectorsName p = vectorsName q ↔ p = q := by
  unfold vectorsName
  exact List.append_left_inj _

@[simp] theorem neighborsName_inj (p q : List Char) : neighborsName p = neighborsName q ↔ p = q := by
  unfold neighborsName
  exact List.append_left_inj _

@[simp] theorem codesName_inj (p q : List Char) : codesName p = codesName q ↔ p = q := by
  unfold codesName
  exact List.append_left_inj _

@[simp] theorem dataName_inj (p q : List Char) : dataName p = dataName q ↔ p = q := by
  unfold dataName
  exact List.append_left_inj _

theorem tag_paramsName (p q : List Char) : tag (paramsName p) = tag (paramsName q) := by
  simp [tag, paramsName, List.take]

theorem tag_vectorsName (p q : List Char) : tag (vectorsName p) = tag (vectorsName q) := by
  simp [tag, vectorsName, List.take]

theorem tag_neighborsName (p q : List Char) : tag (neighborsName p) = tag (neighborsName q) := by
  simp [tag, neighborsName, List.take]

theorem tag_codesName (p q : List Char) : tag (codesName p) = tag (codesName q) := by
  simp [tag, codesName, List.take]

theorem tag_dataName (p q : List Char) : tag (dataName p) = tag (dataName q) := by
  simp [tag, dataName, List.take]

@[simp] theorem paramsName_vectorsName (p q : List Char) : (paramsName p = vectorsName q) = False := by
  refine eq_false fun h => ?_
  have := (tag_paramsName [] p).trans ((congrArg tag h).trans (tag_vectorsName q []))
  revert this
  decide

@[simp] theorem paramsName_neighborsName (p q : List Char) : (paramsName p = neighborsName q) = False := by
  refine eq_false fun h => ?_
  have := (tag_paramsName [] p).trans ((congrArg tag h).trans (tag_neighborsName q []))
  revert this
  decide

@[simp] theorem paramsName_codesName (p q : List Char) : (paramsName p = codesName q) = False := by
  refine eq_false fun h => ?_
  have := (tag_paramsName [] p).trans ((congrArg tag h).trans (tag_codesName q []))
  revert this
  decide

@[simp] theorem paramsName_dataName (p q : List Char) : (paramsName p = dataName q) = False := by
  refine eq_false fun h => ?_
  have := (tag_paramsName [] p).trans ((congrArg tag h).trans (tag_dataName q []))
  revert this
  decide

@[simp] theorem vectorsName_paramsName (p q : List Char) : (vectorsName p = paramsName q) = False := by
  refine eq_false fun h => ?_
  have := (tag_vectorsName [] p).trans ((congrArg tag h).trans (tag_paramsName q []))
  revert this
  decide

@[simp] theorem vectorsName_neighborsName (p q : List Char) : (vectorsName p = neighborsName q) = False := by
  refine eq_false fun h => ?_
  have := (tag_vectorsName [] p).trans ((congrArg tag h).trans (tag_neighborsName q []))
  revert this
  decide

@[simp] theorem vectorsName_codesName (p q : List Char) : (vectorsName p = codesName q) = False := by
  refine eq_false fun h => ?_
  have := (tag_vectorsName [] p).trans ((congrArg tag h).trans (tag_codesName q []))
  revert this
  decide

@[simp] theorem vectorsName_dataName (p q : List Char) : (vectorsName p = dataName q) = False := by
  refine eq_false fun h => ?_
  have := (tag_vectorsName [] p).trans ((congrArg tag h).trans (tag_dataName q []))
  revert this
  decide

@[simp] theorem neighborsName_paramsName (p q : List Char) : (neighborsName p = paramsName q) = False := by
  refine eq_false fun h => ?_
  have := (tag_neighborsName [] p).trans ((congrArg tag h).trans (tag_paramsName q []))
  revert this
  decide

@[simp] theorem neighborsName_vectorsName (p q : List Char) : (neighborsName p = vectorsName q) = False := by
  refine eq_false fun h => ?_
  have := (tag_neighborsName [] p).trans ((congrArg tag h).trans (tag_vectorsName q []))
  revert this
  decide

@[simp] theorem neighborsName_codesName (p q : List Char) : (neighborsName p = codesName q) = False := by
  refine eq_false fun h => ?_
  have := (tag_neighborsName [] p).trans ((congrArg tag h).trans (tag_codesName q []))
  revert this
  decide

@[simp] theorem neighborsName_dataName (p q : List Char) : (neighborsName p = dataName q) = False := by
  refine eq_false fun h => ?_
  have := (tag_neighborsName [] p).trans ((congrArg tag h).trans (tag_dataName q []))
  revert this
  decide

@[simp] theorem codesName_paramsName (p q : List Char) : (codesName p = paramsName q) = False := by
  refine eq_false fun h => ?_
  have := (tag_codesName [] p).trans ((congrArg tag h).trans (tag_paramsName q []))
  revert this
  decide

@[simp] theorem codesName_vectorsName (p q : List Char) : (codesName p = vectorsName q) = False := by
  refine eq_false fun h => ?_
  have := (tag_codesName [] p).trans ((congrArg tag h).trans (tag_vectorsName q []))
  revert this
  decide

@[simp] theorem codesName_neighborsName (p q : List Char) : (codesName p = neighborsName q) = False := by
  refine eq_false fun h => ?_
  have := (tag_codesName [] p).trans ((congrArg tag h).trans (tag_neighborsName q []))
  revert this
  decide

@[simp] theorem codesName_dataName (p q : List Char) : (codesName p = dataName q) = False := by
  refine eq_false fun h => ?_
  have := (tag_codesName [] p).trans ((congrArg tag h).trans (tag_dataName q []))
  revert this
  decide

@[simp] theorem dataName_paramsName (p q : List Char) : (dataName p = paramsName q) = False := by
  refine eq_false fun h => ?_
  have := (tag_dataName [] p).trans ((congrArg tag h).trans (tag_paramsName q []))
  revert this
  decide

@[simp] theorem dataName_vectorsName (p q : List Char) : (dataName p = vectorsName q) = False := by
  refine eq_false fun h => ?_
  have := (tag_dataName [] p).trans ((congrArg tag h).trans (tag_vectorsName q []))
  revert this
  decide

@[simp] theorem dataName_neighborsName (p q : List Char) : (dataName p = neighborsName q) = False := by
  refine eq_false fun h => ?_
  have := (tag_dataName [] p).trans ((congrArg tag h).trans (tag_neighborsName q []))
  revert this
  decide

@[simp] theorem dataName_codesName (p q : List Char) : (dataName p = codesName q) = False := by
  refine eq_false fun h => ?_
  have := (tag_dataName [] p).trans ((congrArg tag h).trans (tag_codesName q []))
  revert this
  decide

@[simp] theorem fromStr_asStr (m : Metric) : Metric.fromStr m.asStr = some m := by
  cases m <;> simp [Metric.fromStr, Metric.asStr]

variable {A B K Z : Type}

theorem loadPlain_of {w : World A B K Z} {s : Nat} {pre : List Char} {width : Nat} (elem : Dtype) {p : Params}
    {m : Metric} {a : A} {b : B} (h1 : readParams w s pre = some p) (h2 : idsFit p width = true)
    (h3 : Metric.fromStr p.metric = some m) (h4 : readVectors w p.pre = some a) (h5 : readNeighbors w p.pre = some b) :
    loadPlain w s pre width elem = some (infoOf p m width elem, ⟨a, b, none⟩) := by
  simp [loadPlain, h1, h2, h3, h4, h5]

theorem loadQuant_of {w : World A B K Z} {s : Nat} {pre : List Char} {width : Nat} (elem : Dtype) {p : Params}
    {m : Metric} {a : A} {b : B} {k : K} {z : Z} (h1 : readParams w s pre = some p) (h2 : idsFit p width = true)
    (hq : p.quant = true) (h3 : Metric.fromStr p.metric = some m) (h4 : readVectors w p.pre = some a)
    (h5 : readNeighbors w p.pre = some b) (h6 : readQuantizer w s p.pre = some z) (h7 : readCodes w p.pre = some k) :
    loadQuant w s pre width elem = some (infoOf p m width elem, ⟨a, b, some (k, z)⟩) := by
  simp [loadQuant, h1, h2, hq, h3, h4, h5, h6, h7]

/-- A load depends on the files it reads only. -/
theorem load_congr {w w' : World A B K Z} {s : Nat} {pre : List Char} (q : Bool) (width : Nat) (elem : Dtype)
    (h1 : readParams w' s pre = readParams w s pre)
    (h2 : ∀ p, readParams w s pre = some p → readVectors w' p.pre = readVectors w p.pre ∧
      readNeighbors w' p.pre = readNeighbors w p.pre ∧ readCodes w' p.pre = readCodes w p.pre ∧
      readQuantizer w' s p.pre = readQuantizer w s p.pre) :
    load q w' s pre width elem = load q w s pre width elem := by
  unfold load loadQuant loadPlain
  rw [h1]
  cases hp : readParams w s pre with
  | none => rfl
  | some p =>
    obtain ⟨a, b, c, d⟩ := h2 p hp
    simp only [Option.bind_eq_bind, Option.bind_some, a, b, c, d]

theorem load_none_params {w : World A B K Z} {s : Nat} {pre : List Char} (q : Bool) (width : Nat) (elem : Dtype)
    (h : readParams w s pre = none) : load q w s pre width elem = none := by
  unfold load loadQuant loadPlain
  rw [h]
  cases q <;> rfl

theorem load_none_vectors {w : World A B K Z} {s : Nat} {pre : List Char} (q : Bool) (width : Nat) (elem : Dtype)
    {p : Params} (h : readParams w s pre = some p) (hv : readVectors w p.pre = none) :
    load q w s pre width elem = none := by
  unfold load loadQuant loadPlain
  rw [h]
  simp only [Option.bind_eq_bind, Option.bind_some, hv]
  cases q <;> cases idsFit p width <;> cases p.quant <;> cases Metric.fromStr p.metric <;> rfl

theorem load_none_neighbors {w : World A B K Z} {s : Nat} {pre : List Char} (q : Bool) (width : Nat) (elem : Dtype)
    {p : Params} (h : readParams w s pre = some p) (hv : readNeighbors w p.pre = none) :
    load q w s pre width elem = none := by
  unfold load loadQuant loadPlain
  rw [h]
  simp only [Option.bind_eq_bind, Option.bind_some, hv]
  cases q <;> cases idsFit p width <;> cases p.quant <;> cases Metric.fromStr p.metric <;>
    cases readVectors w p.pre <;> rfl

theorem loadQuant_none_codes {w : World A B K Z} {s : Nat} {pre : List Char} (width : Nat) (elem : Dtype)
    {p : Params} (h : readParams w s pre = some p) (hv : readCodes w p.pre = none) :
    loadQuant w s pre width elem = none := by
  unfold loadQuant
  rw [h]
  simp only [Option.bind_eq_bind, Option.bind_some, hv]
  cases idsFit p width <;> cases p.quant <;> cases Metric.fromStr p.metric <;>
    cases readVectors w p.pre <;> cases readNeighbors w p.pre <;> cases readQuantizer w s p.pre <;> rfl

theorem loadQuant_none_quantizer {w : World A B K Z} {s : Nat} {pre : List Char} (width : Nat) (elem : Dtype)
    {p : Params} (h : readParams w s pre = some p) (hv : readQuantizer w s p.pre = none) :
    loadQuant w s pre width elem = none := by
  unfold loadQuant
  rw [h]
  simp only [Option.bind_eq_bind, Option.bind_some, hv]
  cases idsFit p width <;> cases p.quant <;> cases Metric.fromStr p.metric <;>
    cases readVectors w p.pre <;> cases readNeighbors w p.pre <;> rfl

end Verif.Bftree.Save
