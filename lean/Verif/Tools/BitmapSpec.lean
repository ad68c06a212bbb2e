import Verif.Tools.BitmapModel
/-
The meaning of a label bitmap, in terms of the attributes of the documents: the scalars of a label, each under its path
`.a.b.c`.
-/
namespace Verif.Tools

open Verif.Label

/-- A number of a label as a double (bits). -/
def asDouble : AttrVal → Option Nat
  | .int n => some (i64AsF64 n)
  | .real b => some b
  | _ => none

/-- A value equals a query constant: numbers as doubles, everything else as it is. -/
def Same (a : AttrVal) (v : Json) : Prop :=
  match asDouble a with
  | some f => ∃ c, v.asF64 = some c ∧ fVal f = fVal c
  | none => tryFrom v = some a

/-- A value passes a comparison; order is that of the doubles. -/
def OpHolds (a : AttrVal) : CmpOp → Prop
  | .eq v => Same a v
  | .ne v => ¬ Same a v
  | .lt b => ∃ f, asDouble a = some f ∧ fVal f < fVal b
  | .lte b => ∃ f, asDouble a = some f ∧ fVal f ≤ fVal b
  | .gt b => ∃ f, asDouble a = some f ∧ fVal b < fVal f
  | .gte b => ∃ f, asDouble a = some f ∧ fVal b ≤ fVal f

/-- A document has a field. -/
def HasField (attrs : Attrs) (f : Bytes) : Prop := ∃ a, (prepend f, a) ∈ attrs

/-- A document of a collection can be in a negation over fields: it has the first field, and every other field that
some document of the collection has. -/
def Eligible (docs : List (Nat × Attrs)) (attrs : Attrs) : List Bytes → Prop
  | [] => False
  | f :: fs => HasField attrs f ∧ ∀ g ∈ fs, (∃ d ∈ docs, HasField d.2 g) → HasField attrs g

mutual
/-- What the bitmap of a filter holds, document by document. -/
def Sat (docs : List (Nat × Attrs)) (attrs : Attrs) : Expr → Prop
  | .and es => es ≠ [] ∧ SatAll docs attrs es
  | .or es => SatAny docs attrs es
  | .not e => Eligible docs attrs (labelSet e) ∧ ¬ Sat docs attrs e
  | .cmp f op => ∃ a, (prepend f, a) ∈ attrs ∧ OpHolds a op
def SatAll (docs : List (Nat × Attrs)) (attrs : Attrs) : List Expr → Prop
  | [] => True
  | e :: es => Sat docs attrs e ∧ SatAll docs attrs es
def SatAny (docs : List (Nat × Attrs)) (attrs : Attrs) : List Expr → Prop
  | [] => False
  | e :: es => Sat docs attrs e ∨ SatAny docs attrs es
end

/-! ### Filters whose bitmap agrees with direct evaluation -/

/-- Field `f` is a scalar of the label, or nothing. -/
def ScalarAt (label : Json) (f : Bytes) : Prop := ∀ v, getByPath label f = some v → ∃ a, tryFrom v = some a

/-- The number at `f`, if any, is equal to the constant as JSON when it is equal as a double. -/
def NoMix (label : Json) (f : Bytes) (c : Json) : Prop :=
  ∀ m k, getByPath label f = some (.num m) → c = .num k → fVal m.asF64 = fVal k.asF64 → m.eq k = true

/-- The constants of a comparison mix no number types, and its bounds are numbers (JSON has no `NaN`). -/
def OpPlain (label : Json) (f : Bytes) : CmpOp → Prop
  | .eq v => NoMix label f v
  | .ne v => NoMix label f v
  | .lt b => fNaNb b = false
  | .lte b => fNaNb b = false
  | .gt b => fNaNb b = false
  | .gte b => fNaNb b = false

mutual
/-- A filter without an empty `And`, on fields that are scalars, not starting with a dot, without mixed numbers, and
such that the document has every field below a negation. -/
def Plain (label : Json) : Expr → Prop
  | .and es => es ≠ [] ∧ PlainAll label es
  | .or es => PlainAll label es
  | .not e => Plain label e ∧ labelSet e ≠ [] ∧ ∀ f ∈ labelSet e, ∃ v, getByPath label f = some v
  | .cmp f op => f.head? ≠ some 46 ∧ ScalarAt label f ∧ OpPlain label f op
def PlainAll (label : Json) : List Expr → Prop
  | [] => True
  | e :: es => Plain label e ∧ PlainAll label es
end

end Verif.Tools
