import Verif.Label.QueryModel
/-
What a filter document says, read off the document itself: an object requires all its entries.
-/
namespace Verif.Label

/-- `field: {op: val}` holds of a label. -/
def CondHolds (label : Json) (field op : Bytes) (val : Json) : Prop :=
  ∃ v, getByPath label field = some v ∧
    ((op = lit "$eq" ∧ jeq v val = true) ∨ (op = lit "$ne" ∧ jeq v val = false) ∨
     (op = lit "$lt" ∧ ∃ a b, v.asF64 = some a ∧ val.asF64 = some b ∧ fLt a b = true) ∨
     (op = lit "$lte" ∧ ∃ a b, v.asF64 = some a ∧ val.asF64 = some b ∧ fLe a b = true) ∨
     (op = lit "$gt" ∧ ∃ a b, v.asF64 = some a ∧ val.asF64 = some b ∧ fLt b a = true) ∨
     (op = lit "$gte" ∧ ∃ a b, v.asF64 = some a ∧ val.asF64 = some b ∧ fLe b a = true))

/-- A field whose condition is not an object must have that value. -/
def FieldIs (label : Json) (field : Bytes) (val : Json) : Prop :=
  ∃ v, getByPath label field = some v ∧ jeq v val = true

mutual
/-- The label satisfies the filter document: every entry of the object, and every condition of every entry. -/
def Meaning (label : Json) : Json → Prop
  | .obj kvs => MeaningEntries label kvs
  | _ => False
def MeaningEntries (label : Json) : List (Bytes × Json) → Prop
  | [] => True
  | (k, v) :: rest => MeaningEntry label k v ∧ MeaningEntries label rest
def MeaningEntry (label : Json) (k : Bytes) : Json → Prop
  | .arr xs =>
    if k = lit "$and" then MeaningAll label xs
    else if k = lit "$or" then MeaningAny label xs
    else FieldIs label k (.arr xs)
  | .obj kvs =>
    if k = lit "$not" then ¬ MeaningEntries label kvs
    else ∀ p ∈ kvs, CondHolds label k p.1 p.2
  | v => FieldIs label k v
def MeaningAll (label : Json) : List Json → Prop
  | [] => True
  | x :: xs => Meaning label x ∧ MeaningAll label xs
def MeaningAny (label : Json) : List Json → Prop
  | [] => False
  | x :: xs => Meaning label x ∨ MeaningAny label xs
end

def Json.isObj : Json → Bool
  | .obj _ => true
  | _ => false

mutual
/-- Every object of the document is either a single logical operator with its argument, or has only fields whose
conditions are objects. -/
def Simple : Json → Prop
  | .obj kvs => SimpleObj kvs
  | _ => False
def SimpleObj : List (Bytes × Json) → Prop
  | [] => True
  | (k, v) :: [] => SimpleOne k v
  | (k, v) :: p :: rest => ∀ q ∈ (k, v) :: p :: rest, q.1.head? ≠ some 36 ∧ q.2.isObj = true
def SimpleOne (k : Bytes) : Json → Prop
  | .arr xs => (k = lit "$and" ∨ k = lit "$or") ∧ SimpleList xs
  | .obj kvs => if k = lit "$not" then SimpleObj kvs else k.head? ≠ some 36
  | _ => False
def SimpleList : List Json → Prop
  | [] => True
  | x :: xs => Simple x ∧ SimpleList xs
end

end Verif.Label
