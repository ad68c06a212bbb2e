import Verif.Label.IndexModel
/-
Specification vocabulary for the inverted index: histories of documents, what a history leaves, and the labels and
filters for which the index is claimed to agree with direct evaluation.
-/
namespace Verif.Label

/-- An operation of a client, on documents given by their attributes. -/
inductive IOp
  | insert (doc : Nat) (attrs : Attrs)
  | delete (doc : Nat)
  | update (doc : Nat) (attrs : Attrs)

def applyOp (st : Store) : IOp → Res Store
  | .insert d a => insertDoc st d a
  | .delete d => deleteDoc st d
  | .update d a => updateDoc st d a

/-- A history on the index, from the empty store. -/
def runOps : Store → List IOp → Res Store
  | st, [] => .ok st
  | st, o :: os =>
    match applyOp st o with
    | .ok st' => runOps st' os
    | .err => .err
    | .panic => .panic

/-- The documents a client expects. -/
abbrev Docs := Nat → Option Attrs

def setDoc (D : Docs) (d : Nat) (a : Option Attrs) : Docs := fun i => if i = d then a else D i

def docsOp (D : Docs) : IOp → Docs
  | .insert d a => setDoc D d (some a)
  | .delete d => setDoc D d none
  | .update d a => setDoc D d (some a)

def docsAfter (D : Docs) (ops : List IOp) : Docs := ops.foldl docsOp D

/-- Attributes the index can hold: fields without a NUL byte, values other than `Empty`, sizes below `2^32`. -/
structure AttrsOk (attrs : Attrs) : Prop where
  count : attrs.length < 4294967296
  size : ∀ p ∈ attrs, (encKey p.1 p.2).length < 4294967296
  noNul : ∀ p ∈ attrs, 0 ∉ p.1
  valid : ∀ p ∈ attrs, p.2.valid
  notEmpty : ∀ p ∈ attrs, p.2 ≠ .empty

/-- An allowed operation: ids below `2^32`, and `insert` only for a document that is not present. -/
def OpOk (D : Docs) : IOp → Prop
  | .insert d a => d < 4294967296 ∧ AttrsOk a ∧ D d = none
  | .delete _ => True
  | .update d a => d < 4294967296 ∧ AttrsOk a

def OpsOk : Docs → List IOp → Prop
  | _, [] => True
  | D, o :: os => OpOk D o ∧ OpsOk (docsOp D o) os

/-- An operation of a client on JSON labels. -/
inductive LOp
  | insert (doc : Nat) (label : Json)
  | delete (doc : Nat)
  | update (doc : Nat) (label : Json)

/-- The labels a client expects. -/
def labelsOp (L : Nat → Option Json) : LOp → Nat → Option Json
  | .insert d l => fun i => if i = d then some l else L i
  | .delete d => fun i => if i = d then none else L i
  | .update d l => fun i => if i = d then some l else L i

def labelsAfter (ops : List LOp) : Nat → Option Json := ops.foldl labelsOp (fun _ => none)

/-- Flatten the label of a document and pass it to the index. -/
def applyLOp (st : Store) : LOp → Res Store
  | .insert d l => match flattenMap l with | some a => insertDoc st d a | none => .panic
  | .delete d => deleteDoc st d
  | .update d l => match flattenMap l with | some a => updateDoc st d a | none => .panic

def runLOps : Store → List LOp → Res Store
  | st, [] => .ok st
  | st, o :: os =>
    match applyLOp st o with
    | .ok st' => runLOps st' os
    | .err => .err
    | .panic => .panic

/-- A number that JSON equality and the index treat alike: an integer in the `i64` range, or a finite double
other than `-0.0`. -/
def NumOk : JNum → Prop
  | .pos n => n < 9223372036854775808
  | .neg n => -9223372036854775808 ≤ n ∧ n < 0
  | .flt b => b < 18446744073709551616 ∧ fExp b ≠ 2047 ∧ b ≠ negZero

/-- A field name of a label: no `.`, no `/`, no NUL. -/
def NameOk (k : Bytes) : Prop := 46 ∉ k ∧ 47 ∉ k ∧ 0 ∉ k

mutual
/-- A label of nested objects with distinct names and scalar leaves: no arrays, no nulls. -/
def LabelOk : Json → Prop
  | .obj kvs => LabelEntriesOk kvs
  | .bool _ => True
  | .num n => NumOk n
  | .str s => ∀ c ∈ s, c < 256
  | .null => False
  | .arr _ => False
def LabelEntriesOk : List (Bytes × Json) → Prop
  | [] => True
  | (k, v) :: rest => NameOk k ∧ k ∉ rest.map (·.1) ∧ LabelOk v ∧ LabelEntriesOk rest
end

/-- A query constant of an equality. -/
def ConstOk : Json → Prop
  | .num n => NumOk n
  | .str s => ∀ c ∈ s, c < 256
  | _ => True

/-- A range bound: a double other than `-0.0` with an integer value below `2^53` in magnitude. -/
def BoundOk (b : Nat) : Prop :=
  b < 18446744073709551616 ∧ fExp b ≠ 2047 ∧ b ≠ negZero ∧
    ∃ n : Int, -9007199254740992 < n ∧ n < 9007199254740992 ∧ fVal b = n * 2 ^ 1074

def CmpOk : CmpOp → Prop
  | .eq v => ConstOk v
  | .ne _ => True
  | .lt b => BoundOk b
  | .lte b => BoundOk b
  | .gt b => BoundOk b
  | .gte b => BoundOk b

mutual
/-- Filters on which index and direct evaluation are claimed to agree: no empty conjunction, no `/` or NUL in a field,
constants in range. -/
def FilterOk : Expr → Prop
  | .and es => es ≠ [] ∧ FiltersOk es
  | .or es => FiltersOk es
  | .not _ => True
  | .cmp f op => 47 ∉ f ∧ 0 ∉ f ∧ CmpOk op
def FiltersOk : List Expr → Prop
  | [] => True
  | e :: es => FilterOk e ∧ FiltersOk es
end

/-- The field of the label is not a double equal to the bound. -/
def NoTie (label : Json) (field : Bytes) (b : Nat) : Prop :=
  ∀ x, getByPath label field = some (.num (.flt x)) → fVal x ≠ fVal b

mutual
/-- No double of the label equals the bound of a `$gt` or `$lte` on its field. -/
def NoTies (label : Json) : Expr → Prop
  | .and es => NoTiesAll label es
  | .or es => NoTiesAll label es
  | .not _ => True
  | .cmp f (.gt b) => NoTie label f b
  | .cmp f (.lte b) => NoTie label f b
  | .cmp _ _ => True
def NoTiesAll (label : Json) : List Expr → Prop
  | [] => True
  | e :: es => NoTies label e ∧ NoTiesAll label es
end

mutual
/-- Filters the index can evaluate: no `$not`, no `$ne`, equality only with scalars. -/
def Supported : Expr → Prop
  | .and es => SupportedAll es
  | .or es => SupportedAll es
  | .not _ => False
  | .cmp _ (.ne _) => False
  | .cmp _ (.eq v) => ∃ a, tryFrom v = some a
  | .cmp _ _ => True
def SupportedAll : List Expr → Prop
  | [] => True
  | e :: es => Supported e ∧ SupportedAll es
end

/-- Allowed operations on labels: ids below `2^32`, `insert` only for a document that is not present, and sizes
below `2^32`. -/
def LOpOk (L : Nat → Option Json) : LOp → Prop
  | .insert d l => d < 4294967296 ∧ LabelOk l ∧ L d = none ∧
      ∀ a, flattenMap l = some a → a.length < 4294967296 ∧ ∀ p ∈ a, (encKey p.1 p.2).length < 4294967296
  | .delete _ => True
  | .update d l => d < 4294967296 ∧ LabelOk l ∧
      ∀ a, flattenMap l = some a → a.length < 4294967296 ∧ ∀ p ∈ a, (encKey p.1 p.2).length < 4294967296

def LOpsOk : (Nat → Option Json) → List LOp → Prop
  | _, [] => True
  | L, o :: os => LOpOk L o ∧ LOpsOk (labelsOp L o) os

end Verif.Label
