import Verif.Label.EncodedModel
/-
Specification vocabulary for encoded attributes: what a document has after a history of operations, when a document
satisfies a filter, and when two values are the same.  Nothing here mentions ids or sets of ids.
-/
namespace Verif.Label.Encoded

/-- Two attribute values are the same: same kind and same value; all NaNs are the same, and `-0.0` is `0.0`. -/
def SameValue : AttrVal → AttrVal → Prop
  | .bool a, .bool b => a = b
  | .int a, .int b => a = b
  | .str a, .str b => a = b
  | .empty, .empty => True
  | .real a, .real b => (fNaN a ∧ fNaN b) ∨ (¬ fNaN a ∧ ¬ fNaN b ∧ fVal a = fVal b)
  | _, _ => False

/-- One operation on the attributes of vectors. -/
inductive AOp
  | set (id : Nat) (attrs : List Attr)
  | del (id : Nat)

/-- The attributes of every vector after an operation: setting no attribute at all is refused. -/
def docsStep (D : Nat → Option (List Attr)) : AOp → Nat → Option (List Attr)
  | .set id attrs => fun i => if i = id ∧ attrs ≠ [] then some attrs else D i
  | .del id => fun i => if i = id then none else D i

/-- The attributes of every vector after a history. -/
def docsAfter (ops : List AOp) : Nat → Option (List Attr) := ops.foldl docsStep (fun _ => none)

/-- The store after an operation, and after a history. -/
def stepOp (s : AStore) : AOp → AStore
  | .set id attrs => (s.setElement id attrs).1
  | .del id => (s.delete id).1

def runOps (ops : List AOp) : AStore := ops.foldl stepOp AStore.new

/-- A document has the value `v` in `field`. -/
def Has (attrs : List Attr) (field : Bytes) (v : AttrVal) : Prop := ∃ p ∈ attrs, p.1 = field ∧ SameValue p.2 v

/-- Some document ever had the value `v` in `field`. -/
def EverHad (ops : List AOp) (field : Bytes) (v : AttrVal) : Prop :=
  ∃ id attrs, AOp.set id attrs ∈ ops ∧ Has attrs field v

mutual
/-- A document satisfies a filter made of equalities. -/
def Sat (attrs : List Attr) : Expr → Prop
  | .and es => SatAll attrs es
  | .or es => SatAny attrs es
  | .not e => ¬ Sat attrs e
  | .cmp f (.eq v) => ∃ a, tryFrom v = some a ∧ Has attrs f a
  | .cmp _ _ => False
def SatAll (attrs : List Attr) : List Expr → Prop
  | [] => True
  | e :: es => Sat attrs e ∧ SatAll attrs es
def SatAny (attrs : List Attr) : List Expr → Prop
  | [] => False
  | e :: es => Sat attrs e ∨ SatAny attrs es
end

mutual
/-- The comparisons of a filter. -/
def cmps : Expr → List (Bytes × CmpOp)
  | .and es => cmpsAll es
  | .or es => cmpsAll es
  | .not e => cmps e
  | .cmp f op => [(f, op)]
def cmpsAll : List Expr → List (Bytes × CmpOp)
  | [] => []
  | e :: es => cmps e ++ cmpsAll es
end

/-- A comparison the encoded search accepts: an equality with a boolean, number or string that some document ever had
in that field. -/
def Known (ops : List AOp) (c : Bytes × CmpOp) : Prop := ∃ v a, c.2 = .eq v ∧ tryFrom v = some a ∧ EverHad ops c.1 a

/-- The values fit their machine types. -/
def OpValid : AOp → Prop
  | .set _ attrs => ∀ p ∈ attrs, p.2.valid
  | .del _ => True

/-- The constants of a filter fit their machine types. -/
def CmpValid (c : Bytes × CmpOp) : Prop := ∀ v a, c.2 = .eq v → tryFrom v = some a → a.valid

/-- A candidate of a search: the operations since the query was encoded, the vector, its distance. -/
abbrev Cand (K : Type) := List AOp × Nat × K

/-- The candidate with the index of its time, for a query encoded after `ops`. -/
def Cand.seen {K : Type} (ops : List AOp) (c : Cand K) : Sets × Nat × K := ((runOps (ops ++ c.1)).index, c.2)

/-- The candidate is a document that satisfies the filter at its time. -/
def Cand.Matches {K : Type} (ops : List AOp) (e : Expr) (c : Cand K) : Prop :=
  ∃ attrs, docsAfter (ops ++ c.1) c.2.1 = some attrs ∧ Sat attrs e

/-- The candidate has attributes at its time. -/
def Cand.Labelled {K : Type} (ops : List AOp) (c : Cand K) : Prop := docsAfter (ops ++ c.1) c.2.1 ≠ none

/-- One operation on documents. -/
inductive DOp
  | set (id : Nat) (attrs : List Attr)
  | delete (id : Nat)
  | release (id : Nat)

/-- The provider after an operation, and after a history; `after` is what the data provider says about an id that was
never set or was released. -/
def docStep (after : Option Status) (p : Docs2) : DOp → Docs2
  | .set id attrs => (p.set id attrs).1
  | .delete id => p.delete id
  | .release id => p.release after id

def docRun (after : Option Status) (ops : List DOp) : Docs2 := ops.foldl (docStep after) ⟨fun _ => after, AStore.new⟩

/-- Where a document is in its life. -/
inductive Life
  | absent
  | live
  /-- deleted, not yet released -/
  | dead
  /-- deleted without ever having been set -/
  | gone
deriving DecidableEq, Repr

def lifeStep (L : Nat → Life) : DOp → Nat → Life
  | .set id attrs => fun i => if i = id ∧ attrs ≠ [] then .live else L i
  | .delete id => fun i => if i = id then (if L i = .live ∨ L i = .dead then .dead else .gone) else L i
  | .release id => fun i => if i = id then .absent else L i

def lifeAfter (ops : List DOp) : Nat → Life := ops.foldl lifeStep (fun _ => .absent)

end Verif.Label.Encoded
