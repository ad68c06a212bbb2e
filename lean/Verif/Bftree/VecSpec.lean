/-
Specification for C117: calls on the vectors of a bf-tree provider, and what searches report.
-/
import Verif.Bftree.VecModel

namespace Verif.Bftree.Vecs.Spec

variable {V C : Type}

/-- The steps start no call that stores or deletes the vector `id`. -/
def Untouched (id : Nat) (run : List (Nat × Choice V)) : Prop := ∀ tc ∈ run, tc.2.starts ≠ some id

/-- No thread is inside a call on the vector `id`. -/
def Quiet (id : Nat) (th : Nat → Thread V) : Prop :=
  ∀ t, (∀ v, th t ≠ .setLocked id v ∧ th t ≠ .setFull id v) ∧ th t ≠ .delLocked id ∧ th t ≠ .delFull id

/-- Both stores hold vector `v` under `id`: the vector itself and its code. -/
def Holds (cfg : Cfg V C) (st : Store V C) (id : Nat) (v : V) : Prop :=
  st.full id = some v ∧ ∃ code, cfg.enc v = some code ∧ st.quant id = some code

/-- Neither store holds anything under `id`. -/
def Gone (st : Store V C) (id : Nat) : Prop := st.full id = none ∧ st.quant id = none

/-- The ids of the lists in order, each once, without those seen before. -/
def fresh (seen : List Nat) : List Nat → List Nat
  | [] => []
  | id :: ids => if id ∈ seen then fresh seen ids else id :: fresh (id :: seen) ids

/-- What a read yields if it yields something.  The pair is an id and the number of the read. -/
def foundOf {D : Type} (dist : Nat → Nat → Read D) (p : Nat × Nat) : Option (Nat × D) :=
  match dist p.2 p.1 with
  | .found d => some (p.1, d)
  | _ => none

/-- The read is not a hard error. -/
def fine {D : Type} (dist : Nat → Nat → Read D) (p : Nat × Nat) : Bool :=
  match dist p.2 p.1 with
  | .broken => false
  | _ => true

/-- Distances of the vectors in the stores, each read in the stores of its moment. -/
def fullDist {D : Type} (f : V → D) (moments : Nat → Store V C) (k id : Nat) : Read D :=
  match (moments k).full id with
  | some v => .found (f v)
  | none => .missing

/-- The same for codes. -/
def codeDist {D : Type} (f : C → D) (moments : Nat → Store V C) (k id : Nat) : Read D :=
  match (moments k).quant id with
  | some c => .found (f c)
  | none => .missing

end Verif.Bftree.Vecs.Spec
