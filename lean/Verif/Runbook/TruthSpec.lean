import Mathlib.Data.Finset.Sort
import Verif.Runbook.ManagedSpec
import Verif.Runbook.TruthModel
import Verif.Tools.TruthSpec

/-! # What the ground truth of a runbook is -/

namespace Verif.Runbook.Spec

open Verif.Queue Verif.Tools Verif.Disk

variable {V Q D : Type} [LinearOrder D]

/-- The active tags with the distances of their vectors to a query. -/
def distances (dist : V → Q → Option D) (q : Q) (M : Nat → Option V) (A : Finset Nat) : List (Nat × Option D) :=
  (A.sort (· ≤ ·)).filterMap fun t => (M t).map fun v => (t, dist v q)

/-- A file holds the `k` nearest active tags of every query. -/
def IsTruth (bits : D → Nat) (dist : V → Q → Option D) (queries : List Q) (k : Nat) (M : Nat → Option V) (A : Finset Nat)
    (file : List Byte) : Prop :=
  ∃ rows : List (List (Nat × D)), rows.length = queries.length ∧
    loadTruth file = some (.ok ⟨rows.flatten.map (·.1), some (rows.flatten.map fun x => bits x.2), queries.length, k⟩) ∧
    ∀ (i : Nat) (q : Q), queries[i]? = some q → ∃ row, rows[i]? = some row ∧ row.length = k ∧
      IsNearest k (distances dist q M A) row

/-- What a stage writes. -/
def Written (bits : D → Nat) (dist : V → Q → Option D) (queries : List Q) (k : Nat) (M : Nat → Option V) (A : Finset Nat)
    (out : Option (List Char × List Byte)) : Stage → Prop
  | .search path => ∃ file, out = some (path, file) ∧ IsTruth bits dist queries k M A file
  | _ => out = none

/-- What all stages write. -/
def WrittenAll (bits : D → Nat) (data : List V) (dist : V → Q → Option D) (queries : List Q) (k : Nat) :
    (Nat → Option V) → Finset Nat → List Stage → List (Option (List Char × List Byte)) → Prop
  | _, _, [], outs => outs = []
  | M, A, g :: gs, outs => ∃ out rest, outs = out :: rest ∧ Written bits dist queries k M A out g ∧
      ∀ B, after A g = some B → WrittenAll bits data dist queries k (table data M g) B gs rest

/-- The data covers the stages, replacements have as many vectors as tags, tags fit 32 bits, searches come when there are
at least `k` active tags. -/
def Covered (data : List V) (k : Nat) : Finset Nat → List Stage → Prop
  | _, [] => True
  | A, g :: gs =>
    (match g with
      | .search _ => k ≤ A.card
      | .insert r => r.hi ≤ data.length ∧ r.hi ≤ 2 ^ 32
      | .replace o r => o.hi ≤ data.length ∧ o.hi - o.lo = r.hi - r.lo
      | .delete _ => True) ∧ ∀ B, after A g = some B → Covered data k B gs

end Verif.Runbook.Spec
