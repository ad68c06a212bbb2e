import Verif.Queue.Model

/-! Specification vocabulary for C01–C04. -/

namespace Verif.Queue

variable {I D : Type} [DecidableEq I] [LinearOrder D]

/-- The candidates of a fed sequence that count: NaN distances are dropped. -/
def comparable (xs : List (I × Option D)) : List (I × D) :=
  xs.filterMap fun x => x.2.map fun d => (x.1, d)

/-- The best `l` candidates of a fed sequence: stable sort by distance of the sequence read newest
first (so that among equal distances the newest comes first), cut to `l`. -/
def bestOf (l : Nat) (xs : List (I × Option D)) : List (I × D) :=
  ((comparable xs).reverse.insertionSort (fun a b => a.2 ≤ b.2)).take l

/-- What a queue currently stores, best first. -/
def Queue.contents (q : Queue I D) : List (I × D) := q.entries.map fun e => (e.id, e.dist)

/-- Feed a sequence of candidates; `none` if some insertion panicked. -/
def feed (pad : D) (q : Queue I D) (xs : List (I × Option D)) : Option (Queue I D) :=
  xs.foldlM (fun q x => q.insert pad x.1 x.2) q

/-- The operations of a search over a candidate list. -/
inductive Op (I D : Type) where
  | insert (id : I) (d : Option D)
  | pop
  | reconfigure (l : Nat)
  | clear

/-- Run a history; returns the final queue and the candidates popped since the last `clear`
(oldest first); `none` if something panicked. -/
def step (pad : D) (s : Queue I D × List I) : Op I D → Option (Queue I D × List I)
  | .insert id d => (s.1.insert pad id d).map fun q => (q, s.2)
  | .pop => s.1.pop.map fun r => (r.2, match r.1 with | some x => s.2 ++ [x.1] | none => s.2)
  | .reconfigure l => some (s.1.reconfigure l, s.2)
  | .clear => some (s.1.clear, [])

def run (pad : D) (s : Queue I D × List I) (ops : List (Op I D)) : Option (Queue I D × List I) :=
  ops.foldlM (step pad) s

/-- Histories allowed by the caller contract: windows are at least one wide. -/
def Op.ok : Op I D → Bool
  | .reconfigure l => decide (1 ≤ l)
  | _ => true

/-- The ids inserted after the last `clear`, oldest first. -/
def insertedIds : List (Op I D) → List I :=
  List.foldl (fun acc op => match op with
    | .insert id (some _) => acc ++ [id]
    | .clear => []
    | _ => acc) []

end Verif.Queue
