import Verif.Harness.Model

/-! # What batched builds and searches should do -/

namespace Verif.Harness

/-- The numbers `0 .. max` cut into batches of `batch`. -/
def cut (max batch : Nat) : List Rng :=
  (List.range ((max + batch - 1) / batch)).map fun k => (k * batch, min ((k + 1) * batch) max)

/-- The numbers `lo .. hi` cut into batches of `batch`, counted from `lo`. -/
def cutFrom (lo hi batch : Nat) : List Rng := (cut (hi - lo) batch).map fun r => (lo + r.1, lo + r.2)

/-- The data points of ranges, in their order. -/
def points (rs : List Rng) : List Nat := rs.flatMap fun r => List.range' r.1 (r.2 - r.1)

/-- The batches a task has started: those built, then the one in work or failed. -/
def Worker.started {O : Type} (w : Worker O) : List Rng :=
  w.results.map (·.1) ++ match w.pc with
    | .building r => [r]
    | .failed r => [r]
    | _ => []

/-- A task that still has something to do. -/
def Worker.busy {O : Type} (w : Worker O) : Prop := w.pc ≠ .done ∧ ∀ r, w.pc ≠ .failed r

/-- A schedule that picks only tasks that have something to do. -/
def Effective {O : Type} (max batch : Nat) : Dyn O → List (Nat × Option O) → Prop
  | _, [] => True
  | s, x :: xs => (∃ w, s.workers[x.1]? = some w ∧ w.busy) ∧ Effective max batch (s.step max batch x) xs

/-- The ids a search wrote. -/
def Write.ids {I : Type} : Write I → List I
  | .push id => [id]
  | .extend ids => ids

/-- The row of ids a caller should see for a query that made the writes `ws`: all, or as many as fit. -/
def row {I : Type} (count : IdCount) (ws : List (Write I)) : List I :=
  match count with
  | .fixed n => (ws.flatMap Write.ids).take n
  | .dynamic => ws.flatMap Write.ids

/-- Ids as the parts of a search have them: one length for each row, rows of the same width. -/
def Ids.ok {I : Type} : Ids I → Prop
  | .fixed cols rows lengths => rows.length = lengths.length ∧ ∀ r ∈ rows, r.length = cols
  | .dynamic _ => True

end Verif.Harness
