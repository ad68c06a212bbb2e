import Verif.Queue.Model

/-!
# Exhaustive search over quantized vectors

Source: /repo/diskann-benchmark/src/exhaustive/algos.rs 42-99 (`linear_search`), its caller
/repo/diskann-benchmark/src/exhaustive/product.rs 148-176 (the same in spherical.rs and minmax.rs),
/repo/diskann-benchmark/src/inputs/exhaustive.rs 42-85 (`SearchValues::validate`) and
/repo/diskann-benchmark/src/utils/recall.rs 43-73 (`compute_multiple_recalls`).

A query computer on a store is the list of the distances of the stored vectors, in their order; a NaN is `none`. The times and
the progress bar are not modelled. A `none` outside is a panic. -/

namespace Verif.Bench.Linear

open Verif.Queue

section

variable {Q E D : Type} [LinearOrder D]

/-- `u32::MAX`, algos.rs 54. -/
def filler : Nat := 4294967295

/-- The loop over the store, 75-78; `pad` is the zero of `Queue.insert`. `j as u32` keeps the low 32 bits. -/
def scan (pad : D) : Nat → Queue Nat D → List (Option D) → Option (Queue Nat D)
  | _, q, [] => some q
  | j, q, d :: ds =>
    match q.insert pad (j % 4294967296) d with
    | none => none
    | some q => scan pad (j + 1) q ds

/-- `zip(o.iter_mut(), queue.iter()).for_each(..)`, 82-83. -/
def writeIds : List Nat → List Nat → List Nat
  | [], _ => []
  | o, [] => o
  | _ :: o, i :: is => i :: writeIds o is

/-- One query, 68-86: the row of the output afterwards. -/
def searchRow (pad : D) (k : Nat) (builder : Q → Except E (List (Option D))) (o : List Nat) (q : Q) :
    Option (Except E (List Nat)) :=
  match builder q with
  | .error e => some (.error e)
  | .ok ds =>
    match scan pad 0 (Queue.new k) ds with
    | none => none
    | some queue => some (.ok (writeIds o (queue.iter.map (·.1))))

/-- The rows in the order in which the threads take them; the first error ends the search, 87. -/
def searchRows (pad : D) (k : Nat) (builder : Q → Except E (List (Option D))) (queries : List Q) :
    List Nat → List (List Nat) → Option (Except E (List (List Nat)))
  | [], rows => some (.ok rows)
  | i :: order, rows =>
    match queries[i]?, rows[i]? with
    | some q, some o =>
      match searchRow pad k builder o q with
      | none => none
      | some (.error e) => some (.error e)
      | some (.ok row) => searchRows pad k builder queries order (rows.set i row)
    | _, _ => searchRows pad k builder queries order rows

/-- `linear_search`, 42-99: the ids. `par_chunks_exact` panics if the rows of the output or of the queries have no columns;
`dim` is the number of columns of the queries. -/
def linearSearch (pad : D) (k dim : Nat) (builder : Q → Except E (List (Option D))) (queries : List Q) (order : List Nat) :
    Option (Except E (List (List Nat))) :=
  if k = 0 ∨ dim = 0 then none
  else searchRows pad k builder queries order (List.replicate queries.length (List.replicate k filler))

end

/-- `SearchValues`, inputs/exhaustive.rs 36-40. -/
structure Values where
  recallK : List Nat
  recallN : List Nat
deriving DecidableEq, Repr

/-- `Vec::dedup`: of equal neighbours the first is kept. -/
def dedup : List Nat → List Nat
  | [] => []
  | x :: xs =>
    match dedup xs with
    | [] => [x]
    | y :: ys => if x = y then y :: ys else x :: y :: ys

/-- The errors of `validate`. -/
inductive ValuesErr
  | emptyK
  | emptyN
  | order (k n : Nat)
deriving DecidableEq, Repr

/-- `SearchValues::validate`, 43-85; `sort` is `sort_unstable`. The result has the values afterwards. -/
def validate (sort : List Nat → List Nat) (v : Values) : Except ValuesErr Unit × Values :=
  if v.recallK = [] then (.error .emptyK, v)
  else if v.recallN = [] then (.error .emptyN, v)
  else
    let v : Values := ⟨dedup (sort v.recallK), dedup (sort v.recallN)⟩
    match v.recallK.head? with
    | none => (.error .emptyK, v)
    | some k =>
      match v.recallN.getLast? with
      | none => (.error .emptyN, v)
      | some n => if k > n then (.error (.order k n), v) else (.ok (), v)

/-- The number of results the callers ask for, product.rs 148-154. -/
def resultsPerQuery (v : Values) : Option Nat := v.recallN.getLast?

/-- The loops of `compute_multiple_recalls`, recall.rs 55-71: the pairs for which a recall is computed, in order. -/
def recallPairs (v : Values) : List (Nat × Nat) :=
  v.recallK.flatMap fun k => v.recallN.filterMap fun n => if k > n then none else some (k, n)

end Verif.Bench.Linear
