import Mathlib.Data.List.Basic

/-!
# Model of the diversity selection

`diskann-providers/src/model/graph/provider/determinant_diversity.rs`, and the post-processor of the
in-memory provider that uses it (`async_/inmem/full_precision.rs:403–467`).

The arithmetic of `f32` is a parameter (`Arith`): any carrier with any operations, so that the theorems
about which rows are returned hold with rounding, infinities and NaN; the theorems about determinants
instantiate it with an ordered field. A matrix is the list of its rows. Reading a row or an element that
does not exist is a panic, `none`.
-/

namespace Verif.Diversity

/-- The arithmetic used: `f32` operations, constants, `powf`, `sqrt`, the inner product kernel,
`partial_cmp` and `is_finite`. -/
structure Arith (K : Type) where
  zero : K
  one : K
  epsilon : K
  posInf : K
  negInf : K
  add : K → K → K
  sub : K → K → K
  mul : K → K → K
  div : K → K → K
  min : K → K → K
  max : K → K → K
  pow : K → K → K
  sqrt : K → K
  dot : List K → List K → K
  cmp : K → K → Option Ordering
  finite : K → Bool

variable {K : Type}

/-- `a <= b`. -/
def Arith.le (A : Arith K) (a b : K) : Bool := A.cmp a b == some .lt || A.cmp a b == some .eq

/-- `a < b`. -/
def Arith.lt (A : Arith K) (a b : K) : Bool := A.cmp a b == some .lt

/-- `DeterminantDiversityParams` (determinant_diversity.rs:80–85). -/
structure Params (K : Type) where
  power : K
  eta : K
deriving DecidableEq

/-- `DeterminantDiversityError` (determinant_diversity.rs:131–152), without the reported values. -/
inductive Err where
  | invalidPower
  | invalidEta
  | queryDimension
  | distanceCount
deriving DecidableEq

/-- `DeterminantDiversityParams::new` (determinant_diversity.rs:95–103). -/
def Params.new (A : Arith K) (power eta : K) : Except Err (Params K) :=
  if A.finite power = false ∨ A.le power A.zero = true then .error .invalidPower
  else if A.finite eta = false ∨ A.lt eta A.zero = true then .error .invalidEta
  else .ok ⟨power, eta⟩

/-- `DistanceRange` (determinant_diversity.rs:157–160). -/
structure Range (K : Type) where
  min : K
  max : K

/-- The distance range (determinant_diversity.rs:215–228). -/
def distanceRange (A : Arith K) (distances : List K) : Range K :=
  distances.foldl (fun r d => ⟨A.min r.min d, A.max r.max d⟩) ⟨A.posInf, A.negInf⟩

/-- `distance_to_similarity` (determinant_diversity.rs:453–458). -/
def similarity (A : Arith K) (d : K) (r : Range K) : K :=
  let span := A.max (A.sub r.max r.min) A.epsilon
  A.add (A.max (A.div (A.sub r.max d) span) A.zero) A.epsilon

/-- The scale of a row (determinant_diversity.rs:348–349). -/
def scaleOf (A : Arith K) (r : Range K) (power inv d : K) : K := A.mul (A.pow (similarity A d r) power) inv

/-- Step 0 (determinant_diversity.rs:347–355): scale the rows in place and record their squared norms. -/
def scaleRows (A : Arith K) (scale : K → K) : List K → Nat → List (List K) → List K → Option (List (List K) × List K)
  | [], _, rows, norms => some (rows, norms)
  | d :: ds, i, rows, norms =>
    match rows[i]? with
    | none => none
    | some row =>
      let row := row.map fun v => A.mul v (scale d)
      scaleRows A scale ds (i + 1) (rows.set i row) (norms ++ [A.dot row row])

/-- The loop state (determinant_diversity.rs:340–361). The scratch `projections` is overwritten in every
iteration and is not part of it. -/
structure St (K : Type) where
  rows : List (List K)
  norms : List K
  available : List Bool
  selected : List Nat

/-- One comparison of `max_by`: the later element wins unless the earlier one is greater. -/
def later (A : Arith K) (norms : List K) (best j : Nat) : Option Nat :=
  match norms[best]?, norms[j]? with
  | some a, some b => some (if (A.cmp a b).getD .eq = .gt then best else j)
  | _, _ => none

/-- Step 1 (determinant_diversity.rs:368–377): the available row with the largest norm. The outer `none` is
a panic, the inner one says that no row is available. -/
def pivot (A : Arith K) (norms : List K) (available : List Bool) : Option (Option Nat) :=
  match (List.range available.length).filter fun i => available[i]? == some true with
  | [] => some none
  | i :: is => (is.foldlM (later A norms) i).map some

/-- Step 2a for one row (determinant_diversity.rs:406–412). -/
def projection (A : Arith K) (s : St K) (star : List K) (inv : K) (i : Nat) : Option K :=
  match s.available[i]? with
  | none => none
  | some false => some A.zero
  | some true => s.rows[i]?.map fun row => A.mul (A.dot row star) inv

/-- Steps 2b and 3 for one row (determinant_diversity.rs:416–428). -/
def deflateRow (A : Arith K) (star : List K) (best : K) (projections : List K) (s : St K) (i : Nat) :
    Option (St K) :=
  match s.available[i]? with
  | none => none
  | some false => some s
  | some true =>
    match projections[i]?, s.rows[i]?, s.norms[i]? with
    | some p, some row, some n =>
      some { s with
        rows := s.rows.set i (List.zipWith (fun v t => A.sub v (A.mul p t)) row star)
        norms := s.norms.set i (A.max (A.sub n (A.mul (A.mul p p) best)) A.zero) }
    | _, _, _ => none

/-- Lines 391–428 of determinant_diversity.rs: deflate the available rows against the pivot. -/
def deflate (A : Arith K) (s : St K) (p : Nat) : Option (St K) :=
  match s.norms[p]? with
  | none => none
  | some best =>
    if A.le best A.zero = true then some s
    else
      match s.rows[p]? with
      | none => none
      | some star =>
        match (List.range s.rows.length).mapM (projection A s star (A.div A.one best)) with
        | none => none
        | some projections => (List.range s.rows.length).foldlM (deflateRow A star best projections) s

/-- The main loop (determinant_diversity.rs:363–429) with the number of iterations left. -/
def loop (A : Arith K) (k : Nat) : Nat → St K → Option (St K)
  | 0, s => some s
  | n + 1, s =>
    match pivot A s.norms s.available with
    | none => none
    | some none => some s
    | some (some p) =>
      let s := { s with selected := s.selected ++ [p], available := s.available.set p false }
      if s.selected.length = k then some s
      else (deflate A s p).bind (loop A k n)

/-- `greedy_orthogonal_select` (determinant_diversity.rs:326–432). -/
def greedy (A : Arith K) (rows : List (List K)) (distances : List K) (k : Nat) (scale : K → K) : Option (List Nat) :=
  let n := rows.length
  let k := Nat.min k n
  if k = 0 then some []
  else
    match scaleRows A scale distances 0 rows [] with
    | none => none
    | some (rows, norms) => (loop A k k ⟨rows, norms, List.replicate n true, []⟩).map (·.selected)

/-- `inv_sqrt_eta` (determinant_diversity.rs:232–236). -/
def invSqrtEta (A : Arith K) (eta : K) : K := if A.lt A.zero eta = true then A.div A.one (A.sqrt eta) else A.one

/-- `determinant_diversity` (determinant_diversity.rs:187–246). -/
def determinantDiversity (A : Arith K) (rows : List (List K)) (ncols : Nat) (distances : List K) (query : List K)
    (k : Nat) (params : Params K) : Option (Except Err (List Nat)) :=
  if ncols ≠ query.length then some (.error .queryDimension)
  else if distances.length ≠ rows.length then some (.error .distanceCount)
  else
    let k := Nat.min k rows.length
    if k = 0 ∨ ncols = 0 then some (.ok [])
    else
      (greedy A rows distances k
        (scaleOf A (distanceRange A distances) params.power (invSqrtEta A params.eta))).map .ok

/-! ## Users -/

/-- Fill the candidate matrix (full_precision.rs:437–448): every vector must exist and have the dimension of
the query. -/
def gather (store : Nat → Option (List K)) (dim : Nat) : List (Nat × K) → Option (List (List K))
  | [] => some []
  | c :: cs =>
    match store c.1 with
    | none => none
    | some v => if v.length = dim then (gather store dim cs).map (v :: ·) else none

/-- The candidates in selection order (full_precision.rs:461–463). -/
def reorder (cands : List (Nat × K)) (order : List Nat) : Option (List (Nat × K)) := order.mapM fun i => cands[i]?

/-- `DeterminantDiversity::post_process` (full_precision.rs:423–466): what is handed to `output.extend` (C18). -/
def postProcess (A : Arith K) (store : Nat → Option (List K)) (query : List K) (params : Params K)
    (cands : List (Nat × K)) : Option (Except Err (List (Nat × K))) :=
  match gather store query.length cands with
  | none => none
  | some rows =>
    match determinantDiversity A rows query.length (cands.map (·.2)) query cands.length params with
    | none => none
    | some (.error e) => some (.error e)
    | some (.ok order) => (reorder cands order).map .ok

/-- The selection of a diverse disk search (disk_provider.rs:556–581) on the loaded vectors, which must have
the dimension of the query. `limit` is `usize::MAX`. -/
def diskSelect (A : Arith K) (query : List K) (params : Params K) (limit : Nat) (rows : List (List K × K)) :
    Option (Except Err (List Nat)) :=
  if ∀ r ∈ rows, r.1.length = query.length then
    determinantDiversity A (rows.map (·.1)) query.length (rows.map (·.2)) query limit params
  else none

end Verif.Diversity
