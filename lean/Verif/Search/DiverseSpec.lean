import Verif.Search.DiverseModel
import Mathlib.Algebra.Order.Field.Basic
import Mathlib.LinearAlgebra.Matrix.Determinant.Basic

/-! Specification vocabulary for C82: the diversity selection. -/

namespace Verif.Diversity

variable {K : Type} [Field K] [LinearOrder K]

/-- The inner product of two vectors. -/
def inner (x y : List K) : K := (List.zipWith (· * ·) x y).sum

/-- The Gram matrix of the vectors numbered by `l`. -/
def gram (x : Nat → List K) (l : List Nat) : Matrix (Fin l.length) (Fin l.length) K :=
  Matrix.of fun a b => inner (x l[a]) (x l[b])

/-- The relevance of a distance `d`, given the least and greatest distance: 1 for the closest, 0 for the
farthest, with `ε` as the least span and added to the result. -/
def relevance (ε lo hi d : K) : K := max ((hi - d) / max (hi - lo) ε) 0 + ε

/-- Row `i` scaled by the power of its relevance. -/
def scaled (pow : K → K → K) (ε power lo hi : K) (rows : List (List K)) (distances : List K) (i : Nat) : List K :=
  (rows.getD i []).map (· * pow (relevance ε lo hi (distances.getD i 0)) power)

/-- `lo` and `hi` are the least and the greatest of `distances`. -/
structure IsRange (distances : List K) (lo hi : K) : Prop where
  lo_mem : lo ∈ distances
  hi_mem : hi ∈ distances
  lo_le : ∀ d ∈ distances, lo ≤ d
  le_hi : ∀ d ∈ distances, d ≤ hi

/-- `sel` is the greedy selection of `n` vectors: each next one, together with those before it, has the
greatest Gram determinant; of several, it is the last. -/
def IsGreedy (x : Nat → List K) (n : Nat) (sel : List Nat) : Prop :=
  ∀ t j, (ht : t < sel.length) → j < n → j ∉ sel.take t →
    (gram x (sel.take t ++ [j])).det ≤ (gram x (sel.take t ++ [sel[t]])).det ∧
    ((gram x (sel.take t ++ [j])).det = (gram x (sel.take t ++ [sel[t]])).det → j ≤ sel[t])

/-- Arithmetic without rounding. The infinities are bounds of the distances at hand. -/
def exact (pow : K → K → K) (sqrt : K → K) (ε lo hi : K) : Arith K where
  zero := 0
  one := 1
  epsilon := ε
  posInf := hi
  negInf := lo
  add := (· + ·)
  sub := (· - ·)
  mul := (· * ·)
  div := (· / ·)
  min := min
  max := max
  pow := pow
  sqrt := sqrt
  dot := inner
  cmp a b := some (if a < b then .lt else if b < a then .gt else .eq)
  finite _ := true

end Verif.Diversity
