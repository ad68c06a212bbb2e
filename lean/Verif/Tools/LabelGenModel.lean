import Mathlib.Data.List.Basic
import Mathlib.Logic.Function.Basic

/-!
# Generated label files, and base and query labels

Sources: /repo/diskann-tools/src/utils/generate_synthetic_labels_utils.rs 16-127; multi_label.rs 8-80.

The random choices are arbitrary: `coin i j` is the draw for point `i` and label `j`, `pick i` the label drawn for point
`i`.  The iteration order of the hash map of the Zipf distribution is an arbitrary list `order` of the labels; it does not
change, since entries are only updated in place.  The text of a file is a list of tokens: a number stands for its decimal
digits.  The factor 0.7 is exact.  A panic is an outcome.  Writes do not fail.
-/

namespace Verif.Tools.LabelGen

/-- What is written: a number, a comma, a line end. -/
inductive Tok
  | num (n : Nat)
  | comma
  | newline
deriving DecidableEq, Repr

/-- The names of the distributions. -/
inductive Dist
  | zipf
  | random
  | onePerPoint
  | other
deriving DecidableEq, Repr

/-- How a call ends. -/
inductive End
  | ok
  | panic
deriving DecidableEq, Repr

/-- The random choices and the order of the hash map. -/
structure Rand where
  coin : Nat → Nat → Bool
  pick : Nat → Nat
  order : List Nat

/-- `create_distribution_map`, 31-40: the number of uses of a label; `as u32` saturates. -/
def freqMap (n : Nat) (label : Nat) : Nat := min (7 * n / 10) (2 ^ 32 - 1) / label

/-- The loop over the labels of a point, 48-68: the tokens, whether one was written, and the remaining uses. -/
def zipfLoop (coin : Nat → Bool) : List Nat → (Nat → Nat) → Bool → List Tok × Bool × (Nat → Nat)
  | [], f, w => ([], w, f)
  | j :: js, f, w =>
    if coin j && decide (0 < f j) then
      let (ts, w', f') := zipfLoop coin js (Function.update f j (f j - 1)) true
      ((if w then [Tok.comma] else []) ++ Tok.num j :: ts, w', f')
    else zipfLoop coin js f w

/-- `write_distribution`, 42-79: the points from `i` on. -/
def zipfPoints (r : Rand) (n : Nat) : Nat → Nat → (Nat → Nat) → List Tok
  | 0, _, _ => []
  | k + 1, i, f =>
    let (ts, w, f') := zipfLoop (r.coin i) r.order f false
    ts ++ (if w then [] else [Tok.num 0]) ++ (if i < n - 1 then [Tok.newline] else []) ++ zipfPoints r n k (i + 1) f'

/-- The loop over the labels of a point, 98-107. -/
def randomLoop (coin : Nat → Bool) : List Nat → Bool → List Tok × Bool
  | [], w => ([], w)
  | j :: js, w =>
    if coin j then
      let (ts, w') := randomLoop coin js true
      ((if w then [Tok.comma] else []) ++ Tok.num j :: ts, w')
    else randomLoop coin js w

/-- The points of the random distribution, 96-114. -/
def randomPoints (r : Rand) (n l : Nat) : Nat → Nat → List Tok
  | 0, _ => []
  | k + 1, i =>
    let (ts, w) := randomLoop (r.coin i) (List.range' 1 l) false
    ts ++ (if w then [] else [Tok.num 0]) ++ (if i < n - 1 then [Tok.newline] else []) ++ randomPoints r n l k (i + 1)

/-- The points with one label, 116-122. -/
def onePoints (r : Rand) (n : Nat) : Nat → Nat → List Tok
  | 0, _ => []
  | k + 1, i => [Tok.num (r.pick i)] ++ (if i ≠ n - 1 then [Tok.newline] else []) ++ onePoints r n k (i + 1)

/-- `generate_labels`, 82-127; `random_range` of an empty range panics. -/
def generate (r : Rand) (d : Dist) (n l : Nat) : End × List Tok :=
  match d with
  | .zipf => (.ok, zipfPoints r n n 0 (freqMap n))
  | .random => (.ok, randomPoints r n l n 0)
  | .onePerPoint => if 0 < n ∧ l = 0 then (.panic, []) else (.ok, onePoints r n n 0)
  | .other => (.ok, [])

/-! ## Base and query labels -/

abbrev Str := List Char

/-- `str::split` with one character. -/
def split (sep : Char) : Str → List Str
  | [] => [[]]
  | c :: cs =>
    if c = sep then [] :: split sep cs
    else
      match split sep cs with
      | [] => [[c]]
      | h :: t => (c :: h) :: t

/-- `str::trim` for a given notion of white space. -/
def trim (space : Char → Bool) (s : Str) : Str := ((s.dropWhile space).reverse.dropWhile space).reverse

/-- `from_base`, multi_label.rs 24-31: the set as a list. -/
def fromBase (space : Char → Bool) (s : Str) : List Str := (split ',' s).map (trim space)

/-- `from_query`, multi_label.rs 34-45. -/
def fromQuery (space : Char → Bool) (s : Str) : List (List Str) :=
  (split '&' s).map (fun t => (split '|' t).map (trim space))

/-- `is_subset_of`, multi_label.rs 63-78. -/
def isSubsetOf (query : List (List Str)) (base : List Str) : Bool :=
  match query with
  | [] => true
  | c :: cs => if c.any (fun l => base.contains l) then isSubsetOf cs base else false

end Verif.Tools.LabelGen
