import Verif.Runner.CheckModel
/-
Specification of regression checks: paths in a JSON value, structural subsets, which tolerance applies to which input,
the best benchmark and the score of a sequence of penalties.
-/
namespace Verif.Runner

/-- A step from a JSON value to a part of it. -/
inductive Seg
  | idx (i : Nat)
  | key (k : String)

/-- The part of a value at a path. -/
def part : Json → List Seg → Option Json
  | v, [] => some v
  | .arr l, .idx i :: p => match l[i]? with
    | some w => part w p
    | none => none
  | .obj l, .key k :: p => match l.lookup k with
    | some w => part w p
    | none => none
  | _, _ :: _ => none

/-- Two parts agree: equal scalars, or both arrays, or both objects. -/
inductive Agree : Json → Json → Prop
  | null : Agree .null .null
  | bool (b : Bool) : Agree (.bool b) (.bool b)
  | num (n : Num) : Agree (.num n) (.num n)
  | str (s : String) : Agree (.str s) (.str s)
  | arr (a b : List Json) : Agree (.arr a) (.arr b)
  | obj (a b : List (String × Json)) : Agree (.obj a) (.obj b)

/-- `n` is a structural subset of `h`: every path of `n` is a path of `h`, and the parts there agree. -/
def Subset (h n : Json) : Prop := ∀ (p : List Seg) (v : Json), part n p = some v → ∃ w, part h p = some w ∧ Agree w v

/-- Every object has each key once, as in a `serde_json::Map`. -/
inductive Keys : Json → Prop
  | null : Keys .null
  | bool (b : Bool) : Keys (.bool b)
  | num (n : Num) : Keys (.num n)
  | str (s : String) : Keys (.str s)
  | arr (l : List Json) : (∀ x ∈ l, Keys x) → Keys (.arr l)
  | obj (l : List (String × Json)) : (l.map (·.1)).Nodup → (∀ p ∈ l, Keys p.2) → Keys (.obj l)

/-- A tolerance applies to an input: same tag, and its input is a structural subset of the actual one. -/
def Applies (c : RawCheck) (u : Unprocessed) : Prop := c.input.tag = u.tag ∧ Subset u.content c.input.content

/-- `a` is the best of `l`: it has a score, no other has a smaller one, and none before it has the same. -/
def IsBest {α : Type} (score : α → Option Nat) (l : List α) (a : α) : Prop :=
  ∃ (l₁ l₂ : List α) (s : Nat), l = l₁ ++ a :: l₂ ∧ score a = some s ∧
    (∀ b ∈ l₁, ∀ t, score b = some t → s < t) ∧ ∀ b ∈ l₂, ∀ t, score b = some t → s ≤ t

/-- The benchmark as a regression benchmark whose tolerances have the given tag. -/
def regWithTag {V : Type} (env : Env V) (tag : String) (b : Bench V) : Option (RegBench V) :=
  match b.kind with
  | .real ty _ (some g) => if env.tagOf g.tolTy = tag then some ⟨b, ty, g⟩ else none
  | _ => none

/-- What a benchmark does to its score. -/
inductive ScoreOp
  | penalize (n : Nat)
  | fail (n : Nat)

/-- A score after a sequence of operations. -/
def scoreAfter (s : Score) (ops : List ScoreOp) : Score :=
  ops.foldl (fun s o => match o with
    | .penalize n => s.penalize n
    | .fail n => s.fail n) s

/-- The penalties and the failures of a sequence. -/
def penalties (ops : List ScoreOp) : Nat := (ops.map fun o => match o with
  | .penalize n => n
  | .fail _ => 0).sum
def failures (ops : List ScoreOp) : List Nat := ops.filterMap fun o => match o with
  | .penalize _ => none
  | .fail n => some n

end Verif.Runner
