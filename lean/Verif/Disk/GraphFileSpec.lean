import Verif.Disk.GraphFileModel
import Mathlib.Logic.Relation

/-! Specifications for C68 and C69. -/

namespace Verif.Disk

/-- The documented layout of a graph file (bin.rs:325–341): file size, maximum degree, start point and number of
start points, then for each point the length of its list and the list. -/
def graphFileBytes (maxDegree start numStart : Nat) (lists : List (List Nat)) : List Byte :=
  let body := (lists.map fun l => leEncode 4 l.length ++ (l.map (leEncode 4)).flatten).flatten
  leEncode 8 (24 + body.length) ++ leEncode 4 maxDegree ++ leEncode 4 start ++ leEncode 8 numStart ++ body

/-- A graph whose sizes and ids fit the fields of the file, whose lists are no longer than the configured maximum
degree. -/
structure Saveable (g : GraphSrc) (start : Nat) : Prop where
  ids : ∀ l ∈ g.lists, ∀ x ∈ l, x < 2 ^ 32
  lens : ∀ l ∈ g.lists, l.length < 2 ^ 32
  size : (g.lists.map fun l => 4 + 4 * l.length).sum + 24 < 2 ^ 64
  degree : ∀ d, g.maxDegree = some d → d < 2 ^ 32 ∧ ∀ l ∈ g.lists, l.length ≤ d
  start : start < 2 ^ 32
  additional : g.additional < 2 ^ 64

/-- An edge of a graph given by its lists. -/
def EdgeIn (ls : List (List Nat)) (a b : Nat) : Prop := ∃ l, ls[a]? = some l ∧ b ∈ l

/-- `b` can be reached from `a`. -/
def ReachIn (ls : List (List Nat)) : Nat → Nat → Prop := Relation.ReflTransGen (EdgeIn ls)

end Verif.Disk
