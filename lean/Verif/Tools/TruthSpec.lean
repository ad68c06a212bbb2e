import Verif.Tools.TruthModel
/-!
# Specification vocabulary for the ground truth tools (C90)
-/
namespace Verif.Tools

open Verif.Queue

variable {V Q D A : Type} [LinearOrder D]

/-- Whether query number `qi` may be answered with the point `idx`: without bitmaps always. -/
def permits (bms : Option (List Bitmap)) (qi idx : Nat) : Bool :=
  match bms with
  | none => true
  | some bs => (bs.getD qi []).contains idx

/-- The points query number `qi` may be answered with: position in the dataset and distance. -/
def candidates (dist : V → Q → Option D) (bms : Option (List Bitmap)) (qi : Nat) (q : Q) (pts : List V) :
    List (Nat × Option D) :=
  (pts.zipIdx.filter (fun x => permits bms qi x.2)).map (fun x => (x.2, dist x.1 q))

/-- `row` is a list of the `k` best among `cands` (all of them, if there are fewer): sorted by distance, every entry a
candidate at its distance, used once, and no candidate left out is nearer than one in the row. -/
def IsNearest (k : Nat) (cands : List (Nat × Option D)) (row : List (Nat × D)) : Prop :=
  row.length = min k (comparable cands).length ∧
  row.Pairwise (fun a b => a.2 ≤ b.2) ∧
  ∃ rejected, (row ++ rejected).Perm (comparable cands) ∧ ∀ a ∈ row, ∀ b ∈ rejected, a.2 ≤ b.2

/-- The bitmaps given cover the queries. -/
def Covers (bms : Option (List Bitmap)) (nq : Nat) : Prop := ∀ bs, bms = some bs → nq ≤ bs.length

end Verif.Tools
