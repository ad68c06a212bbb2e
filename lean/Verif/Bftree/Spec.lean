import Verif.Bftree.Model

/-! # Specification of the neighbour store: a map from ids to lists -/

namespace Verif.Bftree

/-- What a user believes is stored for a vertex: nothing yet, a deletion, or a list. -/
inductive Entry where
  | none
  | deleted
  | list (l : List Nat)
deriving DecidableEq

/-- What reading an entry yields. -/
def Entry.read : Entry → Out (List Nat)
  | .none => .ok []
  | .deleted => .err
  | .list l => .ok l

abbrev Store := Nat → Entry

def Store.put (s : Store) (id : Nat) (e : Entry) : Store := fun j => if j = id then e else s j

/-- The ids an append adds to `old`: those of `new` that are not in `old`, each once, in order, as many
as fit under the maximum degree `D`. -/
def newIds (D : Nat) (old new : List Nat) : List Nat :=
  ((new.filter (fun i => !old.contains i)).eraseDups).take (D - old.length)

/-- What each call does to the map: a write that is too long, comes with a scratch buffer that is too
short, or is refused by the tree fails and changes nothing. -/
def Op.spec (D : Nat) (s : Store) : Op → Out Unit × Store
  | .set id nbrs buf ins =>
    if nbrs.length ≤ D ∧ D + 1 ≤ buf.length ∧ ins = true then (.ok (), s.put id (.list nbrs))
    else (.err, s)
  | .append id new buf ins =>
    match (s id).read with
    | .ok old =>
      if newIds D old new = [] then (.ok (), s)
      else if D + 1 ≤ buf.length ∧ ins = true then
        (.ok (), s.put id (.list (old ++ newIds D old new)))
      else (.err, s)
    | _ => (.err, s)
  | .delete id tomb => (.ok (), s.put id (if tomb then .deleted else .none))
  | .compact id => (.ok (), if s id = .deleted then s.put id .none else s)

/-- A history of calls on the map. -/
def specOps (D : Nat) (s : Store) : List Op → List (Out Unit) × Store
  | [] => ([], s)
  | o :: os =>
    let r := o.spec D s
    let q := specOps D r.2 os
    (r.1 :: q.1, q.2)

/-- The ids in a call fit the store's `w`-byte id type. -/
def Op.fits (w : Nat) : Op → Prop
  | .set id nbrs _ _ => id < 256 ^ w ∧ ∀ i ∈ nbrs, i < 256 ^ w
  | .append id new _ _ => id < 256 ^ w ∧ ∀ i ∈ new, i < 256 ^ w
  | .delete id _ => id < 256 ^ w
  | .compact id => id < 256 ^ w

/-- An accessor's write as a call with some scratch buffer of the store's record length. -/
def WOp.toOp (D : Nat) (ins : Bool) : WOp → Op
  | .set id nbrs => .set id nbrs (List.replicate (D + 1) 0) ins
  | .append id new => .append id new (List.replicate (D + 1) 0) ins

/-- The map after the logged writes. -/
def specLog (D : Nat) (s : Store) (log : List (Nat × WOp × Bool)) : Store :=
  (specOps D s (log.map fun e => e.2.1.toOp D e.2.2)).2

end Verif.Bftree
