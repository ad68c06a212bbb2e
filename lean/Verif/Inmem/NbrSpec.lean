import Verif.Inmem.NbrModel

/-! # What an adjacency store should do -/

namespace Verif.Inmem

/-- A graph is a map from vertex to neighbour list. `specNbr` says which results are right and what they change;
`none` = this result is wrong. -/
def specNbr (entries maxLen : Nat) (A : Nat → List Nat) : NEv → Option (Nat → List Nat)
  | .get i l => if i < entries ∧ l = A i then some A else none
  | .set i l => if i < entries ∧ l.length ≤ maxLen then some (upd A i l) else none
  | .append i l => if i < entries ∧ (A i).length + l.length ≤ maxLen then some (upd A i (A i ++ l)) else none
  | .setTooLong i l => if i < entries ∧ maxLen < l.length then some A else none
  | .appendTooLong i l => if i < entries ∧ maxLen < (A i).length + l.length then some A else none
  | .outOfBounds i => if entries ≤ i then some A else none

/-- All results of a history are right, starting from empty lists. -/
def specNbrRun (entries maxLen : Nat) : List NEv → Option (Nat → List Nat)
  | tr => tr.foldl (fun A e => A.bind (fun A => specNbr entries maxLen A e)) (some (fun _ => []))

end Verif.Inmem
