import Verif.Inmem.LiveModel

/-! # What searches during inserts and deletes may return -/

namespace Verif.Inmem.Live

open Verif.Inmem

variable {V : Type}

/-- Element `e` is in the index: its id leads to slot `i`, and the slot can be read and holds `v`. -/
def At (s : State V) (e i : Nat) (v : V) : Prop :=
  s.p.maps.toInternal e = some i ∧ i < s.p.maps.capacity ∧ s.read i = some v

/-- Search `t` is reading. -/
def Reading (s : State V) (t : Nat) : Prop := ∃ r, s.sr t = .reading r

/-- Search `t` is collecting its results. -/
def Collecting (s : State V) (t : Nat) : Prop := ∃ r c todo out n, s.sr t = .translating r c todo out n

/-- What the output of search `t` may be for its candidates, in their order, given the states `past` passed so far. -/
inductive Outcome (past : List (State V)) (capacity t : Nat) : List (Nat × V) → List (Nat × V) → Prop
  | nil : Outcome past capacity t [] []
  /-- the candidate was an element at some time while results were collected: it is in the output -/
  | found {pre out : List (Nat × V)} {s : State V} {e i : Nat} {v : V} : Outcome past capacity t pre out → s ∈ past →
      Collecting s t → At s e i v → Outcome past capacity t (pre ++ [(i, v)]) (out ++ [(e, v)])
  /-- a start point is left out -/
  | start {pre out : List (Nat × V)} {i : Nat} {v : V} : Outcome past capacity t pre out → capacity ≤ i →
      Outcome past capacity t (pre ++ [(i, v)]) out
  /-- the candidate was an element when it was read, and was no longer when results were collected: it is left out -/
  | gone {pre out : List (Nat × V)} {s₁ s₂ : State V} {e i : Nat} {v : V} : Outcome past capacity t pre out → s₁ ∈ past →
      Reading s₁ t → At s₁ e i v → s₂ ∈ past → Collecting s₂ t → (∀ w, ¬ At s₂ e i w) →
      Outcome past capacity t (pre ++ [(i, v)]) out

/-- The ids in the lists of `beam` that are not in `visited`, each once, in the order in which they first occur. -/
structure Fresh (lists : Nat → List Nat) (beam visited fresh : List Nat) : Prop where
  nodup : fresh.Nodup
  mem : ∀ x, x ∈ fresh ↔ (∃ b ∈ beam, x ∈ lists b) ∧ x ∉ visited
  order : fresh.Sublist (beam.flatMap lists)

end Verif.Inmem.Live
