/-!
# Model of `diskann/src/graph/search_output_buffer.rs`

A caller-supplied slice is a list of fixed length.
-/

namespace Verif.Search

variable {I D A : Type}

inductive BufferState where
  | available
  | full
deriving DecidableEq

/-- `IdDistance` (search_output_buffer.rs:70–100). -/
structure Buf (I D : Type) where
  ids : List I
  distances : List D
  position : Nat
deriving DecidableEq

/-- `IdDistance::new` (search_output_buffer.rs:83–95); `none` is the failed assertion. -/
def Buf.new (ids : List I) (distances : List D) : Option (Buf I D) :=
  if ids.length = distances.length then some ⟨ids, distances, 0⟩ else none

abbrev Buf.capacity (b : Buf I D) : Nat := b.ids.length

/-- `size_hint` (search_output_buffer.rs:103–105). -/
def Buf.sizeHint (b : Buf I D) : Nat := b.capacity - b.position

/-- `push` (search_output_buffer.rs:107–124). The slice writes `ids[position]`,
`distances[position]` panic (outer `none`) out of range. -/
def Buf.push (b : Buf I D) (x : I × D) : Option (BufferState × Buf I D) :=
  if b.position = b.capacity then some (.full, b)
  else if b.position < b.ids.length ∧ b.position < b.distances.length then
    let b' : Buf I D :=
      { ids := b.ids.set b.position x.1
        distances := b.distances.set b.position x.2
        position := b.position + 1 }
    some (if b'.position = b'.capacity then .full else .available, b')
  else none

/-- The zipped loop of `extend` (search_output_buffer.rs:130–149): overwrite slots from the position
on, as long as both the slots and the items last; returns the number written. -/
def overwrite {α : Type} : List α → List α → List α
  | [], _ => []
  | o :: os, [] => o :: os
  | _ :: os, x :: xs => x :: overwrite os xs

def Buf.extend (b : Buf I D) (xs : List (I × D)) : Nat × Buf I D :=
  let n := min (min (b.ids.length - b.position) (b.distances.length - b.position)) xs.length
  (n, { ids := b.ids.take b.position ++ overwrite (b.ids.drop b.position) ((xs.take n).map (·.1))
        distances := b.distances.take b.position ++
          overwrite (b.distances.drop b.position) ((xs.take n).map (·.2))
        position := b.position + n })

/-! ### With associated data -/

/-- `IdDistanceAssociatedData` (search_output_buffer.rs:152–183). -/
structure BufA (I D A : Type) where
  ids : List I
  distances : List D
  assoc : List A
  position : Nat
deriving DecidableEq

/-- `IdDistanceAssociatedData::new` (search_output_buffer.rs:161–178). -/
def BufA.new (ids : List I) (distances : List D) (assoc : List A) : Option (BufA I D A) :=
  if ids.length = distances.length then
    if ids.length = assoc.length then some ⟨ids, distances, assoc, 0⟩ else none
  else none

/-- `push` (search_output_buffer.rs:192–209). -/
def BufA.push (b : BufA I D A) (x : I × D × A) : Option (BufferState × BufA I D A) :=
  if b.position = b.ids.length then some (.full, b)
  else if b.position < b.ids.length ∧ b.position < b.distances.length ∧ b.position < b.assoc.length then
    let b' : BufA I D A :=
      { ids := b.ids.set b.position x.1
        distances := b.distances.set b.position x.2.1
        assoc := b.assoc.set b.position x.2.2
        position := b.position + 1 }
    some (if b'.position = b'.ids.length then .full else .available, b')
  else none

/-- `extend` (search_output_buffer.rs:215–240). -/
def BufA.extend (b : BufA I D A) (xs : List (I × D × A)) : Nat × BufA I D A :=
  let n := min (min (min (b.ids.length - b.position) (b.distances.length - b.position))
    (b.assoc.length - b.position)) xs.length
  (n, { ids := b.ids.take b.position ++ overwrite (b.ids.drop b.position) ((xs.take n).map (·.1))
        distances := b.distances.take b.position ++
          overwrite (b.distances.drop b.position) ((xs.take n).map (·.2.1))
        assoc := b.assoc.take b.position ++
          overwrite (b.assoc.drop b.position) ((xs.take n).map (·.2.2))
        position := b.position + n })

end Verif.Search
