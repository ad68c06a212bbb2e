/-
Model of the static vertex cache of the disk index.

Source: /repo/diskann-disk/src/data_model/cache.rs

Simplification: the hash map is a list of pairs with distinct keys, newest first; elements of vectors
are of an arbitrary type `E`, associated data of an arbitrary type `A`.  Slice-bound panics are the
outer `none`.
-/
namespace Verif.Disk

/-- `Cache` (cache.rs 13-32). -/
structure Cache (E A : Type) where
  mapping : List (Nat × Nat)
  vectors : List E
  adj : List (List Nat)
  assoc : List A
  dim : Nat
  cap : Nat

variable {E A : Type}

/-- `Cache::new` (cache.rs 38-48). -/
def Cache.new (d0 : E) (dim cap : Nat) : Cache E A :=
  { mapping := [], vectors := List.replicate (cap * dim) d0, adj := [], assoc := [], dim := dim, cap := cap }

/-- `contains` (cache.rs 50-52). -/
def Cache.contains (c : Cache E A) (id : Nat) : Bool := (c.mapping.lookup id).isSome

/-- `&vec[a..b]`. -/
def eslice? (l : List E) (a b : Nat) : Option (List E) :=
  if a ≤ b ∧ b ≤ l.length then some ((l.drop a).take (b - a)) else none

/-- `get_vector` (cache.rs 55-61): `some none` is "not cached". -/
def Cache.getVector (c : Cache E A) (id : Nat) : Option (Option (List E)) :=
  match c.mapping.lookup id with
  | some idx => (eslice? c.vectors (idx * c.dim) ((idx + 1) * c.dim)).map some
  | none => some none

/-- `get_adjacency_list` (cache.rs 64-73). -/
def Cache.getAdj (c : Cache E A) (id : Nat) : Option (Option (List Nat)) :=
  match c.mapping.lookup id with
  | some idx => c.adj[idx]?.map some
  | none => some none

/-- `get_associated_data` (cache.rs 76-85). -/
def Cache.getAssoc (c : Cache E A) (id : Nat) : Option (Option A) :=
  match c.mapping.lookup id with
  | some idx => c.assoc[idx]?.map some
  | none => some none

/-- `copy_to_cache` (cache.rs 132-142). -/
def Cache.copyTo (c : Cache E A) (idx : Nat) (vec : List E) (adj : List Nat) (a : A) :
    Option (Cache E A) :=
  if idx * c.dim ≤ (idx + 1) * c.dim ∧ (idx + 1) * c.dim ≤ c.vectors.length ∧
      vec.length = (idx + 1) * c.dim - idx * c.dim then
    some { c with
      vectors := c.vectors.take (idx * c.dim) ++ (vec ++ c.vectors.drop ((idx + 1) * c.dim)),
      adj := c.adj ++ [adj], assoc := c.assoc ++ [a] }
  else none

/-- `insert` (cache.rs 89-120): the flag tells `Ok` from `Err`. -/
def Cache.insert (c : Cache E A) (id : Nat) (vec : List E) (adj : List Nat) (a : A) :
    Option (Cache E A × Bool) :=
  if c.dim ≠ vec.length then some (c, false)
  else
    match c.mapping.lookup id with
    | some idx => (c.copyTo idx vec adj a).map (·, true)
    | none =>
      if c.mapping.length ≥ c.cap then some (c, false)
      else
        let idx := c.mapping.length
        (Cache.copyTo { c with mapping := (id, idx) :: c.mapping } idx vec adj a).map (·, true)

/-- An insert call. -/
structure Ins (E A : Type) where
  id : Nat
  vec : List E
  adj : List Nat
  assoc : A

/-- A history of inserts, with the result of each. -/
def Cache.run (c : Cache E A) : List (Ins E A) → Option (Cache E A × List Bool)
  | [] => some (c, [])
  | i :: is => do
    let (c, ok) ← c.insert i.id i.vec i.adj i.assoc
    let (c, oks) ← c.run is
    some (c, ok :: oks)

end Verif.Disk
