import Verif.Provider.Model

/-!
# What the in-memory provider keeps

A table with one record for every id, points first and start points last: the vector, its code, whether it is deleted,
and the neighbours. Nothing here mentions slots, padding or words of bits.
-/

namespace Verif.Provider

/-- The records of all ids. -/
structure Table (T U : Type) where
  vec : Nat → List T
  code : Nat → List U
  dead : Nat → Bool
  nbrs : Nat → List Nat

/-- Change the value at `i` only. -/
def at_ {α : Type} (f : Nat → α) (i : Nat) (x : α) : Nat → α := fun j => if j = i then x else f j

/-- Add the ids that are not there yet, one after the other, until the list holds `cap`. -/
def addNew (cap : Nat) : List Nat → List Nat → List Nat
  | l, [] => l
  | l, x :: xs => if x ∈ l ∨ cap ≤ l.length then addNew cap l xs else addNew cap (l ++ [x]) xs

/-- What a call does to the table; `code` is the compressed form of a vector, `cap` the capacity of a list. -/
def Table.step {T U : Type} (code : List T → List U) (cap : Nat) (t : Table T U) : Op T → Table T U
  | .set i v => { t with vec := at_ t.vec i v, code := at_ t.code i (code v) }
  | .delete i => { t with dead := at_ t.dead i true }
  | .release i => { t with dead := at_ t.dead i false, nbrs := at_ t.nbrs i [] }
  | .clear => { t with dead := fun _ => false }
  | .setNbrs i l => { t with nbrs := at_ t.nbrs i l }
  | .append i xs => { t with nbrs := at_ t.nbrs i (addNew cap (t.nbrs i) xs) }

/-- The table of a new provider: zero vectors, nothing deleted, no edges. -/
def Table.empty {T U : Type} (zero : T) (uzero : U) (dim width : Nat) : Table T U :=
  ⟨fun _ => List.replicate dim zero, fun _ => List.replicate width uzero, fun _ => false, fun _ => []⟩

/-- The calls the documentation allows for `n` ids: ids in range, vectors of the right dimension that can be
compressed, lists that fit. The graph has a list for one more id. -/
def Op.Valid {T : Type} (n dim cap : Nat) (fine : List T → Prop) : Op T → Prop
  | .set i v => i < n ∧ v.length = dim ∧ fine v
  | .delete i => i < n
  | .release i => i < n
  | .clear => True
  | .setNbrs i l => i ≤ n ∧ l.length ≤ cap
  | .append i _ => i ≤ n

/-- Everything a caller can read from the provider is in the table. -/
structure Shows {T U : Type} (p : Prov T U) (n : Nat) (t : Table T U) : Prop where
  vec : ∀ i < n, p.base.data.slice i = some (t.vec i)
  code : ∀ a, p.aux = some a → ∀ i < n, a.data.slice i = some (t.code i)
  dead : ∀ i < n, p.dels.get i = some (t.dead i)
  nbrs : ∀ i ≤ n, graphGet p.graph i = some (t.nbrs i)

/-- The encoder writes all `width` elements, unless it stops early. -/
structure Encoder.Good {T U : Type} (e : Encoder T U) : Prop where
  short : ∀ v, v.length = e.dim → (e.write v).1.length ≤ e.width
  full : ∀ v, v.length = e.dim → (e.write v).2 = true → (e.write v).1.length = e.width

/-- The laws of a file format for elements. -/
structure Codec.Good {T : Type} (c : Codec T) : Prop where
  size : ∀ x, (c.ser x).length = c.sz
  back : ∀ x, c.de (c.ser x) = x
  line : c.sz ∣ 64
  pos : 0 < c.sz

/-- The allocator aligns arrays to their elements, whose sizes divide a cache line. -/
structure Places.Good (pl : Places) : Prop where
  base : pl.sz ∣ 64 ∧ pl.sz ∣ pl.base
  aux : pl.auxSz ∣ 64 ∧ pl.auxSz ∣ pl.aux
  graph : 4 ∣ pl.graph

end Verif.Provider
