import Verif.Disk.VectorFileModel

/-!
# Model of the in-memory data provider

`DefaultProvider` (diskann-providers/src/model/graph/provider/async_/inmem/provider.rs) with the stores behind it:
`AlignedMemoryVectorStore` and `StartPoints` (async_/common.rs), `FastMemoryVectorProviderAsync`
(async_/fast_memory_vector_provider.rs), `FastMemoryQuantVectorProviderAsync`
(async_/fast_memory_quant_vector_provider.rs), `SimpleNeighborProviderAsync` (async_/simple_neighbor_provider.rs) and
`TableDeleteProviderAsync` (async_/table_delete_provider.rs).

The outer `none` of a result is a panic, or an access outside the allocation. Every operation below holds the lock of
its slot or is one atomic instruction, so a run is a sequence of them; the unsynchronised readers of vectors are not
modelled. Numbers stored in `u32` cells are natural numbers: the length of a list is below 2^32.
-/

namespace Verif.Provider

open Verif.Disk

/-! ## Aligned slots -/

/-- `AlignedMemoryVectorStore` (common.rs:83–95). -/
structure Aligned (α : Type) where
  mem : List α
  num : Nat
  start : Nat
  dim : Nat
  padded : Nat

/-- `padded_vector_dim` (common.rs:107–118) for elements of `sz` bytes. -/
def paddedDim (sz dim : Nat) : Nat :=
  if (sz * dim) % 64 = 0 then dim else dim + (64 - (sz * dim) % 64) / sz

/-- `as_ptr().align_offset(64)` in elements (common.rs:129), for an address that is a multiple of the element size. -/
def alignOffset (sz addr : Nat) : Nat := ((64 - addr % 64) % 64) / sz

/-- `with_capacity` (common.rs:104–138); `addr` is where the allocator puts the elements. -/
def Aligned.new {α : Type} (zero : α) (sz addr num dim : Nat) : Option (Aligned α) :=
  if 64 % sz ≠ 0 then none
  else if (sz * dim) % 64 ≠ 0 ∧ (64 - (sz * dim) % 64) % sz ≠ 0 then none
  else if (paddedDim sz dim * sz) % 64 ≠ 0 then none
  else some ⟨List.replicate (num * paddedDim sz dim + (64 / sz - 1)) zero, num, alignOffset sz addr, dim,
    paddedDim sz dim⟩

/-- The first element of a slot (common.rs:164, 183). -/
def Aligned.off {α : Type} (s : Aligned α) (i : Nat) : Nat := i * s.padded + s.start

/-- `get_slice` (common.rs:157–173). The slice is made from a raw pointer: outside the allocation it is undefined. -/
def Aligned.slice {α : Type} (s : Aligned α) (i : Nat) : Option (List α) :=
  if i < s.num then
    if s.off i + s.dim ≤ s.mem.length then some ((s.mem.drop (s.off i)).take s.dim) else none
  else none

/-- Leave `v` in the slice of `get_mut_slice` (common.rs:181–193). A slice keeps its length. -/
def Aligned.put {α : Type} (s : Aligned α) (i : Nat) (v : List α) : Option (Aligned α) :=
  if i < s.num then
    if s.off i + s.dim ≤ s.mem.length ∧ v.length = s.dim then
      some { s with mem := s.mem.take (s.off i) ++ v ++ s.mem.drop (s.off i + s.dim) }
    else none
  else none

/-- Writing `new` at the front of `old`. -/
def overwrite {α : Type} (old new : List α) : List α := new ++ old.drop new.length

/-! ## Vector stores -/

/-- What a store keeps of a vector: the dimension it accepts, the elements of a slot and what it writes, element after
element; the flag says whether it got to the end. -/
structure Encoder (T U : Type) where
  dim : Nat
  width : Nat
  write : List T → List U × Bool

/-- `copy_from_slice` (fast_memory_vector_provider.rs:163). -/
def copyEncoder (T : Type) (dim : Nat) : Encoder T T := ⟨dim, dim, fun v => (v, true)⟩

/-- The loop over the chunks in `compress_into` (diskann-quantization/src/product/tables/basic.rs:172–193) from chunk
`c` on, `k` chunks left: each code goes to its place at once, the loop stops at the first chunk that is too far from
every pivot. `code` is the search for the closest pivot. -/
def compressFrom {T U : Type} (code : Nat → List T → Option U) (v : List T) : Nat → Nat → List U × Bool
  | 0, _ => ([], true)
  | k + 1, c =>
    match code c v with
    | none => ([], false)
    | some x => (x :: (compressFrom code v k (c + 1)).1, (compressFrom code v k (c + 1)).2)

/-- The encoder of product quantization (fast_memory_quant_vector_provider.rs:158–191). -/
def pqEncoder {T U : Type} (dim chunks : Nat) (code : Nat → List T → Option U) : Encoder T U :=
  ⟨dim, chunks, fun v => compressFrom code v chunks 0⟩

/-- `FastMemoryVectorProviderAsync` / `FastMemoryQuantVectorProviderAsync`. -/
structure Store (T U : Type) where
  enc : Encoder T U
  data : Aligned U

/-- `set_vector_sync` (fast_memory_vector_provider.rs:145–167, fast_memory_quant_vector_provider.rs:158–191): whether
it succeeds and the store it leaves. -/
def Store.set {T U : Type} (s : Store T U) (i : Nat) (v : List T) : Option (Bool × Store T U) :=
  if s.data.num ≤ i then some (false, s)
  else if v.length ≠ s.enc.dim then some (false, s)
  else
    match s.data.slice i with
    | none => none
    | some old => (s.data.put i (overwrite old (s.enc.write v).1)).map fun d => ((s.enc.write v).2, { s with data := d })

/-! ## Neighbours -/

/-- `SimpleNeighborProviderAsync::new` (simple_neighbor_provider.rs:30–48) with a slack factor of one: slots of
`u32`, the last holding the length. `max_degree as f32` is exact up to 2^24. -/
def graphNew (addr maxPoints numStart maxDegree : Nat) : Option (Aligned Nat) :=
  Aligned.new 0 4 addr (maxPoints + numStart) (maxDegree + 1)

/-- `get_neighbors_sync` (simple_neighbor_provider.rs:56–64, 89–105). -/
def graphGet (g : Aligned Nat) (i : Nat) : Option (List Nat) :=
  match g.slice i with
  | none => none
  | some s =>
    match s[g.dim - 1]? with
    | none => none
    | some len => if len ≤ s.length then some (s.take len) else none

/-- `set_neighbors_sync` (simple_neighbor_provider.rs:66–87). -/
def graphSet (g : Aligned Nat) (i : Nat) (l : List Nat) : Option (Aligned Nat) :=
  if l.length < g.dim then
    match g.slice i with
    | none => none
    | some s => g.put i ((overwrite s l).set (g.dim - 1) l.length)
  else none

/-- The loop of `append_vector_sync` (simple_neighbor_provider.rs:118–134): the cells and the new length. -/
def appendLoop (cap : Nat) : List Nat → Nat → List Nat → List Nat × Nat
  | raw, n, [] => (raw, n)
  | raw, n, x :: xs =>
    if x ∈ raw.take n then appendLoop cap raw n xs
    else if n < cap then appendLoop cap (raw.set n x) (n + 1) xs
    else (raw, n)

/-- `append_vector_sync` (simple_neighbor_provider.rs:107–139). -/
def graphAppend (g : Aligned Nat) (i : Nat) (xs : List Nat) : Option (Aligned Nat) :=
  match g.slice i with
  | none => none
  | some s =>
    match s[g.dim - 1]? with
    | none => none
    | some len =>
      if len ≤ s.length then
        g.put i ((appendLoop (g.dim - 1) s len xs).1.set (g.dim - 1) (appendLoop (g.dim - 1) s len xs).2)
      else none

/-! ## Deletions -/

/-- `TableDeleteProviderAsync` (table_delete_provider.rs:12–15). -/
structure Dels where
  words : List (BitVec 32)
  max : Nat

/-- `new` (table_delete_provider.rs:30–37). -/
def Dels.new (n : Nat) : Dels := ⟨List.replicate ((n + 31) / 32) 0, n⟩

/-- The mask of an id (table_delete_provider.rs:43–44). -/
def delMask (i : Nat) : BitVec 32 := 1#32 <<< (i % 32)

/-- `is_deleted` (table_delete_provider.rs:40–46). -/
def Dels.get (d : Dels) (i : Nat) : Option Bool :=
  if i < d.max then (d.words[i / 32]?).map fun w => (w &&& delMask i) != 0#32 else none

/-- `delete` (table_delete_provider.rs:48–54). -/
def Dels.delete (d : Dels) (i : Nat) : Option Dels :=
  if i < d.max then (d.words[i / 32]?).map fun w => { d with words := d.words.set (i / 32) (w ||| delMask i) }
  else none

/-- `undelete` (table_delete_provider.rs:56–62). -/
def Dels.undelete (d : Dels) (i : Nat) : Option Dels :=
  if i < d.max then (d.words[i / 32]?).map fun w => { d with words := d.words.set (i / 32) (w &&& ~~~delMask i) }
  else none

/-- The loop of `clear` (table_delete_provider.rs:64–68): ids `i..i + k`. -/
def Dels.clearFrom : Nat → Nat → Dels → Option Dels
  | 0, _, d => some d
  | k + 1, i, d => (d.undelete i).bind (Dels.clearFrom k (i + 1))

def Dels.clear (d : Dels) : Option Dels := Dels.clearFrom d.max 0 d

/-! ## The provider -/

/-- `DefaultProvider` (inmem/provider.rs:226–248); `aux = none` is `NoStore`, `first..last` are the start points. -/
structure Prov (T U : Type) where
  base : Store T T
  aux : Option (Store T U)
  graph : Aligned Nat
  dels : Dels
  first : Nat
  last : Nat

/-- Sizes of the elements and where the allocator puts the three arrays. -/
structure Places where
  sz : Nat
  base : Nat
  auxSz : Nat
  aux : Nat
  graph : Nat

/-- `StartPoints::new` (common.rs:30–43): `none` is the error. Both numbers were cut to `u32`. -/
def startPoints (valid frozen : Nat) : Option (Nat × Nat) :=
  if valid % 2 ^ 32 + frozen % 2 ^ 32 < 2 ^ 32 then some (valid % 2 ^ 32, valid % 2 ^ 32 + frozen % 2 ^ 32) else none

/-- The auxiliary store for `n` vectors (inmem/product.rs `create`, fast_memory_quant_vector_provider.rs:59–76). -/
def auxNew {T U : Type} (uzero : U) (sz addr n : Nat) : Option (Encoder T U) → Option (Option (Store T U))
  | none => some none
  | some e => (Aligned.new uzero sz addr n e.width).map fun a => some ⟨e, a⟩

/-- `new_empty` (inmem/provider.rs:300–322): `none` is a panic, `some none` the error of `StartPoints::new`. -/
def newEmpty {T U : Type} (pl : Places) (zero : T) (uzero : U) (maxPoints frozen dim maxDegree : Nat)
    (enc : Option (Encoder T U)) : Option (Option (Prov T U)) :=
  match Aligned.new zero pl.sz pl.base (maxPoints + frozen) dim, auxNew uzero pl.auxSz pl.aux (maxPoints + frozen) enc,
      graphNew pl.graph (maxPoints + frozen) 1 maxDegree with
  | some b, some a, some g => some ((startPoints maxPoints frozen).map fun r =>
      ⟨⟨copyEncoder T dim, b⟩, a, g, Dels.new (maxPoints + frozen), r.1, r.2⟩)
  | _, _, _ => none

/-- The second half of `set_element` (inmem/provider.rs:722–727). -/
def setBase {T U : Type} (p : Prov T U) (i : Nat) (v : List T) : Option (Bool × Prov T U) :=
  (p.base.set i v).map fun r => (r.1, { p with base := r.2 })

/-- `set_element` (inmem/provider.rs:710–728). -/
def Prov.set {T U : Type} (p : Prov T U) (i : Nat) (v : List T) : Option (Bool × Prov T U) :=
  match p.aux with
  | none => setBase p i v
  | some a =>
    match a.set i v with
    | none => none
    | some (ok, a') => if ok then setBase { p with aux := some a' } i v else some (false, { p with aux := some a' })

/-- The loop of `set_start_points` (inmem/provider.rs:411–414). -/
def setFrom {T U : Type} : List (List T) → Nat → Prov T U → Option (Bool × Prov T U)
  | [], _, p => some (true, p)
  | v :: vs, i, p =>
    match p.set i v with
    | none => none
    | some (ok, p') => if ok then setFrom vs (i + 1) p' else some (false, p')

/-- `set_start_points` (inmem/provider.rs:395–417). -/
def Prov.setStarts {T U : Type} (p : Prov T U) (vs : List (List T)) : Option (Bool × Prov T U) :=
  if vs.length ≠ p.last - p.first then some (false, p) else setFrom vs p.first p

/-- `delete` (inmem/provider.rs:613–620). -/
def Prov.delete {T U : Type} (p : Prov T U) (i : Nat) : Option (Prov T U) :=
  (p.dels.delete i).map fun d => { p with dels := d }

/-- `release` (inmem/provider.rs:598–610). -/
def Prov.release {T U : Type} (p : Prov T U) (i : Nat) : Option (Prov T U) :=
  (p.dels.undelete i).bind fun d => (graphSet p.graph i []).map fun g => { p with dels := d, graph := g }

/-- `clear_delete_set` (inmem/provider.rs:365–369). -/
def Prov.clear {T U : Type} (p : Prov T U) : Option (Prov T U) := p.dels.clear.map fun d => { p with dels := d }

/-- `set_neighbors` (inmem/provider.rs:667–671). -/
def Prov.setNbrs {T U : Type} (p : Prov T U) (i : Nat) (l : List Nat) : Option (Prov T U) :=
  (graphSet p.graph i l).map fun g => { p with graph := g }

/-- `append_vector` (inmem/provider.rs:673–676). -/
def Prov.append {T U : Type} (p : Prov T U) (i : Nat) (xs : List Nat) : Option (Prov T U) :=
  (graphAppend p.graph i xs).map fun g => { p with graph := g }

/-- A call. -/
inductive Op (T : Type) where
  | set (i : Nat) (v : List T)
  | delete (i : Nat)
  | release (i : Nat)
  | clear
  | setNbrs (i : Nat) (l : List Nat)
  | append (i : Nat) (xs : List Nat)

/-- One call: whether it succeeds and the provider it leaves. -/
def Prov.step {T U : Type} (p : Prov T U) : Op T → Option (Bool × Prov T U)
  | .set i v => p.set i v
  | .delete i => (p.delete i).map (true, ·)
  | .release i => (p.release i).map (true, ·)
  | .clear => p.clear.map (true, ·)
  | .setNbrs i l => (p.setNbrs i l).map (true, ·)
  | .append i xs => (p.append i xs).map (true, ·)

/-- A history: the answers and the provider at the end. -/
def Prov.run {T U : Type} : Prov T U → List (Op T) → Option (List Bool × Prov T U)
  | p, [] => some ([], p)
  | p, op :: ops =>
    match p.step op with
    | none => none
    | some (ok, p') => (Prov.run p' ops).map fun r => (ok :: r.1, r.2)

/-! ## Files -/

/-- How elements are put in files: `sz` bytes each. -/
structure Codec (T : Type) where
  sz : Nat
  ser : T → List Byte
  de : List Byte → T

/-- The bytes of a vector. -/
def Codec.row {T : Type} (c : Codec T) (v : List T) : Row := v.flatMap c.ser

/-- The vector of a row of `d` elements. -/
def Codec.vec {T : Type} (c : Codec T) (d : Nat) (r : Row) : List T := (cutRows c.sz d r).map c.de

/-- All slices of a store, in order (`get_data` for `0..total`, bin.rs:193–206). -/
def Aligned.all {α : Type} (s : Aligned α) : Option (List (List α)) := (List.range s.num).mapM s.slice

/-- All lists of the graph (`get_adjacency_list` for `0..total`, bin.rs:351–363). -/
def graphAll (g : Aligned Nat) : Option (List (List Nat)) := (List.range g.num).mapM (graphGet g)

/-- The files of an index: full vectors, compressed vectors if there are any, graph. The pivots (C94) are left out. -/
structure Files where
  base : List Byte
  aux : Option (List Byte)
  graph : List Byte

/-- The auxiliary store's file (fast_memory_quant_vector_provider.rs `save_with`). -/
def saveAux {T U : Type} (cu : Codec U) : Option (Store T U) → Option (Option (List Byte))
  | none => some none
  | some a => a.data.all.map fun rows => some (saveToBin (rows.map cu.row) a.data.dim)

/-- `save_with` (inmem/provider.rs:434–449) called by the index, which asks for a single start point
(index_storage.rs:23–45): `some none` is its error. -/
def Prov.save {T U : Type} (ct : Codec T) (cu : Codec U) (p : Prov T U) : Option (Option Files) :=
  if p.last - p.first ≠ 1 then some none
  else
    match p.base.data.all, saveAux cu p.aux, graphAll p.graph with
    | some rows, some a, some lists => some (some
        ⟨saveToBin (rows.map ct.row) p.base.data.dim, a, saveGraph (providerSrc lists 1 (p.graph.dim - 1)) p.first⟩)
    | _, _, _ => none

/-- Writing rows to the slots `i, i + 1, …` (`set_data`, bin.rs:152–154). -/
def putFrom {α : Type} : List (List α) → Nat → Aligned α → Option (Aligned α)
  | [], _, s => some s
  | r :: rs, i, s => (s.put i r).bind (putFrom rs (i + 1))

/-- `load_from_bin` into a fresh store (fast_memory_vector_provider.rs:173–192). `none` covers panics and errors. -/
def loadStore {α : Type} (c : Codec α) (zero : α) (addr : Nat) (file : List Byte) : Option (Aligned α) :=
  match loadFromBin c.sz (fun d => List.replicate (d * c.sz) 0) file with
  | .err => none
  | .ok (rows, d) => (Aligned.new zero c.sz addr rows.length d).bind (putFrom (rows.map (c.vec d)) 0)

/-- Setting the lists of `i, i + 1, …` (bin.rs:299–312). -/
def listsFrom : List (List Nat) → Nat → Aligned Nat → Option (Aligned Nat)
  | [], _, g => some g
  | l :: ls, i, g => (graphSet g i l).bind (listsFrom ls (i + 1))

/-- `load_direct` (simple_neighbor_provider.rs:147–177). -/
def loadLists (addr : Nat) (file : List Byte) : Option (Aligned Nat) :=
  match loadGraph providerCreate file with
  | .panic => none
  | .err => none
  | .ok f => (graphNew addr (f.lists.length - f.numStart) f.numStart f.maxDegree).bind (listsFrom f.lists 0)

/-- Loading the auxiliary store. -/
def loadAux {T U : Type} (cu : Codec U) (uzero : U) (addr : Nat) (enc : Option (Encoder T U)) :
    Option (List Byte) → Option (Option (Store T U))
  | none => some none
  | some file =>
    match enc with
    | none => none
    | some e => (loadStore cu uzero addr file).map fun a => some ⟨e, a⟩

/-- The number of vectors of a store, zero for `NoStore`. -/
def auxTotal {T U : Type} : Option (Store T U) → Nat
  | none => 0
  | some a => a.data.num

/-- `load_with` (inmem/provider.rs:487–528). `none` covers panics and errors. -/
def loadProv {T U : Type} (ct : Codec T) (cu : Codec U) (pl : Places) (zero : T) (uzero : U) (frozen : Nat)
    (enc : Option (Encoder T U)) (f : Files) : Option (Prov T U) :=
  match loadStore ct zero pl.base f.base, loadAux cu uzero pl.aux enc f.aux, loadLists pl.graph f.graph with
  | some b, some a, some g =>
    if frozen ≤ max b.num (auxTotal a) then
      (startPoints (max b.num (auxTotal a) - frozen) frozen).map fun r =>
        ⟨⟨copyEncoder T b.dim, b⟩, a, g, Dels.new b.num, r.1, r.2⟩
    else none
  | _, _, _ => none

end Verif.Provider
