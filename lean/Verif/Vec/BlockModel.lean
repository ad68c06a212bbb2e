import Verif.Vec.SimdLemmas

/-! # Strided views and block-transposed matrices

`diskann-utils/src/strided.rs` and `diskann-quantization/src/multi_vector/block_transposed.rs`. Memory is a list of
elements; an access outside it, or a pointer moved past its end, is `none`, and so is a panic. Sizes are natural numbers;
the overflow checks of the constructor are modelled. -/

namespace Verif.Vec

section

variable {T : Type}

/-- `StridedBase`, `strided.rs` 38-48. -/
structure Strided (T : Type) where
  data : List T
  nrows : Nat
  ncols : Nat
  cstride : Nat

/-- `linear_length`, `strided.rs` 51-53. -/
def linearLength (nrows ncols cstride : Nat) : Nat := (max nrows 1 - 1) * cstride + min nrows 1 * ncols

/-- `StridedBase::try_shrink_from`, 112-137 (and `try_shrink_from_mut`, 147-173). Outer `none`: panic; inner `none`:
error. -/
def Strided.tryShrinkFrom (data : List T) (nrows ncols cstride : Nat) : Option (Option (Strided T)) :=
  if cstride < ncols then none
  else
    let required := linearLength nrows ncols cstride
    if required ≤ data.length then some (some ⟨data.take required, nrows, ncols, cstride⟩) else some none

/-- `StridedBase::try_from`, 186-216. -/
def Strided.tryFrom (data : List T) (nrows ncols cstride : Nat) : Option (Option (Strided T)) :=
  if cstride < ncols then none
  else
    let required := linearLength nrows ncols cstride
    if data.length = required then some (some ⟨data, nrows, ncols, cstride⟩) else some none

/-- `get_row_unchecked(row)`, 272-284: `none` outside the data. -/
def Strided.rowUnchecked (v : Strided T) (row : Nat) : Option (List T) :=
  let start := row * v.cstride
  if start + v.ncols ≤ v.data.length then some ((v.data.drop start).take v.ncols) else none

/-- `row`, 256-266: panics outside the rows. -/
def Strided.row (v : Strided T) (row : Nat) : Option (List T) :=
  if row < v.nrows then v.rowUnchecked row else none

/-- `usize::next_multiple_of`. -/
def nextMul (n k : Nat) : Nat := if n % k = 0 then n else n + (k - n % k)

/-- `usize::div_ceil`. -/
def divCeil (n k : Nat) : Nat := if n % k = 0 then n / k else n / k + 1

/-- `BlockTransposedRepr`, `block_transposed.rs` 156-160, with the const parameters `GROUP` and `PACK`. -/
structure BRepr where
  group : Nat
  pack : Nat
  nrows : Nat
  ncols : Nat

namespace BRepr

/-- `padded_ncols`, 97-99 and 212-214. -/
def paddedNcols (r : BRepr) : Nat := nextMul r.ncols r.pack

/-- `compute_capacity`, 111-113; `storage_len`, 193-195. -/
def storageLen (r : BRepr) : Nat := nextMul r.nrows r.group * r.paddedNcols

/-- `BlockTransposedRepr::new`, 177-187, with `checked_compute_capacity`, 119-126, and `Overflow::check_byte_budget`,
`matrix.rs` 384-395; `elsize` is the size of an element in bytes. -/
def new (group pack elsize nrows ncols : Nat) : Option BRepr :=
  let prows := nextMul nrows group
  let pcols := nextMul ncols pack
  if 2 ^ 64 ≤ prows then none
  else if 2 ^ 64 ≤ pcols then none
  else if 2 ^ 64 ≤ prows * pcols then none
  else
    let bytes := min (elsize * (prows * pcols)) (2 ^ 64 - 1)
    if bytes ≤ 2 ^ 63 - 1 then some ⟨group, pack, nrows, ncols⟩ else none

/-- `linear_index`, 131-140. -/
def linearIndex (r : BRepr) (row col : Nat) : Nat :=
  let pncols := r.paddedNcols
  let block := row / r.group
  let rowInBlock := row % r.group
  block * r.group * pncols + (col / r.pack) * r.group * r.pack + rowInBlock * r.pack + (col % r.pack)

/-- `col_offset`, 147-149. -/
def colOffset (r : BRepr) (col : Nat) : Nat := (col / r.pack) * r.group * r.pack + (col % r.pack)

/-- `full_blocks`, 218-220. -/
def fullBlocks (r : BRepr) : Nat := r.nrows / r.group

/-- `num_blocks`, 224-226. -/
def numBlocks (r : BRepr) : Nat := divCeil r.nrows r.group

/-- `remainder`, 230-232. -/
def remainder (r : BRepr) : Nat := r.nrows % r.group

/-- `block_stride`, 245-247. -/
def blockStride (r : BRepr) : Nat := r.group * r.paddedNcols

/-- `block_offset`, 251-253. -/
def blockOffset (r : BRepr) (block : Nat) : Nat := block * r.blockStride

end BRepr

/-- `BlockTransposed`: the descriptor and its memory. -/
structure BMat (T : Type) where
  repr : BRepr
  mem : List T

/-- `dst.add(k)`: `none` past one beyond the end of the allocation. -/
def advance (s : Nat × List T) (k : Nat) : Option (Nat × List T) :=
  if s.1 + k ≤ s.2.length then some (s.1 + k, s.2) else none

/-- The innermost loop of `from_strided`, 1177-1193: one pack lane. -/
def packLane (v : Strided T) (srcRow : List T) (colBase : Nat) (s : Nat × List T) (p : Nat) :
    Option (Nat × List T) :=
  let col := colBase + p
  if col < v.ncols then do
    let x ← srcRow[col]?
    if s.1 < s.2.length then advance (s.1, s.2.set s.1 x) 1 else none
  else advance s 1

/-- The loop over the rows of a block, 1171-1199. -/
def packRow (r : BRepr) (v : Strided T) (rowBase colBase : Nat) (s : Nat × List T) (rib : Nat) :
    Option (Nat × List T) :=
  let row := rowBase + rib
  if row < v.nrows then do
    let srcRow ← v.rowUnchecked row
    (List.range r.pack).foldlM (packLane v srcRow colBase) s
  else advance s r.pack

/-- The loop over the column groups, 1169-1200. -/
def packGroup (r : BRepr) (v : Strided T) (rowBase : Nat) (s : Nat × List T) (cg : Nat) : Option (Nat × List T) :=
  (List.range r.group).foldlM (packRow r v rowBase (cg * r.pack)) s

/-- The loop over the blocks, 1167-1201. -/
def packBlock (r : BRepr) (v : Strided T) (s : Nat × List T) (block : Nat) : Option (Nat × List T) :=
  (List.range (r.paddedNcols / r.pack)).foldlM (packGroup r v (block * r.group)) s

variable [Zero T]

/-- `BlockTransposed::from_strided`, 1156-1204; `new` panics on overflow, 1129-1135. -/
def BMat.fromStrided (group pack elsize : Nat) (v : Strided T) : Option (BMat T) := do
  let r ← BRepr.new group pack elsize v.nrows v.ncols
  let s ← (List.range r.numBlocks).foldlM (packBlock r v) (0, List.replicate r.storageLen 0)
  some ⟨r, s.2⟩

omit [Zero T]

/-- `get_element`, 865-879, and `index`, 1222-1228. -/
def BMat.get (m : BMat T) (row col : Nat) : Option T :=
  if row < m.repr.nrows ∧ col < m.repr.ncols then m.mem[m.repr.linearIndex row col]? else none

/-- `get_row(i)` (490-516, the bounds check in `MatRef::get_row`) followed by `Row::get(col)`, 313-320, or one step of
the iterator, 358-366. The inner `none` is the `None` of the API. -/
def BMat.rowGet (m : BMat T) (i col : Nat) : Option (Option T) :=
  if i < m.repr.nrows then
    if col < m.repr.ncols then
      match m.mem[m.repr.linearIndex i 0 + m.repr.colOffset col]? with
      | none => none
      | some x => some (some x)
    else some none
  else some none

/-- `get_row(i).iter()`, 324-330 and 354-366, collected. -/
def BMat.rowIter (m : BMat T) (i : Nat) : Option (List T) :=
  (List.range m.repr.ncols).mapM (fun col => m.mem[m.repr.linearIndex i 0 + m.repr.colOffset col]?)

/-- `get_row_mut(i)`, 531-556, followed by `RowMut::set(col, value)`, 432-440 (or `get_mut`, 417-424); panics out of
range. -/
def BMat.rowSet (m : BMat T) (i col : Nat) (value : T) : Option (BMat T) :=
  if i < m.repr.nrows ∧ col < m.repr.ncols then
    let idx := m.repr.linearIndex i 0 + m.repr.colOffset col
    if idx < m.mem.length then some ⟨m.repr, m.mem.set idx value⟩ else none
  else none

/-- `block(b)`, 825-835, and `remainder_block`, 842-857, element `(i, j)` of the view with `padded_ncols / PACK` rows
and `GROUP * PACK` columns; `b` must be a full block, or the remainder block when there is one. -/
def BMat.blockGet (m : BMat T) (b i j : Nat) : Option T :=
  if b < m.repr.fullBlocks ∨ (b = m.repr.fullBlocks ∧ m.repr.remainder ≠ 0) then
    let offset := m.repr.blockOffset b
    let stride := m.repr.blockStride
    let nrows := m.repr.paddedNcols / m.repr.pack
    let ncols := m.repr.group * m.repr.pack
    if offset + stride ≤ m.mem.length ∧ stride = nrows * ncols then
      if i < nrows ∧ j < ncols then ((m.mem.drop offset).take stride)[i * ncols + j]? else none
    else none
  else none

end

end Verif.Vec
