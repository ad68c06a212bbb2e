import Verif.Disk.VectorFileModel
import Verif.Disk.GraphFileLemmas

/-!
# C70: vector files

Vectors written come back, in order and unchanged, through every reader: as a matrix, loaded into a store, one by one
or in blocks with skips, and sampled in any order. A file that lost its end is refused by the matrix reader and by the
sampling reader; the store loader does not notice.
-/

namespace Verif.Disk

/-! ### Specification -/

/-- What a sequence of iterator calls returns on a list of vectors. -/
def iterSpec : List Row → List IterOp → List (List Row)
  | _, [] => []
  | rows, .next :: ops => rows.take 1 :: iterSpec (rows.drop 1) ops
  | rows, .nth n :: ops => (rows.drop n).take 1 :: iterSpec (rows.drop (n + 1)) ops
  | rows, .nextN n :: ops => rows.take n :: iterSpec (rows.drop n) ops

/-- A file holding these vectors: `rows` of `d` elements of `sz` bytes. -/
structure VectorFile (sz d : Nat) (rows : List Row) (file : List Byte) : Prop where
  width : ∀ r ∈ rows, r.length = d * sz
  count : rows.length < 2 ^ 32
  dim : d < 2 ^ 32
  bytes : file = leEncode 4 rows.length ++ leEncode 4 d ++ rows.flatten

/-! ### Lemmas -/

theorem flatten_length_rows (w : Nat) (rows : List Row) (h : ∀ r ∈ rows, r.length = w) :
    rows.flatten.length = rows.length * w := by
  induction rows with
  | nil => simp
  | cons r rows ih =>
    rw [List.flatten_cons, List.length_append, h r List.mem_cons_self,
      ih fun r hr => h r (List.mem_cons_of_mem _ hr), List.length_cons, Nat.succ_mul, Nat.add_comm]

theorem flatten_drop_rows (w : Nat) (rows : List Row) (h : ∀ r ∈ rows, r.length = w) (n : Nat) :
    rows.flatten.drop (n * w) = (rows.drop n).flatten := by
  induction n generalizing rows with
  | zero => simp
  | succ n ih =>
    cases rows with
    | nil => simp
    | cons r rows =>
      have hr := h r List.mem_cons_self
      rw [List.flatten_cons, Nat.succ_mul, Nat.add_comm, ← List.drop_drop,
        List.drop_append_of_le_length (Nat.le_of_eq hr.symm), List.drop_of_length_le (Nat.le_of_eq hr), List.nil_append,
        ih rows fun r hr => h r (List.mem_cons_of_mem _ hr), List.drop_succ_cons]

theorem cutRows_flatten (w : Nat) (rows : List Row) (h : ∀ r ∈ rows, r.length = w) :
    cutRows w rows.length rows.flatten = rows := by
  induction rows with
  | nil => rfl
  | cons r rows ih =>
    have hr := h r List.mem_cons_self
    rw [List.length_cons, cutRows, List.flatten_cons, List.take_append_of_le_length (Nat.le_of_eq hr.symm),
      List.take_of_length_le (Nat.le_of_eq hr), List.drop_append_of_le_length (Nat.le_of_eq hr.symm),
      List.drop_of_length_le (Nat.le_of_eq hr), List.nil_append, ih fun r hr => h r (List.mem_cons_of_mem _ hr)]

theorem readMetadata_append (n d : Nat) (rest : List Byte) (hn : n < 2 ^ 32) (hd : d < 2 ^ 32) :
    readMetadata (leEncode 4 n ++ leEncode 4 d ++ rest) = some (n, d) := by
  have t4 : ∀ x, (leEncode 4 x).length = 4 := leEncode_length 4
  have e : (256 : Nat) ^ 4 = 2 ^ 32 := by decide
  unfold readMetadata
  rw [if_pos (by simp only [List.length_append, t4]; omega), List.append_assoc,
    List.take_append_of_le_length (by rw [t4]), List.take_of_length_le (by rw [t4]), leDecode_leEncode 4 n (by omega),
    List.drop_append_of_le_length (by rw [t4]), List.drop_of_length_le (by rw [t4]), List.nil_append,
    List.take_append_of_le_length (by rw [t4]), List.take_of_length_le (by rw [t4]), leDecode_leEncode 4 d (by omega)]

theorem VectorFile.length {sz d : Nat} {rows : List Row} {file : List Byte} (h : VectorFile sz d rows file) :
    file.length = 8 + rows.length * (d * sz) := by
  rw [h.bytes]
  simp only [List.length_append, leEncode_length, flatten_length_rows _ _ h.width]

theorem VectorFile.metadata {sz d : Nat} {rows : List Row} {file : List Byte} (h : VectorFile sz d rows file) :
    readMetadata file = some (rows.length, d) := by
  rw [h.bytes]; exact readMetadata_append _ _ _ h.count h.dim

theorem VectorFile.drop8 {sz d : Nat} {rows : List Row} {file : List Byte} (h : VectorFile sz d rows file) :
    file.drop 8 = rows.flatten := by
  rw [h.bytes, List.drop_append_of_le_length (by simp [leEncode_length]),
    List.drop_of_length_le (by simp [leEncode_length]), List.nil_append]

/-! ### Matrices -/

/-- C70. `write_bin` writes the documented layout and refuses only sizes that do not fit the header. -/
theorem C70_write (sz d : Nat) (rows : List Row) (hw : ∀ r ∈ rows, r.length = d * sz) :
    (∀ file, writeBin rows d = some file → VectorFile sz d rows file) ∧
    (writeBin rows d = none ↔ 2 ^ 32 ≤ rows.length ∨ 2 ^ 32 ≤ d) := by
  unfold writeBin metadataBytes
  constructor
  · intro file h
    split at h
    · rename_i hb
      simp only [Option.map_some, Option.some.injEq] at h
      exact ⟨hw, hb.1, hb.2, h.symm⟩
    · cases h
  · split
    · simp only [Option.map_some, reduceCtorEq, false_iff]; omega
    · simp only [Option.map_none, true_iff]; omega

/-- C70. Reading back gives the vectors, as long as their total size fits the address space; bytes after the end do
not matter. -/
theorem C70_write_read (sz d : Nat) (rows : List Row) (file extra : List Byte) (h : VectorFile sz d rows file)
    (hfit : rows.length * d < 2 ^ 64 ∧ rows.length * d * sz < 2 ^ 64) :
    readBin sz (file ++ extra) = .ok (rows, d) := by
  have hm : readMetadata (file ++ extra) = some (rows.length, d) := by
    rw [h.bytes, List.append_assoc]; exact readMetadata_append _ _ _ h.count h.dim
  have hl := h.length
  have ha : rows.length * (d * sz) = rows.length * d * sz := (Nat.mul_assoc _ _ _).symm
  unfold readBin
  rw [hm]
  dsimp only
  rw [if_neg (by omega), if_neg (by rw [List.length_append]; omega)]
  have hb : bytesAt (file ++ extra) 8 (rows.length * d * sz) = some rows.flatten := by
    unfold bytesAt
    rw [if_pos (by rw [List.length_append]; omega), List.drop_append_of_le_length (by omega), h.drop8,
      List.take_append_of_le_length (by rw [flatten_length_rows _ _ h.width]; omega),
      List.take_of_length_le (by rw [flatten_length_rows _ _ h.width]; omega)]
  rw [hb]
  dsimp only
  rw [cutRows_flatten _ _ h.width]

theorem readMetadata_take (file : List Byte) (n : Nat) (h : 8 ≤ n) : readMetadata (file.take n) = readMetadata file := by
  unfold readMetadata
  rw [List.length_take]
  by_cases h8 : 8 ≤ file.length
  · rw [if_pos (by omega), if_pos h8, List.take_take, Nat.min_eq_left (by omega), List.drop_take, List.take_take,
      Nat.min_eq_left (by omega)]
  · rw [if_neg (by omega), if_neg h8]

theorem readMetadata_short (file : List Byte) (h : file.length < 8) : readMetadata file = none := by
  unfold readMetadata; rw [if_neg (by omega)]

/-- C70. A file that lost its end is refused by `read_bin` and by the sampling reader. -/
theorem C70_truncated_refused (sz d : Nat) (rows : List Row) (file : List Byte) (n : Nat)
    (h : VectorFile sz d rows file) (hn : n < file.length) :
    readBin sz (file.take n) = .err ∧ Sampler.new sz (file.take n) = none := by
  have hl := h.length
  have ha : rows.length * (d * sz) = rows.length * d * sz := (Nat.mul_assoc _ _ _).symm
  by_cases h8 : n < 8
  · have hm := readMetadata_short (file.take n) (by rw [List.length_take]; omega)
    unfold readBin Sampler.new
    rw [hm]
    exact ⟨rfl, rfl⟩
  · have hm : readMetadata (file.take n) = some (rows.length, d) := by
      rw [readMetadata_take _ _ (by omega), h.metadata]
    unfold readBin Sampler.new
    rw [hm]
    dsimp only
    refine ⟨?_, ?_⟩
    · split
      · rfl
      · rw [if_pos (by rw [List.length_take]; omega)]
    · rw [if_pos (by rw [List.length_take]; omega)]

/-! ### The store -/

theorem written_rows (rows : List Row) : written (rows.map fun r => WOp.write r) = rows.flatten := by
  induction rows with
  | nil => rfl
  | cons r rows ih => simp [written, ih]

/-- The writes before the header update. -/
def binBody (rows : List Row) (dim : Nat) : List WOp :=
  .write (leEncode 4 0 ++ leEncode 4 dim) :: rows.map fun r => .write r

theorem binBody_writes (rows : List Row) (dim : Nat) : ∀ op ∈ binBody rows dim, ∃ bs, op = .write bs := by
  intro op h
  unfold binBody at h
  rcases List.mem_cons.1 h with rfl | h
  · exact ⟨_, rfl⟩
  · obtain ⟨r, -, rfl⟩ := List.mem_map.1 h
    exact ⟨_, rfl⟩

theorem binBody_noreset (rows : List Row) (dim : Nat) : ∀ op ∈ binBody rows dim, op ≠ .reset := by
  intro op h
  obtain ⟨bs, rfl⟩ := binBody_writes rows dim op h
  simp

theorem written_binBody (rows : List Row) (dim : Nat) :
    written (binBody rows dim) = leEncode 4 0 ++ leEncode 4 dim ++ rows.flatten := by
  unfold binBody; rw [written, written_rows]

/-- C70. `save_to_bin` writes the same layout. -/
theorem C70_save_layout (sz dim : Nat) (rows : List Row) (hw : ∀ r ∈ rows, r.length = dim * sz)
    (hc : rows.length < 2 ^ 32) (hd : dim < 2 ^ 32) : VectorFile sz dim rows (saveToBin rows dim) := by
  refine ⟨hw, hc, hd, ?_⟩
  have t4 : ∀ x, (leEncode 4 x).length = 4 := leEncode_length 4
  have hs := specWrites_append (binBody rows dim) [] (binBody_noreset rows dim)
  simp only [List.length_nil, List.nil_append, Nat.zero_add, written_binBody] at hs
  have : saveBinOps rows dim = binBody rows dim ++ [.reset, .write (leEncode 4 rows.length), .flush] := by
    simp [saveBinOps, binBody]
  unfold saveToBin
  rw [this, specWrites_concat, hs]
  simp only [specWrites, List.take_zero, List.nil_append, Nat.zero_add, t4]
  rw [List.append_assoc (leEncode 4 0), List.drop_append_of_le_length (by rw [t4]),
    List.drop_of_length_le (by rw [t4]), List.nil_append, List.append_assoc]

/-- What is left in an iterator. -/
structure IterInv (it : VIter) (rest : List Row) : Prop where
  len : rest.length = it.num - it.cur
  width : ∀ r ∈ rest, r.length = it.width
  bytes : rest ≠ [] → it.pos ≤ it.file.length ∧ it.file.drop it.pos = rest.flatten

theorem iter_next (it : VIter) (rest : List Row) (h : IterInv it rest) :
    it.next.1 = rest.head? ∧ IterInv it.next.2 (rest.drop 1) := by
  have hl := h.len
  unfold VIter.next
  by_cases hn : it.num < it.cur + 1
  · rw [if_pos hn]
    have h0 : rest = [] := List.eq_nil_of_length_eq_zero (by omega)
    subst h0
    refine ⟨rfl, ?_, by simp, by simp⟩
    simp only [List.drop_nil, List.length_nil]; omega
  · rw [if_neg hn]
    cases rest with
    | nil => simp at hl; omega
    | cons r rest =>
      obtain ⟨hp, hb⟩ := h.bytes (by simp)
      have hr := h.width r List.mem_cons_self
      have hlen : it.file.length - it.pos = it.width + rest.flatten.length := by
        rw [← List.length_drop, hb, List.flatten_cons, List.length_append, hr]
      have hbytes : bytesAt it.file it.pos it.width = some r := by
        unfold bytesAt
        rw [if_pos (by omega), hb, List.flatten_cons, List.take_append_of_le_length (Nat.le_of_eq hr.symm),
          List.take_of_length_le (Nat.le_of_eq hr)]
      rw [hbytes]
      refine ⟨rfl, ?_, ?_, ?_⟩
      · simp only [List.drop_succ_cons, List.drop_zero, List.length_cons] at hl ⊢; omega
      · intro x hx
        exact h.width x (List.mem_cons_of_mem _ (by simpa using hx))
      · intro _
        refine ⟨by show it.pos + it.width ≤ it.file.length; omega, ?_⟩
        show it.file.drop (it.pos + it.width) = _
        rw [← List.drop_drop, hb, List.flatten_cons, List.drop_append_of_le_length (Nat.le_of_eq hr.symm),
          List.drop_of_length_le (Nat.le_of_eq hr), List.nil_append, List.drop_succ_cons, List.drop_zero]

theorem head?_toList (l : List Row) : l.head?.toList = l.take 1 := by cases l <;> rfl

theorem iter_nth (it : VIter) (rest : List Row) (n : Nat) (h : IterInv it rest) :
    (it.nth n).1 = (rest.drop n).head? ∧ IterInv (it.nth n).2 (rest.drop (n + 1)) := by
  have hl := h.len
  unfold VIter.nth VIter.skip
  by_cases hn : it.num - it.cur < n
  · rw [if_pos hn]
    have h0 : rest.drop n = [] := List.drop_of_length_le (by omega)
    have h1 : rest.drop (n + 1) = [] := List.drop_of_length_le (by omega)
    rw [h0, h1]
    refine ⟨rfl, ?_, by simp, by simp⟩
    simp
  · rw [if_neg hn]
    by_cases h0 : n = 0
    · subst h0
      rw [if_pos rfl]
      exact iter_next it rest h
    · rw [if_neg h0]
      have hi : IterInv { it with pos := it.pos + n * it.width, cur := it.cur + n } (rest.drop n) := by
        refine ⟨?_, ?_, ?_⟩
        · rw [List.length_drop]; show _ = it.num - (it.cur + n); omega
        · intro r hr; exact h.width r (List.mem_of_mem_drop hr)
        · intro hne
          have hne' : rest ≠ [] := by rintro rfl; simp at hne
          obtain ⟨hp, hb⟩ := h.bytes hne'
          have hfl := flatten_length_rows _ _ h.width
          have hle : n * it.width ≤ rest.length * it.width := Nat.mul_le_mul_right _ (by omega)
          have hlen : it.file.length - it.pos = rest.length * it.width := by
            rw [← List.length_drop, hb, hfl]
          refine ⟨by show it.pos + n * it.width ≤ it.file.length; omega, ?_⟩
          show it.file.drop (it.pos + n * it.width) = _
          rw [← List.drop_drop, hb, flatten_drop_rows _ _ h.width]
      have := iter_next _ _ hi
      rw [List.drop_drop] at this
      exact this

theorem iter_collect (n : Nat) (it : VIter) (rest : List Row) (h : IterInv it rest) :
    (it.collect n).1 = rest.take n ∧ IterInv (it.collect n).2 (rest.drop n) := by
  induction n generalizing it rest with
  | zero => exact ⟨by simp [VIter.collect], h⟩
  | succ n ih =>
    obtain ⟨h1, h2⟩ := iter_next it rest h
    unfold VIter.collect
    cases hx : it.next with
    | mk x it' =>
      rw [hx] at h1 h2
      dsimp only at h1 h2
      cases rest with
      | nil =>
        simp only [List.head?_nil] at h1
        subst h1
        exact ⟨by simp, by simpa using h2⟩
      | cons r rest =>
        simp only [List.head?_cons] at h1
        subst h1
        obtain ⟨i1, i2⟩ := ih it' rest (by simpa using h2)
        dsimp only
        exact ⟨by simp [i1], by simpa using i2⟩

theorem iter_run (ops : List IterOp) (it : VIter) (rest : List Row) (h : IterInv it rest) :
    it.run ops = iterSpec rest ops := by
  induction ops generalizing it rest with
  | nil => rfl
  | cons op ops ih =>
    cases op with
    | next =>
      obtain ⟨h1, h2⟩ := iter_next it rest h
      unfold VIter.run iterSpec
      dsimp only
      rw [h1, ih _ _ h2, head?_toList]
    | nth n =>
      obtain ⟨h1, h2⟩ := iter_nth it rest n h
      unfold VIter.run iterSpec
      dsimp only
      rw [h1, ih _ _ h2, head?_toList]
    | nextN n =>
      obtain ⟨h1, h2⟩ := iter_collect n it rest h
      unfold VIter.run iterSpec VIter.nextN
      dsimp only
      rw [h1, ih _ _ h2]
      congr 1
      split
      · rename_i h0; simp [h0]
      · rfl

theorem VectorFile.iter {sz d : Nat} {rows : List Row} {file : List Byte} (h : VectorFile sz d rows file) :
    ∃ it, VIter.new sz file = some it ∧ IterInv it rows ∧ it.num = rows.length ∧ it.cur = 0 := by
  refine ⟨⟨file, 8, d * sz, rows.length, 0⟩, ?_, ⟨rfl, h.width, fun _ => ⟨?_, h.drop8⟩⟩, rfl, rfl⟩
  · unfold VIter.new; rw [h.metadata]; rfl
  · have := h.length
    show 8 ≤ file.length
    omega

/-- C70. Reading one by one, skipping and reading in blocks, in any sequence of calls, gives the vectors a list would
give. -/
theorem C70_iterator (sz d : Nat) (rows : List Row) (file : List Byte) (h : VectorFile sz d rows file)
    (ops : List IterOp) : (VIter.new sz file).map (·.run ops) = some (iterSpec rows ops) := by
  obtain ⟨it, h1, h2, -, -⟩ := h.iter
  rw [h1, Option.map_some, iter_run ops it rows h2]

/-- What the loading loop reads from a file that may have lost its end: the bytes left are the first `m` of the
remaining vectors. -/
theorem all_truncated (fuel : Nat) (it : VIter) (rest : List Row) (m : Nat) (hw : 0 < it.width)
    (hwidth : ∀ r ∈ rest, r.length = it.width) (hlen : rest.length = it.num - it.cur) (hp : it.pos ≤ it.file.length)
    (hb : it.file.drop it.pos = rest.flatten.take m) (hm : m ≤ rest.flatten.length) (hf : rest.length < fuel) :
    it.all fuel = rest.take (m / it.width) := by
  induction fuel generalizing it rest m with
  | zero => omega
  | succ fuel ih =>
    unfold VIter.all VIter.next
    by_cases hn : it.num < it.cur + 1
    · rw [if_pos hn]
      have h0 : rest = [] := List.eq_nil_of_length_eq_zero (by omega)
      simp [h0]
    · rw [if_neg hn]
      cases rest with
      | nil => simp at hlen; omega
      | cons r rest =>
        have hr := hwidth r List.mem_cons_self
        have hl : it.file.length - it.pos = m := by
          rw [← List.length_drop, hb, List.length_take]; omega
        unfold bytesAt
        by_cases hlt : m < it.width
        · rw [if_neg (by omega), Nat.div_eq_of_lt hlt]; simp
        · rw [if_pos (by omega)]
          dsimp only
          have hd : it.file.drop (it.pos + it.width) = rest.flatten.take (m - it.width) := by
            rw [← List.drop_drop, hb, List.drop_take, List.flatten_cons,
              List.drop_append_of_le_length (Nat.le_of_eq hr.symm), List.drop_of_length_le (Nat.le_of_eq hr),
              List.nil_append]
          rw [ih ⟨it.file, it.pos + it.width, it.width, it.num, it.cur + 1⟩ rest (m - it.width) hw
            (fun x hx => hwidth x (List.mem_cons_of_mem _ hx)) (by simp only [List.length_cons] at hlen; dsimp only; omega)
            (by dsimp only; omega) hd (by simp only [List.flatten_cons, List.length_append] at hm; omega)
            (by simp only [List.length_cons] at hf; omega)]
          have hdiv : m / it.width = (m - it.width) / it.width + 1 := by
            rw [← Nat.sub_add_cancel (Nat.le_of_not_lt hlt)]
            rw [Nat.add_div_right _ hw, Nat.sub_add_cancel (Nat.le_of_not_lt hlt)]
          dsimp only
          rw [hdiv, List.take_succ_cons, hb, List.take_take, Nat.min_eq_left (by omega), List.flatten_cons,
            List.take_append_of_le_length (Nat.le_of_eq hr.symm), List.take_of_length_le (Nat.le_of_eq hr)]

theorem load_truncated (sz d : Nat) (dflt : Nat → Row) (rows : List Row) (file : List Byte) (n : Nat)
    (h : VectorFile sz d rows file) (hw : 0 < d * sz) (h8 : 8 ≤ n) (hn : n ≤ file.length) :
    loadFromBin sz dflt (file.take n) =
      .ok (rows.take ((n - 8) / (d * sz)) ++ List.replicate (rows.length - (n - 8) / (d * sz)) (dflt d), d) := by
  have hl := h.length
  have hm : readMetadata (file.take n) = some (rows.length, d) := by rw [readMetadata_take _ _ h8, h.metadata]
  have hfl := flatten_length_rows _ _ h.width
  have hall := all_truncated (rows.length + 1) ⟨file.take n, 8, d * sz, rows.length, 0⟩ rows (n - 8) hw h.width rfl
    (by dsimp only; rw [List.length_take]; omega) (by dsimp only; rw [List.drop_take, h.drop8]) (by omega) (by omega)
  unfold loadFromBin VIter.new
  rw [hm]
  dsimp only [Option.map_some]
  rw [hall]
  have hk : (n - 8) / (d * sz) ≤ rows.length := by
    rw [Nat.div_le_iff_le_mul_add_pred hw]
    rw [Nat.mul_comm]; omega
  congr 3
  rw [List.length_take, Nat.min_eq_left hk]

/-- C70. Saving a store and loading the file gives the same vectors. -/
theorem C70_save_load (sz dim : Nat) (dflt : Nat → Row) (rows : List Row) (hw : ∀ r ∈ rows, r.length = dim * sz)
    (hpos : 0 < dim * sz) (hc : rows.length < 2 ^ 32) (hd : dim < 2 ^ 32) :
    loadFromBin sz dflt (saveToBin rows dim) = .ok (rows, dim) := by
  have h := C70_save_layout sz dim rows hw hc hd
  have hl := h.length
  have := load_truncated sz dim dflt rows _ (saveToBin rows dim).length h hpos (by omega) (Nat.le_refl _)
  rw [List.take_of_length_le (Nat.le_refl _), hl, Nat.add_sub_cancel_left, Nat.mul_div_cancel _ hpos] at this
  rw [this]
  simp

/-- C70, disagreement: loading a store from a file that lost its end succeeds. The vectors that are not in the file
keep the value the store was created with. -/
theorem C70_truncated_load_succeeds (sz d : Nat) (dflt : Nat → Row) (rows : List Row) (file : List Byte) (n : Nat)
    (h : VectorFile sz d rows file) (hpos : 0 < d * sz) (h8 : 8 ≤ n) (hn : n < file.length) :
    ∃ k < rows.length, loadFromBin sz dflt (file.take n) =
      .ok (rows.take k ++ List.replicate (rows.length - k) (dflt d), d) := by
  have hl := h.length
  refine ⟨(n - 8) / (d * sz), ?_, load_truncated sz d dflt rows file n h hpos h8 (by omega)⟩
  rw [Nat.div_lt_iff_lt_mul hpos]; omega

/-- C70, disagreement: a save that stops before the header is brought up to date leaves a file that loads as an empty
store, however many vectors were written. -/
theorem C70_interrupted_save_loads_empty (sz dim : Nat) (dflt : Nat → Row) (rows : List Row) (n : Nat)
    (hd : dim < 2 ^ 32) (h8 : 8 ≤ n) (hn : n < (saveToBin rows dim).length) :
    loadFromBin sz dflt (interruptedBin rows dim n) = .ok ([], dim) := by
  have t4 : ∀ x, (leEncode 4 x).length = 4 := leEncode_length 4
  have hops : saveBinOps rows dim = binBody rows dim ++ [.reset, .write (leEncode 4 rows.length), .flush] := by
    simp [saveBinOps, binBody]
  have hs := specWrites_append (binBody rows dim) [] (binBody_noreset rows dim)
  simp only [List.length_nil, List.nil_append, Nat.zero_add, written_binBody] at hs
  have hlen : (saveToBin rows dim).length = 8 + rows.flatten.length := by
    unfold saveToBin
    rw [hops, specWrites_concat, hs]
    simp only [specWrites, List.take_zero, List.nil_append, Nat.zero_add, List.length_append, List.length_drop, t4]
    omega
  have hi : interruptedBin rows dim n = leEncode 4 0 ++ leEncode 4 dim ++ rows.flatten.take (n - 8) := by
    unfold interruptedBin
    rw [hops, truncOps_append_lt _ _ _ (binBody_writes rows dim) (by
      rw [written_binBody]; simp only [List.length_append, t4]; omega)]
    obtain ⟨h1, h2⟩ := written_trunc n _ (binBody_writes rows dim)
    have := specWrites_append _ [] h2
    simp only [List.length_nil, List.nil_append, Nat.zero_add] at this
    rw [this, h1, written_binBody, List.take_append, List.take_of_length_le (by simp only [List.length_append, t4]; omega)]
    simp only [List.length_append, t4]
  unfold loadFromBin VIter.new
  rw [hi, readMetadata_append 0 dim _ (by decide) hd]
  dsimp only [Option.map_some]
  simp [VIter.all, VIter.next]

/-! ### Sampling -/

/-- The reader is where `cur` says it is. -/
structure SampInv (s : Sampler) (rows : List Row) : Prop where
  npts : s.npts = rows.length
  width : ∀ r ∈ rows, r.length = s.width
  len : s.file.length = 8 + rows.length * s.width
  bytes : s.file.drop 8 = rows.flatten
  pos : s.pos = 8 + s.cur * s.width

theorem samp_read (s : Sampler) (rows : List Row) (h : SampInv s rows) (idx : Nat) (hi : idx < rows.length) :
    bytesAt s.file (8 + idx * s.width) s.width = some rows[idx] := by
  have hle : (idx + 1) * s.width ≤ rows.length * s.width := Nat.mul_le_mul_right _ hi
  have hr := h.width rows[idx] (List.getElem_mem _)
  unfold bytesAt
  rw [if_pos (by rw [h.len]; rw [Nat.succ_mul] at hle; omega), ← List.drop_drop, h.bytes, flatten_drop_rows _ _ h.width,
    List.drop_eq_getElem_cons hi, List.flatten_cons, List.take_append_of_le_length (Nat.le_of_eq hr.symm),
    List.take_of_length_le (Nat.le_of_eq hr)]

theorem samp_target (s : Sampler) (rows : List Row) (h : SampInv s rows) (idx : Nat) :
    ((s.pos : Int) + ((idx : Int) - s.cur) * s.width) = ((8 + idx * s.width : Nat) : Int) := by
  rw [h.pos]; push_cast; ring

theorem samp_all (cb : List Row → Bool) (hcb : ∀ l, cb l = true) (rows : List Row) (idxs : List Nat) (s : Sampler)
    (out : List Row) (h : SampInv s rows) :
    let valid := idxs.takeWhile fun i => decide (i < rows.length)
    (s.readVectors cb out idxs).1 = out ++ valid.filterMap (fun i => rows[i]?) ∧
    (s.readVectors cb out idxs).2.1 = decide (valid = idxs) ∧
    SampInv (s.readVectors cb out idxs).2.2 rows := by
  induction idxs generalizing s out with
  | nil => simp [Sampler.readVectors, h]
  | cons idx idxs ih =>
    unfold Sampler.readVectors
    by_cases hi : idx < rows.length
    · rw [if_neg (by rw [h.npts]; omega)]
      dsimp only
      rw [samp_target s rows h idx, if_neg (by omega), Int.toNat_natCast, samp_read s rows h idx hi]
      dsimp only
      rw [if_pos (hcb _)]
      obtain ⟨i1, i2, i3⟩ := ih { s with pos := 8 + idx * s.width + s.width, cur := idx + 1 } (out ++ [rows[idx]])
        ⟨h.npts, h.width, h.len, h.bytes, by dsimp only; rw [Nat.succ_mul]; omega⟩
      refine ⟨?_, ?_, i3⟩
      · rw [i1, List.takeWhile_cons_of_pos (by simpa using hi), List.filterMap_cons_some (List.getElem?_eq_getElem hi)]
        simp
      · rw [i2, List.takeWhile_cons_of_pos (by simpa using hi)]
        simp
    · rw [if_pos (by rw [h.npts]; omega), List.takeWhile_cons_of_neg (by simpa using hi)]
      simp [h]

/-- One call of `read_vectors` after another, on one reader. -/
def Sampler.calls (cb : List Row → Bool) : Sampler → List (List Nat) → List (List Row × Bool)
  | _, [] => []
  | s, idxs :: rest => let x := s.readVectors cb [] idxs; (x.1, x.2.1) :: Sampler.calls cb x.2.2 rest

/-- C70. The sampling reader hands over the right vectors in the order asked for, for any number of calls with indices
in any order, repetitions included; a call fails exactly when it is given an index out of range, after handing over
the vectors before it. (The callback does not fail; see `C70_callback_error_shifts`.) -/
theorem C70_sampling_partial (sz d : Nat) (rows : List Row) (file : List Byte) (h : VectorFile sz d rows file)
    (calls : List (List Nat)) :
    (Sampler.new sz file).map (·.calls (fun _ => true) calls) = some (calls.map fun idxs =>
      let valid := idxs.takeWhile fun i => decide (i < rows.length)
      (valid.filterMap (fun i => rows[i]?), decide (valid = idxs))) := by
  have hl := h.length
  have hnew : Sampler.new sz file = some ⟨file, rows.length, d * sz, 8, 0⟩ := by
    unfold Sampler.new
    rw [h.metadata]
    dsimp only
    rw [if_neg (by rw [hl, Nat.mul_assoc]; simp)]
  rw [hnew, Option.map_some]
  congr 1
  have : ∀ (calls : List (List Nat)) (s : Sampler), SampInv s rows →
      s.calls (fun _ => true) calls = calls.map fun idxs =>
        let valid := idxs.takeWhile fun i => decide (i < rows.length)
        (valid.filterMap (fun i => rows[i]?), decide (valid = idxs)) := by
    intro calls
    induction calls with
    | nil => intros; rfl
    | cons idxs calls ih =>
      intro s hs
      obtain ⟨h1, h2, h3⟩ := samp_all (fun _ => true) (fun _ => rfl) rows idxs s [] hs
      unfold Sampler.calls
      dsimp only at h1 h2 h3 ⊢
      rw [h1, h2, ih _ h3, List.map_cons, List.nil_append]
  exact this calls _ ⟨rfl, h.width, hl, h.drop8, by simp⟩

def demoRows : List Row := [[1, 2], [3, 4], [5, 6]]

/-- C70, disagreement: after the callback failed on a vector the reader has moved on but does not know it, and the
next call returns other vectors than asked for: here vector 1 for index 0. -/
theorem C70_callback_error_shifts :
    (Sampler.new 1 (saveToBin demoRows 2)).map (fun s =>
      let x := s.readVectors (fun _ => false) [] [0]
      (x.2.1, (x.2.2.readVectors (fun _ => true) [] [0]).1)) = some (false, [[3, 4]]) := by decide +kernel

example : VectorFile 1 2 demoRows (saveToBin demoRows 2) :=
  C70_save_layout 1 2 demoRows (by decide) (by decide) (by decide)

example : readBin 1 (saveToBin demoRows 2) = .ok (demoRows, 2) := by decide +kernel

example : loadFromBin 1 (fun _ => [0, 0]) ((saveToBin demoRows 2).take 11) = .ok ([[1, 2], [0, 0], [0, 0]], 2) := by
  decide +kernel

example : iterSpec demoRows [.nth 1, .nextN 4, .next] = [[[3, 4]], [[5, 6]], []] := by decide

end Verif.Disk
