import Verif.Pq.CompressLemmas

/-! # C95: compressed data files

The file of codes is the same whatever the sizes of blocks and batches: the code of every vector, in order. An error or an
interruption leaves a file that the loader refuses. Resuming works when the existing prefix is right, which nothing checks. -/

namespace Verif.Pq

open Verif.Disk

variable {F : Type} {c : Compressor F} {code : List F → Option (List Byte)} {D : Nat}

namespace Spec

/-- The code of every row, in order. -/
structure Encoded (c : Compressor F) (code : List F → Option (List Byte)) (rows : List Row) (codes : List (List Byte)) :
    Prop where
  count : codes.length = rows.length
  each : ∀ i, i < rows.length → encodeRow c code (rows.getD i []) = some (codes.getD i [])

/-- Some row cannot be encoded. -/
def Unencodable (c : Compressor F) (code : List F → Option (List Byte)) (rows : List Row) : Prop :=
  ∃ r ∈ rows, encodeRow c code r = none

end Spec

open Spec

/-! ### Lemmas -/

theorem Spec.Encoded.all {rows : List Row} {codes : List (List Byte)} (h : Encoded c code rows codes) :
    allOk (encodeRow c code) rows = some codes := by
  refine allOk_of h.count fun i hi => ?_
  have := h.each i hi
  rwa [List.getD_eq_getElem _ _ hi, List.getD_eq_getElem _ _ (by rw [h.count]; exact hi)] at this

theorem Spec.Encoded.width (hr : Rowwise c code D) {rows : List Row} {codes : List (List Byte)}
    (h : Encoded c code rows codes) : ∀ b ∈ codes, b.length = c.bytes := by
  intro b hb
  obtain ⟨i, hi, rfl⟩ := List.getElem_of_mem hb
  have hi' : i < rows.length := by rw [← h.count]; exact hi
  have := h.each i hi'
  rw [List.getD_eq_getElem _ _ hi] at this
  exact (encodeRow_size hr this).1

theorem generatorBlock_eq (hr : Rowwise c code D) {sz dim : Nat} {rows : List Row} {data : List Byte}
    (hv : VectorFile sz dim rows data) (hd : dim ≠ 0) (start cur : Nat) (hc : 0 < cur) (hl : start + cur ≤ rows.length) :
    generatorBlock c sz dim data start cur = blockOf (allOk (encodeRow c code) ((rows.drop start).take cur)) := by
  obtain ⟨bs, e1, e2⟩ := bytesAt_rows hv start cur hl
  unfold generatorBlock
  rw [e1]
  dsimp only
  rw [e2]
  exact encodeBlock_first hr dim hd _ (by
    intro e
    have := congrArg List.length e
    rw [List.length_take, List.length_drop, List.length_nil] at this
    omega)

theorem pivotsBlock_eq (hr : Rowwise c code D) {sz dim : Nat} {rows : List Row} {data : List Byte}
    (hv : VectorFile sz dim rows data) (hd : dim ≠ 0) (start cur : Nat) (hl : start + cur ≤ rows.length) :
    pivotsBlock c sz dim D data start cur = blockOf (allOk (encodeRow c code) ((rows.drop start).take cur)) := by
  obtain ⟨bs, e1, e2⟩ := bytesAt_rows hv start cur hl
  unfold pivotsBlock
  rw [e1]
  dsimp only
  rw [e2]
  exact encodeBlock_pivots hr dim hd _

theorem loadCompressed_file {w : Nat} {codes : List (List Byte)} {file extra : List Byte} (hv : VectorFile 1 w codes file) :
    loadCompressed (file ++ extra) codes.length w = .ok codes := by
  unfold loadCompressed
  have hb : codes.length * w < 2 ^ 64 := by
    have h1 := hv.count
    have h2 := hv.dim
    have : codes.length * w ≤ 2 ^ 32 * w := Nat.mul_le_mul_right _ (by omega)
    have : 2 ^ 32 * w < 2 ^ 32 * 2 ^ 32 := Nat.mul_lt_mul_of_pos_left h2 (by decide)
    omega
  rw [C70_write_read 1 w codes file extra hv ⟨hb, by omega⟩]
  dsimp only
  rw [if_neg (by omega)]

/-- A file with a header and too few codes. -/
theorem loadCompressed_short (n w : Nat) (body : List Byte) (hn : n < 2 ^ 32) (hw : w < 2 ^ 32) (h : body.length < n * w)
    (n' w' : Nat) : loadCompressed (leEncode 4 n ++ leEncode 4 w ++ body) n' w' = .err := by
  unfold loadCompressed readBin
  rw [readMetadata_append n w body hn hw]
  dsimp only
  split
  · rfl
  · rename_i heq
    exfalso
    split at heq
    · cases heq
    · rw [if_pos (by simp only [List.length_append, leEncode_length]; omega)] at heq
      cases heq

/-- What `generate_data` does on a proper data file. -/
theorem generateData_eq {sz dim : Nat} {rows : List Row} {data : List Byte} (hv : VectorFile sz dim rows data)
    (hne : rows ≠ []) (hb : c.bytes < 2 ^ 32) (maxBlock : Nat) (hm : 0 < maxBlock) :
    generateData c sz data maxBlock =
      (some (.write (leEncode 4 rows.length ++ leEncode 4 c.bytes) ::
        (blockLoop (generatorBlock c sz dim data) c.bytes (min rows.length maxBlock) rows.length
          (numBlocks rows.length (min rows.length maxBlock)) 0).1),
        (blockLoop (generatorBlock c sz dim data) c.bytes (min rows.length maxBlock) rows.length
          (numBlocks rows.length (min rows.length maxBlock)) 0).2) := by
  have hpos : 0 < rows.length := List.length_pos_iff.mpr hne
  unfold generateData
  rw [hv.metadata]
  dsimp only
  rw [if_neg (by omega), if_neg (by omega)]
  unfold metadataBytes
  rw [if_pos ⟨hv.count, hb⟩]

theorem run_header (h : List Byte) (hh : h ≠ []) (ops : List POp) (hf : Follows h.length ops) (m : Nat) :
    fileOf (cutP m (.write h :: ops)) = (h ++ allBytes ops).take m := by
  unfold fileOf
  simp only [cutP]
  split
  · rename_i hm
    simp only [runP]
    rw [overwrite_start, List.drop_nil, List.append_nil, List.take_append_of_le_length (by omega)]
  · rename_i hm
    simp only [runP]
    rw [overwrite_start, List.drop_nil, List.append_nil, hf.run h _ rfl, List.take_append,
      List.take_of_length_le (l := h) (by omega)]

theorem run_header_all (h : List Byte) (hh : h ≠ []) (ops : List POp) (hf : Follows h.length ops) :
    fileOf (.write h :: ops) = h ++ allBytes ops := by
  have := run_header h hh ops hf (h ++ allBytes ops).length
  rwa [cutP_all _ _ (by simp [allBytes]), List.take_of_length_le (Nat.le_refl _)] at this

theorem header_ne (n w : Nat) : leEncode 4 n ++ leEncode 4 w ≠ [] := by
  intro e
  have := congrArg List.length e
  simp [leEncode_length] at this

theorem header_len (n w : Nat) : (leEncode 4 n ++ leEncode 4 w).length = 8 := by simp [leEncode_length]

/-! ### Generating -/

/-- C95. The compressed file holds the code of every vector, in order, whatever the block size, and the loader returns
them; an existing output file does not matter. -/
theorem C95_generated (hr : Rowwise c code D) (sz dim : Nat) (rows : List Row) (data : List Byte)
    (hv : VectorFile sz dim rows data) (hd : 0 < dim) (hne : rows ≠ []) (hb : c.bytes < 2 ^ 32) (maxBlock : Nat)
    (hm : 0 < maxBlock) (codes : List (List Byte)) (hc : Encoded c code rows codes) (old : Option (List Byte)) :
    ∃ file, outputAfter old (generateData c sz data maxBlock) = some file ∧ (generateData c sz data maxBlock).2 = .ok ∧
      VectorFile 1 c.bytes codes file ∧ loadCompressed file rows.length c.bytes = .ok codes := by
  have hpos : 0 < rows.length := List.length_pos_iff.mpr hne
  rw [generateData_eq hv hne hb maxBlock hm]
  obtain ⟨h1, h2, -⟩ := blockLoop_spec (rows := rows) (enc := encodeRow c code) (w := c.bytes)
    (blk := generatorBlock c sz dim data) (fun r b e => (encodeRow_size hr e).1) (min rows.length maxBlock) (by omega)
    (fun start cur hcur hl => generatorBlock_eq hr hv (by omega) start cur hcur hl) rows.length 0 rfl (by omega)
  rw [Nat.zero_mul, Nat.zero_add] at h1
  obtain ⟨h3, h4⟩ := h2 codes (by rw [List.drop_zero]; exact hc.all)
  rw [Nat.sub_zero] at h1 h3 h4
  have hfile : VectorFile 1 c.bytes codes (fileOf (.write (leEncode 4 rows.length ++ leEncode 4 c.bytes) ::
      (blockLoop (generatorBlock c sz dim data) c.bytes (min rows.length maxBlock) rows.length
        (numBlocks rows.length (min rows.length maxBlock)) 0).1)) := by
    refine ⟨fun b hb' => by rw [Nat.mul_one]; exact hc.width hr b hb', by rw [hc.count]; exact hv.count, hb, ?_⟩
    rw [run_header_all _ (header_ne _ _) _ (by rw [header_len]; exact h1), h4, hc.count]
  refine ⟨_, rfl, h3, hfile, ?_⟩
  have := loadCompressed_file (extra := []) hfile
  rwa [List.append_nil, hc.count] at this

/-- C95. When a vector cannot be encoded the call fails, and the file it leaves is refused. -/
theorem C95_unencodable (hr : Rowwise c code D) (sz dim : Nat) (rows : List Row) (data : List Byte)
    (hv : VectorFile sz dim rows data) (hd : 0 < dim) (hb : c.bytes < 2 ^ 32) (hb0 : 0 < c.bytes) (maxBlock : Nat)
    (hm : 0 < maxBlock) (hbad : Unencodable c code rows) (old : Option (List Byte)) :
    ∃ file, outputAfter old (generateData c sz data maxBlock) = some file ∧ (generateData c sz data maxBlock).2 = .err ∧
      ∀ n w, loadCompressed file n w = .err := by
  have hne : rows ≠ [] := by
    obtain ⟨r, hx, _⟩ := hbad
    rintro rfl
    simp at hx
  have hpos : 0 < rows.length := List.length_pos_iff.mpr hne
  rw [generateData_eq hv hne hb maxBlock hm]
  obtain ⟨h1, -, h2⟩ := blockLoop_spec (rows := rows) (enc := encodeRow c code) (w := c.bytes)
    (blk := generatorBlock c sz dim data) (fun r b e => (encodeRow_size hr e).1) (min rows.length maxBlock) (by omega)
    (fun start cur hcur hl => generatorBlock_eq hr hv (by omega) start cur hcur hl) rows.length 0 rfl (by omega)
  rw [Nat.zero_mul, Nat.zero_add] at h1
  obtain ⟨h3, j, hj, hjl⟩ := h2 (by rw [List.drop_zero]; exact allOk_none.2 hbad)
  rw [Nat.sub_zero] at h1 h3 hjl
  refine ⟨_, rfl, h3, fun n w => ?_⟩
  rw [run_header_all _ (header_ne _ _) _ (by rw [header_len]; exact h1)]
  exact loadCompressed_short _ _ _ hv.count hb (by
    rw [hjl]
    exact Nat.mul_lt_mul_of_pos_right (by omega) hb0) n w

/-- C95. Without vectors or with a block size of zero the call fails and an existing output file is kept. -/
theorem C95_refused (c : Compressor F) (sz : Nat) (data : List Byte) (maxBlock : Nat) (old : Option (List Byte))
    (h : maxBlock = 0 ∨ data.length < 8 ∨ ∃ d, readMetadata data = some (0, d)) :
    outputAfter old (generateData c sz data maxBlock) = old ∧ (generateData c sz data maxBlock).2 = .err := by
  unfold generateData
  cases hm : readMetadata data with
  | none => exact ⟨rfl, rfl⟩
  | some nd =>
    obtain ⟨n, d⟩ := nd
    dsimp only
    by_cases h0 : maxBlock = 0
    · rw [if_pos h0]; exact ⟨rfl, rfl⟩
    · rw [if_neg h0]
      have hn : n = 0 := by
        rcases h with h | h | ⟨d', h⟩
        · exact absurd h h0
        · rw [readMetadata_short data h] at hm; cases hm
        · rw [h] at hm; cases hm; rfl
      rw [if_pos hn]
      exact ⟨rfl, rfl⟩

/-- C95. However the call is cut short, the file it leaves is refused. -/
theorem C95_interrupted (hr : Rowwise c code D) (sz dim : Nat) (rows : List Row) (data : List Byte)
    (hv : VectorFile sz dim rows data) (hd : 0 < dim) (hne : rows ≠ []) (hb : c.bytes < 2 ^ 32) (maxBlock : Nat)
    (hm : 0 < maxBlock) (codes : List (List Byte)) (hc : Encoded c code rows codes) (ops : List POp)
    (ho : (generateData c sz data maxBlock).1 = some ops) (m : Nat) (hcut : m < 8 + rows.length * c.bytes) (n w : Nat) :
    loadCompressed (fileOf (cutP m ops)) n w = .err := by
  have hpos : 0 < rows.length := List.length_pos_iff.mpr hne
  rw [generateData_eq hv hne hb maxBlock hm] at ho
  cases ho
  obtain ⟨h1, h2, -⟩ := blockLoop_spec (rows := rows) (enc := encodeRow c code) (w := c.bytes)
    (blk := generatorBlock c sz dim data) (fun r b e => (encodeRow_size hr e).1) (min rows.length maxBlock) (by omega)
    (fun start cur hcur hl => generatorBlock_eq hr hv (by omega) start cur hcur hl) rows.length 0 rfl (by omega)
  rw [Nat.zero_mul, Nat.zero_add] at h1
  obtain ⟨h3, h4⟩ := h2 codes (by rw [List.drop_zero]; exact hc.all)
  rw [Nat.sub_zero] at h1 h3 h4
  rw [run_header _ (header_ne _ _) _ (by rw [header_len]; exact h1), h4]
  have hfile : VectorFile 1 c.bytes codes (leEncode 4 rows.length ++ leEncode 4 c.bytes ++ codes.flatten) :=
    ⟨fun b hb' => by rw [Nat.mul_one]; exact hc.width hr b hb', by rw [hc.count]; exact hv.count, hb, by rw [hc.count]⟩
  have hl := hfile.length
  rw [Nat.mul_one, hc.count] at hl
  have := (C70_truncated_refused 1 c.bytes codes _ m hfile (by rw [hl]; exact hcut)).1
  unfold loadCompressed
  rw [this]

/-- C95. A data file shorter than its header says is never compressed successfully. -/
theorem C95_short_data (c : Compressor F) (sz : Nat) (data : List Byte) (n dim : Nat)
    (hmd : readMetadata data = some (n, dim)) (hshort : data.length < 8 + n * (dim * sz)) (maxBlock : Nat) :
    (generateData c sz data maxBlock).2 ≠ .ok := by
  intro hok
  have hn : n ≠ 0 := by
    rintro rfl
    unfold readMetadata at hmd
    split at hmd
    · omega
    · cases hmd
  unfold generateData at hok
  rw [hmd] at hok
  dsimp only at hok
  split at hok
  · cases hok
  rename_i hm
  cases hh : metadataBytes n c.bytes with
  | none => rw [hh] at hok; cases hok
  | some h =>
    rw [hh] at hok
    dsimp only at hok
    obtain ⟨s, cur, bs, e1, e2, e3⟩ := blockLoop_ok_last _ c.bytes (min n maxBlock) n (by omega) n 0 rfl (by omega) hok
    unfold generatorBlock bytesAt at e3
    have : (s + cur) * (dim * sz) = n * (dim * sz) := by rw [e1]
    rw [Nat.add_mul] at this
    rw [if_neg (by omega)] at e3
    cases e3

/-! ### From the pivots, and resuming -/

/-- The tail of a loop put behind a correct prefix. -/
theorem resume_run {L : Nat} {ops : List POp} (hf : Follows L ops) (f : List Byte) (p : Nat) (hl : L ≤ f.length) :
    (runP (f, p) ops).1 = f.take L ++ allBytes ops ++ f.drop (L + (allBytes ops).length) := by
  induction hf generalizing f p with
  | nil L => simp [runP, allBytes]
  | step L bs ops _ ih =>
    simp only [runP, allBytes]
    have ho : overwrite f L bs = f.take L ++ bs ++ f.drop (L + bs.length) := by
      unfold overwrite
      split
      · rename_i h0; subst h0; simp
      · rw [show L - f.length = 0 by omega]; simp
    have hlen : (f.take L).length = L := by rw [List.length_take]; omega
    rw [ih _ _ (by rw [ho]; simp only [List.length_append, List.length_drop, hlen]; omega), ho]
    rw [List.take_append_of_le_length (by rw [List.length_append, hlen]),
      List.take_of_length_le (by rw [List.length_append, hlen]), List.drop_append, List.drop_of_length_le (by
        rw [List.length_append, hlen]; omega), List.nil_append, List.drop_drop]
    simp only [List.append_assoc, List.length_append, hlen]
    congr 4
    omega

/-- C95. Compressing with a table of pivots, from the start or resuming at `offset`: when the codes of the first `offset`
vectors are in the existing file the result holds the codes of all vectors, in order; more bytes behind do not matter. That the existing
file is checked is missing: see `C95_not_validated`. -/
theorem C95_resume_partial (hr : Rowwise c code D) (sz dim : Nat) (rows : List Row) (data : List Byte)
    (hv : VectorFile sz dim rows data) (hd : 0 < dim) (hne : rows ≠ []) (hb : c.bytes < 2 ^ 32)
    (codes : List (List Byte)) (hc : Encoded c code rows codes) (offset : Nat) (hoff : offset ≤ rows.length)
    (old : Option (List Byte))
    (hold : 0 < offset → ∃ f, old = some f ∧ 8 + offset * c.bytes ≤ f.length ∧
      (f.drop 8).take (offset * c.bytes) = (codes.take offset).flatten) :
    ∃ file, generateFromPivots c sz D data offset old = (some file, .ok) ∧
      loadCompressed file rows.length c.bytes = .ok codes := by
  have hpos : 0 < rows.length := List.length_pos_iff.mpr hne
  have hblock : 0 < if rows.length ≤ 10000 then rows.length else 10000 := by split <;> omega
  obtain ⟨h1, h2, -⟩ := blockLoop_spec (rows := rows) (enc := encodeRow c code) (w := c.bytes)
    (blk := pivotsBlock c sz dim D data) (fun r b e => (encodeRow_size hr e).1)
    (if rows.length ≤ 10000 then rows.length else 10000) hblock
    (fun start cur _ hl => pivotsBlock_eq hr hv (by omega) start cur hl) (rows.length - offset) offset rfl hoff
  have hdrop : allOk (encodeRow c code) (rows.drop offset) = some (codes.drop offset) := by
    refine allOk_of (by rw [List.length_drop, List.length_drop, hc.count]) fun i hi => ?_
    rw [List.length_drop] at hi
    have := hc.each (offset + i) (by omega)
    rw [List.getD_eq_getElem _ _ (by omega), List.getD_eq_getElem _ _ (by rw [hc.count]; omega)] at this
    rw [List.getElem_drop, List.getElem_drop]
    exact this
  obtain ⟨h3, h4⟩ := h2 _ hdrop
  generalize hloop : blockLoop (pivotsBlock c sz dim D data) c.bytes (if rows.length ≤ 10000 then rows.length else 10000)
    rows.length (numBlocks (rows.length - offset) (if rows.length ≤ 10000 then rows.length else 10000)) offset = r at h1 h3 h4
  -- the file that is opened
  obtain ⟨f, hopen, hf1, hf2⟩ : ∃ f, (if offset > 0 then old else some []) = some f ∧
      (0 < offset → 8 + offset * c.bytes ≤ f.length) ∧
      (0 < offset → (f.drop 8).take (offset * c.bytes) = (codes.take offset).flatten) := by
    by_cases h0 : 0 < offset
    · obtain ⟨f, e1, e2, e3⟩ := hold h0
      exact ⟨f, by rw [if_pos h0, e1], fun _ => e2, fun _ => e3⟩
    · exact ⟨[], by rw [if_neg h0], fun h => absurd h h0, fun h => absurd h h0⟩
  have hgen : generateFromPivots c sz D data offset old = (some (runP (f, 0)
      (.write (leEncode 4 rows.length ++ leEncode 4 c.bytes) :: r.1)).1, .ok) := by
    unfold generateFromPivots
    dsimp only
    rw [hopen]
    dsimp only
    rw [hv.metadata]
    dsimp only
    unfold metadataBytes
    rw [if_pos ⟨hv.count, hb⟩]
    dsimp only
    rw [if_neg (by omega), hloop, h3]
  refine ⟨_, hgen, ?_⟩
  simp only [runP]
  rw [overwrite_start, header_len]
  have hcodes : codes.length = rows.length := hc.count
  have hwid := hc.width hr
  have htake : (codes.take offset).flatten.length = offset * c.bytes := by
    rw [flatten_length_rows c.bytes _ fun b hb' => hwid b (List.mem_of_mem_take hb'), List.length_take]
    congr 1; omega
  have hpre : ((leEncode 4 rows.length ++ leEncode 4 c.bytes) ++ f.drop 8).take (offset * c.bytes + 8) =
      (leEncode 4 rows.length ++ leEncode 4 c.bytes) ++ (codes.take offset).flatten := by
    rw [List.take_append, List.take_of_length_le (by rw [header_len]; omega), header_len, Nat.add_sub_cancel]
    congr 1
    by_cases h0 : 0 < offset
    · exact hf2 h0
    · have : offset = 0 := by omega
      subst this
      simp
  rw [resume_run h1 _ _ (by
    rw [List.length_append, header_len, List.length_drop]
    by_cases h0 : 0 < offset
    · have := hf1 h0; omega
    · have : offset = 0 := by omega
      subst this; omega), hpre, h4, List.append_assoc (leEncode 4 rows.length ++ leEncode 4 c.bytes), ← List.flatten_append,
    List.take_append_drop]
  have hfile : VectorFile 1 c.bytes codes (leEncode 4 rows.length ++ leEncode 4 c.bytes ++ codes.flatten) :=
    ⟨fun b hb' => by rw [Nat.mul_one]; exact hwid b hb', by rw [hcodes]; exact hv.count, hb, by rw [hcodes]⟩
  have := loadCompressed_file (extra := (leEncode 4 rows.length ++ leEncode 4 c.bytes ++ f.drop 8).drop
    (offset * c.bytes + 8 + (codes.drop offset).flatten.length)) hfile
  rwa [hcodes] at this

/-- C95. Resuming behind the last vector, or an empty data file, panics. -/
theorem C95_offset_panics (c : Compressor F) (sz fd : Nat) (data : List Byte) (n dim offset : Nat) (f : List Byte)
    (hmd : readMetadata data = some (n, dim)) (hn : n < 2 ^ 32) (hb : c.bytes < 2 ^ 32) (h : n < offset ∨ n = 0) :
    (generateFromPivots c sz fd data offset (some f)).2 = .panic := by
  unfold generateFromPivots
  have : ∃ g, (if offset > 0 then some f else some []) = some g := by split <;> exact ⟨_, rfl⟩
  obtain ⟨g, hg⟩ := this
  dsimp only
  rw [hg]
  dsimp only
  rw [hmd]
  dsimp only
  unfold metadataBytes
  rw [if_pos ⟨hn, hb⟩]
  dsimp only
  rw [if_pos (by rcases h with h | h; exact Or.inl h; subst h; right; rfl)]

/-- C95, refutation. The tool that builds product quantization reads the data file as `f32` whatever its element type: on
vectors of one byte per element it never succeeds. -/
theorem C95_tool_element_type (c : Compressor F) (fd dim : Nat) (rows : List Row) (data : List Byte)
    (hv : VectorFile 1 dim rows data) (hd : 0 < dim) (hne : rows ≠ []) (old : Option (List Byte)) :
    (generateFromPivots c 4 fd data 0 old).2 ≠ .ok := by
  intro hok
  have hpos : 0 < rows.length := List.length_pos_iff.mpr hne
  unfold generateFromPivots at hok
  dsimp only at hok
  rw [if_neg (by omega)] at hok
  dsimp only at hok
  rw [hv.metadata] at hok
  dsimp only at hok
  cases hh : metadataBytes rows.length c.bytes with
  | none => rw [hh] at hok; cases hok
  | some h =>
    rw [hh] at hok
    dsimp only at hok
    rw [if_neg (show ¬ (rows.length < 0 ∨ (if rows.length ≤ 10000 then rows.length else 10000) = 0) by split <;> omega)] at hok
    dsimp only at hok
    obtain ⟨s, cur, bs, e1, e2, e3⟩ := blockLoop_ok_last _ c.bytes (if rows.length ≤ 10000 then rows.length else 10000)
      rows.length (by split <;> omega) rows.length 0 rfl (by omega) hok
    unfold pivotsBlock bytesAt at e3
    have hl := hv.length
    have : (s + cur) * (dim * 4) = rows.length * (dim * 4) := by rw [e1]
    rw [Nat.add_mul] at this
    have h4 : rows.length * (dim * 4) = 4 * (rows.length * dim) := by ring
    have hmul : 0 < rows.length * dim := Nat.mul_pos hpos hd
    rw [if_neg (by rw [hl, Nat.mul_one]; omega)] at e3
    cases e3

/-- C95. Loading checks the numbers: a complete file is loaded exactly with its own number of vectors and size of codes. -/
theorem C95_load_checks {w : Nat} {codes : List (List Byte)} {file extra : List Byte} (hv : VectorFile 1 w codes file)
    (n chunks : Nat) :
    loadCompressed (file ++ extra) n chunks = if n = codes.length ∧ chunks = w then .ok codes else .err := by
  split
  · rename_i h
    rw [h.1, h.2]
    exact loadCompressed_file hv
  · rename_i h
    unfold loadCompressed
    have hb : codes.length * w < 2 ^ 64 := by
      have h1 := hv.count
      have h2 := hv.dim
      have : codes.length * w ≤ 2 ^ 32 * w := Nat.mul_le_mul_right _ (by omega)
      have : 2 ^ 32 * w < 2 ^ 32 * 2 ^ 32 := Nat.mul_lt_mul_of_pos_left h2 (by decide)
      omega
    rw [C70_write_read 1 w codes file extra hv ⟨hb, by omega⟩]
    dsimp only
    rw [if_pos (by omega)]

/-- C95, refutation of "an error or a file". If the first vector has the full dimension zero, or its row is empty, compressing
panics; the output file then has a header only. -/
theorem C95_zero_dimension (c : Compressor F) (sz dim : Nat) (rows : List Row) (data : List Byte)
    (hv : VectorFile sz dim rows data) (hne : rows ≠ []) (hb : c.bytes < 2 ^ 32) (maxBlock : Nat) (hm : 0 < maxBlock)
    (fd : Nat) (hf : c.fullDim (rows.headD []) = some fd) (h0 : dim = 0 ∨ fd = 0) (old : Option (List Byte)) :
    outputAfter old (generateData c sz data maxBlock) = some (leEncode 4 rows.length ++ leEncode 4 c.bytes) ∧
      (generateData c sz data maxBlock).2 = .panic := by
  have hpos : 0 < rows.length := List.length_pos_iff.mpr hne
  have hk : ∃ k, numBlocks rows.length (min rows.length maxBlock) = k + 1 := by
    refine ⟨numBlocks rows.length (min rows.length maxBlock) - 1, ?_⟩
    have : 0 < rows.length / min rows.length maxBlock := Nat.div_pos (Nat.min_le_left _ _) (by omega)
    unfold numBlocks
    omega
  obtain ⟨k, hk⟩ := hk
  have hblk : generatorBlock c sz dim data 0 (min (0 + min rows.length maxBlock) rows.length - 0) = .panic := by
    obtain ⟨bs, e1, e2⟩ := bytesAt_rows hv 0 (min (0 + min rows.length maxBlock) rows.length - 0) (by omega)
    unfold generatorBlock
    rw [e1]
    dsimp only
    rw [e2]
    have : ((rows.drop 0).take (min (0 + min rows.length maxBlock) rows.length - 0)).headD [] = rows.headD [] := by
      obtain ⟨r, rest, rfl⟩ := List.exists_cons_of_ne_nil hne
      rw [show min (0 + min (r :: rest).length maxBlock) (r :: rest).length - 0 =
        (min (0 + min (r :: rest).length maxBlock) (r :: rest).length - 1) + 1 by omega]
      rfl
    rw [this, hf]
    dsimp only
    unfold encodeBlock
    rw [if_pos h0]
  rw [generateData_eq hv hne hb maxBlock hm, hk]
  unfold blockLoop
  dsimp only
  rw [hblk]
  refine ⟨congrArg some ?_, rfl⟩
  unfold fileOf
  simp only [runP]
  rw [overwrite_start, List.drop_nil, List.append_nil]

/-! ### Cases -/

/-- One-byte elements, the code of a vector is its first element plus one; vectors beginning with 255 have no code. -/
def exC : Compressor Nat where
  fullDim r := if r.length = 0 then none else some r.length
  conv r fd := if r.length = fd ∧ fd ≠ 0 then some (r.map UInt8.toNat) else none
  bytes := 1
  compress rows := allOk (fun x => if x.length = 2 ∧ x.headD 0 < 255 then some [UInt8.ofNat (x.headD 0 + 1)] else none) rows

theorem exC_rowwise : Rowwise exC
    (fun x => if x.length = 2 ∧ x.headD 0 < 255 then some [UInt8.ofNat (x.headD 0 + 1)] else none) 2 := by
  refine ⟨fun _ => rfl, ?_, ?_, by decide, ?_, ?_⟩
  · intro x b h
    split at h
    · cases h; rfl
    · cases h
  · intro x b h
    split at h
    · rename_i h1; exact h1.1
    · cases h
  · intro r fd x h
    simp only [exC] at h ⊢
    split at h
    · rename_i h1
      cases h
      rw [if_neg (by omega)]
      exact ⟨by simp [h1.1], by rw [h1.1]⟩
    · cases h
  · intro r h
    simp only [exC] at h
    split at h
    · cases h
    · rename_i h1
      simp only [Option.some.injEq] at h
      exact h1 h

def exRows : List Row := [[1, 2], [3, 4], [5, 6]]

def exData : List Byte := leEncode 4 3 ++ leEncode 4 2 ++ exRows.flatten

theorem exData_file : VectorFile 1 2 exRows exData := ⟨by decide, by decide, by decide, rfl⟩

def exCodes : List (List Byte) := [[2], [4], [6]]

theorem exEncoded : Encoded exC (fun x => if x.length = 2 ∧ x.headD 0 < 255 then some [UInt8.ofNat (x.headD 0 + 1)] else none)
    exRows exCodes := ⟨rfl, by decide⟩

/-- Blocks of two rows: the file is that of one block. -/
example : outputAfter none (generateData exC 1 exData 2) = some [3, 0, 0, 0, 1, 0, 0, 0, 2, 4, 6] ∧
    outputAfter (some [9]) (generateData exC 1 exData 7) = some [3, 0, 0, 0, 1, 0, 0, 0, 2, 4, 6] := by decide +kernel

example : ∃ file, outputAfter none (generateData exC 1 exData 2) = some file ∧ (generateData exC 1 exData 2).2 = .ok ∧
    VectorFile 1 1 exCodes file ∧ loadCompressed file 3 1 = .ok exCodes :=
  C95_generated exC_rowwise 1 2 exRows exData exData_file (by decide) (by decide) (by decide) 2 (by decide) exCodes
    exEncoded none

/-- Resuming at the second vector. -/
example : generateFromPivots exC 1 2 exData 1 (some [3, 0, 0, 0, 1, 0, 0, 0, 2]) =
    (some [3, 0, 0, 0, 1, 0, 0, 0, 2, 4, 6], .ok) := by decide +kernel

/-- C95, refutation. The documentation says that the existing file is validated against the offset. An empty file is
accepted: the codes of the skipped vectors are zeros, and the loader does not notice. -/
theorem C95_not_validated :
    ∃ file, generateFromPivots exC 1 2 exData 1 (some []) = (some file, .ok) ∧
      loadCompressed file 3 1 = .ok [[0], [4], [6]] ∧ exCodes = [[2], [4], [6]] :=
  ⟨[3, 0, 0, 0, 1, 0, 0, 0, 0, 4, 6], by decide +kernel, by decide +kernel, rfl⟩

example : loadCompressed ([3, 0, 0, 0, 1, 0, 0, 0, 2, 4, 6] ++ []) 2 1 = .err ∧
    loadCompressed ([3, 0, 0, 0, 1, 0, 0, 0, 2, 4, 6] ++ [7]) 3 1 = .ok [[2], [4], [6]] := by
  have h : VectorFile 1 1 exCodes [3, 0, 0, 0, 1, 0, 0, 0, 2, 4, 6] := ⟨by decide, by decide, by decide, by decide⟩
  exact ⟨by rw [C95_load_checks h]; rfl, by rw [C95_load_checks h]; rfl⟩

/-- Rows of four bytes whose full dimension is zero. -/
example : (generateData { exC with fullDim := fun _ => some 0 } 1 exData 2).2 = .panic :=
  (C95_zero_dimension _ 1 2 exRows exData exData_file (by decide) (by decide) 2 (by decide) 0 rfl (.inr rfl) none).2

/-- A vector without a code. -/
example : (generateData exC 1 (leEncode 4 2 ++ leEncode 4 2 ++ [1, 2, 255, 0]) 1).2 = .err := by decide +kernel

end Verif.Pq
