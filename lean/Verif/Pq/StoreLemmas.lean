import Verif.Pq.StoreModel
import Verif.Disk.VectorFileProps

/-! # Lemmas about pivot files -/

namespace Verif.Pq

open Verif.Disk

theorem overwrite_nil (file : List Byte) (pos : Nat) : overwrite file pos [] = file := by
  unfold overwrite; rw [if_pos rfl]

theorem overwrite_gap (pos : Nat) (bs : List Byte) (h : bs ≠ []) :
    overwrite [] pos bs = List.replicate pos 0 ++ bs := by
  unfold overwrite; rw [if_neg h]; simp

theorem overwrite_end (file bs : List Byte) : overwrite file file.length bs = file ++ bs := by
  unfold overwrite
  split
  · rename_i h; simp [h]
  · simp

theorem overwrite_end' (file bs : List Byte) (pos : Nat) (h : pos = file.length) : overwrite file pos bs = file ++ bs := by
  rw [h, overwrite_end]

theorem overwrite_start (file bs : List Byte) : overwrite file 0 bs = bs ++ file.drop bs.length := by
  unfold overwrite
  split
  · rename_i h; simp [h]
  · simp

/-- The writes of a pivot file. -/
abbrev pivotOps (p c o h : List Byte) : List POp :=
  [.seek metadataSize, .write p, .write c, .write o, .seek 0, .write h]

theorem file_complete (p c o h : List Byte) (hp : p ≠ []) (hh : h.length ≤ metadataSize) :
    fileOf (pivotOps p c o h) = h ++ List.replicate (metadataSize - h.length) 0 ++ (p ++ c ++ o) := by
  unfold fileOf
  simp only [runP]
  rw [overwrite_gap _ _ hp, overwrite_end' _ c _ (by simp), overwrite_end' _ o _ (by simp [Nat.add_assoc]), overwrite_start]
  rw [List.append_assoc, List.append_assoc, List.drop_append_of_le_length (by simpa using hh), List.drop_replicate]
  simp

theorem file_cut_body (p c o h : List Byte) (hp : p ≠ []) (n : Nat) (hn : n < (p ++ c ++ o).length) :
    fileOf (cutP n (pivotOps p c o h)) = if n = 0 then [] else List.replicate metadataSize 0 ++ (p ++ c ++ o).take n := by
  have hp0 : 0 < p.length := List.length_pos_iff.mpr hp
  simp only [List.length_append] at hn
  unfold fileOf
  simp only [cutP]
  by_cases h1 : n < p.length
  · rw [if_pos h1]
    simp only [runP]
    by_cases h0 : n = 0
    · subst h0; simp [overwrite_nil]
    · rw [overwrite_gap _ _ (by
        intro e; have := congrArg List.length e; rw [List.length_take, List.length_nil] at this; omega), if_neg h0,
        List.append_assoc, List.take_append_of_le_length (by omega)]
  · rw [if_neg h1, if_neg (show ¬ n = 0 by omega)]
    by_cases h2 : n - p.length < c.length
    · rw [if_pos h2]
      simp only [runP]
      rw [overwrite_gap _ _ hp, overwrite_end' _ _ _ (by simp), List.append_assoc, List.append_assoc, List.take_append,
        List.take_of_length_le (l := p) (by omega), List.take_append_of_le_length (by omega)]
    · rw [if_neg h2, if_pos (by omega)]
      simp only [runP]
      rw [overwrite_gap _ _ hp, overwrite_end' _ c _ (by simp), overwrite_end' _ _ _ (by simp [Nat.add_assoc]), List.take_append,
        List.take_of_length_le (l := p ++ c) (by simp only [List.length_append]; omega), List.length_append,
        Nat.sub_sub, List.append_assoc, List.append_assoc, List.append_assoc]

theorem file_cut_header (p c o h : List Byte) (hp : p ≠ []) (hh : h.length ≤ metadataSize) (m : Nat) (hm : m ≤ h.length) :
    fileOf (cutP ((p ++ c ++ o).length + m) (pivotOps p c o h)) =
      h.take m ++ List.replicate (metadataSize - m) 0 ++ (p ++ c ++ o) := by
  have key : ∀ w : List Byte, w.length ≤ metadataSize → fileOf (pivotOps p c o w) =
      w ++ List.replicate (metadataSize - w.length) 0 ++ (p ++ c ++ o) := fun w hw => file_complete p c o w hp hw
  have hcut : cutP ((p ++ c ++ o).length + m) (pivotOps p c o h) = pivotOps p c o (h.take m) := by
    simp only [cutP, List.length_append]
    rw [if_neg (by omega), if_neg (by omega), if_neg (by omega)]
    by_cases hlt : p.length + c.length + o.length + m - p.length - c.length - o.length < h.length
    · rw [if_pos hlt]
      have : p.length + c.length + o.length + m - p.length - c.length - o.length = m := by omega
      rw [this]
    · rw [if_neg hlt, List.take_of_length_le (l := h) (by omega)]
  rw [hcut, key _ (by rw [List.length_take]; omega), List.length_take, Nat.min_eq_left hm]

/-! ## Pieces of a file -/

theorem flatMap_le_length (k : Nat) (xs : List Nat) : (xs.flatMap (leEncode k)).length = xs.length * k := by
  induction xs with
  | nil => simp
  | cons x xs ih => simp only [List.flatMap_cons, List.length_append, leEncode_length, ih, List.length_cons]; ring

theorem columnBytes_file (k : Nat) (xs : List Nat) (b : List Byte) (h : columnBytes k xs = some b) :
    VectorFile k 1 (xs.map (leEncode k)) b := by
  unfold columnBytes metadataBytes at h
  split at h
  · rename_i hb
    simp only [Option.map_some, Option.some.injEq] at h
    refine ⟨?_, by simpa using hb.1, by omega, ?_⟩
    · intro r hr
      obtain ⟨x, _, rfl⟩ := List.mem_map.mp hr
      rw [leEncode_length]; omega
    · rw [← h, List.length_map, List.flatMap_def]
  · simp at h

theorem columnBytes_some (k : Nat) (xs : List Nat) (h : xs.length < 2 ^ 32) :
    columnBytes k xs = some (leEncode 4 xs.length ++ leEncode 4 1 ++ xs.flatMap (leEncode k)) := by
  unfold columnBytes metadataBytes
  rw [if_pos ⟨h, by omega⟩]; rfl

theorem flatten_flatMap_le (P : List (List Nat)) :
    P.flatten.flatMap (leEncode 4) = (P.map fun r => r.flatMap (leEncode 4)).flatten := by
  induction P with
  | nil => rfl
  | cons r P ih => simp only [List.flatten_cons, List.flatMap_append, List.map_cons, ih]

theorem flatten_length_of (P : List (List Nat)) (d : Nat) (h : ∀ r ∈ P, r.length = d) : P.flatten.length = P.length * d := by
  induction P with
  | nil => simp
  | cons r P ih =>
    rw [List.flatten_cons, List.length_append, h r List.mem_cons_self, ih fun r hr => h r (List.mem_cons_of_mem _ hr),
      List.length_cons]; ring

theorem pivotBytes_some (P : List (List Nat)) (dim : Nat) (hP : ∀ r ∈ P, r.length = dim) (hn : P.length < 2 ^ 32)
    (hd : dim < 2 ^ 32) :
    ∃ p, pivotBytes P.flatten P.length dim = some p ∧
      VectorFile 4 dim (P.map fun r => r.flatMap (leEncode 4)) p := by
  unfold pivotBytes metadataBytes
  rw [if_neg (by rw [flatten_length_of P dim hP]; simp), if_pos ⟨hn, hd⟩]
  refine ⟨_, rfl, ?_, by simpa using hn, hd, ?_⟩
  · intro r hr
    obtain ⟨x, hx, rfl⟩ := List.mem_map.mp hr
    rw [flatMap_le_length, hP x hx]
  · rw [List.length_map, flatten_flatMap_le]

theorem decode_rows (P : List (List Nat)) (dim : Nat) (hP : ∀ r ∈ P, r.length = dim) (hv : ∀ r ∈ P, ∀ x ∈ r, x < 2 ^ 32) :
    (P.map fun r => r.flatMap (leEncode 4)).map (decodeU32s dim) = P := by
  rw [List.map_map]
  conv_rhs => rw [← List.map_id P]
  refine List.map_congr_left fun r hr => ?_
  have := decodeU32s_append r [] (hv r hr)
  rw [List.append_nil, ← List.flatMap_def, hP r hr] at this
  simpa using this

theorem decode_col (k : Nat) (xs : List Nat) (hv : ∀ x ∈ xs, x < 256 ^ k) : (xs.map (leEncode k)).map leDecode = xs := by
  rw [List.map_map]
  conv_rhs => rw [← List.map_id xs]
  exact List.map_congr_left fun x hx => leDecode_leEncode k x (hv x hx)

/-! ## Which tables a file can give -/

theorem Basic_new_some {T : Type} {m : Mat T} {o : Offsets} {t : Basic T} (h : Basic.new m o = some t) :
    t = ⟨m, o⟩ ∧ m.ncols = o.dim ∧ m.nrows ≠ 0 := by
  unfold Basic.new at h
  split at h
  · cases h
  · split at h
    · cases h
    · rename_i h1 h2
      simp only [Option.some.injEq] at h
      exact ⟨h.symm, by simpa using h1, h2⟩

/-- The parts of a successful read. -/
theorem readPivotFile_ok {file : List Byte} {rows : List (List Nat)} {d : Nat} {cent chunks : List Nat}
    (h : readPivotFile file = .ok ((rows, d), cent, chunks)) :
    ∃ offs raw craw kraw, readBinFrom 8 file 0 = .ok (offs, 1) ∧ offs.length = 4 ∧
      readBinFrom 4 file (leDecode (offs.getD 0 [])) = .ok (raw, d) ∧ raw.length ≤ 256 ∧
      readBinFrom 4 file (leDecode (offs.getD 1 [])) = .ok (craw, 1) ∧ craw.length = d ∧
      readBinFrom 4 file (leDecode (offs.getD 2 [])) = .ok (kraw, 1) ∧
      rows = raw.map (decodeU32s d) ∧ cent = craw.map leDecode ∧ chunks = kraw.map leDecode := by
  unfold readPivotFile at h
  cases h1 : readBinFrom 8 file 0 with
  | err => rw [h1] at h; cases h
  | ok a =>
    obtain ⟨offs, nc⟩ := a
    rw [h1] at h
    dsimp only at h
    split at h
    · cases h
    rename_i hb1
    cases h2 : readBinFrom 4 file (leDecode (offs.getD 0 [])) with
    | err => rw [h2] at h; cases h
    | ok b =>
      obtain ⟨raw, d'⟩ := b
      rw [h2] at h
      dsimp only at h
      split at h
      · cases h
      rename_i hb2
      cases h3 : readBinFrom 4 file (leDecode (offs.getD 1 [])) with
      | err => rw [h3] at h; cases h
      | ok c =>
        obtain ⟨craw, cc⟩ := c
        rw [h3] at h
        dsimp only at h
        split at h
        · cases h
        rename_i hb3
        cases h4 : readBinFrom 4 file (leDecode (offs.getD 2 [])) with
        | err => rw [h4] at h; cases h
        | ok e =>
          obtain ⟨kraw, kc⟩ := e
          rw [h4] at h
          dsimp only at h
          split at h
          · cases h
          rename_i hb4
          simp only [BinRes.ok.injEq, Prod.mk.injEq] at h
          obtain ⟨⟨rfl, rfl⟩, rfl, rfl⟩ := h
          have hnc : nc = 1 := by omega
          have hcc : cc = 1 := by omega
          have hkc : kc = 1 := by omega
          subst hnc; subst hcc; subst hkc
          exact ⟨offs, raw, craw, kraw, rfl, by omega, h2, by omega, h3, by omega, h4, rfl, rfl, rfl⟩

theorem readPivotFile_of {file : List Byte} {offs raw craw kraw : List Row} {d : Nat}
    (h1 : readBinFrom 8 file 0 = .ok (offs, 1)) (hl : offs.length = 4)
    (h2 : readBinFrom 4 file (leDecode (offs.getD 0 [])) = .ok (raw, d)) (hr : raw.length ≤ 256)
    (h3 : readBinFrom 4 file (leDecode (offs.getD 1 [])) = .ok (craw, 1)) (hc : craw.length = d)
    (h4 : readBinFrom 4 file (leDecode (offs.getD 2 [])) = .ok (kraw, 1)) :
    readPivotFile file = .ok ((raw.map (decodeU32s d), d), craw.map leDecode, kraw.map leDecode) := by
  unfold readPivotFile
  rw [h1]
  dsimp only
  rw [if_neg (by omega), h2]
  dsimp only
  rw [if_neg (by omega), h3]
  dsimp only
  rw [if_neg (by omega), h4]
  dsimp only
  rw [if_neg (by omega)]

theorem cutRows_length (w n : Nat) (bs : List Byte) : (cutRows w n bs).length = n := by
  induction n generalizing bs with
  | zero => rfl
  | succ n ih => rw [cutRows, List.length_cons, ih]

theorem decodeU32s_length (k : Nat) (bs : List Byte) : (decodeU32s k bs).length = k := by
  induction k generalizing bs with
  | zero => rfl
  | succ k ih => rw [decodeU32s, List.length_cons, ih]

/-- A file with this header, and `p`, `c`, `o` behind it. -/
theorem readPivotFile_layout (P : List (List Nat)) (dim : Nat) (cent offs : List Nat) (p c o head rest : List Byte)
    (hP : ∀ r ∈ P, r.length = dim) (hv : ∀ r ∈ P, ∀ x ∈ r, x < 2 ^ 32) (hn : P.length ≤ 256) (hd : dim < 2 ^ 32)
    (hc : cent.length = dim) (hcv : ∀ x ∈ cent, x < 2 ^ 32) (ho : offs.length < 2 ^ 32) (hov : ∀ x ∈ offs, x < 2 ^ 32)
    (ep : pivotBytes P.flatten P.length dim = some p) (ec : columnBytes 4 cent = some c)
    (eo : columnBytes 4 offs = some o)
    (hhead : head = leEncode 4 4 ++ leEncode 4 1 ++ (leEncode 8 4096 ++ (leEncode 8 (4096 + p.length) ++
      (leEncode 8 (4096 + p.length + c.length) ++ rest)))) (hlen : head.length = 4096) :
    readPivotFile (head ++ (p ++ c ++ o)) = .ok ((P, dim), cent, offs) := by
  obtain ⟨p', ep', vp⟩ := pivotBytes_some P dim hP (by omega) hd
  rw [ep] at ep'; cases ep'
  have vc := columnBytes_file 4 cent c ec
  have vo := columnBytes_file 4 offs o eo
  have lp := vp.length
  have lc := vc.length
  have lo := vo.length
  simp only [List.length_map] at lp lc lo
  have hpd : P.length * dim ≤ 256 * dim := Nat.mul_le_mul_right _ hn
  have hpd4 : P.length * (dim * 4) ≤ 256 * (dim * 4) := Nat.mul_le_mul_right _ hn
  have hrest : rest.length = 4064 := by
    have := congrArg List.length hhead
    rw [hlen] at this
    simp only [List.length_append, leEncode_length] at this
    omega
  have vh : VectorFile 8 1 [leEncode 8 4096, leEncode 8 (4096 + p.length), leEncode 8 (4096 + p.length + c.length),
      rest.take 8] (leEncode 4 4 ++ leEncode 4 1 ++ (leEncode 8 4096 ++ (leEncode 8 (4096 + p.length) ++
      (leEncode 8 (4096 + p.length + c.length) ++ rest.take 8)))) := by
    refine ⟨?_, by simp, by decide, ?_⟩
    · intro r hr
      simp only [List.mem_cons, List.not_mem_nil, or_false] at hr
      rcases hr with rfl | rfl | rfl | rfl
      · rw [leEncode_length]
      · rw [leEncode_length]
      · rw [leEncode_length]
      · rw [List.length_take]; omega
    · simp
  have e1 : head ++ (p ++ c ++ o) = (leEncode 4 4 ++ leEncode 4 1 ++ (leEncode 8 4096 ++ (leEncode 8 (4096 + p.length) ++
      (leEncode 8 (4096 + p.length + c.length) ++ rest.take 8)))) ++ (rest.drop 8 ++ (p ++ c ++ o)) := by
    rw [hhead]
    conv_lhs => rw [← List.take_append_drop 8 rest]
    simp only [List.append_assoc]
  have r1 : readBinFrom 8 (head ++ (p ++ c ++ o)) 0 = .ok ([leEncode 8 4096, leEncode 8 (4096 + p.length),
      leEncode 8 (4096 + p.length + c.length), rest.take 8], 1) := by
    unfold readBinFrom
    rw [List.drop_zero, e1]
    exact C70_write_read 8 1 _ _ _ vh (by simp)
  have d0 : (head ++ (p ++ c ++ o)).drop 4096 = p ++ (c ++ o) := by
    rw [List.drop_append_of_le_length (by omega), List.drop_of_length_le (by omega), List.nil_append, List.append_assoc]
  have d1 : (head ++ (p ++ c ++ o)).drop (4096 + p.length) = c ++ o := by
    rw [← List.drop_drop, d0, List.drop_append_of_le_length (by omega), List.drop_of_length_le (by omega), List.nil_append]
  have d2 : (head ++ (p ++ c ++ o)).drop (4096 + p.length + c.length) = o := by
    rw [← List.drop_drop, d1, List.drop_append_of_le_length (by omega), List.drop_of_length_le (by omega), List.nil_append]
  have dec : ∀ x, x < 2 ^ 62 → leDecode (leEncode 8 x) = x := fun x hx => leDecode_leEncode 8 x (by
    have : (256 : Nat) ^ 8 = 2 ^ 64 := by decide
    omega)
  have a0 : leDecode (leEncode 8 4096) = 4096 := dec _ (by decide)
  have a1 : leDecode (leEncode 8 (4096 + p.length)) = 4096 + p.length := dec _ (by omega)
  have a2 : leDecode (leEncode 8 (4096 + p.length + c.length)) = 4096 + p.length + c.length := dec _ (by omega)
  have := readPivotFile_of r1 rfl (raw := P.map fun r => r.flatMap (leEncode 4)) (d := dim)
    (craw := cent.map (leEncode 4)) (kraw := offs.map (leEncode 4))
    (by
      show readBinFrom 4 _ (leDecode (leEncode 8 4096)) = _
      unfold readBinFrom
      rw [a0, d0]
      exact C70_write_read 4 dim _ p _ vp (by rw [List.length_map]; constructor <;> omega))
    (by rwa [List.length_map])
    (by
      show readBinFrom 4 _ (leDecode (leEncode 8 (4096 + p.length))) = _
      unfold readBinFrom
      rw [a1, d1]
      exact C70_write_read 4 1 _ c _ vc (by rw [List.length_map]; constructor <;> omega))
    (by rwa [List.length_map])
    (by
      show readBinFrom 4 _ (leDecode (leEncode 8 (4096 + p.length + c.length))) = _
      unfold readBinFrom
      rw [a2, d2]
      have := C70_write_read 4 1 _ o [] vo (by rw [List.length_map]; constructor <;> omega)
      rwa [List.append_nil] at this)
  rw [this, decode_rows P dim hP hv, decode_col 4 cent (by simpa using hcv), decode_col 4 offs (by simpa using hov)]

/-- The offset of the chunk table still zero: nothing is loaded. -/
theorem loadPivots_unfinished (add : Nat → Nat → Nat) (file : List Byte)
    (h : ∀ bs, readMetadata file = some (4, 1) → bytesAt file 8 32 = some bs →
      leDecode ((bs.drop 16).take 8) = 0 ∧ leDecode ((bs.drop 4).take 4) = 0) :
    loadPivots add file = .err := by
  unfold loadPivots
  cases hr : readPivotFile file with
  | err => rfl
  | ok a =>
    obtain ⟨⟨rows, d⟩, cent, chunks⟩ := a
    dsimp only
    obtain ⟨offs, raw, craw, kraw, h1, hl, h2, _, h3, _, h4, _, _, hk⟩ := readPivotFile_ok hr
    unfold readBinFrom at h1
    rw [List.drop_zero] at h1
    unfold readBin at h1
    cases hm : readMetadata file with
    | none => rw [hm] at h1; cases h1
    | some nd =>
      obtain ⟨n, dd⟩ := nd
      rw [hm] at h1
      dsimp only at h1
      split at h1
      · cases h1
      split at h1
      · cases h1
      cases hb : bytesAt file 8 (n * dd * 8) with
      | none => rw [hb] at h1; cases h1
      | some bs =>
        rw [hb] at h1
        simp only [BinRes.ok.injEq, Prod.mk.injEq] at h1
        obtain ⟨ho, rfl⟩ := h1
        have hn : n = 4 := by rw [← ho, cutRows_length] at hl; exact hl
        subst hn
        rw [show 4 * 1 * 8 = 32 by rfl] at hb
        obtain ⟨z2, z1⟩ := h bs hm hb
        have e2 : leDecode (offs.getD 2 []) = 0 := by
          rw [← ho]
          show leDecode (((bs.drop 8).drop 8).take 8) = 0
          rw [List.drop_drop]; exact z2
        rw [e2] at h4
        unfold readBinFrom at h4
        rw [List.drop_zero] at h4
        unfold readBin at h4
        rw [hm] at h4
        dsimp only at h4
        split at h4
        · cases h4
        split at h4
        · cases h4
        cases hb4 : bytesAt file 8 (4 * 1 * 4) with
        | none => rw [hb4] at h4; cases h4
        | some b4 =>
          rw [hb4] at h4
          simp only [BinRes.ok.injEq, Prod.mk.injEq, and_true] at h4
          have hb44 : b4 = bs.take 16 := by
            unfold bytesAt at hb hb4
            split at hb
            · split at hb4
              · simp only [Option.some.injEq] at hb hb4
                rw [← hb, ← hb4, List.take_take]; rfl
              · cases hb4
            · cases hb
          have w1 : chunks.getD 1 0 = 0 := by
            rw [hk, ← h4, hb44]
            show leDecode (((bs.take 16).drop 4).take 4) = 0
            rw [List.drop_take, List.take_take]
            exact z1
          unfold pivotsIntoTable Offsets.new
          have hlen : chunks.length = 4 := by rw [hk, ← h4, List.length_map, cutRows_length]
          simp only [hlen, w1, if_true]
          rw [if_neg (by omega)]
          by_cases h0 : chunks.getD 0 0 ≠ 0
          · rw [if_pos h0]
          · rw [if_neg h0]

end Verif.Pq
