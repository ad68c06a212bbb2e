import Verif.Pq.StoreLemmas
import Verif.Pq.EncodeProps
import Mathlib.Data.List.GetD
import Mathlib.Tactic.IntervalCases
import Mathlib.Algebra.CharZero.Defs

/-! # C94: pivot files

A table of pivots that was written comes back; whatever a file contains, a table that is loaded is well formed; a write
that is cut short is never taken for a table, but it is never repaired either. -/

namespace Verif.Pq

open Verif.Disk Spec

namespace Spec

/-- What training may deliver: at most 256 pivots of bit patterns, an optional centroid and a partition of the dimensions,
all small enough for the format. -/
structure Trainable (P : List (List Nat)) (centroid : Option (List Nat)) (o : Offsets) : Prop where
  part : Partition o
  pos : 0 < P.length
  most : P.length ≤ 256
  width : ∀ r ∈ P, r.length = o.dim
  bits : ∀ r ∈ P, ∀ x ∈ r, x < 2 ^ 32
  dim : o.dim < 2 ^ 32
  chunks : o.offsets.length < 2 ^ 32
  cwidth : ∀ c, centroid = some c → c.length = o.dim
  cbits : ∀ c, centroid = some c → ∀ x ∈ c, x < 2 ^ 32

/-- Only zeros, of either sign. -/
def AllZero (c : List Nat) : Prop := ∀ x ∈ c, x = 0 ∨ x = 2 ^ 31

instance (c : List Nat) : Decidable (AllZero c) := by unfold AllZero; infer_instance

/-- The pivots that a search uses: the centroid is added back. -/
def effective (add : Nat → Nat → Nat) (P : List (List Nat)) : Option (List Nat) → List (List Nat)
  | none => P
  | some c => if AllZero c then P else P.map fun r => List.zipWith add r c

/-- Number of bytes written by some operations. -/
def bytesOf : List POp → Nat
  | [] => 0
  | .seek _ :: ops => bytesOf ops
  | .write bs :: ops => bs.length + bytesOf ops

/-- A table that can be used: pivots fill the matrix and agree with the chunks. -/
structure WellFormed (t : Basic Nat) : Prop where
  part : Partition t.offsets
  dims : t.pivots.ncols = t.offsets.dim
  some : 0 < t.pivots.nrows
  most : t.pivots.nrows ≤ 256
  data : t.pivots.data.length = t.pivots.nrows * t.pivots.ncols

end Spec

/-! ### Lemmas -/

theorem offsets_small {o : Offsets} (ho : Partition o) (hd : o.dim < 2 ^ 32) : ∀ x ∈ o.offsets, x < 2 ^ 32 := by
  intro x hx
  obtain ⟨i, hi, rfl⟩ := List.getElem_of_mem hx
  have := ho.le (i := i) (j := o.offsets.length - 1) (by omega) (by omega)
  rw [ho.last] at this
  rw [List.getD_eq_getElem _ _ hi] at this
  omega

theorem map_mod_self (xs : List Nat) (h : ∀ x ∈ xs, x < 2 ^ 32) : xs.map (· % 2 ^ 32) = xs := by
  conv_rhs => rw [← List.map_id xs]
  exact List.map_congr_left fun x hx => Nat.mod_eq_of_lt (h x hx)

theorem Spec.Trainable.cent {P : List (List Nat)} {centroid : Option (List Nat)} {o : Offsets} (h : Trainable P centroid o) :
    (centroid.getD (List.replicate o.dim 0)).length = o.dim ∧ ∀ x ∈ centroid.getD (List.replicate o.dim 0), x < 2 ^ 32 := by
  cases centroid with
  | none =>
    refine ⟨by simp, fun x hx => ?_⟩
    have := List.eq_of_mem_replicate hx
    omega
  | some c => exact ⟨h.cwidth c rfl, h.cbits c rfl⟩

/-- What a valid write does. -/
theorem writePivots_ok {P : List (List Nat)} {centroid : Option (List Nat)} {o : Offsets} (h : Trainable P centroid o) :
    ∃ p c k hd, pivotBytes P.flatten P.length o.dim = some p ∧
      columnBytes 4 (centroid.getD (List.replicate o.dim 0)) = some c ∧ columnBytes 4 o.offsets = some k ∧
      writePivots P.flatten centroid o.offsets P.length o.dim = (pivotOps p c k hd, true) ∧
      8 ≤ p.length ∧
      hd = leEncode 4 4 ++ leEncode 4 1 ++ (leEncode 8 4096 ++ (leEncode 8 (4096 + p.length) ++
        (leEncode 8 (4096 + p.length + c.length) ++ leEncode 8 (4096 + p.length + c.length + k.length)))) := by
  obtain ⟨p, ep, vp⟩ := pivotBytes_some P o.dim h.width (by have := h.most; omega) h.dim
  have ec := columnBytes_some 4 (centroid.getD (List.replicate o.dim 0)) (by rw [h.cent.1]; exact h.dim)
  have ek := columnBytes_some 4 o.offsets h.chunks
  have hm : o.offsets.map (· % 2 ^ 32) = o.offsets := map_mod_self _ (offsets_small h.part h.dim)
  refine ⟨p, _, _, _, ep, ec, ek, ?_, by have := vp.length; omega, rfl⟩
  unfold writePivots
  simp only [ep, ec, hm, ek]
  unfold headerBytes
  rw [columnBytes_some 8 _ (by simp)]
  simp [metadataSize]

theorem any_nonZero (c : List Nat) : c.any nonZeroBits = false ↔ AllZero c := by
  unfold AllZero nonZeroBits
  rw [List.any_eq_false]
  constructor
  · intro h x hx
    have := h x hx
    simp only [Bool.and_eq_true, bne_iff_ne, ne_eq, not_and, Decidable.not_not] at this
    by_cases h0 : x = 0
    · exact Or.inl h0
    · exact Or.inr (this h0)
  · intro h x hx
    rcases h x hx with rfl | rfl <;> simp

theorem replicate_zero (n : Nat) : AllZero (List.replicate n 0) := fun _ hx => Or.inl (List.eq_of_mem_replicate hx)

theorem loadPivots_of (add : Nat → Nat → Nat) {P : List (List Nat)} {centroid : Option (List Nat)} {o : Offsets}
    (h : Trainable P centroid o) {file : List Byte}
    (hr : readPivotFile file = .ok ((P, o.dim), centroid.getD (List.replicate o.dim 0), o.offsets)) :
    loadPivots add file = .ok ⟨mat (effective add P centroid) o.dim, o⟩ := by
  unfold loadPivots
  rw [hr]
  dsimp only
  have he : (if (centroid.getD (List.replicate o.dim 0)).any nonZeroBits then
      accumRows add P (centroid.getD (List.replicate o.dim 0)) else P) = effective add P centroid := by
    cases centroid with
    | none =>
      have := (any_nonZero _).2 (replicate_zero o.dim)
      show (if (List.replicate o.dim 0).any nonZeroBits then _ else P) = P
      rw [this]; rfl
    | some c =>
      show (if c.any nonZeroBits then accumRows add P c else P) = if AllZero c then P else _
      by_cases hz : AllZero c
      · rw [(any_nonZero c).2 hz, if_pos hz]; rfl
      · have : c.any nonZeroBits = true := by
          cases hb : c.any nonZeroBits with
          | true => rfl
          | false => exact absurd ((any_nonZero c).1 hb) hz
        rw [this, if_neg hz]; rfl
  rw [he]
  have hlen : (effective add P centroid).length = P.length := by
    unfold effective
    cases centroid with
    | none => rfl
    | some c => dsimp only; split <;> simp
  unfold pivotsIntoTable
  rw [(C79_offsets o.offsets o).1.2 ⟨rfl, h.part⟩]
  dsimp only
  unfold Basic.new
  rw [if_neg (by simp), if_neg (by dsimp only; rw [hlen]; have := h.pos; omega)]
  rfl

theorem header_load (add : Nat → Nat → Nat) {P : List (List Nat)} {centroid : Option (List Nat)} {o : Offsets}
    (h : Trainable P centroid o) {p c k : List Byte} (ep : pivotBytes P.flatten P.length o.dim = some p)
    (ec : columnBytes 4 (centroid.getD (List.replicate o.dim 0)) = some c) (ek : columnBytes 4 o.offsets = some k)
    (rest : List Byte) (hl : rest.length = 4064) :
    loadPivots add (leEncode 4 4 ++ leEncode 4 1 ++ (leEncode 8 4096 ++ (leEncode 8 (4096 + p.length) ++
        (leEncode 8 (4096 + p.length + c.length) ++ rest))) ++ (p ++ c ++ k)) =
      .ok ⟨mat (effective add P centroid) o.dim, o⟩ :=
  loadPivots_of add h (readPivotFile_layout P o.dim _ o.offsets p c k _ rest h.width h.bits h.most h.dim h.cent.1 h.cent.2
    h.chunks (offsets_small h.part h.dim) ep ec ek rfl (by simp only [List.length_append, leEncode_length, hl]))

/-! ### Round trip -/

/-- C94. Writing a table of pivots succeeds, and loading the file gives the pivots with the centroid added back and the same
chunks, whatever addition of `f32` does; the metadata read alone gives the number of pivots and the dimension. -/
theorem C94_round_trip (add : Nat → Nat → Nat) (P : List (List Nat)) (centroid : Option (List Nat)) (o : Offsets)
    (h : Trainable P centroid o) :
    (writePivots P.flatten centroid o.offsets P.length o.dim).2 = true ∧
    loadPivots add (fileOf (writePivots P.flatten centroid o.offsets P.length o.dim).1) =
      .ok ⟨mat (effective add P centroid) o.dim, o⟩ ∧
    readPivotMetadata (fileOf (writePivots P.flatten centroid o.offsets P.length o.dim).1) = some (P.length, o.dim) := by
  obtain ⟨p, c, k, hd, ep, ec, ek, ew, hp, ehd⟩ := writePivots_ok h
  have hp0 : p ≠ [] := by intro e; rw [e] at hp; simp at hp
  have hdl : hd.length = 40 := by rw [ehd]; simp only [List.length_append, leEncode_length]
  rw [ew]
  dsimp only
  rw [file_complete p c k hd hp0 (by rw [hdl]; decide)]
  refine ⟨rfl, ?_, ?_⟩
  · have := header_load add h ep ec ek (leEncode 8 (4096 + p.length + c.length + k.length) ++
      List.replicate (metadataSize - hd.length) 0) (by
        rw [List.length_append, leEncode_length, List.length_replicate, hdl]; rfl)
    rw [← this, ehd]
    simp only [List.append_assoc]
  · obtain ⟨p', ep', vp⟩ := pivotBytes_some P o.dim h.width (by have := h.most; omega) h.dim
    rw [ep] at ep'; cases ep'
    unfold readPivotMetadata
    have hl : (hd ++ List.replicate (metadataSize - hd.length) (0 : Byte)).length = metadataSize := by
      rw [List.length_append, List.length_replicate, hdl]; rfl
    rw [List.drop_append_of_le_length (by rw [hl]), List.drop_of_length_le (by rw [hl]), List.nil_append, vp.bytes,
      List.append_assoc, List.append_assoc]
    have := readMetadata_append (P.map fun r => r.flatMap (leEncode 4)).length o.dim
      ((P.map fun r => r.flatMap (leEncode 4)).flatten ++ (c ++ k)) vp.count h.dim
    rw [List.length_map] at this
    simpa [List.append_assoc] using this

/-! ### Whatever the file -/

theorem flatten_zip_length (add : Nat → Nat → Nat) (rows : List (List Nat)) (c : List Nat) (d : Nat)
    (h : ∀ r ∈ rows, r.length = d) (hc : c.length = d) : (accumRows add rows c).flatten.length = rows.length * d := by
  have := flatten_length_of (accumRows add rows c) d (by
    intro r hr
    obtain ⟨x, hx, rfl⟩ := List.mem_map.mp hr
    rw [List.length_zipWith, h x hx, hc, Nat.min_self])
  rwa [show (accumRows add rows c).length = rows.length from List.length_map _] at this

/-- C94. Any file at all is refused or gives a well formed table. -/
theorem C94_any_file (add : Nat → Nat → Nat) (file : List Byte) (t : Basic Nat) (h : loadPivots add file = .ok t) :
    WellFormed t := by
  unfold loadPivots at h
  cases hr : readPivotFile file with
  | err => rw [hr] at h; cases h
  | ok a =>
    obtain ⟨⟨rows, d⟩, cent, chunks⟩ := a
    rw [hr] at h
    dsimp only at h
    obtain ⟨offs, raw, craw, kraw, -, -, -, hraw, -, hcr, -, rfl, rfl, rfl⟩ := readPivotFile_ok hr
    have hw : ∀ r ∈ raw.map (decodeU32s d), r.length = d := by
      intro r hx
      obtain ⟨x, _, rfl⟩ := List.mem_map.mp hx
      exact decodeU32s_length d x
    unfold pivotsIntoTable at h
    cases ho : Offsets.new (kraw.map leDecode) with
    | error e => rw [ho] at h; cases h
    | ok o =>
      rw [ho] at h
      dsimp only at h
      have hpart := ((C79_offsets _ o).1.1 ho).2
      generalize hrows : (if (craw.map leDecode).any nonZeroBits then
        accumRows add (raw.map (decodeU32s d)) (craw.map leDecode) else raw.map (decodeU32s d)) = rows at h
      have hl : rows.length = raw.length ∧ rows.flatten.length = raw.length * d := by
        rw [← hrows]
        split
        · refine ⟨by unfold accumRows; simp, ?_⟩
          rw [flatten_zip_length add _ _ d hw (by rw [List.length_map, hcr]), List.length_map]
        · refine ⟨by simp, ?_⟩
          rw [flatten_length_of _ d hw, List.length_map]
      cases hb : Basic.new ⟨rows.flatten, rows.length, d⟩ o with
      | none => rw [hb] at h; cases h
      | some t' =>
        rw [hb] at h
        simp only [BinRes.ok.injEq] at h
        subst h
        obtain ⟨rfl, h1, h2⟩ := Basic_new_some hb
        dsimp only at h1 h2
        exact ⟨hpart, h1, Nat.pos_of_ne_zero h2, by dsimp only; omega, by dsimp only; rw [hl.1, hl.2]⟩

/-! ### Interruption -/

theorem leDecode_zeros (n : Nat) : leDecode (List.replicate n 0) = 0 := by
  induction n with
  | zero => rfl
  | succ n ih => rw [List.replicate_succ, leDecode, ih]; rfl

/-- An offset table of which only the first part has been written. -/
theorem load_half_header (add : Nat → Nat → Nat) (f1 f2 f3 rest : List Byte) (h1 : f1.length = 8) (m : Nat) (hm : m ≤ 24)
    (z : Nat) (hz : 40 ≤ m + z) :
    loadPivots add ((leEncode 4 4 ++ leEncode 4 1 ++ (leEncode 8 4096 ++ (f1 ++ (f2 ++ f3)))).take m ++
      List.replicate z 0 ++ rest) = .err := by
  obtain ⟨b0, b1, b2, b3, b4, b5, b6, b7, rfl⟩ : ∃ b0 b1 b2 b3 b4 b5 b6 b7, f1 = [b0, b1, b2, b3, b4, b5, b6, b7] := by
    match f1, h1 with
    | [b0, b1, b2, b3, b4, b5, b6, b7], _ => exact ⟨b0, b1, b2, b3, b4, b5, b6, b7, rfl⟩
  have e4 : leEncode 4 4 = [4, 0, 0, 0] := by decide
  have e1 : leEncode 4 1 = [1, 0, 0, 0] := by decide
  have e8 : leEncode 8 4096 = [0, 16, 0, 0, 0, 0, 0, 0] := by decide
  rw [e4, e1, e8]
  obtain ⟨z', rfl⟩ : ∃ z', z = 40 - m + z' := ⟨z - (40 - m), by omega⟩
  rw [List.replicate_add]
  apply loadPivots_unfinished
  intro bs _ hb
  unfold bytesAt at hb
  split at hb
  · simp only [Option.some.injEq] at hb
    subst hb
    interval_cases m <;> simp [leDecode, List.replicate]
  · cases hb

/-- C94. A write cut short before the place of the chunks has been put down is refused; one cut short later is complete. The
seven points in between are left out: there the place is half written. -/
theorem C94_interrupted_partial (add : Nat → Nat → Nat) (P : List (List Nat)) (centroid : Option (List Nat)) (o : Offsets)
    (h : Trainable P centroid o) (n : Nat) :
    let ops := (writePivots P.flatten centroid o.offsets P.length o.dim).1
    (n + 16 ≤ bytesOf ops → loadPivots add (fileOf (cutP n ops)) = .err) ∧
    (bytesOf ops ≤ n + 8 → loadPivots add (fileOf (cutP n ops)) = .ok ⟨mat (effective add P centroid) o.dim, o⟩) := by
  obtain ⟨p, c, k, hd, ep, ec, ek, ew, hp, ehd⟩ := writePivots_ok h
  have hp0 : p ≠ [] := by intro e; rw [e] at hp; simp at hp
  have hdl : hd.length = 40 := by rw [ehd]; simp only [List.length_append, leEncode_length]
  rw [ew]
  dsimp only
  have hb : bytesOf (pivotOps p c k hd) = (p ++ c ++ k).length + 40 := by
    simp only [bytesOf, List.length_append, hdl]; omega
  rw [hb]
  constructor
  · intro hn
    by_cases hbody : n < (p ++ c ++ k).length
    · rw [file_cut_body p c k hd hp0 n hbody]
      apply loadPivots_unfinished
      intro bs hmd hbs
      exfalso
      split at hmd
      · simp [readMetadata] at hmd
      · unfold readMetadata at hmd
        split at hmd
        · simp only [Option.some.injEq, Prod.mk.injEq] at hmd
          have : (List.replicate metadataSize (0 : Byte) ++ (p ++ c ++ k).take n).take 4 = [0, 0, 0, 0] := by
            rw [List.take_append_of_le_length (by rw [List.length_replicate]; decide), List.take_replicate]
            rfl
          rw [this] at hmd
          have := hmd.1
          simp [leDecode] at this
        · cases hmd
    · obtain ⟨m, rfl⟩ : ∃ m, n = (p ++ c ++ k).length + m := ⟨n - (p ++ c ++ k).length, by omega⟩
      rw [file_cut_header p c k hd hp0 (by rw [hdl]; decide) m (by omega), ehd]
      exact load_half_header add _ _ _ _ (leEncode_length _ _) m (by omega) _ (by unfold metadataSize; omega)
  · intro hn
    obtain ⟨m, rfl⟩ : ∃ m, n = (p ++ c ++ k).length + m := ⟨n - (p ++ c ++ k).length, by omega⟩
    have main : ∀ m, 32 ≤ m → m ≤ 40 → loadPivots add (fileOf (cutP ((p ++ c ++ k).length + m) (pivotOps p c k hd))) =
        .ok ⟨mat (effective add P centroid) o.dim, o⟩ := by
      intro m h32 h40
      rw [file_cut_header p c k hd hp0 (by rw [hdl]; decide) m (by omega)]
      have e : hd.take m = leEncode 4 4 ++ leEncode 4 1 ++ (leEncode 8 4096 ++ (leEncode 8 (4096 + p.length) ++
          (leEncode 8 (4096 + p.length + c.length) ++
            (leEncode 8 (4096 + p.length + c.length + k.length)).take (m - 32)))) := by
        rw [ehd]
        simp only [List.take_append, leEncode_length, List.length_append]
        rw [List.take_of_length_le (l := leEncode 4 4) (by rw [leEncode_length]; omega),
          List.take_of_length_le (l := leEncode 4 1) (by rw [leEncode_length]; omega),
          List.take_of_length_le (l := leEncode 8 4096) (by rw [leEncode_length]; omega),
          List.take_of_length_le (l := leEncode 8 (4096 + p.length)) (by rw [leEncode_length]; omega),
          List.take_of_length_le (l := leEncode 8 (4096 + p.length + c.length)) (by rw [leEncode_length]; omega),
          show m - (4 + 4) - 8 - 8 - 8 = m - 32 by omega]
      have := header_load add h ep ec ek ((leEncode 8 (4096 + p.length + c.length + k.length)).take (m - 32) ++
        List.replicate (metadataSize - m) 0) (by
          rw [List.length_append, List.length_take, leEncode_length, List.length_replicate]; unfold metadataSize; omega)
      rw [← this, e]
      simp only [List.append_assoc]
    by_cases h40 : m ≤ 40
    · exact main m (by omega) h40
    · have := main 40 (by omega) (by omega)
      rw [← this]
      have hfull : ∀ j, 40 ≤ j → cutP ((p ++ c ++ k).length + j) (pivotOps p c k hd) = pivotOps p c k hd := by
        intro j hj
        simp only [cutP, List.length_append]
        rw [if_neg (by omega), if_neg (by omega), if_neg (by omega), if_neg (by omega)]
      rw [hfull m (by omega), hfull 40 (by omega)]

/-! ### Refused writes -/

/-- C94. A write is refused exactly when the number of values does not match or a number does not fit the format, and then
it leaves a file that is refused. -/
theorem C94_write_refused (add : Nat → Nat → Nat) (pivots : List Nat) (centroid : Option (List Nat)) (offsets : List Nat)
    (nc dim : Nat) :
    ((writePivots pivots centroid offsets nc dim).2 = true ↔
      pivots.length = nc * dim ∧ nc < 2 ^ 32 ∧ dim < 2 ^ 32 ∧ (centroid.getD (List.replicate dim 0)).length < 2 ^ 32 ∧
        offsets.length < 2 ^ 32) ∧
    ((writePivots pivots centroid offsets nc dim).2 = false →
      loadPivots add (fileOf (writePivots pivots centroid offsets nc dim).1) = .err) := by
  have hcol : ∀ k (xs : List Nat), columnBytes k xs = none ↔ 2 ^ 32 ≤ xs.length := by
    intro k xs
    unfold columnBytes metadataBytes
    split
    · simp only [Option.map_some, reduceCtorEq, false_iff]; omega
    · simp only [Option.map_none, true_iff]; omega
  have hzero : ∀ w : List Byte, loadPivots add (List.replicate metadataSize 0 ++ w) = .err := by
    intro w
    apply loadPivots_unfinished
    intro bs hmd _
    exfalso
    unfold readMetadata at hmd
    split at hmd
    · simp only [Option.some.injEq, Prod.mk.injEq] at hmd
      have : (List.replicate metadataSize (0 : Byte) ++ w).take 4 = [0, 0, 0, 0] := by
        rw [List.take_append_of_le_length (by rw [List.length_replicate]; decide), List.take_replicate]
        rfl
      rw [this] at hmd
      have := hmd.1
      simp [leDecode] at this
    · cases hmd
  unfold writePivots
  cases hp : pivotBytes pivots nc dim with
  | none =>
    dsimp only
    refine ⟨?_, fun _ => ?_⟩
    · unfold pivotBytes metadataBytes at hp
      split at hp
      · rename_i hne; simp only [Bool.false_eq_true, false_iff]; exact fun h => hne h.1
      · split at hp
        · cases hp
        · simp only [Bool.false_eq_true, false_iff]; omega
    · apply loadPivots_unfinished
      intro bs hmd _
      simp [fileOf, runP, readMetadata] at hmd
  | some p =>
    have hpb : pivots.length = nc * dim ∧ nc < 2 ^ 32 ∧ dim < 2 ^ 32 ∧ p ≠ [] := by
      unfold pivotBytes metadataBytes at hp
      split at hp
      · cases hp
      · split at hp
        · rename_i h1 h2
          simp only [Option.map_some, Option.some.injEq] at hp
          refine ⟨by simpa using h1, h2.1, h2.2, ?_⟩
          intro e
          rw [e] at hp
          have := congrArg List.length hp
          simp [leEncode_length] at this
        · cases hp
    dsimp only
    cases hc : columnBytes 4 (centroid.getD (List.replicate dim 0)) with
    | none =>
      dsimp only
      refine ⟨?_, fun _ => ?_⟩
      · simp only [Bool.false_eq_true, false_iff]
        have := (hcol _ _).1 hc
        omega
      · simp only [fileOf, runP]
        rw [overwrite_gap _ _ hpb.2.2.2]
        exact hzero p
    | some c =>
      have hcb : ¬ 2 ^ 32 ≤ (centroid.getD (List.replicate dim 0)).length := by
        intro e; rw [(hcol 4 _).2 e] at hc; cases hc
      dsimp only
      cases ho : columnBytes 4 (offsets.map (· % 2 ^ 32)) with
      | none =>
        dsimp only
        refine ⟨?_, fun _ => ?_⟩
        · simp only [Bool.false_eq_true, false_iff]
          have := (hcol _ _).1 ho
          rw [List.length_map] at this
          omega
        · simp only [fileOf, runP]
          rw [overwrite_gap _ _ hpb.2.2.2, overwrite_end' _ c _ (by simp), List.append_assoc]
          exact hzero _
      | some k =>
        have hkb : ¬ 2 ^ 32 ≤ offsets.length := by
          intro e
          rw [(hcol 4 _).2 (by rwa [List.length_map])] at ho; cases ho
        unfold headerBytes
        dsimp only
        rw [columnBytes_some 8 _ (by simp)]
        dsimp only
        refine ⟨?_, fun e => by cases e⟩
        simp only [true_iff]
        omega

/-! ### Generating -/

theorem loadChecked_ok (add : Nat → Nat → Nat) {chunks centers : Nat} {file : Option (List Byte)} {t : Basic Nat}
    (h : loadChecked add chunks centers file = .ok t) :
    ∃ f, file = some f ∧ loadPivots add f = .ok t ∧ t.offsets.len = chunks ∧ t.pivots.nrows = centers := by
  unfold loadChecked at h
  cases file with
  | none => cases h
  | some f =>
    dsimp only at h
    cases hm : readPivotMetadata f with
    | none => rw [hm] at h; cases h
    | some nd =>
      obtain ⟨n, d⟩ := nd
      rw [hm] at h
      dsimp only at h
      cases hl : loadPivots add f with
      | err => rw [hl] at h; cases h
      | ok t' =>
        rw [hl] at h
        dsimp only at h
        split at h
        · cases h
        · rename_i hb
          simp only [BinRes.ok.injEq] at h
          subst h
          exact ⟨f, rfl, hl, by omega, by omega⟩

/-- C94. Preparing the compression of a data set without a pivot file trains, writes the table and uses what it wrote; a
second preparation, with any data, uses the same table and leaves the file alone. -/
theorem C94_generate (add : Nat → Nat → Nat) (P : List (List Nat)) (centroid : Option (List Nat)) (o : Offsets)
    (h : Trainable P centroid o) (dim : Nat) (hdim : o.len ≤ dim) :
    let t : Basic Nat := ⟨mat (effective add P centroid) o.dim, o⟩
    let file := fileOf (writePivots P.flatten centroid o.offsets P.length o.dim).1
    pqGenerationNew add o.len dim P.length (some o.dim) (some ⟨P.flatten, centroid, o.offsets, P.length, o.dim⟩) none =
      (.ok t, some file) ∧
    ∀ sample trained, pqGenerationNew add o.len dim P.length sample trained (some file) = (.ok t, some file) := by
  obtain ⟨h1, h2, h3⟩ := C94_round_trip add P centroid o h
  have hlen : (effective add P centroid).length = P.length := by
    unfold effective
    cases centroid with
    | none => rfl
    | some c => dsimp only; split <;> simp
  have hck : loadChecked add o.len P.length (some (fileOf (writePivots P.flatten centroid o.offsets P.length o.dim).1)) =
      .ok ⟨mat (effective add P centroid) o.dim, o⟩ := by
    unfold loadChecked
    dsimp only
    rw [h3]
    dsimp only
    rw [h2]
    dsimp only
    rw [if_neg (by simp only [mat, hlen]; omega)]
  dsimp only
  refine ⟨?_, fun sample trained => ?_⟩
  · unfold pqGenerationNew
    rw [if_neg (by omega)]
    dsimp only
    unfold generatePivots
    dsimp only
    rw [if_pos h1, hck]
  · unfold pqGenerationNew
    rw [if_neg (by omega)]
    dsimp only
    rw [hck]

/-- C94. Whatever the file, the data and the outcome of training: a table that preparation accepts is well formed, has the
requested numbers of chunks and centers, and is the one in the file. -/
theorem C94_prepared (add : Nat → Nat → Nat) (chunks dim centers : Nat) (sample : Option Nat) (trained : Option Trained)
    (file file' : Option (List Byte)) (t : Basic Nat)
    (h : pqGenerationNew add chunks dim centers sample trained file = (.ok t, file')) :
    WellFormed t ∧ t.offsets.len = chunks ∧ t.pivots.nrows = centers ∧
      (∃ f, file' = some f ∧ loadPivots add f = .ok t) ∧ (∀ f, file = some f → file' = some f) := by
  unfold pqGenerationNew at h
  split at h
  · cases h
  cases file with
  | some f =>
    simp only [Prod.mk.injEq] at h
    obtain ⟨h1, rfl⟩ := h
    obtain ⟨f', e, hl, hc, hn⟩ := loadChecked_ok add h1
    cases e
    exact ⟨C94_any_file add f t hl, hc, hn, ⟨f, rfl, hl⟩, fun g e => e⟩
  | none =>
    dsimp only at h
    cases sample with
    | none => cases h
    | some td =>
      dsimp only at h
      generalize generatePivots centers td trained none = g at h
      split at h
      · simp only [Prod.mk.injEq] at h
        obtain ⟨h1, rfl⟩ := h
        obtain ⟨f', e, hl, hc, hn⟩ := loadChecked_ok add h1
        exact ⟨C94_any_file add f' t hl, hc, hn, ⟨f', e, hl⟩, fun g e => by cases e⟩
      · cases h

theorem loadChecked_err (add : Nat → Nat → Nat) (chunks centers : Nat) (f : List Byte) (h : loadPivots add f = .err) :
    loadChecked add chunks centers (some f) = .err := by
  unfold loadChecked
  dsimp only
  cases readPivotMetadata f with
  | none => rfl
  | some nd => obtain ⟨n, d⟩ := nd; dsimp only; rw [h]

/-- C94, refutation of recovery. After a write that was cut short, preparation fails for ever: it neither trains again nor
removes the file. -/
theorem C94_stuck (add : Nat → Nat → Nat) (P : List (List Nat)) (centroid : Option (List Nat)) (o : Offsets)
    (h : Trainable P centroid o) (n : Nat)
    (hn : n + 16 ≤ bytesOf (writePivots P.flatten centroid o.offsets P.length o.dim).1)
    (chunks dim centers : Nat) (sample : Option Nat) (trained : Option Trained) :
    let left := fileOf (cutP n (writePivots P.flatten centroid o.offsets P.length o.dim).1)
    pqGenerationNew add chunks dim centers sample trained (some left) = (.err, some left) := by
  have := (C94_interrupted_partial add P centroid o h n).1 hn
  dsimp only
  unfold pqGenerationNew
  split
  · rfl
  · dsimp only
    rw [loadChecked_err add _ _ _ this]

/-- C94, refutation. Training pivots on top of a write that was cut short reports success and leaves a file that cannot be
loaded. -/
theorem C94_success_without_table (add : Nat → Nat → Nat) (P : List (List Nat)) (centroid : Option (List Nat)) (o : Offsets)
    (h : Trainable P centroid o) (n : Nat) (h8 : 8 ≤ n)
    (hn : n + 16 ≤ bytesOf (writePivots P.flatten centroid o.offsets P.length o.dim).1) (trained : Option Trained) :
    let left := fileOf (cutP n (writePivots P.flatten centroid o.offsets P.length o.dim).1)
    generatePivots P.length o.dim trained (some left) = (true, some left) ∧ loadPivots add left = .err := by
  refine ⟨?_, (C94_interrupted_partial add P centroid o h n).1 hn⟩
  obtain ⟨p, c, k, hd, ep, ec, ek, ew, hp, ehd⟩ := writePivots_ok h
  have hp0 : p ≠ [] := by intro e; rw [e] at hp; simp at hp
  have hdl : hd.length = 40 := by rw [ehd]; simp only [List.length_append, leEncode_length]
  obtain ⟨p', ep', vp⟩ := pivotBytes_some P o.dim h.width (by have := h.most; omega) h.dim
  rw [ep] at ep'; cases ep'
  rw [ew] at hn ⊢
  dsimp only at hn ⊢
  have hbo : bytesOf (pivotOps p c k hd) = (p ++ c ++ k).length + 40 := by
    simp only [bytesOf, List.length_append, hdl]; omega
  rw [hbo] at hn
  have hmd : ∀ m, 8 ≤ m → readMetadata ((p ++ c ++ k).take m) = some (P.length, o.dim) := by
    intro m hm
    rw [readMetadata_take _ _ hm, vp.bytes, List.append_assoc, List.append_assoc]
    have := readMetadata_append (P.map fun r => r.flatMap (leEncode 4)).length o.dim
      ((P.map fun r => r.flatMap (leEncode 4)).flatten ++ (c ++ k)) vp.count h.dim
    rw [List.length_map] at this
    simpa [List.append_assoc] using this
  have hmeta : readPivotMetadata (fileOf (cutP n (pivotOps p c k hd))) = some (P.length, o.dim) := by
    unfold readPivotMetadata
    by_cases hbody : n < (p ++ c ++ k).length
    · rw [file_cut_body p c k hd hp0 n hbody, if_neg (by omega),
        List.drop_append_of_le_length (by rw [List.length_replicate]), List.drop_of_length_le (by rw [List.length_replicate]),
        List.nil_append]
      exact hmd n h8
    · obtain ⟨m, rfl⟩ : ∃ m, n = (p ++ c ++ k).length + m := ⟨n - (p ++ c ++ k).length, by omega⟩
      have hl : (hd.take m ++ List.replicate (metadataSize - m) (0 : Byte)).length = metadataSize := by
        rw [List.length_append, List.length_replicate, List.length_take]; unfold metadataSize; omega
      rw [file_cut_header p c k hd hp0 (by rw [hdl]; decide) m (by omega),
        List.drop_append_of_le_length (by rw [hl]), List.drop_of_length_le (by rw [hl]), List.nil_append]
      have := hmd (p ++ c ++ k).length (by simp only [List.length_append]; omega)
      rwa [List.take_length] at this
  unfold generatePivots
  dsimp only
  rw [hmeta]
  dsimp only
  rw [if_pos ⟨rfl, rfl⟩]

/-- C94. Training on top of an existing file: one too short for the numbers behind its header is an error and is kept, one
with the requested numbers is kept without training, any other one is overwritten by the trained table. -/
theorem C94_existing_file (nc dim : Nat) (trained : Option Trained) (f : List Byte) :
    (f.length < metadataSize + 8 → generatePivots nc dim trained (some f) = (false, some f)) ∧
    (readPivotMetadata f = some (nc, dim) → generatePivots nc dim trained (some f) = (true, some f)) ∧
    (∀ n d, readPivotMetadata f = some (n, d) → (n, d) ≠ (nc, dim) →
      generatePivots nc dim trained (some f) =
        match trained with
        | none => (false, some f)
        | some t => ((writePivots t.pivots t.centroid t.offsets t.nc t.dim).2,
            some (fileOf (writePivots t.pivots t.centroid t.offsets t.nc t.dim).1))) := by
  refine ⟨fun h => ?_, fun h => ?_, fun n d h hne => ?_⟩
  · have : readPivotMetadata f = none := by
      unfold readPivotMetadata
      exact readMetadata_short _ (by rw [List.length_drop]; omega)
    unfold generatePivots
    dsimp only
    rw [this]
  · unfold generatePivots
    dsimp only
    rw [h]
    dsimp only
    rw [if_pos ⟨rfl, rfl⟩]
  · unfold generatePivots
    dsimp only
    rw [h]
    dsimp only
    rw [if_neg (fun e => hne (by rw [e.1, e.2]))]
    cases trained <;> rfl

example : generatePivots 2 3 (some ⟨[], none, [], 0, 0⟩) (some [1, 2, 3]) = (false, some [1, 2, 3]) :=
  (C94_existing_file 2 3 _ [1, 2, 3]).1 (by decide)

/-! ### Centering -/

section

variable {K : Type} [Field K]

/-- C94. Centering is undone on loading: the distance of a vector to a pivot with the centroid added back is that of the
centered vector to the pivot. -/
theorem C94_centering (x p c : List K) (hp : p.length = x.length) (hc : c.length = x.length) :
    Vec.Spec.sqDist x (List.zipWith (· + ·) p c) = Vec.Spec.sqDist (List.zipWith (· - ·) x c) p := by
  induction x generalizing p c with
  | nil => simp [Vec.Spec.sqDist]
  | cons a x ih =>
    cases p with
    | nil => simp at hp
    | cons b p =>
      cases c with
      | nil => simp at hc
      | cons d c =>
        have := ih p c (by simpa using hp) (by simpa using hc)
        unfold Vec.Spec.sqDist at this ⊢
        simp only [List.zipWith_cons_cons, List.zip_cons_cons, List.map_cons, List.sum_cons]
        rw [this]
        ring

theorem sums_fold (rows : List (List K)) (dim : Nat) (init : List K) (hi : init.length = dim)
    (h : ∀ r ∈ rows, r.length = dim) :
    (rows.foldl (fun c r => List.zipWith (· + ·) c r) init).length = dim ∧
    ∀ j, j < dim → (rows.foldl (fun c r => List.zipWith (· + ·) c r) init).getD j 0 =
      init.getD j 0 + (rows.map fun r => r.getD j 0).sum := by
  induction rows generalizing init with
  | nil => exact ⟨hi, fun j _ => by simp⟩
  | cons r rows ih =>
    have hr := h r List.mem_cons_self
    obtain ⟨a, b⟩ := ih (List.zipWith (· + ·) init r) (by rw [List.length_zipWith, hi, hr, Nat.min_self])
      fun r hr => h r (List.mem_cons_of_mem _ hr)
    refine ⟨a, fun j hj => ?_⟩
    rw [List.foldl_cons, b j hj, List.map_cons, List.sum_cons, List.getD_eq_getElem _ _ (by
      rw [List.length_zipWith, hi, hr, Nat.min_self]; exact hj), List.getElem_zipWith, List.getD_eq_getElem _ _ (by omega),
      List.getD_eq_getElem _ _ (by omega), add_assoc]

/-- C94. The centroid is the mean of the training data, and adding it to the moved data gives the data. -/
theorem C94_centroid [CharZero K] (rows : List (List K)) (dim : Nat) (hne : rows ≠ []) (h : ∀ r ∈ rows, r.length = dim) :
    (moveByCentroid rows dim).1.length = dim ∧
    (∀ j, j < dim → (moveByCentroid rows dim).1.getD j 0 = (rows.map fun r => r.getD j 0).sum / (rows.length : K)) ∧
    (moveByCentroid rows dim).2.map (fun r => List.zipWith (· + ·) r (moveByCentroid rows dim).1) = rows := by
  obtain ⟨a, b⟩ := sums_fold rows dim (List.replicate dim 0) (by simp) h
  have hl : (moveByCentroid rows dim).1.length = dim := by
    unfold moveByCentroid; dsimp only; rw [List.length_map, a]
  refine ⟨hl, fun j hj => ?_, ?_⟩
  · have := b j hj
    rw [List.getD_eq_getElem _ _ (by omega)] at this
    unfold moveByCentroid
    dsimp only
    rw [List.getD_eq_getElem _ _ (by rw [List.length_map]; omega), List.getElem_map, this]
    simp
  · have e2 : (moveByCentroid rows dim).2 = rows.map fun r => List.zipWith (· - ·) r (moveByCentroid rows dim).1 := rfl
    rw [e2, List.map_map]
    conv_rhs => rw [← List.map_id rows]
    refine List.map_congr_left fun r hr => ?_
    have hrl := h r hr
    generalize (moveByCentroid rows dim).1 = c at hl
    show List.zipWith (· + ·) (List.zipWith (· - ·) r c) c = r
    apply List.ext_getElem
    · simp only [List.length_zipWith]; omega
    · intro i h1 h2
      simp

end

/-! ### Cases -/

/-- Two pivots of dimension three in two chunks. -/
def exP : List (List Nat) := [[1, 2, 3], [4, 5, 6]]

def exO : Offsets := ⟨3, [0, 2, 3]⟩

theorem exO_partition : Partition exO := ((C79_offsets [0, 2, 3] exO).1.1 (by decide)).2

theorem exTrainable : Trainable exP (some [7, 0, 2 ^ 31]) exO :=
  ⟨exO_partition, by decide, by decide, by decide, by decide, by decide, by decide,
    fun c e => by cases e; decide, fun c e => by cases e; decide⟩

/-- C94, refutation. An existing pivot file is used although its dimension is not that of the data: preparation for
vectors of dimension five accepts a table of dimension three. -/
theorem C94_dimension_not_checked :
    ∃ (file : List Byte) (t : Basic Nat), pqGenerationNew (· + ·) 2 5 2 none none (some file) = (.ok t, some file) ∧
      t.pivots.ncols = 3 :=
  ⟨_, _, (C94_generate (· + ·) exP (some [7, 0, 2 ^ 31]) exO exTrainable 5 (by decide)).2 none none, rfl⟩

/-- The centroid is added back. -/
example : loadPivots (· + ·) (fileOf (writePivots exP.flatten (some [7, 0, 2 ^ 31]) exO.offsets 2 3).1) =
    .ok ⟨mat [[8, 2, 3 + 2 ^ 31], [11, 5, 6 + 2 ^ 31]] 3, exO⟩ :=
  (C94_round_trip (· + ·) exP (some [7, 0, 2 ^ 31]) exO exTrainable).2.1

/-- A centroid of zeros of either sign is not added. -/
example : effective (· + ·) exP (some [0, 0, 2 ^ 31]) = exP := by decide

/-- The write has 8 + 24 + 8 + 12 + 8 + 12 + 40 bytes. -/
example : bytesOf (writePivots exP.flatten (some [7, 0, 2 ^ 31]) exO.offsets 2 3).1 = 112 := by decide +kernel

example : loadPivots (· + ·) (fileOf (cutP 96 (writePivots exP.flatten (some [7, 0, 2 ^ 31]) exO.offsets 2 3).1)) = .err :=
  (C94_interrupted_partial (· + ·) exP (some [7, 0, 2 ^ 31]) exO exTrainable 96).1 (by decide +kernel)

/-- Five values for two pivots of dimension three. -/
example : (writePivots [1, 2, 3, 4, 5] none [0, 3] 2 3).2 = false := by decide +kernel

example : moveByCentroid (K := Rat) [[1, 5], [3, 7]] 2 = ([2, 6], [[-1, -1], [1, 1]]) := by decide +kernel

end Verif.Pq
