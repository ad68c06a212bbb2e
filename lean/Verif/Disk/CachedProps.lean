import Verif.Disk.CachedSpec
import Mathlib.Tactic.Common
/-
C49 (buffered reader) and C50 (buffered writer).
-/
namespace Verif.Disk

/-! ### Reader -/

/-- `p` bytes consumed by the client. -/
structure RInv (r : Reader) (p : Nat) : Prop where
  hsize : r.size = r.file.length
  hbuf : r.cacheBuf.length = r.cacheSize
  hoff : r.curOff ≤ r.cacheSize
  hpos : r.pos ≤ r.file.length
  hp : p + (r.cacheSize - r.curOff) = r.pos
  hdata : r.cacheBuf.drop r.curOff = (r.file.drop p).take (r.cacheSize - r.curOff)

theorem RInv.new {file : List Byte} {cs : Nat} {r : Reader} (h : Reader.new file cs = some r) :
    RInv r 0 ∧ r.file = file := by
  simp only [Reader.new, readExact] at h
  rw [if_pos (by omega)] at h
  simp only [Option.some.injEq] at h
  subst h
  refine ⟨⟨rfl, ?_, ?_, ?_, ?_, ?_⟩, rfl⟩ <;> simp <;> omega

theorem take_drop_add (l : List Byte) (p a b : Nat) :
    (l.drop p).take a ++ (l.drop (p + a)).take b = (l.drop p).take (a + b) := by
  rw [List.take_add, List.drop_drop]

theorem RInv.read {r : Reader} {p : Nat} (h : RInv r p) (n : Nat) :
    ∃ r' o, r.read n = some (r', o) ∧ r'.file = r.file ∧
      (if p + n ≤ r.file.length then o = .ok ((r.file.drop p).take n) ∧ RInv r' (p + n)
       else o = .err ∧ r' = r) := by
  obtain ⟨hsize, hbuf, hoff, hpos, hp, hdata⟩ := h
  simp only [Reader.read, sub?, if_pos hoff, Option.bind_eq_bind, Option.bind_some]
  by_cases hn : n ≤ r.cacheSize - r.curOff
  · rw [if_pos hn]
    have : r.curOff ≤ r.curOff + n ∧ r.curOff + n ≤ r.cacheBuf.length := by omega
    simp only [slice?, if_pos this, Option.bind_some]
    refine ⟨_, _, rfl, rfl, ?_⟩
    rw [if_pos (by omega)]
    refine ⟨?_, ⟨hsize, hbuf, ?_, hpos, ?_, ?_⟩⟩
    · rw [hdata, List.take_take]
      congr 2; omega
    · show r.curOff + n ≤ r.cacheSize; omega
    · show p + n + (r.cacheSize - (r.curOff + n)) = r.pos; omega
    · show r.cacheBuf.drop (r.curOff + n) = (r.file.drop (p + n)).take (r.cacheSize - (r.curOff + n))
      rw [← List.drop_drop, hdata, List.drop_take, List.drop_drop]
      congr 1; omega
  · rw [if_neg hn, if_pos (show r.cacheSize - r.curOff ≤ n by omega)]
    simp only [Option.bind_some]
    rw [if_pos (show r.pos ≤ r.size by omega)]
    simp only [Option.bind_some]
    by_cases he : n - (r.cacheSize - r.curOff) > r.size - r.pos
    · rw [if_pos he]
      refine ⟨_, _, rfl, rfl, ?_⟩
      rw [if_neg (by omega)]
      exact ⟨rfl, rfl⟩
    · rw [if_neg he]
      have hs : r.curOff ≤ r.cacheBuf.length ∧ r.cacheBuf.length ≤ r.cacheBuf.length := by omega
      simp only [slice?, if_pos hs, Option.bind_some]
      rw [if_neg (by simp; omega)]
      have hre : readExact r.file r.pos (n - (r.cacheSize - r.curOff)) =
          some ((r.file.drop r.pos).take (n - (r.cacheSize - r.curOff)),
            r.pos + (n - (r.cacheSize - r.curOff))) := by
        rw [readExact, if_pos (by omega)]
      simp only [hre]
      rw [if_pos (show r.pos + (n - (r.cacheSize - r.curOff)) ≤ r.size by omega)]
      simp only [Option.bind_some]
      have hout : (r.cacheBuf.drop r.curOff).take (r.cacheBuf.length - r.curOff) ++
          (r.file.drop r.pos).take (n - (r.cacheSize - r.curOff)) = (r.file.drop p).take n := by
        rw [hdata, List.take_take, show min (r.cacheBuf.length - r.curOff) (r.cacheSize - r.curOff) =
          r.cacheSize - r.curOff by omega, ← hp, take_drop_add]
        congr 1; omega
      by_cases hl : r.size - (r.pos + (n - (r.cacheSize - r.curOff))) ≥ r.cacheSize
      · rw [if_pos hl]
        have hre2 : readExact r.file (r.pos + (n - (r.cacheSize - r.curOff))) r.cacheBuf.length =
            some ((r.file.drop (r.pos + (n - (r.cacheSize - r.curOff)))).take r.cacheBuf.length,
              r.pos + (n - (r.cacheSize - r.curOff)) + r.cacheBuf.length) := by
          rw [readExact, if_pos (by omega)]
        simp only [hre2]
        refine ⟨_, _, rfl, rfl, ?_⟩
        rw [if_pos (by omega)]
        refine ⟨by rw [hout], ⟨hsize, ?_, ?_, ?_, ?_, ?_⟩⟩
        · simp; omega
        · simp
        · simp only; omega
        · simp only; omega
        · simp only [List.drop_zero]
          congr 2 <;> omega
      · rw [if_neg hl]
        refine ⟨_, _, rfl, rfl, ?_⟩
        rw [if_pos (by omega)]
        refine ⟨by rw [hout], ⟨hsize, hbuf, ?_, ?_, ?_, ?_⟩⟩
        · simp
        · simp only; omega
        · simp only; omega
        · simp only [Nat.sub_self, List.take_zero]
          rw [List.drop_eq_nil_iff]; omega

theorem RInv.readAll {r : Reader} {p : Nat} (h : RInv r p) (ns : List Nat) :
    ∃ r', r.readAll ns = some (r', specReads r.file p ns) := by
  induction ns generalizing r p with
  | nil => exact ⟨r, rfl⟩
  | cons n ns ih =>
    obtain ⟨r1, o, h1, hf, h2⟩ := h.read n
    simp only [Reader.readAll, h1, specReads, Option.bind_eq_bind, Option.bind_some]
    by_cases hc : p + n ≤ r.file.length
    · rw [if_pos hc] at h2 ⊢
      obtain ⟨rfl, hi⟩ := h2
      obtain ⟨r', hr⟩ := ih hi
      rw [hr, hf]; exact ⟨r', rfl⟩
    · rw [if_neg hc] at h2 ⊢
      obtain ⟨rfl, rfl⟩ := h2
      obtain ⟨r', hr⟩ := ih h
      rw [hr]; exact ⟨r', rfl⟩

/-- **C49.**  For every file, every requested buffer size and every sequence of read sizes: opening
succeeds, no read panics, and the results are exactly those of reading the file directly — each
successful read returns the next bytes in order, a read is refused exactly when fewer bytes are left
than requested, and a refused read consumes nothing (later reads go on from the same place). -/
theorem C49_reads (file : List Byte) (cacheSize : Nat) (ns : List Nat) :
    ∃ r r', Reader.new file cacheSize = some r ∧
      r.readAll ns = some (r', specReads file 0 ns) := by
  have : ∃ r, Reader.new file cacheSize = some r := by
    simp only [Reader.new, readExact]
    rw [if_pos (by omega)]
    exact ⟨_, rfl⟩
  obtain ⟨r, hr⟩ := this
  obtain ⟨hi, hf⟩ := RInv.new hr
  obtain ⟨r', h'⟩ := hi.readAll ns
  exact ⟨r, r', hr, by rw [h', hf]⟩

theorem specReads_concat (file : List Byte) (p : Nat) (ns : List Nat) (h : p + ns.sum ≤ file.length) :
    ∃ outs : List (List Byte), specReads file p ns = outs.map .ok ∧
      outs.flatten = (file.drop p).take ns.sum := by
  induction ns generalizing p with
  | nil => exact ⟨[], rfl, by simp⟩
  | cons n ns ih =>
    simp only [List.sum_cons] at h ⊢
    obtain ⟨outs, h1, h2⟩ := ih (p + n) (by omega)
    refine ⟨(file.drop p).take n :: outs, ?_, ?_⟩
    · simp only [specReads, List.map_cons]
      rw [if_pos (by omega), h1]
    · rw [List.flatten_cons, h2, take_drop_add]

/-- **C49** (in terms of the file alone): if the requested sizes fit in the file, every read succeeds
and the concatenation of everything returned is the prefix of the file of that length. -/
theorem C49_concat (file : List Byte) (cacheSize : Nat) (ns : List Nat) (h : ns.sum ≤ file.length) :
    ∃ (r r' : Reader) (outs : List (List Byte)), Reader.new file cacheSize = some r ∧
      r.readAll ns = some (r', outs.map .ok) ∧ outs.flatten = file.take ns.sum := by
  obtain ⟨r, r', h1, h2⟩ := C49_reads file cacheSize ns
  obtain ⟨outs, h3, h4⟩ := specReads_concat file 0 ns (by omega)
  exact ⟨r, r', outs, h1, by rw [h2, h3], by simpa using h4⟩

/-- **C49** for `read_u32`: it decodes the next four bytes. -/
theorem C49_read_u32 (file : List Byte) (cacheSize : Nat) (ns : List Nat) (r r' : Reader)
    (hr : Reader.new file cacheSize = some r) (outs : List ReadRes)
    (hrun : r.readAll ns = some (r', outs)) (hfit : ns.sum + 4 ≤ file.length) :
    ∃ r'', r'.readU32 = some (r'', some (leDecode ((file.drop ns.sum).take 4))) := by
  obtain ⟨hi, hf⟩ := RInv.new hr
  have key : ∀ (ns : List Nat) (r r' : Reader) (outs : List ReadRes) (p : Nat), RInv r p →
      r.readAll ns = some (r', outs) → p + ns.sum ≤ r.file.length →
      RInv r' (p + ns.sum) ∧ r'.file = r.file := by
    intro ns
    induction ns with
    | nil =>
      intro r r' outs p hi h _
      simp only [Reader.readAll, Option.some.injEq, Prod.mk.injEq] at h
      obtain ⟨rfl, _⟩ := h
      exact ⟨hi, rfl⟩
    | cons n ns ih =>
      intro r r' outs p hi h hle
      simp only [List.sum_cons] at hle ⊢
      obtain ⟨r1, o, h1, hf, h2⟩ := hi.read n
      rw [if_pos (by omega)] at h2
      simp only [Reader.readAll, h1, Option.bind_eq_bind, Option.bind_some] at h
      cases h3 : r1.readAll ns with
      | none => simp [h3] at h
      | some q =>
        obtain ⟨r2, os⟩ := q
        simp only [h3, Option.bind_some, Option.some.injEq, Prod.mk.injEq] at h
        obtain ⟨rfl, _⟩ := h
        obtain ⟨ha, hb⟩ := ih r1 r2 os (p + n) h2.2 h3 (by rw [hf]; omega)
        exact ⟨by rw [← Nat.add_assoc]; exact ha, by rw [hb, hf]⟩
  obtain ⟨ha, hb⟩ := key ns r r' outs 0 hi hrun (by rw [hf]; omega)
  obtain ⟨r'', o, h1, _, h2⟩ := ha.read 4
  rw [if_pos (by rw [hb, hf]; omega)] at h2
  refine ⟨r'', ?_⟩
  simp only [Reader.readU32, h1, h2.1, hb, hf, Nat.zero_add]

/-- A five byte file with a buffer of two: reads crossing the buffer, a refused read, then the rest. -/
example : (Reader.new [1, 2, 3, 4, 5] 2).bind (fun r => (r.readAll [1, 2, 3, 1, 1, 1]).map (·.2)) =
    some [.ok [1], .ok [2, 3], .err, .ok [4], .ok [5], .err] := by decide +kernel

example : ((Reader.new [9, 1, 2, 0, 0, 7] 3).bind (fun r => (r.readAll [1]).bind
    (fun q => (q.1.readU32).map (·.2)))) = some (some 513) := by decide +kernel

/-! ### Writer -/

/-- The writer against the unbuffered file `(f, p)`: what is already in the file plus the buffered
bytes is what the unbuffered file holds. -/
structure WInv (w : Writer) (f : List Byte) (p : Nat) : Prop where
  hbuf : w.cacheBuf.length = w.cacheSize
  hoff : w.curOff ≤ w.cacheSize
  hpos : w.pos ≤ w.file.length
  hp : p = w.pos + w.curOff
  hf : f = writeAt w.file w.pos (w.cacheBuf.take w.curOff)

theorem writeAt_length (f : List Byte) (p : Nat) (bs : List Byte) (h : p ≤ f.length) :
    (writeAt f p bs).length = max f.length (p + bs.length) := by
  simp only [writeAt, List.length_append, List.length_take, List.length_drop]; omega

theorem writeAt_nil (f : List Byte) (p : Nat) : writeAt f p [] = f := by
  simp [writeAt]

theorem writeAt_writeAt (f : List Byte) (p : Nat) (a b : List Byte) (h : p ≤ f.length) :
    writeAt (writeAt f p a) (p + a.length) b = writeAt f p (a ++ b) := by
  simp only [writeAt]
  rw [List.take_append_of_le_length (by simp; omega)]
  rw [List.take_of_length_le (by simp; omega)]
  rw [show f.take p ++ a ++ f.drop (p + a.length) = (f.take p ++ a) ++ f.drop (p + a.length) from rfl,
    List.drop_append, List.drop_of_length_le (by simp; omega), List.nil_append, List.drop_drop]
  simp only [List.length_append, List.length_take, Nat.min_eq_left h, List.append_assoc]
  congr 3
  congr 1
  omega

theorem WInv.flushCache {w : Writer} {f : List Byte} {p : Nat} (h : WInv w f p) :
    ∃ w', w.flushCache = some w' ∧ WInv w' f p ∧ w'.file = f ∧ w'.pos = p ∧ w'.curOff = 0 ∧
      w'.fsize = w.fsize + w.curOff := by
  obtain ⟨hbuf, hoff, hpos, hp, hf⟩ := h
  simp only [Writer.flushCache, slice?, Option.bind_eq_bind]
  rw [if_pos (by omega)]
  simp only [Option.bind_some, List.drop_zero, Nat.sub_zero]
  have hl : (w.cacheBuf.take w.curOff).length = w.curOff := by simp; omega
  refine ⟨_, rfl, ⟨?_, ?_, ?_, ?_, ?_⟩, hf.symm, ?_, rfl, rfl⟩
  · simpa using hbuf
  · simp
  · simp only [writeAt_length _ _ _ hpos]; omega
  · simp only [hl]; omega
  · simp only [List.take_zero, writeAt_nil]; exact hf
  · simp only [hl]; omega

theorem WInv.flush {w : Writer} {f : List Byte} {p : Nat} (h : WInv w f p) :
    ∃ w', w.flush = some w' ∧ WInv w' f p ∧ w'.file = f ∧ w'.curOff = 0 ∧
      w'.fsize = w.fsize + w.curOff := by
  unfold Writer.flush
  split
  · obtain ⟨w', h1, h2, h3, _, h4, h5⟩ := h.flushCache
    exact ⟨w', h1, h2, h3, h4, h5⟩
  · rename_i hc
    have h0 : w.curOff = 0 := by omega
    refine ⟨w, rfl, h, ?_, h0, by omega⟩
    have := h.hf
    rw [h0, List.take_zero, writeAt_nil] at this
    exact this.symm

theorem WInv.write {w : Writer} {f : List Byte} {p : Nat} (h : WInv w f p) (bs : List Byte) :
    ∃ w', w.write bs = some w' ∧
      WInv w' (f.take p ++ bs ++ f.drop (p + bs.length)) (p + bs.length) ∧
      w'.fsize + w'.curOff = w.fsize + w.curOff + bs.length := by
  obtain ⟨hbuf, hoff, hpos, hp, hf⟩ := h
  have hl : (w.cacheBuf.take w.curOff).length = w.curOff := by simp; omega
  have hgoal : f.take p ++ bs ++ f.drop (p + bs.length) =
      writeAt w.file w.pos (w.cacheBuf.take w.curOff ++ bs) := by
    rw [← writeAt_writeAt _ _ _ _ hpos, ← hf, hl, ← hp]; rfl
  rw [hgoal]
  simp only [Writer.write, sub?, if_pos hoff, Option.bind_eq_bind, Option.bind_some]
  by_cases hn : bs.length ≤ w.cacheSize - w.curOff
  · rw [if_pos hn]
    simp only [copyInto?]
    rw [if_pos (by omega)]
    simp only [Option.bind_some]
    refine ⟨_, rfl, ⟨?_, ?_, hpos, ?_, ?_⟩, ?_⟩
    · simp; omega
    · simp only; omega
    · simp only; omega
    · simp only
      congr 1
      rw [List.take_append_of_le_length (by simp; omega)]
      exact (List.take_of_length_le (by simp; omega)).symm
    · simp only; omega
  · rw [if_neg hn]
    simp only [slice?]
    rw [if_pos (by omega)]
    simp only [Option.bind_some, List.drop_zero, Nat.sub_zero]
    refine ⟨_, rfl, ⟨?_, ?_, ?_, ?_, ?_⟩, ?_⟩
    · simpa using hbuf
    · simp
    · simp only [writeAt_writeAt _ _ _ _ hpos, writeAt_length _ _ _ hpos, List.length_append]; omega
    · simp only; omega
    · simp only [List.take_zero, writeAt_nil, writeAt_writeAt _ _ _ _ hpos]
    · simp only; omega

theorem WInv.reset {w : Writer} {f : List Byte} {p : Nat} (h : WInv w f p) :
    ∃ w', w.reset = some w' ∧ WInv w' f 0 ∧ w'.fsize + w'.curOff = w.fsize + w.curOff := by
  obtain ⟨w1, h1, h2, h3, h4, h5, h6⟩ := h.flushCache
  simp only [Writer.reset, h1, Option.bind_eq_bind, Option.bind_some]
  refine ⟨_, rfl, ⟨h2.hbuf, h2.hoff, by simp, by simp [h5], ?_⟩, by simp only; omega⟩
  simp only [h5, List.take_zero, writeAt_nil]; exact h3.symm

theorem WInv.run {w : Writer} {f : List Byte} {p : Nat} (h : WInv w f p) (ops : List WOp) :
    ∃ w', w.run ops = some w' ∧ WInv w' (specWrites (f, p) ops).1 (specWrites (f, p) ops).2 ∧
      w'.fsize + w'.curOff = w.fsize + w.curOff + (written ops).length := by
  induction ops generalizing w f p with
  | nil => exact ⟨w, rfl, h, by simp [written]⟩
  | cons op ops ih =>
    cases op with
    | write bs =>
      obtain ⟨w1, h1, h2, h3⟩ := h.write bs
      obtain ⟨w2, h4, h5, h6⟩ := ih h2
      refine ⟨w2, by simp [Writer.run, Writer.apply, h1, h4], h5, ?_⟩
      simp only [written, List.length_append]; omega
    | flush =>
      obtain ⟨w1, h1, h2, _, h3, h3'⟩ := h.flush
      obtain ⟨w2, h4, h5, h6⟩ := ih h2
      refine ⟨w2, by simp [Writer.run, Writer.apply, h1, h4], h5, ?_⟩
      simp only [written]; omega
    | reset =>
      obtain ⟨w1, h1, h2, h3⟩ := h.reset
      obtain ⟨w2, h4, h5, h6⟩ := ih h2
      refine ⟨w2, by simp [Writer.run, Writer.apply, h1, h4], h5, ?_⟩
      simp only [written]; omega

theorem WInv.new {cs : Nat} {w : Writer} (h : Writer.new cs = some w) : WInv w [] 0 := by
  unfold Writer.new at h
  split at h
  · simp at h
  · simp only [Option.some.injEq] at h
    subst h
    exact ⟨by simp, by simp, by simp, by simp, by simp [writeAt]⟩

/-- The unbuffered file of a run of appends (and flushes) is the concatenation of the writes. -/
theorem specWrites_append (ops : List WOp) (f : List Byte) (hno : ∀ op ∈ ops, op ≠ .reset) :
    specWrites (f, f.length) ops = (f ++ written ops, f.length + (written ops).length) := by
  induction ops generalizing f with
  | nil => simp [specWrites, written]
  | cons op ops ih =>
    have hno' : ∀ op ∈ ops, op ≠ .reset := fun o ho => hno o (List.mem_cons_of_mem _ ho)
    cases op with
    | write bs =>
      simp only [specWrites, written, List.take_length]
      rw [List.drop_of_length_le (by omega), List.append_nil]
      have := ih (f ++ bs) hno'
      simp only [List.length_append] at this
      rw [this]
      simp only [List.append_assoc, List.length_append, Nat.add_assoc]
    | flush => simpa [specWrites, written] using ih f hno'
    | reset => exact absurd rfl (hno _ List.mem_cons_self)

/-- **C50.**  For every buffer size and every sequence of writes and flushes, no call panics, and
after a final flush the file contains exactly the concatenation of the bytes written and the reported
size is the length of the file. -/
theorem C50_writes (cacheSize : Nat) (ops : List WOp) (w : Writer)
    (hnew : Writer.new cacheSize = some w) (hno : ∀ op ∈ ops, op ≠ .reset) :
    ∃ w', w.run (ops ++ [.flush]) = some w' ∧ w'.file = written ops ∧
      w'.fsize = w'.file.length := by
  have h0 := WInv.new hnew
  obtain ⟨w1, h1, h2, h3⟩ := h0.run ops
  obtain ⟨w2, h4, h5, h6, h7, h8⟩ := h2.flush
  have hrun : ∀ (w : Writer) (a b : List WOp), w.run (a ++ b) = (w.run a).bind (fun w => w.run b) := by
    intro w a b
    induction a generalizing w with
    | nil => rfl
    | cons o a ih =>
      simp only [List.cons_append, Writer.run, Option.bind_eq_bind]
      cases w.apply o with
      | none => rfl
      | some v => simp [ih]
  have hs := specWrites_append ops [] hno
  simp only [List.length_nil, List.nil_append] at hs
  refine ⟨w2, ?_, ?_, ?_⟩
  · rw [hrun, h1]; simp [Writer.run, Writer.apply, h4]
  · rw [h6, hs]
  · rw [h6, hs]
    have : w.fsize + w.curOff = 0 := by
      unfold Writer.new at hnew
      split at hnew
      · simp at hnew
      · simp only [Option.some.injEq] at hnew; subst hnew; rfl
    simp only
    omega

/-- **C50** with `reset` (seek to the start): for every sequence of writes, flushes and resets the
final flushed file is the one an unbuffered writer produces; nothing is lost or reordered. -/
theorem C50_refines (cacheSize : Nat) (ops : List WOp) (w : Writer)
    (hnew : Writer.new cacheSize = some w) :
    ∃ w1 w', w.run ops = some w1 ∧ w1.flush = some w' ∧ w'.file = (specWrites ([], 0) ops).1 ∧
      w'.fsize = (written ops).length := by
  have h0 := WInv.new hnew
  obtain ⟨w1, h1, h2, h3⟩ := h0.run ops
  obtain ⟨w2, h4, h5, h6, h7, h8⟩ := h2.flush
  refine ⟨w1, w2, h1, h4, h6, ?_⟩
  have : w.fsize + w.curOff = 0 := by
    unfold Writer.new at hnew
    split at hnew
    · simp at hnew
    · simp only [Option.some.injEq] at hnew; subst hnew; rfl
  omega

/-- The reported size after `reset` is **not** the length of the file: the overwritten bytes are
counted twice.  (`get_file_size` counts bytes written, not bytes in the file.) -/
theorem C50_reset_size_wrong :
    ∃ w w1 w', Writer.new 4 = some w ∧ w.run [.write [1, 2, 3], .reset, .write [9]] = some w1 ∧
      w1.flush = some w' ∧ w'.file = [9, 2, 3] ∧ w'.fsize = 4 :=
  ⟨_, _, _, rfl, rfl, rfl, by decide +kernel, by decide +kernel⟩

/-- Construction fails only for a zero-sized buffer. -/
theorem C50_new (cacheSize : Nat) : (∃ w, Writer.new cacheSize = some w) ↔ cacheSize ≠ 0 := by
  unfold Writer.new
  split <;> simp_all

example : (Writer.new 2).bind (fun w => (w.run [.write [1], .write [2, 3], .write [4], .flush]).map
    (fun w => (w.file, w.fsize))) = some ([1, 2, 3, 4], 4) := by decide +kernel

end Verif.Disk
