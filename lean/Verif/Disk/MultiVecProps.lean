import Verif.Disk.MultiVecModel
import Verif.Disk.VectorFileProps

/-!
# Files with several vectors for every point: theorems
-/

namespace Verif.Disk.MultiVec

open Verif.Disk

/-! ## Specification -/

/-- The bytes of points: number of points, dimension and number of vectors, the number of vectors of each point, the
vectors. -/
def bytesOf (d : Nat) (points : List (List Row)) : List Byte :=
  leEncode 4 points.length ++ leEncode 4 d ++ leEncode 4 (points.map List.length).sum ++
    (points.map (fun p => leEncode 4 p.length)).flatten ++ (points.map List.flatten).flatten

/-- Points that can be in a file: every one has a vector, all vectors have `d` elements, the numbers fit. -/
structure Valid (sz d : Nat) (points : List (List Row)) : Prop where
  nonempty : ∀ p ∈ points, p ≠ []
  width : ∀ p ∈ points, ∀ r ∈ p, r.length = d * sz
  count : points.length < 2 ^ 32
  dim : d < 2 ^ 32
  total : (points.map List.length).sum < 2 ^ 32

/-! ## Lemmas -/

theorem leEncode_leDecode (bs : List Byte) : leEncode bs.length (leDecode bs) = bs := by
  induction bs with
  | nil => rfl
  | cons b bs ih =>
    have hb := b.toNat_lt
    have h1 : (b.toNat + 256 * leDecode bs) % 256 = b.toNat := by omega
    have h2 : (b.toNat + 256 * leDecode bs) / 256 = leDecode bs := by omega
    simp only [List.length_cons, leEncode, leDecode, h1, h2, ih, UInt8.ofNat_toNat]

theorem readExact_append (a b : List Byte) (k : Nat) (h : a.length = k) : readExact k (a ++ b) = .ok (a, b) := by
  unfold readExact
  rw [if_pos (by rw [List.length_append]; omega)]
  subst h
  simp

theorem readExact_ok (k : Nat) (bs a b : List Byte) (h : readExact k bs = .ok (a, b)) : bs = a ++ b ∧ a.length = k := by
  unfold readExact at h
  split at h
  · simp only [Except.ok.injEq, Prod.mk.injEq] at h
    obtain ⟨rfl, rfl⟩ := h
    exact ⟨(List.take_append_drop _ _).symm, by rw [List.length_take]; omega⟩
  · exact absurd h (by simp)

theorem readU32_append (x : Nat) (hx : x < 2 ^ 32) (b : List Byte) : readU32 (leEncode 4 x ++ b) = .ok (x, b) := by
  unfold readU32
  rw [readExact_append _ _ 4 (leEncode_length 4 x)]
  simp only
  rw [leDecode_leEncode 4 x (by simpa using hx)]

theorem readU32_ok (bs : List Byte) (x : Nat) (b : List Byte) (h : readU32 bs = .ok (x, b)) :
    bs = leEncode 4 x ++ b ∧ x < 2 ^ 32 := by
  unfold readU32 at h
  cases he : readExact 4 bs with
  | error e => simp [he] at h
  | ok v =>
    obtain ⟨w, r⟩ := v
    rw [he] at h
    simp only [Except.ok.injEq, Prod.mk.injEq] at h
    obtain ⟨rfl, rfl⟩ := h
    obtain ⟨h1, h2⟩ := readExact_ok 4 bs w r he
    refine ⟨?_, ?_⟩
    · have := leEncode_leDecode w
      rw [h2] at this
      rw [this, h1]
    · have := leDecode_lt w
      rw [h2] at this
      simpa using this

theorem lengths_flatten (ls : List Nat) (h : ∀ l ∈ ls, l < 2 ^ 32) :
    lengths (ls.map (leEncode 4)).flatten ls.length = ls := by
  unfold lengths
  have := cutRows_flatten 4 (ls.map (leEncode 4)) (by
    intro r hr
    obtain ⟨x, -, rfl⟩ := List.mem_map.1 hr
    exact leEncode_length 4 x)
  rw [List.length_map] at this
  rw [this, List.map_map]
  conv_rhs => rw [← List.map_id ls]
  apply List.map_congr_left
  intro x hx
  simp only [Function.comp_apply, id]
  exact leDecode_leEncode 4 x (by simpa using h x hx)

theorem cutRows_length (w n : Nat) (bs : List Byte) : (cutRows w n bs).length = n := by
  induction n generalizing bs with
  | zero => rfl
  | succ n ih => simp [cutRows, ih]

theorem cutRows_width (w n : Nat) (bs : List Byte) (h : bs.length = n * w) : ∀ r ∈ cutRows w n bs, r.length = w := by
  induction n generalizing bs with
  | zero => simp [cutRows]
  | succ n ih =>
    rw [Nat.succ_mul] at h
    intro r hr
    rcases List.mem_cons.1 hr with rfl | hr
    · rw [List.length_take]
      omega
    · exact ih (bs.drop w) (by rw [List.length_drop]; omega) r hr

theorem cutRows_join (w n : Nat) (bs : List Byte) (h : bs.length = n * w) : (cutRows w n bs).flatten = bs := by
  induction n generalizing bs with
  | zero =>
    rw [Nat.zero_mul] at h
    rw [List.eq_nil_of_length_eq_zero h]
    rfl
  | succ n ih =>
    rw [Nat.succ_mul] at h
    rw [cutRows, List.flatten_cons, ih (bs.drop w) (by rw [List.length_drop]; omega), List.take_append_drop]

theorem lengths_ok (bs : List Byte) (n : Nat) (h : bs.length = n * 4) :
    (lengths bs n).length = n ∧ bs = ((lengths bs n).map (leEncode 4)).flatten ∧ ∀ l ∈ lengths bs n, l < 2 ^ 32 := by
  have hw := cutRows_width 4 n bs h
  unfold lengths
  refine ⟨by rw [List.length_map, cutRows_length], ?_, ?_⟩
  · rw [List.map_map]
    have : (cutRows 4 n bs).map (leEncode 4 ∘ leDecode) = cutRows 4 n bs := by
      conv_rhs => rw [← List.map_id (cutRows 4 n bs)]
      apply List.map_congr_left
      intro r hr
      have := leEncode_leDecode r
      rw [hw r hr] at this
      exact this
    rw [this, cutRows_join 4 n bs h]
  · intro l hl
    obtain ⟨r, hr, rfl⟩ := List.mem_map.1 hl
    have := leDecode_lt r
    rw [hw r hr] at this
    simpa using this

theorem readPoints_append (w : Nat) (points : List (List Row)) (hw : ∀ p ∈ points, ∀ r ∈ p, r.length = w)
    (extra : List Byte) :
    readPoints w (points.map List.length) ((points.map List.flatten).flatten ++ extra) = .ok points := by
  induction points with
  | nil => rfl
  | cons p points ih =>
    have hp := hw p (by simp)
    rw [List.map_cons, List.map_cons, List.flatten_cons, List.append_assoc]
    unfold readPoints
    rw [readExact_append _ _ _ (flatten_length_rows w p hp)]
    simp only
    rw [ih (fun q hq => hw q (by simp [hq])), cutRows_flatten w p hp]

theorem readPoints_ok (w : Nat) (ls : List Nat) (bs : List Byte) (points : List (List Row))
    (h : readPoints w ls bs = .ok points) :
    points.map List.length = ls ∧ (∀ p ∈ points, ∀ r ∈ p, r.length = w) ∧
      ∃ extra, bs = (points.map List.flatten).flatten ++ extra := by
  induction ls generalizing bs points with
  | nil =>
    simp only [readPoints, Except.ok.injEq] at h
    subst h
    exact ⟨rfl, by simp, bs, by simp⟩
  | cons l ls ih =>
    unfold readPoints at h
    cases he : readExact (l * w) bs with
    | error e => simp [he] at h
    | ok v =>
      obtain ⟨block, rest⟩ := v
      rw [he] at h
      simp only at h
      cases hr : readPoints w ls rest with
      | error e => simp [hr] at h
      | ok ps =>
        rw [hr] at h
        simp only [Except.ok.injEq] at h
        subst h
        obtain ⟨h1, h2⟩ := readExact_ok _ _ _ _ he
        obtain ⟨i1, i2, extra, i3⟩ := ih rest ps hr
        refine ⟨by rw [List.map_cons, i1, cutRows_length], ?_, extra, ?_⟩
        · intro p hp
          rcases List.mem_cons.1 hp with rfl | hp
          · exact cutRows_width w l block h2
          · exact i2 p hp
        · rw [List.map_cons, List.flatten_cons, cutRows_join w l block h2, List.append_assoc, ← i3, h1]

theorem le_sum_of_mem (ls : List Nat) : ∀ l ∈ ls, l ≤ ls.sum := by
  induction ls with
  | nil => simp
  | cons a ls ih =>
    intro l hl
    rw [List.sum_cons]
    rcases List.mem_cons.1 hl with rfl | hl
    · omega
    · have := ih l hl
      omega

theorem len_lt (sz d : Nat) (points : List (List Row)) (h : Valid sz d points) : ∀ l ∈ points.map List.length, l < 2 ^ 32 :=
  fun _ hl => lt_of_le_of_lt (le_sum_of_mem _ _ hl) h.total

theorem lens_length (ls : List Nat) : (ls.map (leEncode 4)).flatten.length = ls.length * 4 := by
  rw [flatten_length_rows 4 _ (by
    intro r hr
    obtain ⟨x, -, rfl⟩ := List.mem_map.1 hr
    exact leEncode_length 4 x), List.length_map]

/-! ## Theorems -/

/-- C131: a file of points is read back as these points, whatever follows it. -/
theorem C131_read (sz d : Nat) (points : List (List Row)) (h : Valid sz d points) (extra : List Byte) :
    load sz (bytesOf d points ++ extra) = .ok (points, points.length, d, (points.map List.length).sum) := by
  have hlen := len_lt sz d points h
  unfold load bytesOf
  simp only [List.append_assoc]
  rw [readU32_append _ h.count]
  simp only
  rw [readU32_append _ h.dim]
  simp only
  rw [readU32_append _ h.total]
  simp only
  have hm : points.map (fun p => leEncode 4 p.length) = (points.map List.length).map (leEncode 4) := by
    rw [List.map_map]
    rfl
  rw [hm, readExact_append _ _ _ (by rw [lens_length, List.length_map])]
  simp only
  have hl := lengths_flatten (points.map List.length) hlen
  rw [List.length_map] at hl
  rw [hl, if_neg, if_neg (by simp), readPoints_append _ _ h.width]
  simp only [List.any_eq_true, List.mem_map, beq_iff_eq, not_exists, not_and]
  rintro x ⟨p, hp, rfl⟩ h0
  exact h.nonempty p hp (List.eq_nil_of_length_eq_zero h0)

/-- C131: whatever is accepted is a file of the points returned, with their number, dimension and number of vectors,
possibly followed by more bytes. -/
theorem C131_accepted (sz : Nat) (file : List Byte) (points : List (List Row)) (n d total : Nat)
    (h : load sz file = .ok (points, n, d, total)) :
    Valid sz d points ∧ n = points.length ∧ total = (points.map List.length).sum ∧
      ∃ extra, file = bytesOf d points ++ extra := by
  unfold load at h
  cases h1 : readU32 file with
  | error e => simp [h1] at h
  | ok v1 =>
    obtain ⟨n', r1⟩ := v1
    rw [h1] at h
    simp only at h
    cases h2 : readU32 r1 with
    | error e => simp [h2] at h
    | ok v2 =>
      obtain ⟨d', r2⟩ := v2
      rw [h2] at h
      simp only at h
      cases h3 : readU32 r2 with
      | error e => simp [h3] at h
      | ok v3 =>
        obtain ⟨t', r3⟩ := v3
        rw [h3] at h
        simp only at h
        cases h4 : readExact (n' * 4) r3 with
        | error e => simp [h4] at h
        | ok v4 =>
          obtain ⟨lens, r4⟩ := v4
          rw [h4] at h
          simp only at h
          split at h
          · exact absurd h (by simp)
          · rename_i hz
            split at h
            · exact absurd h (by simp)
            · rename_i hsum
              cases h5 : readPoints (d' * sz) (lengths lens n') r4 with
              | error e => simp [h5] at h
              | ok ps =>
                rw [h5] at h
                simp only [Except.ok.injEq, Prod.mk.injEq] at h
                obtain ⟨rfl, rfl, rfl, rfl⟩ := h
                obtain ⟨a1, b1⟩ := readU32_ok _ _ _ h1
                obtain ⟨a2, b2⟩ := readU32_ok _ _ _ h2
                obtain ⟨a3, b3⟩ := readU32_ok _ _ _ h3
                obtain ⟨a4, b4⟩ := readExact_ok _ _ _ _ h4
                obtain ⟨c1, c2, c3⟩ := lengths_ok lens n' b4
                obtain ⟨e1, e2, extra, e3⟩ := readPoints_ok _ _ _ _ h5
                have hn : n' = ps.length := by rw [← c1, ← e1, List.length_map]
                have hs : t' = (ps.map List.length).sum := by
                  rw [e1]
                  exact (not_not.1 hsum).symm
                refine ⟨⟨?_, e2, by omega, b2, by omega⟩, hn, hs, extra, ?_⟩
                · intro p hp h0
                  apply hz
                  rw [List.any_eq_true]
                  refine ⟨0, ?_, rfl⟩
                  rw [← e1, List.mem_map]
                  exact ⟨p, hp, by rw [h0]; rfl⟩
                · unfold bytesOf
                  have hm : ps.map (fun p => leEncode 4 p.length) = (ps.map List.length).map (leEncode 4) := by
                    rw [List.map_map]
                    rfl
                  rw [hm, e1, ← c2, ← hn, ← e1, ← hs, a1, a2, a3, a4, e3]
                  simp only [List.append_assoc]

/-- C131: a file that lost its end is refused. -/
theorem C131_truncated (sz d : Nat) (points : List (List Row)) (h : Valid sz d points) (k : Nat)
    (hk : k < (bytesOf d points).length) : ∃ e, load sz ((bytesOf d points).take k) = .error e := by
  cases hl : load sz ((bytesOf d points).take k) with
  | error e => exact ⟨e, rfl⟩
  | ok v =>
    exfalso
    obtain ⟨ps, n, d', t⟩ := v
    obtain ⟨_, _, _, extra, he⟩ := C131_accepted sz _ ps n d' t hl
    have h1 := C131_read sz d points h []
    have hfull : bytesOf d points ++ [] = bytesOf d' ps ++ (extra ++ (bytesOf d points).drop k) := by
      rw [List.append_nil, ← List.append_assoc, ← he, List.take_append_drop]
    have h2 : load sz (bytesOf d points ++ []) = .ok (ps, ps.length, d', (ps.map List.length).sum) := by
      rw [hfull]
      exact C131_read sz d' ps (C131_accepted sz _ ps n d' t hl).1 _
    rw [h1] at h2
    simp only [Except.ok.injEq, Prod.mk.injEq] at h2
    obtain ⟨rfl, _, rfl, _⟩ := h2
    have hlen := congrArg List.length he
    rw [List.length_take, List.length_append] at hlen
    omega

/-- C131: which error: a header and lengths with a zero among them; else a sum other than announced; else not enough bytes. -/
theorem C131_errors (sz n d total : Nat) (ls : List Nat) (rest : List Byte) (hn : ls.length = n) (h1 : n < 2 ^ 32)
    (h2 : d < 2 ^ 32) (h3 : total < 2 ^ 32) (hl : ∀ l ∈ ls, l < 2 ^ 32) :
    (0 ∈ ls → load sz (leEncode 4 n ++ leEncode 4 d ++ leEncode 4 total ++ (ls.map (leEncode 4)).flatten ++ rest) =
      .error .zeroLength) ∧
    (0 ∉ ls → ls.sum ≠ total →
      load sz (leEncode 4 n ++ leEncode 4 d ++ leEncode 4 total ++ (ls.map (leEncode 4)).flatten ++ rest) =
        .error (.sum ls.sum total)) ∧
    (0 ∉ ls → ls.sum = total → rest.length < total * (d * sz) →
      load sz (leEncode 4 n ++ leEncode 4 d ++ leEncode 4 total ++ (ls.map (leEncode 4)).flatten ++ rest) = .error .eof) := by
  have hgen : load sz (leEncode 4 n ++ leEncode 4 d ++ leEncode 4 total ++ (ls.map (leEncode 4)).flatten ++ rest) =
      if ls.any (· == 0) then .error .zeroLength
      else if ls.sum ≠ total then .error (.sum ls.sum total)
      else
        match readPoints (d * sz) ls rest with
        | .error e => .error e
        | .ok ps => .ok (ps, n, d, total) := by
    unfold load
    simp only [List.append_assoc]
    rw [readU32_append _ h1]
    simp only
    rw [readU32_append _ h2]
    simp only
    rw [readU32_append _ h3]
    simp only
    rw [readExact_append _ _ _ (by rw [lens_length, hn])]
    simp only
    have := lengths_flatten ls hl
    rw [hn] at this
    rw [this]
    split_ifs
    · rfl
    · rfl
    · cases readPoints (d * sz) ls rest <;> rfl
  have hany : ls.any (· == 0) = true ↔ 0 ∈ ls := by
    rw [List.any_eq_true]
    simp
  rw [hgen]
  refine ⟨fun h => by rw [if_pos (hany.2 h)], fun h hs => by rw [if_neg (fun c => h (hany.1 c)), if_pos hs],
    fun h hs hr => ?_⟩
  rw [if_neg (fun c => h (hany.1 c)), if_neg (fun c => c hs)]
  have key : ∀ (ls : List Nat) (bs : List Byte), bs.length < ls.sum * (d * sz) → readPoints (d * sz) ls bs = .error .eof := by
    intro ls
    induction ls with
    | nil => intro bs h; simp at h
    | cons l ls ih =>
      intro bs h
      rw [List.sum_cons, Nat.add_mul] at h
      unfold readPoints
      by_cases hx : l * (d * sz) ≤ bs.length
      · simp only [readExact, hx, ↓reduceIte]
        rw [ih _ (by rw [List.length_drop]; omega)]
      · simp only [readExact, hx, ↓reduceIte]
  rw [key ls rest (by rw [hs]; exact hr)]

/-- C131 (refuted: the file is exactly its points): bytes after the points are not noticed. -/
theorem C131_trailing_refuted : ∃ file points, load 1 file = .ok (points, 2, 1, 3) ∧ file ≠ bytesOf 1 points := by
  refine ⟨bytesOf 1 [[[7]], [[8], [9]]] ++ [1], [[[7]], [[8], [9]]], ?_, ?_⟩ <;> decide +kernel

/-! ## Concrete cases -/

example : Valid 1 1 [[[7]], [[8], [9]]] :=
  ⟨by decide, by decide, by decide, by decide, by decide⟩

example : bytesOf 1 [[[7]], [[8], [9]]] = [2, 0, 0, 0, 1, 0, 0, 0, 3, 0, 0, 0, 1, 0, 0, 0, 2, 0, 0, 0, 7, 8, 9] := by
  decide +kernel

/-- A file that announces four vectors and has three. -/
example : load 1 [2, 0, 0, 0, 1, 0, 0, 0, 4, 0, 0, 0, 1, 0, 0, 0, 2, 0, 0, 0, 7, 8, 9] = .error (.sum 3 4) := by
  decide +kernel

end Verif.Disk.MultiVec
