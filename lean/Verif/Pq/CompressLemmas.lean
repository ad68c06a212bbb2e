import Verif.Pq.CompressModel
import Verif.Pq.StoreLemmas
import Mathlib.Data.List.GetD

/-! # Lemmas about compressed data files -/

namespace Verif.Pq

open Verif.Disk

/-! ## All or nothing -/

section

variable {A B C : Type}

theorem allOk_some {f : A → Option B} {as : List A} {bs : List B} (h : allOk f as = some bs) :
    bs.length = as.length ∧ ∀ i (hi : i < as.length), ∃ b, f as[i] = some b ∧ bs[i]? = some b := by
  induction as generalizing bs with
  | nil => simp only [allOk, Option.some.injEq] at h; subst h; exact ⟨rfl, fun i hi => by simp at hi⟩
  | cons a as ih =>
    unfold allOk at h
    cases ha : f a with
    | none => rw [ha] at h; cases h
    | some b =>
      rw [ha] at h
      cases hr : allOk f as with
      | none => rw [hr] at h; cases h
      | some bs' =>
        rw [hr] at h
        simp only [Option.some.injEq] at h
        subst h
        obtain ⟨h1, h2⟩ := ih hr
        refine ⟨by simp [h1], fun i hi => ?_⟩
        cases i with
        | zero => exact ⟨b, ha, rfl⟩
        | succ i =>
          obtain ⟨b', e1, e2⟩ := h2 i (by simpa using hi)
          exact ⟨b', by simpa using e1, by simpa using e2⟩

theorem allOk_none {f : A → Option B} {as : List A} : allOk f as = none ↔ ∃ a ∈ as, f a = none := by
  induction as with
  | nil => simp [allOk]
  | cons a as ih =>
    unfold allOk
    cases ha : f a with
    | none => simp [ha]
    | some b =>
      cases hr : allOk f as with
      | none =>
        obtain ⟨x, hx, hn⟩ := ih.1 hr
        simp only [true_iff]
        exact ⟨x, List.mem_cons_of_mem _ hx, hn⟩
      | some bs =>
        simp only [reduceCtorEq, false_iff]
        rintro ⟨x, hx, hn⟩
        rcases List.mem_cons.1 hx with rfl | hx
        · rw [ha] at hn; cases hn
        · rw [ih.2 ⟨x, hx, hn⟩] at hr; cases hr

theorem allOk_of {f : A → Option B} {as : List A} {bs : List B} (hl : bs.length = as.length)
    (h : ∀ i (hi : i < as.length), f as[i] = some (bs[i]'(hl ▸ hi))) : allOk f as = some bs := by
  induction as generalizing bs with
  | nil => cases bs with
    | nil => rfl
    | cons b bs => simp at hl
  | cons a as ih =>
    cases bs with
    | nil => simp at hl
    | cons b bs =>
      unfold allOk
      have h0 := h 0 (by simp)
      have hr := ih (bs := bs) (by simpa using hl) (fun i hi => by
        have := h (i + 1) (by simpa using hi)
        simpa using this)
      simp only [List.getElem_cons_zero] at h0
      rw [h0, hr]

theorem allOk_append (f : A → Option B) (as as' : List A) :
    allOk f (as ++ as') = match allOk f as, allOk f as' with
      | some bs, some bs' => some (bs ++ bs')
      | _, _ => none := by
  induction as with
  | nil =>
    simp only [List.nil_append, allOk]
    cases allOk f as' <;> rfl
  | cons a as ih =>
    rw [List.cons_append, allOk, ih, allOk]
    cases f a with
    | none => rfl
    | some b =>
      cases allOk f as with
      | none => rfl
      | some bs => cases allOk f as' <;> rfl

theorem allOk_congr {f g : A → Option B} {as : List A} (h : ∀ a ∈ as, f a = g a) : allOk f as = allOk g as := by
  induction as with
  | nil => rfl
  | cons a as ih =>
    rw [allOk, allOk, h a List.mem_cons_self, ih fun a ha => h a (List.mem_cons_of_mem _ ha)]

theorem allOk_bind (f : A → Option B) (g : B → Option C) (as : List A) :
    allOk (fun a => (f a).bind g) as = (allOk f as).bind (allOk g) := by
  induction as with
  | nil => rfl
  | cons a as ih =>
    rw [allOk, ih, allOk]
    cases f a with
    | none => rfl
    | some b =>
      cases allOk f as with
      | none => simp only [Option.bind_some, Option.bind_none]; cases g b <;> rfl
      | some bs =>
        simp only [Option.bind_some]
        rw [allOk]

theorem windows_flatten (k : Nat) (hk : 0 < k) (fuel : Nat) (xs : List A) (h : xs.length ≤ fuel) :
    (windows k fuel xs).flatten = xs := by
  induction fuel generalizing xs with
  | zero =>
    have : xs = [] := List.eq_nil_of_length_eq_zero (by omega)
    subst this; rfl
  | succ fuel ih =>
    unfold windows
    split
    · rename_i h0; subst h0; rfl
    · rename_i h0
      have : 0 < xs.length := List.length_pos_iff.mpr h0
      rw [List.flatten_cons, ih _ (by rw [List.length_drop]; omega), List.take_append_drop]

theorem allOk_parts (f : A → Option B) (parts : List (List A)) :
    (allOk (allOk f) parts).map List.flatten = allOk f parts.flatten := by
  induction parts with
  | nil => rfl
  | cons p parts ih =>
    rw [List.flatten_cons, allOk_append, allOk, ← ih]
    cases allOk f p with
    | none => rfl
    | some bs =>
      cases allOk (allOk f) parts with
      | none => rfl
      | some r => simp

end

/-! ## Blocks -/

/-- Every batch is compressed row by row. -/
structure Rowwise {F : Type} (c : Compressor F) (code : List F → Option (List Byte)) (D : Nat) : Prop where
  batch : ∀ rows, c.compress rows = allOk code rows
  size : ∀ x b, code x = some b → b.length = c.bytes
  dim : ∀ x b, code x = some b → x.length = D
  pos : 0 < D
  conv : ∀ r fd x, c.conv r fd = some x → x.length = fd ∧ c.fullDim r = some fd
  full : ∀ r, c.fullDim r ≠ some 0

/-- The code of one row. -/
def encodeRow {F : Type} (c : Compressor F) (code : List F → Option (List Byte)) (r : Row) : Option (List Byte) :=
  (c.fullDim r).bind fun fd => (c.conv r fd).bind code

/-- A block of codes or an error. -/
def blockOf (x : Option (List (List Byte))) : BlockRes :=
  match x with
  | none => .err
  | some cs => .codes cs.flatten

section

variable {F : Type} {c : Compressor F} {code : List F → Option (List Byte)} {D : Nat}

theorem encodeRow_size (h : Rowwise c code D) {r : Row} {b : List Byte} (e : encodeRow c code r = some b) :
    b.length = c.bytes ∧ c.fullDim r = some D ∧ (c.conv r D).bind code = some b := by
  unfold encodeRow at e
  cases hf : c.fullDim r with
  | none => rw [hf] at e; cases e
  | some fd =>
    rw [hf] at e
    simp only [Option.bind_some] at e
    cases hc : c.conv r fd with
    | none => rw [hc] at e; cases e
    | some x =>
      rw [hc] at e
      simp only [Option.bind_some] at e
      have h1 := h.dim x b e
      have h2 := (h.conv r fd x hc).1
      have : fd = D := by omega
      subst this
      exact ⟨h.size x b e, rfl, by rw [hc]; exact e⟩

theorem encodeRow_eq (h : Rowwise c code D) (r : Row) : (c.conv r D).bind code = encodeRow c code r := by
  cases hc : c.conv r D with
  | none =>
    cases he : encodeRow c code r with
    | none => rfl
    | some b =>
      have := (encodeRow_size h he).2.2
      rw [hc] at this; cases this
  | some x =>
    unfold encodeRow
    rw [(h.conv r D x hc).2]
    simp only [Option.bind_some, hc]

theorem compressBlock_eq (h : Rowwise c code D) (rows : List (List F)) :
    compressBlock c rows = (allOk code rows).map List.flatten := by
  unfold compressBlock
  have : allOk c.compress (windows batchSize rows.length rows) =
      allOk (allOk code) (windows batchSize rows.length rows) := allOk_congr fun a _ => h.batch a
  rw [this]
  have hp := allOk_parts code (windows batchSize rows.length rows)
  rw [windows_flatten batchSize (by decide) _ rows (Nat.le_refl _)] at hp
  rw [← hp, Option.map_map]
  rfl

theorem encodeBlock_eq (h : Rowwise c code D) (dim fd : Nat) (hd : dim ≠ 0) (hf : fd ≠ 0) (rows : List Row) :
    encodeBlock c dim fd rows = blockOf (allOk (fun r => (c.conv r fd).bind code) rows) := by
  unfold encodeBlock
  rw [if_neg (by omega), allOk_bind]
  cases allOk (fun r => c.conv r fd) rows with
  | none => rfl
  | some block =>
    simp only [Option.bind_some]
    rw [compressBlock_eq h]
    cases allOk code block <;> rfl

/-- With the dimension of the pivots. -/
theorem encodeBlock_pivots (h : Rowwise c code D) (dim : Nat) (hd : dim ≠ 0) (rows : List Row) :
    encodeBlock c dim D rows = blockOf (allOk (encodeRow c code) rows) := by
  rw [encodeBlock_eq h dim D hd (by have := h.pos; omega), allOk_congr fun r _ => encodeRow_eq h r]

/-- With the dimension of the first row. -/
theorem encodeBlock_first (h : Rowwise c code D) (dim : Nat) (hd : dim ≠ 0) (rows : List Row) (hne : rows ≠ []) :
    (match c.fullDim (rows.headD []) with
      | none => BlockRes.err
      | some fd => encodeBlock c dim fd rows) = blockOf (allOk (encodeRow c code) rows) := by
  cases rows with
  | nil => exact absurd rfl hne
  | cons r rows =>
    show (match c.fullDim r with
      | none => BlockRes.err
      | some fd => encodeBlock c dim fd (r :: rows)) = _
    cases hf : c.fullDim r with
    | none =>
      have : encodeRow c code r = none := by unfold encodeRow; rw [hf]; rfl
      rw [allOk, this]; rfl
    | some fd =>
      dsimp only
      by_cases hfd : fd = D
      · subst hfd; exact encodeBlock_pivots h dim hd _
      · rw [encodeBlock_eq h dim fd hd (by intro e; subst e; exact h.full r hf)]
        have e1 : (c.conv r fd).bind code = none := by
          cases hc : c.conv r fd with
          | none => rfl
          | some x =>
            simp only [Option.bind_some]
            cases hx : code x with
            | none => rfl
            | some b =>
              have := h.dim x b hx
              have := (h.conv r fd x hc).1
              omega
        have e2 : encodeRow c code r = none := by unfold encodeRow; rw [hf]; exact e1
        rw [allOk_none.2 ⟨r, List.mem_cons_self, e1⟩, allOk_none.2 ⟨r, List.mem_cons_self, e2⟩]

end

theorem bytesAt_rows {sz d : Nat} {rows : List Row} {file : List Byte} (h : VectorFile sz d rows file) (start cur : Nat)
    (hl : start + cur ≤ rows.length) :
    ∃ bs, bytesAt file (8 + start * (d * sz)) (cur * (d * sz)) = some bs ∧
      cutRows (d * sz) cur bs = (rows.drop start).take cur := by
  have hlen := h.length
  have hmul : (start + cur) * (d * sz) ≤ rows.length * (d * sz) := Nat.mul_le_mul_right _ hl
  rw [Nat.add_mul] at hmul
  refine ⟨((rows.drop start).take cur).flatten, ?_, ?_⟩
  · unfold bytesAt
    rw [if_pos (by omega), ← List.drop_drop, h.drop8, flatten_drop_rows _ _ h.width]
    congr 1
    have hw : ∀ r ∈ (rows.drop start).take cur, r.length = d * sz :=
      fun r hr => h.width r (List.mem_of_mem_drop (List.mem_of_mem_take hr))
    have hcur : ((rows.drop start).take cur).length = cur := by rw [List.length_take, List.length_drop]; omega
    conv_lhs => rw [← List.take_append_drop cur (rows.drop start)]
    rw [List.flatten_append, List.take_append_of_le_length (by rw [flatten_length_rows _ _ hw, hcur]),
      List.take_of_length_le (by rw [flatten_length_rows _ _ hw, hcur])]
  · have hw : ∀ r ∈ (rows.drop start).take cur, r.length = d * sz :=
      fun r hr => h.width r (List.mem_of_mem_drop (List.mem_of_mem_take hr))
    have hcur : ((rows.drop start).take cur).length = cur := by rw [List.length_take, List.length_drop]; omega
    have := cutRows_flatten (d * sz) _ hw
    rwa [hcur] at this

/-! ## The loop -/

theorem numBlocks_zero (block : Nat) : numBlocks 0 block = 0 := by unfold numBlocks; simp

theorem numBlocks_step (m block : Nat) (hb : 0 < block) (hm : 0 < m) :
    numBlocks m block = numBlocks (m - block) block + 1 := by
  unfold numBlocks
  by_cases h : block ≤ m
  · have e : m = (m - block) + block := by omega
    rw [e, Nat.add_div_right _ hb, Nat.add_mod_right, Nat.add_sub_cancel]
    omega
  · rw [show m - block = 0 by omega, Nat.div_eq_of_lt (by omega), Nat.mod_eq_of_lt (by omega), Nat.zero_div, Nat.zero_mod,
      if_neg (by omega), if_pos rfl]

/-- Writes that follow each other, the first at position `L`. -/
inductive Follows : Nat → List POp → Prop
  | nil (L : Nat) : Follows L []
  | step (L : Nat) (bs : List Byte) (ops : List POp) (h : Follows (L + bs.length) ops) :
    Follows L (.seek L :: .write bs :: ops)

/-- Everything that is written. -/
def allBytes : List POp → List Byte
  | [] => []
  | .seek _ :: ops => allBytes ops
  | .write bs :: ops => bs ++ allBytes ops

theorem Follows.run {L : Nat} {ops : List POp} (h : Follows L ops) (f : List Byte) (p : Nat) (hf : f.length = L) (m : Nat) :
    (runP (f, p) (cutP m ops)).1 = f ++ (allBytes ops).take m := by
  induction h generalizing f p m with
  | nil L => simp [cutP, runP, allBytes]
  | step L bs ops _ ih =>
    simp only [cutP, allBytes]
    split
    · rename_i hm
      simp only [runP]
      rw [overwrite_end' _ _ _ hf.symm, List.take_append_of_le_length (by omega)]
    · rename_i hm
      simp only [runP]
      rw [overwrite_end' _ _ _ hf.symm, ih _ _ (by rw [List.length_append, hf]), List.append_assoc, List.take_append,
        List.take_of_length_le (l := bs) (by omega)]

theorem cutP_all (ops : List POp) (m : Nat) (h : (allBytes ops).length ≤ m) : cutP m ops = ops := by
  induction ops generalizing m with
  | nil => rfl
  | cons op ops ih =>
    cases op with
    | seek pos => rw [cutP, ih m (by simpa [allBytes] using h)]
    | write bs =>
      simp only [allBytes, List.length_append] at h
      rw [cutP, if_neg (by omega), ih _ (by omega)]

theorem Follows.runAll {L : Nat} {ops : List POp} (h : Follows L ops) (f : List Byte) (p : Nat) (hf : f.length = L) :
    (runP (f, p) ops).1 = f ++ allBytes ops := by
  have := h.run f p hf (allBytes ops).length
  rwa [cutP_all ops _ (Nat.le_refl _), List.take_of_length_le (Nat.le_refl _)] at this

section

variable {rows : List Row} {enc : Row → Option (List Byte)} {w : Nat} {blk : Nat → Nat → BlockRes}

theorem flatten_codes (hw : ∀ r b, enc r = some b → b.length = w) {rs : List Row} {cs : List (List Byte)}
    (h : allOk enc rs = some cs) : cs.flatten.length = rs.length * w := by
  obtain ⟨h1, h2⟩ := allOk_some h
  rw [flatten_length_rows w cs (by
    intro b hb
    obtain ⟨i, hi, rfl⟩ := List.getElem_of_mem hb
    obtain ⟨b', e1, e2⟩ := h2 i (by omega)
    rw [List.getElem?_eq_getElem hi] at e2
    cases e2
    exact hw _ _ e1), h1]

/-- The loop: what it writes when every block is encoded row by row. -/
theorem blockLoop_spec (hw : ∀ r b, enc r = some b → b.length = w) (block : Nat) (hb : 0 < block)
    (hblk : ∀ start cur, 0 < cur → start + cur ≤ rows.length → blk start cur =
      blockOf (allOk enc ((rows.drop start).take cur))) (m : Nat) (start : Nat) (hm : m = rows.length - start)
    (hs : start ≤ rows.length) :
    let r := blockLoop blk w block rows.length (numBlocks (rows.length - start) block) start
    Follows (start * w + 8) r.1 ∧
    (∀ cs, allOk enc (rows.drop start) = some cs → r.2 = .ok ∧ allBytes r.1 = cs.flatten) ∧
    (allOk enc (rows.drop start) = none → r.2 = .err ∧
      ∃ j, start + j < rows.length ∧ (allBytes r.1).length = j * w) := by
  induction m using Nat.strongRecOn generalizing start with
  | _ m ih =>
  by_cases hz : rows.length - start = 0
  · rw [hz, numBlocks_zero]
    have hd : rows.drop start = [] := List.drop_of_length_le (by omega)
    rw [hd]
    refine ⟨.nil _, ?_, ?_⟩
    · intro cs e; cases e; exact ⟨rfl, rfl⟩
    · intro e; cases e
  · rw [numBlocks_step _ block hb (by omega)]
    dsimp only
    rw [blockLoop]
    dsimp only
    have hcur : 0 < min (start + block) rows.length - start := by omega
    have hle : start + (min (start + block) rows.length - start) ≤ rows.length := by omega
    rw [hblk start _ hcur hle]
    generalize hc : min (start + block) rows.length - start = cur at hcur hle
    have hsplit : rows.drop start = (rows.drop start).take cur ++ rows.drop (start + cur) := by
      rw [← List.drop_drop, List.take_append_drop]
    have hlen : ((rows.drop start).take cur).length = cur := by rw [List.length_take, List.length_drop]; omega
    cases hcs : allOk enc ((rows.drop start).take cur) with
    | none =>
      refine ⟨.nil _, ?_, ?_⟩
      · intro cs e
        rw [hsplit, allOk_append, hcs] at e
        cases e
      · intro _
        exact ⟨rfl, 0, by omega, by show ([] : List Byte).length = _; simp⟩
    | some cs1 =>
      have hl1 := flatten_codes hw hcs
      rw [hlen] at hl1
      -- the rest of the loop
      have hrest : let r := blockLoop blk w block rows.length (numBlocks (rows.length - start - block) block) (start + block)
          Follows ((start + cur) * w + 8) r.1 ∧
          (∀ cs, allOk enc (rows.drop (start + cur)) = some cs → r.2 = .ok ∧ allBytes r.1 = cs.flatten) ∧
          (allOk enc (rows.drop (start + cur)) = none → r.2 = .err ∧
            ∃ j, start + cur + j < rows.length ∧ (allBytes r.1).length = j * w) := by
        by_cases hmore : start + block < rows.length
        · have hcb : cur = block := by omega
          subst hcb
          have := ih (rows.length - (start + cur)) (by omega) (start + cur) rfl (by omega)
          rw [show rows.length - (start + cur) = rows.length - start - cur by omega] at this
          exact this
        · have e0 : rows.length - start - block = 0 := by omega
          rw [e0, numBlocks_zero]
          have hd : rows.drop (start + cur) = [] := List.drop_of_length_le (by omega)
          rw [hd]
          refine ⟨.nil _, ?_, ?_⟩
          · intro cs e; cases e; exact ⟨rfl, rfl⟩
          · intro e; cases e
      obtain ⟨r1, r2, r3⟩ := hrest
      dsimp only [blockOf]
      refine ⟨.step _ _ _ ?_, ?_, ?_⟩
      · have : start * w + 8 + cs1.flatten.length = (start + cur) * w + 8 := by rw [hl1]; ring
        rw [this]; exact r1
      · intro cs e
        rw [hsplit, allOk_append, hcs] at e
        cases hr : allOk enc (rows.drop (start + cur)) with
        | none => rw [hr] at e; cases e
        | some cs2 =>
          rw [hr] at e
          simp only [Option.some.injEq] at e
          subst e
          obtain ⟨o1, o2⟩ := r2 cs2 hr
          refine ⟨o1, ?_⟩
          simp only [allBytes]
          rw [o2, List.flatten_append]
      · intro e
        have hr : allOk enc (rows.drop (start + cur)) = none := by
          rw [hsplit, allOk_append, hcs] at e
          cases hr : allOk enc (rows.drop (start + cur)) with
          | none => rfl
          | some cs2 => rw [hr] at e; cases e
        obtain ⟨o1, j, hj, hjl⟩ := r3 hr
        refine ⟨o1, cur + j, by omega, ?_⟩
        simp only [allBytes, List.length_append]
        rw [hl1, hjl]; ring

end

/-- A loop that succeeds has read up to the last row. -/
theorem blockLoop_ok_last (blk : Nat → Nat → BlockRes) (w block n : Nat) (hb : 0 < block) (m start : Nat) (hm : m = n - start)
    (hs : start < n) (hok : (blockLoop blk w block n (numBlocks (n - start) block) start).2 = .ok) :
    ∃ s cur bs, s + cur = n ∧ 0 < cur ∧ blk s cur = .codes bs := by
  induction m using Nat.strongRecOn generalizing start with
  | _ m ih =>
  rw [numBlocks_step _ block hb (by omega), blockLoop] at hok
  dsimp only at hok
  cases hbk : blk start (min (start + block) n - start) with
  | err => rw [hbk] at hok; cases hok
  | panic => rw [hbk] at hok; cases hok
  | codes bs =>
    rw [hbk] at hok
    dsimp only at hok
    by_cases hmore : start + block < n
    · exact ih (n - (start + block)) (by omega) (start + block) rfl hmore (by
        rw [show n - (start + block) = n - start - block by omega]; exact hok)
    · exact ⟨start, _, bs, by omega, by omega, hbk⟩

end Verif.Pq
