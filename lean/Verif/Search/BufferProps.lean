import Verif.Search.BufferModel
import Mathlib.Data.List.Basic
import Mathlib.Data.List.Induction

/-! # C18: caller-supplied output buffers -/

namespace Verif.Search

variable {I D A : Type}

/-- The items a buffer has received. -/
def Buf.written (b : Buf I D) : List (I × D) := (b.ids.zip b.distances).take b.position

theorem overwrite_eq {α : Type} (os xs : List α) (h : xs.length ≤ os.length) :
    overwrite os xs = xs ++ os.drop xs.length := by
  induction os generalizing xs with
  | nil => cases xs with
    | nil => rfl
    | cons x xs => simp at h
  | cons o os ih =>
    cases xs with
    | nil => rfl
    | cons x xs =>
      simp only [overwrite, List.length_cons, List.drop_succ_cons, List.cons_append]
      rw [ih xs (by simpa using h)]

/-- `extend` in closed form. -/
theorem extend_closed (b : Buf I D) (xs : List (I × D)) (hlen : b.ids.length = b.distances.length)
    (hpos : b.position ≤ b.ids.length) :
    let n := min (b.ids.length - b.position) xs.length
    (b.extend xs).1 = n ∧
    (b.extend xs).2.ids = b.ids.take b.position ++ (xs.take n).map (·.1) ++ b.ids.drop (b.position + n) ∧
    (b.extend xs).2.distances =
      b.distances.take b.position ++ (xs.take n).map (·.2) ++ b.distances.drop (b.position + n) ∧
    (b.extend xs).2.position = b.position + n := by
  unfold Buf.extend
  simp only [← hlen, Nat.min_self]
  set n := min (b.ids.length - b.position) xs.length with hn
  have hnl : (xs.take n).length = n := by simp [n]
  refine ⟨trivial, ?_, ?_, trivial⟩
  · rw [overwrite_eq _ _ (by simp; omega), List.length_map, hnl, List.drop_drop, List.append_assoc]
  · rw [overwrite_eq _ _ (by simp; omega), List.length_map, hnl, List.drop_drop, List.append_assoc]

theorem zip_fst_snd {α β : Type} (l : List (α × β)) : (l.map (·.1)).zip (l.map (·.2)) = l := by
  induction l with
  | nil => rfl
  | cons a l ih => simp [ih]

theorem written_extend (b : Buf I D) (xs : List (I × D)) (hlen : b.ids.length = b.distances.length)
    (hpos : b.position ≤ b.ids.length) :
    (b.extend xs).2.written = b.written ++ xs.take (b.ids.length - b.position) := by
  obtain ⟨h1, h2, h3, h4⟩ := extend_closed b xs hlen hpos
  unfold Buf.written
  rw [h2, h3, h4]
  set n := min (b.ids.length - b.position) xs.length with hn
  have hnl : (xs.take n).length = n := by simp [n]
  have htake : xs.take (b.ids.length - b.position) = xs.take n := by
    rw [hn]
    rcases Nat.le_total (b.ids.length - b.position) xs.length with h | h
    · rw [Nat.min_eq_left h]
    · rw [Nat.min_eq_right h, List.take_of_length_le h, List.take_of_length_le (Nat.le_refl _)]
  have hl1 : (b.ids.take b.position).length = b.position := by simp [hpos]
  have hl2 : (b.distances.take b.position).length = b.position := by simp; omega
  rw [List.zip_append (by simp; omega), List.zip_append (by rw [hl1, hl2]), zip_fst_snd,
    List.take_append_of_le_length (by simp; omega), List.take_of_length_le (by simp; omega), htake,
    List.zip, List.take_zipWith]

/-- Calls a producer may make on a buffer. -/
inductive BufOp (X : Type) where
  | push (x : X)
  | extend (xs : List X)

/-- What a call answers: `push` the buffer state, `extend` the number of items taken. -/
inductive BufAns where
  | state (s : BufferState)
  | count (n : Nat)
deriving DecidableEq

def BufOp.items {X : Type} : BufOp X → List X
  | .push x => [x]
  | .extend xs => xs

def Buf.step (b : Buf I D) : BufOp (I × D) → Option (BufAns × Buf I D)
  | .push x => (b.push x).map fun r => (.state r.1, r.2)
  | .extend xs => some (.count (b.extend xs).1, (b.extend xs).2)

/-- Run a history of calls, collecting the answers; `none` if one panicked. -/
def Buf.run (b : Buf I D) : List (BufOp (I × D)) → Option (List BufAns × Buf I D)
  | [] => some ([], b)
  | op :: ops =>
    match b.step op with
    | none => none
    | some (a, b') =>
      match b'.run ops with
      | none => none
      | some (as, b'') => some (a :: as, b'')

/-- What the answers must be: with `room` free slots, a push answers "full" exactly when no slot is left
afterwards, and an extend answers how many items found room. -/
def expectedAnswers {X : Type} : Nat → List (BufOp X) → List BufAns
  | _, [] => []
  | room, .push _ :: ops => .state (if room ≤ 1 then .full else .available) :: expectedAnswers (room - 1) ops
  | room, .extend xs :: ops => .count (min room xs.length) :: expectedAnswers (room - xs.length) ops

structure Buf.Good (ids : List I) (distances : List D) (b : Buf I D) (w : List (I × D)) : Prop where
  len : ids.length = distances.length
  fits : w.length ≤ ids.length
  ids_eq : b.ids = w.map (·.1) ++ ids.drop w.length
  dist_eq : b.distances = w.map (·.2) ++ distances.drop w.length
  pos : b.position = w.length

theorem set_append_drop {α : Type} (w : List α) (l : List α) (x : α) (h : w.length < l.length) :
    (w ++ l.drop w.length).set w.length x = (w ++ [x]) ++ l.drop (w.length + 1) := by
  rw [List.set_append_right _ _ (Nat.le_refl _), Nat.sub_self]
  have : l.drop w.length = l[w.length] :: l.drop (w.length + 1) := List.drop_eq_getElem_cons h
  rw [this, List.set_cons_zero]
  simp

theorem Buf.good_step (ids : List I) (distances : List D) (b : Buf I D) (w : List (I × D))
    (h : b.Good ids distances w) (op : BufOp (I × D)) :
    ∃ a b', b.step op = some (a, b') ∧ [a] = expectedAnswers (ids.length - w.length) [op] ∧
      b'.Good ids distances (w ++ op.items.take (ids.length - w.length)) := by
  have hlen := h.len
  have hfits := h.fits
  have hbl : b.ids.length = ids.length := by rw [h.ids_eq]; simp; omega
  have hbd : b.distances.length = ids.length := by rw [h.dist_eq]; simp; omega
  have hpos := h.pos
  cases op with
  | push x =>
    simp only [Buf.step, Buf.push, Buf.capacity]
    by_cases hfull : w.length = ids.length
    · rw [if_pos (show b.position = b.ids.length by omega)]
      refine ⟨_, _, rfl, ?_, ?_⟩
      · simp only [expectedAnswers]; rw [if_pos (by omega)]
      · rw [show ids.length - w.length = 0 by omega]; simpa using h
    · rw [if_neg (show ¬ b.position = b.ids.length by omega),
        if_pos (show b.position < b.ids.length ∧ b.position < b.distances.length by omega)]
      refine ⟨_, _, rfl, ?_, ?_⟩
      · simp only [expectedAnswers, List.length_set]
        congr 2
        by_cases h1 : ids.length - w.length ≤ 1
        · rw [if_pos h1, if_pos (by omega)]
        · rw [if_neg h1, if_neg (by omega)]
      · have ht : (BufOp.push x).items.take (ids.length - w.length) = [x] := by
          apply List.take_of_length_le
          simp [BufOp.items]; omega
        rw [ht]
        refine ⟨hlen, by simp; omega, ?_, ?_, by simp [hpos]⟩
        · simp only [h.ids_eq, hpos]
          have := set_append_drop (w.map (·.1)) ids x.1 (by simp; omega)
          simpa using this
        · simp only [h.dist_eq, hpos]
          have := set_append_drop (w.map (·.2)) distances x.2 (by simp; omega)
          simpa using this
  | extend xs =>
    obtain ⟨e1, e2, e3, e4⟩ := extend_closed b xs (by omega) (by omega)
    have hn : min (b.ids.length - b.position) xs.length = min (ids.length - w.length) xs.length := by
      rw [hbl, hpos]
    simp only [hn] at e1 e2 e3 e4
    refine ⟨_, _, rfl, ?_, ?_⟩
    · rw [e1]; rfl
    · have ht : (BufOp.extend xs).items.take (ids.length - w.length)
          = xs.take (min (ids.length - w.length) xs.length) := by
        simp only [BufOp.items]
        rcases Nat.le_total (ids.length - w.length) xs.length with h | h
        · rw [Nat.min_eq_left h]
        · rw [Nat.min_eq_right h, List.take_of_length_le h, List.take_of_length_le (Nat.le_refl _)]
      rw [ht]
      set n := min (ids.length - w.length) xs.length with hn'
      have hnl : (xs.take n).length = n := by simp [n]
      refine ⟨hlen, by simp only [List.length_append, hnl]; omega, ?_, ?_, ?_⟩
      · rw [e2, hpos, h.ids_eq, List.length_append, hnl]
        simp only [List.map_append]
        rw [List.take_append_of_le_length (by simp), List.take_of_length_le (by simp),
          List.drop_append]
        rw [List.drop_eq_nil_of_le (by simp)]
        simp
      · rw [e3, hpos, h.dist_eq, List.length_append, hnl]
        simp only [List.map_append]
        rw [List.take_append_of_le_length (by simp), List.take_of_length_le (by simp),
          List.drop_append]
        rw [List.drop_eq_nil_of_le (by simp)]
        simp
      · rw [e4, hpos, List.length_append, hnl]

theorem expectedAnswers_cons {X : Type} (room : Nat) (op : BufOp X) (ops : List (BufOp X)) :
    expectedAnswers room (op :: ops)
      = expectedAnswers room [op] ++ expectedAnswers (room - op.items.length) ops := by
  cases op <;> rfl

theorem Buf.good_run (ids : List I) (distances : List D) (ops : List (BufOp (I × D))) (b : Buf I D)
    (w : List (I × D)) (h : b.Good ids distances w) :
    ∃ as b', b.run ops = some (as, b') ∧ as = expectedAnswers (ids.length - w.length) ops ∧
      b'.Good ids distances (w ++ (ops.flatMap BufOp.items).take (ids.length - w.length)) := by
  induction ops generalizing b w with
  | nil => exact ⟨_, _, rfl, rfl, by simpa using h⟩
  | cons op ops ih =>
    obtain ⟨a, b1, h1, h2, h3⟩ := Buf.good_step ids distances b w h op
    obtain ⟨as, b2, h4, h5, h6⟩ := ih b1 _ h3
    have hfits := h.fits
    have hroom : ids.length - (w ++ op.items.take (ids.length - w.length)).length
        = ids.length - w.length - op.items.length := by
      simp only [List.length_append, List.length_take]; omega
    refine ⟨a :: as, b2, ?_, ?_, ?_⟩
    · simp only [Buf.run, h1, h4]
    · rw [expectedAnswers_cons, h5, ← h2, hroom]; rfl
    · rw [hroom] at h6
      rw [List.flatMap_cons, List.take_append, ← List.append_assoc]
      exact h6

/-- **C18.** For slices of equal length and every history of `push` and `extend` calls: no call panics or
changes the length of a slice; the slices end up holding the first `capacity` items offered, in arrival
order, followed by the caller's original contents untouched; `current_len` is the number stored; and every
answer is right: "full" exactly when no further item fits, and the exact number of items taken. -/
theorem C18_buffer (ids : List I) (distances : List D) (ops : List (BufOp (I × D)))
    (b : Buf I D) (hb : Buf.new ids distances = some b) :
    ∃ as b', b.run ops = some (as, b') ∧
      let w := (ops.flatMap BufOp.items).take ids.length
      b'.ids = w.map (·.1) ++ ids.drop w.length ∧
      b'.distances = w.map (·.2) ++ distances.drop w.length ∧
      b'.position = w.length ∧ b'.sizeHint = ids.length - w.length ∧
      as = expectedAnswers ids.length ops := by
  unfold Buf.new at hb
  split at hb
  case isFalse => simp at hb
  rename_i hlen
  simp only [Option.some.injEq] at hb
  subst hb
  obtain ⟨as, b', h1, h2, h3⟩ := Buf.good_run ids distances ops ⟨ids, distances, 0⟩ []
    ⟨hlen, by simp, by simp, by simp, rfl⟩
  simp only [List.length_nil, Nat.sub_zero, List.nil_append] at h2 h3
  refine ⟨as, b', h1, h3.ids_eq, h3.dist_eq, h3.pos, ?_, h2⟩
  unfold Buf.sizeHint Buf.capacity
  rw [h3.pos, h3.ids_eq]
  have := h3.fits
  simp only [List.length_append, List.length_map, List.length_drop]
  omega

/-- C18: slices of different lengths are refused, so nothing is ever written past the shorter one. -/
theorem C18_unequal_lengths_refused (ids : List I) (distances : List D)
    (h : ids.length ≠ distances.length) : Buf.new ids distances = none := by
  unfold Buf.new; rw [if_neg h]

/-! ### With associated data: the same buffer with (distance, data) as its second component -/

abbrev BufA.toBuf (b : BufA I D A) : Buf I (D × A) := ⟨b.ids, b.distances.zip b.assoc, b.position⟩

def BufA.step (b : BufA I D A) : BufOp (I × D × A) → Option (BufAns × BufA I D A)
  | .push x => (b.push x).map fun r => (.state r.1, r.2)
  | .extend xs => some (.count (b.extend xs).1, (b.extend xs).2)

def BufA.run (b : BufA I D A) : List (BufOp (I × D × A)) → Option (List BufAns × BufA I D A)
  | [] => some ([], b)
  | op :: ops =>
    match b.step op with
    | none => none
    | some (a, b') =>
      match b'.run ops with
      | none => none
      | some (as, b'') => some (a :: as, b'')

theorem overwrite_length {α : Type} (os xs : List α) : (overwrite os xs).length = os.length := by
  induction os generalizing xs with
  | nil => cases xs <;> rfl
  | cons o os ih => cases xs with
    | nil => rfl
    | cons x xs => simp [overwrite, ih]

theorem overwrite_zip {α β : Type} (os : List α) (ps : List β) (xs : List (α × β))
    (h : os.length = ps.length) :
    (overwrite os (xs.map (·.1))).zip (overwrite ps (xs.map (·.2))) = overwrite (os.zip ps) xs := by
  induction os generalizing ps xs with
  | nil => cases xs <;> simp [overwrite]
  | cons o os ih =>
    cases ps with
    | nil => simp at h
    | cons p ps =>
      cases xs with
      | nil => simp [overwrite]
      | cons x xs =>
        simp only [List.map_cons, overwrite, List.zip_cons_cons]
        rw [ih ps xs (by simpa using h)]

theorem zip_set {α β : Type} (l : List α) (l' : List β) (i : Nat) (a : α) (b : β) :
    (l.set i a).zip (l'.set i b) = (l.zip l').set i (a, b) := by
  induction l generalizing l' i with
  | nil => simp
  | cons x l ih =>
    cases l' with
    | nil => simp
    | cons y l' =>
      cases i with
      | zero => simp
      | succ i => simp [ih]

theorem BufA.step_toBuf (b : BufA I D A) (n : Nat) (h1 : b.ids.length = n) (h2 : b.distances.length = n)
    (h3 : b.assoc.length = n) (hp : b.position ≤ n) (op : BufOp (I × D × A)) (a : BufAns) (b' : BufA I D A)
    (hs : b.step op = some (a, b')) :
    b'.ids.length = n ∧ b'.distances.length = n ∧ b'.assoc.length = n ∧ b'.position ≤ n ∧
    b.toBuf.step op = some (a, b'.toBuf) := by
  have hz : (b.distances.zip b.assoc).length = n := by simp; omega
  cases op with
  | push x =>
    simp only [BufA.step, BufA.push] at hs
    simp only [Buf.step, Buf.push, Buf.capacity, BufA.toBuf]
    by_cases hf : b.position = b.ids.length
    · rw [if_pos hf] at hs ⊢
      simp only [Option.map_some, Option.some.injEq, Prod.mk.injEq] at hs
      obtain ⟨rfl, rfl⟩ := hs
      exact ⟨h1, h2, h3, hp, rfl⟩
    · rw [if_neg hf, if_pos (by omega)] at hs
      rw [if_neg hf, if_pos (by omega)]
      simp only [Option.map_some, Option.some.injEq, Prod.mk.injEq] at hs
      obtain ⟨rfl, rfl⟩ := hs
      refine ⟨by simpa using h1, by simpa using h2, by simpa using h3, by simp only; omega, ?_⟩
      simp only [Option.map_some, zip_set]
  | extend xs =>
    simp only [BufA.step, Option.some.injEq, Prod.mk.injEq] at hs
    obtain ⟨rfl, rfl⟩ := hs
    simp only [Buf.step, BufA.extend, Buf.extend, BufA.toBuf, h1, h2, h3, hz, Nat.min_self]
    refine ⟨?_, ?_, ?_, by omega, ?_⟩
    · rw [List.length_append, overwrite_length]; simp; omega
    · rw [List.length_append, overwrite_length]; simp; omega
    · rw [List.length_append, overwrite_length]; simp; omega
    · simp only [Option.some.injEq, Prod.mk.injEq, Buf.mk.injEq, true_and, and_true]
      rw [List.zip_append (by simp; omega)]
      congr 1
      · simp only [List.zip, List.take_zipWith]
      · have := overwrite_zip (b.distances.drop b.position) (b.assoc.drop b.position)
          ((xs.take (min (n - b.position) xs.length)).map (·.2)) (by simp; omega)
        simp only [List.map_map, Function.comp_def] at this
        rw [this]
        simp only [List.zip, List.drop_zipWith]

theorem BufA.step_some (b : BufA I D A) (n : Nat) (h1 : b.ids.length = n) (h2 : b.distances.length = n)
    (h3 : b.assoc.length = n) (hp : b.position ≤ n) (op : BufOp (I × D × A)) :
    ∃ r, b.step op = some r := by
  cases op with
  | push x =>
    simp only [BufA.step, BufA.push]
    by_cases hf : b.position = b.ids.length
    · rw [if_pos hf]; exact ⟨_, rfl⟩
    · rw [if_neg hf, if_pos (by omega)]; exact ⟨_, rfl⟩
  | extend xs => exact ⟨_, rfl⟩

theorem BufA.run_toBuf (ops : List (BufOp (I × D × A))) (b : BufA I D A) (n : Nat)
    (h1 : b.ids.length = n) (h2 : b.distances.length = n)
    (h3 : b.assoc.length = n) (hp : b.position ≤ n) :
    ∃ as b', b.run ops = some (as, b') ∧ b'.distances.length = n ∧ b'.assoc.length = n ∧
      b.toBuf.run ops = some (as, b'.toBuf) := by
  induction ops generalizing b with
  | nil => exact ⟨_, _, rfl, h2, h3, rfl⟩
  | cons op ops ih =>
    obtain ⟨⟨a, b1⟩, hs⟩ := BufA.step_some b n h1 h2 h3 hp op
    obtain ⟨c1, c2, c3, c4, c5⟩ := BufA.step_toBuf b n h1 h2 h3 hp op a b1 hs
    obtain ⟨as, b2, d1, d2, d3, d4⟩ := ih b1 c1 c2 c3 c4
    refine ⟨a :: as, b2, ?_, d2, d3, ?_⟩
    · simp only [BufA.run, hs, d1]
    · simp only [Buf.run, c5, d4]

/-- **C18** for buffers with associated data. -/
theorem C18_buffer_associated (ids : List I) (distances : List D) (assoc : List A)
    (ops : List (BufOp (I × D × A))) (b : BufA I D A) (hb : BufA.new ids distances assoc = some b) :
    ∃ as b', b.run ops = some (as, b') ∧
      let w := (ops.flatMap BufOp.items).take ids.length
      b'.ids = w.map (·.1) ++ ids.drop w.length ∧
      b'.distances = w.map (·.2.1) ++ distances.drop w.length ∧
      b'.assoc = w.map (·.2.2) ++ assoc.drop w.length ∧
      b'.position = w.length ∧
      as = expectedAnswers ids.length ops := by
  unfold BufA.new at hb
  split at hb
  case isFalse => simp at hb
  rename_i hl1
  split at hb
  case isFalse => simp at hb
  rename_i hl2
  simp only [Option.some.injEq] at hb
  subst hb
  obtain ⟨as, b', h1, h2, h3, h4⟩ := BufA.run_toBuf ops ⟨ids, distances, assoc, 0⟩ ids.length rfl hl1.symm
    hl2.symm (Nat.zero_le _)
  obtain ⟨as', b'', g1, g2, g3, g4, -, g6⟩ := C18_buffer ids (distances.zip assoc) ops
    ⟨ids, distances.zip assoc, 0⟩ (by unfold Buf.new; rw [if_pos (by simp; omega)])
  have : (BufA.toBuf ⟨ids, distances, assoc, 0⟩ : Buf I (D × A)) = ⟨ids, distances.zip assoc, 0⟩ := rfl
  rw [this, g1] at h4
  simp only [Option.some.injEq, Prod.mk.injEq] at h4
  obtain ⟨rfl, rfl⟩ := h4
  have hz : (List.zip b'.distances b'.assoc) = ((ops.flatMap BufOp.items).take ids.length).map (·.2) ++
      (distances.zip assoc).drop ((ops.flatMap BufOp.items).take ids.length).length := g3
  set w := (ops.flatMap BufOp.items).take ids.length with hw
  have hd : b'.distances = (b'.distances.zip b'.assoc).map (·.1) := by
    rw [← List.unzip_fst]; rw [List.unzip_zip (by omega)]
  have ha : b'.assoc = (b'.distances.zip b'.assoc).map (·.2) := by
    rw [← List.unzip_snd]; rw [List.unzip_zip (by omega)]
  have hdd : (distances.zip assoc).map (·.1) = distances := by
    rw [← List.unzip_fst]; rw [List.unzip_zip (by omega)]
  have haa : (distances.zip assoc).map (·.2) = assoc := by
    rw [← List.unzip_snd]; rw [List.unzip_zip (by omega)]
  refine ⟨_, b', h1, g2, ?_, ?_, g4, g6⟩
  · rw [hd, hz, List.map_append, List.map_drop, hdd, List.map_map]; rfl
  · rw [ha, hz, List.map_append, List.map_drop, haa, List.map_map]; rfl

/-- Seven items offered to five slots. -/
example : (Buf.run ⟨[0, 0, 0, 0, 0], [9, 9, 9, 9, 9], 0⟩
    [.push (1, 10), .extend [(2, 20), (3, 30)], .push (4, 40), .extend [(5, 50), (6, 60)], .push (7, 70)]) =
    some ([.state .available, .count 2, .state .available, .count 1, .state .full],
      (⟨[1, 2, 3, 4, 5], [10, 20, 30, 40, 50], 5⟩ : Buf Nat Nat)) := by decide

/-- Fewer items than slots: the tail keeps the caller's contents. -/
example : (Buf.run ⟨[7, 8, 9], [7, 8, 9], 0⟩ [.push (1, 10)]) =
    some ([.state .available], (⟨[1, 8, 9], [10, 8, 9], 1⟩ : Buf Nat Nat)) := by decide

example : (BufA.run ⟨[7, 8], [7, 8], ["x", "y"], 0⟩ [.push (1, 10, "a"), .extend [(2, 20, "b"), (3, 30, "c")]]) =
    some ([.state .available, .count 1], (⟨[1, 2], [10, 20], ["a", "b"], 2⟩ : BufA Nat Nat String)) := by decide

end Verif.Search
