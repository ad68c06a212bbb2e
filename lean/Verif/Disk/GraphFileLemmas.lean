import Verif.Disk.GraphFileModel
import Verif.Disk.LayoutLemmas
import Mathlib.Tactic.IntervalCases
import Mathlib.Tactic.Ring

/-! Helper lemmas for C68. -/

namespace Verif.Disk

/-- The bytes of one adjacency list. -/
def listBytes (l : List Nat) : List Byte := leEncode 4 l.length ++ (l.map (leEncode 4)).flatten

/-- The bytes of all adjacency lists. -/
def listsBytes (ls : List (List Nat)) : List Byte := (ls.map listBytes).flatten

theorem listBytes_length (l : List Nat) : (listBytes l).length = 4 * (1 + l.length) := by
  simp only [listBytes, List.length_append, leEncode_length, flatten_enc_length]; omega

theorem listsBytes_cons (l : List Nat) (ls : List (List Nat)) : listsBytes (l :: ls) = listBytes l ++ listsBytes ls := by
  simp [listsBytes]

theorem listsBytes_append (a b : List (List Nat)) : listsBytes (a ++ b) = listsBytes a ++ listsBytes b := by
  simp [listsBytes]

theorem indexSize_aux (ls : List (List Nat)) (s : Nat) :
    ls.foldl (fun s l => s + 4 * (1 + l.length)) s = s + (listsBytes ls).length := by
  induction ls generalizing s with
  | nil => simp [listsBytes]
  | cons l ls ih => rw [List.foldl_cons, ih, listsBytes_cons, List.length_append, listBytes_length]; omega

theorem indexSize_eq (ls : List (List Nat)) : indexSize ls = 24 + (listsBytes ls).length := indexSize_aux ls 24

theorem written_append (a b : List WOp) : written (a ++ b) = written a ++ written b := by
  induction a with
  | nil => rfl
  | cons op a ih => cases op <;> simp [written, ih]

theorem written_listOps (l : List Nat) : written (listOps l) = listBytes l := by
  have : ∀ l : List Nat, written (l.map fun n => .write (leEncode 4 n)) = (l.map (leEncode 4)).flatten := by
    intro l
    induction l with
    | nil => rfl
    | cons a l ih => simp [written, ih]
  simp only [listOps, written, this, listBytes]

theorem written_lists (ls : List (List Nat)) : written (ls.flatMap listOps) = listsBytes ls := by
  induction ls with
  | nil => rfl
  | cons l ls ih => rw [List.flatMap_cons, written_append, ih, written_listOps, listsBytes_cons]

/-- The 24 bytes first written. -/
def header0 (g : GraphSrc) (start : Nat) : List Byte :=
  leEncode 8 24 ++ leEncode 4 0 ++ leEncode 4 start ++ leEncode 8 g.additional

theorem header0_length (g : GraphSrc) (start : Nat) : (header0 g start).length = 24 := by
  simp [header0, leEncode_length]

theorem written_body (g : GraphSrc) (start : Nat) :
    written (bodyOps g start) = header0 g start ++ listsBytes g.lists := by
  unfold bodyOps
  rw [written_append, written_lists]
  simp [written, header0]

theorem body_noreset (g : GraphSrc) (start : Nat) : ∀ op ∈ bodyOps g start, op ≠ .reset := by
  intro op h
  unfold bodyOps at h
  rcases List.mem_append.1 h with h | h
  · simp only [List.mem_cons, List.not_mem_nil, or_false] at h
    rcases h with rfl | rfl | rfl | rfl <;> simp
  · obtain ⟨l, -, h⟩ := List.mem_flatMap.1 h
    unfold listOps at h
    rcases List.mem_cons.1 h with rfl | h
    · simp
    · obtain ⟨n, -, rfl⟩ := List.mem_map.1 h
      simp

theorem body_writes (g : GraphSrc) (start : Nat) : ∀ op ∈ bodyOps g start, ∃ bs, op = .write bs := by
  intro op h
  unfold bodyOps at h
  rcases List.mem_append.1 h with h | h
  · simp only [List.mem_cons, List.not_mem_nil, or_false] at h
    rcases h with rfl | rfl | rfl | rfl <;> exact ⟨_, rfl⟩
  · obtain ⟨l, -, h⟩ := List.mem_flatMap.1 h
    unfold listOps at h
    rcases List.mem_cons.1 h with rfl | h
    · exact ⟨_, rfl⟩
    · obtain ⟨n, -, rfl⟩ := List.mem_map.1 h
      exact ⟨_, rfl⟩

theorem specWrites_concat (a b : List WOp) (s : List Byte × Nat) :
    specWrites s (a ++ b) = specWrites (specWrites s a) b := by
  induction a generalizing s with
  | nil => rfl
  | cons op a ih => obtain ⟨f, p⟩ := s; cases op <;> simp [specWrites, ih]

/-- Everything before the header update. -/
def bodyBytes (g : GraphSrc) (start : Nat) : List Byte := header0 g start ++ listsBytes g.lists

/-- The 12 bytes of the header update. -/
def newHeader (g : GraphSrc) : List Byte :=
  leEncode 8 (indexSize g.lists) ++ leEncode 4 (g.maxDegree.getD (observedDegree g.lists))

theorem newHeader_length (g : GraphSrc) : (newHeader g).length = 12 := by simp [newHeader, leEncode_length]

theorem bodyBytes_length (g : GraphSrc) (start : Nat) : (bodyBytes g start).length = indexSize g.lists := by
  rw [bodyBytes, List.length_append, header0_length, indexSize_eq]

theorem spec_body (g : GraphSrc) (start : Nat) :
    specWrites ([], 0) (bodyOps g start) = (bodyBytes g start, (bodyBytes g start).length) := by
  have := specWrites_append (bodyOps g start) [] (body_noreset g start)
  simp only [List.length_nil, List.nil_append, Nat.zero_add, written_body] at this
  exact this

theorem saveGraph_eq (g : GraphSrc) (start : Nat) :
    saveGraph g start = newHeader g ++ (bodyBytes g start).drop 12 := by
  unfold saveGraph saveOps
  rw [specWrites_concat, spec_body]
  simp only [headerOps, specWrites, List.take_zero, List.nil_append, Nat.zero_add, leEncode_length,
    List.take_append_of_le_length (show 8 ≤ (leEncode 8 (indexSize g.lists)).length by simp [leEncode_length])]
  rw [List.take_of_length_le (by simp [leEncode_length]), List.drop_append,
    List.drop_of_length_le (by simp [leEncode_length]), List.nil_append, leEncode_length, List.drop_drop]
  simp [newHeader]

theorem written_trunc (n : Nat) (ops : List WOp) (h : ∀ op ∈ ops, ∃ bs, op = .write bs) :
    written (truncOps n ops) = (written ops).take n ∧ (∀ op ∈ truncOps n ops, op ≠ .reset) := by
  induction ops generalizing n with
  | nil => simp [truncOps, written]
  | cons op ops ih =>
    obtain ⟨bs, rfl⟩ := h op List.mem_cons_self
    unfold truncOps
    split
    · rename_i hn
      simp only [written, List.append_nil, List.take_append_of_le_length (Nat.le_of_lt hn), true_and]
      intro op ho
      simp only [List.mem_singleton] at ho
      rw [ho]; simp
    · rename_i hn
      obtain ⟨i1, i2⟩ := ih (n - bs.length) (fun o ho => h o (List.mem_cons_of_mem _ ho))
      refine ⟨?_, ?_⟩
      · simp only [written, i1, List.take_append, List.take_of_length_le (Nat.le_of_not_lt hn)]
      · intro op ho
        rcases List.mem_cons.1 ho with rfl | ho
        · simp
        · exact i2 op ho

theorem truncOps_append (n : Nat) (a b : List WOp) (h : ∀ op ∈ a, ∃ bs, op = .write bs)
    (hn : (written a).length ≤ n) : truncOps n (a ++ b) = a ++ truncOps (n - (written a).length) b := by
  induction a generalizing n with
  | nil => simp [written]
  | cons op a ih =>
    obtain ⟨bs, rfl⟩ := h op List.mem_cons_self
    simp only [written, List.length_append] at hn ⊢
    rw [List.cons_append, truncOps, if_neg (by omega),
      ih (n - bs.length) (fun o ho => h o (List.mem_cons_of_mem _ ho)) (by omega), List.cons_append,
      Nat.sub_sub]

theorem truncOps_append_lt (n : Nat) (a b : List WOp) (h : ∀ op ∈ a, ∃ bs, op = .write bs)
    (hn : n < (written a).length) : truncOps n (a ++ b) = truncOps n a := by
  induction a generalizing n with
  | nil => simp [written] at hn
  | cons op a ih =>
    obtain ⟨bs, rfl⟩ := h op List.mem_cons_self
    simp only [written, List.length_append] at hn
    rw [List.cons_append, truncOps, truncOps]
    split
    · rfl
    · rw [ih (n - bs.length) (fun o ho => h o (List.mem_cons_of_mem _ ho)) (by omega)]

/-- The file after a cut-short save. -/
theorem interrupted_eq (g : GraphSrc) (start n : Nat) :
    interrupted g start n =
      if n < indexSize g.lists then (bodyBytes g start).take n
      else (newHeader g).take (n - indexSize g.lists) ++
        (bodyBytes g start).drop (min 12 (n - indexSize g.lists)) := by
  have hB : (written (bodyOps g start)).length = indexSize g.lists := by
    rw [written_body, ← bodyBytes_length g start]; rfl
  unfold interrupted saveOps
  split
  · rename_i hn
    rw [truncOps_append_lt _ _ _ (body_writes g start) (by omega)]
    obtain ⟨h1, h2⟩ := written_trunc n _ (body_writes g start)
    have := specWrites_append _ [] h2
    simp only [List.length_nil, List.nil_append, Nat.zero_add] at this
    rw [this, h1, written_body]; rfl
  · rename_i hn
    rw [truncOps_append _ _ _ (body_writes g start) (by omega), specWrites_concat, spec_body, hB]
    generalize n - indexSize g.lists = j
    simp only [headerOps, truncOps, leEncode_length]
    have t8 : ∀ x, (leEncode 8 x).length = 8 := leEncode_length 8
    have t4 : ∀ x, (leEncode 4 x).length = 4 := leEncode_length 4
    by_cases h8 : j < 8
    · rw [if_pos h8]
      simp only [specWrites, List.take_zero, List.nil_append, Nat.zero_add, newHeader]
      rw [List.take_append_of_le_length (by rw [t8]; omega), List.length_take, t8, Nat.min_eq_left (by omega),
        Nat.min_eq_right (by omega)]
    · rw [if_neg h8]
      by_cases h4 : j - 8 < 4
      · rw [if_pos h4]
        simp only [specWrites, List.take_zero, List.nil_append, Nat.zero_add, t8, newHeader]
        rw [List.take_append_of_le_length (by rw [t8]), List.take_of_length_le (by rw [t8]), List.drop_append, t8,
          List.drop_of_length_le (by rw [t8]; omega), List.nil_append, List.drop_drop, List.length_take, t4,
          List.take_append (l₁ := leEncode 8 _), t8,
          List.take_of_length_le (l := leEncode 8 _) (by rw [t8]; omega),
          Nat.min_eq_left (by omega), Nat.min_eq_right (by omega)]
        congr 2; omega
      · rw [if_neg h4]
        simp only [specWrites, List.take_zero, List.nil_append, Nat.zero_add, t8, t4, newHeader]
        rw [List.take_append_of_le_length (by rw [t8]), List.take_of_length_le (by rw [t8]), List.drop_append, t8,
          List.drop_of_length_le (by rw [t8]; omega), List.nil_append, List.drop_drop,
          List.take_of_length_le (by simp only [List.length_append, t8, t4]; omega), Nat.min_eq_left (by omega)]

theorem decodeU32s_append (l : List Nat) (rest : List Byte) (h : ∀ x ∈ l, x < 2 ^ 32) :
    decodeU32s l.length ((l.map (leEncode 4)).flatten ++ rest) = l := by
  induction l with
  | nil => rfl
  | cons a l ih =>
    have h4 : (leEncode 4 a).length = 4 := leEncode_length 4 a
    simp only [List.length_cons, List.map_cons, List.flatten_cons, decodeU32s, List.append_assoc]
    rw [List.take_append_of_le_length (by omega), List.take_of_length_le (by omega),
      leDecode_leEncode 4 a (by have := h a List.mem_cons_self; simpa using this),
      List.drop_append_of_le_length (by omega), List.drop_of_length_le (by omega), List.nil_append,
      ih fun x hx => h x (List.mem_cons_of_mem _ hx)]

theorem readAt_at (k x : Nat) (pre post : List Byte) (pos : Nat) (hp : pos = pre.length) (h : x < 256 ^ k) :
    readAt k (pre ++ (leEncode k x ++ post)) pos = some x := by
  unfold readAt
  subst hp
  have := leEncode_length k x
  rw [if_pos (by simp only [List.length_append]; omega), List.drop_append_of_le_length (Nat.le_refl _),
    List.drop_of_length_le (Nat.le_refl _), List.nil_append, List.take_append_of_le_length (by omega),
    List.take_of_length_le (by omega), leDecode_leEncode k x h]

/-- Sizes and ids fit `u32`. -/
def ListsOk (ls : List (List Nat)) : Prop := ∀ l ∈ ls, l.length < 2 ^ 32 ∧ ∀ x ∈ l, x < 2 ^ 32

/-- The counting pass over complete lists. -/
theorem scan_complete (pre : List Byte) (ls : List (List Nat)) (hok : ListsOk ls) (pos n size : Nat)
    (hp : pos = pre.length) (hs : size = pos + (listsBytes ls).length) :
    scanGraph (pre ++ listsBytes ls) size pos n = some (size, n + ls.length) := by
  induction ls generalizing pre pos n with
  | nil =>
    rw [scanGraph, if_neg (by simp [hs, listsBytes])]
    simp [hs, listsBytes]
  | cons l ls ih =>
    have hl := hok l List.mem_cons_self
    have hlen := listBytes_length l
    rw [scanGraph, if_pos (by rw [hs, listsBytes_cons, List.length_append]; omega), listsBytes_cons, listBytes,
      List.append_assoc, readAt_at 4 _ pre _ pos hp (by simpa using hl.1)]
    simp only
    have := ih (pre := pre ++ listBytes l) (fun l hl => hok l (List.mem_cons_of_mem _ hl)) (pos + 4 + l.length * 4) (n + 1)
      (by rw [List.length_append, hlen]; omega) (by rw [hs, listsBytes_cons, List.length_append]; omega)
    rw [List.append_assoc, listBytes, List.append_assoc] at this
    rw [this]
    simp only [List.length_cons, Option.some.injEq, Prod.mk.injEq, true_and]; omega

/-- The reading pass over complete lists, with any claimed size up to the true one: what it returns is a prefix. -/
theorem readLists_prefix (pre : List Byte) (ls : List (List Nat)) (hok : ListsOk ls) (pos size md : Nat)
    (acc r : List (List Nat)) (hp : pos = pre.length) (hs : size ≤ pos + (listsBytes ls).length)
    (h : readLists (pre ++ listsBytes ls) size md pos acc = .ok r) : ∃ k, r = acc ++ ls.take k := by
  induction ls generalizing pre pos acc with
  | nil =>
    rw [readLists, if_neg (by simp [listsBytes] at hs; omega)] at h
    cases h; exact ⟨0, by simp⟩
  | cons l ls ih =>
    have hl := hok l List.mem_cons_self
    have hlen := listBytes_length l
    rw [readLists] at h
    split at h
    · rw [listsBytes_cons, listBytes, List.append_assoc, readAt_at 4 _ pre _ pos hp (by simpa using hl.1)] at h
      simp only at h
      split at h
      · simp at h
      · split at h
        · simp at h
        · have hd : (pre ++ (leEncode 4 l.length ++ ((l.map (leEncode 4)).flatten ++ listsBytes ls))).drop (pos + 4) =
              (l.map (leEncode 4)).flatten ++ listsBytes ls := by
            rw [← List.append_assoc, List.drop_append_of_le_length (by simp [leEncode_length, hp]),
              List.drop_of_length_le (by simp [leEncode_length, hp]), List.nil_append]
          rw [hd, decodeU32s_append l _ hl.2] at h
          obtain ⟨k, hk⟩ := ih (pre := pre ++ listBytes l) (fun l hl => hok l (List.mem_cons_of_mem _ hl))
            (pos + 4 * (1 + l.length)) (acc ++ [l]) (by rw [List.length_append, hlen]; omega)
            (by rw [listsBytes_cons, List.length_append] at hs; omega)
            (by rw [List.append_assoc, listBytes, List.append_assoc]; exact h)
          exact ⟨k + 1, by rw [hk]; simp⟩
    · cases h; exact ⟨0, by simp⟩

/-- The reading pass over complete lists. -/
theorem readLists_complete (pre : List Byte) (ls : List (List Nat)) (hok : ListsOk ls) (pos size md : Nat)
    (acc : List (List Nat)) (hp : pos = pre.length) (hs : size = pos + (listsBytes ls).length)
    (hmd : ∀ l ∈ ls, l.length ≤ md) :
    readLists (pre ++ listsBytes ls) size md pos acc = .ok (acc ++ ls) := by
  induction ls generalizing pre pos acc with
  | nil => rw [readLists, if_neg (by simp [hs, listsBytes])]; simp
  | cons l ls ih =>
    have hl := hok l List.mem_cons_self
    have hlen := listBytes_length l
    rw [readLists, if_pos (by rw [hs, listsBytes_cons, List.length_append]; omega), listsBytes_cons, listBytes,
      List.append_assoc, readAt_at 4 _ pre _ pos hp (by simpa using hl.1)]
    simp only
    have h1 := hmd l List.mem_cons_self
    rw [if_neg (by omega), if_neg (by
      simp only [List.length_append, leEncode_length, flatten_enc_length]; omega)]
    have hd : (pre ++ (leEncode 4 l.length ++ ((l.map (leEncode 4)).flatten ++ listsBytes ls))).drop (pos + 4) =
        (l.map (leEncode 4)).flatten ++ listsBytes ls := by
      rw [← List.append_assoc, List.drop_append_of_le_length (by simp [leEncode_length, hp]),
        List.drop_of_length_le (by simp [leEncode_length, hp]), List.nil_append]
    rw [hd, decodeU32s_append l _ hl.2]
    have := ih (pre := pre ++ listBytes l) (fun l hl => hok l (List.mem_cons_of_mem _ hl))
      (pos + 4 * (1 + l.length)) (acc ++ [l]) (by rw [List.length_append, hlen]; omega)
      (by rw [hs, listsBytes_cons, List.length_append]; omega) (fun l hl => hmd l (List.mem_cons_of_mem _ hl))
    rw [List.append_assoc, listBytes, List.append_assoc] at this
    rw [this]; simp

theorem readAt_take (k n : Nat) (file : List Byte) (pos : Nat) :
    readAt k (file.take n) pos = if pos + k ≤ n then readAt k file pos else none := by
  unfold readAt
  rw [List.length_take]
  by_cases h : pos + k ≤ n
  · rw [if_pos h]
    by_cases h' : pos + k ≤ file.length
    · rw [if_pos (by omega), if_pos h']
      congr 2
      rw [List.drop_take, List.take_take, Nat.min_eq_left (by omega)]
    · rw [if_neg (by omega), if_neg h']
  · rw [if_neg (by omega), if_neg h]

/-- The reading pass over a truncated file fails. -/
theorem readLists_truncated (pre : List Byte) (ls : List (List Nat)) (hok : ListsOk ls) (pos size md n : Nat)
    (acc : List (List Nat)) (hp : pos = pre.length) (hs : size = pos + (listsBytes ls).length)
    (hmd : ∀ l ∈ ls, l.length ≤ md) (hn : pos ≤ n) (hn' : n < size) :
    readLists ((pre ++ listsBytes ls).take n) size md pos acc = .err := by
  induction ls generalizing pre pos acc with
  | nil => simp [listsBytes] at hs; omega
  | cons l ls ih =>
    have hl := hok l List.mem_cons_self
    have hlen := listBytes_length l
    have h1 := hmd l List.mem_cons_self
    rw [readLists, if_pos (by omega), readAt_take]
    split
    · rfl
    · rename_i k hk
      split at hk
      · rw [listsBytes_cons, listBytes, List.append_assoc, readAt_at 4 _ pre _ pos hp (by simpa using hl.1)] at hk
        cases hk
        rw [if_neg (by omega)]
        split
        · rfl
        · rename_i hge
          have := ih (pre := pre ++ listBytes l) (fun l hl => hok l (List.mem_cons_of_mem _ hl))
            (pos + 4 * (1 + l.length))
            (acc ++ [decodeU32s l.length (((pre ++ listsBytes (l :: ls)).take n).drop (pos + 4))])
            (by rw [List.length_append, hlen]; omega)
            (by rw [hs, listsBytes_cons, List.length_append]; omega) (fun l hl => hmd l (List.mem_cons_of_mem _ hl))
            (by rw [List.length_take] at hge; omega)
          rw [List.append_assoc, ← listsBytes_cons] at this
          exact this
      · cases hk

theorem observed_ge (ls : List (List Nat)) (m : Nat) :
    (∀ l ∈ ls, l.length ≤ ls.foldl (fun m l => max m l.length) m) ∧ m ≤ ls.foldl (fun m l => max m l.length) m ∧
    (ls.foldl (fun m l => max m l.length) m = m ∨ ∃ l ∈ ls, l.length = ls.foldl (fun m l => max m l.length) m) := by
  induction ls generalizing m with
  | nil => simp
  | cons l ls ih =>
    obtain ⟨h1, h2, h3⟩ := ih (max m l.length)
    rw [List.foldl_cons]
    refine ⟨?_, by omega, ?_⟩
    · intro x hx
      rcases List.mem_cons.1 hx with rfl | hx
      · omega
      · exact h1 x hx
    · rcases h3 with h3 | ⟨x, hx, h3⟩
      · rw [h3]
        rcases Nat.le_total m l.length with h | h
        · right; exact ⟨l, List.mem_cons_self, by omega⟩
        · left; omega
      · right; exact ⟨x, List.mem_cons_of_mem _ hx, h3⟩

/-- The header of a complete file. -/
theorem saved_header (g : GraphSrc) (start : Nat) :
    saveGraph g start = (leEncode 8 (indexSize g.lists) ++ leEncode 4 (g.maxDegree.getD (observedDegree g.lists)) ++
      leEncode 4 start ++ leEncode 8 g.additional) ++ listsBytes g.lists := by
  rw [saveGraph_eq, bodyBytes, header0, newHeader]
  have h12 : (leEncode 8 24 ++ leEncode 4 0).length = 12 := by simp [leEncode_length]
  rw [List.append_assoc (leEncode 8 24 ++ leEncode 4 0), List.append_assoc (leEncode 8 24 ++ leEncode 4 0),
    List.drop_append_of_le_length (by omega), List.drop_of_length_le (by omega), List.nil_append]
  simp only [List.append_assoc]

theorem leDecode_append (a b : List Byte) : leDecode (a ++ b) = leDecode a + 256 ^ a.length * leDecode b := by
  induction a with
  | nil => simp [leDecode]
  | cons x a ih => simp only [List.cons_append, leDecode, ih, List.length_cons, Nat.pow_succ]; ring

theorem leDecode_take_le (bs : List Byte) (j : Nat) : leDecode (bs.take j) ≤ leDecode bs := by
  conv => rhs; rw [← List.take_append_drop j bs, leDecode_append]
  omega

/-- A half-updated size field is at most the true size, unless nothing was updated. -/
theorem torn_size (size j : Nat) (hj : 1 ≤ j) (hs : size < 256 ^ 8) :
    leDecode ((leEncode 8 size).take j ++ (leEncode 8 24).drop j) ≤ size := by
  rw [leDecode_append]
  have h0 : leDecode ((leEncode 8 24).drop j) = 0 := by
    by_cases h : j < 8
    · interval_cases j <;> decide
    · rw [List.drop_of_length_le (by rw [leEncode_length]; omega)]; rfl
  rw [h0, Nat.mul_zero, Nat.add_zero]
  calc _ ≤ leDecode (leEncode 8 size) := leDecode_take_le _ _
    _ = size := leDecode_leEncode 8 size hs

end Verif.Disk
