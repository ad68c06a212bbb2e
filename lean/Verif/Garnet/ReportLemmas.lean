import Verif.Garnet.ReportSpec
import Mathlib.Tactic.ByContra
/-
Helper lemmas for the output of a Garnet vector set.
-/
namespace Verif.Garnet.Report

variable {D : Type}

theorem readLe32_le32 (n : Nat) (h : n < 4294967296) : readLe32 (le32 n) = n := by
  simp only [readLe32, le32, UInt8.toNat_ofNat']
  omega

/-- The bytes of results. -/
def encode : List (List UInt8 × D) → List UInt8
  | [] => []
  | (id, _) :: rest => le32 id.length ++ id ++ encode rest

theorem encode_length (rs : List (List UInt8 × D)) : (encode rs).length = size rs := by
  induction rs with
  | nil => rfl
  | cons r rs ih =>
    obtain ⟨id, d⟩ := r
    simp [encode, size, le32, ih]
    omega

theorem encode_append (rs ts : List (List UInt8 × D)) : encode (rs ++ ts) = encode rs ++ encode ts := by
  induction rs with
  | nil => rfl
  | cons r rs ih =>
    obtain ⟨id, d⟩ := r
    simp [encode, ih]

theorem size_append (rs ts : List (List UInt8 × D)) : size (rs ++ ts) = size rs + size ts := by
  induction rs with
  | nil => simp [size]
  | cons r rs ih =>
    obtain ⟨id, d⟩ := r
    simp [size, ih]
    omega

theorem decode_encode (rs : List (List UInt8 × D)) (tail : List UInt8)
    (h : ∀ r ∈ rs, r.1.length < 4294967296) :
    decode rs.length (encode rs ++ tail) = some (rs.map Prod.fst) := by
  induction rs with
  | nil => simp [decode]
  | cons r rs ih =>
    obtain ⟨id, d⟩ := r
    have hid : id.length < 4294967296 := h (id, d) (by simp)
    have h4 : (encode ((id, d) :: rs) ++ tail).take 4 = le32 id.length := by
      simp [encode, le32]
    have h5 : (encode ((id, d) :: rs) ++ tail).drop 4 = id ++ (encode rs ++ tail) := by
      simp [encode, le32]
    have h6 : ¬ (encode ((id, d) :: rs) ++ tail).length < 4 := by
      simp [encode, le32]
    show decode (rs.length + 1) _ = _
    unfold decode
    rw [if_neg h6]
    simp only [h4, h5, readLe32_le32 _ hid]
    rw [if_neg (by simp)]
    simp [ih (fun r hr => h r (by simp [hr]))]

/-- The state of the buffers after results were accepted. -/
structure Filled (b : Buf D) (ids : List UInt8) (dists : List D) (rs : List (List UInt8 × D)) : Prop where
  index : b.index = rs.length
  idIndex : b.idIndex = size rs
  fits : Fits dists.length ids.length rs
  ids : b.ids = encode rs ++ ids.drop (size rs)
  dists : b.dists = rs.map Prod.snd ++ dists.drop rs.length

theorem filled_new (ids : List UInt8) (dists : List D) : Filled (Buf.new ids dists) ids dists [] := by
  constructor <;> simp [Buf.new, size, Fits, encode]

theorem filled_lengths {b : Buf D} {ids : List UInt8} {dists : List D} {rs : List (List UInt8 × D)}
    (h : Filled b ids dists rs) : b.ids.length = ids.length ∧ b.dists.length = dists.length := by
  obtain ⟨h1, h2⟩ := h.fits
  constructor
  · rw [h.ids]; simp [encode_length]; omega
  · rw [h.dists]; simp; omega

/-- One push: the result is accepted exactly if it fits. -/
theorem filled_push {b : Buf D} {ids : List UInt8} {dists : List D} {rs : List (List UInt8 × D)}
    (h : Filled b ids dists rs) (id : List UInt8) (d : D) :
    (Fits dists.length ids.length (rs ++ [(id, d)]) ∧ Filled (b.push id d).1 ids dists (rs ++ [(id, d)]) ∧
      ((b.push id d).2 = true ↔
        rs.length + 1 = dists.length ∨ size rs + 4 + id.length = ids.length)) ∨
    (¬ Fits dists.length ids.length (rs ++ [(id, d)]) ∧ b.push id d = (b, true)) := by
  obtain ⟨l1, l2⟩ := filled_lengths h
  obtain ⟨f1, f2⟩ := h.fits
  have hsz : size (rs ++ [(id, d)]) = size rs + 4 + id.length := by rw [size_append]; simp [size]; omega
  by_cases hf : Fits dists.length ids.length (rs ++ [(id, d)])
  · left
    refine ⟨hf, ?_⟩
    obtain ⟨g1, g2⟩ := hf
    rw [hsz] at g2
    simp only [List.length_append, List.length_singleton] at g1
    have hcond : (b.index ≥ b.dists.length || b.idIndex + 4 + id.length > b.ids.length) = false := by
      simp only [Bool.or_eq_false_iff, decide_eq_false_iff_not, ge_iff_le, gt_iff_lt]
      rw [h.index, h.idIndex, l1, l2]
      omega
    have hids : writeAt (writeAt b.ids b.idIndex (le32 id.length)) (b.idIndex + 4) id =
        encode (rs ++ [(id, d)]) ++ ids.drop (size (rs ++ [(id, d)])) := by
      have hle : (le32 id.length).length = 4 := rfl
      have h1 : writeAt b.ids b.idIndex (le32 id.length) = encode rs ++ le32 id.length ++ ids.drop (size rs + 4) := by
        unfold writeAt
        rw [h.ids, h.idIndex, ← encode_length rs, hle]
        simp [List.drop_append, List.drop_drop]
      rw [h1, encode_append, hsz]
      unfold writeAt
      rw [h.idIndex]
      have hl : (encode rs ++ le32 id.length).length = size rs + 4 := by simp [encode_length, hle]
      rw [← hl, List.take_left, List.drop_append, List.drop_eq_nil_of_le (by omega)]
      simp only [encode, List.append_nil, List.nil_append, List.drop_drop, List.append_assoc]
      congr 4
      simp only [hl]
      omega
    have hd : b.dists.set b.index d = (rs ++ [(id, d)]).map Prod.snd ++ dists.drop (rs ++ [(id, d)]).length := by
      rw [h.dists, h.index]
      have hlt : rs.length < dists.length := by omega
      rw [List.set_append_right _ _ (by simp)]
      simp only [List.length_map, Nat.sub_self, List.map_append, List.map_cons, List.map_nil, List.length_append,
        List.length_singleton, List.append_assoc]
      congr 1
      rw [List.drop_eq_getElem_cons hlt]
      rfl
    have hp : b.push id d = (⟨encode (rs ++ [(id, d)]) ++ ids.drop (size (rs ++ [(id, d)])),
        (rs ++ [(id, d)]).map Prod.snd ++ dists.drop (rs ++ [(id, d)]).length, rs.length + 1, size rs + 4 + id.length⟩,
        (decide (rs.length + 1 ≥ dists.length) || decide (size rs + 4 + id.length ≥ ids.length))) := by
      unfold Buf.push
      rw [hcond]
      simp only [Bool.false_eq_true, if_false]
      rw [hids, hd]
      have e1 : (encode (rs ++ [(id, d)]) ++ ids.drop (size (rs ++ [(id, d)]))).length = ids.length := by
        simp [encode_length, hsz]; omega
      have e2 : ((rs ++ [(id, d)]).map Prod.snd ++ dists.drop (rs ++ [(id, d)]).length).length = dists.length := by
        simp; omega
      simp only [e1, e2, h.index, h.idIndex]
    rw [hp]
    refine ⟨⟨by simp, by rw [hsz], ⟨by simp; omega, by rw [hsz]; omega⟩, rfl, rfl⟩, ?_⟩
    simp only [Bool.or_eq_true, decide_eq_true_eq]
    omega
  · right
    refine ⟨hf, ?_⟩
    have hcond : (b.index ≥ b.dists.length || b.idIndex + 4 + id.length > b.ids.length) = true := by
      simp only [Bool.or_eq_true, decide_eq_true_eq, ge_iff_le, gt_iff_lt]
      rw [h.index, h.idIndex, l1, l2]
      by_contra hcon
      apply hf
      refine ⟨by simp; omega, by rw [hsz]; omega⟩
    unfold Buf.push
    rw [if_pos hcond]

theorem holds_of_filled {b : Buf D} {ids : List UInt8} {dists : List D} {rs : List (List UInt8 × D)}
    (h : Filled b ids dists rs) (hl : ∀ r ∈ rs, r.1.length < 4294967296) : Holds b rs := by
  refine ⟨h.index, ?_, ?_⟩
  · rw [h.index, h.ids]; exact decode_encode rs _ hl
  · rw [h.index, h.dists]
    have : rs.length = (rs.map Prod.snd).length := by simp
    rw [this, List.take_left]

/-- `extend` accepts the longest prefix that fits. -/
theorem filled_extend {b : Buf D} {ids : List UInt8} {dists : List D} {rs : List (List UInt8 × D)}
    (h : Filled b ids dists rs) (items : List (List UInt8 × D)) :
    ∃ k, k ≤ items.length ∧ Filled (b.extend items) ids dists (rs ++ items.take k) ∧
      (k < items.length → ¬ Fits dists.length ids.length (rs ++ items.take (k + 1))) := by
  induction items generalizing b rs with
  | nil => exact ⟨0, by simp, by simpa [Buf.extend] using h, by simp⟩
  | cons r items ih =>
    obtain ⟨id, d⟩ := r
    rcases filled_push h id d with ⟨hf, hfill, hfull⟩ | ⟨hnf, heq⟩
    · unfold Buf.extend
      cases hb : (b.push id d).2 with
      | true =>
        refine ⟨1, by simp, ?_, ?_⟩
        · simpa [hb] using hfill
        · intro hlt hc
          simp only [List.length_cons] at hlt
          have c1 : (rs ++ ((id, d) :: items).take 2).length ≤ dists.length := hc.1
          have c2 : size (rs ++ ((id, d) :: items).take 2) ≤ ids.length := hc.2
          have hlen : (items.take 1).length = 1 := by rw [List.length_take]; omega
          have e1 : (rs ++ ((id, d) :: items).take 2).length = rs.length + 2 := by
            simp only [List.length_append, List.take_succ_cons, List.length_cons, hlen]
          have e2 : size (rs ++ ((id, d) :: items).take 2) ≥ size rs + 4 + id.length + 4 := by
            rw [size_append, List.take_succ_cons]
            cases items with
            | nil => simp at hlt
            | cons r2 items =>
              obtain ⟨id2, d2⟩ := r2
              simp [size]
              omega
          rw [e1] at c1
          rcases hfull.1 hb with hx | hx <;> omega
      | false =>
        obtain ⟨k, hk, hfk, hmax⟩ := ih hfill
        refine ⟨k + 1, by simp; omega, ?_, ?_⟩
        · simp only [hb, Bool.false_eq_true, if_false, List.take_succ_cons]
          simpa using hfk
        · intro hlt
          simp only [List.length_cons] at hlt
          have := hmax (by omega)
          simpa using this
    · refine ⟨0, by simp, ?_, ?_⟩
      · unfold Buf.extend
        simp [heq, h]
      · intro _
        simpa using hnf

theorem copyExternal_eq (ext : Nat → Option (List UInt8)) (b : Buf D) (cs : List (Nat × D)) :
    copyExternal ext b cs = b.extend (cs.filterMap fun p => (ext p.1).map fun id => (id, p.2)) := by
  induction cs generalizing b with
  | nil => rfl
  | cons p cs ih =>
    obtain ⟨i, d⟩ := p
    cases he : ext i with
    | none => simp [copyExternal, he, ih]
    | some id => simp [copyExternal, he, Buf.extend, ih]

end Verif.Garnet.Report
