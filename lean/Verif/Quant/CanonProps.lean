import Verif.Quant.CanonModel
import Verif.Quant.BitsProps
import Mathlib.Tactic.Ring

/-!
# Compressed vectors over borrowed bytes: theorems
-/

namespace Verif.Quant.Canon

open Verif.Quant

/-! ## Specification -/

/-- Bytes that hold `dim` codes of `N` bits. -/
def codeBytes (N dim : Nat) : Nat := (N * dim + 7) / 8

/-- A power of two. -/
def Pow2 (n : Nat) : Prop := ∃ k, n = 2 ^ k

/-- A possible type: its alignment is a power of two that divides its size. -/
def Ty.Valid (T : Ty) : Prop := Pow2 T.align ∧ T.align ∣ T.size

/-- The codes of `bytes` are the numbers `vals`, each of `N` bits. -/
def Holds (N : Nat) (s : BitSlice) (vals : List Int) : Prop :=
  IsArray (dense N) (unsigned N) s vals ∧ ∀ v ∈ vals, 0 ≤ v ∧ v < 2 ^ N

/-! ## Lemmas -/

theorem divRoundUp_eight (x : Nat) : divRoundUp x 8 = (x + 7) / 8 := by
  unfold divRoundUp
  split <;> omega

theorem sliceBytes_eq {N dim : Nat} (h : N * dim < 2 ^ 64) : sliceBytes N dim = codeBytes N dim := by
  unfold sliceBytes usizeMod codeBytes
  rw [Nat.mod_eq_of_lt h, divRoundUp_eight]

theorem sliceBytes_le (N dim : Nat) : sliceBytes N dim ≤ 2 ^ 61 := by
  unfold sliceBytes usizeMod
  rw [divRoundUp_eight]
  have : N * dim % 2 ^ 64 < 2 ^ 64 := Nat.mod_lt _ (by decide)
  omega

theorem canonicalBytes_add {N m : Nat} (dim : Nat) (hm : m < 2 ^ 63) :
    canonicalBytes N m dim = sliceBytes N dim + m := by
  unfold canonicalBytes usizeMod
  apply Nat.mod_eq_of_lt
  have := sliceBytes_le N dim
  omega

theorem canonicalBytes_eq {N m dim : Nat} (h : N * dim < 2 ^ 64) (hm : m < 2 ^ 63) :
    canonicalBytes N m dim = m + codeBytes N dim := by
  rw [canonicalBytes_add dim hm, sliceBytes_eq h, Nat.add_comm]

theorem dense_bytes (N dim : Nat) : (dense N).bytes dim = codeBytes N dim := by
  show divRoundUp (N * dim) 8 = _
  rw [divRoundUp_eight, codeBytes]

theorem holds_of_length {N : Nat} (h1 : 1 ≤ N) (h8 : N ≤ 8) (s : BitSlice)
    (h : s.data.length = codeBytes N s.count) : ∃ vals, Holds N s vals ∧ vals.length = s.count := by
  obtain ⟨vals, a, b⟩ := slice_refines (dense_lawful h1 h8) (unsigned_lawful h8) s (by rw [h, dense_bytes])
  exact ⟨vals, ⟨a, b⟩, a.1.symm⟩

theorem set_shape {N : Nat} (h1 : 1 ≤ N) (h8 : N ≤ 8) (s s' : BitSlice) (i : Nat) (v : Int)
    (hs : s.data.length = codeBytes N s.count) (h : s.set (dense N) (unsigned N) i v = some (.ok s')) :
    s'.count = s.count ∧ s'.data.length = s.data.length := by
  unfold BitSlice.set at h
  split at h
  · simp at h
  · rename_i hi
    split at h
    · simp at h
    · rename_i e he
      have hv : 0 ≤ v ∧ v < 2 ^ N := by
        by_contra hc
        rw [(unsigned_lawful h8).rej v hc] at he
        simp at he
      obtain ⟨e', q1, q2, q3⟩ := (unsigned_lawful h8).enc v hv
      rw [q1] at he
      simp only [Option.some.injEq] at he
      subst he
      obtain ⟨d, p1, p2, p3⟩ := (dense_lawful h1 h8).pack s.data s.count i e' (by rw [hs, dense_bytes]) (by omega) q2
      rw [p1] at h
      simp only [Option.map_some, Option.some.injEq, Except.ok.injEq] at h
      subst h
      exact ⟨rfl, p2⟩

theorem sets_shape {N : Nat} (h1 : 1 ≤ N) (h8 : N ≤ 8) (ops : List (Nat × Int)) (s s' : BitSlice)
    (hs : s.data.length = codeBytes N s.count) (h : s.sets (dense N) (unsigned N) ops = some s') :
    s'.count = s.count ∧ s'.data.length = s.data.length := by
  induction ops generalizing s with
  | nil =>
    simp only [BitSlice.sets, Option.some.injEq] at h
    subst h
    exact ⟨rfl, rfl⟩
  | cons op ops ih =>
    obtain ⟨i, v⟩ := op
    unfold BitSlice.sets at h
    split at h
    · simp at h
    · exact ih s hs h
    · rename_i t ht
      obtain ⟨a, b⟩ := set_shape h1 h8 s t i v hs ht
      obtain ⟨c, d⟩ := ih t (by rw [a, b, hs]) h
      exact ⟨by rw [c, a], by rw [d, b]⟩

theorem arraySets_dom {N : Nat} (ops : List (Nat × Int)) (vals : List Int)
    (h : ∀ v ∈ vals, 0 ≤ v ∧ v < 2 ^ N) : ∀ v ∈ arraySets (2 ^ N) vals ops, 0 ≤ v ∧ v < 2 ^ N := by
  induction ops generalizing vals with
  | nil => exact h
  | cons op ops ih =>
    obtain ⟨i, x⟩ := op
    unfold arraySets
    apply ih
    split
    · rename_i hx
      intro v hv
      rcases List.mem_or_eq_of_mem_set hv with hv | hv
      · exact h v hv
      · rw [hv]; exact hx
    · exact h

theorem front_ok {N m dim : Nat} (h : N * dim < 2 ^ 64) (hm : m < 2 ^ 63) (data : List Byte)
    (hd : data.length = m + codeBytes N dim) :
    front N m data dim = some (.ok ⟨data.take m, data.drop m, dim⟩) := by
  unfold front
  simp only [canonicalBytes_eq h hm]
  rw [if_neg (by omega)]
  unfold frontUnchecked splitUnchecked
  rw [if_pos (by omega)]
  rfl

theorem back_ok {N m dim : Nat} (h : N * dim < 2 ^ 64) (hm : m < 2 ^ 63) (data : List Byte)
    (hd : data.length = m + codeBytes N dim) :
    back N m data dim =
      some (.ok ⟨data.drop (codeBytes N dim), data.take (codeBytes N dim), dim⟩) := by
  unfold back
  simp only [canonicalBytes_eq h hm]
  rw [if_neg (by omega), if_neg (by omega)]
  unfold splitUnchecked
  rw [if_pos (by omega)]
  have : data.length - m = codeBytes N dim := by omega
  rw [this]
  rfl

/-! ## Vectors -/

/-- C125: when the number of bits fits a machine word, the front layout is accepted exactly for slices of the
documented length; then the metadata is the first `m` bytes and every code is readable. -/
theorem C125_front_partial (N m dim : Nat) (h1 : 1 ≤ N) (h8 : N ≤ 8) (h : N * dim < 2 ^ 64) (hm : m < 2 ^ 63)
    (data : List Byte) :
    (data.length = m + codeBytes N dim → ∃ v vals, front N m data dim = some (.ok v) ∧ v.metadata = data.take m ∧
      v.bits.data = data.drop m ∧ Holds N v.bits vals ∧ vals.length = dim) ∧
    (data.length ≠ m + codeBytes N dim →
      front N m data dim = some (.error (.wrongLength (m + codeBytes N dim) data.length))) := by
  constructor
  · intro hd
    obtain ⟨vals, a, b⟩ := holds_of_length h1 h8 ⟨data.drop m, dim⟩ (by simp only [List.length_drop]; omega)
    exact ⟨_, vals, front_ok h hm data hd, rfl, rfl, a, b⟩
  · intro hd
    unfold front
    simp only [canonicalBytes_eq h hm]
    rw [if_pos hd]

/-- C125: the back layout: the metadata is the last `m` bytes. -/
theorem C125_back_partial (N m dim : Nat) (h1 : 1 ≤ N) (h8 : N ≤ 8) (h : N * dim < 2 ^ 64) (hm : m < 2 ^ 63)
    (data : List Byte) :
    (data.length = m + codeBytes N dim → ∃ v vals, back N m data dim = some (.ok v) ∧
      v.metadata = data.drop (codeBytes N dim) ∧ v.metadata.length = m ∧ v.bits.data = data.take (codeBytes N dim) ∧
      Holds N v.bits vals ∧ vals.length = dim) ∧
    (data.length ≠ m + codeBytes N dim →
      back N m data dim = some (.error (.wrongLength (m + codeBytes N dim) data.length))) := by
  constructor
  · intro hd
    obtain ⟨vals, a, b⟩ := holds_of_length h1 h8 ⟨data.take (codeBytes N dim), dim⟩
      (by simp only [List.length_take]; omega)
    exact ⟨_, vals, back_ok h hm data hd, rfl, (by simp only [List.length_drop]; omega), rfl, a, b⟩
  · intro hd
    unfold back
    simp only [canonicalBytes_eq h hm]
    rw [if_pos hd]

/-- C125: the mutable and the shared view of the back layout are the same, for every slice and dimension (the two
functions check the length differently). -/
theorem C125_back_mut (N m dim : Nat) (hm : m < 2 ^ 63) (data : List Byte) :
    back N m data dim = some (backMut N m data dim) := by
  unfold back backMut
  simp only [canonicalBytes_add dim hm]
  by_cases hd : data.length = sliceBytes N dim + m
  · rw [if_neg (by omega), if_neg (by omega), if_pos (by omega),
      if_neg (by simp only [List.length_drop]; omega)]
    unfold splitUnchecked
    rw [if_pos (by omega)]
    have : data.length - m = sliceBytes N dim := by omega
    rw [this]
    rfl
  · rw [if_pos hd]
    split
    · rw [if_pos (by simp only [List.length_drop]; omega)]
    · rfl

/-- C125: whatever is written through a mutable view of the front layout — a new metadata record and any history of
code writes — is what a shared view of the same bytes shows; rejected writes change nothing. -/
theorem C125_front_write_read_partial (N m dim : Nat) (h1 : 1 ≤ N) (h8 : N ≤ 8) (h : N * dim < 2 ^ 64) (hm : m < 2 ^ 63)
    (data : List Byte) (v : View) (hv : front N m data dim = some (.ok v)) (vals : List Int) (hh : Holds N v.bits vals)
    (record : List Byte) (hr : record.length = m) (ops : List (Nat × Int)) :
    ∃ bits w, v.bits.sets (dense N) (unsigned N) ops = some bits ∧
      front N m ({ v with bits := bits }.setMeta record).frontBytes dim = some (.ok w) ∧
      w.metadata = record ∧ Holds N w.bits (arraySets (2 ^ N) vals ops) ∧
      ({ v with bits := bits }.setMeta record).frontBytes.length = data.length := by
  by_cases hd : data.length = m + codeBytes N dim
  · rw [front_ok h hm data hd] at hv
    simp only [Option.some.injEq, Except.ok.injEq] at hv
    subst hv
    have hl : (⟨data.drop m, dim⟩ : BitSlice).data.length = codeBytes N dim := by
      simp only [List.length_drop]; omega
    obtain ⟨s', e1, e2⟩ := sets_refine (dense_lawful h1 h8) h8 ops ⟨data.drop m, dim⟩
      (by rw [hl, dense_bytes]) vals hh.1
    obtain ⟨c, l⟩ := sets_shape h1 h8 ops _ s' (by rw [hl]) e1
    rw [hl] at l
    have hw : (({ metadata := data.take m, bits := s' } : View).setMeta record).frontBytes.length =
        m + codeBytes N dim := by
      simp only [View.setMeta, View.frontBytes, List.length_append]; omega
    refine ⟨s', _, e1, front_ok h hm _ hw, ?_, ?_, by rw [hw, hd]⟩
    · simp [View.setMeta, View.frontBytes, hr]
    · have : (⟨((({ metadata := data.take m, bits := s' } : View).setMeta record).frontBytes).drop m, dim⟩ : BitSlice)
          = s' := by
        simp only [View.setMeta, View.frontBytes]
        rw [List.drop_append_of_le_length (by omega), List.drop_eq_nil_of_le (by omega)]
        cases s'
        simp only [List.nil_append] at c ⊢
        rw [c]
      rw [this]
      exact ⟨e2, arraySets_dom ops vals hh.2⟩
  · rw [(C125_front_partial N m dim h1 h8 h hm data).2 hd] at hv
    simp at hv

/-- C125: the same for the back layout, written through its own mutable constructor. -/
theorem C125_back_write_read_partial (N m dim : Nat) (h1 : 1 ≤ N) (h8 : N ≤ 8) (h : N * dim < 2 ^ 64) (hm : m < 2 ^ 63)
    (data : List Byte) (v : View) (hv : backMut N m data dim = .ok v) (vals : List Int) (hh : Holds N v.bits vals)
    (record : List Byte) (hr : record.length = m) (ops : List (Nat × Int)) :
    ∃ bits w, v.bits.sets (dense N) (unsigned N) ops = some bits ∧
      back N m ({ v with bits := bits }.setMeta record).backBytes dim = some (.ok w) ∧
      w.metadata = record ∧ Holds N w.bits (arraySets (2 ^ N) vals ops) ∧
      ({ v with bits := bits }.setMeta record).backBytes.length = data.length := by
  have hv' : back N m data dim = some (.ok v) := by rw [C125_back_mut N m dim hm data, hv]
  by_cases hd : data.length = m + codeBytes N dim
  · rw [back_ok h hm data hd] at hv'
    simp only [Option.some.injEq, Except.ok.injEq] at hv'
    subst hv'
    have hl : (⟨data.take (codeBytes N dim), dim⟩ : BitSlice).data.length = codeBytes N dim := by
      simp only [List.length_take]; omega
    obtain ⟨s', e1, e2⟩ := sets_refine (dense_lawful h1 h8) h8 ops ⟨data.take (codeBytes N dim), dim⟩
      (by rw [hl, dense_bytes]) vals hh.1
    obtain ⟨c, l⟩ := sets_shape h1 h8 ops _ s' (by rw [hl]) e1
    rw [hl] at l
    have hw : (({ metadata := data.drop (codeBytes N dim), bits := s' } : View).setMeta record).backBytes.length =
        m + codeBytes N dim := by
      simp only [View.setMeta, View.backBytes, List.length_append]; omega
    refine ⟨s', _, e1, back_ok h hm _ hw, ?_, ?_, by rw [hw, hd]⟩
    · simp only [View.setMeta, View.backBytes]
      rw [List.drop_append_of_le_length (by omega), List.drop_eq_nil_of_le (by omega)]
      rfl
    · have : (⟨((({ metadata := data.drop (codeBytes N dim), bits := s' } : View).setMeta record).backBytes).take
          (codeBytes N dim), dim⟩ : BitSlice) = s' := by
        simp only [View.setMeta, View.backBytes]
        rw [List.take_append_of_le_length (by omega), List.take_of_length_le (by omega)]
        cases s'
        simp only at c ⊢
        rw [c]
      rw [this]
      exact ⟨e2, arraySets_dom ops vals hh.2⟩
  · rw [(C125_back_partial N m dim h1 h8 h hm data).2 hd] at hv'
    simp at hv'

/-- C125 is false without the bound: with eight bits a slice that holds nothing but the metadata is accepted as a
vector of 2^61 codes, and reading any code is an access outside the slice. -/
theorem C125_overflow_refuted (m : Nat) (hm : m < 2 ^ 63) (data : List Byte) (hd : data.length = m) :
    ∃ v, front 8 m data (2 ^ 61) = some (.ok v) ∧ v.bits.count = 2 ^ 61 ∧
      ∀ i < 2 ^ 61, v.bits.get (dense 8) (unsigned 8) i = none := by
  have hz : sliceBytes 8 (2 ^ 61) = 0 := by decide
  refine ⟨⟨data.take m, data.drop m, 2 ^ 61⟩, ?_, rfl, ?_⟩
  · unfold front
    simp only [canonicalBytes_add (2 ^ 61) hm, hz]
    rw [if_neg (by omega)]
    unfold frontUnchecked splitUnchecked
    rw [if_pos (by omega)]
    rfl
  · intro i hi
    have : data.drop m = [] := List.drop_eq_nil_of_le (by omega)
    simp only [this]
    unfold BitSlice.get
    rw [if_neg (by simpa using hi)]
    show (denseUnpack 8 [] i).map _ = none
    unfold denseUnpack
    simp only [List.getElem?_nil]
    split <;> rfl

/-! ## Slices of a plain type -/

theorem nextMultipleOf_spec (x k : Nat) (hk : 0 < k) :
    k ∣ nextMultipleOf x k ∧ x ≤ nextMultipleOf x k ∧ nextMultipleOf x k < x + k := by
  unfold nextMultipleOf
  have hlt := Nat.mod_lt x hk
  split
  · rename_i hz
    exact ⟨Nat.dvd_of_mod_eq_zero hz, Nat.le_refl _, by omega⟩
  · rename_i hz
    refine ⟨⟨x / k + 1, ?_⟩, by omega, by omega⟩
    have := Nat.div_add_mod x k
    rw [Nat.mul_add]
    omega

theorem pow2_dvd {a b : Nat} (ha : Pow2 a) (hb : Pow2 b) (h : a ≤ b) : a ∣ b := by
  obtain ⟨i, rfl⟩ := ha
  obtain ⟨j, rfl⟩ := hb
  exact Nat.pow_dvd_pow 2 ((Nat.pow_le_pow_iff_right (by decide)).1 h)

theorem pow2_pos {a : Nat} (h : Pow2 a) : 0 < a := by
  obtain ⟨i, rfl⟩ := h
  exact Nat.two_pow_pos i

/-- C125: an accepted slice with metadata is well formed: both parts are aligned for their types, the metadata ends
before the first element, the elements end exactly where the bytes end, and the padding is less than one element
alignment. -/
theorem C125_slice_partial (T M : Ty) (hT : T.Valid) (hM : M.Valid) (addr len dim : Nat)
    (h : metadataBytes T M + T.size * dim < 2 ^ 64) (v : SliceView) (hv : fromCanonical T M addr len dim = .ok v) :
    M.align ∣ v.metaAddr ∧ T.align ∣ v.sliceAddr ∧ v.metaAddr = addr ∧ v.metaAddr + M.size ≤ v.sliceAddr ∧
      v.sliceAddr < v.metaAddr + M.size + T.align ∧ v.sliceAddr + T.size * v.len = addr + len ∧ v.len = dim := by
  have hTp := pow2_pos hT.1
  unfold fromCanonical at hv
  simp only at hv
  split at hv
  · simp at hv
  · rename_i ha
    split at hv
    · simp at hv
    · rename_i hl
      simp only [Except.ok.injEq] at hv
      subst hv
      have had : canonicalAlign T M ∣ addr := Nat.dvd_of_mod_eq_zero (by omega)
      have hlen : len = metadataBytes T M + T.size * dim := by
        have : len = sliceCanonicalBytes T M dim := by omega
        rw [this]
        unfold sliceCanonicalBytes usizeMod
        rw [Nat.mod_eq_of_lt (a := T.size * dim) (by omega), Nat.mod_eq_of_lt h]
      have hTd : T.align ∣ canonicalAlign T M := by
        unfold canonicalAlign
        split
        · exact pow2_dvd hT.1 hM.1 (by omega)
        · exact Nat.dvd_refl _
      have hMd : M.align ∣ canonicalAlign T M := by
        unfold canonicalAlign
        split
        · exact Nat.dvd_refl _
        · exact pow2_dvd hM.1 hT.1 (by omega)
      have hmb : T.align ∣ metadataBytes T M ∧ M.size ≤ metadataBytes T M ∧
          metadataBytes T M < M.size + T.align := by
        unfold metadataBytes
        split
        · exact ⟨Nat.dvd_zero _, by omega, by omega⟩
        · exact nextMultipleOf_spec _ _ hTp
      refine ⟨Nat.dvd_trans hMd had, Nat.dvd_add (Nat.dvd_trans hTd had) hmb.1, rfl, ?_, ?_, ?_, rfl⟩
      · dsimp only; omega
      · dsimp only; omega
      · dsimp only; omega

/-- C125: and every slice at an address aligned for both types, of the documented length, is accepted; an unaligned
one is refused whatever its length. -/
theorem C125_slice_accepts_partial (T M : Ty) (hT : T.Valid) (hM : M.Valid) (addr len dim : Nat)
    (h : metadataBytes T M + T.size * dim < 2 ^ 64) :
    (∃ v, fromCanonical T M addr len dim = .ok v) ↔
      T.align ∣ addr ∧ M.align ∣ addr ∧ len = metadataBytes T M + T.size * dim := by
  have hlen : sliceCanonicalBytes T M dim = metadataBytes T M + T.size * dim := by
    unfold sliceCanonicalBytes usizeMod
    rw [Nat.mod_eq_of_lt (a := T.size * dim) (by omega), Nat.mod_eq_of_lt h]
  have hal : canonicalAlign T M ∣ addr ↔ T.align ∣ addr ∧ M.align ∣ addr := by
    unfold canonicalAlign
    split
    · exact ⟨fun x => ⟨Nat.dvd_trans (pow2_dvd hT.1 hM.1 (by omega)) x, x⟩, fun x => x.2⟩
    · exact ⟨fun x => ⟨x, Nat.dvd_trans (pow2_dvd hM.1 hT.1 (by omega)) x⟩, fun x => x.1⟩
  unfold fromCanonical
  simp only [hlen]
  rw [← and_assoc, ← hal]
  split
  · rename_i hc
    refine ⟨fun ⟨_, hx⟩ => by simp at hx, fun hx => absurd (Nat.mod_eq_zero_of_dvd hx.1) hc⟩
  · rename_i hc
    split
    · rename_i hc2
      exact ⟨fun ⟨_, hx⟩ => by simp at hx, fun hx => absurd hx.2 hc2⟩
    · rename_i hc2
      exact ⟨fun _ => ⟨Nat.dvd_of_mod_eq_zero (by omega), by omega⟩, fun _ => ⟨_, rfl⟩⟩

/-- C125 is false without the bound: an empty aligned slice is accepted as 2^61 eight-byte elements. -/
theorem C125_slice_overflow_refuted :
    ∃ T M : Ty, T.Valid ∧ M.Valid ∧ ∃ addr dim v, fromCanonical T M addr 0 dim = .ok v ∧ v.len = dim ∧
      v.sliceAddr + T.size * v.len > addr := by
  refine ⟨⟨8, 8⟩, ⟨0, 1⟩, ⟨⟨3, rfl⟩, by decide⟩, ⟨⟨0, rfl⟩, by decide⟩, 4096, 2 ^ 61, ⟨4096, 4096, 2 ^ 61⟩, ?_, rfl, ?_⟩
  · rfl
  · decide

/-! ## MinMax vectors -/

theorem byte_mod (n : Nat) : (BitVec.ofNat 8 n).toNat = n % 256 := by simp

theorem u32_round (n : Nat) (h : n < 2 ^ 32) :
    u32FromLe (BitVec.ofNat 8 n) (BitVec.ofNat 8 (n / 256)) (BitVec.ofNat 8 (n / 65536))
      (BitVec.ofNat 8 (n / 16777216)) = n := by
  unfold u32FromLe
  simp only [byte_mod]
  omega

theorem u32_lt (a b c d : Byte) : u32FromLe a b c d < 2 ^ 32 := by
  unfold u32FromLe
  have := a.isLt
  have := b.isLt
  have := c.isLt
  have := d.isLt
  omega

theorem readDimension_lt (raw : List Byte) (dim : Nat) (h : readDimension raw = .ok dim) :
    dim < 2 ^ 32 ∧ 20 ≤ raw.length := by
  unfold readDimension metaBytes at h
  split at h
  · simp at h
  · rename_i hl
    split at h
    · simp only [Except.ok.injEq] at h
      exact ⟨by rw [← h]; exact u32_lt _ _ _ _, by omega⟩
    · simp at h

theorem readDimension_ok (raw : List Byte) (h : 20 ≤ raw.length) : ∃ dim, readDimension raw = .ok dim := by
  unfold readDimension metaBytes
  rw [if_neg (by omega)]
  match raw, h with
  | a :: b :: c :: d :: _, _ => exact ⟨_, rfl⟩

theorem readDimension_append (raw extra : List Byte) (dim : Nat) (h : readDimension raw = .ok dim) :
    readDimension (raw ++ extra) = .ok dim := by
  have hl := (readDimension_lt raw dim h).2
  unfold readDimension metaBytes at h ⊢
  rw [if_neg (by omega)] at h
  rw [if_neg (by rw [List.length_append]; omega)]
  match raw, h, hl with
  | a :: b :: c :: d :: _, h, _ => exact h

theorem mul_small {N dim : Nat} (h8 : N ≤ 8) (h : dim < 2 ^ 32) : N * dim < 2 ^ 64 := by
  calc N * dim ≤ 8 * dim := Nat.mul_le_mul_right _ h8
    _ < 2 ^ 64 := by omega

theorem fromRaw_ok {N : Nat} (h8 : N ≤ 8) (raw : List Byte) (dim : Nat) (hd : readDimension raw = .ok dim)
    (hl : 20 + codeBytes N dim ≤ raw.length) :
    fromRaw N raw = some (.ok ⟨raw.take 20, (raw.drop 20).take (codeBytes N dim), dim⟩) := by
  have hlt := readDimension_lt raw dim hd
  have hb := mul_small h8 hlt.1
  unfold fromRaw
  rw [hd]
  simp only [metaBytes, canonicalBytes_eq hb (show 20 < 2 ^ 63 by decide)]
  rw [if_neg (by omega), front_ok hb (by decide) _ (by rw [List.length_take]; omega)]
  simp only [List.take_take, List.drop_take]
  have e1 : min 20 (20 + codeBytes N dim) = 20 := by omega
  have e2 : 20 + codeBytes N dim - 20 = codeBytes N dim := by omega
  rw [e1, e2]

theorem fromRaw_short {N : Nat} (h8 : N ≤ 8) (raw : List Byte) (dim : Nat) (hd : readDimension raw = .ok dim)
    (hl : raw.length < 20 + codeBytes N dim) :
    fromRaw N raw = some (.error (.notCanonical (.wrongLength raw.length (20 + codeBytes N dim)))) := by
  have hlt := readDimension_lt raw dim hd
  have hb := mul_small h8 hlt.1
  unfold fromRaw
  rw [hd]
  simp only [metaBytes, canonicalBytes_eq hb (show 20 < 2 ^ 63 by decide)]
  rw [if_pos hl]

/-- C125: reading a MinMax vector never leaves the bytes, whatever they are: fewer than twenty bytes are an error,
bytes too few for the dimension they declare are an error, and otherwise the vector has exactly the declared
dimension and all its codes can be read. -/
theorem C125_minmax (N : Nat) (h1 : 1 ≤ N) (h8 : N ≤ 8) (raw : List Byte) :
    (raw.length < 20 → fromRaw N raw = some (.error (.metaParse raw.length))) ∧
    (20 ≤ raw.length → ∃ dim, readDimension raw = .ok dim ∧ dim < 2 ^ 32 ∧
      (raw.length < 20 + codeBytes N dim → ∃ e, fromRaw N raw = some (.error e)) ∧
      (20 + codeBytes N dim ≤ raw.length → ∃ v vals, fromRaw N raw = some (.ok v) ∧ v.metadata = raw.take 20 ∧
        Holds N v.bits vals ∧ vals.length = dim)) := by
  constructor
  · intro h
    unfold fromRaw readDimension metaBytes
    rw [if_pos h]
  · intro h
    obtain ⟨dim, hd⟩ := readDimension_ok raw h
    refine ⟨dim, hd, (readDimension_lt raw dim hd).1, fun hs => ⟨_, fromRaw_short h8 raw dim hd hs⟩, ?_⟩
    intro hl
    obtain ⟨vals, a, b⟩ := holds_of_length h1 h8 ⟨(raw.drop 20).take (codeBytes N dim), dim⟩
      (by simp only [List.length_take, List.length_drop]; omega)
    exact ⟨_, vals, fromRaw_ok h8 raw dim hd hl, rfl, a, b⟩

/-- C125: a MinMax vector written in the front layout with its dimension in the record is read back: same record,
same codes, same dimension. -/
theorem C125_minmax_round_trip (N dim : Nat) (h8 : N ≤ 8) (hd : dim < 2 ^ 32)
    (rest : List Byte) (hr : rest.length = 16) (codes : List Byte) (hc : codes.length = codeBytes N dim) :
    readDimension ((u32Le dim ++ rest) ++ codes) = .ok dim ∧
      fromRaw N ((u32Le dim ++ rest) ++ codes) = some (.ok ⟨u32Le dim ++ rest, codes, dim⟩) := by
  have hlen : (u32Le dim ++ rest).length = 20 := by simp [u32Le, hr]
  have hdim : readDimension ((u32Le dim ++ rest) ++ codes) = .ok dim := by
    unfold readDimension metaBytes
    rw [if_neg (by rw [List.length_append, hlen]; omega)]
    simp only [u32Le, List.cons_append, List.nil_append]
    rw [u32_round dim hd]
  refine ⟨hdim, ?_⟩
  rw [fromRaw_ok h8 _ dim hdim (by rw [List.length_append, hlen, hc])]
  have e1 : ((u32Le dim ++ rest) ++ codes).take 20 = u32Le dim ++ rest := by
    rw [List.take_append_of_le_length (by omega), List.take_of_length_le (by omega)]
  have e2 : (((u32Le dim ++ rest) ++ codes).drop 20).take (codeBytes N dim) = codes := by
    rw [List.drop_append_of_le_length (by omega), List.drop_eq_nil_of_le (by omega), List.nil_append,
      List.take_of_length_le (by omega)]
  rw [e1, e2]

/-- C125: bytes after a MinMax vector are ignored. -/
theorem C125_minmax_trailing (N : Nat) (h8 : N ≤ 8) (raw extra : List Byte) (v : View)
    (h : fromRaw N raw = some (.ok v)) : fromRaw N (raw ++ extra) = some (.ok v) := by
  by_cases hl : 20 ≤ raw.length
  · obtain ⟨dim, hd⟩ := readDimension_ok raw hl
    by_cases hs : raw.length < 20 + codeBytes N dim
    · rw [fromRaw_short h8 raw dim hd hs] at h
      simp at h
    · rw [fromRaw_ok h8 raw dim hd (by omega)] at h
      rw [fromRaw_ok h8 (raw ++ extra) dim (readDimension_append raw extra dim hd)
        (by rw [List.length_append]; omega), ← h]
      rw [List.take_append_of_le_length hl, List.drop_append_of_le_length hl,
        List.take_append_of_le_length (by rw [List.length_drop]; omega)]
  · unfold fromRaw readDimension metaBytes at h
    rw [if_pos (by omega)] at h
    simp at h

/-- C125: decompressing succeeds exactly into a destination of the stored dimension, which is the number of codes. -/
theorem C125_minmax_destination (N : Nat) (h8 : N ≤ 8) (raw : List Byte) (dst : Nat) (v : View) :
    decompressInto N raw dst = some (.ok v) ↔ fromRaw N raw = some (.ok v) ∧ dst = v.bits.count := by
  by_cases hl : 20 ≤ raw.length
  · obtain ⟨dim, hd⟩ := readDimension_ok raw hl
    by_cases hs : raw.length < 20 + codeBytes N dim
    · unfold decompressInto
      rw [fromRaw_short h8 raw dim hd hs]
      simp
    · have hf := fromRaw_ok h8 raw dim hd (show 20 + codeBytes N dim ≤ raw.length by omega)
      have ht : readDimension (raw.take 20) = .ok dim := by
        obtain ⟨d', hd'⟩ := readDimension_ok (raw.take 20) (by rw [List.length_take]; omega)
        have := readDimension_append (raw.take 20) (raw.drop 20) d' hd'
        rw [List.take_append_drop, hd] at this
        simp only [Except.ok.injEq] at this
        rw [hd', this]
      unfold decompressInto
      rw [hf]
      simp only [ht]
      by_cases hc : dim = dst
      · rw [if_neg (by omega)]
        constructor
        · intro hx
          simp only [Option.some.injEq, Except.ok.injEq] at hx
          exact ⟨by rw [hx], by rw [← hx]; exact hc.symm⟩
        · exact fun hx => hx.1
      · rw [if_pos hc]
        constructor
        · intro hx
          simp at hx
        · rintro ⟨hx, hy⟩
          simp only [Option.some.injEq, Except.ok.injEq] at hx
          rw [← hx] at hy
          exact absurd hy.symm hc
  · have : fromRaw N raw = some (.error (.metaParse raw.length)) := by
      unfold fromRaw readDimension metaBytes
      rw [if_pos (by omega)]
    unfold decompressInto
    rw [this]
    simp

/-- C125: into a destination of another length, the error names the stored dimension first and that length second. -/
theorem C125_minmax_mismatch (N : Nat) (h8 : N ≤ 8) (raw : List Byte) (dst : Nat) (v : View)
    (h : fromRaw N raw = some (.ok v)) (hd : dst ≠ v.bits.count) :
    decompressInto N raw dst = some (.error (.wrongLength v.bits.count dst)) := by
  by_cases hl : 20 ≤ raw.length
  · obtain ⟨dim, hd'⟩ := readDimension_ok raw hl
    by_cases hs : raw.length < 20 + codeBytes N dim
    · rw [fromRaw_short h8 raw dim hd' hs] at h
      simp at h
    · have hf := fromRaw_ok h8 raw dim hd' (show 20 + codeBytes N dim ≤ raw.length by omega)
      have ht : readDimension (raw.take 20) = .ok dim := by
        obtain ⟨d', h1⟩ := readDimension_ok (raw.take 20) (by rw [List.length_take]; omega)
        have := readDimension_append (raw.take 20) (raw.drop 20) d' h1
        rw [List.take_append_drop, hd'] at this
        simp only [Except.ok.injEq] at this
        rw [h1, this]
      rw [hf] at h
      simp only [Option.some.injEq, Except.ok.injEq] at h
      subst h
      unfold decompressInto
      rw [hf]
      simp only [ht]
      rw [if_pos (fun e => hd e.symm)]
  · have : fromRaw N raw = some (.error (.metaParse raw.length)) := by
      unfold fromRaw readDimension metaBytes
      rw [if_pos (by omega)]
    rw [this] at h
    simp at h

/-- C125: the documentation says a slice whose length does not match the declared dimension is an error; a slice
that is too long is accepted. -/
theorem C125_minmax_length_refuted :
    ∃ raw v, fromRaw 8 raw = some (.ok v) ∧ readDimension raw = .ok 2 ∧ raw.length ≠ 20 + codeBytes 8 2 := by
  refine ⟨(u32Le 2 ++ List.replicate 16 0) ++ [7, 9, 1], ⟨u32Le 2 ++ List.replicate 16 0, [7, 9], 2⟩, ?_, ?_, ?_⟩
  · have := (C125_minmax_round_trip 8 2 (by decide) (by decide) (List.replicate 16 0) (by simp) [7, 9] rfl).2
    exact C125_minmax_trailing 8 (by decide) ((u32Le 2 ++ List.replicate 16 0) ++ [7, 9]) [1] _ this
  · decide
  · decide

/-- C125: when the slice is too short the error has the two lengths exchanged: the "expected" one is the actual
length and the "got" one the required length. -/
theorem C125_minmax_error_refuted (N : Nat) (h8 : N ≤ 8) (raw : List Byte) (dim : Nat) (hd : readDimension raw = .ok dim)
    (hl : raw.length < 20 + codeBytes N dim) :
    ∃ expected got, fromRaw N raw = some (.error (.notCanonical (.wrongLength expected got))) ∧
      expected = raw.length ∧ got = 20 + codeBytes N dim ∧ expected ≠ got :=
  ⟨_, _, fromRaw_short h8 raw dim hd hl, rfl, rfl, by omega⟩

/-! ## Concrete cases -/

/-- A three-bit vector of five codes behind a two-byte record: two bytes of codes. -/
example : codeBytes 3 5 = 2 ∧ ((front 3 2 [1, 2, 0x88, 0x46] 5).bind (fun r => r.toOption.map
    (fun v => (v.metadata.map BitVec.toNat, v.bits.data.map BitVec.toNat)))) = some ([1, 2], [0x88, 0x46]) := by decide

example : ((backMut 3 2 [0x88, 0x46, 1, 2] 5).toOption.map
    (fun v => (v.metadata.map BitVec.toNat, v.bits.data.map BitVec.toNat))) = some ([1, 2], [0x88, 0x46]) := by decide

/-- Hypotheses of the write theorem: an accepted view with its values, a record and writes. -/
example : ∃ v vals, front 3 2 [1, 2, 0x88, 0x46] 5 = some (.ok v) ∧ Holds 3 v.bits vals := by
  obtain ⟨v, vals, a, _, _, b, _⟩ := (C125_front_partial 3 2 5 (by decide) (by decide) (by decide) (by decide)
    [1, 2, 0x88, 0x46]).1 rfl
  exact ⟨v, vals, a, b⟩

/-- Four-byte elements behind a three-byte record: one byte of padding. -/
example : fromCanonical ⟨4, 4⟩ ⟨3, 1⟩ 64 16 3 = .ok ⟨64, 68, 3⟩ ∧ fromCanonical ⟨4, 4⟩ ⟨3, 1⟩ 66 16 3 = .error (.notAligned 4) ∧
    fromCanonical ⟨4, 4⟩ ⟨3, 1⟩ 64 15 3 = .error (.wrongLength 16 15) := ⟨rfl, rfl, rfl⟩

example : (⟨4, 4⟩ : Ty).Valid ∧ (⟨3, 1⟩ : Ty).Valid := ⟨⟨⟨2, rfl⟩, by decide⟩, ⟨⟨0, rfl⟩, by decide⟩⟩

/-- Bytes that declare 300 codes of eight bits but hold none. -/
example : readDimension (u32Le 300 ++ List.replicate 16 0) = .ok 300 ∧
    (u32Le 300 ++ List.replicate 16 (0 : Byte)).length < 20 + codeBytes 8 300 := by decide

end Verif.Quant.Canon
