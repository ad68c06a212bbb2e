import Verif.Disk.HeaderModel
import Mathlib.Tactic.Common
/-
C52: the disk-index header round-trips.
-/
namespace Verif.Disk

theorem leEncode_length (k x : Nat) : (leEncode k x).length = k := by
  induction k generalizing x with
  | zero => rfl
  | succ k ih => simp [leEncode, ih]

theorem leDecode_leEncode (k x : Nat) (h : x < 256 ^ k) : leDecode (leEncode k x) = x := by
  induction k generalizing x with
  | zero => simp at h; subst h; rfl
  | succ k ih =>
    have : x / 256 < 256 ^ k := by
      rw [Nat.div_lt_iff_lt_mul (by decide)]
      rwa [Nat.pow_succ] at h
    simp only [leEncode, leDecode, ih _ this]
    have : (UInt8.ofNat (x % 256)).toNat = x % 256 := by
      rw [UInt8.toNat_ofNat']; omega
    rw [this]; omega

theorem leDecode_lt (bs : List Byte) : leDecode bs < 256 ^ bs.length := by
  induction bs with
  | nil => simp [leDecode]
  | cons b bs ih =>
    simp only [leDecode, List.length_cons, Nat.pow_succ]
    have := b.toNat_lt
    omega

theorem readLE_append (k x : Nat) (rest : List Byte) (h : x < 256 ^ k) :
    readLE k (leEncode k x ++ rest) = some (x, rest) := by
  unfold readLE
  rw [if_pos (by simp [leEncode_length])]
  rw [List.take_append_of_le_length (by simp [leEncode_length]),
    List.take_of_length_le (by simp [leEncode_length]), leDecode_leEncode k x h,
    List.drop_append_of_le_length (by simp [leEncode_length]),
    List.drop_of_length_le (by simp [leEncode_length]), List.nil_append]

/-- The field ranges of the Rust types. -/
structure Metadata.InRange (m : Metadata) : Prop where
  numPts : m.numPts < 2 ^ 64
  dims : m.dims < 2 ^ 64
  medoid : m.medoid < 2 ^ 64
  nodeLen : m.nodeLen < 2 ^ 64
  npb : m.numNodesPerBlock < 2 ^ 64
  fnum : m.frozenNum < 2 ^ 64
  floc : m.frozenLoc < 2 ^ 64
  fsz : m.fileSize < 2 ^ 64
  assoc : m.assocLen < 2 ^ 64

structure Header.InRange (h : Header) : Prop where
  md : h.md.InRange
  blockSize : h.blockSize < 2 ^ 64
  major : h.major < 2 ^ 32
  minor : h.minor < 2 ^ 32

theorem Metadata.toBytes_length (m : Metadata) : m.toBytes.length = 80 := by
  simp [Metadata.toBytes, leEncode_length]

theorem Header.toBytes_length (h : Header) : h.toBytes.length = 96 := by
  simp [Header.toBytes, leEncode_length, Metadata.toBytes_length]

theorem Metadata.roundTrip (m : Metadata) (h : m.InRange) : Metadata.tryFrom m.toBytes = some m := by
  have e : (256 : Nat) ^ 8 = 2 ^ 64 := by decide
  unfold Metadata.tryFrom
  rw [if_neg (by rw [Metadata.toBytes_length]; decide)]
  unfold Metadata.toBytes
  simp only [List.append_assoc]
  rw [readLE_append 8 _ _ (by rw [e]; exact h.numPts)]
  simp only [Option.bind_eq_bind, Option.bind_some]
  rw [readLE_append 8 _ _ (by rw [e]; exact h.dims)]
  simp only [Option.bind_some]
  rw [readLE_append 8 _ _ (by rw [e]; exact h.medoid)]
  simp only [Option.bind_some]
  rw [readLE_append 8 _ _ (by rw [e]; exact h.nodeLen)]
  simp only [Option.bind_some]
  rw [readLE_append 8 _ _ (by rw [e]; exact h.npb)]
  simp only [Option.bind_some]
  rw [readLE_append 8 _ _ (by rw [e]; exact h.fnum)]
  simp only [Option.bind_some]
  rw [readLE_append 8 _ _ (by rw [e]; exact h.floc)]
  simp only [Option.bind_some]
  rw [readLE_append 8 _ _ (by decide)]
  simp only [Option.bind_some]
  rw [readLE_append 8 _ _ (by rw [e]; exact h.fsz)]
  simp only [Option.bind_some]
  have := readLE_append 8 m.assocLen [] (by rw [e]; exact h.assoc)
  rw [List.append_nil] at this
  rw [this]
  rfl

/-- **C52.**  Parsing the serialized header returns the same header, whatever bytes follow it in the
buffer; the serialized form always has the advertised size. -/
theorem C52_round_trip (h : Header) (hr : h.InRange) (rest : List Byte) :
    Header.tryFrom (h.toBytes ++ rest) = some h ∧ h.toBytes.length = Header.getSize := by
  have e : (256 : Nat) ^ 8 = 2 ^ 64 := by decide
  have e4 : (256 : Nat) ^ 4 = 2 ^ 32 := by decide
  refine ⟨?_, h.toBytes_length⟩
  unfold Header.tryFrom
  rw [if_neg (by simp [Header.toBytes_length, Header.getSize, Metadata.getSize])]
  have hl := h.md.toBytes_length
  have htake : (h.toBytes ++ rest).take Metadata.getSize = h.md.toBytes := by
    unfold Header.toBytes Metadata.getSize
    simp only [List.append_assoc]
    rw [List.take_append_of_le_length (by omega), List.take_of_length_le (by omega)]
  have hdrop : (h.toBytes ++ rest).drop Metadata.getSize =
      leEncode 8 h.blockSize ++ (leEncode 4 h.major ++ (leEncode 4 h.minor ++ rest)) := by
    unfold Header.toBytes Metadata.getSize
    simp only [List.append_assoc]
    rw [List.drop_append_of_le_length (by omega), List.drop_of_length_le (by omega), List.nil_append]
  have hdrop2 : (h.toBytes ++ rest).drop (Metadata.getSize + 8) =
      leEncode 4 h.major ++ (leEncode 4 h.minor ++ rest) := by
    rw [← List.drop_drop, hdrop, List.drop_append_of_le_length (by simp [leEncode_length]),
      List.drop_of_length_le (by simp [leEncode_length]), List.nil_append]
  rw [htake, Metadata.roundTrip _ hr.md, hdrop, hdrop2]
  simp only [Option.bind_eq_bind, Option.bind_some]
  rw [readLE_append 8 _ _ (by rw [e]; exact hr.blockSize)]
  simp only [Option.bind_some, versionTryFrom]
  rw [if_neg (by simp [leEncode_length]; omega)]
  rw [readLE_append 4 _ _ (by rw [e4]; exact hr.major)]
  simp only [Option.bind_eq_bind, Option.bind_some]
  rw [readLE_append 4 _ _ (by rw [e4]; exact hr.minor)]
  rfl

/-- **C52** (truncation): anything shorter than a full header is rejected. -/
theorem C52_truncated (bs : List Byte) (h : bs.length < Header.getSize) : Header.tryFrom bs = none := by
  unfold Header.tryFrom
  rw [if_pos h]

/-- **C52**: every proper prefix of a serialized header is rejected. -/
theorem C52_every_truncation (h : Header) (n : Nat) (hn : n < h.toBytes.length) :
    Header.tryFrom (h.toBytes.take n) = none :=
  C52_truncated _ (by rw [List.length_take, show Header.getSize = h.toBytes.length from
    h.toBytes_length.symm]; omega)

/-- Anything of sufficient length parses, to in-range fields (so parsing never panics). -/
theorem C52_total (bs : List Byte) (h : Header.getSize ≤ bs.length) :
    ∃ hd, Header.tryFrom bs = some hd ∧ hd.InRange := by
  have hb : ∀ k : Nat, (leDecode ((bs.drop k).take 8)) < 2 ^ 64 := by
    intro k
    refine Nat.lt_of_lt_of_le (leDecode_lt _) ?_
    calc 256 ^ ((bs.drop k).take 8).length ≤ 256 ^ 8 := Nat.pow_le_pow_right (by decide) (by simp; omega)
      _ ≤ 2 ^ 64 := by decide
  have hb4 : ∀ k : Nat, (leDecode ((bs.drop k).take 4)) < 2 ^ 32 := by
    intro k
    refine Nat.lt_of_lt_of_le (leDecode_lt _) ?_
    calc 256 ^ ((bs.drop k).take 4).length ≤ 256 ^ 4 := Nat.pow_le_pow_right (by decide) (by simp; omega)
      _ ≤ 2 ^ 32 := by decide
  have hlen : 96 ≤ bs.length := h
  have hread : ∀ (k : Nat), k + 8 ≤ 80 → readLE 8 ((bs.take 80).drop k) =
      some (leDecode ((bs.drop k).take 8), (bs.take 80).drop (k + 8)) := by
    intro k hk
    unfold readLE
    rw [if_pos (by simp; omega), List.drop_drop]
    congr 3
    rw [List.drop_take, List.take_take]
    congr 1; omega
  have hmd : Metadata.tryFrom (bs.take 80) = some ⟨leDecode ((bs.drop 0).take 8),
      leDecode ((bs.drop 8).take 8), leDecode ((bs.drop 16).take 8), leDecode ((bs.drop 24).take 8),
      leDecode ((bs.drop 32).take 8), leDecode ((bs.drop 40).take 8), leDecode ((bs.drop 48).take 8),
      leDecode ((bs.drop 64).take 8), leDecode ((bs.drop 72).take 8)⟩ := by
    unfold Metadata.tryFrom
    rw [if_neg (by simp [Metadata.getSize]; omega)]
    have h0 := hread 0 (by decide)
    simp only [List.drop_zero] at h0
    simp only [h0, Option.bind_eq_bind, Option.bind_some]
    simp only [hread 8 (by decide), hread 16 (by decide), hread 24 (by decide), hread 32 (by decide),
      hread 40 (by decide), hread 48 (by decide), hread 56 (by decide), hread 64 (by decide),
      hread 72 (by decide), Nat.reduceAdd, Option.bind_some, List.drop_zero]
  have hbs : readLE 8 (bs.drop 80) = some (leDecode ((bs.drop 80).take 8), (bs.drop 80).drop 8) := by
    unfold readLE; rw [if_pos (by simp; omega)]
  have hv : versionTryFrom (bs.drop 88) = some (leDecode ((bs.drop 88).take 4),
      leDecode ((bs.drop 92).take 4)) := by
    unfold versionTryFrom readLE
    rw [if_neg (by simp; omega), if_pos (by simp; omega)]
    simp only [Option.bind_eq_bind, Option.bind_some]
    rw [if_pos (by simp; omega)]
    simp only [Option.bind_some, List.drop_drop]
  have hres : Header.tryFrom bs = (some ⟨⟨leDecode ((bs.drop 0).take 8),
      leDecode ((bs.drop 8).take 8), leDecode ((bs.drop 16).take 8), leDecode ((bs.drop 24).take 8),
      leDecode ((bs.drop 32).take 8), leDecode ((bs.drop 40).take 8), leDecode ((bs.drop 48).take 8),
      leDecode ((bs.drop 64).take 8), leDecode ((bs.drop 72).take 8)⟩, leDecode ((bs.drop 80).take 8),
      leDecode ((bs.drop 88).take 4), leDecode ((bs.drop 92).take 4)⟩ : Option Header) := by
    unfold Header.tryFrom
    rw [if_neg (by simpa [Header.getSize, Metadata.getSize] using hlen)]
    simp only [Metadata.getSize, Nat.reduceMul, Nat.reduceAdd, hmd, hbs, hv, Option.bind_eq_bind,
      Option.bind_some]
  exact ⟨_, hres, ⟨hb 0, hb 8, hb 16, hb 24, hb 32, hb 40, hb 48, hb 64, hb 72⟩, hb 80, hb4 88, hb4 92⟩

/-- **C52** (degree): a header carrying the node length the writer computes
(`(R + 1) * 4 + dims * elemSize + assocLen`) reports exactly the degree `R`, for both supported
layout versions, and refuses any other version. -/
theorem C52_max_degree (h : Header) (elemSize R : Nat)
    (hn : h.md.nodeLen = (R + 1) * 4 + h.md.dims * elemSize + h.md.assocLen) :
    h.maxDegree elemSize =
      if h.minor = 0 ∧ (h.major = 0 ∨ h.major = 1) then .ok R else .unsupportedVersion := by
  unfold Header.maxDegree
  by_cases hv : h.minor = 0 ∧ (h.major = 0 ∨ h.major = 1)
  · rw [if_pos hv, if_pos (by obtain ⟨h1, h2 | h2⟩ := hv <;> simp [h1, h2])]
    rw [Nat.mul_comm] at hn
    simp only [sub?, Nat.mul_comm elemSize]
    rw [if_pos (by omega)]
    simp only [Option.bind_some]
    rw [if_pos (by omega)]
    simp only [Option.map_some, Option.bind_some]
    rw [if_pos (by omega)]
    simp only
    congr 1; omega
  · rw [if_neg hv, if_neg]
    intro hm
    apply hv
    simp only [List.mem_cons, Prod.mk.injEq, List.not_mem_nil, or_false] at hm
    omega

example : Header.InRange ⟨⟨1000, 32, 500, 2 ^ 63, 4, 1, 500, 1024, 256⟩, 4096, 1, 0⟩ :=
  ⟨⟨by decide, by decide, by decide, by decide, by decide, by decide, by decide, by decide, by decide⟩,
    by decide, by decide, by decide⟩

example : Header.tryFrom ((⟨⟨1000, 32, 500, 2 ^ 63 + 7, 4, 1, 500, 1024, 256⟩, 4096, 1, 0⟩ : Header).toBytes)
    = some ⟨⟨1000, 32, 500, 2 ^ 63 + 7, 4, 1, 500, 1024, 256⟩, 4096, 1, 0⟩ := by decide +kernel

end Verif.Disk
