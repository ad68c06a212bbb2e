import Verif.Vec.LaneModel
import Mathlib.Algebra.BigOperators.Fin
import Mathlib.Tactic.IntervalCases
import Mathlib.Tactic.Ring

/-! # C122: operations on SIMD lanes and masks are the scalar operations on every lane -/

namespace Verif.Vec.Lane

/-- The register is the mask of the lanes where `p` holds: all ones there, zeros elsewhere. -/
def IsMask {w : Nat} (n : Nat) (p : Nat → Prop) [DecidablePred p] (m : Reg (BitVec w)) : Prop :=
  ∀ i < n, m i = if p i then BitVec.allOnes w else 0

/-! ## Comparisons -/

theorem cmpeq_iff {w : Nat} (a b : Reg (BitVec w)) (i : Nat) (p : Prop) [Decidable p] (h : a i = b i ↔ p) :
    cmpeq a b i = if p then BitVec.allOnes w else 0 := by
  unfold cmpeq
  by_cases hp : p
  · rw [if_pos (h.mpr hp), if_pos hp]
  · rw [if_neg (fun he => hp (h.mp he)), if_neg hp]

theorem cmpgt_iff {w : Nat} (a b : Reg (BitVec w)) (i : Nat) (p : Prop) [Decidable p] (h : (b i).toInt < (a i).toInt ↔ p) :
    cmpgt a b i = if p then BitVec.allOnes w else 0 := by
  unfold cmpgt
  by_cases hp : p
  · rw [if_pos (h.mpr hp), if_pos hp]
  · rw [if_neg (fun he => hp (h.mp he)), if_neg hp]

/-- Unsigned comparisons, although the processor has none: exactly the lanes where the comparison holds. -/
theorem C122_compare_unsigned {w : Nat} (a b : Reg (BitVec w)) (n : Nat) :
    IsMask n (fun i => (a i).toNat < (b i).toNat) (ltUnsigned a b) ∧
    IsMask n (fun i => (a i).toNat ≤ (b i).toNat) (leUnsigned a b) ∧
    IsMask n (fun i => a i = b i) (eqSimd a b) ∧
    IsMask n (fun i => a i ≠ b i) (neSimd a b) := by
  refine ⟨?_, ?_, ?_, ?_⟩ <;> intro i _
  · have h : cmpeq a (maxEpu a b) i = if ¬ (a i).toNat < (b i).toNat then BitVec.allOnes w else 0 := by
      apply cmpeq_iff
      simp only [maxEpu]
      split
      · rename_i h
        constructor
        · intro he; rw [← he]; omega
        · intro hn; exact BitVec.eq_of_toNat_eq (by omega)
      · simp; omega
    simp only [ltUnsigned, xorSi, allOnes, h]
    by_cases h : (a i).toNat < (b i).toNat <;> simp [h]
  · apply cmpeq_iff
    simp only [minEpu]
    split
    · rename_i h; simp [h]
    · rename_i h
      constructor
      · intro he; rw [← he]
      · intro hn; exact absurd hn h
  · exact cmpeq_iff _ _ _ _ Iff.rfl
  · have h := cmpeq_iff a b i (a i = b i) Iff.rfl
    simp only [neSimd, xorSi, allOnes, h]
    by_cases h : a i = b i <;> simp [h]

/-- Signed comparisons. -/
theorem C122_compare_signed {w : Nat} (a b : Reg (BitVec w)) (n : Nat) :
    IsMask n (fun i => (a i).toInt < (b i).toInt) (ltSigned a b) ∧
    IsMask n (fun i => (a i).toInt ≤ (b i).toInt) (leSigned a b) := by
  refine ⟨?_, ?_⟩ <;> intro i _
  · simp only [ltSigned, cmpgt]
  · apply cmpeq_iff
    simp only [minEpi]
    split
    · rename_i h; simp [h]
    · rename_i h
      constructor
      · intro he; rw [← he]
      · intro hn; exact absurd hn h

/-- Selecting by a mask takes the first argument where the mask is set and the second elsewhere. -/
theorem C122_select {w n : Nat} {α : Type} (hw : 0 < w) (p : Nat → Prop) [DecidablePred p] (m : Reg (BitVec w))
    (hm : IsMask n p m) (x y : Reg α) (i : Nat) (hi : i < n) :
    select m x y i = if p i then x i else y i := by
  simp only [select, blendv, hm i hi]
  by_cases h : p i
  · simp [h, BitVec.msb_allOnes hw]
  · simp [h]

example : ltUnsigned (w := 8) (fun i => [200, 3, 7].getD i 0) (fun i => [100, 5, 7].getD i 0) 0 = 0 ∧
    ltUnsigned (w := 8) (fun i => [200, 3, 7].getD i 0) (fun i => [100, 5, 7].getD i 0) 1 = 255#8 ∧
    ltSigned (w := 8) (fun _ => 200) (fun _ => 100) 0 = 255#8 := by decide

/-! ## Multiplication of bytes -/

theorem packed_byte (x : BitVec 16) : clampByte (x &&& 0x00ff#16) = x.truncate 8 := by
  have hn : (x &&& 0x00ff#16).toNat = x.toNat % 256 := by
    rw [BitVec.toNat_and]
    exact Nat.and_two_pow_sub_one_eq_mod x.toNat 8
  have hi : (x &&& 0x00ff#16).toInt = ((x.toNat % 256 : Nat) : Int) := by
    rw [BitVec.toInt_eq_toNat_cond, hn, if_pos (by omega)]
  rw [clampByte, hi, if_neg (by omega), if_neg (by omega)]
  apply BitVec.eq_of_toNat_eq
  simp only [BitVec.truncate_eq_setWidth, BitVec.toNat_setWidth, hn]
  omega

theorem extend_sign : ∀ x : BitVec 8, (x.signExtend 16).setWidth 8 = x := by decide

/-- Products of bytes are the wrapping products of the lanes, signed and unsigned, for 16 and 32 lanes. -/
theorem C122_mul (a b : Reg (BitVec 8)) :
    (∀ i < 16, mulU8 a b i = a i * b i) ∧ (∀ i < 16, mulI8 a b i = a i * b i) ∧
    (∀ i < 32, mulU8x32 a b i = a i * b i) := by
  have zu : ∀ (a b : Reg (BitVec 8)), ∀ i < 16, mulU8 a b i = a i * b i := by
    intro a b i hi
    have hz : ∀ x y : BitVec 8, (x.zeroExtend 16 * y.zeroExtend 16).truncate 8 = x * y := by
      intro x y
      apply BitVec.eq_of_toNat_eq
      simp [BitVec.toNat_mul]
    simp only [mulU8, packus, extractHi]
    by_cases h : i < 8
    · rw [if_pos h, packed_byte, hz]
    · rw [if_neg h, packed_byte, hz, show 8 + (i - 8) = i by omega]
  refine ⟨zu a b, ?_, ?_⟩
  · intro i hi
    have hs : ∀ x y : BitVec 8, (x.signExtend 16 * y.signExtend 16).truncate 8 = x * y := by
      intro x y
      rw [BitVec.truncate, BitVec.setWidth_mul _ _ (by omega), extend_sign, extend_sign]
    simp only [mulI8, packus, extractHi]
    by_cases h : i < 8
    · rw [if_pos h, packed_byte, hs]
    · rw [if_neg h, packed_byte, hs, show 8 + (i - 8) = i by omega]
  · intro i hi
    simp only [mulU8x32, setHalves]
    by_cases h : i < 16
    · rw [if_pos h, zu a b i h]
    · rw [if_neg h, zu _ _ _ (by omega)]
      simp only [extractHi]
      rw [show 16 + (i - 16) = i by omega]

example : mulU8 (fun _ => 200) (fun _ => 3) 9 = 88#8 ∧ mulI8 (fun _ => -3) (fun _ => 5) 2 = (-15 : BitVec 8) := by
  decide

/-! ## Minimum and maximum with NaN -/

/-- With one NaN the other argument, otherwise the smaller or larger one. -/
theorem C122_min_max {K : Type} [LinearOrder K] (a b : Option K) :
    (a = none → minStandard a b = b ∧ maxStandard a b = b) ∧
    (b = none → minStandard a b = a ∧ maxStandard a b = a) ∧
    (∀ x y, a = some x → b = some y →
      minStandard a b = some (min x y) ∧ maxStandard a b = some (max x y)) := by
  refine ⟨?_, ?_, ?_⟩
  · rintro rfl; simp [minStandard, maxStandard]
  · rintro rfl; cases a <;> simp [minStandard, maxStandard, minPs, maxPs]
  · rintro x y rfl rfl
    simp only [minStandard, maxStandard, minPs, maxPs, Option.isNone_some]
    constructor
    · by_cases h : y < x
      · simp [h, min_eq_right h.le]
      · simp [h, min_eq_left (not_lt.mp h)]
    · by_cases h : x < y
      · simp [h, max_eq_right h.le]
      · simp [h, max_eq_left (not_lt.mp h)]

/-- The fast versions agree with them when no argument is NaN and return one of the arguments in any case. -/
theorem C122_min_max_fast {K : Type} [LinearOrder K] (a b : Option K) :
    (minPs a b = a ∨ minPs a b = b) ∧ (maxPs a b = a ∨ maxPs a b = b) ∧
    (∀ x y, a = some x → b = some y → minPs a b = some (min x y) ∧ maxPs a b = some (max x y)) := by
  refine ⟨?_, ?_, ?_⟩
  · cases a <;> cases b <;> simp only [minPs, or_true, true_or]; split <;> simp
  · cases a <;> cases b <;> simp only [maxPs, or_true, true_or]; split <;> simp
  · rintro x y rfl rfl
    simp only [minPs, maxPs]
    constructor
    · by_cases h : x < y
      · simp [h, min_eq_left h.le]
      · simp [h, min_eq_right (not_lt.mp h)]
    · by_cases h : y < x
      · simp [h, max_eq_left h.le]
      · simp [h, max_eq_right (not_lt.mp h)]

example : minStandard (some 3) (none : Option Int) = some 3 ∧ minPs (some 3) (none : Option Int) = none ∧
    maxStandard none (some 4) = some (4 : Int) := by decide

/-! ## Shifts by lanes -/

/-- The variable shifts are the reference shifts on every lane, also for counts past the width and negative ones. -/
theorem C122_shift {w : Nat} (hw : 2 * w ≤ 2 ^ w) (h0 : 0 < w) (a b : Reg (BitVec w)) (i : Nat) :
    srlv a b i = refShrU (a i) (b i) ∧ sllv a b i = refShlU (a i) (b i) ∧
    srav a b i = refShrS (a i) (b i) ∧ sllv a b i = refShlS (a i) (b i) := by
  have hc : (b i).toInt < 0 ∨ (w : Int) ≤ (b i).toInt ↔ ¬ (b i).toNat < w := by
    rw [BitVec.toInt_eq_toNat_cond]
    have := (b i).isLt
    split <;> constructor <;> intro h <;> omega
  have hn : (b i).toNat < w → (b i).toInt.toNat = (b i).toNat := by
    intro h
    rw [BitVec.toInt_eq_toNat_cond]
    split <;> omega
  have hm : (a i).msb = decide ((a i).toInt < 0) := by
    rw [BitVec.msb_eq_toInt]
  refine ⟨?_, ?_, ?_, ?_⟩
  · simp only [srlv, refShrU]; split <;> split <;> first | rfl | omega
  · simp only [sllv, refShlU]; split <;> split <;> first | rfl | omega
  · simp only [srav, refShrS, hc]
    by_cases h : (b i).toNat < w
    · simp [h, hn h]
    · simp [h, hm]
  · simp only [sllv, refShlS, hc]
    by_cases h : (b i).toNat < w
    · simp [h, hn h]
    · simp [h]

example : 2 * 32 ≤ 2 ^ 32 ∧ 2 * 64 ≤ 2 ^ 64 ∧
    srav (w := 32) (fun _ => -8) (fun _ => -1) 0 = -1#32 ∧ srav (w := 32) (fun _ => -8) (fun _ => 2) 0 = -2#32 := by
  decide

/-! ## Sums -/

/-- The horizontal sums do the additions of the reference reduction, in its order, so that even rounding sums agree. -/
theorem C122_sum_order {α : Type} (add : α → α → α) (x : Reg α) :
    sumTree2 add x = treeReduce add 1 x ∧ sumTree4 add x = treeReduce add 2 x ∧
    sumTree4x64 add x = treeReduce add 2 x ∧ sumTree8 add x = treeReduce add 3 x ∧
    sumTreeDoubled 8 (sumTree8 add) add x = treeReduce add 4 x ∧
    sumTreeDoubled 4 (sumTree4 add) add x = treeReduce add 3 x := by
  refine ⟨rfl, rfl, rfl, rfl, rfl, rfl⟩

/-- Where addition is associative and commutative, the reference reduction is the sum of all lanes. -/
theorem C122_sum {α : Type} [AddCommMonoid α] (k : Nat) (x : Reg α) :
    treeReduce (· + ·) k x = ∑ i ∈ Finset.range (2 ^ k), x i := by
  induction k generalizing x with
  | zero => simp [treeReduce]
  | succ k ih =>
    rw [treeReduce, ih, pow_succ, mul_two, Finset.sum_range_add, Finset.sum_add_distrib]

example : sumTree8 (· + ·) (fun i => (i : Int) * i) = 140 := by decide

/-! ## Dot products of bytes -/

theorem wide_unsigned : ∀ x : BitVec 8, (x.zeroExtend 16).signExtend 32 = BitVec.ofInt 32 x.toNat := by decide

theorem wide_signed : ∀ x : BitVec 8, (x.signExtend 16).signExtend 32 = BitVec.ofInt 32 x.toInt := by decide

/-- Each 32-bit lane gains the dot product of its four unsigned and four signed bytes, modulo `2 ^ 32`. -/
theorem C122_dot (acc : Reg (BitVec 32)) (l r : Reg (BitVec 8)) (j : Nat) (hj : j < 8) :
    dotU8I8 acc l r j = BitVec.ofInt 32 ((acc j).toInt
      + ∑ q ∈ Finset.range 4, ((l (4 * j + q)).toNat : Int) * (r (4 * j + q)).toInt) := by
  have hd : dotU8I8 acc l r j = acc j
      + (((l (4 * j)).zeroExtend 16).signExtend 32 * ((r (4 * j)).signExtend 16).signExtend 32
        + ((l (4 * j + 1)).zeroExtend 16).signExtend 32 * ((r (4 * j + 1)).signExtend 16).signExtend 32)
      + (((l (4 * j + 2)).zeroExtend 16).signExtend 32 * ((r (4 * j + 2)).signExtend 16).signExtend 32
        + ((l (4 * j + 3)).zeroExtend 16).signExtend 32 * ((r (4 * j + 3)).signExtend 16).signExtend 32) := by
    interval_cases j <;> rfl
  rw [hd]
  simp only [wide_unsigned, wide_signed, Finset.sum_range_succ, Finset.sum_range_zero, BitVec.ofInt_add, BitVec.ofInt_mul,
    BitVec.ofInt_toInt, Nat.add_zero]
  simp [BitVec.add_assoc]

example : dotU8I8 (fun _ => 1) (fun i => BitVec.ofNat 8 (250 + i)) (fun _ => -2) 0 = -2011#32 := by decide +kernel


/-! ## Interleaving -/

/-- `zip_flat` interleaves the two halves of the register, for 8-, 16- and 32-bit lanes; a lane is one, two or four bytes. -/
theorem C122_zip {α : Type} (zero : α) (x : Reg α) :
    (∀ i < 16, zipFlat zero interleave8 x (2 * i) = x i ∧ zipFlat zero interleave8 x (2 * i + 1) = x (16 + i)) ∧
    (∀ i < 8, ∀ k < 2, zipFlat zero interleave16 x (2 * (2 * i) + k) = x (2 * i + k) ∧
      zipFlat zero interleave16 x (2 * (2 * i + 1) + k) = x (16 + 2 * i + k)) ∧
    (∀ i < 4, ∀ k < 4, zipFlat32 x (4 * (2 * i) + k) = x (4 * i + k) ∧
      zipFlat32 x (4 * (2 * i + 1) + k) = x (16 + 4 * i + k)) := by
  refine ⟨?_, ?_, ?_⟩
  · intro i hi
    interval_cases i <;> exact ⟨rfl, rfl⟩
  · intro i hi k hk
    interval_cases i <;> interval_cases k <;> exact ⟨rfl, rfl⟩
  · intro i hi k hk
    interval_cases i <;> interval_cases k <;> exact ⟨rfl, rfl⟩

/-- `unzip_flat` undoes `zip_flat` and the other way round. -/
theorem C122_unzip {α : Type} (zero : α) (x : Reg α) (i : Nat) (hi : i < 32) :
    unzipFlat zero deinterleave8 (zipFlat zero interleave8 x) i = x i ∧
    zipFlat zero interleave8 (unzipFlat zero deinterleave8 x) i = x i ∧
    unzipFlat zero deinterleave16 (zipFlat zero interleave16 x) i = x i ∧
    zipFlat zero interleave16 (unzipFlat zero deinterleave16 x) i = x i ∧
    unzipFlat32 (zipFlat32 x) i = x i ∧ zipFlat32 (unzipFlat32 x) i = x i := by
  interval_cases i <;> exact ⟨rfl, rfl, rfl, rfl, rfl, rfl⟩

example : (List.range 8).map (zipFlat 99 interleave8 (fun i => i)) = [0, 16, 1, 17, 2, 18, 3, 19] := by decide

/-! ## Masks from and to bits -/

theorem movemask_testBit {w : Nat} (n : Nat) (m : Reg (BitVec w)) (i : Nat) :
    (movemask n m).testBit i = (decide (i < n) && (m i).msb) := by
  induction n with
  | zero => simp [movemask]
  | succ n ih =>
    rw [movemask, Nat.testBit_or, ih]
    by_cases h : i = n
    · subst h
      cases hb : (m i).msb <;> simp [hb, Nat.testBit_two_pow]
    · cases hb : (m n).msb <;> by_cases hlt : i < n <;> simp [hb, Nat.testBit_two_pow, hlt, Ne.symm h] <;> omega

theorem byte_test (v k j : Nat) (hj : j < 8) :
    (if byteOf v k &&& BitVec.twoPow 8 j = BitVec.twoPow 8 j then BitVec.allOnes 8 else 0)
      = if v.testBit (8 * k + j) then BitVec.allOnes 8 else 0 := by
  have hb : (byteOf v k).getLsbD j = v.testBit (8 * k + j) := by
    rw [byteOf, BitVec.getLsbD_ofNat, Nat.testBit_div_two_pow, Nat.add_comm]
    simp [hj]
  rw [BitVec.and_twoPow, hb]
  cases hv : v.testBit (8 * k + j)
  · have : ¬ (0#8 = BitVec.twoPow 8 j) := by
      intro h
      have := congrArg (fun x => x.getLsbD j) h
      simp [BitVec.getLsbD_twoPow, hj] at this
    simp [this]
  · simp

theorem bit_test (w v i : Nat) (hi : i + 1 < w) :
    (0 : BitVec w).toInt < (BitVec.ofNat w v &&& BitVec.twoPow w i).toInt ↔ v.testBit i = true := by
  have hb : (BitVec.ofNat w v).getLsbD i = v.testBit i := by
    rw [BitVec.getLsbD_ofNat]
    simp [show i < w by omega]
  have hp : (BitVec.twoPow w i).toInt = 2 ^ i := by
    have h1 : 2 ^ i * 2 < 2 ^ w := by
      rw [← pow_succ]; exact Nat.pow_lt_pow_right (by omega) hi
    have h2 : (BitVec.twoPow w i).toNat = 2 ^ i := by
      rw [BitVec.toNat_twoPow, Nat.mod_eq_of_lt (by omega)]
    rw [BitVec.toInt_eq_toNat_cond, h2, if_pos (by omega)]
    simp
  rw [BitVec.and_twoPow, hb]
  cases v.testBit i
  · simp
  · simp [hp]

/-- From a bit mask every mask type gets exactly the lanes whose bit is set. -/
theorem C122_from_bits (v : Nat) :
    IsMask 16 (fun i => v.testBit i) (mask8x16FromBits v) ∧
    IsMask 32 (fun i => v.testBit i) (mask8x32FromBits v) ∧
    IsMask 4 (fun i => v.testBit i) (maskFromBits 32 [1, 2, 4, 8] v) ∧
    IsMask 8 (fun i => v.testBit i) (maskFromBits 32 [1, 2, 4, 8, 16, 32, 64, 128] v) ∧
    IsMask 2 (fun i => v.testBit i) (maskFromBits 64 [1, 2] v) ∧
    IsMask 4 (fun i => v.testBit i) (maskFromBits 64 [1, 2, 4, 8] v) := by
  refine ⟨?_, ?_, ?_, ?_, ?_, ?_⟩
  · intro i hi
    interval_cases i
    · exact byte_test v 0 0 (by omega)
    · exact byte_test v 0 1 (by omega)
    · exact byte_test v 0 2 (by omega)
    · exact byte_test v 0 3 (by omega)
    · exact byte_test v 0 4 (by omega)
    · exact byte_test v 0 5 (by omega)
    · exact byte_test v 0 6 (by omega)
    · exact byte_test v 0 7 (by omega)
    · exact byte_test v 1 0 (by omega)
    · exact byte_test v 1 1 (by omega)
    · exact byte_test v 1 2 (by omega)
    · exact byte_test v 1 3 (by omega)
    · exact byte_test v 1 4 (by omega)
    · exact byte_test v 1 5 (by omega)
    · exact byte_test v 1 6 (by omega)
    · exact byte_test v 1 7 (by omega)
  · intro i hi
    interval_cases i
    · exact byte_test v 0 0 (by omega)
    · exact byte_test v 0 1 (by omega)
    · exact byte_test v 0 2 (by omega)
    · exact byte_test v 0 3 (by omega)
    · exact byte_test v 0 4 (by omega)
    · exact byte_test v 0 5 (by omega)
    · exact byte_test v 0 6 (by omega)
    · exact byte_test v 0 7 (by omega)
    · exact byte_test v 1 0 (by omega)
    · exact byte_test v 1 1 (by omega)
    · exact byte_test v 1 2 (by omega)
    · exact byte_test v 1 3 (by omega)
    · exact byte_test v 1 4 (by omega)
    · exact byte_test v 1 5 (by omega)
    · exact byte_test v 1 6 (by omega)
    · exact byte_test v 1 7 (by omega)
    · exact byte_test v 2 0 (by omega)
    · exact byte_test v 2 1 (by omega)
    · exact byte_test v 2 2 (by omega)
    · exact byte_test v 2 3 (by omega)
    · exact byte_test v 2 4 (by omega)
    · exact byte_test v 2 5 (by omega)
    · exact byte_test v 2 6 (by omega)
    · exact byte_test v 2 7 (by omega)
    · exact byte_test v 3 0 (by omega)
    · exact byte_test v 3 1 (by omega)
    · exact byte_test v 3 2 (by omega)
    · exact byte_test v 3 3 (by omega)
    · exact byte_test v 3 4 (by omega)
    · exact byte_test v 3 5 (by omega)
    · exact byte_test v 3 6 (by omega)
    · exact byte_test v 3 7 (by omega)
  · intro i hi
    interval_cases i
    · exact cmpgt_iff _ _ _ _ (bit_test 32 v 0 (by omega))
    · exact cmpgt_iff _ _ _ _ (bit_test 32 v 1 (by omega))
    · exact cmpgt_iff _ _ _ _ (bit_test 32 v 2 (by omega))
    · exact cmpgt_iff _ _ _ _ (bit_test 32 v 3 (by omega))
  · intro i hi
    interval_cases i
    · exact cmpgt_iff _ _ _ _ (bit_test 32 v 0 (by omega))
    · exact cmpgt_iff _ _ _ _ (bit_test 32 v 1 (by omega))
    · exact cmpgt_iff _ _ _ _ (bit_test 32 v 2 (by omega))
    · exact cmpgt_iff _ _ _ _ (bit_test 32 v 3 (by omega))
    · exact cmpgt_iff _ _ _ _ (bit_test 32 v 4 (by omega))
    · exact cmpgt_iff _ _ _ _ (bit_test 32 v 5 (by omega))
    · exact cmpgt_iff _ _ _ _ (bit_test 32 v 6 (by omega))
    · exact cmpgt_iff _ _ _ _ (bit_test 32 v 7 (by omega))
  · intro i hi
    interval_cases i
    · exact cmpgt_iff _ _ _ _ (bit_test 64 v 0 (by omega))
    · exact cmpgt_iff _ _ _ _ (bit_test 64 v 1 (by omega))
  · intro i hi
    interval_cases i
    · exact cmpgt_iff _ _ _ _ (bit_test 64 v 0 (by omega))
    · exact cmpgt_iff _ _ _ _ (bit_test 64 v 1 (by omega))
    · exact cmpgt_iff _ _ _ _ (bit_test 64 v 2 (by omega))
    · exact cmpgt_iff _ _ _ _ (bit_test 64 v 3 (by omega))


/-- Turning a mask into bits keeps the lanes: bit `i` is set exactly for the lanes of the mask. -/
theorem C122_to_bits {w n : Nat} (hw : 0 < w) (p : Nat → Prop) [DecidablePred p] (m : Reg (BitVec w)) (hm : IsMask n p m)
    (i : Nat) : (toBits n m).testBit i = decide (i < n ∧ p i) := by
  rw [toBits, fromInt, Nat.testBit_mod_two_pow, movemask_testBit]
  by_cases h : i < n
  · by_cases hp : p i
    · simp [h, hm i h, hp, BitVec.msb_allOnes hw]
    · simp [h, hm i h, hp]
  · simp [h]

/-- Bits to mask to bits is the identity on bit masks of `N` lanes. -/
theorem C122_bits_round_trip (v : Nat) :
    (v < 2 ^ 16 → toBits 16 (mask8x16FromBits v) = v) ∧ (v < 2 ^ 32 → toBits 32 (mask8x32FromBits v) = v) ∧
    (v < 2 ^ 4 → toBits 4 (maskFromBits 32 [1, 2, 4, 8] v) = v) ∧
    (v < 2 ^ 8 → toBits 8 (maskFromBits 32 [1, 2, 4, 8, 16, 32, 64, 128] v) = v) ∧
    (v < 2 ^ 2 → toBits 2 (maskFromBits 64 [1, 2] v) = v) ∧
    (v < 2 ^ 4 → toBits 4 (maskFromBits 64 [1, 2, 4, 8] v) = v) := by
  have key : ∀ {w n : Nat}, 0 < w → ∀ m : Reg (BitVec w), IsMask n (fun i => v.testBit i) m → v < 2 ^ n → toBits n m = v := by
    intro w n hw m hm hv
    apply Nat.eq_of_testBit_eq
    intro i
    rw [C122_to_bits hw _ m hm i]
    by_cases h : i < n
    · simp [h]
    · have : v.testBit i = false :=
        Nat.testBit_lt_two_pow (lt_of_lt_of_le hv (Nat.pow_le_pow_right (by omega) (by omega)))
      simp [h, this]
  obtain ⟨h1, h2, h3, h4, h5, h6⟩ := C122_from_bits v
  exact ⟨key (by omega) _ h1, key (by omega) _ h2, key (by omega) _ h3, key (by omega) _ h4, key (by omega) _ h5,
    key (by omega) _ h6⟩

/-- `keep_first(i)` sets exactly the lanes below `i`, for any `i`, also beyond the number of lanes. -/
theorem C122_keep_first (i : Nat) :
    (∀ w n, n < 2 ^ (w - 1) → IsMask n (fun k => k < i) (maskKeepFirst w n i)) ∧
    (∃ m, mask32x8KeepFirst i = some m ∧ IsMask 8 (fun k => k < i) m) := by
  refine ⟨?_, ?_⟩
  · intro w n hn k hk
    apply cmpgt_iff
    have hw : 2 ^ (w - 1) * 2 ≤ 2 ^ w ∨ w = 0 := by
      cases w with
      | zero => right; rfl
      | succ w => left; simp [pow_succ]
    have small : ∀ x < 2 ^ (w - 1), w ≠ 0 → (BitVec.ofNat w x).toInt = x := by
      intro x hx h0
      rcases hw with hw | hw
      · rw [BitVec.toInt_eq_toNat_cond, BitVec.toNat_ofNat, Nat.mod_eq_of_lt (by omega), if_pos (by omega)]
      · exact absurd hw h0
    by_cases h0 : w = 0
    · subst h0; simp at hn; omega
    · show (BitVec.ofNat w k).toInt < (BitVec.ofNat w (min i n)).toInt ↔ k < i
      rw [small k (by omega) h0, small (min i n) (by omega) h0]
      omega
  · by_cases h : i < 8
    · interval_cases i <;> refine ⟨_, rfl, ?_⟩ <;> intro k hk <;> interval_cases k <;> rfl
    · refine ⟨fun k => ((keepTable.getD 8 []).getD k 0), ?_, ?_⟩
      · rw [mask32x8KeepFirst, show min i 8 = 8 by omega]; rfl
      · intro k hk
        rw [if_pos (by omega)]
        interval_cases k <;> rfl


example : 32 < 2 ^ (8 - 1) ∧ maskKeepFirst 8 32 31 30 = 255#8 ∧ maskKeepFirst 8 32 31 31 = 0 ∧
    toBits 16 (mask8x16FromBits 0x8421) = 0x8421 ∧ toBits 8 (ltUnsigned (w := 32) (fun i => BitVec.ofNat 32 i) (fun _ => 3)) = 7 := by
  decide +kernel

/-! ## Bit masks -/

/-- The widths of bit masks. -/
def Width (n : Nat) : Prop := n = 1 ∨ n = 2 ∨ n = 4 ∨ n = 8 ∨ n = 16 ∨ n = 32 ∨ n = 64

theorem fromFnLoop_testBit (f : Nat → Bool) (n i : Nat) : (fromFnLoop f n).testBit i = (decide (i < n) && f i) := by
  induction n with
  | zero => simp [fromFnLoop]
  | succ n ih =>
    rw [fromFnLoop, Nat.testBit_or, ih]
    by_cases h : i = n
    · subst h
      cases hb : f i <;> simp [hb, Nat.testBit_two_pow]
    · cases hb : f n <;> by_cases hlt : i < n <;> simp [hb, Nat.testBit_two_pow, hlt, Ne.symm h] <;> omega

/-- Building a bit mask: `keep_first` and `from_fn` set exactly the lanes they should, and no bit past the lanes. -/
theorem C122_bits_build (n : Nat) (hn : Width n) (k : Nat) :
    (∀ i, (bitsKeepFirst n i).testBit k = decide (k < n ∧ k < i)) ∧
    (∀ f : Nat → Bool, (bitsFromFn n f).testBit k = decide (k < n ∧ f k = true)) := by
  constructor
  · intro i
    unfold bitsKeepFirst
    simp only
    split
    · rename_i h
      rw [fromInt, Nat.testBit_mod_two_pow, Nat.testBit_two_pow_sub_one]
      by_cases hk : k < n <;> simp [hk] <;> omega
    · rename_i h
      have h1 : min i n % 64 = min i n := by
        apply Nat.mod_eq_of_lt
        rcases hn with h | h | h | h | h | h | h <;> omega
      have h2 : n ≤ reprBits n := by unfold reprBits; split <;> omega
      rw [fromInt, Nat.testBit_mod_two_pow, Nat.testBit_mod_two_pow, shlOne, h1, Nat.testBit_two_pow_sub_one]
      by_cases hk : k < n
      · have : k < reprBits n := by omega
        by_cases hki : k < i <;> simp [hk, this, hki]
      · simp [hk]
  · intro f
    rw [bitsFromFn, fromInt, Nat.testBit_mod_two_pow, fromFnLoop_testBit]
    by_cases hk : k < n <;> cases hf : f k <;> simp [hk]

theorem trailingZeros_spec (width v : Nat) :
    (∀ j < trailingZeros width v, v.testBit j = false) ∧ trailingZeros width v ≤ width ∧
    (trailingZeros width v < width → v.testBit (trailingZeros width v) = true) := by
  induction width generalizing v with
  | zero => simp [trailingZeros]
  | succ width ih =>
    unfold trailingZeros
    split
    · rename_i h
      simp [Nat.testBit_zero, h]
    · rename_i h
      obtain ⟨h1, h2, h3⟩ := ih (v / 2)
      refine ⟨?_, by omega, ?_⟩
      · intro j hj
        cases j with
        | zero => simp [Nat.testBit_zero, h]
        | succ j => rw [Nat.testBit_succ]; exact h1 j (by omega)
      · intro hlt
        rw [Nat.testBit_succ]
        exact h3 (by omega)

theorem countOnes_spec (width v : Nat) :
    countOnes width v = ((Finset.range width).filter (fun i => v.testBit i = true)).card := by
  rw [Finset.card_filter]
  induction width generalizing v with
  | zero => simp [countOnes]
  | succ width ih =>
    rw [countOnes, ih, Finset.sum_range_succ', Nat.add_comm]
    congr 1
    · simp only [Nat.testBit_succ]
    · rw [Nat.testBit_zero]
      rcases Nat.mod_two_eq_zero_or_one v with h | h <;> simp [h]


/-- Reading a bit mask without bits past its lanes: lane, any, all, first and count. -/
theorem C122_bits_read (n : Nat) (hn : Width n) (v : Nat) (hv : v < 2 ^ n) :
    (∀ i, bitsGet n v i = decide (i < n ∧ v.testBit i = true)) ∧
    (bitsAny v = true ↔ ∃ i < n, v.testBit i = true) ∧
    (bitsAll n v = true ↔ ∀ i < n, v.testBit i = true) ∧
    (∀ i, bitsFirst n v = some i ↔ i < n ∧ v.testBit i = true ∧ ∀ j < i, v.testBit j = false) ∧
    (bitsFirst n v = none ↔ ∀ i < n, v.testBit i = false) ∧
    bitsCount n v = ((Finset.range n).filter (fun i => v.testBit i = true)).card := by
  have hge : ∀ i, n ≤ i → v.testBit i = false := fun i h =>
    Nat.testBit_lt_two_pow (lt_of_lt_of_le hv (Nat.pow_le_pow_right (by omega) h))
  have hr : n ≤ reprBits n := by unfold reprBits; split <;> omega
  obtain ⟨t1, t2, t3⟩ := trailingZeros_spec (reprBits n) v
  refine ⟨?_, ?_, ?_, ?_, ?_, ?_⟩
  · intro i
    unfold bitsGet
    rw [Nat.testBit_eq_decide_div_mod_eq]
    by_cases h : i < n
    · rw [if_neg (by omega)]
      simp only [h, true_and, decide_eq_true_eq]
      rfl
    · simp [h, Nat.not_lt.mp h]
  · simp only [bitsAny, bne_iff_ne, ne_eq]
    constructor
    · intro h
      by_contra hc
      apply h
      apply Nat.eq_of_testBit_eq
      intro i
      rw [Nat.zero_testBit]
      by_cases hi : i < n
      · cases hb : v.testBit i
        · rfl
        · exact absurd ⟨i, hi, hb⟩ hc
      · exact hge i (by omega)
    · rintro ⟨i, -, hb⟩ rfl
      simp at hb
  · have hall : bitsAll n v = (v == 2 ^ n - 1) := by
      unfold bitsAll
      split
      · rename_i h; rw [h]
      · rename_i h
        have : n % 64 = n := by
          apply Nat.mod_eq_of_lt
          rcases hn with h | h | h | h | h | h | h <;> omega
        rw [shlOne, this]
    rw [hall, beq_iff_eq]
    constructor
    · rintro hv' i hi
      rw [hv', Nat.testBit_two_pow_sub_one]
      simpa using hi
    · intro h
      apply Nat.eq_of_testBit_eq
      intro i
      rw [Nat.testBit_two_pow_sub_one]
      by_cases hi : i < n
      · simp [hi, h i hi]
      · simp [hi, hge i (by omega)]
  · intro i
    unfold bitsFirst
    simp only
    split
    · rename_i h
      constructor
      · intro hc; cases hc
      · rintro ⟨hi, hb, -⟩
        rw [t1 i (by omega)] at hb; cases hb
    · rename_i h
      constructor
      · intro hc
        cases hc
        exact ⟨by omega, t3 (by omega), t1⟩
      · rintro ⟨hi, hb, hj⟩
        rcases Nat.lt_trichotomy i (trailingZeros (reprBits n) v) with hlt | heq | hgt
        · rw [t1 i hlt] at hb; cases hb
        · rw [heq]
        · have := hj _ hgt
          rw [t3 (by omega)] at this; cases this
  · unfold bitsFirst
    simp only
    split
    · rename_i h
      simp only [true_iff]
      intro i hi
      exact t1 i (by omega)
    · rename_i h
      constructor
      · intro hc; cases hc
      · intro hc
        have := hc _ (by omega : trailingZeros (reprBits n) v < n)
        rw [t3 (by omega)] at this; cases this
  · rw [bitsCount, countOnes_spec]
    congr 1
    ext i
    simp only [Finset.mem_filter, Finset.mem_range]
    constructor
    · rintro ⟨-, hb⟩
      refine ⟨?_, hb⟩
      by_contra hc
      rw [hge i (by omega)] at hb; cases hb
    · rintro ⟨hi, hb⟩
      exact ⟨by omega, hb⟩

example : Width 4 ∧ 0b1010 < 2 ^ 4 ∧ bitsFirst 4 0b1010 = some 1 ∧ bitsCount 4 0b1010 = 2 ∧ bitsAll 4 0b1010 = false ∧
    bitsKeepFirst 64 70 = 2 ^ 64 - 1 := by
  refine ⟨by simp [Width], by omega, by decide, by decide, by decide, by decide +kernel⟩


/-- Splitting gives the lower and the upper lanes; joining undoes it. -/
theorem C122_bits_split (h : Nat) (hh : Width h) (h64 : h ≠ 64) (v : Nat) (hv : v < 2 ^ (2 * h)) :
    (∀ i < h, (bitsSplit h v).1.testBit i = v.testBit i ∧ (bitsSplit h v).2.testBit i = v.testBit (h + i)) ∧
    bitsJoin h (bitsSplit h v).1 (bitsSplit h v).2 = v ∧
    (∀ lo hi, lo < 2 ^ h → hi < 2 ^ h → bitsSplit h (bitsJoin h lo hi) = (lo, hi)) := by
  have hr : 2 * h ≤ reprBits (2 * h) := by unfold reprBits; split <;> omega
  have hand : ∀ x, x &&& (2 ^ h - 1) = x % 2 ^ h := fun x => Nat.and_two_pow_sub_one_eq_mod x h
  have bit1 : ∀ v i, (bitsSplit h v).1.testBit i = (decide (i < h) && v.testBit i) := by
    intro v i
    simp only [bitsSplit, fromInt, hand, Nat.mod_mod, Nat.testBit_mod_two_pow]
  have bit2 : ∀ v i, (bitsSplit h v).2.testBit i = (decide (i < h) && v.testBit (h + i)) := by
    intro v i
    simp only [bitsSplit, fromInt, hand, Nat.mod_mod, Nat.testBit_mod_two_pow, Nat.testBit_div_two_pow]
    rw [Nat.add_comm]
  have bitj : ∀ lo hi i, (bitsJoin h lo hi).testBit i
      = ((decide (i < reprBits (2 * h)) && (decide (h ≤ i) && hi.testBit (i - h))) || lo.testBit i) := by
    intro lo hi i
    rw [bitsJoin, Nat.testBit_or, Nat.testBit_mod_two_pow, Nat.testBit_mul_two_pow]
  have low : ∀ (n x i : Nat), x < 2 ^ n → n ≤ i → x.testBit i = false := fun n x i hx hi =>
    Nat.testBit_lt_two_pow (lt_of_lt_of_le hx (Nat.pow_le_pow_right (by omega) hi))
  refine ⟨?_, ?_, ?_⟩
  · intro i hi
    rw [bit1, bit2]; simp [hi]
  · apply Nat.eq_of_testBit_eq
    intro i
    rw [bitj, bit1, bit2]
    by_cases h1 : i < h
    · simp [h1, Nat.not_le.mpr h1]
    · by_cases h2 : i < 2 * h
      · have h3 : i < reprBits (2 * h) := by omega
        simp [h1, h3, Nat.not_lt.mp h1, show i - h < h by omega, show h + (i - h) = i by omega]
      · rw [low _ v i hv (by omega)]
        simp [h1, show ¬ (i - h < h) by omega]
  · intro lo hi hlo hhi
    apply Prod.ext
    · apply Nat.eq_of_testBit_eq
      intro i
      rw [bit1, bitj]
      by_cases h1 : i < h
      · simp [h1, Nat.not_le.mpr h1]
      · simp [h1, low h lo i hlo (by omega)]
    · apply Nat.eq_of_testBit_eq
      intro i
      rw [bit2, bitj]
      by_cases h1 : i < h
      · have h3 : h + i < reprBits (2 * h) := by omega
        simp [h1, h3, low h lo (h + i) hlo (by omega)]
      · simp [h1, low h hi i hhi (by omega)]


/-- A doubled mask keeps and reports the lanes of a mask of twice the width. -/
theorem C122_doubled (w h i : Nat) (hw : h < 2 ^ (w - 1)) (k : Nat) (hk : k < 2 * h) :
    setHalves h (doubledKeepFirst h (maskKeepFirst w h) i).1 (doubledKeepFirst h (maskKeepFirst w h) i).2 k
      = (if k < i then BitVec.allOnes w else 0) ∧
    (∀ p : Nat → Bool, doubledGet h p (fun j => p (h + j)) k = p k) := by
  constructor
  · simp only [doubledKeepFirst, setHalves]
    by_cases h1 : k < h
    · rw [if_pos h1, (C122_keep_first i).1 w h hw k h1]
    · rw [if_neg h1, (C122_keep_first (i - h)).1 w h hw (k - h) (by omega)]
      by_cases h2 : k < i
      · rw [if_pos h2, if_pos (by omega)]
      · rw [if_neg h2, if_neg (by omega)]
  · intro p
    unfold doubledGet
    split
    · rfl
    · show p (h + (k - h)) = p k
      rw [show h + (k - h) = k by omega]


example : Width 16 ∧ 0xABCD1234 < 2 ^ (2 * 16) ∧ bitsSplit 16 0xABCD1234 = (0x1234, 0xABCD) ∧
    bitsJoin 4 0x3 0xA = 0xA3 ∧ (doubledKeepFirst 4 (maskKeepFirst 64 4) 6).2 1 = BitVec.allOnes 64 ∧
    (doubledKeepFirst 4 (maskKeepFirst 64 4) 6).2 2 = 0 := by
  refine ⟨by simp [Width], by omega, by decide +kernel, by decide +kernel, by decide +kernel, by decide +kernel⟩

end Verif.Vec.Lane
