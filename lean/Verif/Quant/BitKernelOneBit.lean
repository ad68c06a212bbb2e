import Verif.Quant.BitKernelLemmas
import Mathlib.Algebra.BigOperators.Ring.Finset

/-! # The kernels on one-bit slices and on transposed slices form the sum over all elements -/

namespace Verif.Quant

open Finset

/-! ## Counting bits -/

theorem count_sum (w : Nat) (f : Nat → Bool) :
    BitVec.ofNat 32 ((List.range w).filter f).length = ∑ b ∈ range w, (if f b then (1 : BitVec 32) else 0) := by
  induction w with
  | zero => rfl
  | succ w ih =>
    rw [List.range_succ, List.filter_append, List.length_append, BitVec.ofNat_add, ih, Finset.sum_range_succ]
    congr 1
    cases h : f w <;> simp [h]

theorem popcount_eq {w : Nat} (v : BitVec w) :
    popcount v = ∑ b ∈ range w, (if v.getLsbD b then (1 : BitVec 32) else 0) := count_sum w _

/-- An operator counts the places where `bop` is one. -/
structure OpOk (op : {w : Nat} → BitVec w → BitVec w → BitVec 32) (bop : Bool → Bool → BitVec 32) : Prop where
  eq : ∀ {w : Nat} (x y : BitVec w), op x y = ∑ b ∈ range w, bop (x.getLsbD b) (y.getLsbD b)
  zero : bop false false = 0

theorem xor_ok : OpOk @xorOp (fun a b => if a ^^ b then 1 else 0) :=
  ⟨fun x y => by rw [xorOp, popcount_eq]; simp [BitVec.getLsbD_xor], rfl⟩

theorem and_ok : OpOk @andOp (fun a b => if a && b then 1 else 0) :=
  ⟨fun x y => by rw [andOp, popcount_eq]; simp [BitVec.getLsbD_and], rfl⟩

theorem loaded_word {data : List Byte} {off : Nat} (h : off + 8 ≤ data.length) {r : Reg 8}
    (hr : loadBytes data off 8 = some r) (p : Nat) (hp : p < 64) :
    (asU64 r 0).getLsbD p = bitAt data (8 * off + p) := by
  rw [loadBytes_eq h] at hr
  injection hr with hr; subst hr
  rw [asU64_bit _ _ hp, if_pos (by omega)]
  unfold bitAt
  rw [show (8 * off + p) / 8 = off + p / 8 by omega, show (8 * off + p) % 8 = p % 8 by omega]

theorem bitWords_eq {op : {w : Nat} → BitVec w → BitVec w → BitVec 32} {bop} (h : OpOk op bop) {x y : List Byte}
    {blocks : Nat} (hx : 8 * blocks ≤ x.length) (hy : 8 * blocks ≤ y.length) :
    ∀ (fuel i : Nat) (s : BitVec 32), blocks < i + fuel → i ≤ blocks →
    bitWords op x y blocks fuel i s = some (blocks, s + ∑ j ∈ range (64 * (blocks - i)),
      bop (bitAt x (64 * i + j)) (bitAt y (64 * i + j))) := by
  intro fuel
  induction fuel with
  | zero => intro i s h1 h2; omega
  | succ fuel ih =>
    intro i s h1 h2
    rw [bitWords]
    by_cases hi : i < blocks
    · rw [if_pos hi, loadBytes_eq (by omega), loadBytes_eq (by omega)]
      simp only [Option.bind_eq_bind, Option.bind_some]
      rw [ih _ _ (by omega) (by omega)]
      rw [show 64 * (blocks - i) = 64 + 64 * (blocks - (i + 1)) by omega, Finset.sum_range_add, ← add_assoc, h.eq]
      refine congrArg some (Prod.ext rfl (congrArg₂ (· + ·) (congrArg₂ (· + ·) rfl ?_) ?_))
      · refine Finset.sum_congr rfl (fun b hb => ?_)
        rw [Finset.mem_range] at hb
        rw [loaded_word (by omega) (loadBytes_eq (by omega)) b hb,
          loaded_word (by omega) (loadBytes_eq (by omega)) b hb]
        rw [show 8 * (8 * i) + b = 64 * i + b by omega]
      · refine Finset.sum_congr rfl (fun b _ => ?_)
        rw [show 64 * (i + 1) + b = 64 * i + (64 + b) by omega]
    · rw [if_neg hi, show blocks - i = 0 by omega]
      simp; omega

theorem byte_bit {data : List Byte} {i : Nat} {v : Byte} (h : data[i]? = some v) (b : Nat) (hb : b < 8) :
    v.getLsbD b = bitAt data (8 * i + b) := by
  unfold bitAt
  rw [show (8 * i + b) / 8 = i by omega, show (8 * i + b) % 8 = b by omega]
  simp [List.getD_eq_getElem?_getD, h]

theorem bitBytes_eq {op : {w : Nat} → BitVec w → BitVec w → BitVec 32} {bop} (h : OpOk op bop) {x y : List Byte}
    {blocks : Nat} (hx : blocks ≤ x.length) (hy : blocks ≤ y.length) :
    ∀ (fuel i : Nat) (s : BitVec 32), blocks < i + fuel → i ≤ blocks →
    bitBytes op x y blocks fuel i s = some (blocks, s + ∑ j ∈ range (8 * (blocks - i)),
      bop (bitAt x (8 * i + j)) (bitAt y (8 * i + j))) := by
  intro fuel
  induction fuel with
  | zero => intro i s h1 h2; omega
  | succ fuel ih =>
    intro i s h1 h2
    rw [bitBytes]
    by_cases hi : i < blocks
    · have ex : x[i]? = some x[i] := List.getElem?_eq_getElem (by omega)
      have ey : y[i]? = some y[i] := List.getElem?_eq_getElem (by omega)
      rw [if_pos hi, ex, ey]
      simp only [Option.bind_eq_bind, Option.bind_some]
      rw [ih _ _ (by omega) (by omega)]
      congr 2
      rw [add_assoc]
      congr 1
      rw [show 8 * (blocks - i) = 8 + 8 * (blocks - (i + 1)) by omega, Finset.sum_range_add, h.eq]
      congr 1
      · refine Finset.sum_congr rfl (fun b hb => ?_)
        rw [Finset.mem_range] at hb
        rw [byte_bit ex b hb, byte_bit ey b hb]
      · refine Finset.sum_congr rfl (fun b _ => ?_)
        rw [show 8 * (i + 1) + b = 8 * i + (8 + b) by omega]
    · rw [if_neg hi, show blocks - i = 0 by omega]
      simp; omega

theorem lowMask8 : ∀ t, t < 8 → ∀ b, b < 8 → (((0x01#8 <<< t) - 1 : Byte)).getLsbD b = decide (b < t) := by
  decide +kernel

theorem bitvectorOp_eq {op : {w : Nat} → BitVec w → BitVec w → BitVec 32} {bop} (h : OpOk op bop) (x y : BitSlice)
    (hl : x.count = y.count) (hx : x.data.length = (x.count + 7) / 8) (hy : y.data.length = (y.count + 7) / 8) :
    bitvectorOp op x y = some (.ok (∑ j ∈ range x.count, bop (bitAt x.data j) (bitAt y.data j))) := by
  unfold bitvectorOp
  rw [if_neg (by simpa using hl)]
  dsimp only
  rw [bitWords_eq h (by omega) (by omega) _ _ _ (by omega) (by omega)]
  simp only [Option.bind_eq_bind, Option.bind_some]
  rw [bitBytes_eq h (by omega) (by omega) _ _ _ (by omega) (by omega)]
  simp only [Option.bind_some, Nat.mul_zero, Nat.zero_add, Nat.sub_zero, zero_add]
  have e1 : (∑ j ∈ range (64 * (x.count / 64)), bop (bitAt x.data j) (bitAt y.data j))
      + ∑ j ∈ range (8 * (x.count / 8 - x.count / 64 * 8)), bop (bitAt x.data (8 * (x.count / 64 * 8) + j))
        (bitAt y.data (8 * (x.count / 64 * 8) + j))
      = ∑ j ∈ range (8 * (x.count / 8)), bop (bitAt x.data j) (bitAt y.data j) := by
    rw [show 8 * (x.count / 8) = 64 * (x.count / 64) + 8 * (x.count / 8 - x.count / 64 * 8) by omega,
      Finset.sum_range_add]
    congr 1
    refine Finset.sum_congr rfl (fun j _ => ?_)
    rw [show 8 * (x.count / 64 * 8) + j = 64 * (x.count / 64) + j by omega]
  rw [e1]
  split
  · rename_i hne
    have ex : x.data[x.count / 8]? = some x.data[x.count / 8] := List.getElem?_eq_getElem (by omega)
    have ey : y.data[x.count / 8]? = some y.data[x.count / 8] := List.getElem?_eq_getElem (by omega)
    rw [ex, ey]
    simp only [Option.bind_some]
    congr 2
    conv_rhs => rw [show x.count = 8 * (x.count / 8) + (x.count - 8 * (x.count / 8)) by omega, Finset.sum_range_add]
    congr 1
    rw [h.eq]
    generalize ht : x.count - 8 * (x.count / 8) = t
    have ht8 : t < 8 := by omega
    rw [show range 8 = range (t + (8 - t)) by congr 1; omega, Finset.sum_range_add]
    have z : ∑ b ∈ range (8 - t), bop ((x.data[x.count / 8] &&& ((0x01#8 <<< t) - 1)).getLsbD (t + b))
        ((y.data[x.count / 8] &&& ((0x01#8 <<< t) - 1)).getLsbD (t + b)) = 0 := by
      refine Finset.sum_eq_zero (fun b hb => ?_)
      rw [Finset.mem_range] at hb
      rw [BitVec.getLsbD_and, BitVec.getLsbD_and, lowMask8 t ht8 _ (by omega)]
      simp [h.zero]
    rw [z, add_zero]
    refine Finset.sum_congr rfl (fun b hb => ?_)
    rw [Finset.mem_range] at hb
    rw [BitVec.getLsbD_and, BitVec.getLsbD_and, lowMask8 t ht8 _ (by omega), byte_bit ex b (by omega),
      byte_bit ey b (by omega)]
    simp [hb]
  · rename_i he
    have : x.count / 8 * 8 = x.count := by simpa using he
    rw [show 8 * (x.count / 8) = x.count by omega]

/-! ## Transposed slices -/

/-- Bit `q` of element `j` of a transposed slice. -/
def planeBit (data : List Byte) (j q : Nat) : Bool := (data.getD (transByte j + 8 * q) 0).getLsbD (j % 8)

/-- The element's contribution. -/
def transTerm (x y : List Byte) (j : Nat) : BitVec 32 :=
  if bitAt y j then
    (if planeBit x j 0 then 1 else 0) + (if planeBit x j 1 then 2 else 0) + (if planeBit x j 2 then 4 else 0)
      + (if planeBit x j 3 then 8 else 0)
  else 0

theorem plane_word {x : List Byte} {i q : Nat} (h : 8 * (4 * i + q) + 8 ≤ x.length) (hq : q < 4) {r : Reg 8}
    (hr : loadBytes x (8 * (4 * i + q)) 8 = some r) (p : Nat) (hp : p < 64) :
    (asU64 r 0).getLsbD p = planeBit x (64 * i + p) q := by
  rw [loaded_word h hr p hp]
  unfold bitAt planeBit transByte
  rw [show (8 * (8 * (4 * i + q)) + p) / 8 = 32 * ((64 * i + p) / 64) + (64 * i + p) % 64 / 8 + 8 * q by omega,
    show (8 * (8 * (4 * i + q)) + p) % 8 = (64 * i + p) % 8 by omega]

theorem shl_count (n : Nat) (f : Nat → Bool) (k : Nat) :
    (∑ b ∈ range n, (if f b then (1 : BitVec 32) else 0)) <<< k
      = ∑ b ∈ range n, (if f b then (BitVec.twoPow 32 k) else 0) := by
  rw [BitVec.shiftLeft_eq_mul_twoPow, Finset.sum_mul]
  refine Finset.sum_congr rfl (fun b _ => ?_)
  split
  · rw [one_mul]
  · rw [zero_mul]

theorem planes_eq {x y : List Byte} {i n : Nat} (h : 32 * i + 32 ≤ x.length) (hn : n ≤ 64) {bits : BitVec 64}
    (hb : ∀ p, p < 64 → bits.getLsbD p = (decide (p < n) && bitAt y (64 * i + p))) (s : BitVec 32) :
    planes x i bits s = some (s + ∑ j ∈ range n, transTerm x y (64 * i + j)) := by
  unfold planes
  rw [loadBytes_eq (by omega), loadBytes_eq (by omega), loadBytes_eq (by omega), loadBytes_eq (by omega)]
  simp only [Option.bind_eq_bind, Option.bind_some]
  congr 1
  have pw : ∀ q, q < 4 → ∀ r, loadBytes x (8 * (4 * i + q)) 8 = some r →
      popcount (bits &&& asU64 r 0)
        = ∑ j ∈ range n, (if bitAt y (64 * i + j) && planeBit x (64 * i + j) q then (1 : BitVec 32) else 0) := by
    intro q hq r hr
    rw [popcount_eq, show range 64 = range (n + (64 - n)) by congr 1; omega, Finset.sum_range_add]
    have z : ∑ b ∈ range (64 - n), (if (bits &&& asU64 r 0).getLsbD (n + b) then (1 : BitVec 32) else 0) = 0 := by
      refine Finset.sum_eq_zero (fun b hb' => ?_)
      rw [Finset.mem_range] at hb'
      rw [BitVec.getLsbD_and, hb _ (by omega)]
      simp
    rw [z, add_zero]
    refine Finset.sum_congr rfl (fun b hb' => ?_)
    rw [Finset.mem_range] at hb'
    rw [BitVec.getLsbD_and, hb _ (by omega), plane_word (by omega) hq hr b (by omega)]
    simp [hb']
  have e0 := pw 0 (by omega) _ (loadBytes_eq (by omega))
  have e1 := pw 1 (by omega) _ (loadBytes_eq (by omega))
  have e2 := pw 2 (by omega) _ (loadBytes_eq (by omega))
  have e3 := pw 3 (by omega) _ (loadBytes_eq (by omega))
  rw [Nat.add_zero] at e0
  rw [e0, e1, e2, e3, shl_count, shl_count, shl_count, add_assoc, add_assoc, add_assoc, ← Finset.sum_add_distrib,
    ← Finset.sum_add_distrib, ← Finset.sum_add_distrib]
  congr 1
  refine Finset.sum_congr rfl (fun j _ => ?_)
  unfold transTerm
  cases bitAt y (64 * i + j) <;> cases planeBit x (64 * i + j) 0 <;> cases planeBit x (64 * i + j) 1 <;>
    cases planeBit x (64 * i + j) 2 <;> cases planeBit x (64 * i + j) 3 <;> decide

theorem transLoop_eq {x y : List Byte} {blocks : Nat} (hx : 32 * blocks ≤ x.length) (hy : 8 * blocks ≤ y.length) :
    ∀ (fuel i : Nat) (s : BitVec 32), blocks < i + fuel → i ≤ blocks →
    transLoop x y blocks fuel i s = some (blocks, s + ∑ j ∈ range (64 * (blocks - i)), transTerm x y (64 * i + j)) := by
  intro fuel
  induction fuel with
  | zero => intro i s h1 h2; omega
  | succ fuel ih =>
    intro i s h1 h2
    rw [transLoop]
    by_cases hi : i < blocks
    · rw [if_pos hi, loadBytes_eq (by omega)]
      simp only [Option.bind_eq_bind, Option.bind_some]
      rw [planes_eq (y := y) (n := 64) (by omega) (le_refl _) (by
        intro p hp
        rw [loaded_word (by omega) (loadBytes_eq (by omega)) p hp, show 8 * (8 * i) + p = 64 * i + p by omega]
        simp [hp])]
      simp only [Option.bind_some]
      rw [ih _ _ (by omega) (by omega)]
      rw [show 64 * (blocks - i) = 64 + 64 * (blocks - (i + 1)) by omega, Finset.sum_range_add, ← add_assoc]
      refine congrArg some (Prod.ext rfl (congrArg₂ (· + ·) rfl ?_))
      refine Finset.sum_congr rfl (fun b _ => ?_)
      rw [show 64 * (i + 1) + b = 64 * i + (64 + b) by omega]
    · rw [if_neg hi, show blocks - i = 0 by omega]
      simp; omega

theorem gatherBits_eq {y : List Byte} {k m : Nat} (hy : k + m ≤ y.length) (hm : m ≤ 8) :
    ∀ (n : Nat), n ≤ m → ∀ bits : BitVec 64,
      (∀ p, bits.getLsbD p = (decide (p < 8 * (m - n)) && bitAt y (8 * k + p))) →
    ∃ bits', gatherBits y k (List.range' (m - n) n) bits = some bits' ∧
      ∀ p, bits'.getLsbD p = (decide (p < 8 * m) && bitAt y (8 * k + p)) := by
  intro n
  induction n with
  | zero => intro _ bits hb; exact ⟨bits, rfl, by simpa using hb⟩
  | succ n ih =>
    intro hn bits hb
    have ey : y[k + (m - (n + 1))]? = some y[k + (m - (n + 1))] := List.getElem?_eq_getElem (by omega)
    rw [List.range'_succ, gatherBits, ey]
    simp only [Option.bind_eq_bind, Option.bind_some]
    have hsh : ∀ p, (y[k + (m - (n + 1))].setWidth 64 <<< (8 * (m - (n + 1)))).getLsbD p
        = (decide (8 * (m - (n + 1)) ≤ p ∧ p < 8 * (m - n)) && bitAt y (8 * k + p)) := by
      intro p
      rw [BitVec.getLsbD_shiftLeft, BitVec.getLsbD_setWidth]
      by_cases h1 : p < 8 * (m - (n + 1))
      · have : ¬ (8 * (m - (n + 1)) ≤ p ∧ p < 8 * (m - n)) := by omega
        simp [h1]
      · by_cases h2 : p < 8 * (m - n)
        · have a : 8 * (m - (n + 1)) ≤ p ∧ p < 8 * (m - n) := by omega
          rw [byte_bit ey (p - 8 * (m - (n + 1))) (by omega)]
          have e : 8 * (k + (m - (n + 1))) + (p - 8 * (m - (n + 1))) = 8 * k + p := by omega
          rw [e]
          have b1 : p < 64 := by omega
          have b2 : p - 8 * (m - (n + 1)) < 64 := by omega
          simp [a, h1, b1, b2]
        · have : y[k + (m - (n + 1))].getLsbD (p - 8 * (m - (n + 1))) = false :=
            BitVec.getLsbD_of_ge _ _ (by omega)
          rw [this]
          have : ¬ (8 * (m - (n + 1)) ≤ p ∧ p < 8 * (m - n)) := by omega
          simp [this]
    have hor : bits + (y[k + (m - (n + 1))].setWidth 64 <<< (8 * (m - (n + 1))))
        = bits ||| (y[k + (m - (n + 1))].setWidth 64 <<< (8 * (m - (n + 1)))) := by
      apply BitVec.add_eq_or_of_and_eq_zero
      apply BitVec.eq_of_getLsbD_eq
      intro p _
      rw [BitVec.getLsbD_and, hb, hsh]
      by_cases h1 : p < 8 * (m - (n + 1))
      · have : ¬ (8 * (m - (n + 1)) ≤ p ∧ p < 8 * (m - n)) := by omega
        simp only [this, decide_false, Bool.false_and, Bool.and_false]; simp
      · simp [h1]
    have hidx : m - (n + 1) + 1 = m - n := by omega
    rw [hidx]
    refine ih (by omega) _ ?_
    intro p
    rw [hor, BitVec.getLsbD_or, hb, hsh, ← Bool.and_or_distrib_right]
    congr 1
    rw [← Bool.decide_or]
    exact decide_eq_decide.mpr (by omega)

theorem lowMask64 (t : Nat) (ht : t < 64) (p : Nat) (hp : p < 64) :
    (((0x01#64 <<< t) - 1 : BitVec 64)).getLsbD p = decide (p < t) := by
  have : ((0x01#64 <<< t) - 1 : BitVec 64) = (BitVec.allOnes 64) >>> (64 - t) := by
    revert t; decide +kernel
  rw [this, BitVec.getLsbD_ushiftRight, BitVec.getLsbD_allOnes]
  exact decide_eq_decide.mpr (by omega)

theorem transKernel_eq (x y : BitSlice) (hl : x.count = y.count) (hx : x.data.length = 32 * ((x.count + 63) / 64))
    (hy : y.data.length = (y.count + 7) / 8) :
    transKernel x y = some (.ok (∑ j ∈ range x.count, transTerm x.data y.data j)) := by
  unfold transKernel
  rw [if_neg (by simpa using hl)]
  dsimp only
  rw [transLoop_eq (by omega) (by omega) _ _ _ (by omega) (by omega)]
  simp only [Option.bind_eq_bind, Option.bind_some, Nat.mul_zero, Nat.zero_add, Nat.sub_zero, zero_add]
  split
  · rename_i h; rw [h]
  · rename_i h
    rw [if_neg (by omega)]
    have hmin : min (y.data.length - x.count / 64 * 8) 8 = y.data.length - x.count / 64 * 8 := by omega
    rw [hmin]
    generalize hm : y.data.length - x.count / 64 * 8 = m
    obtain ⟨bits, e, hbits⟩ := gatherBits_eq (y := y.data) (k := x.count / 64 * 8) (m := m) (by omega) (by omega)
      m (le_refl _) 0 (by intro p; simp)
    rw [Nat.sub_self] at e
    rw [List.range_eq_range', e]
    simp only [Option.bind_some]
    rw [planes_eq (y := y.data) (n := x.count - 64 * (x.count / 64)) (by omega) (by omega) (by
      intro p hp
      rw [BitVec.getLsbD_and, hbits, lowMask64 _ (by omega) p hp]
      rw [show 8 * (x.count / 64 * 8) + p = 64 * (x.count / 64) + p by omega]
      by_cases h1 : p < x.count - 64 * (x.count / 64)
      · have h2 : p < 8 * m := by omega
        simp [h1, h2]
      · simp [h1])]
    simp only [Option.bind_some]
    congr 2
    rw [← Finset.sum_range_add]
    congr 2; omega

end Verif.Quant
