import Verif.Quant.BitKernelPacked
import Verif.Quant.BitKernelOneBit
import Verif.Quant.BitKernelHet
import Verif.Quant.BitKernelFull
import Mathlib.Tactic.Linarith
import Mathlib.Algebra.Order.BigOperators.Group.Finset

/-! # C75: distances between bit-packed slices -/

namespace Verif.Quant

open Finset

/-- The slice has the number of bytes its constructor demands and reads as the vector `vals`. -/
def Holds (N : Nat) (s : BitSlice) (vals : List Int) : Prop :=
  s.data.length = (N * s.count + 7) / 8 ∧ IsArray (dense N) (unsigned N) s vals

/-! ## From slices to vectors -/

theorem getD_of_lt {α : Type} (l : List α) (d : α) {j : Nat} (h : j < l.length) : l.getD j d = l[j] := by
  rw [List.getD_eq_getElem?_getD, List.getElem?_eq_getElem h, Option.getD_some]

theorem dense_value {N : Nat} (h1 : 1 ≤ N) (h8 : N ≤ 8) {s : BitSlice} {vals : List Int} (h : Holds N s vals) (j : Nat)
    (hj : j < s.count) : vals.getD j 0 = ((el N s.data j).toNat : Int) := by
  obtain ⟨hl, hc, hg⟩ := h
  have hj' : j < vals.length := by omega
  have hg := hg j hj'
  have hb : N * j + N ≤ 8 * s.data.length := by
    have : N * (j + 1) ≤ N * s.count := Nat.mul_le_mul_left _ hj
    rw [Nat.mul_succ] at this; omega
  unfold BitSlice.get at hg
  rw [if_neg (by omega)] at hg
  simp only [dense, denseUnpack_el h1 h8 s.data j hb, Option.map_some, unsigned, Option.some.injEq, Except.ok.injEq] at hg
  rw [getD_of_lt _ _ hj', ← hg]

theorem bit_el {s : BitSlice} (h : s.data.length = (1 * s.count + 7) / 8) (j : Nat) (hj : j < s.count) :
    (el 1 s.data j).toNat = if bitAt s.data j then 1 else 0 := by
  have hb : 1 * j + 1 ≤ 8 * s.data.length := by omega
  have hbit := el_bit (N := 1) (by omega) (by omega) s.data j hb
  have e : el 1 s.data j = if bitAt s.data j then 1#8 else 0#8 := by
    apply BitVec.eq_of_getLsbD_eq
    intro b hb'
    rw [hbit]
    by_cases h0 : b = 0
    · subst h0
      cases hh : bitAt s.data j <;> simp [hh]
    · have : ¬ b < 1 := by omega
      cases hh : bitAt s.data j <;> simp [this, h0]
  rw [e]; split <;> rfl

theorem trans_value {s : BitSlice} {vals : List Int} (hl : s.data.length = 32 * ((s.count + 63) / 64))
    (h : IsArray bitTranspose (unsigned 4) s vals) (j : Nat) (hj : j < s.count) :
    vals.getD j 0 = (if planeBit s.data j 0 then 1 else 0) + (if planeBit s.data j 1 then 2 else 0)
      + (if planeBit s.data j 2 then 4 else 0) + (if planeBit s.data j 3 then 8 else 0) := by
  obtain ⟨hc, hg⟩ := h
  have hj' : j < vals.length := by omega
  have hg := hg j hj'
  obtain ⟨r, e, hr⟩ := transUnpackFrom_bits [0, 1, 2, 3] s.data j 0
    (by intro p hp; simp only [List.mem_cons, List.not_mem_nil, or_false] at hp; unfold transByte; omega)
    (by intro p hp; simp only [List.mem_cons, List.not_mem_nil, or_false] at hp; omega)
  unfold BitSlice.get at hg
  rw [if_neg (by omega)] at hg
  simp only [bitTranspose, e, Option.map_some, unsigned, Option.some.injEq, Except.ok.injEq] at hg
  rw [getD_of_lt _ _ hj', ← hg]
  have hr' : ∀ b, r.getLsbD b = (decide (b ∈ [0, 1, 2, 3]) && planeBit s.data j b) := by
    intro b; rw [hr b]; simp [planeBit]
  have : r = (if planeBit s.data j 0 then 1#8 else 0) + (if planeBit s.data j 1 then 2#8 else 0)
      + (if planeBit s.data j 2 then 4#8 else 0) + (if planeBit s.data j 3 then 8#8 else 0) := by
    apply BitVec.eq_of_getLsbD_eq
    intro b hb
    rw [hr' b]
    generalize planeBit s.data j = f
    have key : ∀ (a0 a1 a2 a3 : Bool) (b : Fin 8), (decide (b.val ∈ [0, 1, 2, 3]) && (if b.val = 0 then a0 else
        if b.val = 1 then a1 else if b.val = 2 then a2 else a3))
        = ((if a0 then 1#8 else 0) + (if a1 then 2#8 else 0) + (if a2 then 4#8 else 0)
          + (if a3 then 8#8 else 0)).getLsbD b.val := by decide +kernel
    rw [← key (f 0) (f 1) (f 2) (f 3) ⟨b, hb⟩]
    by_cases hb4 : b < 4
    · interval_cases b <;> simp
    · have : ¬ b ∈ [0, 1, 2, 3] := by simp; omega
      simp [this]
  rw [this]
  generalize planeBit s.data j = f
  cases f 0 <;> cases f 1 <;> cases f 2 <;> cases f 3 <;> decide

/-! ## Sums -/

theorem zip_sum {α β M : Type} [AddCommMonoid M] (f : α × β → M) (d : α) (d' : β) (x : List α) (y : List β)
    (h : x.length = y.length) :
    ((x.zip y).map f).sum = ∑ j ∈ range x.length, f (x.getD j d, y.getD j d') := by
  induction x generalizing y with
  | nil => simp
  | cons a x ih =>
    cases y with
    | nil => simp at h
    | cons b y =>
      rw [List.zip_cons_cons, List.map_cons, List.sum_cons, ih y (by simpa using h), List.length_cons,
        Finset.sum_range_succ', add_comm]
      simp

theorem sum_ofInt (n : Nat) (f : Nat → Int) : ∑ j ∈ range n, BitVec.ofInt 32 (f j) = BitVec.ofInt 32 (∑ j ∈ range n, f j) := by
  induction n with
  | zero => simp
  | succ n ih => rw [Finset.sum_range_succ, Finset.sum_range_succ, ih, BitVec.ofInt_add]

theorem carries_ofInt (v : Int) : Carries (some (.ok (BitVec.ofInt 32 v))) v := by
  refine ⟨_, rfl, ?_⟩
  rw [BitVec.toNat_ofInt]
  have : 0 ≤ v % ((2 : Nat) ^ 32 : Nat) := Int.emod_nonneg _ (by decide)
  rw [Int.toNat_of_nonneg this]
  rfl

theorem setWidth_ofInt (a : Byte) : a.setWidth 32 = BitVec.ofInt 32 (a.toNat : Int) := by
  rw [BitVec.ofInt_natCast]
  apply BitVec.eq_of_toNat_eq
  simp

theorem sqTerm_ofInt (a b : Byte) :
    sqTerm a b = BitVec.ofInt 32 (((a.toNat : Int) - b.toNat) * ((a.toNat : Int) - b.toNat)) := by
  unfold sqTerm
  rw [BitVec.ofInt_mul, setWidth_ofInt, setWidth_ofInt]
  have : BitVec.ofInt 32 ((a.toNat : Int) - b.toNat) = BitVec.ofInt 32 (a.toNat : Int) - BitVec.ofInt 32 (b.toNat : Int) := by
    rw [sub_eq_add_neg, BitVec.ofInt_add, BitVec.ofInt_neg, sub_eq_add_neg]
  rw [this]

theorem ipTerm_ofInt (a b : Byte) : ipTerm a b = BitVec.ofInt 32 ((a.toNat : Int) * b.toNat) := by
  unfold ipTerm
  rw [BitVec.ofInt_mul, setWidth_ofInt, setWidth_ofInt]

/-- A kernel that sums `sqTerm` carries the squared distance. -/
theorem carries_sq {N M : Nat} (hN : 1 ≤ N ∧ N ≤ 8) (hM : 1 ≤ M ∧ M ≤ 8) {x y : BitSlice} {vx vy : List Int}
    (hx : Holds N x vx) (hy : Holds M y vy) (hc : x.count = y.count) {r : Option (Except LenError (BitVec 32))}
    (hr : r = some (.ok (∑ j ∈ range x.count, sqTerm (el N x.data j) (el M y.data j)))) :
    Carries r (sqDistZ vx vy) := by
  have hlx := hx.2.1
  have hly := hy.2.1
  have e : ∑ j ∈ range x.count, sqTerm (el N x.data j) (el M y.data j) = BitVec.ofInt 32 (sqDistZ vx vy) := by
    unfold sqDistZ
    rw [zip_sum _ 0 0 vx vy (by omega), ← sum_ofInt, ← hlx]
    refine Finset.sum_congr rfl (fun j hj => ?_)
    have hj := Finset.mem_range.mp hj
    rw [sqTerm_ofInt, dense_value hN.1 hN.2 hx j hj, dense_value hM.1 hM.2 hy j (by omega)]
  rw [hr, e]
  exact carries_ofInt _

theorem carries_ip {N M : Nat} (hN : 1 ≤ N ∧ N ≤ 8) (hM : 1 ≤ M ∧ M ≤ 8) {x y : BitSlice} {vx vy : List Int}
    (hx : Holds N x vx) (hy : Holds M y vy) (hc : x.count = y.count) {r : Option (Except LenError (BitVec 32))}
    (hr : r = some (.ok (∑ j ∈ range x.count, ipTerm (el N x.data j) (el M y.data j)))) :
    Carries r (dotZ vx vy) := by
  have hlx := hx.2.1
  have hly := hy.2.1
  have e : ∑ j ∈ range x.count, ipTerm (el N x.data j) (el M y.data j) = BitVec.ofInt 32 (dotZ vx vy) := by
    unfold dotZ
    rw [zip_sum _ 0 0 vx vy (by omega), ← sum_ofInt, ← hlx]
    refine Finset.sum_congr rfl (fun j hj => ?_)
    have hj := Finset.mem_range.mp hj
    rw [ipTerm_ofInt, dense_value hN.1 hN.2 hx j hj, dense_value hM.1 hM.2 hy j (by omega)]
  rw [hr, e]
  exact carries_ofInt _

theorem scalarKernel_eq {N M : Nat} (hN : 1 ≤ N ∧ N ≤ 8) (hM : 1 ≤ M ∧ M ≤ 8) (term : Byte → Byte → BitVec 32)
    (x y : BitSlice) (hc : x.count = y.count) (hx : x.data.length = (N * x.count + 7) / 8)
    (hy : y.data.length = (M * y.count + 7) / 8) :
    scalarKernel N M term x y = some (.ok (∑ j ∈ range x.count, term (el N x.data j) (el M y.data j))) := by
  unfold scalarKernel
  rw [if_neg (by simpa using hc), List.range_eq_range', elemSum_eq hN.1 hN.2 hM.1 hM.2]
  · simp
  · rw [Nat.zero_add]; omega
  · rw [Nat.zero_add, hc]; omega

theorem xor_sq {x y : BitSlice} (hx : x.data.length = (1 * x.count + 7) / 8) (hy : y.data.length = (1 * y.count + 7) / 8)
    (hc : x.count = y.count) :
    bitvectorOp xorOp x y = some (.ok (∑ j ∈ range x.count, sqTerm (el 1 x.data j) (el 1 y.data j))) := by
  rw [bitvectorOp_eq xor_ok x y hc (by omega) (by omega)]
  congr 2
  refine Finset.sum_congr rfl (fun j hj => ?_)
  have hj := Finset.mem_range.mp hj
  rw [sqTerm_ofInt, bit_el hx j hj, bit_el hy j (by omega)]
  cases bitAt x.data j <;> cases bitAt y.data j <;> rfl

theorem and_ip {x y : BitSlice} (hx : x.data.length = (1 * x.count + 7) / 8) (hy : y.data.length = (1 * y.count + 7) / 8)
    (hc : x.count = y.count) :
    bitvectorOp andOp x y = some (.ok (∑ j ∈ range x.count, ipTerm (el 1 x.data j) (el 1 y.data j))) := by
  rw [bitvectorOp_eq and_ok x y hc (by omega) (by omega)]
  congr 2
  refine Finset.sum_congr rfl (fun j hj => ?_)
  have hj := Finset.mem_range.mp hj
  rw [ipTerm_ofInt, bit_el hx j hj, bit_el hy j (by omega)]
  cases bitAt x.data j <;> cases bitAt y.data j <;> rfl

theorem packedV3 {k : PackedKernel} (h : PackedOk k) {x y : BitSlice} (hc : x.count = y.count)
    (hx : x.data.length = (k.bits * x.count + 7) / 8) (hy : y.data.length = (k.bits * y.count + 7) / 8) :
    k.runV3 x y = some (.ok (∑ j ∈ range x.count, k.term (el k.bits x.data j) (el k.bits y.data j))) := by
  rw [runV3_eq h x y hc hx hy]; simp [partSum]

theorem packedV4 {k : PackedKernel} (h : PackedOk k) {x y : BitSlice} (hc : x.count = y.count)
    (hx : x.data.length = (k.bits * x.count + 7) / 8) (hy : y.data.length = (k.bits * y.count + 7) / 8) (m : Nat)
    (hm : 8 / k.bits - 1 ≤ m) :
    k.runV4 (8 / k.bits) m x y = some (.ok (∑ j ∈ range x.count, k.term (el k.bits x.data j) (el k.bits y.data j))) := by
  rw [runV4_eq h x y hc hx hy m hm]; simp [partSum]

/-! ## The properties -/

/-- Squared distance, widths 1 to 7, on every architecture: the result is the squared Euclidean distance of the two
vectors the slices hold, reduced to 32 bits, and no byte outside the slices is read. -/
theorem C75_squared_l2 (a : Arch) (N : Nat) (h1 : 1 ≤ N) (h7 : N ≤ 7) : ∃ k, l2Kernel a N = some k ∧
    ∀ (x y : BitSlice) (vx vy : List Int), Holds N x vx → Holds N y vy → vx.length = vy.length →
      Carries (k x y) (sqDistZ vx vy) := by
  have go : ∀ k : IntKernel, (∀ x y : BitSlice, x.count = y.count → x.data.length = (N * x.count + 7) / 8 →
      y.data.length = (N * y.count + 7) / 8 →
      k x y = some (.ok (∑ j ∈ range x.count, sqTerm (el N x.data j) (el N y.data j)))) →
      ∀ (x y : BitSlice) (vx vy : List Int), Holds N x vx → Holds N y vy → vx.length = vy.length →
      Carries (k x y) (sqDistZ vx vy) := by
    intro k hk x y vx vy hx hy hl
    have hc : x.count = y.count := by rw [hx.2.1, hy.2.1, hl]
    exact carries_sq (by omega) (by omega) hx hy hc (hk x y hc hx.1 hy.1)
  have sc : ∀ M, M = N → ∀ x y : BitSlice, x.count = y.count → x.data.length = (N * x.count + 7) / 8 →
      y.data.length = (N * y.count + 7) / 8 →
      scalarKernel M M sqTerm x y = some (.ok (∑ j ∈ range x.count, sqTerm (el N x.data j) (el N y.data j))) := by
    rintro M rfl x y hc hx hy
    exact scalarKernel_eq (by omega) (by omega) sqTerm x y hc hx hy
  interval_cases N
  · exact ⟨_, by cases a <;> rfl, go _ (fun x y hc hx hy => xor_sq hx hy hc)⟩
  · cases a
    · exact ⟨_, rfl, go _ (sc 2 rfl)⟩
    · exact ⟨_, rfl, go _ (fun x y hc hx hy => packedV3 l2x2v3_ok hc hx hy)⟩
    · exact ⟨_, rfl, go _ (fun x y hc hx hy => packedV3 l2x2v3_ok hc hx hy)⟩
    · exact ⟨_, rfl, go _ (sc 2 rfl)⟩
  · exact ⟨_, by cases a <;> rfl, go _ (sc 3 rfl)⟩
  · cases a
    · exact ⟨_, rfl, go _ (sc 4 rfl)⟩
    · exact ⟨_, rfl, go _ (fun x y hc hx hy => packedV3 l2x4v3_ok hc hx hy)⟩
    · exact ⟨_, rfl, go _ (fun x y hc hx hy => packedV4 l2x4v4_ok hc hx hy 1 (by decide))⟩
    · exact ⟨_, rfl, go _ (sc 4 rfl)⟩
  · exact ⟨_, by cases a <;> rfl, go _ (sc 5 rfl)⟩
  · exact ⟨_, by cases a <;> rfl, go _ (sc 6 rfl)⟩
  · exact ⟨_, by cases a <;> rfl, go _ (sc 7 rfl)⟩

/-- Inner product, both slices of width 1 to 7, or eight bits against four, two or one, on every architecture. -/
theorem C75_inner_product (a : Arch) (N M : Nat)
    (h : 1 ≤ N ∧ N ≤ 7 ∧ M = N ∨ N = 8 ∧ (M = 4 ∨ M = 2 ∨ M = 1)) : ∃ k, ipKernel a N M = some k ∧
    ∀ (x y : BitSlice) (vx vy : List Int), Holds N x vx → Holds M y vy → vx.length = vy.length →
      Carries (k x y) (dotZ vx vy) := by
  have go : ∀ k : IntKernel, (∀ x y : BitSlice, x.count = y.count → x.data.length = (N * x.count + 7) / 8 →
      y.data.length = (M * y.count + 7) / 8 →
      k x y = some (.ok (∑ j ∈ range x.count, ipTerm (el N x.data j) (el M y.data j)))) →
      ∀ (x y : BitSlice) (vx vy : List Int), Holds N x vx → Holds M y vy → vx.length = vy.length →
      Carries (k x y) (dotZ vx vy) := by
    intro k hk x y vx vy hx hy hl
    have hc : x.count = y.count := by rw [hx.2.1, hy.2.1, hl]
    exact carries_ip (by omega) (by omega) hx hy hc (hk x y hc hx.1 hy.1)
  have sc : ∀ N' M', N' = N → M' = M → ∀ x y : BitSlice, x.count = y.count → x.data.length = (N * x.count + 7) / 8 →
      y.data.length = (M * y.count + 7) / 8 →
      scalarKernel N' M' ipTerm x y = some (.ok (∑ j ∈ range x.count, ipTerm (el N x.data j) (el M y.data j))) := by
    rintro N' M' rfl rfl x y hc hx hy
    exact scalarKernel_eq (by omega) (by omega) ipTerm x y hc hx hy
  rcases h with ⟨h1, h7, rfl⟩ | ⟨rfl, rfl | rfl | rfl⟩
  · interval_cases M
    · exact ⟨_, by cases a <;> rfl, go _ (fun x y hc hx hy => and_ip hx hy hc)⟩
    · cases a
      · exact ⟨_, rfl, go _ (sc 2 2 rfl rfl)⟩
      · exact ⟨_, rfl, go _ (fun x y hc hx hy => packedV3 ipx2v3_ok hc hx hy)⟩
      · exact ⟨_, rfl, go _ (fun x y hc hx hy => packedV4 ipx2v4_ok hc hx hy 3 (by decide))⟩
      · exact ⟨_, rfl, go _ (sc 2 2 rfl rfl)⟩
    · exact ⟨_, by cases a <;> rfl, go _ (sc 3 3 rfl rfl)⟩
    · cases a
      · exact ⟨_, rfl, go _ (sc 4 4 rfl rfl)⟩
      · exact ⟨_, rfl, go _ (fun x y hc hx hy => packedV3 ipx4v3_ok hc hx hy)⟩
      · exact ⟨_, rfl, go _ (fun x y hc hx hy => packedV4 ipx4v4_ok hc hx hy 1 (by decide))⟩
      · exact ⟨_, rfl, go _ (sc 4 4 rfl rfl)⟩
    · exact ⟨_, by cases a <;> rfl, go _ (sc 5 5 rfl rfl)⟩
    · exact ⟨_, by cases a <;> rfl, go _ (sc 6 6 rfl rfl)⟩
    · exact ⟨_, by cases a <;> rfl, go _ (sc 7 7 rfl rfl)⟩
  · cases a
    · exact ⟨_, rfl, go _ (sc 8 4 rfl rfl)⟩
    · exact ⟨_, rfl, go _ (fun x y hc hx hy => hetRun_eq het4_ok x y hc (by omega) hy)⟩
    · exact ⟨_, rfl, go _ (fun x y hc hx hy => hetRun_eq het4_ok x y hc (by omega) hy)⟩
    · exact ⟨_, rfl, go _ (sc 8 4 rfl rfl)⟩
  · cases a
    · exact ⟨_, rfl, go _ (sc 8 2 rfl rfl)⟩
    · exact ⟨_, rfl, go _ (fun x y hc hx hy => hetRun_eq het2_ok x y hc (by omega) hy)⟩
    · exact ⟨_, rfl, go _ (fun x y hc hx hy => hetRun_eq het2_ok x y hc (by omega) hy)⟩
    · exact ⟨_, rfl, go _ (sc 8 2 rfl rfl)⟩
  · cases a
    · exact ⟨_, rfl, go _ (sc 8 1 rfl rfl)⟩
    · exact ⟨_, rfl, go _ (fun x y hc hx hy => hetRun_eq het1_ok x y hc (by omega) hy)⟩
    · exact ⟨_, rfl, go _ (fun x y hc hx hy => hetRun_eq het1_ok x y hc (by omega) hy)⟩
    · exact ⟨_, rfl, go _ (sc 8 1 rfl rfl)⟩

/-- A result below `2 ^ 32` is exact: the wrap-around never shows for vectors short enough. -/
theorem C75_exact_when_it_fits {r : Option (Except LenError (BitVec 32))} {v : Int} (h : Carries r v) (h0 : 0 ≤ v)
    (hv : v < 2 ^ 32) : ∃ w, r = some (.ok w) ∧ (w.toNat : Int) = v := by
  obtain ⟨w, e, hw⟩ := h
  exact ⟨w, e, by rw [hw]; exact Int.emod_eq_of_lt h0 hv⟩

/-- All architectures agree, bit for bit. -/
theorem C75_architectures_agree (a b : Arch) (N : Nat) (h1 : 1 ≤ N) (h7 : N ≤ 7) (x y : BitSlice) (vx vy : List Int)
    (hx : Holds N x vx) (hy : Holds N y vy) (hl : vx.length = vy.length) :
    (l2Kernel a N).map (· x y) = (l2Kernel b N).map (· x y) ∧
    (ipKernel a N N).map (· x y) = (ipKernel b N N).map (· x y) := by
  have uniq : ∀ {r r' : Option (Except LenError (BitVec 32))} {v : Int}, Carries r v → Carries r' v → r = r' := by
    rintro r r' v ⟨w, rfl, h⟩ ⟨w', rfl, h'⟩
    have : w = w' := BitVec.eq_of_toNat_eq (by have := h.trans h'.symm; exact_mod_cast this)
    rw [this]
  obtain ⟨k, e, hk⟩ := C75_squared_l2 a N h1 h7
  obtain ⟨k', e', hk'⟩ := C75_squared_l2 b N h1 h7
  obtain ⟨j, f, hj⟩ := C75_inner_product a N N (Or.inl ⟨h1, h7, rfl⟩)
  obtain ⟨j', f', hj'⟩ := C75_inner_product b N N (Or.inl ⟨h1, h7, rfl⟩)
  rw [e, e', f, f']
  exact ⟨congrArg some (uniq (hk x y vx vy hx hy hl) (hk' x y vx vy hx hy hl)),
    congrArg some (uniq (hj x y vx vy hx hy hl) (hj' x y vx vy hx hy hl))⟩

theorem binary_value {s : BitSlice} {vals : List Int} (hl : s.data.length = (s.count + 7) / 8)
    (h : IsArray (dense 1) binary s vals) (j : Nat) (hj : j < s.count) :
    vals.getD j 0 = if bitAt s.data j then 1 else -1 := by
  obtain ⟨hc, hg⟩ := h
  have hj' : j < vals.length := by omega
  have hg := hg j hj'
  have hb : 1 * j + 1 ≤ 8 * s.data.length := by omega
  unfold BitSlice.get at hg
  rw [if_neg (by omega)] at hg
  simp only [dense, denseUnpack_el (N := 1) (by omega) (by omega) s.data j hb, Option.map_some, binary,
    Option.some.injEq, Except.ok.injEq, bit_el (s := s) (by omega) j hj] at hg
  rw [getD_of_lt _ _ hj', ← hg]
  cases bitAt s.data j <;> rfl

/-- Hamming distance of two slices of `-1`/`+1` values. -/
theorem C75_hamming (x y : BitSlice) (vx vy : List Int) (hx : x.data.length = (x.count + 7) / 8)
    (hy : y.data.length = (y.count + 7) / 8) (ax : IsArray (dense 1) binary x vx) (ay : IsArray (dense 1) binary y vy)
    (hl : vx.length = vy.length) : Carries (bitvectorOp xorOp x y) (hammingZ vx vy) := by
  have hlx := ax.1
  have hly := ay.1
  have hc : x.count = y.count := by omega
  rw [bitvectorOp_eq xor_ok x y hc hx hy]
  have e1 : hammingZ vx vy = ∑ j ∈ range x.count, if vx.getD j 0 ≠ vy.getD j 0 then 1 else 0 := by
    unfold hammingZ
    have : ∀ l : List (Int × Int), ((l.filter (fun p => p.1 ≠ p.2)).length : Int)
        = (l.map (fun p => if p.1 ≠ p.2 then 1 else 0)).sum := by
      intro l
      induction l with
      | nil => rfl
      | cons a l ih =>
        rw [List.map_cons, List.sum_cons, ← ih, List.filter_cons]
        by_cases ha : a.1 = a.2
        · simp [ha]
        · simp [ha]; omega
    rw [this, zip_sum _ 0 0 vx vy hl, hlx]
  have e2 : ∑ j ∈ range x.count, (if (bitAt x.data j ^^ bitAt y.data j) then 1 else 0 : BitVec 32)
      = BitVec.ofInt 32 (hammingZ vx vy) := by
    rw [e1, ← sum_ofInt]
    refine Finset.sum_congr rfl (fun j hj => ?_)
    have hj := Finset.mem_range.mp hj
    rw [binary_value hx ax j hj, binary_value hy ay j (by omega)]
    cases bitAt x.data j <;> cases bitAt y.data j <;> decide
  rw [e2]
  exact carries_ofInt _

/-- Inner product of four bit-transposed bits against one bit. -/
theorem C75_transposed (x y : BitSlice) (vx vy : List Int) (hx : x.data.length = 32 * ((x.count + 63) / 64))
    (ax : IsArray bitTranspose (unsigned 4) x vx) (hy : Holds 1 y vy) (hl : vx.length = vy.length) :
    Carries (transKernel x y) (dotZ vx vy) := by
  have hlx := ax.1
  have hly := hy.2.1
  have hc : x.count = y.count := by omega
  rw [transKernel_eq x y hc hx (by have := hy.1; omega)]
  have e : ∑ j ∈ range x.count, transTerm x.data y.data j = BitVec.ofInt 32 (dotZ vx vy) := by
    unfold dotZ
    rw [zip_sum _ 0 0 vx vy hl, ← sum_ofInt, ← hlx]
    refine Finset.sum_congr rfl (fun j hj => ?_)
    have hj := Finset.mem_range.mp hj
    rw [trans_value hx ax j hj, dense_value (by omega) (by omega) hy j (by omega), bit_el hy.1 j (by omega)]
    unfold transTerm
    generalize planeBit x.data j = f
    cases bitAt y.data j <;> cases f 0 <;> cases f 1 <;> cases f 2 <;> cases f 3 <;> decide
  rw [e]
  exact carries_ofInt _

/-- Inner product of a float vector against every width, on every architecture (exact arithmetic on the floats). -/
theorem C75_full_precision (a : Arch) (N : Nat) (h1 : 1 ≤ N) (h8 : N ≤ 8) : ∃ k, fullKernel a N = some k ∧
    ∀ (x : List Rat) (y : BitSlice) (vy : List Int), Holds N y vy → x.length = vy.length →
      k x y = some (.ok (dotQ x vy)) := by
  have go : ∀ k : List Rat → BitSlice → Option (Except LenError Rat), (∀ (x : List Rat) (y : BitSlice),
      x.length = y.count → y.data.length = (N * y.count + 7) / 8 →
      k x y = some (.ok (∑ j ∈ range x.length, fullTerm N x y.data j))) →
      ∀ (x : List Rat) (y : BitSlice) (vy : List Int), Holds N y vy → x.length = vy.length →
      k x y = some (.ok (dotQ x vy)) := by
    intro k hk x y vy hy hl
    have hc : x.length = y.count := by rw [hy.2.1, hl]
    rw [hk x y hc hy.1]
    congr 2
    unfold dotQ
    rw [zip_sum _ 0 0 x vy hl]
    refine Finset.sum_congr rfl (fun j hj => ?_)
    have hj := Finset.mem_range.mp hj
    rw [dense_value h1 h8 hy j (by omega)]
    simp [fullTerm]
  have sc : ∀ M, M = N → ∀ (x : List Rat) (y : BitSlice), x.length = y.count → y.data.length = (N * y.count + 7) / 8 →
      fullScalar M x y = some (.ok (∑ j ∈ range x.length, fullTerm N x y.data j)) := by
    rintro M rfl x y hc hy
    exact fullScalar_eq h1 h8 x y hc hy
  interval_cases N
  · cases a
    · exact ⟨_, rfl, go _ (sc 1 rfl)⟩
    · exact ⟨_, rfl, go _ (fun x y hc hy => fullRun_eq full1_ok x y hc hy)⟩
    · exact ⟨_, rfl, go _ (fun x y hc hy => fullRun_eq full1_ok x y hc hy)⟩
    · exact ⟨_, rfl, go _ (sc 1 rfl)⟩
  · cases a
    · exact ⟨_, rfl, go _ (sc 2 rfl)⟩
    · exact ⟨_, rfl, go _ (fun x y hc hy => fullRun_eq full2_ok x y hc hy)⟩
    · exact ⟨_, rfl, go _ (fun x y hc hy => fullRun_eq full2_ok x y hc hy)⟩
    · exact ⟨_, rfl, go _ (sc 2 rfl)⟩
  · exact ⟨_, by cases a <;> rfl, go _ (sc 3 rfl)⟩
  · cases a
    · exact ⟨_, rfl, go _ (sc 4 rfl)⟩
    · exact ⟨_, rfl, go _ (fun x y hc hy => fullRun_eq full4_ok x y hc hy)⟩
    · exact ⟨_, rfl, go _ (fun x y hc hy => fullRun_eq full4_ok x y hc hy)⟩
    · exact ⟨_, rfl, go _ (sc 4 rfl)⟩
  · exact ⟨_, by cases a <;> rfl, go _ (sc 5 rfl)⟩
  · exact ⟨_, by cases a <;> rfl, go _ (sc 6 rfl)⟩
  · exact ⟨_, by cases a <;> rfl, go _ (sc 7 rfl)⟩
  · exact ⟨_, by cases a <;> rfl, go _ (sc 8 rfl)⟩

/-- Slices of different lengths are refused, by every kernel of every architecture. -/
theorem C75_unequal_lengths (a : Arch) (N M : Nat) (x y : BitSlice) (h : x.count ≠ y.count) :
    (∀ k, l2Kernel a N = some k → k x y = some (.error .unequal)) ∧
    (∀ k, ipKernel a N M = some k → k x y = some (.error .unequal)) ∧
    transKernel x y = some (.error .unequal) ∧ bitvectorOp xorOp x y = some (.error .unequal) ∧
    (∀ k (v : List Rat), fullKernel a N = some k → v.length ≠ y.count → k v y = some (.error .unequal)) := by
  have hb : ∀ op : {w : Nat} → BitVec w → BitVec w → BitVec 32, bitvectorOp op x y = some (.error .unequal) := by
    intro op; unfold bitvectorOp; rw [if_pos h]
  have hs : ∀ N M t, scalarKernel N M t x y = some (.error .unequal) := by
    intro N M t; unfold scalarKernel; rw [if_pos h]
  have h3 : ∀ k : PackedKernel, k.runV3 x y = some (.error .unequal) := by
    intro k; unfold PackedKernel.runV3; rw [if_pos h]
  have h4 : ∀ (k : PackedKernel) p m, k.runV4 p m x y = some (.error .unequal) := by
    intro k p m; unfold PackedKernel.runV4; rw [if_pos h]
  have hh : ∀ k : HetKernel, k.run x y = some (.error .unequal) := by
    intro k; unfold HetKernel.run; rw [if_pos h]
  have h8 : ∀ t, byteKernel t x y = some (.error .unequal) := by
    intro t; unfold byteKernel; rw [if_pos h]
  refine ⟨?_, ?_, ?_, hb _, ?_⟩
  · intro k e
    unfold l2Kernel at e
    split at e
    · cases e; exact hb _
    · cases e; exact h3 _
    · cases e; exact h3 _
    · cases e; exact h3 _
    · cases e; exact h4 _ _ _
    · cases e; exact h8 _
    · split at e
      · cases e; exact hs _ _ _
      · cases e
  · intro k e
    unfold ipKernel at e
    split at e
    · cases e; exact hb _
    · cases e; exact h3 _
    · cases e; exact h4 _ _ _
    · cases e; exact h3 _
    · cases e; exact h4 _ _ _
    · cases e; exact h8 _
    · cases e; exact hh _
    · cases e; exact hh _
    · cases e; exact hh _
    · cases e; exact hh _
    · cases e; exact hh _
    · cases e; exact hh _
    · split at e
      · cases e; exact hs _ _ _
      · cases e
  · unfold transKernel; rw [if_pos h]
  · intro k v e hv
    have hf : ∀ k : FullKernel, k.run v y = some (.error .unequal) := by
      intro k; unfold FullKernel.run; rw [if_pos hv]
    have hsc : ∀ N, fullScalar N v y = some (.error .unequal) := by
      intro N; unfold fullScalar; rw [if_pos hv]
    unfold fullKernel at e
    split at e
    · cases e; exact hf _
    · cases e; exact hf _
    · cases e; exact hf _
    · cases e; exact hf _
    · cases e; exact hf _
    · cases e; exact hf _
    · split at e
      · cases e; exact hsc _
      · cases e

/-! ## Eight bits -/

theorem roundEven_close (n q : Nat) (hq : 0 < q) : 2 * roundEven n q ≤ 2 * n + q ∧ 2 * n ≤ 2 * roundEven n q + q := by
  have hd := Nat.div_add_mod n q
  have hm := Nat.mod_lt n hq
  rw [Nat.mul_comm] at hd
  unfold roundEven
  dsimp only
  have hs : (n / q + 1) * q = n / q * q + q := by ring
  repeat' split
  all_goals omega

theorem toF32_close (n : Nat) (hn : n < 2 ^ 31) :
    2 ^ 24 * toF32 n ≤ 2 ^ 24 * n + n ∧ 2 ^ 24 * n ≤ 2 ^ 24 * toF32 n + n := by
  unfold toF32
  split
  · omega
  · rename_i h
    have h24 : 24 ≤ Nat.log2 n := (Nat.le_log2 (by omega)).mpr (by omega)
    have hl : 2 ^ Nat.log2 n ≤ n := Nat.log2_self_le (by omega)
    obtain ⟨c1, c2⟩ := roundEven_close n (2 ^ (Nat.log2 n - 23)) (Nat.pow_pos (by omega))
    have e : 2 ^ Nat.log2 n = 2 ^ (Nat.log2 n - 23) * 2 ^ 23 := by rw [← Nat.pow_add]; congr 1; omega
    generalize 2 ^ (Nat.log2 n - 23) = q at *
    omega

theorem throughF32_spec (v : Int) (h0 : 0 ≤ v) (hv : v < 2 ^ 31) :
    ((throughF32 (BitVec.ofInt 32 v)).toNat : Int) = toF32 v.toNat := by
  obtain ⟨n, rfl⟩ : ∃ n : Nat, v = n := ⟨v.toNat, by omega⟩
  have hn : n < 2 ^ 31 := by exact_mod_cast hv
  have e : (BitVec.ofInt 32 (n : Int)).toInt = n := by
    rw [BitVec.toInt_ofInt]; exact Int.bmod_eq_of_le (by omega) (by omega)
  unfold throughF32
  rw [e, if_neg (by omega), Int.toNat_natCast, BitVec.toNat_ofNat]
  have := (toF32_close n hn).1
  rw [Nat.mod_eq_of_lt (by omega)]

theorem throughF32_exact (v : Int) (h0 : 0 ≤ v) (hv : v < 2 ^ 24) : ((throughF32 (BitVec.ofInt 32 v)).toNat : Int) = v := by
  rw [throughF32_spec v h0 (by omega)]
  unfold toF32
  rw [if_pos (by omega)]
  omega

theorem throughF32_close (v : Int) (h0 : 0 ≤ v) (hv : v < 2 ^ 31) :
    2 ^ 24 * |((throughF32 (BitVec.ofInt 32 v)).toNat : Int) - v| ≤ v := by
  rw [throughF32_spec v h0 hv]
  obtain ⟨c1, c2⟩ := toF32_close v.toNat (by omega)
  generalize toF32 v.toNat = t at *
  rcases abs_cases ((t : Int) - v) with ⟨e, -⟩ | ⟨e, -⟩ <;> rw [e] <;> omega

/-- A sum that fits in 32 bits but not in 31 is read as a negative number and reported as 0. -/
theorem throughF32_overflow (v : Int) (h0 : 2 ^ 31 ≤ v) (hv : v < 2 ^ 32) : throughF32 (BitVec.ofInt 32 v) = 0 := by
  have e : (BitVec.ofInt 32 v).toInt = v - 2 ^ 32 := by
    rw [BitVec.toInt_ofInt, ← Int.sub_bmod_right]
    exact Int.bmod_eq_of_le (by omega) (by omega)
  unfold throughF32
  rw [e, if_pos (by omega)]

theorem bytes_values {x : BitSlice} {vx : List Int} (h : Holds 8 x vx) (j : Nat) (hj : j < x.count) :
    vx.getD j 0 = ((x.data.getD j 0).toNat : Int) := by
  rw [dense_value (by omega) (by omega) h j hj]
  have hl : x.data.length = x.count := by have := h.1; omega
  have : el 8 x.data j = x.data.getD j 0 := by
    apply BitVec.eq_of_getLsbD_eq
    intro b hb
    rw [el_bit (by omega) (by omega) x.data j (by omega)]
    simp only [hb, decide_true, Bool.true_and, bitAt]
    rw [show (8 * j + b) / 8 = j by omega, show (8 * j + b) % 8 = b by omega]
  rw [this]

theorem byteKernel_eq {term : Byte → Byte → BitVec 32} {f : Int → Int → Int}
    (ht : ∀ a b : Byte, term a b = BitVec.ofInt 32 (f a.toNat b.toNat)) {x y : BitSlice} {vx vy : List Int}
    (hx : Holds 8 x vx) (hy : Holds 8 y vy) (hl : vx.length = vy.length) :
    byteKernel term x y = some (.ok (throughF32 (BitVec.ofInt 32
      (((vx.zip vy).map (fun (p : Int × Int) => f p.1 p.2)).sum)))) := by
  have hlx := hx.2.1
  have hly := hy.2.1
  have dx : x.data.length = x.count := by have := hx.1; omega
  have dy : y.data.length = y.count := by have := hy.1; omega
  unfold byteKernel
  rw [if_neg (by simp; omega)]
  congr 3
  rw [zip_sum _ 0 0 x.data y.data (by omega), zip_sum _ 0 0 vx vy hl, ← sum_ofInt, dx, hlx]
  refine Finset.sum_congr rfl (fun j hj => ?_)
  have hj := Finset.mem_range.mp hj
  rw [ht, bytes_values hx j (by omega), bytes_values hy j (by omega)]

/-- Eight bits against eight bits: exact below `2 ^ 24`, and within one part in `2 ^ 24` below `2 ^ 31`.
Missing: from `2 ^ 24` on the result may differ from the distance (`C75_eight_bit_inexact`), and between `2 ^ 31` and
`2 ^ 32`, where the distance still fits the result type, it is 0 (`C75_eight_bit_zero`). -/
theorem C75_eight_bit_partial (a : Arch) : ∃ k j, l2Kernel a 8 = some k ∧ ipKernel a 8 8 = some j ∧
    ∀ (x y : BitSlice) (vx vy : List Int), Holds 8 x vx → Holds 8 y vy → vx.length = vy.length →
      ∃ w u, k x y = some (.ok w) ∧ j x y = some (.ok u) ∧
        (sqDistZ vx vy < 2 ^ 24 → (w.toNat : Int) = sqDistZ vx vy) ∧
        (dotZ vx vy < 2 ^ 24 → (u.toNat : Int) = dotZ vx vy) ∧
        (sqDistZ vx vy < 2 ^ 31 → 2 ^ 24 * |(w.toNat : Int) - sqDistZ vx vy| ≤ sqDistZ vx vy) ∧
        (dotZ vx vy < 2 ^ 31 → 2 ^ 24 * |(u.toNat : Int) - dotZ vx vy| ≤ dotZ vx vy) := by
  refine ⟨byteKernel sqTerm, byteKernel ipTerm, by cases a <;> rfl, by cases a <;> rfl, ?_⟩
  intro x y vx vy hx hy hl
  have hlx := hx.2.1
  have hly := hy.2.1
  have s0 : 0 ≤ sqDistZ vx vy := by
    unfold sqDistZ
    rw [zip_sum _ 0 0 vx vy hl]
    exact Finset.sum_nonneg (fun j hj => mul_self_nonneg _)
  have d0 : 0 ≤ dotZ vx vy := by
    unfold dotZ
    rw [zip_sum _ 0 0 vx vy hl]
    refine Finset.sum_nonneg (fun j hj => ?_)
    have hj := Finset.mem_range.mp hj
    rw [bytes_values hx j (by omega), bytes_values hy j (by omega)]
    exact mul_nonneg (Int.natCast_nonneg _) (Int.natCast_nonneg _)
  have e1 : byteKernel sqTerm x y = some (.ok (throughF32 (BitVec.ofInt 32 (sqDistZ vx vy)))) :=
    byteKernel_eq (f := fun a b => (a - b) * (a - b)) sqTerm_ofInt hx hy hl
  have e2 : byteKernel ipTerm x y = some (.ok (throughF32 (BitVec.ofInt 32 (dotZ vx vy)))) :=
    byteKernel_eq (f := fun a b => a * b) ipTerm_ofInt hx hy hl
  have r : ∀ {o : Option (Except LenError (BitVec 32))} {v : Int}, 0 ≤ v →
      o = some (.ok (throughF32 (BitVec.ofInt 32 v))) → ∃ w, o = some (.ok w) ∧ (v < 2 ^ 24 → (w.toNat : Int) = v) ∧
      (v < 2 ^ 31 → 2 ^ 24 * |(w.toNat : Int) - v| ≤ v) :=
    fun h0 e => ⟨_, e, throughF32_exact _ h0, throughF32_close _ h0⟩
  obtain ⟨w, w1, w2, w3⟩ := r s0 e1
  obtain ⟨u, u1, u2, u3⟩ := r d0 e2
  exact ⟨w, u, w1, u1, w2, u2, w3, u3⟩

/-- Between `2 ^ 31` and `2 ^ 32` the eight-bit inner product is reported as 0. -/
theorem C75_eight_bit_zero (a : Arch) (x y : BitSlice) (vx vy : List Int) (hx : Holds 8 x vx) (hy : Holds 8 y vy)
    (hl : vx.length = vy.length) (h0 : 2 ^ 31 ≤ dotZ vx vy) (h1 : dotZ vx vy < 2 ^ 32) :
    ∃ j, ipKernel a 8 8 = some j ∧ j x y = some (.ok 0) := by
  refine ⟨byteKernel ipTerm, by cases a <;> rfl, ?_⟩
  rw [byteKernel_eq (f := fun a b => a * b) ipTerm_ofInt hx hy hl]
  have := throughF32_overflow (dotZ vx vy) h0 h1
  unfold dotZ at this
  rw [this]

theorem holds_bytes (bs : List Byte) : Holds 8 ⟨bs, bs.length⟩ (bs.map (fun (b : Byte) => (b.toNat : Int))) := by
  refine ⟨by simp; omega, by simp, ?_⟩
  intro i hi
  rw [List.length_map] at hi
  unfold BitSlice.get
  rw [if_neg (by simp only; omega)]
  have he : denseUnpack 8 bs i = some (el 8 bs i) := denseUnpack_el (by omega) (by omega) bs i (by omega)
  have : el 8 bs i = bs[i] := by
    apply BitVec.eq_of_getLsbD_eq
    intro b hb
    rw [el_bit (by omega) (by omega) bs i (by omega)]
    simp only [hb, decide_true, Bool.true_and, bitAt]
    rw [show (8 * i + b) / 8 = i by omega, show (8 * i + b) % 8 = b by omega, getD_of_lt _ _ hi]
  simp only [dense, he, Option.map_some, unsigned, List.getElem_map, this]

/-- 262 bytes whose squared norm is `2 ^ 24 + 1`. -/
def inexactBytes : List Byte := List.replicate 258 255 ++ [27, 6, 1, 1]

/-- The squared distance of these bytes to zero is reported as `2 ^ 24`. -/
theorem C75_eight_bit_inexact : ∃ (x y : BitSlice) (vx vy : List Int), Holds 8 x vx ∧ Holds 8 y vy ∧
    vx.length = vy.length ∧ sqDistZ vx vy = 2 ^ 24 + 1 ∧
    ∀ a, ∃ k w, l2Kernel a 8 = some k ∧ k x y = some (.ok w) ∧ w.toNat = 2 ^ 24 := by
  refine ⟨⟨inexactBytes, inexactBytes.length⟩, ⟨List.replicate 262 0, (List.replicate 262 (0 : Byte)).length⟩, _, _,
    holds_bytes inexactBytes, holds_bytes (List.replicate 262 0), by decide +kernel, by decide +kernel, ?_⟩
  intro a
  have e : byteKernel sqTerm ⟨inexactBytes, inexactBytes.length⟩
      ⟨List.replicate 262 0, (List.replicate 262 (0 : Byte)).length⟩ = some (.ok 16777216#32) := by decide +kernel
  exact ⟨byteKernel sqTerm, 16777216#32, by cases a <;> rfl, e, by decide⟩

/-! ## Concrete cases -/

/-- 33026 bytes of value 255 on both sides: the inner product is between `2 ^ 31` and `2 ^ 32`. -/
example : ∃ (x y : BitSlice) (vx vy : List Int), Holds 8 x vx ∧ Holds 8 y vy ∧ vx.length = vy.length ∧
    2 ^ 31 ≤ dotZ vx vy ∧ dotZ vx vy < 2 ^ 32 := by
  refine ⟨_, _, _, _, holds_bytes (List.replicate 33026 255), holds_bytes (List.replicate 33026 255), rfl, ?_⟩
  have e : dotZ ((List.replicate 33026 (255 : Byte)).map (fun (b : Byte) => (b.toNat : Int)))
      ((List.replicate 33026 (255 : Byte)).map (fun (b : Byte) => (b.toNat : Int))) = 33026 * 65025 := by
    unfold dotZ
    rw [List.map_replicate, List.zip_replicate', List.map_replicate, List.sum_replicate]
    decide
  rw [e]
  decide

/-- Nine elements of four bits: one full word and a tail, on AVX2. -/
example : l2x4v3.runV3 ⟨[0x21#8, 0x43#8, 0x65#8, 0x87#8, 0x09#8], 9⟩ ⟨[0#8, 0#8, 0#8, 0#8, 0#8], 9⟩
    = some (.ok 285#32) := by decide +kernel

example : Holds 4 ⟨[0x21#8, 0x43#8, 0x65#8, 0x87#8, 0x09#8], 9⟩ [1, 2, 3, 4, 5, 6, 7, 8, 9] := by
  refine ⟨by decide, by decide, ?_⟩
  decide +kernel

/-- The same on AVX-512. -/
example : l2x4v4.runV4 2 1 ⟨[0x21#8, 0x43#8, 0x65#8, 0x87#8, 0x09#8], 9⟩ ⟨[0#8, 0#8, 0#8, 0#8, 0#8], 9⟩
    = some (.ok 285#32) := by decide +kernel

/-- Seventeen elements of two bits with VNNI. -/
example : ipx2v4.runV4 4 3 ⟨List.replicate 5 0xff#8, 17⟩ ⟨List.replicate 5 0xff#8, 17⟩ = some (.ok 153#32) := by
  decide +kernel

/-- 33 elements of eight bits against four bits. -/
example : het4.run ⟨List.replicate 33 255#8, 33⟩ ⟨List.replicate 17 0xff#8, 33⟩ = some (.ok 126225#32) := by
  decide +kernel

/-- A float vector against ten elements of one bit. -/
example : full1.run [1, 2, 3, 4, 5, 6, 7, 8, 9, 10] ⟨[0x81#8, 0x02#8], 10⟩ = some (.ok 19) := by decide +kernel

/-- Seventy elements: one full group and a tail of the transposed kernel. -/
example : transKernel ⟨List.replicate 64 0xff#8, 70⟩ ⟨List.replicate 9 0xff#8, 70⟩ = some (.ok 1050#32) := by
  decide +kernel

example : bitvectorOp xorOp ⟨[0xff#8, 0x05#8], 11⟩ ⟨[0x0f#8, 0xf8#8], 11⟩ = some (.ok 6#32) := by decide +kernel

end Verif.Quant
