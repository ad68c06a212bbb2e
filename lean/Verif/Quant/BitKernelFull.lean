import Verif.Quant.BitKernelLemmas
import Mathlib.Algebra.Order.Ring.Rat
import Mathlib.Tactic.IntervalCases

/-! # The full-precision kernels form the sum over all elements -/

namespace Verif.Quant

open Finset

/-- What element `j` contributes. -/
def fullTerm (N : Nat) (x : List Rat) (y : List Byte) (j : Nat) : Rat := x.getD j 0 * ((el N y j).toNat : Rat)

structure FullOk (k : FullKernel) : Prop where
  bits : k.bits = 1 ∨ k.bits = 2 ∨ k.bits = 4
  per : k.per = 32 / k.bits
  groups : k.groups = (List.range' 0 (k.per / 8)).map (fun q => (k.bits * (8 * q), 8 * q))
  decode : ∀ (r : Reg 8) l q, l < 8 → 8 * q < k.per →
    k.decode l (asU32 r 0) (k.bits * (8 * q)) = ((regEl k.bits r (8 * q + l)).toNat : Rat)
  tails : ∀ r, r < k.per → 0 < r → k.tailCase r = ((k.bits * r + 7) / 8, (r + 7) / 8)

theorem FullOk.nums {k : FullKernel} (h : FullOk k) :
    (k.bits = 1 ∧ k.per = 32) ∨ (k.bits = 2 ∧ k.per = 16) ∨ (k.bits = 4 ∧ k.per = 8) := by
  have := h.per
  rcases h.bits with e | e | e <;> rw [e] at this <;> simp only [e, this] <;> decide

theorem sum_lanes (f : Nat → Rat) (n : Nat) (h : n ≤ 8) :
    ∑ l ∈ range 8, (if l < n then f l else 0) = ∑ l ∈ range n, f l := by
  rw [← Finset.sum_filter]
  refine Finset.sum_congr ?_ (fun _ _ => rfl)
  ext l
  simp only [Finset.mem_filter, Finset.mem_range]
  omega

theorem loadF_eq {x : List Rat} {off n : Nat} (h : off + n ≤ x.length) :
    loadF x off n = some (fun k => if k < n then x.getD (off + k) 0 else 0) := by
  unfold loadF; rw [if_pos h]

theorem word_eq {k : FullKernel} (h : FullOk k) (x : List Rat) (off last : Nat) (hl : last ≤ 8) (r : Reg 8) :
    ∀ (m q : Nat) (s : Nat → Rat), off + 8 * q + (8 * m + last) ≤ x.length → 8 * (q + m) < k.per →
    ∃ s', k.word x off last (asU32 r 0) ((List.range' q (m + 1)).map (fun q => (k.bits * (8 * q), 8 * q))) s = some s' ∧
      ∑ l ∈ range 8, s' l = ∑ l ∈ range 8, s l + ∑ j ∈ range (8 * m + last),
        x.getD (off + (8 * q + j)) 0 * ((regEl k.bits r (8 * q + j)).toNat : Rat) := by
  have step : ∀ (q n : Nat) (s : Nat → Rat), n ≤ 8 → 8 * q < k.per →
      ∑ l ∈ range 8, (s l + (if l < n then x.getD (off + 8 * q + l) 0 else 0) * k.decode l (asU32 r 0) (k.bits * (8 * q)))
        = ∑ l ∈ range 8, s l + ∑ j ∈ range n, x.getD (off + (8 * q + j)) 0 * ((regEl k.bits r (8 * q + j)).toNat : Rat) := by
    intro q n s hn hq
    rw [Finset.sum_add_distrib]
    congr 1
    rw [← sum_lanes _ n hn]
    refine Finset.sum_congr rfl (fun l hl => ?_)
    rw [h.decode r l q (Finset.mem_range.mp hl) hq, Nat.add_assoc]
    split <;> simp
  intro m
  induction m with
  | zero =>
    intro q s hx hq
    rw [List.range'_succ, List.range'_zero, List.map_cons, List.map_nil, FullKernel.word]
    dsimp only
    have hx' : off + 8 * q + last ≤ x.length := by omega
    simp only [List.isEmpty_nil, if_true, loadF_eq hx', Option.bind_eq_bind, Option.bind_some, FullKernel.word]
    refine ⟨_, rfl, ?_⟩
    rw [step q last s hl hq]
    simp
  | succ m ih =>
    intro q s hx hq
    rw [List.range'_succ, List.map_cons, FullKernel.word]
    dsimp only
    have hx' : off + 8 * q + 8 ≤ x.length := by omega
    have he : ((List.range' (q + 1) (m + 1)).map (fun q => (k.bits * (8 * q), 8 * q))).isEmpty = false := by
      rw [List.range'_succ]; rfl
    simp only [he, Bool.false_eq_true, if_false, loadF_eq hx', Option.bind_eq_bind, Option.bind_some]
    obtain ⟨s', e, hs⟩ := ih (q + 1) (fun l => s l + (if l < 8 then x.getD (off + 8 * q + l) 0 else 0)
      * k.decode l (asU32 r 0) (k.bits * (8 * q))) (by omega) (by omega)
    refine ⟨s', e, ?_⟩
    rw [hs, step q 8 s (le_refl _) (by omega), show 8 * (m + 1) + last = 8 + (8 * m + last) by omega,
      Finset.sum_range_add _ 8 (8 * m + last), ← add_assoc]
    refine congrArg₂ (· + ·) rfl (Finset.sum_congr rfl (fun j _ => ?_))
    rw [show 8 * (q + 1) + j = 8 * q + (8 + j) by omega]

theorem fullLoop_eq {k : FullKernel} (h : FullOk k) {x : List Rat} {y : List Byte} {blocks : Nat}
    (hx : k.per * blocks ≤ x.length) (hy : 4 * blocks ≤ y.length) :
    ∀ (fuel i : Nat) (s : Nat → Rat), blocks < i + fuel → i ≤ blocks →
    ∃ s', k.loop x y blocks fuel i s = some (blocks, s') ∧
      ∑ l ∈ range 8, s' l = ∑ l ∈ range 8, s l + ∑ j ∈ range (k.per * (blocks - i)), fullTerm k.bits x y (k.per * i + j) := by
  have hper : k.per = 8 * (k.per / 8 - 1) + 8 := by
    have := h.per
    rcases h.bits with e | e | e <;> rw [e] at this <;> rw [this]
  intro fuel
  induction fuel with
  | zero => intro i s h1 h2; omega
  | succ fuel ih =>
    intro i s h1 h2
    rw [FullKernel.loop]
    by_cases hi : i < blocks
    · rw [if_pos hi]
      have by' : 4 * i + 4 ≤ y.length := by omega
      have hxi : k.per * i + k.per ≤ x.length := by
        rw [← Nat.mul_succ]; exact le_trans (Nat.mul_le_mul_left _ hi) hx
      obtain ⟨s', e, hs⟩ := word_eq h x (k.per * i) 8 (le_refl _)
        (fun k => if k < 4 then y.getD (4 * i + k) 0 else 0) (k.per / 8 - 1) 0 s
        (by omega) (by omega)
      obtain ⟨s'', e', hs'⟩ := ih (i + 1) s' (by omega) (by omega)
      refine ⟨s'', ?_, ?_⟩
      · rw [loadBytes_eq by']
        simp only [Option.bind_eq_bind, Option.bind_some]
        rw [h.groups, show k.per / 8 = k.per / 8 - 1 + 1 by omega, e]
        exact e'
      · rw [hs', hs, ← hper, show k.per * (blocks - i) = k.per + k.per * (blocks - (i + 1)) by
          rw [show blocks - i = (blocks - (i + 1)) + 1 by omega]; ring, Finset.sum_range_add, add_assoc]
        congr 1
        congr 1
        · refine Finset.sum_congr rfl (fun j hj => ?_)
          have hj := Finset.mem_range.mp hj
          unfold fullTerm
          rw [regEl_load (by have := h.bits; omega) by' (loadBytes_eq by')]
          have hp := h.per
          rw [if_pos (by rcases h.bits with e | e | e <;> rw [e] at hp ⊢ <;> omega)]
          rw [show 4 * i * (8 / k.bits) + (8 * 0 + j) = k.per * i + j by
            rcases h.bits with e | e | e <;> rw [e] at hp ⊢ <;> rw [hp] <;> omega]
          simp
        · refine Finset.sum_congr rfl (fun j hj => ?_)
          congr 1
          ring
    · rw [if_neg hi]
      refine ⟨s, by rw [show i = blocks by omega], ?_⟩
      rw [show blocks - i = 0 by omega]; simp

theorem fullRun_eq {k : FullKernel} (h : FullOk k) (x : List Rat) (y : BitSlice) (hl : x.length = y.count)
    (hy : y.data.length = (k.bits * y.count + 7) / 8) :
    k.run x y = some (.ok (∑ j ∈ range x.length, fullTerm k.bits x y.data j)) := by
  unfold FullKernel.run
  rw [if_neg (by simpa using hl)]
  dsimp only
  have hp := h.per
  have hpos : 8 ≤ k.per := by rcases h.bits with e | e | e <;> rw [e] at hp <;> omega
  have hdiv := Nat.div_add_mod x.length k.per
  have hmod := Nat.mod_lt x.length (show k.per > 0 by omega)
  obtain ⟨s', e, hs⟩ := fullLoop_eq h (x := x) (y := y.data) (blocks := x.length / k.per) (by omega)
    (by rw [hy, ← hl]; rcases h.nums with ⟨e, e'⟩ | ⟨e, e'⟩ | ⟨e, e'⟩ <;> rw [e, e'] <;> omega)
    (x.length / k.per + 1) 0 (fun _ => 0) (by omega) (Nat.zero_le _)
  rw [e]
  simp only [Option.bind_eq_bind, Option.bind_some]
  have hsum : ∀ s : Nat → Rat, ((List.range 8).map s).sum = ∑ l ∈ range 8, s l := by
    intro s; simp [List.range_succ, Finset.sum_range_succ, add_assoc]
  simp only [Nat.sub_zero, Nat.mul_zero, Nat.zero_add, Finset.sum_const_zero, zero_add] at hs
  by_cases hr : x.length % k.per = 0
  · rw [if_neg (by simpa using hr)]
    rw [hsum, hs]
    congr 4
    omega
  · rw [if_pos hr, h.tails _ hmod (by omega)]
    dsimp only
    have bl : 4 * (x.length / k.per) + (k.bits * (x.length % k.per) + 7) / 8 ≤ y.data.length := by
      rw [hy, ← hl]
      rcases h.nums with ⟨e, e'⟩ | ⟨e, e'⟩ | ⟨e, e'⟩ <;> rw [e, e'] <;> omega
    rw [loadBytes_eq bl]
    simp only [Option.bind_some]
    generalize htl : (if x.length % 8 = 0 then 8 else x.length % 8) = tail
    have hlast : tail ≤ 8 := by rw [← htl]; split <;> omega
    have h8 : x.length % k.per % 8 = x.length % 8 := by
      refine Nat.mod_mod_of_dvd _ ?_
      rcases h.bits with e | e | e <;> rw [e] at hp <;> rw [hp] <;> decide
    have hgr : 8 * ((x.length % k.per + 7) / 8 - 1) + tail = x.length % k.per := by
      rw [← htl]; split <;> omega
    have htake : k.groups.take ((x.length % k.per + 7) / 8)
        = (List.range' 0 ((x.length % k.per + 7) / 8 - 1 + 1)).map (fun q => (k.bits * (8 * q), 8 * q)) := by
      have hle : (x.length % k.per + 7) / 8 ≤ k.per / 8 := by
        rcases h.nums with ⟨e, e'⟩ | ⟨e, e'⟩ | ⟨e, e'⟩ <;> rw [e'] at hmod ⊢ <;> omega
      rw [h.groups, ← List.map_take, List.take_range'_of_length_ge hle]
      congr 2; omega
    obtain ⟨s'', e'', hs''⟩ := word_eq h x (k.per * (x.length / k.per)) tail hlast
      (fun j => if j < (k.bits * (x.length % k.per) + 7) / 8 then y.data.getD (4 * (x.length / k.per) + j) 0 else 0)
      ((x.length % k.per + 7) / 8 - 1) 0 s' (by omega)
      (by rcases h.nums with ⟨e, e'⟩ | ⟨e, e'⟩ | ⟨e, e'⟩ <;> rw [e'] at hmod ⊢ <;> omega)
    rw [htake, e'']
    simp only [Option.bind_some]
    rw [hsum, hs'', hs, hgr]
    congr 2
    conv_rhs => rw [← hdiv]
    rw [Finset.sum_range_add]
    congr 1
    refine Finset.sum_congr rfl (fun j hj => ?_)
    have hj := Finset.mem_range.mp hj
    unfold fullTerm
    rw [regEl_load (by have := h.bits; omega) bl (loadBytes_eq bl)]
    rw [if_pos (by rcases h.bits with e | e | e <;> rw [e] <;> omega)]
    rw [show 4 * (x.length / k.per) * (8 / k.bits) + (8 * 0 + j) = k.per * (x.length / k.per) + j by
      rcases h.bits with e | e | e <;> rw [e] at hp ⊢ <;> rw [hp] <;> omega]
    simp

/-! ## The kernels -/

/-- Bits of a shifted word. -/
theorem word_el {N : Nat} (hN : N = 1 ∨ N = 2 ∨ N = 4) (r : Reg 8) (j : Nat) (hj : N * j + N ≤ 32) :
    (asU32 r 0).toNat / 2 ^ (N * j) % 2 ^ N = (regEl N r j).toNat := by
  have : ((asU32 r 0).extractLsb' (N * j) N).toNat = ((regEl N r j).setWidth N).toNat := by
    congr 1
    apply BitVec.eq_of_getLsbD_eq
    intro b hb
    rw [BitVec.getLsbD_extractLsb', BitVec.getLsbD_setWidth, regEl_bit (by omega), asU32_bit _ _ _ (by omega)]
    simp [hb]
  rw [BitVec.extractLsb'_toNat, BitVec.toNat_setWidth, Nat.shiftRight_eq_div_pow,
    Nat.mod_eq_of_lt (regEl_lt (by omega) r j)] at this
  exact this

theorem full1_ok : FullOk full1 := by
  refine ⟨by decide, by decide, by decide, ?_, by decide⟩
  intro r l q hl hq
  change 8 * q < 32 at hq
  have hv := word_el (N := 1) (by omega) r (8 * q + l) (by omega)
  change permute [0, 1, 0, 1, 0, 1, 0, 1] l (((asU32 r 0) >>> l) >>> (1 * (8 * q))) = ((regEl 1 r (8 * q + l)).toNat : Rat)
  unfold permute
  rw [← hv, BitVec.toNat_ushiftRight, BitVec.toNat_ushiftRight, Nat.shiftRight_eq_div_pow, Nat.shiftRight_eq_div_pow,
    Nat.div_div_eq_div_mul, ← Nat.pow_add, show l + 1 * (8 * q) = 1 * (8 * q + l) by omega]
  generalize (asU32 r 0).toNat / 2 ^ (1 * (8 * q + l)) = n
  rw [show n % 2 ^ 1 = n % 4 % 2 by omega]
  have h4 : n % 4 < 4 := Nat.mod_lt _ (by omega)
  generalize n % 4 = t at *
  clear hv hq n
  interval_cases l <;> interval_cases t <;> simp

theorem full2_ok : FullOk full2 := by
  refine ⟨by decide, by decide, by decide, ?_, by decide⟩
  intro r l q hl hq
  change 8 * q < 16 at hq
  have hv := word_el (N := 2) (by omega) r (8 * q + l) (by omega)
  change permute [0, 1, 2, 3, 0, 1, 2, 3] l (((asU32 r 0) >>> (2 * l)) >>> (2 * (8 * q))) = ((regEl 2 r (8 * q + l)).toNat : Rat)
  unfold permute
  rw [← hv, BitVec.toNat_ushiftRight, BitVec.toNat_ushiftRight, Nat.shiftRight_eq_div_pow, Nat.shiftRight_eq_div_pow,
    Nat.div_div_eq_div_mul, ← Nat.pow_add, show 2 * l + 2 * (8 * q) = 2 * (8 * q + l) by omega]
  generalize (asU32 r 0).toNat / 2 ^ (2 * (8 * q + l)) = n
  rw [show n % 2 ^ 2 = n % 4 by omega]
  have h4 : n % 4 < 4 := Nat.mod_lt _ (by omega)
  generalize n % 4 = t at *
  clear hv hq n
  interval_cases l <;> interval_cases t <;> simp

theorem full4_ok : FullOk full4 := by
  refine ⟨by decide, by decide, by decide, ?_, by decide⟩
  intro r l q hl hq
  change 8 * q < 8 at hq
  obtain rfl : q = 0 := by omega
  have hv := word_el (N := 4) (by omega) r (8 * 0 + l) (by omega)
  change ((((asU32 r 0).sshiftRight (4 * l)) &&& 0x0f#32).toInt : Rat) = ((regEl 4 r (8 * 0 + l)).toNat : Rat)
  have e : ((asU32 r 0).sshiftRight (4 * l)) &&& 0x0f#32 = (regEl 4 r (8 * 0 + l)).setWidth 32 := by
    apply BitVec.eq_of_getLsbD_eq
    intro b hb
    have hm : ∀ b, b < 32 → (0x0f#32).getLsbD b = decide (b < 4) := by decide +kernel
    rw [BitVec.getLsbD_and, hm b hb, BitVec.getLsbD_setWidth, regEl_bit (by omega), BitVec.getLsbD_sshiftRight]
    by_cases h4 : b < 4
    · have h32 : 4 * l + b < 32 := by omega
      have hb' : ¬ 32 ≤ b := by omega
      simp only [h4, h32, hb, hb', decide_true, Bool.and_true, Bool.true_and, if_true, decide_false, Bool.not_false]
      rw [asU32_bit _ _ _ h32]
      simp
    · simp [h4]
  have hlt := (regEl 4 r (8 * 0 + l)).isLt
  rw [e, BitVec.toInt_eq_toNat_of_lt (by rw [BitVec.toNat_setWidth]; omega), BitVec.toNat_setWidth,
    Nat.mod_eq_of_lt (by omega)]
  simp

/-! ## The scalar fallback -/

theorem fullScalarFrom_eq {N : Nat} (h1 : 1 ≤ N) (h8 : N ≤ 8) (y : List Byte) : ∀ (x : List Rat) (i : Nat) (s : Rat),
    N * (i + x.length) ≤ 8 * y.length →
    fullScalarFrom N y i x s = some (s + ∑ j ∈ range x.length, x.getD j 0 * ((el N y (i + j)).toNat : Rat)) := by
  intro x
  induction x with
  | nil => intro i s _; simp [fullScalarFrom]
  | cons a x ih =>
    intro i s h
    rw [List.length_cons] at h
    have hb : N * i + N ≤ 8 * y.length := by
      refine le_trans ?_ h; rw [← Nat.mul_succ]; exact Nat.mul_le_mul_left _ (by omega)
    rw [fullScalarFrom, denseUnpack_el h1 h8 y i hb]
    simp only [Option.bind_eq_bind, Option.bind_some]
    rw [ih (i + 1) _ (by rw [show i + 1 + x.length = i + (x.length + 1) by omega]; exact h), List.length_cons,
      Finset.sum_range_succ']
    congr 1
    simp only [List.getD_cons_succ, List.getD_cons_zero, Nat.add_zero]
    rw [add_assoc, add_comm (∑ k ∈ range x.length, _)]
    congr 2
    refine Finset.sum_congr rfl (fun j _ => ?_)
    rw [show i + 1 + j = i + (j + 1) by omega]

theorem fullScalar_eq {N : Nat} (h1 : 1 ≤ N) (h8 : N ≤ 8) (x : List Rat) (y : BitSlice) (hl : x.length = y.count)
    (hy : y.data.length = (N * y.count + 7) / 8) :
    fullScalar N x y = some (.ok (∑ j ∈ range x.length, fullTerm N x y.data j)) := by
  unfold fullScalar
  rw [if_neg (by simpa using hl), fullScalarFrom_eq h1 h8 _ _ _ _ (by rw [hl, hy]; simp; omega)]
  simp [fullTerm]

end Verif.Quant
