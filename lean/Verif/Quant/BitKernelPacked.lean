import Verif.Quant.BitKernelLemmas

/-! # The kernels on two- and four-bit slices form the sum over all elements -/

namespace Verif.Quant

open Finset

/-- What the proof needs to know about the constants of a kernel. -/
structure PackedOk (k : PackedKernel) : Prop where
  bits : k.bits = 2 ∨ k.bits = 4
  per : k.perWord = 32 / k.bits
  lanes : 0 < k.lanes
  zero : k.term 0 0 = 0
  acc : ∀ p ∈ k.plan, p.1 < 4
  word : ∃ c : Nat → Reg 32 → Reg 32 → Nat → BitVec 32,
    (∀ s vx vy acc l, k.step s vx vy acc l = acc l + c s vx vy l) ∧
    ∀ rx ry l, (k.plan.map (fun p => c p.2 (asU32 rx) (asU32 ry) l)).sum
      = ∑ j ∈ range k.perWord, k.term (regEl k.bits rx (k.perWord * l + j)) (regEl k.bits ry (k.perWord * l + j))

theorem groups_total {k : PackedKernel} (h : PackedOk k) (rx ry : Reg 8) (acc : Nat → Reg 32) :
    k.total (k.groups (asU32 rx) (asU32 ry) acc) = k.total acc
      + ∑ j ∈ range (k.perWord * k.lanes), k.term (regEl k.bits rx j) (regEl k.bits ry j) := by
  obtain ⟨c, hc, hw⟩ := h.word
  have key : ∀ (plan : List (Nat × Nat)), (∀ p ∈ plan, p.1 < 4) → ∀ (acc : Nat → Reg 32) (l : Nat),
      (let a := plan.foldl (fun acc p => fun q => if q = p.1 then k.step p.2 (asU32 rx) (asU32 ry) (acc p.1) else acc q) acc
       (a 0 l + a 1 l) + (a 2 l + a 3 l))
      = (acc 0 l + acc 1 l) + (acc 2 l + acc 3 l) + (plan.map (fun p => c p.2 (asU32 rx) (asU32 ry) l)).sum := by
    intro plan
    induction plan with
    | nil => intro _ acc l; simp
    | cons p plan ih =>
      intro hp acc l
      dsimp only at ih ⊢
      rw [List.foldl_cons, ih (fun q hq => hp q (List.mem_cons_of_mem _ hq)), List.map_cons, List.sum_cons]
      have hp4 : p.1 < 4 := hp p List.mem_cons_self
      obtain ⟨a, s⟩ := p
      simp only at hp4 ⊢
      have : a = 0 ∨ a = 1 ∨ a = 2 ∨ a = 3 := by omega
      rcases this with rfl | rfl | rfl | rfl <;> simp [hc] <;> ring
  unfold PackedKernel.total PackedKernel.groups
  rw [sumTree_eq, sumTree_eq, ← sum_blocks, ← Finset.sum_add_distrib]
  refine Finset.sum_congr rfl (fun l _ => ?_)
  rw [← hw, ← key k.plan h.acc acc l]

/-- The sum of the terms of the elements `a, ..., a + n - 1`. -/
def partSum (k : PackedKernel) (x y : List Byte) (a n : Nat) : BitVec 32 :=
  ∑ j ∈ range n, k.term (el k.bits x (a + j)) (el k.bits y (a + j))

theorem partSum_add (k : PackedKernel) (x y : List Byte) (a m n : Nat) :
    partSum k x y a (m + n) = partSum k x y a m + partSum k x y (a + m) n := by
  unfold partSum
  rw [Finset.sum_range_add]
  simp only [Nat.add_assoc]

/-- One register of `n` loaded bytes contributes the elements in these bytes. -/
theorem load_contrib {k : PackedKernel} (h : PackedOk k) {x y : List Byte} {off n : Nat} {rx ry : Reg 8}
    (hx : off + n ≤ x.length) (hy : off + n ≤ y.length) (hn : n ≤ 4 * k.lanes)
    (ex : loadBytes x off n = some rx) (ey : loadBytes y off n = some ry) (acc : Nat → Reg 32) :
    k.total (k.groups (asU32 rx) (asU32 ry) acc)
      = k.total acc + partSum k x y (off * (8 / k.bits)) (n * (8 / k.bits)) := by
  have hN : k.bits = 1 ∨ k.bits = 2 ∨ k.bits = 4 ∨ k.bits = 8 := by
    rcases h.bits with e | e <;> simp [e]
  rw [groups_total h]
  congr 1
  unfold partSum
  have hle : n * (8 / k.bits) ≤ k.perWord * k.lanes := by
    rw [h.per]
    rcases h.bits with e | e <;> rw [e] <;> omega
  obtain ⟨m, hm⟩ := Nat.exists_eq_add_of_le hle
  rw [hm, Finset.sum_range_add]
  have z : ∑ j ∈ range m, k.term (regEl k.bits rx (n * (8 / k.bits) + j)) (regEl k.bits ry (n * (8 / k.bits) + j)) = 0 := by
    refine Finset.sum_eq_zero (fun j _ => ?_)
    have : ¬ k.bits * (n * (8 / k.bits) + j) < 8 * n := by
      rcases h.bits with e | e <;> rw [e] <;> omega
    rw [regEl_load hN hx ex, regEl_load hN hy ey, if_neg this, if_neg this, h.zero]
  rw [z, add_zero]
  refine Finset.sum_congr rfl (fun j hj => ?_)
  rw [Finset.mem_range] at hj
  have : k.bits * j < 8 * n := by
    revert hj
    rcases h.bits with e | e <;> rw [e] <;> omega
  rw [regEl_load hN hx ex, regEl_load hN hy ey, if_pos this, if_pos this]

/-- The main loop stops before the last `lanes` words and has summed all words before that. -/
theorem loop_eq {k : PackedKernel} (h : PackedOk k) {x y : List Byte} {blocks : Nat}
    (hx : 4 * (blocks - 1) ≤ x.length) (hy : 4 * (blocks - 1) ≤ y.length) :
    ∀ (fuel i : Nat) (acc : Nat → Reg 32), blocks < i + fuel → i < blocks →
    ∃ i' acc', k.loop x y blocks fuel i acc = some (i', acc') ∧ i ≤ i' ∧ i' < blocks ∧ blocks ≤ i' + k.lanes ∧
      k.total acc' = k.total acc + partSum k x y (i * k.perWord) ((i' - i) * k.perWord) := by
  intro fuel
  induction fuel with
  | zero => intro i acc h1 h2; omega
  | succ fuel ih =>
    intro i acc h1 h2
    rw [PackedKernel.loop]
    have hl := h.lanes
    by_cases hi : i + k.lanes < blocks
    · rw [if_pos hi]
      have bx : 4 * i + 4 * k.lanes ≤ x.length := by omega
      have by' : 4 * i + 4 * k.lanes ≤ y.length := by omega
      obtain ⟨i', acc', e, l1, l2, l3, l4⟩ := ih (i + k.lanes)
        (k.groups (asU32 (fun n => if n < 4 * k.lanes then x.getD (4 * i + n) 0 else 0))
          (asU32 (fun n => if n < 4 * k.lanes then y.getD (4 * i + n) 0 else 0)) acc) (by omega) hi
      refine ⟨i', acc', ?_, by omega, l2, l3, ?_⟩
      · rw [loadBytes_eq bx, loadBytes_eq by']
        exact e
      · rw [l4, load_contrib h bx by' (le_refl _) (loadBytes_eq bx) (loadBytes_eq by')]
        have e1 : 4 * i * (8 / k.bits) = i * k.perWord := by
          rw [h.per]; rcases h.bits with e | e <;> rw [e] <;> omega
        have e2 : 4 * k.lanes * (8 / k.bits) = k.lanes * k.perWord := by
          rw [h.per]; rcases h.bits with e | e <;> rw [e] <;> omega
        rw [e1, e2, add_assoc]
        congr 1
        have e3 : (i' - i) * k.perWord = k.lanes * k.perWord + (i' - (i + k.lanes)) * k.perWord := by
          rw [← Nat.add_mul]; congr 1; omega
        rw [e3, partSum_add, Nat.add_mul]
    · rw [if_neg hi]
      exact ⟨i, acc, rfl, le_refl _, h2, by omega, by simp [partSum]⟩

theorem total_zero (k : PackedKernel) : k.total (fun _ _ => 0) = 0 := by
  unfold PackedKernel.total; rw [sumTree_eq]; simp

theorem runV3_eq {k : PackedKernel} (h : PackedOk k) (x y : BitSlice) (hl : x.count = y.count)
    (hx : x.data.length = (k.bits * x.count + 7) / 8) (hy : y.data.length = (k.bits * y.count + 7) / 8) :
    k.runV3 x y = some (.ok (partSum k x.data y.data 0 x.count)) := by
  unfold PackedKernel.runV3
  rw [if_neg (by simpa using hl)]
  dsimp only
  have hb1 : 1 ≤ k.bits := by rcases h.bits with e | e <;> omega
  have hb8 : k.bits ≤ 8 := by rcases h.bits with e | e <;> omega
  have key : ∀ s, s = partSum k x.data y.data 0 (x.count / k.perWord * k.perWord) →
      (if x.count / k.perWord * k.perWord ≠ x.count then do
        let t ← elemSum k.bits k.bits k.term x.data y.data
          (List.range' (x.count / k.perWord * k.perWord) (x.count - x.count / k.perWord * k.perWord))
        some (.ok (s + t))
       else some (.ok s) : Option (Except LenError (BitVec 32))) = some (.ok (partSum k x.data y.data 0 x.count)) := by
    intro s hs
    have hle : x.count / k.perWord * k.perWord ≤ x.count := Nat.div_mul_le_self _ _
    split
    · rw [elemSum_eq hb1 hb8 hb1 hb8]
      · simp only [Option.bind_eq_bind, Option.bind_some]
        congr 2
        obtain ⟨m, hm⟩ := Nat.exists_eq_add_of_le hle
        have : partSum k x.data y.data 0 x.count = partSum k x.data y.data 0 (x.count / k.perWord * k.perWord)
            + partSum k x.data y.data (0 + x.count / k.perWord * k.perWord)
              (x.count - x.count / k.perWord * k.perWord) := by
          rw [← partSum_add]; congr 1; omega
        rw [this, hs]
        congr 1
        simp [partSum]
      · rw [Nat.add_sub_cancel' hle]; omega
      · rw [Nat.add_sub_cancel' hle, hl]; omega
    · rename_i he
      have he : x.count / k.perWord * k.perWord = x.count := by simpa using he
      rw [hs, he]
  by_cases hp : 0 < x.count / k.perWord
  · have hw : 4 * (x.count / k.perWord) ≤ x.data.length ∧ 4 * (x.count / k.perWord) ≤ y.data.length := by
      rw [hx, hy, ← hl, h.per]
      rcases h.bits with e | e <;> rw [e] <;> simp <;> omega
    rw [if_pos hp]
    obtain ⟨i', acc', e, l1, l2, l3, l4⟩ := loop_eq h (x := x.data) (y := y.data) (blocks := x.count / k.perWord)
      (by omega) (by omega) (x.count / k.perWord + 1) 0 (fun _ _ => 0) (by omega) hp
    have bx : 4 * i' + 4 * (x.count / k.perWord - i') ≤ x.data.length := by omega
    have by' : 4 * i' + 4 * (x.count / k.perWord - i') ≤ y.data.length := by omega
    rw [e]
    simp only [Option.bind_eq_bind, Option.bind_some]
    rw [loadBytes_eq bx, loadBytes_eq by']
    simp only [Option.bind_some]
    rw [show i' + (x.count / k.perWord - i') = x.count / k.perWord by omega]
    refine key _ ?_
    rw [load_contrib h bx by' (by omega) (loadBytes_eq bx) (loadBytes_eq by'), l4, total_zero]
    have e1 : 4 * i' * (8 / k.bits) = i' * k.perWord := by
      rw [h.per]; rcases h.bits with e | e <;> rw [e] <;> omega
    have e2 : 4 * (x.count / k.perWord - i') * (8 / k.bits) = (x.count / k.perWord - i') * k.perWord := by
      rw [h.per]; rcases h.bits with e | e <;> rw [e] <;> omega
    rw [e1, e2, zero_add, Nat.sub_zero, Nat.zero_mul]
    have e3 : x.count / k.perWord * k.perWord = i' * k.perWord + (x.count / k.perWord - i') * k.perWord := by
      rw [← Nat.add_mul]; congr 1; omega
    rw [e3, partSum_add, Nat.zero_add]
  · have h0 : x.count / k.perWord = 0 := Nat.eq_zero_of_not_pos hp
    rw [if_neg hp]
    simp only [Option.bind_eq_bind, Option.bind_some]
    have := key 0 (by rw [h0]; simp [partSum])
    rw [h0] at this
    simpa using this

theorem runV4_eq {k : PackedKernel} (h : PackedOk k) (x y : BitSlice) (hl : x.count = y.count)
    (hx : x.data.length = (k.bits * x.count + 7) / 8) (hy : y.data.length = (k.bits * y.count + 7) / 8)
    (maxTail : Nat) (ht : 8 / k.bits - 1 ≤ maxTail) :
    k.runV4 (8 / k.bits) maxTail x y = some (.ok (partSum k x.data y.data 0 x.count)) := by
  unfold PackedKernel.runV4
  rw [if_neg (by simpa using hl)]
  dsimp only
  have hb1 : 1 ≤ k.bits := by rcases h.bits with e | e <;> omega
  have hb8 : k.bits ≤ 8 := by rcases h.bits with e | e <;> omega
  generalize hpb : 8 / k.bits = pb at *
  have hpb' : pb = 2 ∨ pb = 4 := by rcases h.bits with e | e <;> rw [e] at hpb <;> omega
  have key : ∀ s, s = partSum k x.data y.data 0 (x.count / pb * pb) →
      (if x.count / pb * pb ≠ x.count then do
        let t ← elemSum k.bits k.bits k.term x.data y.data
          (List.range' (x.count / pb * pb) (min (x.count - x.count / pb * pb) maxTail))
        some (.ok (s + t))
       else some (.ok s) : Option (Except LenError (BitVec 32))) = some (.ok (partSum k x.data y.data 0 x.count)) := by
    intro s hs
    have hle : x.count / pb * pb ≤ x.count := Nat.div_mul_le_self _ _
    have hmin : min (x.count - x.count / pb * pb) maxTail = x.count - x.count / pb * pb := by
      rcases hpb' with e | e <;> rw [e] at ht ⊢ <;> omega
    rw [hmin]
    split
    · rw [elemSum_eq hb1 hb8 hb1 hb8]
      · simp only [Option.bind_eq_bind, Option.bind_some]
        congr 2
        have : partSum k x.data y.data 0 x.count = partSum k x.data y.data 0 (x.count / pb * pb)
            + partSum k x.data y.data (0 + x.count / pb * pb) (x.count - x.count / pb * pb) := by
          rw [← partSum_add]; congr 1; omega
        rw [this, hs]
        congr 1
        simp [partSum]
      · rw [Nat.add_sub_cancel' hle]; omega
      · rw [Nat.add_sub_cancel' hle, hl]; omega
    · rename_i he
      have he : x.count / pb * pb = x.count := by simpa using he
      rw [hs, he]
  by_cases hp : 0 < (x.count + k.perWord - 1) / k.perWord
  · rw [if_pos hp]
    have hper : k.perWord = 4 * pb := by
      rw [h.per, ← hpb]; rcases h.bits with e | e <;> rw [e]
    have hk : pb * k.bits = 8 := by rw [← hpb]; rcases h.bits with e | e <;> rw [e]
    have hbytes : x.count / pb ≤ x.data.length ∧ x.count / pb ≤ y.data.length := by
      rw [hx, hy, ← hl, ← hpb]; rcases h.bits with e | e <;> rw [e] <;> simp <;> omega
    generalize hB : (x.count + k.perWord - 1) / k.perWord = B at *
    have hBlt : 4 * (B - 1) ≤ x.count / pb := by
      rw [← hB, hper]; rcases hpb' with e | e <;> rw [e] <;> omega
    have hBge : x.count / pb ≤ 4 * B := by
      rw [← hB, hper]; rcases hpb' with e | e <;> rw [e] <;> omega
    obtain ⟨i', acc', e, l1, l2, l3, l4⟩ := loop_eq h (x := x.data) (y := y.data) (blocks := B)
      (by omega) (by omega) (B + 1) 0 (fun _ _ => 0) (by omega) hp
    rw [e]
    simp only [Option.bind_eq_bind, Option.bind_some]
    rw [if_neg (by omega), if_neg (by omega)]
    have bx : 4 * i' + (x.count / pb - 4 * i') ≤ x.data.length := by omega
    have by' : 4 * i' + (x.count / pb - 4 * i') ≤ y.data.length := by omega
    rw [loadBytes_eq bx, loadBytes_eq by']
    simp only [Option.bind_some]
    rw [show 4 * i' + (x.count / pb - 4 * i') = x.count / pb by omega]
    refine key _ ?_
    rw [load_contrib h bx by' (by omega) (loadBytes_eq bx) (loadBytes_eq by'), l4, total_zero, hpb]
    rw [zero_add, Nat.sub_zero, Nat.zero_mul]
    have e1 : 4 * i' * pb = i' * k.perWord := by rw [hper, ← Nat.mul_assoc, Nat.mul_comm i' 4]
    have e3 : x.count / pb * pb = i' * k.perWord + (x.count / pb - 4 * i') * pb := by
      rw [← e1, ← Nat.add_mul]; congr 1; omega
    rw [e3, partSum_add, Nat.zero_add, e1]
  · have hper : k.perWord = 16 ∨ k.perWord = 8 := by
      rw [h.per]; rcases h.bits with e | e <;> rw [e] <;> omega
    have h0 : x.count = 0 := by
      rcases hper with e | e <;> rw [e] at hp <;> omega
    rw [if_neg hp]
    simp only [Option.bind_eq_bind, Option.bind_some]
    have := key 0 (by rw [h0]; simp [partSum])
    rw [h0] at this ⊢
    simpa using this

/-! ## The seven kernels -/

theorem mask16_4 : ∀ p, p < 32 → (0x000f000f#32).getLsbD p = decide (p % 16 < 4) := by decide +kernel
theorem mask16_2 : ∀ p, p < 32 → (0x00030003#32).getLsbD p = decide (p % 16 < 2) := by decide +kernel
theorem mask8_4 : ∀ p, p < 32 → (0x0f0f0f0f#32).getLsbD p = decide (p % 8 < 4) := by decide +kernel
theorem mask8_2 : ∀ p, p < 32 → (0x03030303#32).getLsbD p = decide (p % 8 < 2) := by decide +kernel

theorem l2_lane {N : Nat} (hN : N = 2 ∨ N = 4) {mask : BitVec 32}
    (hm : ∀ p, p < 32 → mask.getLsbD p = decide (p % 16 < N)) (rx ry : Reg 8) (l s t : Nat) (hs : s = N * t)
    (ht : N * t < 16) (acc : Reg 32) :
    l2Step mask s (asU32 rx) (asU32 ry) acc l = acc l +
      (sqTerm (regEl N rx (32 / N * l + t)) (regEl N ry (32 / N * l + t))
        + sqTerm (regEl N rx (32 / N * l + (16 / N + t))) (regEl N ry (32 / N * l + (16 / N + t)))) := by
  unfold l2Step madd
  dsimp only
  subst hs
  have a := fun r => lane16 hN hm r l 0 t (by omega) ht
  have b := fun r => lane16 hN hm r l 1 t (by omega) ht
  simp only [Nat.mul_zero, Nat.add_zero, Nat.mul_one] at a b
  rw [a rx, a ry, b rx, b ry, sx16_sub, sx16_sub]
  simp only [sqTerm, Nat.add_assoc]

theorem ip_lane {N : Nat} (hN : N = 2 ∨ N = 4) {mask : BitVec 32}
    (hm : ∀ p, p < 32 → mask.getLsbD p = decide (p % 16 < N)) (rx ry : Reg 8) (l s t : Nat) (hs : s = N * t)
    (ht : N * t < 16) (acc : Reg 32) :
    ipStep mask s (asU32 rx) (asU32 ry) acc l = acc l +
      (ipTerm (regEl N rx (32 / N * l + t)) (regEl N ry (32 / N * l + t))
        + ipTerm (regEl N rx (32 / N * l + (16 / N + t))) (regEl N ry (32 / N * l + (16 / N + t)))) := by
  unfold ipStep madd
  subst hs
  have a := fun r => lane16 hN hm r l 0 t (by omega) ht
  have b := fun r => lane16 hN hm r l 1 t (by omega) ht
  simp only [Nat.mul_zero, Nat.add_zero, Nat.mul_one] at a b
  rw [a rx, a ry, b rx, b ry]
  simp only [sx16, ipTerm, Nat.add_assoc]

theorem vnni_lane {N : Nat} (hN : N = 2 ∨ N = 4) {mask : BitVec 32}
    (hm : ∀ p, p < 32 → mask.getLsbD p = decide (p % 8 < N)) (rx ry : Reg 8) (l s t : Nat) (hs : s = N * t)
    (ht : N * t < 8) (acc : Reg 32) :
    vnniStep mask s (asU32 rx) (asU32 ry) acc l = acc l +
      (ipTerm (regEl N rx (32 / N * l + t)) (regEl N ry (32 / N * l + t))
        + ipTerm (regEl N rx (32 / N * l + (8 / N + t))) (regEl N ry (32 / N * l + (8 / N + t)))
        + ipTerm (regEl N rx (32 / N * l + (8 / N * 2 + t))) (regEl N ry (32 / N * l + (8 / N * 2 + t)))
        + ipTerm (regEl N rx (32 / N * l + (8 / N * 3 + t))) (regEl N ry (32 / N * l + (8 / N * 3 + t)))) := by
  unfold vnniStep dpbusd
  subst hs
  have a := fun r => lane8 hN hm r l 0 t (by omega) ht
  have b := fun r => lane8 hN hm r l 1 t (by omega) ht
  have c := fun r => lane8 hN hm r l 2 t (by omega) ht
  have d := fun r => lane8 hN hm r l 3 t (by omega) ht
  simp only [Nat.mul_zero, Nat.add_zero, Nat.mul_one] at a b c d
  have lt : ∀ r j, (regEl N r j).toNat < 128 := by
    intro r j
    refine lt_of_lt_of_le (regEl_lt (by omega) r j) ?_
    rcases hN with rfl | rfl <;> decide
  rw [a rx, a ry, b rx, b ry, c rx, c ry, d rx, d ry]
  rw [sx8 _ (lt _ _), sx8 _ (lt _ _), sx8 _ (lt _ _), sx8 _ (lt _ _)]
  simp only [ipTerm, Nat.add_assoc]

theorem l2x4v3_ok : PackedOk l2x4v3 := by
  refine ⟨by decide, by decide, by decide, by decide, by decide, ?_⟩
  refine ⟨fun s vx vy l => l2Step 0x000f000f#32 s vx vy (fun _ => 0) l, ?_, ?_⟩
  · intro s vx vy acc l
    simp only [l2x4v3, l2Step, madd, zero_add]
  · intro rx ry l
    simp only [l2x4v3, List.map_cons, List.map_nil, List.sum_cons, List.sum_nil]
    rw [l2_lane (N := 4) (by decide) mask16_4 rx ry l 0 0 (by decide) (by decide)]
    rw [l2_lane (N := 4) (by decide) mask16_4 rx ry l 4 1 (by decide) (by decide)]
    rw [l2_lane (N := 4) (by decide) mask16_4 rx ry l 8 2 (by decide) (by decide)]
    rw [l2_lane (N := 4) (by decide) mask16_4 rx ry l 12 3 (by decide) (by decide)]
    simp only [Finset.sum_range_succ, Finset.sum_range_zero, zero_add, Nat.reduceDiv, Nat.reduceAdd, Nat.reduceMul,
      Nat.add_zero, add_zero]
    ring

theorem l2x4v4_ok : PackedOk l2x4v4 := by
  refine ⟨by decide, by decide, by decide, by decide, by decide, ?_⟩
  refine ⟨fun s vx vy l => l2Step 0x000f000f#32 s vx vy (fun _ => 0) l, ?_, ?_⟩
  · intro s vx vy acc l
    simp only [l2x4v4, l2Step, madd, zero_add]
  · intro rx ry l
    simp only [l2x4v4, List.map_cons, List.map_nil, List.sum_cons, List.sum_nil]
    rw [l2_lane (N := 4) (by decide) mask16_4 rx ry l 0 0 (by decide) (by decide)]
    rw [l2_lane (N := 4) (by decide) mask16_4 rx ry l 4 1 (by decide) (by decide)]
    rw [l2_lane (N := 4) (by decide) mask16_4 rx ry l 8 2 (by decide) (by decide)]
    rw [l2_lane (N := 4) (by decide) mask16_4 rx ry l 12 3 (by decide) (by decide)]
    simp only [Finset.sum_range_succ, Finset.sum_range_zero, zero_add, Nat.reduceDiv, Nat.reduceAdd, Nat.reduceMul,
      Nat.add_zero, add_zero]
    ring

theorem l2x2v3_ok : PackedOk l2x2v3 := by
  refine ⟨by decide, by decide, by decide, by decide, by decide, ?_⟩
  refine ⟨fun s vx vy l => l2Step 0x00030003#32 s vx vy (fun _ => 0) l, ?_, ?_⟩
  · intro s vx vy acc l
    simp only [l2x2v3, l2Step, madd, zero_add]
  · intro rx ry l
    simp only [l2x2v3, List.map_cons, List.map_nil, List.sum_cons, List.sum_nil]
    rw [l2_lane (N := 2) (by decide) mask16_2 rx ry l 0 0 (by decide) (by decide)]
    rw [l2_lane (N := 2) (by decide) mask16_2 rx ry l 2 1 (by decide) (by decide)]
    rw [l2_lane (N := 2) (by decide) mask16_2 rx ry l 4 2 (by decide) (by decide)]
    rw [l2_lane (N := 2) (by decide) mask16_2 rx ry l 6 3 (by decide) (by decide)]
    rw [l2_lane (N := 2) (by decide) mask16_2 rx ry l 8 4 (by decide) (by decide)]
    rw [l2_lane (N := 2) (by decide) mask16_2 rx ry l 10 5 (by decide) (by decide)]
    rw [l2_lane (N := 2) (by decide) mask16_2 rx ry l 12 6 (by decide) (by decide)]
    rw [l2_lane (N := 2) (by decide) mask16_2 rx ry l 14 7 (by decide) (by decide)]
    simp only [Finset.sum_range_succ, Finset.sum_range_zero, zero_add, Nat.reduceDiv, Nat.reduceAdd, Nat.reduceMul,
      Nat.add_zero, add_zero]
    ring

theorem ipx4v3_ok : PackedOk ipx4v3 := by
  refine ⟨by decide, by decide, by decide, by decide, by decide, ?_⟩
  refine ⟨fun s vx vy l => ipStep 0x000f000f#32 s vx vy (fun _ => 0) l, ?_, ?_⟩
  · intro s vx vy acc l
    simp only [ipx4v3, ipStep, madd, zero_add]
  · intro rx ry l
    simp only [ipx4v3, List.map_cons, List.map_nil, List.sum_cons, List.sum_nil]
    rw [ip_lane (N := 4) (by decide) mask16_4 rx ry l 0 0 (by decide) (by decide)]
    rw [ip_lane (N := 4) (by decide) mask16_4 rx ry l 4 1 (by decide) (by decide)]
    rw [ip_lane (N := 4) (by decide) mask16_4 rx ry l 8 2 (by decide) (by decide)]
    rw [ip_lane (N := 4) (by decide) mask16_4 rx ry l 12 3 (by decide) (by decide)]
    simp only [Finset.sum_range_succ, Finset.sum_range_zero, zero_add, Nat.reduceDiv, Nat.reduceAdd, Nat.reduceMul,
      Nat.add_zero, add_zero]
    ring

theorem ipx4v4_ok : PackedOk ipx4v4 := by
  refine ⟨by decide, by decide, by decide, by decide, by decide, ?_⟩
  refine ⟨fun s vx vy l => vnniStep 0x0f0f0f0f#32 s vx vy (fun _ => 0) l, ?_, ?_⟩
  · intro s vx vy acc l
    simp only [ipx4v4, vnniStep, dpbusd, zero_add]
  · intro rx ry l
    simp only [ipx4v4, List.map_cons, List.map_nil, List.sum_cons, List.sum_nil]
    rw [vnni_lane (N := 4) (by decide) mask8_4 rx ry l 0 0 (by decide) (by decide)]
    rw [vnni_lane (N := 4) (by decide) mask8_4 rx ry l 4 1 (by decide) (by decide)]
    simp only [Finset.sum_range_succ, Finset.sum_range_zero, zero_add, Nat.reduceDiv, Nat.reduceAdd, Nat.reduceMul,
      Nat.add_zero, add_zero]
    ring

theorem ipx2v3_ok : PackedOk ipx2v3 := by
  refine ⟨by decide, by decide, by decide, by decide, by decide, ?_⟩
  refine ⟨fun s vx vy l => ipStep 0x00030003#32 s vx vy (fun _ => 0) l, ?_, ?_⟩
  · intro s vx vy acc l
    simp only [ipx2v3, ipStep, madd, zero_add]
  · intro rx ry l
    simp only [ipx2v3, List.map_cons, List.map_nil, List.sum_cons, List.sum_nil]
    rw [ip_lane (N := 2) (by decide) mask16_2 rx ry l 0 0 (by decide) (by decide)]
    rw [ip_lane (N := 2) (by decide) mask16_2 rx ry l 2 1 (by decide) (by decide)]
    rw [ip_lane (N := 2) (by decide) mask16_2 rx ry l 4 2 (by decide) (by decide)]
    rw [ip_lane (N := 2) (by decide) mask16_2 rx ry l 6 3 (by decide) (by decide)]
    rw [ip_lane (N := 2) (by decide) mask16_2 rx ry l 8 4 (by decide) (by decide)]
    rw [ip_lane (N := 2) (by decide) mask16_2 rx ry l 10 5 (by decide) (by decide)]
    rw [ip_lane (N := 2) (by decide) mask16_2 rx ry l 12 6 (by decide) (by decide)]
    rw [ip_lane (N := 2) (by decide) mask16_2 rx ry l 14 7 (by decide) (by decide)]
    simp only [Finset.sum_range_succ, Finset.sum_range_zero, zero_add, Nat.reduceDiv, Nat.reduceAdd, Nat.reduceMul,
      Nat.add_zero, add_zero]
    ring

theorem ipx2v4_ok : PackedOk ipx2v4 := by
  refine ⟨by decide, by decide, by decide, by decide, by decide, ?_⟩
  refine ⟨fun s vx vy l => vnniStep 0x03030303#32 s vx vy (fun _ => 0) l, ?_, ?_⟩
  · intro s vx vy acc l
    simp only [ipx2v4, vnniStep, dpbusd, zero_add]
  · intro rx ry l
    simp only [ipx2v4, List.map_cons, List.map_nil, List.sum_cons, List.sum_nil]
    rw [vnni_lane (N := 2) (by decide) mask8_2 rx ry l 0 0 (by decide) (by decide)]
    rw [vnni_lane (N := 2) (by decide) mask8_2 rx ry l 2 1 (by decide) (by decide)]
    rw [vnni_lane (N := 2) (by decide) mask8_2 rx ry l 4 2 (by decide) (by decide)]
    rw [vnni_lane (N := 2) (by decide) mask8_2 rx ry l 6 3 (by decide) (by decide)]
    simp only [Finset.sum_range_succ, Finset.sum_range_zero, zero_add, Nat.reduceDiv, Nat.reduceAdd, Nat.reduceMul,
      Nat.add_zero, add_zero]
    ring

end Verif.Quant
