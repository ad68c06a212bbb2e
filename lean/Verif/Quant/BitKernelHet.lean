import Verif.Quant.BitKernelLemmas

/-! # The kernels of eight bits against four, two and one bit form the sum over all elements -/

namespace Verif.Quant

open Finset

/-! ## Unpacking -/

theorem unpack4 (r : Reg 8) (k : Nat) : unpackSub 4 r k = regEl 4 r k := by
  unfold unpackSub regEl unpackU8
  have hm : ((1#8 <<< 4) - 1 : Byte) = mask 4 := by decide
  rw [hm]
  by_cases h : k % 2 = 0
  · rw [if_pos h, show 4 * k / 8 = k / 2 by omega, show 4 * k % 8 = 0 by omega, BitVec.ushiftRight_zero]
  · rw [if_neg h, show 4 * k / 8 = k / 2 by omega, show 4 * k % 8 = 4 by omega]

theorem unpack2 (r : Reg 8) (a k : Nat) : unpackSub 2 (fun k => unpackSub 4 r (a + k)) k = regEl 2 r (2 * a + k) := by
  apply BitVec.eq_of_getLsbD_eq
  intro b hb
  have hm : ((1#8 <<< 2) - 1 : Byte) = mask 2 := by decide
  rw [unpackSub, unpack4, regEl_bit (by omega), hm, BitVec.getLsbD_and, mask_bit (by omega)]
  by_cases hb2 : b < 2
  · simp only [hb2, decide_true, Bool.and_true, Bool.true_and]
    split
    · rw [regEl_bit (by omega)]
      have h4 : b < 4 := by omega
      simp only [h4, decide_true, Bool.true_and]
      rw [show (4 * (a + k / 2) + b) / 8 = (2 * (2 * a + k) + b) / 8 by omega,
        show (4 * (a + k / 2) + b) % 8 = (2 * (2 * a + k) + b) % 8 by omega]
    · rw [BitVec.getLsbD_ushiftRight, regEl_bit (by omega)]
      have h4 : 2 + b < 4 := by omega
      simp only [h4, decide_true, Bool.true_and]
      rw [show (4 * (a + k / 2) + (2 + b)) / 8 = (2 * (2 * a + k) + b) / 8 by omega,
        show (4 * (a + k / 2) + (2 + b)) % 8 = (2 * (2 * a + k) + b) % 8 by omega]
  · simp [hb2]

theorem regEl8 (r : Reg 8) (k : Nat) : regEl 8 r k = r k := by
  unfold regEl unpackU8
  have hm : mask 8 = BitVec.allOnes 8 := by decide
  rw [hm, show 8 * k / 8 = k by omega, show 8 * k % 8 = 0 by omega, BitVec.ushiftRight_zero, BitVec.and_allOnes]

theorem load8 {data : List Byte} {off n j : Nat} (h : off + n ≤ data.length) (hj : j < n) :
    (if j < n then data.getD (off + j) 0 else 0 : Byte) = el 8 data (off + j) := by
  have := regEl_load (N := 8) (by omega) h (loadBytes_eq h) j
  rw [regEl8] at this
  refine this.trans ?_
  rw [if_pos (by omega), show off * (8 / 8) + j = off + j by omega]

/-! ## Products -/

theorem maddubs_eq (x y : Reg 8) (k B : Nat) (hB : B ≤ 64) (h0 : (y (2 * k)).toNat < B) (h1 : (y (2 * k + 1)).toNat < B) :
    (maddubs x y k).toNat = (x (2 * k)).toNat * (y (2 * k)).toNat + (x (2 * k + 1)).toNat * (y (2 * k + 1)).toNat ∧
    (maddubs x y k).toNat ≤ 510 * (B - 1) := by
  have a0 := (x (2 * k)).isLt
  have a1 := (x (2 * k + 1)).isLt
  have i0 : (y (2 * k)).toInt = (y (2 * k)).toNat := BitVec.toInt_eq_toNat_of_lt (by omega)
  have i1 : (y (2 * k + 1)).toInt = (y (2 * k + 1)).toNat := BitVec.toInt_eq_toNat_of_lt (by omega)
  have p0 : (x (2 * k)).toNat * (y (2 * k)).toNat ≤ 255 * (B - 1) := Nat.mul_le_mul (by omega) (by omega)
  have p1 : (x (2 * k + 1)).toNat * (y (2 * k + 1)).toNat ≤ 255 * (B - 1) := Nat.mul_le_mul (by omega) (by omega)
  unfold maddubs
  dsimp only
  rw [i0, i1, ← Int.natCast_mul, ← Int.natCast_mul]
  generalize (x (2 * k)).toNat * (y (2 * k)).toNat = p at *
  generalize (x (2 * k + 1)).toNat * (y (2 * k + 1)).toNat = q at *
  have e : max (-32768) (min 32767 ((p : Int) + (q : Int))) = ((p + q : Nat) : Int) := by omega
  rw [e, BitVec.ofInt_natCast, BitVec.toNat_ofNat]
  have : (p + q) % 2 ^ 16 = p + q := Nat.mod_eq_of_lt (by omega)
  omega

theorem sx_small (a : BitVec 16) (h : a.toNat < 32768) : a.signExtend 32 = BitVec.ofNat 32 a.toNat := by
  have : a.msb = false := by rw [BitVec.msb_eq_decide]; simp; omega
  rw [BitVec.signExtend_eq_setWidth_of_msb_false this]
  apply BitVec.eq_of_toNat_eq
  rw [BitVec.toNat_setWidth, BitVec.toNat_ofNat]

theorem ofNat_ip (a b : Byte) : BitVec.ofNat 32 (a.toNat * b.toNat) = ipTerm a b := by
  unfold ipTerm
  apply BitVec.eq_of_toNat_eq
  rw [BitVec.toNat_ofNat, BitVec.toNat_mul, BitVec.toNat_setWidth, BitVec.toNat_setWidth, ← Nat.mul_mod]

/-! ## A kernel that adds block values -/

/-- `good` blocks may be merged four at a time; `value` is what a block adds. -/
structure HetOk (k : HetKernel) where
  bits : 1 ≤ k.bits ∧ k.bits ≤ 8
  per : 0 < k.per
  good : Reg k.width → Prop
  value : Reg k.width → BitVec 32
  block : ∀ x y i, k.per * (i + 1) ≤ x.length → k.bits * (k.per * (i + 1)) ≤ 8 * y.length →
    ∃ m, k.block x y i = some m ∧ good m ∧
      value m = ∑ j ∈ range k.per, ipTerm (el 8 x (k.per * i + j)) (el k.bits y (k.per * i + j))
  merge : ∀ acc ms, ms.length ≤ 4 → (∀ m ∈ ms, good m) →
    sumTree 8 (k.merge acc ms) = sumTree 8 acc + (ms.map value).sum

theorem hetLoop_eq {k : HetKernel} (h : HetOk k) {x y : List Byte} {blocks : Nat} (hx : k.per * blocks ≤ x.length)
    (hy : k.bits * (k.per * blocks) ≤ 8 * y.length) :
    ∀ (fuel i : Nat) (acc : Reg 32), blocks < i + fuel → i ≤ blocks →
    ∃ acc', k.loop x y blocks fuel i acc = some (blocks, acc') ∧
      sumTree 8 acc' = sumTree 8 acc + ∑ j ∈ range (k.per * (blocks - i)),
        ipTerm (el 8 x (k.per * i + j)) (el k.bits y (k.per * i + j)) := by
  have blk : ∀ i, i < blocks → ∃ m, k.block x y i = some m ∧ h.good m ∧
      h.value m = ∑ j ∈ range k.per, ipTerm (el 8 x (k.per * i + j)) (el k.bits y (k.per * i + j)) := by
    intro i hi
    refine h.block x y i (le_trans (Nat.mul_le_mul_left _ hi) hx) (le_trans (Nat.mul_le_mul_left _ ?_) hy)
    exact Nat.mul_le_mul_left _ hi
  intro fuel
  induction fuel with
  | zero => intro i acc h1 h2; omega
  | succ fuel ih =>
    intro i acc h1 h2
    rw [HetKernel.loop]
    have shift : ∀ c n, k.per * (i + c) + n = k.per * i + (k.per * c + n) := by
      intro c n; rw [Nat.mul_add, Nat.add_assoc]
    by_cases h4 : i + 4 ≤ blocks
    · rw [if_pos h4]
      obtain ⟨m0, e0, g0, v0⟩ := blk i (by omega)
      obtain ⟨m1, e1, g1, v1⟩ := blk (i + 1) (by omega)
      obtain ⟨m2, e2, g2, v2⟩ := blk (i + 2) (by omega)
      obtain ⟨m3, e3, g3, v3⟩ := blk (i + 3) (by omega)
      obtain ⟨acc', e, hs⟩ := ih (i + 4) (k.merge acc [m0, m1, m2, m3]) (by omega) (by omega)
      refine ⟨acc', ?_, ?_⟩
      · rw [e0, e1, e2, e3]; exact e
      · rw [hs, h.merge acc _ (by simp) (by simp [g0, g1, g2, g3])]
        simp only [List.map_cons, List.map_nil, List.sum_cons, List.sum_nil, add_zero, v0, v1, v2, v3]
        rw [show k.per * (blocks - i) = k.per + (k.per + (k.per + (k.per + k.per * (blocks - (i + 4))))) by
          rw [show blocks - i = (blocks - (i + 4)) + 4 by omega]; ring]
        rw [Finset.sum_range_add, Finset.sum_range_add, Finset.sum_range_add, Finset.sum_range_add]
        simp only [add_assoc]
        simp only [shift, Nat.mul_one, show k.per * 2 = k.per + k.per by ring,
          show k.per * 3 = k.per + (k.per + k.per) by ring, show k.per * 4 = k.per + (k.per + (k.per + k.per)) by ring,
          Nat.add_assoc]
    · rw [if_neg h4]
      by_cases h5 : i < blocks
      · rw [if_pos h5]
        obtain ⟨m0, e0, g0, v0⟩ := blk i (by omega)
        obtain ⟨acc', e, hs⟩ := ih (i + 1) (k.merge acc [m0]) (by omega) (by omega)
        refine ⟨acc', ?_, ?_⟩
        · rw [e0]; exact e
        · rw [hs, h.merge acc _ (by simp) (by simp [g0])]
          simp only [List.map_cons, List.map_nil, List.sum_cons, List.sum_nil, add_zero, v0]
          rw [show k.per * (blocks - i) = k.per + k.per * (blocks - (i + 1)) by
            rw [show blocks - i = (blocks - (i + 1)) + 1 by omega]; ring]
          rw [Finset.sum_range_add]
          simp only [add_assoc]
          simp only [shift, Nat.mul_one]
      · rw [if_neg h5, show blocks - i = 0 by omega]
        exact ⟨acc, by rw [show i = blocks by omega], by simp⟩

theorem hetRun_eq {k : HetKernel} (h : HetOk k) (x y : BitSlice) (hl : x.count = y.count)
    (hx : x.data.length = x.count) (hy : y.data.length = (k.bits * y.count + 7) / 8) :
    k.run x y = some (.ok (∑ j ∈ range x.count, ipTerm (el 8 x.data j) (el k.bits y.data j))) := by
  unfold HetKernel.run
  rw [if_neg (by simpa using hl)]
  dsimp only
  have hle : x.count / k.per * k.per ≤ x.count := Nat.div_mul_le_self _ _
  have hyb : k.bits * x.count ≤ 8 * y.data.length := by rw [hl]; omega
  have key : ∀ s, s = ∑ j ∈ range (x.count / k.per * k.per), ipTerm (el 8 x.data j) (el k.bits y.data j) →
      (if x.count / k.per * k.per ≠ x.count then do
        let t ← elemSum 8 k.bits ipTerm x.data y.data
          (List.range' (x.count / k.per * k.per) (x.count - x.count / k.per * k.per))
        some (.ok (s + t))
       else some (.ok s) : Option (Except LenError (BitVec 32)))
      = some (.ok (∑ j ∈ range x.count, ipTerm (el 8 x.data j) (el k.bits y.data j))) := by
    intro s hs
    split
    · rw [elemSum_eq (by omega) (by omega) h.bits.1 h.bits.2]
      · simp only [Option.bind_eq_bind, Option.bind_some]
        congr 2
        rw [hs, ← Finset.sum_range_add, Nat.add_sub_cancel' hle]
      · rw [Nat.add_sub_cancel' hle]; omega
      · rw [Nat.add_sub_cancel' hle]; exact hyb
    · rename_i he
      have he : x.count / k.per * k.per = x.count := by simpa using he
      rw [hs, he]
  by_cases hp : 0 < x.count / k.per
  · rw [if_pos hp]
    obtain ⟨acc', e, hs⟩ := hetLoop_eq h (x := x.data) (y := y.data) (blocks := x.count / k.per)
      (by rw [Nat.mul_comm, hx]; exact hle)
      (le_trans (Nat.mul_le_mul_left _ (by rw [Nat.mul_comm]; exact hle)) hyb)
      (x.count / k.per + 1) 0 (fun _ => 0) (by omega) (by omega)
    rw [e]
    simp only [Option.bind_eq_bind, Option.bind_some]
    refine key _ ?_
    have z : sumTree 8 (fun _ => 0) = 0 := by decide
    rw [hs, z, zero_add, Nat.sub_zero, Nat.mul_comm]
    simp
  · have h0 : x.count / k.per = 0 := Nat.eq_zero_of_not_pos hp
    rw [if_neg hp]
    simp only [Option.bind_eq_bind, Option.bind_some]
    have := key 0 (by rw [h0]; simp)
    rw [h0] at this
    simpa using this

/-! ## The three kernels -/

theorem mergeOnes_sum (B : Nat) (hB : 4 * B < 32768) (acc : Reg 32) (ms : List (Reg 16)) (hl : ms.length ≤ 4)
    (hg : ∀ m ∈ ms, ∀ k, k < 16 → (m k).toNat ≤ B) :
    sumTree 8 (mergeOnes acc ms)
      = sumTree 8 acc + (ms.map (fun m => ∑ k ∈ range 16, BitVec.ofNat 32 (m k).toNat)).sum := by
  have lane : ∀ k, k < 16 → (((ms.map (fun (m : Reg 16) => m k)).sum).signExtend 32
      = (ms.map (fun (m : Reg 16) => BitVec.ofNat 32 (m k).toNat)).sum) := by
    intro k hk
    have aux : ∀ l : List (Reg 16), (∀ m ∈ l, (m k).toNat ≤ B) → l.length ≤ 4 →
        ((l.map (fun (m : Reg 16) => m k)).sum).toNat ≤ l.length * B ∧
        BitVec.ofNat 32 ((l.map (fun (m : Reg 16) => m k)).sum).toNat
          = (l.map (fun (m : Reg 16) => BitVec.ofNat 32 (m k).toNat)).sum := by
      intro l
      induction l with
      | nil => intro _ _; simp
      | cons a l ih =>
        intro hh hlen
        rw [List.length_cons] at hlen
        obtain ⟨i1, i2⟩ := ih (fun m hm => hh m (List.mem_cons_of_mem _ hm)) (by omega)
        have ha := hh a List.mem_cons_self
        have hlB : l.length * B ≤ 3 * B := Nat.mul_le_mul_right _ (by omega)
        have hs : (a k + (l.map (fun (m : Reg 16) => m k)).sum).toNat
            = (a k).toNat + ((l.map (fun (m : Reg 16) => m k)).sum).toNat := by
          rw [BitVec.toNat_add]; exact Nat.mod_eq_of_lt (by omega)
        simp only [List.map_cons, List.sum_cons, List.length_cons]
        refine ⟨?_, ?_⟩
        · rw [hs, Nat.add_mul]; omega
        · rw [hs, BitVec.ofNat_add, i2]
    obtain ⟨i1, i2⟩ := aux ms (fun m hm => hg m hm k hk) hl
    have : ms.length * B ≤ 4 * B := Nat.mul_le_mul_right _ hl
    rw [sx_small _ (by omega), i2]
  have one : (1#16).signExtend 32 = 1#32 := by decide
  rw [sumTree_eq, sumTree_eq]
  have e : ∀ l, l < 8 → mergeOnes acc ms l = acc l
      + ((ms.map (fun (m : Reg 16) => BitVec.ofNat 32 (m (2 * l)).toNat)).sum
        + (ms.map (fun (m : Reg 16) => BitVec.ofNat 32 (m (2 * l + 1)).toNat)).sum) := by
    intro l hl
    unfold mergeOnes madd
    dsimp only
    rw [lane _ (by omega), lane _ (by omega)]
    have one' : (1 : BitVec 16).signExtend 32 = 1 := by decide
    rw [one', mul_one, mul_one]
  rw [Finset.sum_congr rfl (fun l hl => e l (Finset.mem_range.mp hl)), Finset.sum_add_distrib]
  congr 1
  clear e lane hg hl
  induction ms with
  | nil => simp
  | cons a ms ih =>
    simp only [List.map_cons, List.sum_cons]
    rw [← ih]
    simp only [Finset.sum_range_succ, Finset.sum_range_zero, Nat.reduceMul, Nat.reduceAdd]
    ring

theorem het4_block (x y : List Byte) (i : Nat) (hx : 32 * (i + 1) ≤ x.length)
    (hy : 4 * (32 * (i + 1)) ≤ 8 * y.length) :
    ∃ m : Reg 16, het4Block x y i = some m ∧ (∀ k, k < 16 → (m k).toNat ≤ 7650) ∧
      (∑ k ∈ range 16, BitVec.ofNat 32 (m k).toNat) = ∑ j ∈ range 32, ipTerm (el 8 x (32 * i + j)) (el 4 y (32 * i + j)) := by
  have bx : 32 * i + 32 ≤ x.length := by omega
  have by' : 16 * i + 16 ≤ y.length := by omega
  refine ⟨_, by simp only [het4Block, loadBytes_eq bx, loadBytes_eq by', Option.bind_eq_bind, Option.bind_some]; rfl,
    ?_, ?_⟩
  · intro k hk
    exact (maddubs_eq _ _ k 16 (by omega) (by rw [unpack4]; exact regEl_lt (by omega) _ _)
      (by rw [unpack4]; exact regEl_lt (by omega) _ _)).2
  · have hxe : ∀ j, j < 32 → (fun k => if k < 32 then x.getD (32 * i + k) 0 else 0 : Reg 8) j = el 8 x (32 * i + j) := by
      intro j hj
      exact load8 bx hj
    have hye : ∀ j, j < 32 → regEl 4 (fun k => if k < 16 then y.getD (16 * i + k) 0 else 0) j = el 4 y (32 * i + j) := by
      intro j hj
      rw [regEl_load (by omega) by' (loadBytes_eq by'), if_pos (by omega)]
      congr 1; omega
    have lane : ∀ k, k < 16 → BitVec.ofNat 32 (maddubs (fun k => if k < 32 then x.getD (32 * i + k) 0 else 0)
        (unpackSub 4 (fun k => if k < 16 then y.getD (16 * i + k) 0 else 0)) k).toNat
        = ipTerm (el 8 x (32 * i + 2 * k)) (el 4 y (32 * i + 2 * k))
          + ipTerm (el 8 x (32 * i + (2 * k + 1))) (el 4 y (32 * i + (2 * k + 1))) := by
      intro k hk
      rw [(maddubs_eq _ _ k 16 (by omega) (by rw [unpack4]; exact regEl_lt (by omega) _ _)
        (by rw [unpack4]; exact regEl_lt (by omega) _ _)).1, BitVec.ofNat_add, ofNat_ip, ofNat_ip, unpack4, unpack4,
        hye _ (by omega), hye _ (by omega)]
      have a := hxe (2 * k) (by omega)
      have b := hxe (2 * k + 1) (by omega)
      dsimp only at a b
      rw [a, b]
    rw [Finset.sum_congr rfl (fun k hk => lane k (Finset.mem_range.mp hk))]
    change _ = ∑ j ∈ range 32, ipTerm (el 8 x (32 * i + j)) (el 4 y (32 * i + j))
    simp only [Finset.sum_range_succ, Finset.sum_range_zero, Nat.reduceMul, Nat.reduceAdd]
    ring

def het4_ok : HetOk het4 where
  bits := by decide
  per := by decide
  good m := ∀ k, k < 16 → (m k).toNat ≤ 7650
  value m := ∑ k ∈ range 16, BitVec.ofNat 32 (m k).toNat
  block := het4_block
  merge acc ms hl hg := mergeOnes_sum 7650 (by omega) acc ms hl hg

theorem het2_block (x y : List Byte) (i : Nat) (hx : 64 * (i + 1) ≤ x.length)
    (hy : 2 * (64 * (i + 1)) ≤ 8 * y.length) :
    ∃ m : Reg 16, het2Block x y i = some m ∧ (∀ k, k < 16 → (m k).toNat ≤ 3060) ∧
      (∑ k ∈ range 16, BitVec.ofNat 32 (m k).toNat) = ∑ j ∈ range 64, ipTerm (el 8 x (64 * i + j)) (el 2 y (64 * i + j)) := by
  have bx : 64 * i + 32 ≤ x.length := by omega
  have bx' : 64 * i + 32 + 32 ≤ x.length := by omega
  have by' : 16 * i + 16 ≤ y.length := by omega
  have hlo : ∀ (r : Reg 8) k, unpackSub 2 (unpackSub 4 r) k = regEl 2 r k := by
    intro r k
    have := unpack2 r 0 k
    simpa using this
  have hhi : ∀ (r : Reg 8) k, unpackSub 2 (fun k => unpackSub 4 r (16 + k)) k = regEl 2 r (32 + k) := by
    intro r k
    have := unpack2 r 16 k
    simpa using this
  have lo : ∀ (vx r : Reg 8) k, _ := fun vx r k => maddubs_eq vx (unpackSub 2 (unpackSub 4 r)) k 4 (by omega)
    (by rw [hlo]; exact regEl_lt (by omega) _ _) (by rw [hlo]; exact regEl_lt (by omega) _ _)
  have hi : ∀ (vx r : Reg 8) k, _ := fun vx r k => maddubs_eq vx (unpackSub 2 (fun k => unpackSub 4 r (16 + k))) k 4
    (by omega) (by rw [hhi]; exact regEl_lt (by omega) _ _) (by rw [hhi]; exact regEl_lt (by omega) _ _)
  have add : ∀ (vx vx' r : Reg 8) k, (maddubs vx (unpackSub 2 (unpackSub 4 r)) k
      + maddubs vx' (unpackSub 2 (fun k => unpackSub 4 r (16 + k))) k).toNat
      = (maddubs vx (unpackSub 2 (unpackSub 4 r)) k).toNat
        + (maddubs vx' (unpackSub 2 (fun k => unpackSub 4 r (16 + k))) k).toNat := by
    intro vx vx' r k
    have a := (lo vx r k).2
    have b := (hi vx' r k).2
    rw [BitVec.toNat_add]; exact Nat.mod_eq_of_lt (by omega)
  refine ⟨_, by simp only [het2Block, loadBytes_eq bx, loadBytes_eq bx', loadBytes_eq by', Option.bind_eq_bind,
    Option.bind_some]; rfl, ?_, ?_⟩
  · intro k hk
    have a := (lo (fun k => if k < 32 then x.getD (64 * i + k) 0 else 0)
      (fun k => if k < 16 then y.getD (16 * i + k) 0 else 0) k).2
    have b := (hi (fun k => if k < 32 then x.getD (64 * i + 32 + k) 0 else 0)
      (fun k => if k < 16 then y.getD (16 * i + k) 0 else 0) k).2
    rw [add]
    omega
  · have hxe : ∀ j, j < 32 → (fun k => if k < 32 then x.getD (64 * i + k) 0 else 0 : Reg 8) j = el 8 x (64 * i + j) := by
      intro j hj
      exact load8 bx hj
    have hxe' : ∀ j, j < 32 → (fun k => if k < 32 then x.getD (64 * i + 32 + k) 0 else 0 : Reg 8) j
        = el 8 x (64 * i + (32 + j)) := by
      intro j hj
      rw [← Nat.add_assoc]
      exact load8 bx' hj
    have hye : ∀ j, j < 64 → regEl 2 (fun k => if k < 16 then y.getD (16 * i + k) 0 else 0) j = el 2 y (64 * i + j) := by
      intro j hj
      rw [regEl_load (by omega) by' (loadBytes_eq by'), if_pos (by omega)]
      congr 1; omega
    have lane : ∀ k, k < 16 → BitVec.ofNat 32 (maddubs (fun k => if k < 32 then x.getD (64 * i + k) 0 else 0)
          (unpackSub 2 (unpackSub 4 (fun k => if k < 16 then y.getD (16 * i + k) 0 else 0))) k
        + maddubs (fun k => if k < 32 then x.getD (64 * i + 32 + k) 0 else 0)
          (unpackSub 2 (fun k' => unpackSub 4 (fun k => if k < 16 then y.getD (16 * i + k) 0 else 0) (16 + k'))) k).toNat
        = (ipTerm (el 8 x (64 * i + 2 * k)) (el 2 y (64 * i + 2 * k))
          + ipTerm (el 8 x (64 * i + (2 * k + 1))) (el 2 y (64 * i + (2 * k + 1))))
          + (ipTerm (el 8 x (64 * i + (32 + 2 * k))) (el 2 y (64 * i + (32 + 2 * k)))
          + ipTerm (el 8 x (64 * i + (32 + (2 * k + 1)))) (el 2 y (64 * i + (32 + (2 * k + 1))))) := by
      intro k hk
      rw [add, (lo _ _ k).1, (hi _ _ k).1]
      rw [BitVec.ofNat_add, BitVec.ofNat_add, BitVec.ofNat_add, ofNat_ip, ofNat_ip, ofNat_ip, ofNat_ip,
        hlo, hlo, hhi, hhi, hye _ (by omega), hye _ (by omega), hye _ (by omega), hye _ (by omega)]
      have a := hxe (2 * k) (by omega)
      have b := hxe (2 * k + 1) (by omega)
      have c := hxe' (2 * k) (by omega)
      have d := hxe' (2 * k + 1) (by omega)
      dsimp only at a b c d
      rw [a, b, c, d]
    rw [Finset.sum_congr rfl (fun k hk => lane k (Finset.mem_range.mp hk))]
    change _ = ∑ j ∈ range 64, ipTerm (el 8 x (64 * i + j)) (el 2 y (64 * i + j))
    simp only [Finset.sum_range_succ, Finset.sum_range_zero, Nat.reduceMul, Nat.reduceAdd]
    ring

def het2_ok : HetOk het2 where
  bits := by decide
  per := by decide
  good m := ∀ k, k < 16 → (m k).toNat ≤ 3060
  value m := ∑ k ∈ range 16, BitVec.ofNat 32 (m k).toNat
  block := het2_block
  merge acc ms hl hg := mergeOnes_sum 3060 (by omega) acc ms hl hg

theorem mask_ip (a b : Byte) (hb : b.toNat < 2) : BitVec.ofNat 32 (if b.getLsbD 0 then a else 0).toNat = ipTerm a b := by
  have : b = 0#8 ∨ b = 1#8 := by
    have : b.toNat = 0 ∨ b.toNat = 1 := by omega
    rcases this with h | h
    · left; exact BitVec.eq_of_toNat_eq h
    · right; exact BitVec.eq_of_toNat_eq h
  rw [← ofNat_ip]
  rcases this with rfl | rfl <;> simp

theorem het1_value (vx : Reg 8) (w : BitVec 32) (X Y : Nat → Byte) (hx : ∀ j, j < 32 → vx j = X j)
    (hy : ∀ j, j < 32 → w.getLsbD j = (Y j).getLsbD 0) (hlt : ∀ j, j < 32 → (Y j).toNat < 2) :
    (∑ l ∈ range 8, if l % 2 = 0 then BitVec.ofNat 32 (((List.range 8).map (fun (k : Nat) =>
      (if w.getLsbD (8 * (l / 2) + k) then vx (8 * (l / 2) + k) else 0).toNat)).sum) else 0)
      = ∑ j ∈ range 32, ipTerm (X j) (Y j) := by
  have even : ∀ q, q < 4 → BitVec.ofNat 32 (((List.range 8).map (fun (k : Nat) =>
      (if w.getLsbD (8 * q + k) then vx (8 * q + k) else 0).toNat)).sum)
      = ∑ j ∈ range 8, ipTerm (X (8 * q + j)) (Y (8 * q + j)) := by
    intro q hq
    have aux : ∀ n, n ≤ 8 → BitVec.ofNat 32 (((List.range n).map (fun (k : Nat) =>
        (if w.getLsbD (8 * q + k) then vx (8 * q + k) else 0).toNat)).sum)
        = ∑ j ∈ range n, ipTerm (X (8 * q + j)) (Y (8 * q + j)) := by
      intro n
      induction n with
      | zero => intro _; rfl
      | succ n ih =>
        intro hn
        rw [List.range_succ, List.map_append, List.sum_append, BitVec.ofNat_add, ih (by omega), Finset.sum_range_succ]
        congr 1
        simp only [List.map_cons, List.map_nil, List.sum_cons, List.sum_nil, Nat.add_zero]
        rw [hx _ (by omega), hy _ (by omega)]
        exact mask_ip _ _ (hlt _ (by omega))
    exact aux 8 (le_refl _)
  have four : ∀ f : Nat → BitVec 32, (∑ l ∈ range 8, if l % 2 = 0 then f (l / 2) else 0) = ∑ q ∈ range 4, f q := by
    intro f
    simp [Finset.sum_range_succ]
  have sb : ∀ f : Nat → BitVec 32, (∑ q ∈ range 4, ∑ j ∈ range 8, f (8 * q + j)) = ∑ j ∈ range 32, f j := by
    intro f
    exact sum_blocks f 8 4
  rw [← sb, ← Finset.sum_congr rfl (fun q hq => even q (Finset.mem_range.mp hq))]
  exact four (fun q => BitVec.ofNat 32 (((List.range 8).map (fun (k : Nat) =>
      (if w.getLsbD (8 * q + k) then vx (8 * q + k) else 0).toNat)).sum))

theorem het1_block (x y : List Byte) (i : Nat) (hx : 32 * (i + 1) ≤ x.length)
    (hy : 1 * (32 * (i + 1)) ≤ 8 * y.length) :
    ∃ m : Reg 32, het1Block x y i = some m ∧ True ∧
      (∑ k ∈ range 8, m k) = ∑ j ∈ range 32, ipTerm (el 8 x (32 * i + j)) (el 1 y (32 * i + j)) := by
  have bx : 32 * i + 32 ≤ x.length := by omega
  have by' : 4 * i + 4 ≤ y.length := by omega
  obtain ⟨vx, ex, hvx⟩ : ∃ vx, loadBytes x (32 * i) 32 = some vx ∧ ∀ j, j < 32 → vx j = el 8 x (32 * i + j) :=
    ⟨_, loadBytes_eq bx, fun j hj => load8 bx hj⟩
  obtain ⟨vy, ey, hvy⟩ : ∃ vy, loadBytes y (4 * i) 4 = some vy ∧ ∀ j, j < 32 → regEl 1 vy j = el 1 y (32 * i + j) := by
    refine ⟨_, loadBytes_eq by', fun j hj => ?_⟩
    rw [regEl_load (N := 1) (by omega) by' (loadBytes_eq by'), if_pos (by omega),
      show 4 * i * (8 / 1) + j = 32 * i + j by omega]
  have hm := het1_value vx (asU32 vy 0) (fun j => el 8 x (32 * i + j)) (fun j => el 1 y (32 * i + j)) hvx
    (fun j hj => by
      rw [← hvy j hj, regEl_bit (by omega), asU32_bit _ _ _ hj]
      simp)
    (fun j hj => by
      rw [← hvy j hj]
      exact regEl_lt (by omega) _ _)
  unfold het1Block
  rw [ex, ey]
  exact ⟨_, rfl, trivial, hm⟩

theorem mergeAdd_sum (acc : Reg 32) (ms : List (Reg 32)) :
    sumTree 8 (mergeAdd acc ms) = sumTree 8 acc + (ms.map (fun m => ∑ k ∈ range 8, m k)).sum := by
  rw [sumTree_eq, sumTree_eq]
  unfold mergeAdd
  rw [Finset.sum_add_distrib]
  congr 1
  induction ms with
  | nil => simp
  | cons a ms ih =>
    simp only [List.map_cons, List.sum_cons]
    rw [Finset.sum_add_distrib, ih]

def het1_ok : HetOk het1 where
  bits := by decide
  per := by decide
  good _ := True
  value m := ∑ k ∈ range 8, m k
  block := het1_block
  merge acc ms _ _ := mergeAdd_sum acc ms

end Verif.Quant
