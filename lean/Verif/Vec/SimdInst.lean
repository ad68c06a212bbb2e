import Verif.Vec.SimdLemmas
import Verif.Vec.SimdSpec
import Verif.Quant.BitKernelLemmas
import Mathlib.Algebra.Order.BigOperators.Ring.Finset

/-! # The schemas are sound for their terms -/

namespace Verif.Vec

open Finset Verif.Quant

section Float

variable {K : Type} [Field K]

theorem sumLanes_lane0 {α : Type} [AddCommMonoid α] {w : Nat} (hw : 0 < w) (s : α) : sumLanes w (lane0 s) = s := by
  rw [sumLanes_eq]
  unfold lane0
  rw [Finset.sum_ite_eq' (range w) 0 (fun _ => s)]
  simp [hw]

theorem sumLanes_add {α : Type} [AddCommMonoid α] (w : Nat) (a b : Lanes α) :
    sumLanes w (fun k => a k + b k) = sumLanes w a + sumLanes w b := by
  simp only [sumLanes_eq, Finset.sum_add_distrib]

theorem sumLanes_zero {α : Type} [AddCommMonoid α] (w : Nat) : sumLanes w (fun _ => (0 : α)) = 0 := by
  simp [sumLanes_eq]

theorem float_acc (g : K → K → K) (f : K → K → K → K) (hf : ∀ x y a, f x y a = g x y + a) (w : Nat) (vx vy a : Lanes K) :
    sumLanes w (fun k => f (vx k) (vy k) (a k)) = sumLanes w a + ∑ k ∈ range w, g (vx k) (vy k) := by
  simp only [hf, sumLanes_eq, Finset.sum_add_distrib]
  rw [add_comm]

theorem floatSchema_sound (g : K → K → K) (g0 : g 0 0 = 0) (f : K → K → K → K) (hf : ∀ x y a, f x y a = g x y + a)
    (w : Nat) (hw : 0 < w) (main : Strategy) (e : Epi) (he : e ≠ .unreachable ∨ w = 1) :
    Sound (floatSchema f w main e) (sumLanes w) g where
  pos := hw
  init := sumLanes_zero w
  acc := fun vx vy a => float_acc g f hf w vx vy a
  comb := fun a b => sumLanes_add w a b
  epi := by
    intro x y off len a hl hlen h hxy
    change len < w at hl
    change ∃ a', floatEpilogue e w f x y off len a = some a' ∧ _
    have hm : min len (w - 1) = len := by omega
    cases e
    · exact defaultEpilogue_ok (val := sumLanes w) g0 (fun vx vy a => float_acc g f hf w vx vy a) x y off len a hl h hxy
    · obtain ⟨s, h1, h2⟩ := scalarLoop_ok (fun s vx vy => f vx vy s) (fun (s : K) => s) g
        (fun b c d => by rw [hf, add_comm]) x y hxy off len 0 h
      unfold floatEpilogue
      rw [h1]
      refine ⟨_, rfl, ?_⟩
      rw [sumLanes_add, sumLanes_lane0 hw, h2, zero_add]
    · obtain ⟨s, h1, h2⟩ := scalarLoop_ok (fun s vx vy => f vx vy s) (fun (s : K) => s) g
        (fun b c d => by rw [hf, add_comm]) x y hxy off len 0 h
      unfold floatEpilogue
      rw [hm, h1]
      refine ⟨_, rfl, ?_⟩
      rw [sumLanes_add, sumLanes_lane0 hw, h2, zero_add]
    · obtain ⟨s, h1, h2⟩ := scalarLoop_ok (fun (r : Lanes K) vx vy => fun k => f (lane0 vx k) (lane0 vy k) (r k))
        (sumLanes w) g (fun b c d => by
          rw [float_acc g f hf]
          congr 1
          rw [Finset.sum_eq_single_of_mem 0 (by simpa using hw)]
          · simp [lane0]
          · intro k _ hk; simp [lane0, hk, g0]) x y hxy off len (fun _ => 0) h
      unfold floatEpilogue
      rw [hm, h1]
      refine ⟨_, rfl, ?_⟩
      rw [sumLanes_add, h2, sumLanes_zero, zero_add]
    · rcases he with he | he
      · exact absurd rfl he
      · omega

theorem l2Float_sound (arch : Arch) (ty : FloatTy) :
    ∃ w, (l2Float arch ty : Schema K K (Lanes K) K).reduce = sumLanes w ∧
      Sound (l2Float arch ty : Schema K K (Lanes K) K) (sumLanes w) (fun x y => (x - y) * (x - y)) := by
  have key := floatSchema_sound (K := K) (fun x y => (x - y) * (x - y)) (by simp) l2Term (fun x y a => rfl)
  cases arch <;> cases ty <;> exact ⟨_, rfl, key _ (by decide) _ _ (Or.inl (by decide))⟩

theorem ipFloat_sound (arch : Arch) (ty : FloatTy) :
    ∃ w, (ipFloat arch ty : Schema K K (Lanes K) K).reduce = sumLanes w ∧
      Sound (ipFloat arch ty : Schema K K (Lanes K) K) (sumLanes w) (fun x y => x * y) := by
  have key := floatSchema_sound (K := K) (fun x y => x * y) (by simp) ipTerm (fun x y a => rfl)
  cases arch <;> cases ty <;> exact ⟨_, rfl, key _ (by decide) _ _ (Or.inl (by decide))⟩

variable [LinearOrder K]

theorem l1Float_sound (arch : Arch) (ty : FloatTy) (S : Schema K K (Lanes K) K) (hS : l1Float arch ty = some S) :
    ∃ w, S.reduce = sumLanes w ∧ Sound S (sumLanes w) (fun x _ => |x|) := by
  have key := floatSchema_sound (K := K) (fun x _ => |x|) (by simp [abs]) l1Term (fun x y a => rfl)
  cases arch <;> cases ty <;> first
    | (cases hS; exact ⟨_, rfl, key _ (by decide) _ _ (by decide)⟩)
    | cases hS

/-- The three sums of a cosine accumulator. -/
def cosVal {α : Type} [Add α] [Zero α] (w : Nat) (a : CosAcc (Lanes α)) : α × α × α :=
  (sumLanes w a.normx, sumLanes w a.normy, sumLanes w a.xy)

theorem cosVal_add {α : Type} [AddCommMonoid α] (w : Nat) (a b : CosAcc (Lanes α)) :
    cosVal w (a.add b) = cosVal w a + cosVal w b := by
  simp only [cosVal, CosAcc.add, sumLanes_add, Prod.mk_add_mk]

theorem cosVal_zero {α : Type} [AddCommMonoid α] (w : Nat) : cosVal w (CosAcc.zero : CosAcc (Lanes α)) = 0 := by
  simp only [cosVal, CosAcc.zero, sumLanes_zero]; rfl

theorem triple_sum {α : Type} [AddCommMonoid α] (n : Nat) (a b c : Nat → α) :
    ∑ k ∈ range n, (a k, b k, c k) = (∑ k ∈ range n, a k, ∑ k ∈ range n, b k, ∑ k ∈ range n, c k) := by
  induction n with
  | zero => rfl
  | succ n ih => simp only [Finset.sum_range_succ, ih, Prod.mk_add_mk]

theorem triple_list_sum {α β : Type} [AddCommMonoid α] (l : List β) (a b c : β → α) :
    (l.map (fun p => (a p, b p, c p))).sum = ((l.map a).sum, (l.map b).sum, (l.map c).sum) := by
  induction l with
  | nil => rfl
  | cons p l ih => simp only [List.map_cons, List.sum_cons, ih, Prod.mk_add_mk]

omit [LinearOrder K] in
theorem cos_acc (w : Nat) (vx vy : Lanes K) (a : CosAcc (Lanes K)) :
    cosVal w (CosAcc.addWith vx vy a)
      = cosVal w a + ∑ k ∈ range w, (vx k * vx k, vy k * vy k, vx k * vy k) := by
  rw [triple_sum]
  simp only [cosVal, CosAcc.addWith, Prod.mk_add_mk]
  rw [float_acc (fun x y => x * x) (fun x y a => x * x + a) (fun _ _ _ => rfl) w vx vy a.normx,
    float_acc (fun x y => y * y) (fun x y a => y * y + a) (fun _ _ _ => rfl) w vx vy a.normy,
    float_acc (fun x y => x * y) (fun x y a => x * y + a) (fun _ _ _ => rfl) w vx vy a.xy]

theorem cosSchema_sound (sqrt : K → K) (w : Nat) (hw : 0 < w) (main : Strategy) (e : Epi)
    (he : e = .masked ∨ e = .lane0Capped ∨ e = .vectors) :
    Sound (cosSchema sqrt w main e) (cosVal w) (fun x y => (x * x, y * y, x * y)) where
  pos := hw
  init := cosVal_zero w
  acc := fun vx vy a => cos_acc w vx vy a
  comb := fun a b => cosVal_add w a b
  epi := by
    intro x y off len a hl hlen h hxy
    change len < w at hl
    change ∃ a', cosEpilogue e w x y off len a = some a' ∧ _
    have hm : min len (w - 1) = len := by omega
    rcases he with rfl | rfl | rfl
    · exact defaultEpilogue_ok (val := cosVal w) (f := fun x y => (x * x, y * y, x * y)) (by simp)
        (fun vx vy a => cos_acc w vx vy a) x y off len a hl h hxy
    · obtain ⟨s, h1, h2⟩ := scalarLoop_ok
        (fun (s : CosAcc K) vx vy => (⟨vx * vx + s.normx, vy * vy + s.normy, vx * vy + s.xy⟩ : CosAcc K))
        (fun s => ((s.normx, s.normy, s.xy) : K × K × K)) (fun x y => (x * x, y * y, x * y))
        (fun b c d => by simp only [Prod.mk_add_mk, add_comm]) x y hxy off len ⟨0, 0, 0⟩ h
      unfold cosEpilogue
      simp only
      rw [hm, h1]
      refine ⟨_, rfl, ?_⟩
      rw [cosVal_add]
      congr 1
      rw [show (((⟨0, 0, 0⟩ : CosAcc K).normx, (⟨0, 0, 0⟩ : CosAcc K).normy, (⟨0, 0, 0⟩ : CosAcc K).xy) : K × K × K)
        = 0 from rfl, zero_add] at h2
      rw [← h2]
      simp only [cosVal, sumLanes_lane0 hw]
    · obtain ⟨s, h1, h2⟩ := scalarLoop_ok (fun (r : CosAcc (Lanes K)) vx vy => CosAcc.addWith (lane0 vx) (lane0 vy) r)
        (cosVal w) (fun x y => (x * x, y * y, x * y)) (fun b c d => by
          rw [cos_acc]
          congr 1
          rw [Finset.sum_eq_single_of_mem 0 (by simpa using hw)]
          · simp [lane0]
          · intro k _ hk; simp [lane0, hk]) x y hxy off len CosAcc.zero h
      unfold cosEpilogue
      simp only
      rw [hm, h1]
      refine ⟨_, rfl, ?_⟩
      rw [cosVal_add, h2, cosVal_zero, zero_add]

theorem cosFloat_sound (sqrt : K → K) (arch : Arch) (ty : FloatTy) :
    ∃ w, (∀ a, (cosFloat sqrt arch ty).reduce a
        = cosineSum sqrt (cosVal w a).1 (cosVal w a).2.1 (cosVal w a).2.2) ∧
      Sound (cosFloat sqrt arch ty) (cosVal w) (fun x y => (x * x, y * y, x * y)) := by
  have key := cosSchema_sound sqrt
  cases arch <;> cases ty <;> exact ⟨_, fun _ => rfl, key _ (by decide) _ _ (by decide)⟩

end Float

/-! ## Integers -/

/-- The integer an element stands for. -/
def IntTy.value (t : IntTy) (b : Byte) : Int := match t with
  | .i8 => b.toInt
  | .u8 => b.toNat

theorem IntTy.value_bound (t : IntTy) (b : Byte) : -128 ≤ t.value b ∧ t.value b ≤ 255 := by
  have := b.isLt
  cases t
  · simp only [IntTy.value]
    have h1 := BitVec.toInt_lt (x := b)
    have h2 := BitVec.le_toInt (x := b)
    omega
  · simp only [IntTy.value]; omega

theorem IntTy.widen_toInt (t : IntTy) (w : Nat) (hw : 16 ≤ w) (b : Byte) : (t.widen w b).toInt = t.value b := by
  cases t
  · simp only [IntTy.widen, IntTy.value]
    rw [BitVec.toInt_signExtend_of_le (by omega)]
  · simp only [IntTy.widen, IntTy.value]
    have hb := b.isLt
    rw [BitVec.toInt_setWidth]
    have : (2 : Int) ^ 16 ≤ 2 ^ w := by exact_mod_cast Nat.pow_le_pow_right (by omega) hw
    apply Int.bmod_eq_of_le
    · push_cast; omega
    · push_cast; omega

theorem IntTy.widen_eq (t : IntTy) (w : Nat) (hw : 16 ≤ w) (b : Byte) : t.widen w b = BitVec.ofInt w (t.value b) := by
  apply BitVec.eq_of_toInt_eq
  rw [t.widen_toInt w hw]
  have h := t.value_bound b
  rw [BitVec.toInt_ofInt]
  have : (2 : Int) ^ 16 ≤ 2 ^ w := by exact_mod_cast Nat.pow_le_pow_right (by omega) hw
  symm
  apply Int.bmod_eq_of_le
  · push_cast; omega
  · push_cast; omega

theorem sx_widen (t : IntTy) (b : Byte) : (t.widen 16 b).signExtend 32 = t.widen 32 b := by
  apply BitVec.eq_of_toInt_eq
  rw [BitVec.toInt_signExtend_of_le (by omega), t.widen_toInt 16 (by omega), t.widen_toInt 32 (by omega)]

theorem sx_sub (t : IntTy) (a b : Byte) :
    (t.widen 16 a - t.widen 16 b).signExtend 32 = t.widen 32 a - t.widen 32 b := by
  apply BitVec.eq_of_toInt_eq
  have ha := t.value_bound a
  have hb := t.value_bound b
  rw [BitVec.toInt_signExtend_of_le (by omega), BitVec.toInt_sub, BitVec.toInt_sub, t.widen_toInt 16 (by omega),
    t.widen_toInt 16 (by omega), t.widen_toInt 32 (by omega), t.widen_toInt 32 (by omega)]
  rw [Int.bmod_eq_of_le (by omega) (by omega), Int.bmod_eq_of_le (by omega) (by omega)]

theorem ofInt_sub (a b : Int) : BitVec.ofInt 32 (a - b) = BitVec.ofInt 32 a - BitVec.ofInt 32 b := by
  rw [eq_sub_iff_add_eq, ← BitVec.ofInt_add, sub_add_cancel]

theorem l2Scalar_eq (t : IntTy) (a b : Byte) :
    l2Scalar t a b = BitVec.ofInt 32 ((t.value a - t.value b) * (t.value a - t.value b)) := by
  unfold l2Scalar
  rw [t.widen_eq 32 (by omega), t.widen_eq 32 (by omega), ← ofInt_sub, ← BitVec.ofInt_mul]

theorem ipScalar_eq (t : IntTy) (a b : Byte) : ipScalar t a b = BitVec.ofInt 32 (t.value a * t.value b) := by
  unfold ipScalar
  rw [t.widen_eq 32 (by omega), t.widen_eq 32 (by omega), ← BitVec.ofInt_mul]

theorem pair_sum {M : Type*} [AddCommMonoid M] (f : Nat → M) (n : Nat) :
    ∑ l ∈ range n, (f (2 * l) + f (2 * l + 1)) = ∑ k ∈ range (2 * n), f k := by
  rw [← Verif.Vec.sum_blocks f 2 n]
  refine Finset.sum_congr rfl (fun l _ => ?_)
  simp [Finset.sum_range_succ]

theorem l2Madd_acc (t : IntTy) (lanes : Nat) (vx vy : Lanes Byte) (a : Acc32) :
    sumLanes lanes (l2Madd t vx vy a) = sumLanes lanes a + ∑ k ∈ range (2 * lanes), l2Scalar t (vx k) (vy k) := by
  rw [← pair_sum (fun k => l2Scalar t (vx k) (vy k))]
  simp only [l2Madd, madd, sx_sub, sumLanes_eq, Finset.sum_add_distrib, l2Scalar]

theorem ipMadd_acc (t : IntTy) (lanes : Nat) (vx vy : Lanes Byte) (a : Acc32) :
    sumLanes lanes (ipMadd t vx vy a) = sumLanes lanes a + ∑ k ∈ range (2 * lanes), ipScalar t (vx k) (vy k) := by
  rw [← pair_sum (fun k => ipScalar t (vx k) (vy k))]
  simp only [ipMadd, madd, sx_widen, sumLanes_eq, Finset.sum_add_distrib, ipScalar]

theorem l2Neon_acc (t : IntTy) (vx vy : Lanes Byte) (a : Acc32) :
    sumLanes 8 (l2Neon t vx vy a) = sumLanes 8 a + ∑ k ∈ range 16, l2Scalar t (vx k) (vy k) := by
  simp only [l2Neon, sx_sub, sumLanes_eq, l2Scalar, Finset.sum_range_succ, Finset.sum_range_zero, Nat.reduceDiv,
    Nat.reduceMod, Nat.reduceMul, Nat.reduceAdd]
  abel

theorem ipNeon_acc (t : IntTy) (vx vy : Lanes Byte) (a : Acc32) :
    sumLanes 4 (ipNeon t vx vy a) = sumLanes 4 a + ∑ k ∈ range 16, ipScalar t (vx k) (vy k) := by
  simp only [ipNeon, sumLanes_eq, ipScalar, Finset.sum_range_succ, Finset.sum_range_zero, Nat.reduceMul, Nat.reduceAdd]
  abel

theorem lanes_acc (g : Byte → Byte → BitVec 32) (w : Nat) (vx vy : Lanes Byte) (a : Acc32) :
    sumLanes w (fun k => a k + g (vx k) (vy k)) = sumLanes w a + ∑ k ∈ range w, g (vx k) (vy k) := by
  simp only [sumLanes_eq, Finset.sum_add_distrib]

theorem intEpilogue_ok (g : Byte → Byte → BitVec 32) {lanes : Nat} (hl : 0 < lanes) (x y : List Byte) (off len : Nat)
    (a : Acc32) (h : off + len ≤ x.length) (hxy : x.length = y.length) :
    ∃ a', intEpilogue g x y off len a = some a' ∧
      sumLanes lanes a' = sumLanes lanes a + ∑ k ∈ range len, g (x.getD (off + k) 0) (y.getD (off + k) 0) := by
  obtain ⟨s, h1, h2⟩ := scalarLoop_ok (fun s vx vy => s + g vx vy) (fun (s : BitVec 32) => s) g
    (fun b c d => rfl) x y hxy off len 0 h
  unfold intEpilogue
  rw [h1]
  refine ⟨_, rfl, ?_⟩
  rw [sumLanes_add, sumLanes_lane0 hl, h2, zero_add]

theorem intSchema_sound (g : Byte → Byte → BitVec 32) (w lanes : Nat) (hw : 0 < w) (main : Strategy)
    (step : Lanes Byte → Lanes Byte → Acc32 → Acc32)
    (hstep : ∀ vx vy a, sumLanes lanes (step vx vy a) = sumLanes lanes a + ∑ k ∈ range w, g (vx k) (vy k))
    (epi : List Byte → List Byte → Nat → Nat → Acc32 → Option Acc32) (at' : AccTy)
    (hepi : ∀ x y off len a, len < w → len ≠ 0 → off + len ≤ x.length → x.length = y.length →
      ∃ a', epi x y off len a = some a' ∧
        sumLanes lanes a' = sumLanes lanes a + ∑ k ∈ range len, g (x.getD (off + k) 0) (y.getD (off + k) 0)) :
    Sound (intSchema w lanes main step epi at') (sumLanes lanes) g where
  pos := hw
  init := sumLanes_zero lanes
  acc := hstep
  comb := fun a b => sumLanes_add lanes a b
  epi := hepi

/-- The accumulator type of the `L2` schemas. -/
def accTy : Arch → IntTy → AccTy
  | .neon, .u8 => .u32
  | _, _ => .i32

theorem l2Scalar_zero (t : IntTy) : l2Scalar t 0 0 = 0 := by cases t <;> decide
theorem ipScalar_zero (t : IntTy) : ipScalar t 0 0 = 0 := by cases t <;> decide

theorem l2Int_sound (arch : Arch) (t : IntTy) :
    ∃ lanes, (∀ a, (l2Int arch t).reduce a = (accTy arch t).asF32 (sumLanes lanes a)) ∧
      Sound (l2Int arch t) (sumLanes lanes) (l2Scalar t) := by
  cases arch
  · refine ⟨4, fun a => by cases t <;> rfl, ?_⟩
    exact intSchema_sound _ _ _ (by decide) _ _ (lanes_acc (l2Scalar t) 4) _ _
      (fun x y off len a _ _ h hxy => intEpilogue_ok _ (by decide) x y off len a h hxy)
  · refine ⟨8, fun a => by cases t <;> rfl, ?_⟩
    exact intSchema_sound _ _ _ (by decide) _ _ (l2Madd_acc t 8) _ _
      (fun x y off len a hl _ h hxy => defaultEpilogue_ok (val := sumLanes 8) (f := l2Scalar t) (l2Scalar_zero t)
        (l2Madd_acc t 8) x y off len a hl h hxy)
  · refine ⟨16, fun a => by cases t <;> rfl, ?_⟩
    exact intSchema_sound _ _ _ (by decide) _ _ (l2Madd_acc t 16) _ _
      (fun x y off len a hl _ h hxy => defaultEpilogue_ok (val := sumLanes 16) (f := l2Scalar t) (l2Scalar_zero t)
        (l2Madd_acc t 16) x y off len a hl h hxy)
  · refine ⟨8, fun a => by cases t <;> rfl, ?_⟩
    cases t
    all_goals
      exact intSchema_sound _ _ _ (by decide) _ _ (l2Neon_acc _) _ _
        (fun x y off len a hl _ h hxy => by
          rw [show min len 15 = len by omega]
          exact intEpilogue_ok _ (by decide) x y off len a h hxy)

theorem ipInt_sound (arch : Arch) (t : IntTy) :
    ∃ lanes, (∀ a, (ipInt arch t).reduce a = (accTy arch t).asF32 (sumLanes lanes a)) ∧
      Sound (ipInt arch t) (sumLanes lanes) (ipScalar t) := by
  cases arch
  · refine ⟨1, fun a => by cases t <;> rfl, ?_⟩
    refine intSchema_sound _ _ _ (by decide) _ _ (fun vx vy a => ?_) _ _
      (fun x y off len a hl h0 h hxy => absurd hl (by omega))
    simp only [add_comm (ipScalar t _ _)]
    exact lanes_acc (ipScalar t) 1 vx vy a
  · refine ⟨8, fun a => by cases t <;> rfl, ?_⟩
    exact intSchema_sound _ _ _ (by decide) _ _ (ipMadd_acc t 8) _ _
      (fun x y off len a hl _ h hxy => defaultEpilogue_ok (val := sumLanes 8) (f := ipScalar t) (ipScalar_zero t)
        (ipMadd_acc t 8) x y off len a hl h hxy)
  · refine ⟨16, fun a => by cases t <;> rfl, ?_⟩
    exact intSchema_sound _ _ _ (by decide) _ _ (ipMadd_acc t 16) _ _
      (fun x y off len a hl _ h hxy => defaultEpilogue_ok (val := sumLanes 16) (f := ipScalar t) (ipScalar_zero t)
        (ipMadd_acc t 16) x y off len a hl h hxy)
  · refine ⟨4, fun a => by cases t <;> rfl, ?_⟩
    cases t
    all_goals
      exact intSchema_sound _ _ _ (by decide) _ _ (ipNeon_acc _) _ _
        (fun x y off len a hl _ h hxy => by
          rw [show min len 15 = len by omega]
          exact intEpilogue_ok _ (by decide) x y off len a h hxy)

/-- The three products of a pair of elements. -/
def cosTerm (t : IntTy) (x y : Byte) : BitVec 32 × BitVec 32 × BitVec 32 :=
  (ipScalar t x x, ipScalar t y y, ipScalar t x y)

theorem cosStep_acc (t : IntTy) (w lanes : Nat) (step : Lanes Byte → Lanes Byte → Acc32 → Acc32)
    (hstep : ∀ vx vy a, sumLanes lanes (step vx vy a) = sumLanes lanes a + ∑ k ∈ range w, ipScalar t (vx k) (vy k))
    (vx vy : Lanes Byte) (a : CosAcc Acc32) :
    cosVal lanes (cosStep step vx vy a) = cosVal lanes a + ∑ k ∈ range w, cosTerm t (vx k) (vy k) := by
  unfold cosTerm
  rw [triple_sum]
  simp only [cosVal, cosStep, hstep, Prod.mk_add_mk]

theorem cosIntEpilogue_ok (t : IntTy) {lanes : Nat} (hl : 0 < lanes) (x y : List Byte) (off len : Nat)
    (a : CosAcc Acc32) (h : off + len ≤ x.length) (hxy : x.length = y.length) :
    ∃ a', cosIntEpilogue t x y off len a = some a' ∧
      cosVal lanes a' = cosVal lanes a + ∑ k ∈ range len, cosTerm t (x.getD (off + k) 0) (y.getD (off + k) 0) := by
  obtain ⟨s, h1, h2⟩ := scalarLoop_ok (fun (s : CosAcc (BitVec 32)) vx vy =>
    (⟨s.normx + ipScalar t vx vx, s.normy + ipScalar t vy vy, s.xy + ipScalar t vx vy⟩ : CosAcc (BitVec 32)))
    (fun s => ((s.normx, s.normy, s.xy) : BitVec 32 × BitVec 32 × BitVec 32)) (cosTerm t)
    (fun b c d => rfl) x y hxy off len ⟨0, 0, 0⟩ h
  unfold cosIntEpilogue
  rw [h1]
  refine ⟨_, rfl, ?_⟩
  rw [cosVal_add]
  congr 1
  rw [show (((⟨0, 0, 0⟩ : CosAcc (BitVec 32)).normx, (⟨0, 0, 0⟩ : CosAcc (BitVec 32)).normy,
    (⟨0, 0, 0⟩ : CosAcc (BitVec 32)).xy) : BitVec 32 × BitVec 32 × BitVec 32) = 0 from rfl, zero_add] at h2
  rw [← h2]
  simp only [cosVal, sumLanes_lane0 hl]

section

variable {K : Type} [Field K] [LinearOrder K]

theorem cosIntSchema_sound (sqrt : K → K) (t : IntTy) (w lanes : Nat) (hw : 0 < w) (main : Strategy)
    (step : Lanes Byte → Lanes Byte → Acc32 → Acc32)
    (hstep : ∀ vx vy a, sumLanes lanes (step vx vy a) = sumLanes lanes a + ∑ k ∈ range w, ipScalar t (vx k) (vy k))
    (epi : List Byte → List Byte → Nat → Nat → CosAcc Acc32 → Option (CosAcc Acc32)) (at' : AccTy)
    (hepi : ∀ x y off len a, len < w → len ≠ 0 → off + len ≤ x.length → x.length = y.length →
      ∃ a', epi x y off len a = some a' ∧
        cosVal lanes a' = cosVal lanes a + ∑ k ∈ range len, cosTerm t (x.getD (off + k) 0) (y.getD (off + k) 0)) :
    Sound (cosIntSchema sqrt w lanes main step epi at') (cosVal lanes) (cosTerm t) where
  pos := hw
  init := cosVal_zero lanes
  acc := cosStep_acc t w lanes step hstep
  comb := fun a b => cosVal_add lanes a b
  epi := hepi

theorem cosTerm_zero (t : IntTy) : cosTerm t 0 0 = 0 := by cases t <;> decide

theorem cosInt_sound (sqrt : K → K) (arch : Arch) (t : IntTy) :
    ∃ lanes, (∀ a, (cosInt sqrt arch t).reduce a = cosineSum sqrt
        ((accTy arch t).asF32 (cosVal lanes a).1) ((accTy arch t).asF32 (cosVal lanes a).2.1)
        ((accTy arch t).asF32 (cosVal lanes a).2.2)) ∧
      Sound (cosInt sqrt arch t) (cosVal lanes) (cosTerm t) := by
  cases arch
  · refine ⟨4, fun a => by cases t <;> rfl, ?_⟩
    refine cosIntSchema_sound sqrt t _ _ (by decide) _ _ (fun vx vy a => ?_) _ _
      (fun x y off len a hl h0 h hxy => cosIntEpilogue_ok t (by decide) x y off len a h hxy)
    simp only [add_comm (ipScalar t _ _)]
    exact lanes_acc (ipScalar t) 4 vx vy a
  · refine ⟨8, fun a => by cases t <;> rfl, ?_⟩
    exact cosIntSchema_sound sqrt t _ _ (by decide) _ _ (ipMadd_acc t 8) _ _
      (fun x y off len a hl _ h hxy => defaultEpilogue_ok (val := cosVal 8) (f := cosTerm t) (cosTerm_zero t)
        (cosStep_acc t 16 8 _ (ipMadd_acc t 8)) x y off len a hl h hxy)
  · refine ⟨16, fun a => by cases t <;> rfl, ?_⟩
    exact cosIntSchema_sound sqrt t _ _ (by decide) _ _ (ipMadd_acc t 16) _ _
      (fun x y off len a hl _ h hxy => defaultEpilogue_ok (val := cosVal 16) (f := cosTerm t) (cosTerm_zero t)
        (cosStep_acc t 32 16 _ (ipMadd_acc t 16)) x y off len a hl h hxy)
  · refine ⟨4, fun a => by cases t <;> rfl, ?_⟩
    cases t
    all_goals
      exact cosIntSchema_sound sqrt _ _ _ (by decide) _ _ (ipNeon_acc _) _ _
        (fun x y off len a hl _ h hxy => by
          rw [show min len 15 = len by omega]
          exact cosIntEpilogue_ok _ (by decide) x y off len a h hxy)

end

/-! ## From 32 bits to integers, and to single precision -/

theorem ofInt_list_sum {β : Type} (l : List β) (f : β → Int) :
    (l.map (fun p => BitVec.ofInt 32 (f p))).sum = BitVec.ofInt 32 ((l.map f).sum) := by
  induction l with
  | nil => rfl
  | cons p l ih => simp only [List.map_cons, List.sum_cons, ih, BitVec.ofInt_add]

theorem toF32_close' (n : Nat) :
    2 ^ 24 * toF32 n ≤ 2 ^ 24 * n + n ∧ 2 ^ 24 * n ≤ 2 ^ 24 * toF32 n + n := by
  unfold toF32
  split
  · omega
  · rename_i h
    have h24 : 24 ≤ Nat.log2 n := (Nat.le_log2 (by omega)).mpr (by omega)
    have hl : 2 ^ Nat.log2 n ≤ n := Nat.log2_self_le (by omega)
    have e : 2 ^ Nat.log2 n = 2 ^ (Nat.log2 n - 23) * 2 ^ 23 := by rw [← Nat.pow_add]; congr 1; omega
    have hq : 0 < 2 ^ (Nat.log2 n - 23) := Nat.pow_pos (by omega)
    generalize 2 ^ (Nat.log2 n - 23) = q at *
    have hd := Nat.div_add_mod n q
    have hm := Nat.mod_lt n hq
    rw [Nat.mul_comm] at hd
    unfold roundEven
    dsimp only
    have hs : (n / q + 1) * q = n / q * q + q := by ring
    repeat' split
    all_goals omega

theorem toF32_exact (n : Nat) (h : n ≤ 2 ^ 24) : toF32 n = n := by
  rcases Nat.lt_or_ge n (2 ^ 24) with h' | h'
  · unfold toF32; rw [if_pos h']
  · have : n = 2 ^ 24 := by omega
    subst this
    decide +kernel

theorem asF32_i32 (z : Int) (h1 : -2 ^ 31 ≤ z) (h2 : z < 2 ^ 31) :
    Spec.Single z (AccTy.i32.asF32 (BitVec.ofInt 32 z)) := by
  have e : (BitVec.ofInt 32 z).toInt = z := by
    rw [BitVec.toInt_ofInt]; exact Int.bmod_eq_of_le (by omega) (by omega)
  simp only [AccTy.asF32, e]
  constructor
  · intro h
    rw [Int.abs_eq_natAbs] at h
    rw [toF32_exact z.natAbs (by omega), Int.sign_mul_natAbs]
  · obtain ⟨c1, c2⟩ := toF32_close' z.natAbs
    generalize toF32 z.natAbs = t at *
    rcases lt_trichotomy z 0 with h | h | h
    · rw [Int.sign_eq_neg_one_of_neg h, abs_of_neg h]
      rcases abs_cases (-1 * (t : Int) - z) with ⟨e, -⟩ | ⟨e, -⟩ <;> rw [e] <;> omega
    · subst h; simp
    · rw [Int.sign_eq_one_of_pos h, abs_of_pos h]
      rcases abs_cases (1 * (t : Int) - z) with ⟨e, -⟩ | ⟨e, -⟩ <;> rw [e] <;> omega

theorem asF32_u32 (z : Int) (h1 : 0 ≤ z) (h2 : z < 2 ^ 32) :
    Spec.Single z (AccTy.u32.asF32 (BitVec.ofInt 32 z)) := by
  have e : (BitVec.ofInt 32 z).toNat = z.toNat := by
    rw [BitVec.toNat_ofInt]; omega
  simp only [AccTy.asF32, e]
  constructor
  · intro h
    rw [abs_of_nonneg h1] at h
    rw [toF32_exact z.toNat (by omega)]; omega
  · obtain ⟨c1, c2⟩ := toF32_close' z.toNat
    generalize toF32 z.toNat = t at *
    rw [abs_of_nonneg h1]
    rcases abs_cases ((t : Int) - z) with ⟨e, -⟩ | ⟨e, -⟩ <;> rw [e] <;> omega

end Verif.Vec
