import Verif.Pq.EncodeModel
import Verif.Vec.BlockLemmas
import Verif.Vec.SimdInst
import Mathlib.Algebra.Order.Field.Basic
import Mathlib.Tactic.Ring
import Mathlib.Tactic.Linarith

/-! # Lemmas for C79: floats, chunks and the closest pivot -/

namespace Verif.Pq

open Verif.Vec Finset

section

variable {K : Type} [Field K] [LinearOrder K]

namespace Fl

omit [LinearOrder K] in
@[simp] theorem num_add (a b : K) : (num a : Fl K) + num b = num (a + b) := rfl
omit [LinearOrder K] in
@[simp] theorem num_sub (a b : K) : (num a : Fl K) - num b = num (a - b) := by
  show num (a + -b) = num (a - b)
  rw [sub_eq_add_neg]
@[simp] theorem num_mul (a b : K) : (num a : Fl K) * num b = num (a * b) := rfl
omit [LinearOrder K] in
@[simp] theorem num_neg (a : K) : -(num a : Fl K) = num (-a) := rfl
omit [LinearOrder K] in
theorem zero_eq : (0 : Fl K) = num 0 := rfl

omit [LinearOrder K] in
theorem add_notFinite (a b : Fl K) (h : a.isFinite = false ∨ b.isFinite = false) : (a + b).isFinite = false := by
  show (Fl.add a b).isFinite = false
  cases a <;> cases b <;> simp_all [Fl.add, isFinite]

omit [LinearOrder K] in
theorem neg_notFinite (a : Fl K) (h : a.isFinite = false) : (-a).isFinite = false := by
  show (Fl.neg a).isFinite = false
  cases a <;> simp_all [Fl.neg, isFinite]

omit [LinearOrder K] in
theorem sub_notFinite (a b : Fl K) (h : a.isFinite = false ∨ b.isFinite = false) : (a - b).isFinite = false := by
  show (Fl.add a (-b)).isFinite = false
  refine add_notFinite a (-b) (h.imp id (neg_notFinite b))

omit [Field K] in
theorem infMul_notFinite [Zero K] (p : Bool) (v : K) : (infMul p v).isFinite = false := by
  unfold infMul
  split
  · rfl
  · split <;> rfl

theorem mul_notFinite (a b : Fl K) (h : a.isFinite = false ∨ b.isFinite = false) : (a * b).isFinite = false := by
  show (Fl.mul a b).isFinite = false
  cases a <;> cases b <;> simp_all [Fl.mul, isFinite] <;> exact infMul_notFinite _ _

/-- Not NaN. -/
def Ordered (a : Fl K) : Prop := a ≠ nan

omit [Field K] in
theorem lt_trans' {a b c : Fl K} (h1 : a.lt b = true) (h2 : b.lt c = true) : a.lt c = true := by
  cases a <;> cases b <;> cases c <;> simp_all [lt]
  exact lt_trans h1 h2

omit [Field K] in
theorem lt_of_lt_of_not_lt {a b c : Fl K} (hb : b ≠ nan) (hc : c ≠ nan) (h1 : a.lt b = true) (h2 : ¬ c.lt b = true) :
    a.lt c = true := by
  cases a <;> cases b <;> cases c <;> simp_all [lt]
  exact lt_of_lt_of_le h1 h2

omit [Field K] in
theorem lt_of_not_lt_of_lt {a b c : Fl K} (ha : a ≠ nan) (hb : b ≠ nan) (h1 : ¬ b.lt a = true) (h2 : b.lt c = true) :
    a.lt c = true := by
  cases a <;> cases b <;> cases c <;> simp_all [lt]
  exact lt_of_le_of_lt h1 h2

omit [Field K] in
theorem lt_irrefl' (a : Fl K) : ¬ a.lt a = true := by cases a <;> simp [lt]

omit [Field K] in
theorem lt_asymm' {a b : Fl K} (h : a.lt b = true) : ¬ b.lt a = true := fun h' => lt_irrefl' _ (lt_trans' h h')

omit [LinearOrder K] in
theorem two_mul' [LinearOrder K] [IsStrictOrderedRing K] (d : Fl K) : (num 2 : Fl K) * d = d + d := by
  cases d with
  | num v => simp [two_mul]
  | inf =>
    show infMul true (2 : K) = inf
    unfold infMul
    rw [if_neg two_ne_zero, if_pos]
    simp
  | ninf =>
    show infMul false (2 : K) = ninf
    unfold infMul
    rw [if_neg two_ne_zero, if_neg]
    simp
  | nan => rfl

end Fl

/-! ## Square norm -/

omit [LinearOrder K] in
theorem sumLanes_num (n : Nat) (v : Lanes K) :
    sumLanes n (fun k => (Fl.num (v k) : Fl K)) = Fl.num (sumLanes n v) := by
  unfold sumLanes
  generalize List.range n = L
  induction L with
  | nil => rfl
  | cons x xs ih => simp only [List.map_cons, List.sum_cons]; rw [ih]; rfl

omit [LinearOrder K] in
theorem getD_map_num (x : List K) (j : Nat) : (x.map Fl.num).getD j (0 : Fl K) = Fl.num (x.getD j 0) := by
  rw [List.getD_eq_getElem?_getD, List.getElem?_map, List.getD_eq_getElem?_getD]
  cases x[j]? <;> rfl

/-- Sum of squares of the eight elements at `off`. -/
def sq8 (x : List K) (off : Nat) : K := ∑ k ∈ range 8, x.getD (off + k) 0 * x.getD (off + k) 0

theorem sqStep_num (x : List K) (off : Nat) (h : off + 8 ≤ x.length) (s : Lanes K) :
    ∃ s' : Lanes K, sqStep (x.map Fl.num) off (fun k => Fl.num (s k)) = some (fun k => Fl.num (s' k)) ∧
      sumLanes 8 s' = sumLanes 8 s + sq8 x off := by
  refine ⟨fun k => x.getD (off + k) 0 * x.getD (off + k) 0 + s k, ?_, ?_⟩
  · unfold sqStep load
    rw [if_pos (by simpa using h)]
    simp only [Option.bind_eq_bind, Option.bind_some, getD_map_num, Fl.num_mul, Fl.num_add]
  · rw [sumLanes_eq, sumLanes_eq, sq8, Finset.sum_add_distrib, add_comm]

theorem sumLanes_add4 (a b c d : Lanes K) :
    sumLanes 8 (fun k => (a k + b k) + (c k + d k)) = sumLanes 8 a + sumLanes 8 b + sumLanes 8 c + sumLanes 8 d := by
  simp only [sumLanes_eq, Finset.sum_add_distrib]
  ring

theorem squareNorm_num (x : List K) : squareNorm (x.map Fl.num) = some (Fl.num (Vec.Spec.dot x x)) := by
  set g : Nat → K := fun j => x.getD j 0 * x.getD j 0 with hg
  have hsq : ∀ off, sq8 x off = ∑ k ∈ range 8, g (off + k) := fun off => rfl
  have hmain : ∃ q, (List.range (x.length / 32)).foldlM (sqMain (x.map Fl.num))
      ((fun _ => 0 : Lanes (Fl K)), (fun _ => 0 : Lanes (Fl K)), (fun _ => 0 : Lanes (Fl K)), (fun _ => 0 : Lanes (Fl K)))
        = some q ∧ ∃ a b c d : Lanes K, q = (fun k => Fl.num (a k), fun k => Fl.num (b k), fun k => Fl.num (c k),
          fun k => Fl.num (d k)) ∧
        sumLanes 8 a + sumLanes 8 b + sumLanes 8 c + sumLanes 8 d = ∑ j ∈ range (32 * (x.length / 32)), g j := by
    refine foldlM_inv _ (fun n q => ∃ a b c d : Lanes K, q = (fun k => Fl.num (a k), fun k => Fl.num (b k),
        fun k => Fl.num (c k), fun k => Fl.num (d k)) ∧
        sumLanes 8 a + sumLanes 8 b + sumLanes 8 c + sumLanes 8 d = ∑ j ∈ range (32 * n), g j) _ _ ?_ ?_
    · exact ⟨fun _ => 0, fun _ => 0, fun _ => 0, fun _ => 0, rfl, by simp [sumLanes_eq]⟩
    · rintro i hi _ ⟨a, b, c, d, rfl, hsum⟩
      have hb : 32 * i + 32 ≤ x.length := by omega
      obtain ⟨a', a1, a2⟩ := sqStep_num x (32 * i) (by omega) a
      obtain ⟨b', b1, b2⟩ := sqStep_num x (32 * i + 8) (by omega) b
      obtain ⟨c', c1, c2⟩ := sqStep_num x (32 * i + 16) (by omega) c
      obtain ⟨d', d1, d2⟩ := sqStep_num x (32 * i + 24) (by omega) d
      refine ⟨_, ?_, a', b', c', d', rfl, ?_⟩
      · unfold sqMain
        simp only [a1, b1, c1, d1, Option.bind_eq_bind, Option.bind_some]
      · rw [a2, b2, c2, d2, show 32 * (i + 1) = 32 * i + 32 by ring, Finset.sum_range_add, ← hsum]
        simp only [hsq]
        rw [show (32 : Nat) = 8 + (8 + (8 + 8)) by rfl, Finset.sum_range_add, Finset.sum_range_add, Finset.sum_range_add]
        simp only [Nat.add_assoc, Nat.reduceAdd]
        ring
  obtain ⟨q, hq, a, b, c, d, rfl, hsum⟩ := hmain
  have htail : ∃ s, (List.range (x.length % 32 / 8)).foldlM
      (fun s j => sqStep (x.map Fl.num) (32 * (x.length / 32) + 8 * j) s)
      (fun k => Fl.num ((a k + b k) + (c k + d k)) : Lanes (Fl K)) = some s ∧ ∃ e : Lanes K, s = (fun k => Fl.num (e k)) ∧
        sumLanes 8 e = ∑ j ∈ range (32 * (x.length / 32) + 8 * (x.length % 32 / 8)), g j := by
    refine foldlM_inv _ (fun n s => ∃ e : Lanes K, s = (fun k => Fl.num (e k)) ∧
        sumLanes 8 e = ∑ j ∈ range (32 * (x.length / 32) + 8 * n), g j) _ _ ?_ ?_
    · exact ⟨_, rfl, by rw [sumLanes_add4, hsum]; rfl⟩
    · rintro i hi _ ⟨e, rfl, he⟩
      obtain ⟨e', e1, e2⟩ := sqStep_num x (32 * (x.length / 32) + 8 * i) (by omega) e
      refine ⟨_, e1, e', rfl, ?_⟩
      rw [e2, he, show 32 * (x.length / 32) + 8 * (i + 1) = 32 * (x.length / 32) + 8 * i + 8 by ring,
        Finset.sum_range_add _ (32 * (x.length / 32) + 8 * i), hsq]
  obtain ⟨s, hs, e, rfl, he⟩ := htail
  have hdot : Vec.Spec.dot x x = ∑ j ∈ range x.length, g j := zip_sum (fun a b => a * b) x x rfl
  unfold squareNorm
  simp only [List.length_map, hq, Option.bind_eq_bind, Option.bind_some, Fl.num_add, hs]
  have hlen : x.length = 32 * (x.length / 32) + 8 * (x.length % 32 / 8) +
      (x.length - (32 * (x.length / 32) + 8 * (x.length % 32 / 8))) := by omega
  have hlt : x.length - (32 * (x.length / 32) + 8 * (x.length % 32 / 8)) < 8 := by omega
  generalize 32 * (x.length / 32) + 8 * (x.length % 32 / 8) = i at *
  generalize x.length - i = m at *
  split
  · unfold loadFirst
    rw [if_pos (by simp only [List.length_map]; omega)]
    simp only [Option.bind_some, getD_map_num, Option.some.injEq]
    have : (fun k => (if k < m then Fl.num (x.getD (i + k) 0) else 0) * (if k < m then Fl.num (x.getD (i + k) 0) else 0) +
        Fl.num (e k)) = (fun k => (Fl.num ((if k < m then g (i + k) else 0) + e k) : Fl K)) := by
      funext k
      split
      · rfl
      · rw [Fl.zero_eq, Fl.num_mul, Fl.num_add, mul_zero]
    rw [this, sumLanes_num, sumLanes_eq, Finset.sum_add_distrib, ← sumLanes_eq 8 e, he, hdot, hlen, Finset.sum_range_add]
    congr 1
    rw [add_comm]
    congr 1
    rw [← Finset.sum_filter]
    refine Finset.sum_congr ?_ (fun _ _ => rfl)
    ext k
    simp only [Finset.mem_filter, Finset.mem_range]
    omega
  · rw [sumLanes_num, he, hdot, hlen, show m = 0 by omega]
    rfl

/-! ## Products of a query with the pivots of a block -/

/-- What a lane accumulates for a pivot `y`. -/
def laneVal (k : Kernel) (x : List (Fl K)) (y : Nat → Fl K) : Fl K :=
  (List.range x.length).foldl (fun acc i => k.step (x.getD i 0) (y i) acc) 0

/-- The chunk was built from the view `v`. -/
structure Chunk.Holds (c : Chunk K) (v : Strided (Fl K)) : Prop where
  repr : c.data.repr = ⟨16, 1, v.nrows, v.ncols⟩
  len : c.data.mem.length = c.data.repr.storageLen
  mem : ∀ j, j < c.data.repr.storageLen → c.data.mem.getD j 0 = c.data.repr.content v.elem j
  nlen : c.norms.length = v.nrows
  norm : ∀ i, i < v.nrows → ∃ row, v.row i = some row ∧ squareNorm row = some (c.norms.getD i 0)

/-- Pivot `r`, or zeros in the padding. -/
def padRow (v : Strided (Fl K)) (r i : Nat) : Fl K := if r < v.nrows then v.elem r i else 0

theorem Chunk.Holds.load {c : Chunk K} {v : Strided (Fl K)} (h : c.Holds v) {b i : Nat} (hb : b < c.data.repr.numBlocks)
    (hi : i < v.ncols) (o : Nat) (ho : o = 0 ∨ o = 8) :
    ∃ a, Vec.load c.data.mem (c.data.repr.blockOffset b + groupsize * i + o) 8 = some a ∧
      ∀ l, l < 8 → a l = padRow v (16 * b + o + l) i := by
  have hr := h.repr
  set r := c.data.repr with hrdef
  have hg : r.group = 16 := by rw [hr]
  have hp : r.pack = 1 := by rw [hr]
  have hn : r.nrows = v.nrows := by rw [hr]
  have hc : r.ncols = v.ncols := by rw [hr]
  have hgr : r.groups = v.ncols := by
    unfold BRepr.groups divCeil
    rw [hp, hc]; simp [Nat.mod_one]
  have hpos : ∀ l, l < 8 → r.blockOffset b + groupsize * i + o + l = r.pos b i (o + l) 0 := by
    intro l hl
    unfold BRepr.blockOffset BRepr.blockStride BRepr.pos groupsize
    rw [r.padded_eq (by omega), hp, hg]
    ring
  have hlt : ∀ l, l < 8 → r.blockOffset b + groupsize * i + o + l < r.storageLen := by
    intro l hl
    rw [hpos l hl]
    exact r.pos_lt (by omega) (by omega) hb (by omega) (by omega) (by omega)
  unfold Vec.load
  rw [if_pos (by rw [h.len, ← hrdef]; have := hlt 7 (by omega); omega)]
  refine ⟨_, rfl, fun l hl => ?_⟩
  rw [h.mem _ (hlt l hl), hpos l hl, r.content_pos _ (by omega) (by omega) (by omega), hg, hp, hn, hc]
  unfold padRow
  by_cases hrow : 16 * b + o + l < v.nrows
  · rw [if_pos ⟨by omega, by omega⟩, if_pos hrow]
    congr 1 <;> omega
  · rw [if_neg (by omega), if_neg hrow]

omit [Field K] [LinearOrder K] in
theorem getElem?_getD' [Zero K] {l : List (Fl K)} {i : Nat} (h : i < l.length) : l[i]? = some (l.getD i 0) := by
  rw [List.getD_eq_getElem?_getD, List.getElem?_eq_getElem h]; rfl

theorem computeInBlock_ok {c : Chunk K} {v : Strided (Fl K)} (h : c.Holds v) (k : Kernel) (x : List (Fl K))
    (hx : x.length = v.ncols) {b : Nat} (hb : b < c.data.repr.numBlocks) :
    ∃ d, c.computeInBlock k x b = some d ∧
      (∀ l, l < 8 → d.1 l = laneVal k x (padRow v (16 * b + l))) ∧
      (∀ l, l < 8 → d.2 l = laneVal k x (padRow v (16 * b + 8 + l))) := by
  have hc : c.data.repr.ncols = v.ncols := by rw [h.repr]
  unfold Chunk.computeInBlock
  rw [if_neg (by omega), if_neg (by omega)]
  have := foldlM_inv (c.blockStep k x (c.data.repr.blockOffset b)) (fun n d =>
      (∀ l, l < 8 → d.1 l = (List.range n).foldl (fun acc i => k.step (x.getD i 0) (padRow v (16 * b + l) i) acc) 0) ∧
      (∀ l, l < 8 → d.2 l = (List.range n).foldl (fun acc i => k.step (x.getD i 0) (padRow v (16 * b + 8 + l) i) acc) 0))
    x.length ((fun _ => 0), fun _ => 0) ⟨fun l _ => rfl, fun l _ => rfl⟩ ?_
  · exact this
  · intro i hi d hd
    obtain ⟨a0, h1, h2⟩ := h.load hb (show i < v.ncols by omega) 0 (Or.inl rfl)
    obtain ⟨a1, h3, h4⟩ := h.load hb (show i < v.ncols by omega) 8 (Or.inr rfl)
    rw [Nat.add_zero] at h1
    refine ⟨_, by unfold Chunk.blockStep; rw [getElem?_getD' hi, h1, h3]; rfl, fun l hl => ?_, fun l hl => ?_⟩
    · simp only
      rw [List.range_succ, List.foldl_append, h2 l hl, hd.1 l hl, Nat.add_zero]; rfl
    · simp only
      rw [List.range_succ, List.foldl_append, h4 l hl, hd.2 l hl]; rfl

theorem batchStep_ok {c : Chunk K} {v : Strided (Fl K)} (h : c.Holds v) {xs : Strided (Fl K)} {q : Nat} {x : List (Fl K)}
    (hx : xs.rowUnchecked q = some x) (hl : x.length = v.ncols) {b j : Nat} (hb : b < c.data.repr.numBlocks)
    (hj : j < v.ncols) (acc : Two K) (ha : (∀ l, l < 8 → acc.1 l = (List.range j).foldl
        (fun acc i => Kernel.step .mathematical (x.getD i 0) (padRow v (16 * b + l) i) acc) 0) ∧
      (∀ l, l < 8 → acc.2 l = (List.range j).foldl
        (fun acc i => Kernel.step .mathematical (x.getD i 0) (padRow v (16 * b + 8 + l) i) acc) 0)) :
    ∃ acc', c.batchStep xs b q j acc = some acc' ∧
      (∀ l, l < 8 → acc'.1 l = (List.range (j + 1)).foldl
        (fun acc i => Kernel.step .mathematical (x.getD i 0) (padRow v (16 * b + l) i) acc) 0) ∧
      (∀ l, l < 8 → acc'.2 l = (List.range (j + 1)).foldl
        (fun acc i => Kernel.step .mathematical (x.getD i 0) (padRow v (16 * b + 8 + l) i) acc) 0) := by
  obtain ⟨a0, h1, h2⟩ := h.load hb hj 0 (Or.inl rfl)
  obtain ⟨a1, h3, h4⟩ := h.load hb hj 8 (Or.inr rfl)
  have hidx : groupsize * (b * c.data.repr.ncols + j) = c.data.repr.blockOffset b + groupsize * j := by
    unfold BRepr.blockOffset BRepr.blockStride groupsize
    rw [c.data.repr.padded_eq (by rw [h.repr]; exact Nat.one_pos)]
    have : c.data.repr.groups = v.ncols := by
      unfold BRepr.groups divCeil; rw [h.repr]; simp [Nat.mod_one]
    rw [this, h.repr]
    ring
  rw [Nat.add_zero] at h1
  unfold Chunk.batchStep
  rw [hx]
  simp only [Option.bind_eq_bind, Option.bind_some]
  rw [getElem?_getD' (by omega)]
  simp only [Option.bind_some]
  rw [hidx, h1, h3]
  refine ⟨_, rfl, fun l hl => ?_, fun l hl => ?_⟩
  · simp only
    rw [List.range_succ, List.foldl_append, h2 l hl, ha.1 l hl, Nat.add_zero]; rfl
  · simp only
    rw [List.range_succ, List.foldl_append, h4 l hl, ha.2 l hl]; rfl

theorem batchProducts_ok {c : Chunk K} {v : Strided (Fl K)} (h : c.Holds v) {xs : Strided (Fl K)} {q : Nat}
    {x : List (Fl K)} (hx : xs.rowUnchecked q = some x) (hl : x.length = v.ncols) {b : Nat}
    (hb : b < c.data.repr.numBlocks) :
    ∃ d, c.batchProducts xs b q = some d ∧
      (∀ l, l < 8 → d.1 l = laneVal .mathematical x (padRow v (16 * b + l))) ∧
      (∀ l, l < 8 → d.2 l = laneVal .mathematical x (padRow v (16 * b + 8 + l))) := by
  have hc : c.data.repr.ncols = v.ncols := by rw [h.repr]
  unfold Chunk.batchProducts
  simp only
  rw [hc]
  obtain ⟨acc, h1, h2⟩ := foldlM_inv (fun acc j => do
      let acc ← c.batchStep xs b q (2 * j) acc
      c.batchStep xs b q (2 * j + 1) acc) (fun n (d : Two K) =>
      (∀ l, l < 8 → d.1 l = (List.range (2 * n)).foldl
        (fun acc i => Kernel.step .mathematical (x.getD i 0) (padRow v (16 * b + l) i) acc) 0) ∧
      (∀ l, l < 8 → d.2 l = (List.range (2 * n)).foldl
        (fun acc i => Kernel.step .mathematical (x.getD i 0) (padRow v (16 * b + 8 + l) i) acc) 0))
    (v.ncols / 2) ((fun _ => 0), fun _ => 0) ⟨fun l _ => rfl, fun l _ => rfl⟩ (by
      intro i hi d hd
      obtain ⟨d1, a1, a2⟩ := batchStep_ok h hx hl hb (show 2 * i < v.ncols by omega) d hd
      obtain ⟨d2, b1, b2⟩ := batchStep_ok h hx hl hb (show 2 * i + 1 < v.ncols by omega) d1 a2
      exact ⟨d2, by rw [a1]; exact b1, b2⟩)
  rw [h1]
  simp only [Option.bind_eq_bind, Option.bind_some]
  unfold laneVal
  rw [hl]
  split
  · obtain ⟨d, d1, d2⟩ := batchStep_ok h hx hl hb (show 2 * (v.ncols / 2) < v.ncols by omega) acc h2
    rw [show 2 * (v.ncols / 2) + 1 = v.ncols by omega] at d2
    exact ⟨d, d1, d2⟩
  · rw [show 2 * (v.ncols / 2) = v.ncols by omega] at h2
    exact ⟨acc, rfl, h2⟩

end

end Verif.Pq
