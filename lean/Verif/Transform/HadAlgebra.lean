import Verif.Transform.HadLemmas
import Mathlib.Tactic.Positivity
import Mathlib.Data.List.GetD
import Mathlib.Tactic.Linarith

/-! Lemmas for C83: entries, inner products and the inverse of the Hadamard matrix product. -/

namespace Verif.Rotate

open Finset

variable {K : Type}

section

variable [CommRing K]

theorem getD_plus {a b : List K} {i : Nat} (ha : i < a.length) (hb : i < b.length) :
    (plus a b).getD i 0 = a.getD i 0 + b.getD i 0 := by
  unfold plus
  simp [List.getD_eq_getElem?_getD, List.getElem?_zipWith, ha, hb]

theorem getD_minus {a b : List K} {i : Nat} (ha : i < a.length) (hb : i < b.length) :
    (minus a b).getD i 0 = a.getD i 0 - b.getD i 0 := by
  unfold minus
  simp [List.getD_eq_getElem?_getD, List.getElem?_zipWith, ha, hb]

theorem sum_range_double (n : Nat) (f : Nat → K) :
    ∑ j ∈ range (2 ^ (n + 1)), f j = ∑ j ∈ range (2 ^ n), f j + ∑ j ∈ range (2 ^ n), f (j + 2 ^ n) := by
  rw [show 2 ^ (n + 1) = 2 ^ n + 2 ^ n by rw [Nat.pow_succ]; omega, Finset.sum_range_add]
  congr 1
  exact Finset.sum_congr rfl fun j _ => by rw [Nat.add_comm]

/-- Row `i` of the product. -/
theorem had_entry {k : Nat} {x : List K} (h : x.length = 2 ^ k) {i : Nat} (hi : i < 2 ^ k) :
    (had k x).getD i 0 = ∑ j ∈ range (2 ^ k), entry i j * x.getD j 0 := by
  induction k generalizing x i with
  | zero =>
    have : i = 0 := by rw [Nat.pow_zero] at hi; omega
    subst this
    rw [had]
    have he : (entry 0 0 : K) = 1 := by simp [entry, oddOverlap, popcount_zero]
    rw [Nat.pow_zero, Finset.sum_range_one, he, one_mul]
  | succ k ih =>
    obtain ⟨a, b, rfl, ha, hb⟩ := split_pow h
    have la := length_had ha
    have lb := length_had hb
    have hga : ∀ j, j < 2 ^ k → (a ++ b).getD j 0 = a.getD j 0 := by
      intro j hj
      exact List.getD_append _ _ _ _ (by omega)
    have hgb : ∀ j, j < 2 ^ k → (a ++ b).getD (j + 2 ^ k) 0 = b.getD j 0 := by
      intro j hj
      rw [List.getD_append_right _ _ _ _ (by omega), ha, Nat.add_sub_cancel]
    rw [had_append ha, sum_range_double]
    by_cases hik : i < 2 ^ k
    · rw [List.getD_append _ _ _ _ (by rw [length_plus, la, lb]; omega), getD_plus (by omega) (by omega), ih ha hik,
        ih hb hik]
      congr 1
      · exact Finset.sum_congr rfl fun j hj => by rw [hga j (Finset.mem_range.1 hj)]
      · exact Finset.sum_congr rfl fun j hj => by
          rw [hgb j (Finset.mem_range.1 hj), entry_right hik (Finset.mem_range.1 hj)]
    · obtain ⟨i', rfl⟩ : ∃ i', i = i' + 2 ^ k := ⟨i - 2 ^ k, by omega⟩
      have hi' : i' < 2 ^ k := by rw [Nat.pow_succ] at hi; omega
      rw [List.getD_append_right _ _ _ _ (by rw [length_plus, la, lb]; omega), length_plus, la, lb, Nat.min_self,
        Nat.add_sub_cancel, getD_minus (by omega) (by omega), ih ha hi', ih hb hi', sub_eq_add_neg,
        ← Finset.sum_neg_distrib]
      congr 1
      · exact Finset.sum_congr rfl fun j hj => by
          rw [hga j (Finset.mem_range.1 hj), entry_left hi' (Finset.mem_range.1 hj)]
      · exact Finset.sum_congr rfl fun j hj => by
          rw [hgb j (Finset.mem_range.1 hj), entry_both hi' (Finset.mem_range.1 hj), neg_mul]

/-! ## Inner products -/

theorem inner_append {a b c d : List K} (h : a.length = c.length) : inner (a ++ b) (c ++ d) = inner a c + inner b d := by
  unfold inner
  rw [List.zipWith_append h, List.sum_append]

theorem inner_butterfly {a b c d : List K} (h1 : a.length = b.length) (h2 : c.length = d.length)
    (h3 : a.length = c.length) :
    inner (plus a b) (plus c d) + inner (minus a b) (minus c d) = 2 * (inner a c + inner b d) := by
  induction a generalizing b c d with
  | nil =>
    obtain rfl : b = [] := List.eq_nil_of_length_eq_zero h1.symm
    simp [inner, plus, minus]
  | cons a0 a ih =>
    match b, c, d, h1, h2, h3 with
    | b0 :: b, c0 :: c, d0 :: d, h1, h2, h3 =>
      have := ih (b := b) (c := c) (d := d) (by simpa using h1) (by simpa using h2) (by simpa using h3)
      simp only [inner, plus, minus, List.zipWith_cons_cons, List.sum_cons] at this ⊢
      linear_combination this

theorem inner_had {k : Nat} {x y : List K} (hx : x.length = 2 ^ k) (hy : y.length = 2 ^ k) :
    inner (had k x) (had k y) = 2 ^ k * inner x y := by
  induction k generalizing x y with
  | zero => rw [had, had, pow_zero, one_mul]
  | succ k ih =>
    obtain ⟨a, b, rfl, ha, hb⟩ := split_pow hx
    obtain ⟨c, d, rfl, hc, hd⟩ := split_pow hy
    rw [had_append ha, had_append hc]
    rw [inner_append (by rw [length_plus, length_plus, length_had ha, length_had hb, length_had hc, length_had hd]),
      inner_butterfly (by rw [length_had ha, length_had hb]) (by rw [length_had hc, length_had hd])
        (by rw [length_had ha, length_had hc]), ih ha hc, ih hb hd, inner_append (by rw [ha, hc])]
    ring

/-! ## The product twice -/

theorem plus_comm4 {a b c d : List K} : plus (plus a b) (plus c d) = plus (plus a c) (plus b d) := by
  unfold plus
  induction a generalizing b c d with
  | nil => simp
  | cons a0 a ih =>
    cases b with
    | nil => simp
    | cons b0 b =>
      cases c with
      | nil => simp
      | cons c0 c =>
        cases d with
        | nil => simp
        | cons d0 d => simp only [List.zipWith_cons_cons, ih]; rw [add_add_add_comm]

theorem minus_plus4 {a b c d : List K} : minus (plus a b) (plus c d) = plus (minus a c) (minus b d) := by
  unfold plus minus
  induction a generalizing b c d with
  | nil => simp
  | cons a0 a ih =>
    cases b with
    | nil => simp
    | cons b0 b =>
      cases c with
      | nil => simp
      | cons c0 c =>
        cases d with
        | nil => simp
        | cons d0 d => simp only [List.zipWith_cons_cons, ih]; rw [add_sub_add_comm]

theorem minus_minus4 {a b c d : List K} : minus (minus a b) (minus c d) = minus (minus a c) (minus b d) := by
  unfold minus
  induction a generalizing b c d with
  | nil => simp
  | cons a0 a ih =>
    cases b with
    | nil => simp
    | cons b0 b =>
      cases c with
      | nil => simp
      | cons c0 c =>
        cases d with
        | nil => simp
        | cons d0 d => simp only [List.zipWith_cons_cons, ih]; rw [sub_sub_sub_comm]

theorem had_plus {k : Nat} {x y : List K} (hx : x.length = 2 ^ k) (hy : y.length = 2 ^ k) :
    had k (plus x y) = plus (had k x) (had k y) := by
  induction k generalizing x y with
  | zero => rfl
  | succ k ih =>
    obtain ⟨a, b, rfl, ha, hb⟩ := split_pow hx
    obtain ⟨c, d, rfl, hc, hd⟩ := split_pow hy
    rw [plus_append (by rw [ha, hc]), had_append (by rw [length_plus, ha, hc, Nat.min_self]), had_append ha,
      had_append hc, plus_append (by
        rw [length_plus, length_plus, length_had ha, length_had hb, length_had hc, length_had hd]),
      ih ha hc, ih hb hd, plus_comm4, ← minus_plus4]

theorem had_minus {k : Nat} {x y : List K} (hx : x.length = 2 ^ k) (hy : y.length = 2 ^ k) :
    had k (minus x y) = minus (had k x) (had k y) := by
  induction k generalizing x y with
  | zero => rfl
  | succ k ih =>
    obtain ⟨a, b, rfl, ha, hb⟩ := split_pow hx
    obtain ⟨c, d, rfl, hc, hd⟩ := split_pow hy
    rw [minus_append (by rw [ha, hc]), had_append (by rw [length_minus, ha, hc, Nat.min_self]), had_append ha,
      had_append hc, minus_append (by
        rw [length_plus, length_plus, length_had ha, length_had hb, length_had hc, length_had hd]),
      ih ha hc, ih hb hd, minus_minus4, ← minus_plus4]

theorem had_scale {k : Nat} {x : List K} (hx : x.length = 2 ^ k) (m : K) :
    had k (x.map (· * m)) = (had k x).map (· * m) := by
  induction k generalizing x with
  | zero => rfl
  | succ k ih =>
    obtain ⟨a, b, rfl, ha, hb⟩ := split_pow hx
    rw [List.map_append, had_append (by rw [List.length_map, ha]), had_append ha, ih ha, ih hb, List.map_append]
    congr 1
    · unfold plus
      rw [List.map_zipWith, List.zipWith_map]
      simp only [add_mul]
    · unfold minus
      rw [List.map_zipWith, List.zipWith_map]
      simp only [sub_mul]

theorem plus_minus_self {a b : List K} (h : a.length = b.length) :
    plus (plus a b) (minus a b) = a.map (· * 2) ∧ minus (plus a b) (minus a b) = b.map (· * 2) := by
  unfold plus minus
  induction a generalizing b with
  | nil =>
    obtain rfl : b = [] := List.eq_nil_of_length_eq_zero h.symm
    simp
  | cons a0 a ih =>
    match b, h with
    | b0 :: b, h =>
      obtain ⟨h1, h2⟩ := ih (b := b) (by simpa using h)
      simp only [List.zipWith_cons_cons, List.map_cons, h1, h2]
      exact ⟨by congr 1; ring, by congr 1; ring⟩

theorem had_had {k : Nat} {x : List K} (hx : x.length = 2 ^ k) : had k (had k x) = x.map (· * 2 ^ k) := by
  induction k generalizing x with
  | zero => simp [had]
  | succ k ih =>
    obtain ⟨a, b, rfl, ha, hb⟩ := split_pow hx
    have la := length_had ha
    have lb := length_had hb
    rw [had_append ha, had_append (by rw [length_plus, la, lb, Nat.min_self]), had_plus la lb, had_minus la lb,
      ih ha, ih hb]
    obtain ⟨h1, h2⟩ := plus_minus_self (a := a.map (· * (2 : K) ^ k)) (b := b.map (· * (2 : K) ^ k))
      (by rw [List.length_map, List.length_map, ha, hb])
    rw [h1, h2, List.map_append, List.map_map, List.map_map]
    congr 1 <;> refine List.map_congr_left fun v _ => ?_
    · show v * 2 ^ k * 2 = v * 2 ^ (k + 1); ring
    · show v * 2 ^ k * 2 = v * 2 ^ (k + 1); ring

theorem inner_scale {x y : List K} (m : K) : inner (x.map (· * m)) (y.map (· * m)) = m * m * inner x y := by
  unfold inner
  rw [List.zipWith_map]
  induction x generalizing y with
  | nil => simp
  | cons a x ih =>
    cases y with
    | nil => simp
    | cons b y =>
      simp only [List.zipWith_cons_cons, List.sum_cons, ih]
      ring

end

/-! ## The scaled transform -/

section

variable [Field K] [LinearOrder K] [IsStrictOrderedRing K]

/-- The scaled product of dimension `2 ^ k`. -/
def scaled (sqrt : K → K) (k : Nat) (x : List K) : List K := (had k x).map (· * (1 / sqrt (2 ^ k)))

omit [LinearOrder K] [IsStrictOrderedRing K] in
theorem length_scaled {sqrt : K → K} {k : Nat} {x : List K} (h : x.length = 2 ^ k) :
    (scaled sqrt k x).length = 2 ^ k := by
  unfold scaled; rw [List.length_map, length_had h]

theorem root_one {sqrt : K → K} (h : IsRoot (sqrt 1) 1) : sqrt 1 = 1 := by
  obtain ⟨h0, h1⟩ := h
  nlinarith [mul_self_nonneg (sqrt 1 - 1)]

theorem root_ne {sqrt : K → K} {k : Nat} (h : IsRoot (sqrt (2 ^ k)) (2 ^ k)) : sqrt (2 ^ k) ≠ 0 := by
  intro h0
  have := h.2
  rw [h0, mul_zero] at this
  exact absurd this.symm (by positivity)

theorem hadamardTransform_ok {sqrt : K → K} (arch : Arch) {k : Nat} {x : List K} (h : x.length = 2 ^ k)
    (hs : IsRoot (sqrt (2 ^ k)) (2 ^ k)) : hadamardTransform sqrt arch x = some (some (scaled sqrt k x)) := by
  have hp : isPowerOfTwo x.length = true := (isPowerOfTwo_iff _).2 ⟨k, h⟩
  unfold hadamardTransform
  rw [if_neg (by rw [hp]; decide)]
  cases k with
  | zero =>
    rw [if_pos (by rw [h]; rfl)]
    unfold scaled had
    rw [pow_zero] at hs ⊢
    rw [root_one hs]
    simp
  | succ k =>
    rw [if_neg (by rw [h, Nat.pow_succ]; have := Nat.two_pow_pos k; omega), recursive_ok arch h]
    show some (some _) = _
    unfold scaled
    rw [h]
    push_cast
    rfl

omit [LinearOrder K] [IsStrictOrderedRing K] in
theorem hadamardTransform_err {sqrt : K → K} (arch : Arch) {x : List K} (h : ∀ k, x.length ≠ 2 ^ k) :
    hadamardTransform sqrt arch x = some none := by
  unfold hadamardTransform
  rw [if_pos]
  rw [Bool.eq_false_iff]
  intro hc
  obtain ⟨k, hk⟩ := (isPowerOfTwo_iff _).1 hc
  exact h k hk

theorem inner_scaled {sqrt : K → K} {k : Nat} {x y : List K} (hx : x.length = 2 ^ k) (hy : y.length = 2 ^ k)
    (hs : IsRoot (sqrt (2 ^ k)) (2 ^ k)) : inner (scaled sqrt k x) (scaled sqrt k y) = inner x y := by
  have hne := root_ne hs
  unfold scaled
  rw [inner_scale, inner_had hx hy]
  have h2 := hs.2
  have : 1 / sqrt (2 ^ k) * (1 / sqrt (2 ^ k)) * 2 ^ k = 1 := by
    rw [div_mul_div_comm, h2, one_mul]
    exact one_div_mul_cancel (by positivity)
  rw [← mul_assoc, this, one_mul]

theorem scaled_scaled {sqrt : K → K} {k : Nat} {x : List K} (hx : x.length = 2 ^ k)
    (hs : IsRoot (sqrt (2 ^ k)) (2 ^ k)) : scaled sqrt k (scaled sqrt k x) = x := by
  unfold scaled
  rw [had_scale (length_had hx), had_had hx, List.map_map, List.map_map]
  conv_rhs => rw [← List.map_id x]
  refine List.map_congr_left fun v _ => ?_
  have h2 := hs.2
  show v * 2 ^ k * (1 / sqrt (2 ^ k)) * (1 / sqrt (2 ^ k)) = v
  rw [mul_assoc, div_mul_div_comm, h2, one_mul, mul_assoc, mul_one_div_cancel (by positivity), mul_one]

end

end Verif.Rotate
