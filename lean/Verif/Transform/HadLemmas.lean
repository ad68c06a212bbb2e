import Verif.Transform.HadSpec
import Mathlib.Algebra.BigOperators.Ring.Finset
import Mathlib.Tactic.Ring
import Mathlib.Tactic.Abel
import Mathlib.Tactic.FieldSimp
import Mathlib.Tactic.LinearCombination

/-! Lemmas for C83: the recursion and the kernel compute the Hadamard matrix product. -/

namespace Verif.Rotate

open Finset

variable {K : Type}

/-! ## Powers of two -/

theorem popcount_zero : popcount 0 = 0 := by rw [popcount]; rfl

theorem popcount_pos {n : Nat} (h : n ≠ 0) : popcount n = n % 2 + popcount (n / 2) := by rw [popcount, if_neg h]

theorem popcount_double (n : Nat) : popcount (2 * n) = popcount n := by
  rcases Nat.eq_zero_or_pos n with rfl | h
  · rfl
  · rw [popcount_pos (by omega)]
    rw [show 2 * n % 2 = 0 by omega, show 2 * n / 2 = n by omega, Nat.zero_add]

theorem popcount_two_pow (k : Nat) : popcount (2 ^ k) = 1 := by
  induction k with
  | zero => rw [popcount_pos (by norm_num)]; simp [popcount_zero]
  | succ k ih => rw [Nat.pow_succ, Nat.mul_comm, popcount_double, ih]

theorem popcount_eq_zero {n : Nat} (h : popcount n = 0) : n = 0 := by
  induction n using Nat.strong_induction_on with
  | _ n ih =>
    by_contra hn
    rw [popcount_pos hn] at h
    have := ih (n / 2) (by omega) (by omega)
    omega

theorem popcount_eq_one {n : Nat} (h : popcount n = 1) : ∃ k, n = 2 ^ k := by
  induction n using Nat.strong_induction_on with
  | _ n ih =>
    have hn : n ≠ 0 := by rintro rfl; rw [popcount_zero] at h; omega
    rw [popcount_pos hn] at h
    rcases Nat.mod_two_eq_zero_or_one n with h2 | h2
    · obtain ⟨k, hk⟩ := ih (n / 2) (by omega) (by omega)
      exact ⟨k + 1, by rw [Nat.pow_succ]; omega⟩
    · have := popcount_eq_zero (n := n / 2) (by omega)
      exact ⟨0, by rw [Nat.pow_zero]; omega⟩

theorem isPowerOfTwo_iff (n : Nat) : isPowerOfTwo n = true ↔ ∃ k, n = 2 ^ k := by
  unfold isPowerOfTwo
  rw [beq_iff_eq]
  exact ⟨popcount_eq_one, fun ⟨k, hk⟩ => hk ▸ popcount_two_pow k⟩

/-- A one above all digits adds one to the count. -/
theorem popcount_add_two_pow {a k : Nat} (h : a < 2 ^ k) : popcount (a + 2 ^ k) = popcount a + 1 := by
  induction k generalizing a with
  | zero =>
    have : a = 0 := by rw [Nat.pow_zero] at h; omega
    subst this
    rw [popcount_zero, Nat.zero_add, popcount_two_pow]
  | succ k ih =>
    rw [Nat.pow_succ] at h ⊢
    rw [popcount_pos (n := a + 2 ^ k * 2) (by have := Nat.two_pow_pos k; omega)]
    rw [show (a + 2 ^ k * 2) / 2 = a / 2 + 2 ^ k by omega, ih (by omega),
      show (a + 2 ^ k * 2) % 2 = a % 2 by omega]
    rcases Nat.eq_zero_or_pos a with rfl | ha
    · simp [popcount_zero]
    · rw [popcount_pos (n := a) (by omega)]; omega

theorem and_add_left {i j k : Nat} (hi : i < 2 ^ k) (hj : j < 2 ^ k) : (i + 2 ^ k) &&& j = i &&& j := by
  apply Nat.eq_of_testBit_eq
  intro b
  rw [Nat.testBit_and, Nat.testBit_and, Nat.add_comm]
  rcases Nat.lt_trichotomy b k with hb | hb | hb
  · rw [Nat.testBit_two_pow_add_gt hb]
  · subst hb
    rw [Nat.testBit_lt_two_pow hj, Bool.and_false, Bool.and_false]
  · have : j < 2 ^ b := Nat.lt_trans hj (Nat.pow_lt_pow_right (by norm_num) hb)
    rw [Nat.testBit_lt_two_pow this, Bool.and_false, Bool.and_false]

theorem and_add_both {i j k : Nat} (hi : i < 2 ^ k) (hj : j < 2 ^ k) :
    (i + 2 ^ k) &&& (j + 2 ^ k) = (i &&& j) + 2 ^ k := by
  have hij : i &&& j < 2 ^ k := Nat.lt_of_le_of_lt Nat.and_le_left hi
  apply Nat.eq_of_testBit_eq
  intro b
  rw [Nat.testBit_and, Nat.add_comm i, Nat.add_comm j, Nat.add_comm (i &&& j)]
  rcases Nat.lt_trichotomy b k with hb | hb | hb
  · rw [Nat.testBit_two_pow_add_gt hb, Nat.testBit_two_pow_add_gt hb, Nat.testBit_two_pow_add_gt hb, Nat.testBit_and]
  · subst hb
    rw [Nat.testBit_two_pow_add_eq, Nat.testBit_two_pow_add_eq, Nat.testBit_two_pow_add_eq,
      Nat.testBit_lt_two_pow hi, Nat.testBit_lt_two_pow hj, Nat.testBit_lt_two_pow hij]
    rfl
  · have hp : 2 ^ k + 2 ^ k ≤ 2 ^ b := by
      rw [← Nat.two_mul, ← Nat.pow_succ']
      exact Nat.pow_le_pow_right (by norm_num) hb
    rw [Nat.testBit_lt_two_pow (by omega), Nat.testBit_lt_two_pow (show 2 ^ k + (i &&& j) < 2 ^ b by omega)]
    rfl

section Entry

variable [Ring K]

theorem entry_right {i j k : Nat} (hi : i < 2 ^ k) (hj : j < 2 ^ k) : (entry i (j + 2 ^ k) : K) = entry i j := by
  unfold entry oddOverlap
  rw [Nat.and_comm i, and_add_left hj hi, Nat.and_comm j]

theorem entry_left {i j k : Nat} (hi : i < 2 ^ k) (hj : j < 2 ^ k) : (entry (i + 2 ^ k) j : K) = entry i j := by
  unfold entry oddOverlap
  rw [and_add_left hi hj]

theorem entry_both {i j k : Nat} (hi : i < 2 ^ k) (hj : j < 2 ^ k) :
    (entry (i + 2 ^ k) (j + 2 ^ k) : K) = -entry i j := by
  unfold entry oddOverlap
  rw [and_add_both hi hj, popcount_add_two_pow (Nat.lt_of_le_of_lt Nat.and_le_left hi)]
  rcases Nat.mod_two_eq_zero_or_one (popcount (i &&& j)) with h | h
  · rw [show (popcount (i &&& j) + 1) % 2 = 1 by omega, h]; simp
  · rw [show (popcount (i &&& j) + 1) % 2 = 0 by omega, h]; simp

end Entry

/-! ## The transform as a function on lists -/

/-- The product with the Hadamard matrix of dimension `2 ^ k`, without scaling. -/
def had [Add K] [Sub K] : Nat → List K → List K
  | 0, x => x
  | k + 1, x =>
    plus (had k (x.take (2 ^ k))) (had k (x.drop (2 ^ k))) ++ minus (had k (x.take (2 ^ k))) (had k (x.drop (2 ^ k)))

section Had

variable [Ring K]

theorem length_plus (a b : List K) : (plus a b).length = min a.length b.length := List.length_zipWith ..

theorem length_minus (a b : List K) : (minus a b).length = min a.length b.length := List.length_zipWith ..

theorem length_had {k : Nat} {x : List K} (h : x.length = 2 ^ k) : (had k x).length = 2 ^ k := by
  induction k generalizing x with
  | zero => exact h
  | succ k ih =>
    rw [Nat.pow_succ] at h
    have h1 : (x.take (2 ^ k)).length = 2 ^ k := by rw [List.length_take]; omega
    have h2 : (x.drop (2 ^ k)).length = 2 ^ k := by rw [List.length_drop]; omega
    rw [had, List.length_append, length_plus, length_minus, ih h1, ih h2, Nat.pow_succ]
    omega

theorem had_append {k : Nat} {a b : List K} (h : a.length = 2 ^ k) :
    had (k + 1) (a ++ b) = plus (had k a) (had k b) ++ minus (had k a) (had k b) := by
  rw [had, List.take_left' h, List.drop_left' h]

theorem split_pow {k : Nat} {x : List K} (h : x.length = 2 ^ (k + 1)) :
    ∃ a b : List K, x = a ++ b ∧ a.length = 2 ^ k ∧ b.length = 2 ^ k := by
  rw [Nat.pow_succ] at h
  refine ⟨x.take (2 ^ k), x.drop (2 ^ k), (List.take_append_drop _ _).symm, ?_, ?_⟩
  · rw [List.length_take]; omega
  · rw [List.length_drop]; omega

theorem plus_append {a b c d : List K} (h : a.length = c.length) : plus (a ++ b) (c ++ d) = plus a c ++ plus b d := by
  unfold plus; exact List.zipWith_append h

theorem minus_append {a b c d : List K} (h : a.length = c.length) :
    minus (a ++ b) (c ++ d) = minus a c ++ minus b d := by
  unfold minus; exact List.zipWith_append h

/-- Eight elements. -/
theorem list8 {c : List K} (h : c.length = 8) : ∃ c0 c1 c2 c3 c4 c5 c6 c7, c = [c0, c1, c2, c3, c4, c5, c6, c7] := by
  match c, h with
  | [c0, c1, c2, c3, c4, c5, c6, c7], _ => exact ⟨c0, c1, c2, c3, c4, c5, c6, c7, rfl⟩

theorem had8 (c0 c1 c2 c3 c4 c5 c6 c7 : K) :
    had 3 [c0, c1, c2, c3, c4, c5, c6, c7] =
      [(c0 + c1) + (c2 + c3) + ((c4 + c5) + (c6 + c7)), (c0 - c1) + (c2 - c3) + ((c4 - c5) + (c6 - c7)),
       (c0 + c1) - (c2 + c3) + ((c4 + c5) - (c6 + c7)), (c0 - c1) - (c2 - c3) + ((c4 - c5) - (c6 - c7)),
       (c0 + c1) + (c2 + c3) - ((c4 + c5) + (c6 + c7)), (c0 - c1) + (c2 - c3) - ((c4 - c5) + (c6 - c7)),
       (c0 + c1) - (c2 + c3) - ((c4 + c5) - (c6 + c7)), (c0 - c1) - (c2 - c3) - ((c4 - c5) - (c6 - c7))] := by
  rfl

theorem register_ok {x : List K} {r : Nat} (h : 8 * r + 8 ≤ x.length) :
    register x r = some (had 3 ((x.drop (8 * r)).take 8)) := by
  have hget : ∀ o, o < 8 → x[o + 8 * r]? = ((x.drop (8 * r)).take 8)[o]? := by
    intro o ho
    rw [List.getElem?_take_of_lt ho, List.getElem?_drop, Nat.add_comm]
  obtain ⟨c0, c1, c2, c3, c4, c5, c6, c7, hc⟩ := list8 (c := (x.drop (8 * r)).take 8)
    (by rw [List.length_take, List.length_drop]; omega)
  rw [hc] at hget ⊢
  have g0 := hget 0 (by omega)
  have g1 := hget 1 (by omega)
  have g2 := hget 2 (by omega)
  have g3 := hget 3 (by omega)
  have g4 := hget 4 (by omega)
  have g5 := hget 5 (by omega)
  have g6 := hget 6 (by omega)
  have g7 := hget 7 (by omega)
  have e1 : 0 + 8 * r + 1 = 1 + 8 * r := by omega
  have e3 : 2 + 8 * r + 1 = 3 + 8 * r := by omega
  have e5 : 4 + 8 * r + 1 = 5 + 8 * r := by omega
  have e7 : 6 + 8 * r + 1 = 7 + 8 * r := by omega
  have p0 : ∀ d : List K, patch x r d 0 = some (mulAdd c1 [1, -1, 1, -1, 1, -1, 1, -1]
      (mulAdd c0 [1, 1, 1, 1, 1, 1, 1, 1] d)) := by
    intro d; unfold patch; rw [e1, g0, g1]; rfl
  have p2 : ∀ d : List K, patch x r d 2 = some (mulAdd c3 [1, -1, -1, 1, 1, -1, -1, 1]
      (mulAdd c2 [1, 1, -1, -1, 1, 1, -1, -1] d)) := by
    intro d; unfold patch; rw [e3, g2, g3]; rfl
  have p4 : ∀ d : List K, patch x r d 4 = some (mulAdd c5 [1, -1, 1, -1, -1, 1, -1, 1]
      (mulAdd c4 [1, 1, 1, 1, -1, -1, -1, -1] d)) := by
    intro d; unfold patch; rw [e5, g4, g5]; rfl
  have p6 : ∀ d : List K, patch x r d 6 = some (mulAdd c7 [1, -1, -1, 1, -1, 1, 1, -1]
      (mulAdd c6 [1, 1, -1, -1, -1, -1, 1, 1] d)) := by
    intro d; unfold patch; rw [e7, g6, g7]; rfl
  unfold register
  simp only [List.foldlM_cons, List.foldlM_nil, Nat.mul_zero, Nat.mul_one, show 2 * 2 = 4 from rfl,
    show 2 * 3 = 6 from rfl, p0, p2, p4, p6, Option.bind_eq_bind, Option.bind_some, Option.pure_def]
  rw [had8]
  simp only [mulAdd, List.replicate, List.zipWith_cons_cons, List.zipWith_nil_right, mul_one, mul_neg]
  refine congrArg some ?_
  simp only [List.cons.injEq, and_true]
  refine ⟨?_, ?_, ?_, ?_, ?_, ?_, ?_, ?_⟩ <;> abel

theorem chunk_length {x : List K} {a n : Nat} (h : a + n ≤ x.length) : ((x.drop a).take n).length = n := by
  rw [List.length_take, List.length_drop]; omega

/-- A list of 64 is its eight chunks. -/
theorem eight_chunks {x : List K} (h : x.length = 64) :
    x = (((x.drop (8 * 0)).take 8 ++ (x.drop (8 * 1)).take 8) ++ ((x.drop (8 * 2)).take 8 ++ (x.drop (8 * 3)).take 8)) ++
      (((x.drop (8 * 4)).take 8 ++ (x.drop (8 * 5)).take 8) ++ ((x.drop (8 * 6)).take 8 ++ (x.drop (8 * 7)).take 8)) := by
  have hcut : ∀ a, (x.drop a).take 8 ++ x.drop (a + 8) = x.drop a := by
    intro a
    rw [show x.drop (a + 8) = (x.drop a).drop 8 by rw [List.drop_drop]]
    exact List.take_append_drop 8 _
  simp only [List.append_assoc]
  have h7 : (x.drop (8 * 7)).take 8 = x.drop 56 := by
    rw [List.take_of_length_le]; rw [List.length_drop]; omega
  rw [h7]
  rw [show (56 : Nat) = 8 * 6 + 8 from rfl, hcut, show 8 * 6 = 8 * 5 + 8 from rfl, hcut,
    show 8 * 5 = 8 * 4 + 8 from rfl, hcut, show 8 * 4 = 8 * 3 + 8 from rfl, hcut,
    show 8 * 3 = 8 * 2 + 8 from rfl, hcut, show 8 * 2 = 8 * 1 + 8 from rfl, hcut,
    show 8 * 1 = 8 * 0 + 8 from rfl, hcut]
  rfl

theorem had64 {c0 c1 c2 c3 c4 c5 c6 c7 : List K} (h0 : c0.length = 8) (h1 : c1.length = 8) (h2 : c2.length = 8)
    (h3 : c3.length = 8) (h4 : c4.length = 8) (h5 : c5.length = 8) (h6 : c6.length = 8) (h7 : c7.length = 8) :
    had 6 (((c0 ++ c1) ++ (c2 ++ c3)) ++ ((c4 ++ c5) ++ (c6 ++ c7))) =
      combine (had 3 c0) (had 3 c1) (had 3 c2) (had 3 c3) (had 3 c4) (had 3 c5) (had 3 c6) (had 3 c7) := by
  have l : ∀ {c : List K}, c.length = 8 → (had 3 c).length = 8 := fun h => length_had (k := 3) h
  rw [had_append (k := 5) (by simp [h0, h1, h2, h3]), had_append (k := 4) (by simp [h0, h1]),
    had_append (k := 4) (by simp [h4, h5]), had_append (k := 3) h0, had_append (k := 3) h2, had_append (k := 3) h4,
    had_append (k := 3) h6]
  unfold combine
  dsimp only
  have k0 := l h0
  have k1 := l h1
  have k2 := l h2
  have k3 := l h3
  have k4 := l h4
  have k5 := l h5
  have k6 := l h6
  have k7 := l h7
  simp only [plus_append, minus_append, length_plus, length_minus, List.length_append, k0, k1, k2, k3, k4, k5, k6, k7,
    List.append_assoc]

theorem microKernel64_ok {x : List K} (h : x.length = 64) : microKernel64 x = some (had 6 x) := by
  conv_rhs => rw [eight_chunks h]
  rw [had64 (chunk_length (by omega)) (chunk_length (by omega)) (chunk_length (by omega)) (chunk_length (by omega))
    (chunk_length (by omega)) (chunk_length (by omega)) (chunk_length (by omega)) (chunk_length (by omega))]
  unfold microKernel64
  rw [register_ok (by omega), register_ok (by omega), register_ok (by omega), register_ok (by omega),
    register_ok (by omega), register_ok (by omega), register_ok (by omega), register_ok (by omega)]
  rfl

theorem halves_eq {a b : List K} (h : a.length = b.length) : halves a b = plus a b ++ minus a b := by
  unfold halves plus minus
  rw [List.drop_of_length_le (by omega), List.drop_of_length_le (by omega), List.append_nil, List.append_nil]

theorem recursive_ok (arch : Arch) {k : Nat} {x : List K} (h : x.length = 2 ^ (k + 1)) :
    recursive arch x = some (had (k + 1) x) := by
  induction k generalizing x with
  | zero =>
    rw [recursive, if_neg (by omega), if_pos (by simpa using h)]
    match x, h with
    | [a, b], _ => rfl
  | succ k ih =>
    by_cases h64 : arch = .v3 ∧ x.length = 64
    · rw [recursive, if_pos h64, microKernel64_ok h64.2]
      have : k + 1 + 1 = 6 := by
        have h2 : 2 ^ (k + 1 + 1) = 2 ^ 6 := by rw [← h, h64.2]; rfl
        exact Nat.pow_right_injective (le_refl 2) h2
      rw [this]
    · have hk := Nat.two_pow_pos k
      rw [Nat.pow_succ, Nat.pow_succ] at h
      rw [recursive, if_neg h64, if_neg (by omega), if_neg (by omega)]
      have hhalf : x.length / 2 = 2 ^ (k + 1) := by rw [Nat.pow_succ]; omega
      have h1 : (x.take (2 ^ (k + 1))).length = 2 ^ (k + 1) := by rw [List.length_take, Nat.pow_succ]; omega
      have h2 : (x.drop (2 ^ (k + 1))).length = 2 ^ (k + 1) := by rw [List.length_drop, Nat.pow_succ]; omega
      rw [hhalf, ih h1, ih h2]
      show some (halves _ _) = _
      rw [halves_eq (by rw [length_had h1, length_had h2])]
      rfl

end Had

end Verif.Rotate
