import Verif.Label.KeySpec
import Mathlib.Tactic.Common
/-
Lemmas about the key codec: hexadecimal digits, the integer and float encodings, byte order.
-/
namespace Verif.Label

theorem xor_sign {m : Nat} (h : m < 18446744073709551616) :
    m ^^^ 9223372036854775808 =
      if m < 9223372036854775808 then m + 9223372036854775808 else m - 9223372036854775808 := by
  have hd : (m ^^^ 9223372036854775808) / 2 ^ 63 = (m / 2 ^ 63) ^^^ (9223372036854775808 / 2 ^ 63) :=
    Nat.xor_div_two_pow
  have hm : (m ^^^ 9223372036854775808) % 2 ^ 63 = (m % 2 ^ 63) ^^^ (9223372036854775808 % 2 ^ 63) :=
    Nat.xor_mod_two_pow
  have e1 : (9223372036854775808 : Nat) / 2 ^ 63 = 1 := by decide
  have e2 : (9223372036854775808 : Nat) % 2 ^ 63 = 0 := by decide
  rw [e1] at hd
  rw [e2, Nat.xor_zero] at hm
  have hq : m / 2 ^ 63 = 0 ∨ m / 2 ^ 63 = 1 := by omega
  rcases hq with hq | hq
  · rw [hq, show (0 : Nat) ^^^ 1 = 1 from rfl] at hd
    split <;> omega
  · rw [hq, show (1 : Nat) ^^^ 1 = 0 from rfl] at hd
    split <;> omega

theorem encI64_eq {n : Int} (h : -9223372036854775808 ≤ n ∧ n < 9223372036854775808) :
    (encI64 n : Int) = n + 9223372036854775808 := by
  have hlt : (n % 18446744073709551616).toNat < 18446744073709551616 := by omega
  rw [encI64, xor_sign hlt]
  split <;> omega

theorem encF64_eq {b : Nat} (h : b < 18446744073709551616) :
    encF64 b = if b < 9223372036854775808 then b + 9223372036854775808 else 18446744073709551615 - b := by
  rw [encF64, Nat.shiftRight_eq_div_pow]
  by_cases hb : b < 9223372036854775808
  · rw [if_pos (show b / 2 ^ 63 = 0 by omega), xor_sign h, if_pos hb, if_pos hb]
  · rw [if_neg (show ¬ b / 2 ^ 63 = 0 by omega), if_neg hb]

theorem encI64_lt {n : Int} (h : -9223372036854775808 ≤ n ∧ n < 9223372036854775808) :
    encI64 n < 16 ^ 16 := by
  have := encI64_eq h
  omega

theorem encF64_lt {b : Nat} (h : b < 18446744073709551616) : encF64 b < 16 ^ 16 := by
  rw [encF64_eq h]
  split <;> omega

/-! ### Byte order -/

theorem nil_lt_iff (k : Bytes) : ([] : Bytes) < k ↔ k ≠ [] := by
  cases k <;> simp

theorem append_lt_append {xs ys us vs : Bytes} (h : xs.length = ys.length) :
    xs ++ us < ys ++ vs ↔ xs < ys ∨ (xs = ys ∧ us < vs) := by
  induction xs generalizing ys with
  | nil =>
    cases ys with
    | nil => simp
    | cons y ys => simp at h
  | cons x xs ih =>
    cases ys with
    | nil => simp at h
    | cons y ys =>
      simp only [List.length_cons, Nat.add_right_cancel_iff] at h
      simp only [List.cons_append, List.cons_lt_cons_iff, ih h, List.cons.injEq]
      tauto

theorem prefix_lt (p : Bytes) (us vs : Bytes) : p ++ us < p ++ vs ↔ us < vs := by
  rw [append_lt_append rfl]
  simp [List.lt_irrefl]

theorem prefix_le (p : Bytes) (us vs : Bytes) : p ++ us ≤ p ++ vs ↔ us ≤ vs := by
  rw [← List.not_lt, ← List.not_lt, prefix_lt]

theorem hexDigit_lt {a b : Nat} (ha : a < 16) (hb : b < 16) : hexDigit a < hexDigit b ↔ a < b := by
  unfold hexDigit
  split <;> split <;> omega

theorem hexDigit_inj {a b : Nat} (ha : a < 16) (hb : b < 16) (h : hexDigit a = hexDigit b) : a = b := by
  unfold hexDigit at h
  split at h <;> split at h <;> omega

theorem hexN_length (k n : Nat) : (hexN k n).length = k := by
  induction k generalizing n with
  | zero => rfl
  | succ k ih => simp [hexN, ih]

theorem hexN_inj {k a b : Nat} (ha : a < 16 ^ k) (hb : b < 16 ^ k) (h : hexN k a = hexN k b) : a = b := by
  induction k generalizing a b with
  | zero => simp at ha hb; omega
  | succ k ih =>
    rw [hexN, hexN] at h
    have hl := List.append_inj h (by rw [hexN_length, hexN_length])
    rw [Nat.pow_succ] at ha hb
    have h1 := ih (a := a / 16) (b := b / 16) (by omega) (by omega) hl.1
    have h2 := hexDigit_inj (Nat.mod_lt a (by decide)) (Nat.mod_lt b (by decide)) (by simpa using hl.2)
    omega

theorem hexN_lt {k a b : Nat} (ha : a < 16 ^ k) (hb : b < 16 ^ k) : hexN k a < hexN k b ↔ a < b := by
  induction k generalizing a b with
  | zero => simp at ha hb; subst ha; subst hb; simp [hexN]
  | succ k ih =>
    rw [Nat.pow_succ] at ha hb
    have h1 := ih (a := a / 16) (b := b / 16) (by omega) (by omega)
    rw [hexN, hexN, append_lt_append (by rw [hexN_length, hexN_length]), h1]
    have hs : ([hexDigit (a % 16)] : Bytes) < [hexDigit (b % 16)] ↔ a % 16 < b % 16 := by
      rw [List.cons_lt_cons_iff, hexDigit_lt (Nat.mod_lt a (by decide)) (Nat.mod_lt b (by decide))]
      simp
    rw [hs]
    constructor
    · rintro (h | ⟨h, h'⟩)
      · omega
      · have := hexN_inj (a := a / 16) (b := b / 16) (by omega) (by omega) h
        omega
    · intro h
      by_cases hq : a / 16 < b / 16
      · exact Or.inl hq
      · have : a / 16 = b / 16 := by omega
        exact Or.inr ⟨by rw [this], by omega⟩

/-- Hexadecimal digits are below byte `0xF4`. -/
theorem hexN_bound (k n : Nat) : ∀ c ∈ hexN k n, c < 244 := by
  induction k generalizing n with
  | zero => simp [hexN]
  | succ k ih =>
    intro c hc
    rw [hexN, List.mem_append] at hc
    rcases hc with hc | hc
    · exact ih _ c hc
    · simp only [List.mem_singleton] at hc
      have : n % 16 < 16 := Nat.mod_lt _ (by decide)
      rw [hc, hexDigit]
      split <;> omega

/-- A key between two keys with a common prefix has that prefix. -/
theorem prefix_of_range {p u v k : Bytes} (h1 : p ++ u ≤ k) (h2 : k < p ++ v) : ∃ w, k = p ++ w := by
  induction p generalizing k with
  | nil => exact ⟨k, rfl⟩
  | cons x p ih =>
    cases k with
    | nil =>
      rw [← List.not_lt] at h1
      exact absurd (by simp) h1
    | cons y k =>
      rw [List.cons_append, ← List.not_lt, List.cons_lt_cons_iff] at h1
      rw [List.cons_append, List.cons_lt_cons_iff] at h2
      have hxy : x = y := by
        rcases h2 with h2 | h2
        · exact absurd (Or.inl h2) h1
        · exact h2.1.symm
      subst hxy
      have h1' : p ++ u ≤ k := by
        rw [← List.not_lt]
        intro h
        exact h1 (Or.inr ⟨rfl, h⟩)
      have h2' : k < p ++ v := by
        rcases h2 with h2 | h2
        · exact absurd h2 (Nat.lt_irrefl _)
        · exact h2.2
      obtain ⟨w, rfl⟩ := ih h1' h2'
      exact ⟨w, rfl⟩

/-! ### Doubles -/

theorem fMag_mod (b : Nat) : fMag b = fMag (b % 9223372036854775808) := by
  have h1 : fExp b = fExp (b % 9223372036854775808) := by
    unfold fExp
    omega
  have h2 : fFrac b = fFrac (b % 9223372036854775808) := by
    unfold fFrac
    omega
  rw [fMag, fMag, h1, h2]

theorem fMag_succ {x : Nat} (h : x + 1 < 9223372036854775808) : fMag x < fMag (x + 1) := by
  by_cases hc : fFrac x + 1 < 4503599627370496
  · have h1 : fExp (x + 1) = fExp x := by
      unfold fExp; unfold fFrac at hc; omega
    have h2 : fFrac (x + 1) = fFrac x + 1 := by
      unfold fFrac at *; omega
    rw [fMag, fMag, h1, h2]
    split
    · omega
    · exact Nat.mul_lt_mul_of_pos_right (by omega) (Nat.pow_pos (by decide))
  · have h1 : fExp (x + 1) = fExp x + 1 := by
      unfold fExp; unfold fFrac at hc; omega
    have h2 : fFrac (x + 1) = 0 := by
      unfold fFrac at *; omega
    have h3 : fFrac x = 4503599627370495 := by
      have : fFrac x < 4503599627370496 := Nat.mod_lt _ (by decide)
      omega
    rw [fMag, fMag, h1, h2, h3]
    rw [if_neg (show ¬ fExp x + 1 = 0 by omega)]
    split
    · rename_i h0
      rw [h0]
      decide
    · rename_i h0
      obtain ⟨e, he⟩ : ∃ e, fExp x = e + 1 := ⟨fExp x - 1, by omega⟩
      rw [he]
      simp only [Nat.add_sub_cancel]
      have := Nat.pow_pos (n := e) (show 0 < 2 by decide)
      rw [Nat.pow_succ]
      omega

theorem fMag_lt {x y : Nat} (hy : y < 9223372036854775808) (h : x < y) : fMag x < fMag y := by
  obtain ⟨d, rfl⟩ := Nat.exists_eq_add_of_lt h
  induction d with
  | zero => exact fMag_succ hy
  | succ d ih => exact Nat.lt_trans (ih (by omega) (by omega)) (fMag_succ hy)

theorem fMag_zero : fMag 0 = 0 := by decide

/-- The float encoding orders doubles by value, with `-0.0` just below `0.0`. -/
theorem encF64_order {a b : Nat} (ha : a < 18446744073709551616) (hb : b < 18446744073709551616) :
    encF64 a < encF64 b ↔ fVal a < fVal b ∨ (a = negZero ∧ b = 0) := by
  have neg : ∀ x, 9223372036854775808 ≤ x → x < 18446744073709551616 →
      fMag x = fMag (x - 9223372036854775808) := by
    intro x h1 h2
    rw [fMag_mod x, show x % 9223372036854775808 = x - 9223372036854775808 by omega]
  rw [encF64_eq ha, encF64_eq hb, fVal, fVal, negZero]
  by_cases h1 : a < 9223372036854775808 <;> by_cases h2 : b < 9223372036854775808
  · rw [if_pos h1, if_pos h2, if_pos h1, if_pos h2]
    constructor
    · intro h
      left
      exact_mod_cast fMag_lt h2 (show a < b by omega)
    · rintro (h | h)
      · have hn : ¬ b ≤ a := by
          intro hba
          rcases Nat.lt_or_ge b a with hl | hl
          · have := fMag_lt h1 hl
            omega
          · have : a = b := by omega
            subst this
            omega
        omega
      · omega
  · rw [if_pos h1, if_neg h2, if_pos h1, if_neg h2]
    constructor
    · intro h; omega
    · rintro (h | h)
      · omega
      · omega
  · rw [if_neg h1, if_pos h2, if_neg h1, if_pos h2]
    constructor
    · intro _
      by_cases hz : b = 0 ∧ a = 9223372036854775808
      · exact Or.inr ⟨hz.2, hz.1⟩
      · left
        have hn := neg a (by omega) ha
        rcases Nat.eq_zero_or_pos b with hb0 | hb0
        · have : 0 < fMag (a - 9223372036854775808) := by
            have := fMag_lt (x := 0) (y := a - 9223372036854775808) (by omega) (by omega)
            omega
          omega
        · have := fMag_lt (x := 0) (y := b) h2 hb0
          omega
    · intro _; omega
  · rw [if_neg h1, if_neg h2, if_neg h1, if_neg h2, neg a (by omega) ha, neg b (by omega) hb]
    constructor
    · intro h
      left
      have := fMag_lt (x := b - 9223372036854775808) (y := a - 9223372036854775808) (by omega) (by omega)
      omega
    · rintro (h | h)
      · have hn : ¬ a ≤ b := by
          intro hab
          rcases Nat.lt_or_ge a b with hl | hl
          · have := fMag_lt (x := a - 9223372036854775808) (y := b - 9223372036854775808) (by omega) (by omega)
            omega
          · have : a = b := by omega
            subst this
            omega
        omega
      · omega

theorem encF64_inj {a b : Nat} (ha : a < 18446744073709551616) (hb : b < 18446744073709551616)
    (h : encF64 a = encF64 b) : a = b := by
  rw [encF64_eq ha, encF64_eq hb] at h
  split at h <;> split at h <;> omega

theorem encI64_inj {a b : Int} (ha : -9223372036854775808 ≤ a ∧ a < 9223372036854775808)
    (hb : -9223372036854775808 ≤ b ∧ b < 9223372036854775808) (h : encI64 a = encI64 b) : a = b := by
  have h1 := encI64_eq ha
  have h2 := encI64_eq hb
  omega

theorem split_sep {f g u v : Bytes} (hf : 0 ∉ f) (hg : 0 ∉ g) (h : f ++ 0 :: u = g ++ 0 :: v) : f = g ∧ u = v := by
  induction f generalizing g with
  | nil =>
    cases g with
    | nil => simpa using h
    | cons y g =>
      simp only [List.nil_append, List.cons_append, List.cons.injEq] at h
      exact absurd (by simp [← h.1]) hg
  | cons x f ih =>
    cases g with
    | nil =>
      simp only [List.nil_append, List.cons_append, List.cons.injEq] at h
      exact absurd (by simp [h.1]) hf
    | cons y g =>
      simp only [List.cons_append, List.cons.injEq] at h
      have := ih (g := g) (by simp_all) (by simp_all) h.2
      exact ⟨by rw [h.1, this.1], this.2⟩

/-- The part of a key after the field and the separator. -/
def payload : AttrVal → Bytes
  | .int n => 73 :: hexN 16 (encI64 n)
  | .real b => 70 :: hexN 16 (encF64 b)
  | .str s => 83 :: s
  | .bool b => 66 :: [if b then 49 else 48]
  | .empty => 83 :: []

theorem encKey_eq (f : Bytes) (v : AttrVal) : encKey f v = f ++ 0 :: payload v := by
  cases v <;> rfl

theorem payload_inj {v w : AttrVal} (hv : v.valid) (hw : w.valid) (h : payload v = payload w) :
    v = w ∨ (v = .empty ∧ w = .str []) ∨ (v = .str [] ∧ w = .empty) := by
  cases v <;> cases w <;> simp only [payload, List.cons.injEq] at h <;> simp_all
  · rename_i a b
    cases a <;> cases b <;> simp_all
  · exact encI64_inj hv hw (hexN_inj (encI64_lt hv) (encI64_lt hw) h)
  · exact encF64_inj hv hw (hexN_inj (encF64_lt hv) (encF64_lt hw) h)

theorem decBytes_pos (n : Nat) : ∀ c ∈ decBytes n, 48 ≤ c := by
  induction n using Nat.strongRecOn with
  | ind n ih =>
    intro c hc
    rw [decBytes] at hc
    split at hc
    · simp at hc; omega
    · rw [List.mem_append] at hc
      rcases hc with hc | hc
      · exact ih _ (by omega) c hc
      · simp at hc; omega

theorem revKey_no_nul (d : Nat) : 0 ∉ revKey d := by
  intro h
  simp only [revKey, List.mem_cons] at h
  rcases h with h | h | h | h
  · omega
  · omega
  · omega
  · have := decBytes_pos d 0 h
    omega

theorem decBytes_inj {a b : Nat} (h : decBytes a = decBytes b) : a = b := by
  have val : ∀ n, (decBytes n).foldl (fun acc c => acc * 10 + (c - 48)) 0 = n := by
    intro n
    induction n using Nat.strongRecOn with
    | ind n ih =>
      rw [decBytes]
      split
      · simp
      · rw [List.foldl_append, ih _ (by omega)]
        simp
        omega
  rw [← val a, ← val b, h]

theorem revKey_inj {a b : Nat} (h : revKey a = revKey b) : a = b := by
  simp only [revKey, List.cons.injEq, true_and] at h
  exact decBytes_inj h

theorem revKey_ne_encKey (d : Nat) (f : Bytes) (v : AttrVal) : revKey d ≠ encKey f v := by
  intro h
  apply revKey_no_nul d
  rw [h, encKey_eq]
  simp

end Verif.Label
