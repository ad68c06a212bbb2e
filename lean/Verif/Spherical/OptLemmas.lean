import Verif.Spherical.WalkLemmas

/-! # Lemmas: the codes at the scale found -/

namespace Verif.Spherical

open Verif.Rotate (inner)

variable {K : Type} [Field K] [LinearOrder K] [IsStrictOrderedRing K]

theorem exists_level (eps : K) {stop : Nat} (h1 : 1 ≤ stop) (s x : K) : ∃ r, IsLevel eps stop s x r := by
  classical
  have hex : ∃ r : Nat, 1 ≤ r ∧ (r = stop ∨ s * |x| < (r : K) + eps) := ⟨stop, h1, Or.inl rfl⟩
  obtain ⟨a, b⟩ := Nat.find_spec hex
  have hmin := fun m => @Nat.find_min _ _ hex m
  refine ⟨Nat.find hex, a, Nat.find_min' hex ⟨h1, Or.inl rfl⟩, ?_, ?_⟩
  · intro h
    have h2 := hmin (Nat.find hex - 1) (by omega)
    have h3 : ¬ s * |x| < ((Nat.find hex - 1 : Nat) : K) + eps := fun h4 => h2 ⟨by omega, Or.inr h4⟩
    rw [Nat.cast_sub a] at h3
    push_cast at h3
    linarith [not_lt.mp h3]
  · intro h
    rcases b with b | b
    · omega
    · exact b

theorem exists_levels (eps : K) {stop : Nat} (h1 : 1 ≤ stop) (s : K) (v : List K) :
    ∃ rs, Levels (IsLevel eps stop s) v rs := by
  choose f hf using fun x => exists_level eps h1 s x
  refine ⟨v.map f, by simp, fun i x r hx hr => ?_⟩
  rw [List.getElem?_map, hx] at hr
  simp only [Option.map_some, Option.some.injEq] at hr
  rw [← hr]; exact hf x

/-- Levels are nearly nearest. -/
theorem level_nearest {eps : K} {stop : Nat} (h0 : 0 ≤ eps) (h2 : eps ≤ 1 / 2) {s x : K} {r q : Nat}
    (hr : IsLevel eps stop s x r) (hq1 : 1 ≤ q) (hq2 : q ≤ stop) :
    ((r : K) - 1 / 2) * ((r : K) - 1 / 2) - 2 * (s * |x| * ((r : K) - 1 / 2)) ≤
      ((q : K) - 1 / 2) * ((q : K) - 1 / 2) - 2 * (s * |x| * ((q : K) - 1 / 2)) + 2 * eps := by
  obtain ⟨a, b, c, d⟩ := hr
  rcases lt_trichotomy r q with h | h | h
  · have hx := d (by omega)
    obtain ⟨k, rfl⟩ : ∃ k, q = r + 1 + k := ⟨q - r - 1, by omega⟩
    have hk : (0 : K) ≤ k := Nat.cast_nonneg k
    push_cast
    have hkk : (k : K) ≤ (k : K) * (k : K) := by
      rcases Nat.eq_zero_or_pos k with h | h
      · rw [h]; simp
      · have : (1 : K) ≤ k := by exact_mod_cast h
        nlinarith
    nlinarith [mul_le_mul_of_nonneg_left hx.le (show (0 : K) ≤ 2 * (1 + k) by linarith),
      mul_le_mul_of_nonneg_left h2 hk]
  · rw [h]; linarith
  · have hx := c (by omega)
    obtain ⟨k, rfl⟩ : ∃ k, r = q + 1 + k := ⟨r - q - 1, by omega⟩
    have hk : (0 : K) ≤ k := Nat.cast_nonneg k
    push_cast at hx ⊢
    nlinarith [mul_le_mul_of_nonneg_left hx (show (0 : K) ≤ 2 * (1 + k) by linarith), mul_nonneg hk hk,
      mul_nonneg hk h0]

theorem levels_nearest {eps : K} {stop : Nat} (h0 : 0 ≤ eps) (h2 : eps ≤ 1 / 2) {s : K} {v : List K} {rs qs : List Nat}
    (hr : Levels (IsLevel eps stop s) v rs) (hq : Levels (fun _ q => 1 ≤ q ∧ q ≤ stop) v qs) :
    sqOf rs - 2 * (s * ipOf v rs) ≤ sqOf qs - 2 * (s * ipOf v qs) + 2 * eps * (v.length : K) := by
  induction v generalizing rs qs with
  | nil =>
    obtain rfl : rs = [] := List.length_eq_zero_iff.mp hr.1
    obtain rfl : qs = [] := List.length_eq_zero_iff.mp hq.1
    simp
  | cons x v ih =>
    cases rs with
    | nil => simp [Levels] at hr
    | cons r rs => cases qs with
      | nil => simp [Levels] at hq
      | cons q qs =>
        have h1 := ih (rs := rs) (qs := qs)
          ⟨by simpa using hr.1, fun i y p hy hp => hr.2 (i + 1) y p (by simpa using hy) (by simpa using hp)⟩
          ⟨by simpa using hq.1, fun i y p hy hp => hq.2 (i + 1) y p (by simpa using hy) (by simpa using hp)⟩
        have h3 := hr.2 0 x r (by simp) (by simp)
        have h4 := hq.2 0 x q (by simp) (by simp)
        have h5 := level_nearest h0 h2 h3 h4.1 h4.2
        have e1 : ∀ r rs, ipOf (x :: v) (r :: rs) = |x| * ((r : K) - 1 / 2) + ipOf v rs := fun _ _ => rfl
        have e2 : ∀ (r : Nat) rs, sqOf (K := K) (r :: rs) = ((r : K) - 1 / 2) * ((r : K) - 1 / 2) + sqOf rs := fun _ _ => rfl
        rw [e1, e1, e2, e2, List.length_cons]
        push_cast
        nlinarith

/-- The best state of the walk against any choice of levels. -/
theorem path_global {eps : K} {stop : Nat} (h0 : 0 < eps) (h2 : eps < 1 / 4) (h1 : 1 ≤ stop) {v : List K}
    (hne : ∃ x ∈ v, x ≠ 0) {B : K}
    (hB : ∀ (s' : K) (rs' : List Nat), 0 ≤ s' → Levels (IsLevel eps stop s') v rs' → simOf v rs' ≤ B)
    {qs : List Nat} (hq : Levels (fun _ q => 1 ≤ q ∧ q ≤ stop) v qs) :
    (1 - 4 * eps) * (1 - 4 * eps) * simOf v qs ≤ B := by
  have hpos : ∀ {rs : List Nat} {P : K → Nat → Prop}, Levels P v rs → (∀ x r, P x r → 1 ≤ r) →
      ∀ (i r : Nat), rs[i]? = some r → 1 ≤ r := by
    intro rs P hl hP i r hr
    have hi : i < v.length := by rw [← hl.1]; exact (List.getElem?_eq_some_iff.mp hr).1
    exact hP _ _ (hl.2 i _ r (List.getElem?_eq_getElem hi) hr)
  have hD : (0 : K) < (v.length : K) := by
    obtain ⟨x, hx, _⟩ := hne
    exact_mod_cast List.length_pos_of_mem hx
  have hq1 := hpos hq (fun _ _ h => h.1)
  have hipq := ipOf_pos hq.1 hq1 hne
  have hnq := sqOf_ge (K := K) qs hq1
  rw [hq.1] at hnq
  have hnq0 : 0 < sqOf (K := K) qs := by linarith
  set s := sqOf qs / ipOf v qs with hs
  have hs0 : 0 < s := div_pos hnq0 hipq
  have hsip : s * ipOf v qs = sqOf qs := by rw [hs]; field_simp
  obtain ⟨rs, hr⟩ := exists_levels eps h1 s v
  have hr1 := hpos hr (fun _ _ h => h.1)
  have hnr := sqOf_ge (K := K) rs hr1
  rw [hr.1] at hnr
  have hnr0 : 0 < sqOf (K := K) rs := by linarith
  have hnear := levels_nearest h0.le (by linarith) hr hq
  rw [hsip] at hnear
  have hle := hB s rs hs0.le hr
  refine le_trans ?_ hle
  have hsum : (sqOf rs + sqOf qs) * (1 - 4 * eps) ≤ 2 * (s * ipOf v rs) := by
    have : eps * (v.length : K) ≤ eps * (2 * (sqOf rs + sqOf qs)) := mul_le_mul_of_nonneg_left (by linarith) h0.le
    nlinarith
  unfold simOf
  rw [← mul_div_assoc, div_le_div_iff₀ hnq0 hnr0]
  have h3 : 0 ≤ (sqOf rs + sqOf qs) * (1 - 4 * eps) := mul_nonneg (by linarith) (by linarith)
  have h4 : ((sqOf rs + sqOf qs) * (1 - 4 * eps)) * ((sqOf rs + sqOf qs) * (1 - 4 * eps)) ≤
      (2 * (s * ipOf v rs)) * (2 * (s * ipOf v rs)) := mul_le_mul hsum hsum h3 (le_trans h3 hsum)
  have h5 : 4 * (sqOf rs * sqOf qs) ≤ (sqOf rs + sqOf qs) * (sqOf rs + sqOf (K := K) qs) := by
    nlinarith [mul_self_nonneg (sqOf rs - sqOf (K := K) qs)]
  have h6 : (1 - 4 * eps) * (1 - 4 * eps) * (sqOf rs * sqOf qs) ≤ s * s * (ipOf v rs * ipOf v rs) := by
    have := mul_le_mul_of_nonneg_right h5 (mul_self_nonneg (1 - 4 * eps))
    nlinarith
  have h7 : (1 - 4 * eps) * (1 - 4 * eps) * (sqOf rs * sqOf qs) * (ipOf v qs * ipOf v qs) ≤
      sqOf qs * sqOf qs * (ipOf v rs * ipOf v rs) := by
    have := mul_le_mul_of_nonneg_right h6 (mul_self_nonneg (ipOf v qs))
    calc _ ≤ _ := this
      _ = (s * ipOf v qs) * (s * ipOf v qs) * (ipOf v rs * ipOf v rs) := by ring
      _ = _ := by rw [hsip]
  refine le_of_mul_le_mul_left ?_ hnq0
  calc sqOf qs * ((1 - 4 * eps) * (1 - 4 * eps) * (ipOf v qs * ipOf v qs) * sqOf rs)
      = (1 - 4 * eps) * (1 - 4 * eps) * (sqOf rs * sqOf qs) * (ipOf v qs * ipOf v qs) := by ring
    _ ≤ _ := h7
    _ = _ := by ring

/-- The levels of the codes: those of the walk, except that some components are one level higher. -/
def Bumped (stop : Nat) (s : K) (v : List K) (rs rs' : List Nat) : Prop :=
  rs'.length = rs.length ∧ ∀ (i : Nat) (x : K) (r r' : Nat), v[i]? = some x → rs[i]? = some r → rs'[i]? = some r' →
    r' = r ∨ (r' = r + 1 ∧ r < stop ∧ (r : K) ≤ s * |x|)

theorem bumped_sums {stop : Nat} {s : K} {v : List K} {rs rs' : List Nat} (hl : rs.length = v.length)
    (h : Bumped stop s v rs rs') :
    ∃ D : K, 0 ≤ D ∧ sqOf rs' = sqOf rs + D ∧ s * ipOf v rs + D / 2 ≤ s * ipOf v rs' := by
  induction v generalizing rs rs' with
  | nil =>
    obtain rfl : rs = [] := List.length_eq_zero_iff.mp hl
    obtain rfl : rs' = [] := List.length_eq_zero_iff.mp h.1
    exact ⟨0, le_refl _, by simp, by simp⟩
  | cons x v ih =>
    cases rs with
    | nil => simp at hl
    | cons r rs => cases rs' with
      | nil => simp [Bumped] at h
      | cons r' rs' =>
        obtain ⟨D, h1, h2, h3⟩ := ih (rs := rs) (rs' := rs') (by simpa using hl)
          ⟨by simpa using h.1, fun i y p p' hy hp hp' =>
            h.2 (i + 1) y p p' (by simpa using hy) (by simpa using hp) (by simpa using hp')⟩
        have e1 : ∀ r rs, ipOf (x :: v) (r :: rs) = |x| * ((r : K) - 1 / 2) + ipOf v rs := fun _ _ => rfl
        have e2 : ∀ (r : Nat) rs, sqOf (K := K) (r :: rs) = ((r : K) - 1 / 2) * ((r : K) - 1 / 2) + sqOf rs := fun _ _ => rfl
        rcases h.2 0 x r r' (by simp) (by simp) (by simp) with e | ⟨e, _, g⟩
        · refine ⟨D, h1, ?_, ?_⟩
          · rw [e2, e2, h2, e]; ring
          · rw [e1, e1, e]; nlinarith
        · have hr : (0 : K) ≤ r := Nat.cast_nonneg r
          refine ⟨D + 2 * r, by linarith, ?_, ?_⟩
          · rw [e2, e2, h2, e]; push_cast; ring
          · rw [e1, e1, e]; push_cast; nlinarith

/-- The codes are nearly as good as the levels of the walk. -/
theorem bumped_sim {eps : K} (h0 : 0 ≤ eps) (h1 : eps ≤ 1) {s A N A' D : K} (hs : 0 < s) (hA : 0 < A) (hN : 0 < N)
    (hD : 0 ≤ D) (hx : s * A ≤ (1 + eps) * N) (hA' : s * A + D / 2 ≤ s * A') :
    (1 - eps) * (A * A / N) ≤ A' * A' / (N + D) := by
  rw [← mul_div_assoc, div_le_div_iff₀ hN (by linarith)]
  have hsA : 0 < s * A := mul_pos hs hA
  have h2 : (s * A + D / 2) * (s * A + D / 2) ≤ (s * A') * (s * A') :=
    mul_le_mul hA' hA' (by linarith) (by linarith)
  have h3 : (1 - eps) * ((s * A) * (s * A)) * (N + D) ≤ (s * A + D / 2) * (s * A + D / 2) * N := by
    have h4 : 0 ≤ s * A * D * (N - (1 - eps) * (s * A)) := by
      apply mul_nonneg (mul_nonneg hsA.le hD)
      have : (1 - eps) * (s * A) ≤ (1 - eps) * ((1 + eps) * N) := mul_le_mul_of_nonneg_left hx (by linarith)
      have : 0 ≤ eps * eps * N := mul_nonneg (mul_nonneg h0 h0) hN.le
      nlinarith
    have h5 : 0 ≤ eps * (s * A * (s * A)) * N := by positivity
    have h6 : 0 ≤ D * D / 4 * N := by positivity
    nlinarith
  have h4 := mul_le_mul_of_nonneg_right h2 hN.le
  have hss : 0 < s * s := mul_pos hs hs
  refine le_of_mul_le_mul_left ?_ hss
  calc s * s * ((1 - eps) * (A * A) * (N + D)) = (1 - eps) * ((s * A) * (s * A)) * (N + D) := by ring
    _ ≤ _ := h3
    _ ≤ _ := h4
    _ = _ := by ring

section codes
variable [FloorRing K]

theorem roundAway_eq {y : K} {n : Nat} (h0 : 0 ≤ y) (h1 : (n : K) ≤ y + 1 / 2) (h2 : y + 1 / 2 < (n : K) + 1) :
    roundAway y = (n : Int) := by
  unfold roundAway
  rw [if_pos h0, Int.floor_eq_iff]
  push_cast
  exact ⟨h1, h2⟩

/-- The code of a component that is not negative. -/
theorem codeAt_nonneg {b stop : Nat} (hb : 2 ^ b = 2 * stop) {s t : K} {r : Nat} (h0 : 0 ≤ t * s) (h1 : 1 ≤ r)
    (h2 : r ≤ stop) (h3 : (r : K) - 1 ≤ t * s) (h4 : t * s < r ∨ r = stop) : codeAt b s t = stop + r - 1 := by
  have hbK : (2 : K) ^ b = 2 * stop := by exact_mod_cast congrArg (Nat.cast (R := K)) hb
  have hs1 : (1 : K) ≤ stop := by exact_mod_cast (by omega : 1 ≤ stop)
  have hn : ((stop + r - 1 : Nat) : K) = (stop : K) + r - 1 := by
    rw [Nat.cast_sub (by omega)]; push_cast; ring
  unfold codeAt offsetTerm clampTo
  rw [hbK]
  have hr1 : (1 : K) ≤ r := by exact_mod_cast h1
  rw [if_neg (by linarith)]
  split
  · rename_i hgt
    have hrs : r = stop := by
      rcases h4 with h | h
      · by_contra hne
        have : (r : K) + 1 ≤ stop := by exact_mod_cast (by omega : r + 1 ≤ stop)
        linarith
      · exact h
    have : (2 * (stop : K) - 1) = ((stop + r - 1 : Nat) : K) := by rw [hn, hrs]; ring
    rw [roundAway_eq (n := stop + r - 1) (by linarith) (by rw [← this]; linarith) (by rw [← this]; linarith)]
    simp
  · rename_i hle
    have hle := not_lt.mp hle
    rw [roundAway_eq (n := stop + r - 1) (by linarith) (by rw [hn]; linarith) ?_]
    · simp
    · rw [hn]
      rcases h4 with h | h
      · linarith
      · rw [h]; linarith

/-- The code of a negative component. -/
theorem codeAt_neg {b stop : Nat} (hb : 2 ^ b = 2 * stop) {s t : K} {r : Nat} (h0 : t * s < 0) (h1 : 1 ≤ r)
    (h2 : r ≤ stop) (h3 : (r : K) - 1 < -(t * s)) (h4 : -(t * s) ≤ r ∨ r = stop) : codeAt b s t = stop - r := by
  have hbK : (2 : K) ^ b = 2 * stop := by exact_mod_cast congrArg (Nat.cast (R := K)) hb
  have hs1 : (1 : K) ≤ stop := by exact_mod_cast (by omega : 1 ≤ stop)
  have hn : ((stop - r : Nat) : K) = (stop : K) - r := by rw [Nat.cast_sub h2]
  unfold codeAt offsetTerm clampTo
  rw [hbK]
  split
  · rename_i hlt
    have hrs : r = stop := by
      rcases h4 with h | h
      · by_contra hne
        have : (r : K) + 1 ≤ stop := by exact_mod_cast (by omega : r + 1 ≤ stop)
        linarith
      · exact h
    rw [roundAway_eq (n := 0) (le_refl _) (by push_cast; linarith) (by push_cast; linarith)]
    omega
  · rename_i hge
    have hge := not_lt.mp hge
    rw [if_neg (by linarith)]
    rw [roundAway_eq (n := stop - r) hge ?_ (by rw [hn]; linarith)]
    · simp
    · rw [hn]
      rcases h4 with h | h
      · linarith
      · rw [h]; linarith

/-- The level of a code, from a level of the walk. -/
theorem code_level {eps : K} (he0 : 0 < eps) (he1 : eps < 1 / 2) {b stop : Nat} (hb : 2 ^ b = 2 * stop) {s t : K}
    (hs : 0 < s) {r : Nat} (hr : Near eps stop s t r) :
    ∃ r', 1 ≤ r' ∧ r' ≤ stop ∧ (r' = r ∨ (r' = r + 1 ∧ r < stop ∧ (r : K) ≤ s * |t|)) ∧
      ((codeAt b s t : Nat) : K) - (2 ^ b - 1) / 2 = (if 0 ≤ t then (r' : K) - 1 / 2 else -((r' : K) - 1 / 2)) := by
  obtain ⟨a1, a2, a3, a4⟩ := hr
  have hbK : (2 : K) ^ b = 2 * stop := by exact_mod_cast congrArg (Nat.cast (R := K)) hb
  have hr1 : (1 : K) ≤ r := by exact_mod_cast a1
  have hlow : (r : K) - 1 ≤ s * |t| := by
    rcases Nat.lt_or_ge 1 r with h | h
    · linarith [a3 h]
    · have : r = 1 := by omega
      rw [this]; have := mul_nonneg hs.le (abs_nonneg t); push_cast; linarith
  by_cases ht : 0 ≤ t
  · simp only [if_pos ht]
    rw [abs_of_nonneg ht] at *
    have hts : 0 ≤ t * s := mul_nonneg ht hs.le
    by_cases hbump : r < stop ∧ (r : K) ≤ s * t
    · have h5 := a4 hbump.1
      have hc := codeAt_nonneg (b := b) hb (s := s) (t := t) (r := r + 1) hts (by omega) (by omega)
        (by push_cast; linarith [hbump.2]) (Or.inl (by push_cast; linarith))
      refine ⟨r + 1, by omega, by omega, Or.inr ⟨rfl, hbump⟩, ?_⟩
      rw [hc, hbK, Nat.cast_sub (by omega)]; push_cast; ring
    · have hc := codeAt_nonneg (b := b) hb (s := s) (t := t) (r := r) hts a1 a2 (by linarith)
        (by
          by_cases h : r < stop
          · left
            by_contra hcon
            exact hbump ⟨h, by linarith [not_lt.mp hcon]⟩
          · right; omega)
      refine ⟨r, a1, a2, Or.inl rfl, ?_⟩
      rw [hc, hbK, Nat.cast_sub (by omega)]; push_cast; ring
  · simp only [if_neg ht]
    have ht := not_le.mp ht
    rw [abs_of_neg ht] at *
    have hts : t * s < 0 := mul_neg_of_neg_of_pos ht hs
    have hlow' : (r : K) - 1 < -(t * s) := by
      rcases Nat.lt_or_ge 1 r with h | h
      · linarith [a3 h]
      · have : r = 1 := by omega
        rw [this]; push_cast; linarith
    by_cases hbump : r < stop ∧ (r : K) < -(t * s)
    · have h5 := a4 hbump.1
      have hc := codeAt_neg (b := b) hb (s := s) (t := t) (r := r + 1) hts (by omega) (by omega)
        (by push_cast; linarith [hbump.2]) (Or.inl (by push_cast; linarith))
      refine ⟨r + 1, by omega, by omega, Or.inr ⟨rfl, hbump.1, by linarith [hbump.2]⟩, ?_⟩
      rw [hc, hbK, Nat.cast_sub (by omega)]; push_cast; ring
    · have hc := codeAt_neg (b := b) hb (s := s) (t := t) (r := r) hts a1 a2 hlow'
        (by
          by_cases h : r < stop
          · left
            by_contra hcon
            exact hbump ⟨h, not_le.mp hcon⟩
          · right; omega)
      refine ⟨r, a1, a2, Or.inl rfl, ?_⟩
      rw [hc, hbK, Nat.cast_sub a2]; ring

/-- Every code is below `2 ^ b`. -/
theorem codeAt_lt {b : Nat} (s t : K) : codeAt b s t < 2 ^ b := by
  have h1 : (1 : K) ≤ 2 ^ b := one_le_pow₀ (by norm_num)
  have hc : 0 ≤ clampTo 0 (2 ^ b - 1) (t * s + offsetTerm b) ∧
      clampTo 0 (2 ^ b - 1) (t * s + offsetTerm b) ≤ (2 : K) ^ b - 1 := by
    unfold clampTo
    split
    · exact ⟨le_refl _, by linarith⟩
    · split
      · exact ⟨by linarith, le_refl _⟩
      · rename_i h2 h3; exact ⟨not_lt.mp h2, not_lt.mp h3⟩
  unfold codeAt roundAway
  rw [if_pos hc.1]
  have h2 : ⌊clampTo 0 (2 ^ b - 1) (t * s + offsetTerm b) + (1 : K) / 2⌋ < ((2 ^ b : Nat) : Int) := by
    rw [Int.floor_lt]
    push_cast
    linarith [hc.2]
  have h3 : (0 : Int) < ((2 ^ b : Nat) : Int) := by positivity
  omega

end codes

end Verif.Spherical
