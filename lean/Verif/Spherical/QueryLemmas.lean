import Verif.Spherical.CompressLemmas

/-! # Lemmas: queries, mirror images and training -/

namespace Verif.Spherical

open Verif.Rotate (inner)

variable {K : Type} [Field K] [LinearOrder K] [IsStrictOrderedRing K] [FloorRing K]

/-- The result of the compression of a query. -/
theorem compressQuery_ok {norm : List K → K} {top : K} {q : Quantizer K} {b : Nat} {x : List K} {old : List Nat} {d : Query K}
    (h : compressQuery norm top q b (x.map some) old = .ok d) :
    x.length = q.shift.length ∧ old.length = q.outDim ∧ d = compressQueryFinite norm top q b x old := by
  unfold compressQuery checkDims at h
  rw [List.length_map] at h
  by_cases h1 : x.length = q.shift.length
  · by_cases h2 : old.length = q.outDim
    · rw [if_neg (by simpa using h1), if_neg (by simpa using h2)] at h
      dsimp only at h
      rw [finite_map] at h
      simp only [Except.ok.injEq] at h
      exact ⟨h1, h2, h.symm⟩
    · rw [if_neg (by simpa using h1), if_pos h2] at h; simp at h
  · rw [if_pos h1] at h; simp at h

/-- What a full-precision query stands for. -/
theorem full_image {norm : List K → K} {q : Quantizer K} (hq : Sized q) {y : List K} (hy : y.length = q.shift.length)
    (hn : IsNorm norm (shifted norm q y)) :
    reconFull (compressFullFinite norm q y) = image norm q y ∧
      (compressFullFinite norm q y).metricSpecific = metricSpecific norm q y := by
  unfold compressFullFinite
  split
  · rename_i h0
    refine ⟨?_, ?_⟩
    · unfold reconFull image
      rw [h0]
      simp only [zero_mul]
      rw [List.map_const', List.map_const', List.length_replicate, transformed_length hq hy]
    · by_cases hm : q.metric = .squaredL2
      · rw [metricSpecific_l2 hm hn, inner_zero_left (norm_zero hn h0)]
      · rw [metricSpecific_ip hm, inner_zero_left (norm_zero hn h0)]
  · exact ⟨rfl, rfl⟩

theorem rangeOf_spec (top : K) (t : List K) (hne : t ≠ []) (ht : ∀ v ∈ t, |v| ≤ top) :
    (rangeOf top t).1 ∈ t ∧ (rangeOf top t).2 ∈ t ∧ ∀ v ∈ t, (rangeOf top t).1 ≤ v ∧ v ≤ (rangeOf top t).2 := by
  have gen : ∀ (t : List K) (m : K × K),
      (t.foldl (fun m i => (min i m.1, max i m.2)) m).1 ≤ m.1 ∧ m.2 ≤ (t.foldl (fun m i => (min i m.1, max i m.2)) m).2 ∧
      (∀ v ∈ t, (t.foldl (fun m i => (min i m.1, max i m.2)) m).1 ≤ v ∧ v ≤ (t.foldl (fun m i => (min i m.1, max i m.2)) m).2) ∧
      ((t.foldl (fun m i => (min i m.1, max i m.2)) m).1 = m.1 ∨ (t.foldl (fun m i => (min i m.1, max i m.2)) m).1 ∈ t) ∧
      ((t.foldl (fun m i => (min i m.1, max i m.2)) m).2 = m.2 ∨ (t.foldl (fun m i => (min i m.1, max i m.2)) m).2 ∈ t) := by
    intro t
    induction t with
    | nil => intro m; simp
    | cons a t ih =>
      intro m
      obtain ⟨h1, h2, h3, h4, h5⟩ := ih (min a m.1, max a m.2)
      simp only [List.foldl_cons]
      dsimp only at h1 h2 h4 h5
      refine ⟨le_trans h1 (min_le_right _ _), le_trans (le_max_right _ _) h2, ?_, ?_, ?_⟩
      · intro v hv
        rcases List.mem_cons.mp hv with e | e
        · rw [e]; exact ⟨le_trans h1 (min_le_left _ _), le_trans (le_max_left _ _) h2⟩
        · exact h3 v e
      · rcases h4 with h | h
        · rcases min_choice a m.1 with g | g
          · right; rw [h, g]; simp
          · left; rw [h, g]
        · right; simp [h]
      · rcases h5 with h | h
        · rcases max_choice a m.2 with g | g
          · right; rw [h, g]; simp
          · left; rw [h, g]
        · right; simp [h]
  obtain ⟨h1, h2, h3, h4, h5⟩ := gen t (top, -top)
  obtain ⟨v, hv⟩ := List.exists_mem_of_ne_nil t hne
  have hv1 := abs_le.mp (ht v hv)
  refine ⟨?_, ?_, h3⟩
  · rcases h4 with h | h
    · have : top = v := le_antisymm (by have := (h3 v hv).1; rw [h] at this; exact this) hv1.2
      unfold rangeOf
      rw [h]; dsimp only; rw [this]; exact hv
    · exact h
  · rcases h5 with h | h
    · have : v = -top := le_antisymm (by have := (h3 v hv).2; rw [h] at this; exact this) hv1.1
      unfold rangeOf
      rw [h]; dsimp only; rw [← this]; exact hv
    · exact h

theorem roundAway_near {y : K} (h : 0 ≤ y) : 0 ≤ roundAway y ∧ |(roundAway y : K) - y| ≤ 1 / 2 := by
  unfold roundAway
  rw [if_pos h]
  refine ⟨Int.floor_nonneg.mpr (by linarith), ?_⟩
  have h1 := Int.floor_le (y + 1 / 2)
  have h2 := Int.lt_floor_add_one (y + 1 / 2)
  rw [abs_le]
  constructor <;> linarith

theorem loop_neg (eps : K) (stop : Nat) (v : List K) (pick : Nat → List (Crit K) → Nat) (fuel : Nat) (w : Walk K) :
    Walk.loop eps stop (v.map (fun z => -z)) pick fuel w = Walk.loop eps stop v pick fuel w := by
  induction fuel generalizing w with
  | zero => rfl
  | succ fuel ih =>
    rw [Walk.loop, Walk.loop, List.getElem?_map]
    cases hc : w.crit[pick fuel w.crit]? with
    | none => cases v[pick fuel w.crit]? <;> rfl
    | some c =>
      cases hv : v[pick fuel w.crit]? with
      | none => cases c <;> rfl
      | some x =>
        cases hr : w.rounded[pick fuel w.crit]? with
        | none => cases c <;> rfl
        | some r =>
          cases c with
          | top => rfl
          | num y => simp only [Option.map_some, abs_neg]; exact ih _
          | infinite => simp only [Option.map_some, abs_neg]; exact ih _

theorem optimalScale_neg (eps : K) (b : Nat) (pick : Nat → List (Crit K) → Nat) (v : List K) :
    optimalScale eps b pick (v.map (fun z => -z)) = optimalScale eps b pick v := by
  unfold optimalScale
  by_cases h : v = []
  · rw [h]; rfl
  · rw [if_neg h, if_neg (by simpa using h), loop_neg, List.length_map]
    congr 2
    unfold Walk.start
    simp only [List.map_map, Function.comp_def, abs_neg, List.length_map]

theorem code_mirror (b : Nat) (s t : K) : 2 ^ b - 1 ≤ codeAt b s t + codeAt b s (-t) := by
  have h1 : (1 : K) ≤ 2 ^ b := one_le_pow₀ (by norm_num)
  have hsum : clampTo 0 (2 ^ b - 1) (t * s + offsetTerm b) + clampTo 0 (2 ^ b - 1) (-t * s + offsetTerm b) =
      (2 : K) ^ b - 1 := by
    have e : -t * s + offsetTerm b = (2 ^ b - 1) - (t * s + offsetTerm b) := by unfold offsetTerm; ring
    rw [e]
    generalize t * s + offsetTerm b = y
    unfold clampTo
    split_ifs <;> linarith
  have hn : ∀ y : K, 0 ≤ clampTo 0 (2 ^ b - 1) y := by
    intro y; unfold clampTo; split_ifs <;> linarith
  unfold codeAt
  generalize hu : clampTo 0 (2 ^ b - 1) (t * s + offsetTerm b) = u at *
  generalize hv : clampTo 0 (2 ^ b - 1) (-t * s + offsetTerm b) = v at *
  have u0 : 0 ≤ u := by rw [← hu]; exact hn _
  have v0 : 0 ≤ v := by rw [← hv]; exact hn _
  unfold roundAway
  rw [if_pos u0, if_pos v0]
  have a1 := Int.lt_floor_add_one (u + 1 / 2)
  have a2 := Int.lt_floor_add_one (v + 1 / 2)
  have key : ((2 ^ b - 1 : Nat) : Int) ≤ ⌊u + 1 / 2⌋ + ⌊v + 1 / 2⌋ := by
    have : (((2 ^ b - 1 : Nat) : Int) : K) < ((⌊u + 1 / 2⌋ + ⌊v + 1 / 2⌋ + 1 : Int) : K) := by
      rw [Int.cast_natCast, Nat.cast_sub (Nat.one_le_two_pow)]
      push_cast
      linarith
    have : ((2 ^ b - 1 : Nat) : Int) < ⌊u + 1 / 2⌋ + ⌊v + 1 / 2⌋ + 1 := by exact_mod_cast this
    omega
  have b1 : 0 ≤ ⌊u + 1 / 2⌋ := Int.floor_nonneg.mpr (by linarith)
  have b2 : 0 ≤ ⌊v + 1 / 2⌋ := Int.floor_nonneg.mpr (by linarith)
  omega

omit [FloorRing K] in
/-- The column means of a matrix with at least one row, as training computes them. -/
theorem columnSums_get (ncols : Nat) (rows : List (List K)) (hr : ∀ r ∈ rows, r.length = ncols) :
    columnSums ncols rows = (List.range ncols).map (fun j => (rows.map (fun r => r.getD j 0)).sum) := by
  have gen : ∀ (rows : List (List K)) (acc : List K), acc.length = ncols → (∀ r ∈ rows, r.length = ncols) →
      rows.foldl (fun m r => List.zipWith (· + ·) m r) acc =
        (List.range ncols).map (fun j => acc.getD j 0 + (rows.map (fun r => r.getD j 0)).sum) := by
    intro rows
    induction rows with
    | nil =>
      intro acc ha _
      refine List.ext_getElem (by simp [ha]) (fun i h1 h2 => ?_)
      have : i < acc.length := h1
      simp [List.getD_eq_getElem?_getD, this]
    | cons r rows ih =>
      intro acc ha hr
      have hrl := hr r (by simp)
      rw [List.foldl_cons, ih _ (by simp [ha, hrl]) (fun r' h => hr r' (by simp [h]))]
      refine List.map_congr_left (fun j hj => ?_)
      have hj := List.mem_range.mp hj
      have hja : j < acc.length := by omega
      have hjr : j < r.length := by omega
      rw [List.map_cons, List.sum_cons, ← add_assoc]
      congr 1
      simp [List.getD_eq_getElem?_getD, hja, hjr]
  unfold columnSums
  rw [gen rows _ (by simp) hr]
  refine List.map_congr_left (fun j hj => ?_)
  have hj := List.mem_range.mp hj
  simp [List.getD_eq_getElem?_getD, hj]

end Verif.Spherical
