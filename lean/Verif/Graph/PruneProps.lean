import Verif.Graph.PruneLemmas

/-!
# C07, C08: properties of pruning
-/

namespace Verif.Graph

variable {I : Type} [DecidableEq I]

theorem ids_nodup (pool : List (I × Rat)) (hp : (pool.map (·.1)).Nodup) (chosen : List Nat)
    (hn : chosen.Nodup) : (chosen.filterMap fun i => (pool[i]?).map (·.1)).Nodup := by
  refine List.Nodup.filterMap ?_ hn
  intro i j x hi hj
  simp only [Option.mem_def, Option.map_eq_some_iff] at hi hj
  obtain ⟨a, ha, rfl⟩ := hi
  obtain ⟨b, hb, hab⟩ := hj
  rw [List.getElem?_eq_some_iff] at ha hb
  obtain ⟨h1, rfl⟩ := ha
  obtain ⟨h2, rfl⟩ := hb
  have := (List.nodup_iff_injective_get.1 hp) (a₁ := ⟨i, by simpa⟩) (a₂ := ⟨j, by simpa⟩) (by simp [hab])
  simpa using this

theorem saturateLoop_spec (degree : Nat) (excl : I → Bool) (pool : List (I × Rat)) (l : List I)
    (hl : l.length ≤ degree) (hn : l.Nodup) :
    (saturateLoop degree excl pool l).length ≤ degree ∧ (saturateLoop degree excl pool l).Nodup ∧
      (∃ t, saturateLoop degree excl pool l = l ++ t ∧
        ∀ x ∈ t, x ∈ pool.map (·.1) ∧ excl x = false) := by
  induction pool generalizing l with
  | nil => exact ⟨hl, hn, [], by simp [saturateLoop], by simp⟩
  | cons a pool ih =>
    rw [saturateLoop]
    split
    · exact ⟨hl, hn, [], by simp, by simp⟩
    · rename_i hd
      by_cases he : excl a.1 = true
      · rw [if_pos he]
        obtain ⟨h1, h2, t, h3, h4⟩ := ih l hl hn
        exact ⟨h1, h2, t, h3, fun x hx => ⟨by simp [(h4 x hx).1], (h4 x hx).2⟩⟩
      · rw [if_neg he]
        by_cases hm : a.1 ∈ l
        · have : (push l a.1).1 = l := by simp [push, hm]
          rw [this]
          obtain ⟨h1, h2, t, h3, h4⟩ := ih l hl hn
          exact ⟨h1, h2, t, h3, fun x hx => ⟨by simp [(h4 x hx).1], (h4 x hx).2⟩⟩
        · have : (push l a.1).1 = l ++ [a.1] := by simp [push, hm]
          rw [this]
          obtain ⟨h1, h2, t, h3, h4⟩ := ih (l ++ [a.1]) (by simp; omega)
            (by rw [List.nodup_append]; refine ⟨hn, by simp, ?_⟩
                intro x hx y hy hxy; simp at hy; subst hy; subst hxy; exact hm hx)
          refine ⟨h1, h2, a.1 :: t, by rw [h3]; simp, ?_⟩
          intro x hx
          rcases List.mem_cons.1 hx with rfl | hx
          · exact ⟨by simp, by simpa using he⟩
          · exact ⟨by simp [(h4 x hx).1], (h4 x hx).2⟩

/-- C07 (partial: fails for pools with repeated ids, see `C07_duplicate_pool_gives_duplicate_neighbors`). Pruning the
candidate pool `pool0` of `location` (every id at most once): whatever the tie
order `SortedNeighbors` picks, whatever vectors are available, whatever the distance function, alpha,
prune kind and saturation options, the resulting list has at most `pruned_degree` entries, no id
twice, only ids of the pool, and never `location` itself. -/
theorem C07_pruned_list_partial (c : Config) (location : I) (pool0 pool : List (I × Rat)) (vec : I → Bool)
    (dd : I → I → Rat) (force : Bool) (fuel : Nat) (out : List I)
    (hp : (pool0.map (·.1)).Nodup) (hs : SortedPrefix pool0 c.maxOcclusion pool)
    (h : occludeList c pool vec (fun x => decide (x = location)) dd force fuel = some out) :
    out.length ≤ c.prunedDegree ∧ out.Nodup ∧ (∀ x ∈ out, x ∈ pool0.map (·.1)) ∧ location ∉ out := by
  obtain ⟨rest, hperm, _⟩ := hs.rest
  have hpn : (pool.map (·.1)).Nodup := by
    have := (hperm.map (·.1)).nodup_iff.2 hp
    rw [List.map_append] at this
    exact (List.nodup_append.1 this).1
  have hsub : ∀ x ∈ pool.map (·.1), x ∈ pool0.map (·.1) := by
    intro x hx
    have := (hperm.map (·.1)).subset
    rw [List.map_append] at this
    exact this (List.mem_append_left _ hx)
  unfold occludeList at h
  split at h
  · simp only [Option.some.injEq] at h; subst h; simp
  · simp only [Option.map_eq_some_iff] at h
    obtain ⟨chosen, hc, ho⟩ := h
    simp only [robustPrune, Option.map_eq_some_iff] at hc
    obtain ⟨s', hr, rfl⟩ := hc
    have hI := inv_rounds _ _ _ _ _ (inv_init _) hr
    have hbase : (s'.chosen.filterMap fun i => (pool[i]?).map (·.1)).length ≤ c.prunedDegree :=
      Nat.le_trans (List.length_filterMap_le _ _) hI.len
    have hnd := ids_nodup pool hpn s'.chosen hI.nodup
    have hmem : ∀ x ∈ (s'.chosen.filterMap fun i => (pool[i]?).map (·.1)),
        x ∈ pool.map (·.1) ∧ decide (x = location) = false := by
      intro x hx
      simp only [List.mem_filterMap, Option.map_eq_some_iff] at hx
      obtain ⟨i, hi, a, ha, rfl⟩ := hx
      have hu := (hI.range i hi).2
      simp only [toProblem, ha, Bool.and_eq_true, Bool.not_eq_true'] at hu
      exact ⟨List.mem_map.2 ⟨a, List.mem_of_getElem? ha, rfl⟩, hu.1⟩
    split at ho
    · subst ho
      obtain ⟨h1, h2, t, h3, h4⟩ := saturateLoop_spec c.prunedDegree (fun x => decide (x = location)) pool _ hbase hnd
      refine ⟨h1, h2, ?_, ?_⟩
      · intro x hx
        rw [h3] at hx
        rcases List.mem_append.1 hx with hx | hx
        · exact hsub x (hmem x hx).1
        · exact hsub x (h4 x hx).1
      · intro hx
        rw [h3] at hx
        rcases List.mem_append.1 hx with hx | hx
        · simpa using (hmem _ hx).2
        · simpa using (h4 _ hx).2
    · subst ho
      refine ⟨hbase, hnd, fun x hx => hsub x (hmem x hx).1, fun hx => ?_⟩
      simpa using (hmem _ hx).2

/-- C07 (termination; partial: fails for a NaN alpha, see `C07_nan_alpha_diverges`). With any alpha that is a number, pruning finishes within a number of rounds
that depends on alpha only, and its result does not depend on the step budget of the model. -/
theorem C07_terminates_partial (a : Rat) : ∃ fuel, ∀ (c : Config), c.alpha = some a →
    ∀ (pool : List (I × Rat)) (vec excl : I → Bool) (dd : I → I → Rat) (force : Bool),
      ∃ out, ∀ k, occludeList c pool vec excl dd force (fuel + k) = some out := by
  obtain ⟨fuel, hf⟩ := rounds_terminates a
  refine ⟨fuel, fun c ha pool vec excl dd force => ?_⟩
  obtain ⟨s', h⟩ := hf (toProblem c pool vec excl dd) ha State.init
  by_cases hp : pool = []
  · exact ⟨[], fun k => by simp [occludeList, hp]⟩
  · have key : ∀ k, occludeList c pool vec excl dd force (fuel + k) =
        occludeList c pool vec excl dd force fuel := by
      intro k
      unfold occludeList
      rw [if_neg hp, if_neg hp]
      simp only [robustPrune, rounds_mono _ _ _ _ _ h k, h]
    have hex : ∃ out, occludeList c pool vec excl dd force fuel = some out := by
      unfold occludeList
      rw [if_neg hp]
      simp only [robustPrune, h, Option.map_some, Option.some.injEq]
      exact ⟨_, rfl⟩
    obtain ⟨out, ho⟩ := hex
    exact ⟨out, fun k => by rw [key k]; exact ho⟩

/-- C07, disagreement: `alpha` is never validated, and with a NaN `alpha` pruning a non-empty pool
smaller than the degree bound never finishes. -/
theorem C07_nan_alpha_diverges (c : Config) (ha : c.alpha = none) (pool : List (I × Rat))
    (hne : pool ≠ []) (hlt : pool.length < c.prunedDegree) (vec excl : I → Bool) (dd : I → I → Rat)
    (force : Bool) : ∀ fuel, occludeList c pool vec excl dd force fuel = none := by
  intro fuel
  have key : ∀ fuel cur s, Inv (toProblem c pool vec excl dd) s →
      rounds (toProblem c pool vec excl dd) fuel cur s = none := by
    intro fuel
    induction fuel with
    | zero => intros; rfl
    | succ fuel ih =>
      intro cur s hs
      have hlen : s.chosen.length < c.prunedDegree := by
        have : s.chosen.length ≤ pool.length := by
          have hsub : s.chosen ⊆ List.range pool.length := fun i hi =>
            List.mem_range.2 (hs.range i hi).1
          simpa using (List.subperm_of_subset hs.nodup hsub).length_le
        omega
      have e : (toProblem c pool vec excl dd).degree = c.prunedDegree := rfl
      rw [rounds, if_pos (by rw [e]; exact hlen)]
      simp only
      rw [if_neg (by simp [toProblem, ha])]
      exact ih _ _ (inv_round _ _ _ hs)
  unfold occludeList
  rw [if_neg hne]
  simp [robustPrune, key fuel 1 _ (inv_init _)]

/-- Demo data: ids are points on a line; the pool is the one of vertex 9 and contains 9 itself. -/
def demoDist (x y : Nat) : Rat := if x ≤ y then (y - x : Nat) else (x - y : Nat)

def demoConfig : Config :=
  { prunedDegree := 3, maxDegree := 4, maxOcclusion := 10, alpha := some (7 / 5)
    kind := .triangleInequality, saturate := false }

def demoPool : List (Nat × Rat) := [(9, 0), (10, 1), (7, 2), (12, 3), (5, 4)]

/-- C07 non-vacuity: pruning a five-candidate pool of vertex 9 keeps two neighbours. -/
example : occludeList demoConfig demoPool (fun _ => true) (fun x => decide (x = 9)) demoDist false 9
    = some [10, 7] := by decide +kernel

example : occludeList { demoConfig with saturate := true } demoPool (fun _ => true)
    (fun x => decide (x = 9)) demoDist false 9 = some [10, 7, 12] := by decide +kernel

example : SortedPrefix demoPool demoConfig.maxOcclusion demoPool :=
  ⟨by decide, by decide +kernel, [], by simp⟩

/-- C07, disagreement: the pool may not contain the same id twice. `robust_prune_with` appends the
other members of the batch to the search record without checking whether the search already found
them, and under the `Occluding` rule both copies can be chosen. -/
theorem C07_duplicate_pool_gives_duplicate_neighbors :
    occludeList { demoConfig with kind := .occluding } [(1, -1), (1, -1)] (fun _ => true)
      (fun x => decide (x = 0)) (fun _ _ => (-1 : Rat)) false 9 = some [1, 1] := by decide +kernel

/-! ## C08 -/

/-- `k` is occluded by `j` at `alpha` for a vertex at distance `dik` from `k` (the RobustPrune
condition `alpha * d(j,k) < d(vertex,k)`, also true when `j` and `k` coincide). -/
def Occludes (alpha dik djk : Rat) : Prop := djk = 0 ∨ alpha < dik / djk

/-- For positive distances this is the usual multiplied-out condition. -/
theorem occludes_iff (alpha dik djk : Rat) (h : 0 < djk) :
    Occludes alpha dik djk ↔ alpha * djk < dik := by
  unfold Occludes
  rw [lt_div_iff₀ h]
  constructor
  · rintro (h0 | h1)
    · exact absurd h0 (ne_of_gt h)
    · exact h1
  · exact Or.inr

/-- C08 (partial: triangle-inequality rule only; the `Occluding` rule violates it, see `C08_occluding_forgets`). The choice made by `robust_prune` on a sorted pool, before
saturation. `chosen` lists positions of the pool. (1) If fewer than `pruned_degree` were chosen, every
usable candidate `k` left out is occluded, at the final alpha, by a chosen candidate `j` that is no
further from the vertex. (2) No chosen candidate is occluded, at the final (largest) alpha, by a
closer candidate chosen before it. (3) The first usable candidate is chosen first. -/
theorem C08_coverage_partial (c : Config) (a : Rat) (ha : c.alpha = some a) (h1 : 1 ≤ a)
    (hk : c.kind = .triangleInequality) (pool0 pool : List (I × Rat)) (vec excl : I → Bool)
    (dd : I → I → Rat) (fuel : Nat) (chosen : List Nat)
    (hs : SortedPrefix pool0 c.maxOcclusion pool)
    (h : robustPrune (toProblem c pool vec excl dd) fuel = some chosen) :
    (chosen.length < c.prunedDegree → ∀ k (hkl : k < pool.length),
      excl pool[k].1 = false → vec pool[k].1 = true → k ∉ chosen →
        ∃ j, ∃ hj : j < pool.length, j ∈ chosen ∧ pool[j].2 ≤ pool[k].2 ∧
          Occludes a pool[k].2 (dd pool[k].1 pool[j].1)) ∧
    (∀ pre k post, chosen = pre ++ k :: post → ∀ j ∈ pre, j < k →
      ∃ hkl : k < pool.length, ∃ hjl : j < pool.length,
        ¬ Occludes a pool[k].2 (dd pool[k].1 pool[j].1)) ∧
    (0 < c.prunedDegree → ∀ k (hkl : k < pool.length),
      excl pool[k].1 = false → vec pool[k].1 = true →
      (∀ j (hj : j < pool.length), j < k → excl pool[j].1 = true ∨ vec pool[j].1 = false) →
        ∃ t, chosen = k :: t) := by
  simp only [robustPrune, Option.map_eq_some_iff] at h
  obtain ⟨s', hr, rfl⟩ := h
  set P := toProblem c pool vec excl dd with hPdef
  have hI := inv_rounds _ _ _ _ _ (inv_init P) hr
  have hP : P.update = PruneKind.triangleInequality.update := by rw [hPdef, toProblem, hk]
  have haP : P.alpha = some a := ha
  have hT := tri_rounds P hP a a haP (le_refl _) fuel 1 h1 _ _ (inv_init P) (tri_init P a) hr
  have husable : ∀ k (hkl : k < pool.length), excl pool[k].1 = false → vec pool[k].1 = true →
      P.usable k = true := by
    intro k hkl h1 h2
    simp [hPdef, toProblem, List.getElem?_eq_getElem hkl, h1, h2]
  have hdik : ∀ k (hkl : k < pool.length), P.dik k = pool[k].2 := by
    intro k hkl; simp [hPdef, toProblem, List.getElem?_eq_getElem hkl]
  have hdist : ∀ k j (hkl : k < pool.length) (hj : j < pool.length),
      P.dist k j = dd pool[k].1 pool[j].1 := by
    intro k j hkl hj; simp [hPdef, toProblem, List.getElem?_eq_getElem hkl, List.getElem?_eq_getElem hj]
  refine ⟨?_, ?_, ?_⟩
  · intro hlt k hkl he hv hkc
    have hgt := rounds_done P a haP fuel 1 _ s' hr hlt k hkl
    rcases hT.wit k hkc (husable k hkl he hv) with h0 | ⟨j, hj, hjk, hw⟩
    · rw [h0] at hgt
      have : (a : Factor) < ((0 : Rat) : Factor) := hgt
      rw [WithTop.coe_lt_coe] at this
      linarith
    · have hjl := (hI.range j hj).1
      refine ⟨j, hjl, hj, ?_, ?_⟩
      · exact (List.pairwise_iff_getElem.1 hs.sorted) j k hjl hkl hjk
      · rw [← hdist k j hkl hjl, ← hdik k hkl]
        rcases hw with ⟨h0, _⟩ | ⟨h0, hq⟩
        · exact Or.inl h0
        · rw [hq, WithTop.coe_lt_coe] at hgt; exact Or.inr hgt
  · intro pre k post hsp j hj hjk
    have hkl := (hI.range k (by rw [hsp]; simp)).1
    have hjl := (hI.range j (by rw [hsp]; simp [hj])).1
    refine ⟨hkl, hjl, ?_⟩
    obtain ⟨h0, hq⟩ := hT.ord pre k post hsp j hj hjk
    rw [WithTop.coe_le_coe] at hq
    rw [← hdist k j hkl hjl, ← hdik k hkl]
    rintro (h | h)
    · exact h0 h
    · exact absurd hq (not_le.2 h)
  · intro hd k hkl he hv hb
    refine rounds_first P k hkl (husable k hkl he hv) ?_ hd fuel s' hr
    intro j hj
    have hjl : j < pool.length := by omega
    rcases hb j hjl hj with h | h
    · simp [hPdef, toProblem, List.getElem?_eq_getElem hjl, h]
    · simp [hPdef, toProblem, List.getElem?_eq_getElem hjl, h]

/-- C08 non-vacuity: fewer than `pruned_degree` chosen, and two usable candidates left out. -/
example : robustPrune (toProblem demoConfig demoPool (fun _ => true) (fun x => decide (x = 9)) demoDist) 9
    = some [1, 2] := by decide +kernel

/-- C08 for the `Occluding` rule, part (3): the first usable candidate is chosen first, whatever the
rule. -/
theorem C08_closest_first_any_rule (c : Config) (pool : List (I × Rat)) (vec excl : I → Bool)
    (dd : I → I → Rat) (fuel : Nat) (chosen : List Nat)
    (h : robustPrune (toProblem c pool vec excl dd) fuel = some chosen) (hd : 0 < c.prunedDegree)
    (k : Nat) (hkl : k < pool.length) (he : excl pool[k].1 = false) (hv : vec pool[k].1 = true)
    (hb : ∀ j (hj : j < pool.length), j < k → excl pool[j].1 = true ∨ vec pool[j].1 = false) :
    ∃ t, chosen = k :: t := by
  simp only [robustPrune, Option.map_eq_some_iff] at h
  obtain ⟨s', hr, rfl⟩ := h
  refine rounds_first _ k hkl ?_ ?_ hd fuel s' hr
  · simp [toProblem, List.getElem?_eq_getElem hkl, he, hv]
  · intro j hj
    have hjl : j < pool.length := by omega
    rcases hb j hjl hj with h | h
    · simp [toProblem, List.getElem?_eq_getElem hjl, h]
    · simp [toProblem, List.getElem?_eq_getElem hjl, h]

/-- C08, disagreement: under the `Occluding` rule with alpha = 2 a candidate can be chosen although
a closer candidate chosen before it occludes it at that alpha (`d(j,k) < alpha * d(vertex,k)`): the
occlusion found in the first round (alpha = 1) is forgotten once alpha exceeds 1.01, and `j` is not
looked at again. Here `j` is position 0, `k` position 1, `d(vertex,k) = -1` and `d(j,k) = -10`. -/
theorem C08_occluding_forgets :
    robustPrune (toProblem { demoConfig with kind := .occluding, alpha := some 2 }
      [(1, (-2 : Rat)), (2, -1)] (fun _ => true) (fun x => decide (x = 0))
      (fun _ _ => (-10 : Rat))) 9 = some [0, 1] ∧ (-10 : Rat) < 2 * (-1) := by
  decide +kernel

end Verif.Graph
