import Verif.Kmeans.LloydLemmas

/-! # Lemmas about the update of the centers and the loss -/

namespace Verif.Kmeans

variable {K : Type} [Field K]

/-! ## The means -/

/-- The sum of entry `j` of the rows assigned to `c`. -/
def cSum (ps : List (List K × Nat)) (c j : Nat) : K := ((ps.filter (fun p => p.2 = c)).map (·.1.getD j 0)).sum

/-- The number of rows assigned to `c`. -/
def cCount (ps : List (List K × Nat)) (c : Nat) : Nat := (ps.filter (fun p => p.2 = c)).length

theorem modify_range {α : Type} (k c : Nat) (f : Nat → α) (g : α → α) :
    ((List.range k).map f).modify c g = (List.range k).map fun i => if i = c then g (f i) else f i := by
  apply List.ext_getElem
  · simp
  · intro i h1 h2
    simp only [List.getElem_modify, List.getElem_map, List.getElem_range]
    by_cases h : c = i <;> simp [h, eq_comm]

theorem zipWith_range (n : Nat) (f : Nat → K) (row : List K) (h : row.length = n) :
    List.zipWith (· + ·) ((List.range n).map f) row = (List.range n).map fun j => f j + row.getD j 0 := by
  apply List.ext_getElem
  · simp [h]
  · intro i h1 h2
    simp only [List.getElem_zipWith, List.getElem_map, List.getElem_range]
    rw [List.getD_eq_getElem]

theorem addRow_fold (k n : Nat) : ∀ (ps : List (List K × Nat)) (S : Nat → Nat → K) (N : Nat → Nat),
    (∀ p ∈ ps, p.1.length = n ∧ p.2 < k) →
    ps.foldlM addRow ((List.range k).map fun c => (List.range n).map (S c), (List.range k).map N)
      = some ((List.range k).map fun c => (List.range n).map fun j => S c j + cSum ps c j,
          (List.range k).map fun c => N c + cCount ps c)
  | [], S, N, _ => by simp [cSum, cCount]
  | p :: ps, S, N, h => by
    obtain ⟨h1, h2⟩ := h p (by simp)
    rw [List.foldlM_cons]
    have e : addRow ((List.range k).map fun c => (List.range n).map (S c), (List.range k).map N) p
        = some ((List.range k).map fun c => (List.range n).map fun j => S c j + if c = p.2 then p.1.getD j 0 else 0,
          (List.range k).map fun c => N c + if c = p.2 then 1 else 0) := by
      unfold addRow
      rw [if_pos (by simpa using h2), modify_range, modify_range]
      congr 2
      · apply List.map_congr_left
        intro c _
        by_cases hc : c = p.2
        · rw [if_pos hc, zipWith_range _ _ _ h1]
          apply List.map_congr_left
          intro j _
          rw [if_pos hc]
        · rw [if_neg hc]
          apply List.map_congr_left
          intro j _
          rw [if_neg hc, add_zero]
      · apply List.map_congr_left
        intro c _
        by_cases hc : c = p.2 <;> simp [hc]
    rw [e]
    simp only [Option.bind_eq_bind, Option.bind_some]
    rw [addRow_fold k n ps (fun c j => S c j + if c = p.2 then p.1.getD j 0 else 0) (fun c => N c + if c = p.2 then 1 else 0)
      fun q hq => h q (by simp [hq])]
    congr 2
    · apply List.map_congr_left
      intro c _
      apply List.map_congr_left
      intro j _
      unfold cSum
      rw [List.filter_cons]
      by_cases hc : c = p.2
      · rw [if_pos hc, if_pos (by simpa using hc.symm), List.map_cons, List.sum_cons, add_assoc]
      · rw [if_neg hc, if_neg (by simpa using fun h => hc h.symm), add_zero]
    · apply List.map_congr_left
      intro c _
      unfold cCount
      rw [List.filter_cons]
      by_cases hc : c = p.2
      · rw [if_pos hc, if_pos (by simpa using hc.symm), List.length_cons]; omega
      · rw [if_neg hc, if_neg (by simpa using fun h => hc h.symm), add_zero]

/-- The new centers. -/
def means (k n : Nat) (data : List (List K)) (assign : List Nat) : List (List K) :=
  (List.range k).map fun c => mean n (members data assign c)

theorem updateCentroids_spec (centers : List (List K)) (n : Nat) (data : List (List K)) (assign : List Nat)
    (hd : Rect n data) (ha : ∀ a ∈ assign, a < centers.length) :
    updateCentroids centers n data assign = some (means centers.length n data assign) := by
  unfold updateCentroids
  have e1 : (List.replicate centers.length (List.replicate n (0 : K)) : List (List K))
      = (List.range centers.length).map fun _ => (List.range n).map fun _ => (0 : K) := by
    simp
  have e2 : (List.replicate centers.length 0 : List Nat) = (List.range centers.length).map fun _ => 0 := by simp
  rw [e1, e2, addRow_fold centers.length n _ (fun _ _ => 0) (fun _ => 0) ?_]
  · simp only [Option.bind_eq_bind, Option.bind_some]
    congr 1
    unfold means
    apply List.ext_getElem
    · simp
    intro c h1 h2
    simp only [List.getElem_zipWith, List.getElem_map, List.getElem_range, zero_add]
    unfold mean
    by_cases hm : members data assign c = []
    · rw [if_pos hm]
      have hf : (data.zip assign).filter (fun p => p.2 = c) = [] := by
        unfold members at hm
        exact List.map_eq_nil_iff.1 hm
      have : cSum (data.zip assign) c = fun _ => (0 : K) := by
        funext j; unfold cSum; rw [hf]; rfl
      rw [this]
      simp [List.map_map]
    · rw [if_neg hm, List.map_map]
      apply List.map_congr_left
      intro j _
      have hl : cCount (data.zip assign) c = (members data assign c).length := by simp [cCount, members]
      have hpos : 0 < (members data assign c).length := List.length_pos_iff.2 hm
      simp only [Function.comp]
      rw [hl, Nat.max_eq_left (by omega)]
      congr 1
      simp [cSum, members, List.map_map, Function.comp_def]
  · intro p hp
    exact ⟨hd _ (List.of_mem_zip hp).1, ha _ (List.of_mem_zip hp).2⟩

/-! ## The loss -/

variable [LinearOrder K] [IsStrictOrderedRing K]

theorem distSq_nonneg (x y : List K) : 0 ≤ distSq x y := by
  unfold distSq
  apply List.sum_nonneg
  intro d hd
  obtain ⟨i, hi, rfl⟩ := List.getElem_of_mem hd
  simp only [List.getElem_zipWith]
  exact mul_self_nonneg _

theorem distSq_self (x : List K) : distSq x x = 0 := by
  rw [distSq_eq _ _ rfl]
  exact Finset.sum_eq_zero fun i _ => by ring

theorem distSq_eq_zero {x y : List K} (h : x.length = y.length) : distSq x y = 0 ↔ x = y := by
  constructor
  · intro h0
    rw [distSq_eq _ _ h] at h0
    have := (Finset.sum_eq_zero_iff_of_nonneg fun i _ => mul_self_nonneg _).1 h0
    apply List.ext_getElem h
    intro i h1 h2
    have hi := this i (Finset.mem_range.2 h1)
    rw [List.getD_eq_getElem _ _ h1, List.getD_eq_getElem _ _ h2] at hi
    exact sub_eq_zero.1 (mul_self_eq_zero.1 hi)
  · rintro rfl; exact distSq_self x

theorem sq_sum_expand (ys : List K) (v : K) :
    (ys.map fun y => (y - v) * (y - v)).sum = (ys.map fun y => y * y).sum - 2 * v * ys.sum + ys.length * (v * v) := by
  induction ys with
  | nil => simp
  | cons y ys ih => simp only [List.map_cons, List.sum_cons, ih, List.length_cons, Nat.cast_succ]; ring

/-- No number is closer, in the sum of squares, than the mean. -/
theorem mean_best (ys : List K) (h : ys ≠ []) (v : K) :
    (ys.map fun y => (y - ys.sum / ys.length) * (y - ys.sum / ys.length)).sum
      ≤ (ys.map fun y => (y - v) * (y - v)).sum := by
  rw [sq_sum_expand, sq_sum_expand]
  have hl : (0 : K) < ys.length := by exact_mod_cast List.length_pos_iff.2 h
  set L : K := (ys.length : K)
  set S := ys.sum
  have hS : S = L * (S / L) := by field_simp
  set m := S / L
  rw [hS]
  nlinarith [mul_nonneg hl.le (mul_self_nonneg (m - v))]

theorem sum_distSq_swap (n : Nat) (xs : List (List K)) (hx : Rect n xs) (v : List K) (hv : v.length = n) :
    (xs.map fun x => distSq x v).sum
      = ∑ j ∈ Finset.range n, ((xs.map (·.getD j 0)).map fun y => (y - v.getD j 0) * (y - v.getD j 0)).sum := by
  induction xs with
  | nil => simp
  | cons x xs ih =>
    have hl : x.length = n := hx x (by simp)
    simp only [List.map_cons, List.sum_cons, Finset.sum_add_distrib, ih fun r hr => hx r (by simp [hr])]
    rw [distSq_eq _ _ (by rw [hl, hv]), hl]

theorem mean_length (n : Nat) (xs : List (List K)) : (mean n xs).length = n := by
  unfold mean; split <;> simp

/-- The mean of a cluster is at least as good as any other center. -/
theorem cluster_best (n : Nat) (xs : List (List K)) (hx : Rect n xs) (v : List K) (hv : v.length = n) :
    (xs.map fun x => distSq x (mean n xs)).sum ≤ (xs.map fun x => distSq x v).sum := by
  by_cases h : xs = []
  · simp [h]
  rw [sum_distSq_swap n xs hx _ (mean_length n xs), sum_distSq_swap n xs hx v hv]
  refine Finset.sum_le_sum fun j hj => ?_
  have e : (mean n xs).getD j 0 = (xs.map (·.getD j 0)).sum / ((xs.map (·.getD j 0)).length : K) := by
    unfold mean
    rw [if_neg h, List.getD_eq_getElem _ _ (by simpa using hj)]
    simp
  rw [e]
  exact mean_best _ (by simpa using h) _

theorem sum_partition (k : Nat) (ps : List (List K × Nat)) (g : List K × Nat → K) (h : ∀ p ∈ ps, p.2 < k) :
    (ps.map g).sum = ∑ c ∈ Finset.range k, ((ps.filter (fun p => p.2 = c)).map g).sum := by
  induction ps with
  | nil => simp
  | cons p ps ih =>
    have hp := h p (by simp)
    rw [List.map_cons, List.sum_cons, ih fun q hq => h q (by simp [hq])]
    have e : ∀ c, (((p :: ps).filter (fun p => p.2 = c)).map g).sum
        = (if c = p.2 then g p else 0) + ((ps.filter (fun p => p.2 = c)).map g).sum := by
      intro c
      rw [List.filter_cons]
      by_cases hc : p.2 = c
      · rw [if_pos (by simpa using hc), if_pos hc.symm, List.map_cons, List.sum_cons]
      · rw [if_neg (by simpa using hc), if_neg (fun h => hc h.symm), zero_add]
    rw [Finset.sum_congr rfl fun c _ => e c, Finset.sum_add_distrib, Finset.sum_ite_eq' (Finset.range k) p.2 (fun _ => g p),
      if_pos (Finset.mem_range.2 hp)]

theorem loss_zip (data centers : List (List K)) (assign : List Nat) :
    loss data centers assign = ((data.zip assign).map fun p => distSq p.1 (centers.getD p.2 [])).sum := by
  unfold loss
  rw [List.zip, List.map_zipWith]

theorem loss_clusters (k : Nat) (data centers : List (List K)) (assign : List Nat) (ha : ∀ a ∈ assign, a < k) :
    loss data centers assign
      = ∑ c ∈ Finset.range k, ((members data assign c).map fun x => distSq x (centers.getD c [])).sum := by
  rw [loss_zip, sum_partition k _ _ fun p hp => ha _ (List.of_mem_zip hp).2]
  refine Finset.sum_congr rfl fun c _ => ?_
  congr 1
  unfold members
  rw [List.map_map]
  apply List.map_congr_left
  intro p hp
  have : p.2 = c := by simpa using (List.mem_filter.1 hp).2
  simp [this]

theorem members_rect {n : Nat} {data : List (List K)} (hd : Rect n data) (assign : List Nat) (c : Nat) :
    Rect n (members data assign c) := by
  intro r hr
  unfold members at hr
  obtain ⟨p, hp, rfl⟩ := List.mem_map.1 hr
  exact hd _ (List.of_mem_zip (List.mem_filter.1 hp).1).1

theorem means_rect (k n : Nat) (data : List (List K)) (assign : List Nat) : Rect n (means k n data assign) := by
  intro r hr
  obtain ⟨c, _, rfl⟩ := List.mem_map.1 hr
  exact mean_length _ _

theorem means_length (k n : Nat) (data : List (List K)) (assign : List Nat) : (means k n data assign).length = k := by
  simp [means]

/-- The means are at least as good as any other centers for the same assignments. -/
theorem loss_means_le (n : Nat) (data centers : List (List K)) (assign : List Nat) (hd : Rect n data)
    (hc : Rect n centers) (ha : ∀ a ∈ assign, a < centers.length) :
    loss data (means centers.length n data assign) assign ≤ loss data centers assign := by
  rw [loss_clusters centers.length _ _ _ ha, loss_clusters centers.length _ _ _ ha]
  refine Finset.sum_le_sum fun c hc' => ?_
  have hcl := Finset.mem_range.1 hc'
  have e : (means centers.length n data assign).getD c [] = mean n (members data assign c) := by
    rw [List.getD_eq_getElem _ _ (by simpa [means] using hcl)]
    simp [means]
  rw [e]
  exact cluster_best n _ (members_rect hd _ _) _ (getD_rect hc hcl)

omit [IsStrictOrderedRing K] in
theorem nearestOf_lt (data centers : List (List K)) (h0 : 0 < centers.length) :
    ∀ a ∈ nearestOf data centers, a < centers.length := by
  intro a ha
  obtain ⟨i, _, rfl⟩ := List.mem_map.1 ha
  exact argIdx_lt _ _ h0

/-- The assignment to the closest centers is at least as good as any other assignment. -/
theorem loss_nearest_le (data centers : List (List K)) (assign : List Nat) (hl : assign.length = data.length)
    (ha : ∀ a ∈ assign, a < centers.length) :
    loss data centers (nearestOf data centers) ≤ loss data centers assign := by
  rw [loss_nearestOf, loss_eq _ _ _ hl]
  refine Finset.sum_le_sum fun i hi => ?_
  have hi' := Finset.mem_range.1 hi
  apply (argIdx_min (dist data centers i) _ _ _).1
  rw [List.getD_eq_getElem _ _ (by omega)]
  exact ha _ (List.getElem_mem _)

/-! ## The loop -/

/-- The centers after `t` iterations. -/
def iter (n : Nat) (data centers : List (List K)) : Nat → List (List K)
  | 0 => centers
  | t + 1 => means centers.length n data (nearestOf data (iter n data centers t))

theorem iter_length (n : Nat) (data centers : List (List K)) : ∀ t, (iter n data centers t).length = centers.length
  | 0 => rfl
  | t + 1 => by simp [iter, means]

theorem iter_rect (n : Nat) (data centers : List (List K)) (hc : Rect n centers) : ∀ t, Rect n (iter n data centers t)
  | 0 => hc
  | _ + 1 => means_rect _ _ _ _

theorem lloydStep_spec (n : Nat) (data : List (List K)) (hd : Rect n data) (maxReps i : Nat) (s : Lloyd K)
    (hc : Rect n s.centers) (h0 : 0 < s.centers.length) (hn : s.cnorms = s.centers.map fun c => pre c c.length)
    (ha : s.assignments.length = data.length) :
    ∃ s', lloydStep data n (data.map fun r => pre r r.length) maxReps s i = some s' ∧
      s'.centers = means s.centers.length n data (nearestOf data s.centers) ∧
      s'.assignments = nearestOf data s.centers ∧ s'.residual = some (loss data s.centers (nearestOf data s.centers)) ∧
      (i ≠ maxReps - 1 → s'.cnorms = s'.centers.map fun c => pre c c.length) := by
  unfold lloydStep
  rw [hn, distancesInPlace_spec data n s.centers hd hc h0 _ ha]
  simp only [Option.bind_eq_bind, Option.bind_some]
  rw [updateCentroids_spec _ _ _ _ hd (nearestOf_lt _ _ h0)]
  simp only [Option.bind_some]
  rw [← loss_nearestOf]
  by_cases h : i ≠ maxReps - 1
  · rw [if_pos h, mapM_norm]
    exact ⟨_, rfl, rfl, rfl, rfl, fun _ => rfl⟩
  · rw [if_neg h]
    exact ⟨_, rfl, rfl, rfl, rfl, fun h' => absurd h' h⟩

theorem lloydLoop_spec (n : Nat) (data centers : List (List K)) (hd : Rect n data) (hc : Rect n centers)
    (h0 : 0 < centers.length) (maxReps : Nat) : ∀ t, t < maxReps → ∃ s,
    (List.range (t + 1)).foldlM (lloydStep data n (data.map fun r => pre r r.length) maxReps)
      ⟨centers, centers.map fun c => pre c c.length, List.replicate data.length 0, some 0⟩ = some s ∧
      s.centers = iter n data centers (t + 1) ∧ s.assignments = nearestOf data (iter n data centers t) ∧
      s.residual = some (loss data (iter n data centers t) (nearestOf data (iter n data centers t))) ∧
      (t ≠ maxReps - 1 → s.cnorms = s.centers.map fun c => pre c c.length) := by
  intro t
  induction t with
  | zero =>
    intro ht
    obtain ⟨s', h1, h2, h3, h4, h5⟩ := lloydStep_spec n data hd maxReps 0
      ⟨centers, centers.map fun c => pre c c.length, List.replicate data.length 0, some 0⟩ hc h0 rfl (by simp)
    refine ⟨s', ?_, h2, h3, h4, h5⟩
    simp only [zero_add, List.range_one, List.foldlM_cons, List.foldlM_nil, h1, Option.bind_eq_bind, Option.bind_some]
    rfl
  | succ t ih =>
    intro ht
    obtain ⟨s, g1, g2, g3, g4, g5⟩ := ih (by omega)
    rw [List.range_succ, List.foldlM_append, g1]
    have hl : s.centers.length = centers.length := by rw [g2, iter_length]
    obtain ⟨s', h1, h2, h3, h4, h5⟩ := lloydStep_spec n data hd maxReps (t + 1) s (by rw [g2]; exact iter_rect _ _ _ hc _)
      (by omega) (g5 (by omega)) (by rw [g3]; simp [nearestOf])
    refine ⟨s', ?_, ?_, ?_, ?_, h5⟩
    · simp only [List.foldlM_cons, List.foldlM_nil, h1, Option.bind_eq_bind, Option.bind_some]; rfl
    · rw [h2, hl, g2]; rfl
    · rw [h3, g2]
    · rw [h4, g2]

theorem lloydsInner_spec (n : Nat) (data centers : List (List K)) (hd : Rect n data) (hc : Rect n centers)
    (h0 : 0 < centers.length) (t : Nat) : ∃ s, lloydsInner data n (data.map fun r => pre r r.length) centers (t + 1) = some s ∧
      s.centers = iter n data centers (t + 1) ∧ s.assignments = nearestOf data (iter n data centers t) ∧
      s.residual = some (loss data (iter n data centers t) (nearestOf data (iter n data centers t))) := by
  obtain ⟨s, h1, h2, h3, h4, _⟩ := lloydLoop_spec n data centers hd hc h0 (t + 1) t (by omega)
  refine ⟨s, ?_, h2, h3, h4⟩
  unfold lloydsInner
  rw [if_pos (by simp), mapM_norm]
  exact h1

theorem lloyds_spec (n : Nat) (data centers : List (List K)) (hd : Rect n data) (hc : Rect n centers)
    (h0 : 0 < centers.length) (t : Nat) : lloyds data n centers n (t + 1) = some (iter n data centers (t + 1),
      nearestOf data (iter n data centers t),
      some (loss data (iter n data centers t) (nearestOf data (iter n data centers t)))) := by
  obtain ⟨s, h1, h2, h3, h4⟩ := lloydsInner_spec n data centers hd hc h0 t
  unfold lloyds
  rw [if_pos rfl, mapM_norm]
  simp only [Option.bind_eq_bind, Option.bind_some, h1, h2, h3, h4]

/-- The loss never grows from one iteration to the next. -/
theorem loss_iter_le (n : Nat) (data centers : List (List K)) (hd : Rect n data) (hc : Rect n centers)
    (h0 : 0 < centers.length) (t : Nat) :
    loss data (iter n data centers (t + 1)) (nearestOf data (iter n data centers (t + 1)))
      ≤ loss data (iter n data centers (t + 1)) (nearestOf data (iter n data centers t)) ∧
    loss data (iter n data centers (t + 1)) (nearestOf data (iter n data centers t))
      ≤ loss data (iter n data centers t) (nearestOf data (iter n data centers t)) := by
  have hl := iter_length n data centers t
  have hl' := iter_length n data centers (t + 1)
  have hlt := nearestOf_lt data (iter n data centers t) (by omega)
  refine ⟨loss_nearest_le _ _ _ (by simp [nearestOf]) (by rw [hl', ← hl]; exact hlt), ?_⟩
  have := loss_means_le n data (iter n data centers t) _ hd (iter_rect _ _ _ hc _) hlt
  rwa [hl] at this

theorem loss_iter_antitone (n : Nat) (data centers : List (List K)) (hd : Rect n data) (hc : Rect n centers)
    (h0 : 0 < centers.length) : ∀ t, loss data (iter n data centers t) (nearestOf data (iter n data centers t))
      ≤ loss data centers (nearestOf data centers)
  | 0 => le_rfl
  | t + 1 => ((loss_iter_le n data centers hd hc h0 t).1.trans (loss_iter_le n data centers hd hc h0 t).2).trans
      (loss_iter_antitone n data centers hd hc h0 t)

end Verif.Kmeans
