import Verif.Kmeans.DiskPlusLemmas
import Mathlib.Data.Rat.Cast.Order
import Mathlib.Algebra.Order.Ring.Rat
import Mathlib.Tactic.NormNum

/-! # C86: clustering for the disk index

Data and centers are flat in the code. The theorems take rows of `dim` entries each and pass them on as `rows.flatten`; every
buffer of the right length is of this form. -/

namespace Verif.Kmeans.Disk

open Verif.Kmeans

variable {K : Type} [Field K] [LinearOrder K] [IsStrictOrderedRing K]

/-! ## The closest centers -/

/-- With `k = 1` every point gets its closest center, the first if several are equally close, whether or not the norms are
given. The points of a center are appended to its list in the inverted index in ascending order. A distance is only seen if it
is below `f32::MAX`. -/
theorem C86_closest (big : K) (order : List (K × Nat) → List (K × Nat)) {dim : Nat} {rows centers : List (List K)}
    (hd : 0 < dim) (hr : Rect dim rows) (hc : Rect dim centers) (h0 : centers ≠ [])
    (hb : ∀ r ∈ rows, ∃ c ∈ centers, distSq r c < big)
    (inverted : List (List Nat)) (hi : inverted.length = centers.length)
    (norms : Option (List K)) (hn : norms = none ∨ norms = some (rows.map normSquared)) :
    ∃ A inv, closestCenters big order rows.flatten rows.length dim centers.flatten centers.length 1 rows.length inverted norms
        = some (.ok ⟨A, inv⟩) ∧
      Nearest rows centers A ∧ inv.length = centers.length ∧
      ∀ c < centers.length, inv[c]? = some (inverted.getD c [] ++ pointsOf A c) := by
  have h0' : 0 < centers.length := List.length_pos_iff.2 h0
  have h1 := closestCenters_ok big order (k := 1) hd hr hc (by omega) (by omega) inverted norms hn (by
      intro r _ c hc
      simp only [closestOf, if_pos, List.mem_singleton] at hc
      rw [hi, hc]
      exact firstMin_lt big centers r h0')
  rw [Nat.mul_one] at h1
  refine ⟨_, _, h1, ?_, by simp [hi], ?_⟩
  · have e1 : rows.flatMap (closestOf big order 1 centers) = nearestOf rows centers := by
      rw [List.flatMap, nearestOf_firstMin big order rows centers hb]
      generalize nearestOf rows centers = A
      induction A with
      | nil => rfl
      | cons a A ih => simpa using ih
    rw [e1]
    exact nearestOf_nearest _ _ h0'
  · intro c hcl
    have e1 : rows.flatMap (closestOf big order 1 centers) = nearestOf rows centers := by
      rw [List.flatMap, nearestOf_firstMin big order rows centers hb]
      generalize nearestOf rows centers = A
      induction A with
      | nil => rfl
      | cons a A ih => simpa using ih
    rw [e1, List.getElem?_mapIdx, List.getElem?_eq_getElem (by omega), nearestOf_firstMin big order rows centers hb, positions_one,
      List.getD_eq_getElem _ _ (by omega)]
    rfl

/-- Points that are nowhere below `f32::MAX` are assigned to center 0. -/
theorem C86_closest_far (big : K) (order : List (K × Nat) → List (K × Nat)) {dim : Nat} {rows centers : List (List K)}
    (hd : 0 < dim) (hr : Rect dim rows) (hc : Rect dim centers) (h0 : centers ≠ [])
    (hb : ∀ r ∈ rows, ∀ c ∈ centers, big ≤ distSq r c) (inverted : List (List Nat)) (hi : inverted.length = centers.length) :
    ∃ inv, closestCenters big order rows.flatten rows.length dim centers.flatten centers.length 1 rows.length inverted none
        = some (.ok ⟨List.replicate rows.length 0, inv⟩) := by
  have h0' : 0 < centers.length := List.length_pos_iff.2 h0
  have h1 := closestCenters_ok big order (k := 1) hd hr hc (by omega) (by omega) inverted none (Or.inl rfl) (by
      intro r _ c hc
      simp only [closestOf, if_pos, List.mem_singleton] at hc
      rw [hi, hc]
      exact firstMin_lt big centers r h0')
  rw [Nat.mul_one] at h1
  refine ⟨inverted.mapIdx fun c l => l ++ positions ((rows.map (closestOf big order 1 centers)).zipIdx) c, h1.trans ?_⟩
  congr 3
  clear h1 hr
  induction rows with
  | nil => rfl
  | cons r rows ih =>
    rw [List.flatMap_cons, ih (fun x hx => hb x (by simp [hx])), List.length_cons, List.replicate_succ]
    simp only [closestOf, if_pos]
    rw [firstMin_zero]
    · rfl
    · rintro ⟨c, hc', hlt⟩
      exact absurd hlt (not_lt.2 (hb r (by simp) c hc'))

omit [IsStrictOrderedRing K] in
theorem closestOf_kNearest (big : K) {order : List (K × Nat) → List (K × Nat)} (ho : HeapOrder order) {k : Nat} (hk : 2 ≤ k)
    {centers : List (List K)} (hkc : k ≤ centers.length) (x : List K) : KNearest centers x k (closestOf big order k centers x) := by
  unfold closestOf
  rw [if_neg (by omega)]
  set l := (centers.map fun c => distSq x c).zipIdx with hl
  obtain ⟨hp, hs⟩ := ho l
  have hlen : (order l).length = centers.length := by rw [hp.length_eq, hl]; simp
  have hval : ∀ p ∈ order l, p.2 < centers.length ∧ p.1 = distSq x (centers.getD p.2 []) := by
    intro p hpm
    have := hp.mem_iff.1 hpm
    rw [hl, List.mem_zipIdx_iff_getElem?] at this
    have hlt : p.2 < centers.length := by
      by_contra h
      rw [List.getElem?_eq_none (by simp; omega)] at this
      exact absurd this (by simp)
    refine ⟨hlt, ?_⟩
    simp [hlt] at this
    simp [List.getD, hlt, this]
  have hnd : ((order l).map (·.2)).Nodup := by
    have : ((order l).map (·.2)).Perm (l.map (·.2)) := hp.map _
    rw [this.nodup_iff, hl, show (fun x : K × Nat => x.2) = Prod.snd from rfl, List.zipIdx_map_snd]
    exact List.nodup_range'
  refine ⟨by simp [hlen, hkc], ?_, ?_, ?_, ?_⟩
  · intro c hc
    obtain ⟨p, hp', rfl⟩ := List.mem_map.1 hc
    exact (hval p (List.mem_of_mem_take hp')).1
  · rw [List.map_take]
    exact hnd.sublist (List.take_sublist _ _)
  · rw [List.pairwise_map]
    refine (hs.sublist (List.take_sublist k _)).imp_of_mem ?_
    intro p q hp' hq' hle
    rw [← (hval p (List.mem_of_mem_take hp')).2, ← (hval q (List.mem_of_mem_take hq')).2]
    exact hle
  · intro c hc j hj hnj
    obtain ⟨p, hp', rfl⟩ := List.mem_map.1 hc
    have hjm : (distSq x (centers.getD j []), j) ∈ order l := by
      rw [hp.mem_iff, hl, List.mem_zipIdx_iff_getElem?]
      simp [List.getD, hj]
    rw [← List.take_append_drop k (order l)] at hjm hs
    rcases List.mem_append.1 hjm with hjm | hjm
    · exact absurd (List.mem_map.2 ⟨_, hjm, rfl⟩) hnj
    · have := (List.pairwise_append.1 hs).2.2 p hp' _ hjm
      rw [← (hval p (List.mem_of_mem_take hp')).2]
      exact this

/-- With `k ≥ 2` every point gets its `k` closest centers, nearest first, in consecutive places, and the inverted index gets
each point for each of its centers, in ascending order. -/
theorem C86_closest_k (big : K) {order : List (K × Nat) → List (K × Nat)} (ho : HeapOrder order) {dim k : Nat}
    {rows centers : List (List K)} (hd : 0 < dim) (hr : Rect dim rows) (hc : Rect dim centers) (hk : 2 ≤ k)
    (hkc : k ≤ centers.length) (inverted : List (List Nat)) (hi : inverted.length = centers.length)
    (norms : Option (List K)) (hn : norms = none ∨ norms = some (rows.map normSquared)) :
    ∃ (L : List (List Nat)) (inv : List (List Nat)),
      closestCenters big order rows.flatten rows.length dim centers.flatten centers.length k (rows.length * k) inverted norms
        = some (.ok ⟨L.flatten, inv⟩) ∧
      L.length = rows.length ∧
      (∀ (i : Nat) (x : List K) (cs : List Nat), rows[i]? = some x → L[i]? = some cs → KNearest centers x k cs) ∧
      inv.length = centers.length ∧
      ∀ c < centers.length,
        inv[c]? = some (inverted.getD c [] ++ (List.range rows.length).filter fun i => c ∈ L.getD i []) := by
  have hkn := closestOf_kNearest big ho hk hkc
  refine ⟨rows.map (closestOf big order k centers), _, closestCenters_ok big order hd hr hc (by omega) hkc inverted norms hn
    (fun r _ c hc => by rw [hi]; exact (hkn r).inside c hc), by simp, ?_, by simp [hi], ?_⟩
  · intro i x cs hx hcs
    rw [List.getElem?_map, hx] at hcs
    obtain rfl : closestOf big order k centers x = cs := by simpa using hcs
    exact hkn x
  · intro c hcl
    rw [List.getElem?_mapIdx, List.getElem?_eq_getElem (by omega), positions_eq, List.getD_eq_getElem _ _ (by omega)]
    · simp [List.range_eq_range']
    · intro l hl
      obtain ⟨x, _, rfl⟩ := List.mem_map.1 hl
      exact (hkn x).nodup

omit [IsStrictOrderedRing K] in
/-- Inconsistent lengths, too large a `k` and dimension zero are errors, for every input. -/
theorem C86_closest_errors (big : K) (order : List (K × Nat) → List (K × Nat)) (data pivots : List K)
    (n dim ncenters k ivfLen : Nat) (inverted : List (List Nat)) (norms : Option (List K))
    (h : ncenters < k ∨ data.length ≠ n * dim ∨ pivots.length ≠ ncenters * dim ∨ ivfLen ≠ n * k ∨ dim = 0 ∨
      ∃ given, norms = some given ∧ given.length ≠ n) :
    ∃ e, closestCenters big order data n dim pivots ncenters k ivfLen inverted norms = some (.error e) := by
  unfold closestCenters
  split
  · exact ⟨_, rfl⟩
  split
  · exact ⟨_, rfl⟩
  split
  · exact ⟨_, rfl⟩
  split
  · exact ⟨_, rfl⟩
  rcases h with h | h | h | h | h | ⟨given, rfl, h⟩
  · omega
  · omega
  · omega
  · omega
  · have h1 : ∀ m l, vecsL2sq (K := K) m l dim = .error "dim must be non-zero" := fun m l => if_pos h
    split
    · exact ⟨_, rfl⟩
    · rw [h1]; exact ⟨_, rfl⟩
  · rw [show pointNorms data n dim (some given) = .error "pts_norms_squared.len() should equal num_points" from if_pos h]
    exact ⟨_, rfl⟩

omit [IsStrictOrderedRing K] in
/-- **Disagreement.** `k = 0` passes all checks and panics, unless there are no points. -/
theorem C86_closest_zero_panics (big : K) (order : List (K × Nat) → List (K × Nat)) {dim : Nat} {rows centers : List (List K)}
    (hd : 0 < dim) (hr : Rect dim rows) (hc : Rect dim centers) (h0 : rows ≠ []) (inverted : List (List Nat)) :
    closestCenters big order rows.flatten rows.length dim centers.flatten centers.length 0 0 inverted none = none := by
  unfold closestCenters
  rw [if_neg (by omega), if_neg (by simp [flatten_length hr]), if_neg (by simp [flatten_length hc]), if_neg (by simp)]
  rw [show pointNorms rows.flatten rows.length dim none = .ok (rows.map normSquared) from vecsL2sq_ok hd hr]
  dsimp only
  rw [vecsL2sq_ok hd hc]
  dsimp only
  rw [rowsOf_flatten hr]
  obtain ⟨r, rest, rfl⟩ := List.exists_cons_of_ne_nil h0
  rw [List.length_cons]
  unfold closestChunks
  rw [if_neg (by simp)]
  unfold closestInBlock
  rw [if_neg (by omega)]
  rfl

/-! ## Lloyd's algorithm -/

/-- `run_lloyds` with at least one repetition runs Lloyd's algorithm: in every iteration each point is assigned to its closest
center, and then each center becomes the mean of its points, or zero without points. The assignments and the inverted index are
those of the last iteration; it is the last one allowed or the first for which the test for ending succeeds. The test looks at
the residual of the new centers, which contains only the points `i` for which `i / 16384` is a multiple of 32. -/
theorem C86_lloyds (big : K) (order : List (K × Nat) → List (K × Nat)) {dim : Nat} {rows centers : List (List K)}
    (hd : 0 < dim) (hr : Rect dim rows) (hc : Rect dim centers) (h0 : centers ≠ [])
    (hb : ∃ A, A.length = rows.length ∧ (∀ a ∈ A, a < centers.length) ∧ loss rows centers A < big)
    (reps : Nat) (hreps : 0 < reps) :
    ∃ (t : Nat) (C : Nat → List (List K)) (A : Nat → List Nat) (R : Nat → K) (docs : List (List Nat)),
      runLloyds big order rows.flatten rows.length dim centers.flatten centers.length reps false
        = some (.ok ⟨(C (t + 1)).flatten, docs, A t, R (t + 1)⟩) ∧
      C 0 = centers ∧ R 0 = big ∧
      (∀ u, Nearest rows (C u) (A u)) ∧
      (∀ u, (C u).length = centers.length) ∧
      (∀ u c, c < centers.length → (C (u + 1))[c]? = some (mean dim (members rows (A u) c))) ∧
      docs.length = centers.length ∧ (∀ c < centers.length, docs[c]? = some (pointsOf (A t) c)) ∧
      (∀ u, R (u + 1) = seenLoss rows (C (u + 1)) (A u)) ∧
      t < reps ∧ (∀ u < t, ¬ Stop u (R u) (R (u + 1))) ∧ (t + 1 = reps ∨ Stop t (R t) (R (t + 1))) := by
  have h0' : 0 < centers.length := List.length_pos_iff.2 h0
  obtain ⟨m, h1, h2, h3, h4, h5⟩ := runLloyds_ok big order hd hr hc h0' hb reps
  obtain ⟨t, rfl⟩ : ∃ t, m = t + 1 := ⟨m - 1, by have := h3 hreps; omega⟩
  refine ⟨t, iter dim rows centers, fun u => nearestOf rows (iter dim rows centers u),
    fun u => (after big dim rows centers u).residual, _, h1, rfl, rfl,
    fun u => nearestOf_nearest _ _ (by rw [iter_length]; exact h0'), iter_length dim rows centers, ?_, by simp [docsOf], ?_,
    fun u => rfl, by omega, fun u hu => h4 u (by omega), ?_⟩
  · intro u c hcl
    simp [iter, means, hcl]
  · intro c hcl
    simp [docsOf, hcl]
  · rcases h5 with h5 | ⟨u, hu, h5⟩
    · exact Or.inl h5
    · obtain rfl : u = t := by omega
      exact Or.inr h5

/-- Clustering never gets worse: the loss of the returned centers and assignments is at most that of the initial centers with
any assignments. -/
theorem C86_never_worse (big : K) (order : List (K × Nat) → List (K × Nat)) {dim : Nat} {rows centers : List (List K)}
    (hd : 0 < dim) (hr : Rect dim rows) (hc : Rect dim centers) (h0 : centers ≠ [])
    (A : List Nat) (hA : A.length = rows.length) (hA' : ∀ a ∈ A, a < centers.length) (hb : loss rows centers A < big)
    (reps : Nat) (hreps : 0 < reps) :
    ∃ C s, runLloyds big order rows.flatten rows.length dim centers.flatten centers.length reps false = some (.ok s) ∧
      s.centers = C.flatten ∧ Rect dim C ∧ C.length = centers.length ∧ loss rows C s.closest ≤ loss rows centers A := by
  have h0' : 0 < centers.length := List.length_pos_iff.2 h0
  obtain ⟨m, h1, h2, h3, h4, h5⟩ := runLloyds_ok big order hd hr hc h0' ⟨A, hA, hA', hb⟩ reps
  obtain ⟨t, rfl⟩ : ∃ t, m = t + 1 := ⟨m - 1, by have := h3 hreps; omega⟩
  refine ⟨iter dim rows centers (t + 1), _, h1, rfl, iter_rect _ _ _ hc _, iter_length _ _ _ _, ?_⟩
  exact ((loss_iter_le dim rows centers hr hc h0' t).2.trans (loss_iter_antitone dim rows centers hr hc h0' t)).trans
    (loss_nearest_le _ _ _ hA hA')

/-- **Partial.** With at most 16384 points the returned residual is the loss of the returned centers and assignments, so it is
what the test for ending looks at. Missing: more points, for which it is false. -/
theorem C86_residual_partial (big : K) (order : List (K × Nat) → List (K × Nat)) {dim : Nat} {rows centers : List (List K)}
    (hd : 0 < dim) (hr : Rect dim rows) (hc : Rect dim centers) (h0 : centers ≠ []) (hn : rows.length ≤ 16384)
    (hb : ∃ A, A.length = rows.length ∧ (∀ a ∈ A, a < centers.length) ∧ loss rows centers A < big)
    (reps : Nat) (hreps : 0 < reps) :
    ∃ C s, runLloyds big order rows.flatten rows.length dim centers.flatten centers.length reps false = some (.ok s) ∧
      s.centers = C.flatten ∧ Rect dim C ∧ C.length = centers.length ∧ s.residual = loss rows C s.closest := by
  have h0' : 0 < centers.length := List.length_pos_iff.2 h0
  obtain ⟨m, h1, h2, h3, h4, h5⟩ := runLloyds_ok big order hd hr hc h0' hb reps
  obtain ⟨t, rfl⟩ : ∃ t, m = t + 1 := ⟨m - 1, by have := h3 hreps; omega⟩
  exact ⟨iter dim rows centers (t + 1), _, h1, rfl, iter_rect _ _ _ hc _, iter_length _ _ _ _,
    seenLoss_small _ _ _ (by simp [after, nearestOf]) hn⟩

/-- The residual is never larger than the loss. -/
theorem C86_residual_le (big : K) (order : List (K × Nat) → List (K × Nat)) {dim : Nat} {rows centers : List (List K)}
    (hd : 0 < dim) (hr : Rect dim rows) (hc : Rect dim centers) (h0 : centers ≠ [])
    (hb : ∃ A, A.length = rows.length ∧ (∀ a ∈ A, a < centers.length) ∧ loss rows centers A < big)
    (reps : Nat) (hreps : 0 < reps) :
    ∃ C s, runLloyds big order rows.flatten rows.length dim centers.flatten centers.length reps false = some (.ok s) ∧
      s.centers = C.flatten ∧ Rect dim C ∧ C.length = centers.length ∧
      0 ≤ s.residual ∧ s.residual ≤ loss rows C s.closest := by
  have h0' : 0 < centers.length := List.length_pos_iff.2 h0
  obtain ⟨m, h1, h2, h3, h4, h5⟩ := runLloyds_ok big order hd hr hc h0' hb reps
  obtain ⟨t, rfl⟩ : ∃ t, m = t + 1 := ⟨m - 1, by have := h3 hreps; omega⟩
  refine ⟨iter dim rows centers (t + 1), _, h1, rfl, iter_rect _ _ _ hc _, iter_length _ _ _ _, ?_, ?_⟩
  · show 0 ≤ seenLoss _ _ _
    unfold seenLoss
    refine Finset.sum_nonneg fun i _ => ?_
    split
    · exact distSq_nonneg _ _
    · exact le_rfl
  · rw [loss_eq _ _ _ (by simp [after, nearestOf])]
    show seenLoss _ _ _ ≤ _
    unfold seenLoss
    refine Finset.sum_le_sum fun i _ => ?_
    split
    · exact le_rfl
    · exact distSq_nonneg _ _

/-! ### The residual of more than 16384 points -/

/-- `N` points at 0, one at 4 and one at 20. -/
def manyRows (N : Nat) : List (List Rat) := List.replicate N [0] ++ [[4], [20]]

theorem manyRows_rect (N : Nat) : Rect 1 (manyRows N) := by
  intro r hr
  rcases List.mem_append.1 hr with h | h
  · rw [(List.mem_replicate.1 h).2]; rfl
  · rcases List.mem_cons.1 h with rfl | h
    · rfl
    · rw [List.mem_singleton.1 h]; rfl

theorem manyRows_length (N : Nat) : (manyRows N).length = N + 2 := by simp [manyRows]

theorem manyRows_get (N i : Nat) :
    (manyRows N).getD i [] = if i < N then [0] else if i = N then [4] else if i = N + 1 then [20] else [] := by
  unfold manyRows
  by_cases h : i < N
  · rw [if_pos h, List.getD_append _ _ _ _ (by simpa using h), List.getD_eq_getElem _ _ (by simpa using h)]
    simp
  · rw [if_neg h, List.getD_append_right _ _ _ _ (by simpa using h), List.length_replicate]
    by_cases h1 : i = N
    · subst h1; simp
    · rw [if_neg h1]
      by_cases h2 : i = N + 1
      · subst h2; simp
      · rw [if_neg h2, List.getD_eq_default _ _ (by simp; omega)]

theorem many_nearest (N : Nat) : nearestOf (manyRows N) [[0], [5]] = List.replicate N 0 ++ [1, 1] := by
  unfold nearestOf
  apply List.ext_getElem
  · simp [manyRows]
  intro i h1 h2
  rw [List.length_map, List.length_range, manyRows_length] at h1
  simp only [List.getElem_map, List.getElem_range]
  have e : ∀ f : Nat → Rat, argIdx f 2 = if f 1 < f 0 then 1 else 0 := fun f => rfl
  show argIdx _ 2 = _
  rw [e]
  unfold dist
  rw [manyRows_get]
  simp only [List.getD_cons_zero, List.getD_cons_succ]
  by_cases h : i < N
  · rw [if_pos h, List.getElem_append_left (by simpa using h), List.getElem_replicate, if_neg]
    norm_num [distSq]
  · rw [if_neg h, List.getElem_append_right (by simpa using h)]
    by_cases h1 : i = N
    · subst h1
      rw [if_pos rfl, if_pos]
      · simp
      · norm_num [distSq]
    · obtain rfl : i = N + 1 := by omega
      rw [if_neg h1, if_pos rfl, if_pos]
      · simp
      · norm_num [distSq]

theorem many_members_zero (N : Nat) : members (manyRows N) (List.replicate N 0 ++ [1, 1]) 0 = List.replicate N [0] := by
  unfold members manyRows
  rw [List.zip_append (by simp), List.filter_append, List.map_append, List.zip_replicate]
  simp

theorem many_members_one (N : Nat) : members (manyRows N) (List.replicate N 0 ++ [1, 1]) 1 = [[4], [20]] := by
  unfold members manyRows
  rw [List.zip_append (by simp), List.filter_append, List.map_append, List.zip_replicate]
  simp

theorem many_means (N : Nat) (hN : 0 < N) : means 2 1 (manyRows N) (List.replicate N 0 ++ [1, 1]) = [[0], [12]] := by
  unfold means
  rw [show List.range 2 = [0, 1] from rfl, List.map_cons, List.map_cons, List.map_nil, many_members_zero, many_members_one,
    mean_const 1 [0] rfl (List.replicate N [0]) (by simp; omega) (fun x hx => (List.mem_replicate.1 hx).2)]
  unfold mean
  rw [if_neg (by simp)]
  norm_num

theorem many_loss (N : Nat) (A B : Rat) (a b : Nat) :
    loss (manyRows N) [[A], [B]] (List.replicate N 0 ++ [a, b])
      = N * (A * A) + distSq [4] (([[A], [B]] : List (List Rat)).getD a [])
        + distSq [20] (([[A], [B]] : List (List Rat)).getD b []) := by
  unfold loss manyRows
  rw [List.zipWith_append (by simp), List.sum_append, List.zipWith_replicate]
  simp [distSq]
  ring

/-- **Disagreement.** With 16386 points, or any other number up to half a million, `run_lloyds` can report the residual 0 and
stop after one iteration, however many are allowed, although the loss of its result is 128 and the same centers have loss 80 with
other assignments. -/
theorem C86_residual_wrong (N : Nat) (hN : 16384 ≤ N) (hN' : N + 1 < 524288) (big : Rat) (hb : 1000 < big)
    (order : List (Rat × Nat) → List (Rat × Nat)) (reps : Nat) (hreps : 0 < reps) :
    ∃ docs A, runLloyds big order (manyRows N).flatten (N + 2) 1 [0, 5] 2 reps false = some (.ok ⟨[0, 12], docs, A, 0⟩) ∧
      loss (manyRows N) [[0], [12]] A = 128 ∧
      ∃ A', A'.length = N + 2 ∧ (∀ a ∈ A', a < 2) ∧ loss (manyRows N) [[0], [12]] A' = 80 := by
  have hc : Rect (K := Rat) 1 [[0], [5]] := by simp [Rect]
  have hloss := many_loss N 0 5 1 1
  have hA := many_nearest N
  have hI : iter 1 (manyRows N) [[0], [5]] 1 = [[0], [12]] := by
    show means 2 1 (manyRows N) (nearestOf (manyRows N) [[0], [5]]) = _
    rw [hA, many_means N (by omega)]
  obtain ⟨m, h1, h2, h3, h4, h5⟩ := runLloyds_ok big order (dim := 1) (rows := manyRows N) (centers := [[0], [5]]) (by omega)
    (manyRows_rect N) hc (by simp) ⟨List.replicate N 0 ++ [1, 1], by simp [manyRows], by simp; omega, by
      rw [hloss]; norm_num [distSq]; linarith⟩ reps
  have hR : (after big 1 (manyRows N) [[0], [5]] 1).residual = 0 := by
    show seenLoss (manyRows N) (iter 1 (manyRows N) [[0], [5]] 1) (nearestOf (manyRows N) [[0], [5]]) = 0
    rw [hI, hA]
    refine Finset.sum_eq_zero fun i hi => ?_
    rw [Finset.mem_range, manyRows_length] at hi
    by_cases h : i < N
    · rw [manyRows_get, if_pos h, List.getD_append _ _ _ _ (by simpa using h), List.getD_eq_getElem _ _ (by simpa using h)]
      simp [distSq]
    · rw [if_neg (by omega)]
  have hm : m = 1 := by
    by_contra hne
    refine h4 0 (by have := h3 hreps; omega) ?_
    rw [hR]
    exact Or.inr (by norm_num)
  subst hm
  refine ⟨docsOf 2 (nearestOf (manyRows N) [[0], [5]]), nearestOf (manyRows N) [[0], [5]], ?_, ?_,
    List.replicate N 0 ++ [0, 1], by simp, by simp; omega, ?_⟩
  · rw [manyRows_length] at h1
    have h1' : runLloyds big order (manyRows N).flatten (N + 2) 1 [0, 5] 2 reps false
        = some (.ok (after big 1 (manyRows N) [[0], [5]] 1)) := h1
    rw [h1']
    have : after big 1 (manyRows N) [[0], [5]] 1 = ⟨(iter 1 (manyRows N) [[0], [5]] 1).flatten,
      docsOf 2 (nearestOf (manyRows N) [[0], [5]]), nearestOf (manyRows N) [[0], [5]],
      (after big 1 (manyRows N) [[0], [5]] 1).residual⟩ := rfl
    rw [this, hR, hI]
    rfl
  · rw [hA, many_loss N 0 12 1 1]; norm_num [distSq]
  · rw [many_loss N 0 12 0 1]; norm_num [distSq]

omit [IsStrictOrderedRing K] in
/-- Without repetitions the centers stay, no point is assigned and the residual is `f32::MAX`; a cancelled call with
repetitions fails. -/
theorem C86_lloyds_idle (big : K) (order : List (K × Nat) → List (K × Nat)) {dim : Nat} {rows : List (List K)} (hd : 0 < dim)
    (hr : Rect dim rows) (centers : List K) (ncenters reps : Nat) :
    (∀ cancel, runLloyds big order rows.flatten rows.length dim centers ncenters 0 cancel
      = some (.ok ⟨centers, List.replicate ncenters [], List.replicate rows.length 0, big⟩)) ∧
    runLloyds big order rows.flatten rows.length dim centers ncenters (reps + 1) true
      = some (.error "Cancellation requested by caller") := by
  constructor
  · intro cancel
    unfold runLloyds
    rw [vecsL2sq_ok hd hr]
    rfl
  · unfold runLloyds
    rw [vecsL2sq_ok hd hr]
    rfl

/-! ## k-means++ -/

/-- The pivots are rows of the data. The first ones are different rows: the first at the drawn position, each further one with a
probability proportional to its squared distance from the rows chosen before. If there are fewer different rows than centers,
all of them are chosen, and the other pivots are rows at drawn positions. None of the internal errors can happen. -/
theorem C86_pivots {dim : Nat} {rows : List (List K)} (hr : Rect dim rows) (h0 : rows ≠ []) (hn : rows.length ≤ 2 ^ 23)
    (pivots : List K) (nc : Nat) (hnc : 0 < nc) (hp : pivots.length = nc * dim) {d : Draws K} (hf : Fair rows.length d) :
    ∃ idx extra : List Nat, selectPivots rows.flatten rows.length dim pivots nc d false
        = some (.ok (rowsAt rows (idx ++ extra)).flatten) ∧
      Chosen rows d idx ∧ idx.length = min nc rows.dedup.length ∧ extra.length = nc - idx.length ∧
      ∀ i ∈ extra, i < rows.length :=
  selectPivots_ok hr h0 hn pivots nc hnc hp hf

omit [IsStrictOrderedRing K] in
/-- Too many points, a buffer of the wrong length, cancellation and no points are errors, for every input. -/
theorem C86_pivots_errors (data : List K) (n dim : Nat) (pivots : List K) (nc : Nat) (d : Draws K) (cancel : Bool)
    (h : 2 ^ 23 < n ∨ pivots.length ≠ nc * dim ∨ cancel = true ∨ n = 0) :
    ∃ e, selectPivots data n dim pivots nc d cancel = some (.error e) := by
  unfold selectPivots
  split
  · exact ⟨_, rfl⟩
  split
  · exact ⟨_, rfl⟩
  split
  · exact ⟨_, rfl⟩
  split
  · exact ⟨_, rfl⟩
  rcases h with h | h | h | h
  · omega
  · omega
  · rename_i hx _; exact absurd h hx
  · omega

omit [IsStrictOrderedRing K] in
/-- **Disagreement.** No centers at all pass the checks, and copying the first pivot panics. -/
theorem C86_pivots_no_centers_panics {dim : Nat} {rows : List (List K)} (hr : Rect dim rows) (h0 : rows ≠ [])
    (hn : rows.length ≤ 2 ^ 23) {d : Draws K} (hf : Fair rows.length d) :
    selectPivots rows.flatten rows.length dim [] 0 d false = none := by
  have hpos : 0 < rows.length := List.length_pos_iff.2 h0
  unfold selectPivots
  rw [if_neg (by omega), if_neg (by simp), if_neg (by simp), if_neg (by omega), if_neg (by rw [flatten_length hr]; omega)]
  simp only [rowsOf_flatten hr, List.getElem?_eq_getElem hf.1, Option.bind_eq_bind, Option.bind_some]
  rfl

/-! ## Both together -/

/-- The loss of centers among which every row occurs. -/
theorem loss_zero (rows centers : List (List K)) (h : ∀ r ∈ rows, r ∈ centers) :
    ∃ A, A.length = rows.length ∧ (∀ a ∈ A, a < centers.length) ∧ loss rows centers A = 0 := by
  induction rows with
  | nil => exact ⟨[], rfl, by simp, rfl⟩
  | cons r rows ih =>
    obtain ⟨A, h1, h2, h3⟩ := ih fun x hx => h x (by simp [hx])
    obtain ⟨i, hi, he⟩ := List.getElem_of_mem (h r (by simp))
    refine ⟨i :: A, by simp [h1], ?_, ?_⟩
    · intro a ha
      rcases List.mem_cons.1 ha with rfl | ha
      · exact hi
      · exact h2 a ha
    · unfold loss at h3 ⊢
      rw [List.zipWith_cons_cons, List.sum_cons, h3, List.getD_eq_getElem _ _ hi, he, distSq_self, add_zero]

/-- With as many centers as different points, clustering is lossless: every point is one of the returned centers, the one it
is assigned to, and the residual is 0. -/
theorem C86_clustering_lossless (big : K) (hbig : 0 < big) (order : List (K × Nat) → List (K × Nat)) {dim : Nat}
    {rows : List (List K)} (hd : 0 < dim) (hr : Rect dim rows) (h0 : rows ≠ []) (hn : rows.length ≤ 2 ^ 23)
    (buffer : List K) (nc : Nat) (hp : buffer.length = nc * dim) {d : Draws K} (hf : Fair rows.length d)
    (henough : rows.dedup.length ≤ nc) (reps : Nat) (hreps : 0 < reps) :
    ∃ C s, clustering big order rows.flatten rows.length dim buffer nc reps d false = some (.ok s) ∧
      s.centers = C.flatten ∧ Rect dim C ∧ C.length = nc ∧ s.residual = 0 ∧
      ∀ (i : Nat) (x : List K), rows[i]? = some x → ∃ a : Nat, s.closest[i]? = some a ∧ C[a]? = some x := by
  have hdd := dedup_pos h0
  obtain ⟨idx, extra, h1, h2, h3, h4, h5⟩ := selectPivots_ok hr h0 hn buffer nc (by omega) hp hf
  set centers := rowsAt rows (idx ++ extra) with hcent
  have hlen : centers.length = nc := by
    rw [hcent, rowsAt, List.length_map, List.length_append]; omega
  have hinside : ∀ i ∈ idx ++ extra, i < rows.length := by
    intro i hi
    rcases List.mem_append.1 hi with hi | hi
    · exact h2.inside i hi
    · exact h5 i hi
  have hc : Rect dim centers := fun r hr' => hr r (rowsAt_sub hinside r hr')
  have hall : ∀ r ∈ rows, r ∈ centers := by
    intro r hr'
    have hsub : (rowsAt rows idx).Subperm rows.dedup :=
      List.subperm_of_subset h2.distinct fun x hx => List.mem_dedup.2 (rowsAt_sub h2.inside x hx)
    have hperm := hsub.perm_of_length_le (by simp [rowsAt]; omega)
    have : r ∈ rowsAt rows idx := hperm.mem_iff.2 (List.mem_dedup.2 hr')
    rw [hcent, rowsAt, List.map_append]
    exact List.mem_append_left _ this
  obtain ⟨A, ha1, ha2, ha3⟩ := loss_zero rows centers hall
  have h0c : 0 < centers.length := by omega
  have hb : ∃ A, A.length = rows.length ∧ (∀ a ∈ A, a < centers.length) ∧ loss rows centers A < big :=
    ⟨A, ha1, ha2, by rw [ha3]; exact hbig⟩
  obtain ⟨m, k1, k2, k3, k4, k5⟩ := runLloyds_ok big order hd hr hc h0c hb reps
  obtain ⟨t, rfl⟩ : ∃ t, m = t + 1 := ⟨m - 1, by have := k3 hreps; omega⟩
  rw [hlen] at k1
  have hzero : loss rows (iter dim rows centers (t + 1)) (nearestOf rows (iter dim rows centers t)) = 0 := by
    apply le_antisymm
    · calc loss rows (iter dim rows centers (t + 1)) (nearestOf rows (iter dim rows centers t))
          ≤ loss rows centers A :=
            ((loss_iter_le dim rows centers hr hc h0c t).2.trans (loss_iter_antitone dim rows centers hr hc h0c t)).trans
              (loss_nearest_le _ _ _ ha1 ha2)
        _ = 0 := ha3
    · rw [loss_eq _ _ _ (by simp [nearestOf])]
      exact Finset.sum_nonneg fun i _ => distSq_nonneg _ _
  rw [loss_eq _ _ _ (by simp [nearestOf])] at hzero
  have hz := (Finset.sum_eq_zero_iff_of_nonneg fun i _ => distSq_nonneg _ _).1 hzero
  have hlt := nearestOf_lt rows (iter dim rows centers t) (by rw [iter_length]; exact h0c)
  refine ⟨iter dim rows centers (t + 1), after big dim rows centers (t + 1), ?_, rfl, iter_rect _ _ _ hc _,
    by rw [iter_length, hlen], ?_, ?_⟩
  · unfold clustering
    rw [h1]
    exact k1
  · show seenLoss rows _ _ = 0
    refine Finset.sum_eq_zero fun i hi => ?_
    split
    · exact hz i hi
    · rfl
  · intro i x hx
    have hi : i < rows.length := by
      by_contra h
      rw [List.getElem?_eq_none (by omega)] at hx
      exact absurd hx (by simp)
    have hia : i < (nearestOf rows (iter dim rows centers t)).length := by simpa [nearestOf] using hi
    refine ⟨(nearestOf rows (iter dim rows centers t)).getD i 0, ?_, ?_⟩
    · show (nearestOf rows (iter dim rows centers t))[i]? = _
      rw [List.getElem?_eq_getElem hia, List.getD_eq_getElem _ _ hia]
    · have hal : (nearestOf rows (iter dim rows centers t)).getD i 0 < (iter dim rows centers (t + 1)).length := by
        rw [List.getD_eq_getElem _ _ hia, iter_length, ← iter_length dim rows centers t]
        exact hlt _ (List.getElem_mem _)
      have hzi := hz i (Finset.mem_range.2 hi)
      unfold dist at hzi
      rw [show rows.getD i [] = x by simp [List.getD, hx], distSq_eq_zero] at hzi
      · rw [List.getElem?_eq_getElem hal, hzi, List.getD_eq_getElem _ _ hal]
      · rw [hr x (List.mem_of_getElem? hx), getD_rect (iter_rect _ _ _ hc _) hal]

/-- Clustering is the choice of pivots followed by Lloyd's algorithm: for pivots `P`, all of them rows, it gives what
`run_lloyds` gives when started with `P`. -/
theorem C86_clustering (big : K) (order : List (K × Nat) → List (K × Nat)) {dim : Nat}
    {rows : List (List K)} (hr : Rect dim rows) (h0 : rows ≠ []) (hn : rows.length ≤ 2 ^ 23)
    (buffer : List K) (nc : Nat) (hnc : 0 < nc) (hp : buffer.length = nc * dim) {d : Draws K} (hf : Fair rows.length d)
    (reps : Nat) :
    ∃ P : List (List K), P.length = nc ∧ (∀ p ∈ P, p ∈ rows) ∧
      selectPivots rows.flatten rows.length dim buffer nc d false = some (.ok P.flatten) ∧
      clustering big order rows.flatten rows.length dim buffer nc reps d false
        = runLloyds big order rows.flatten rows.length dim P.flatten nc reps false := by
  obtain ⟨idx, extra, h1, h2, h3, h4, h5⟩ := selectPivots_ok hr h0 hn buffer nc hnc hp hf
  have hdd := dedup_pos h0
  refine ⟨_, ?_, ?_, h1, ?_⟩
  · rw [rowsAt, List.length_map, List.length_append]; omega
  · apply rowsAt_sub
    intro i hi
    rcases List.mem_append.1 hi with hi | hi
    · exact h2.inside i hi
    · exact h5 i hi
  · unfold clustering
    rw [h1]
    rfl

/-! ## Non-vacuity -/

/-- An order for the examples: insertion sort. -/
def sortPairs (l : List (Rat × Nat)) : List (Rat × Nat) := l.insertionSort fun p q => p.1 ≤ q.1

theorem sortPairs_heap : HeapOrder sortPairs := fun l =>
  ⟨List.perm_insertionSort _ l, by
    have : Std.Total fun p q : Rat × Nat => p.1 ≤ q.1 := ⟨fun p q => le_total p.1 q.1⟩
    have : IsTrans (Rat × Nat) fun p q => p.1 ≤ q.1 := ⟨fun _ _ _ h h' => le_trans h h'⟩
    exact List.pairwise_insertionSort _ l⟩

/-- Four points, three centers. -/
example : closestCenters (K := Rat) 1000 sortPairs [0, 4, 20, 11] 4 1 [0, 5, 18] 3 2 8 [[], [], []] none
    = some (.ok ⟨[0, 1, 1, 0, 2, 1, 1, 2], [[0, 1], [0, 1, 2, 3], [2, 3]]⟩) := by decide +kernel

example : closestCenters (K := Rat) 1000 sortPairs [0, 4, 20, 11] 4 1 [0, 5, 18] 3 1 4 [[], [], []] none
    = some (.ok ⟨[0, 1, 2, 1], [[0], [1, 3], [2]]⟩) := by decide +kernel

/-- Without a repetition to spare, and until nothing changes. -/
example : runLloyds (K := Rat) 1000 sortPairs [0, 4, 20, 22] 4 1 [0, 5] 2 1 false
      = some (.ok ⟨[0, 46 / 3], [[0], [1, 2, 3]], [0, 1, 1, 1], 584 / 3⟩) ∧
    runLloyds (K := Rat) 1000 sortPairs [0, 4, 20, 22] 4 1 [0, 5] 2 9 false
      = some (.ok ⟨[2, 21], [[0, 1], [2, 3]], [0, 0, 1, 1], 10⟩) := by decide +kernel

/-- Two of three different rows; four of three. -/
example : selectPivots (K := Rat) [0, 4, 4, 20] 4 1 [0, 0] 2 ⟨1, fun _ => 1 / 2, fun _ => 0⟩ false = some (.ok [4, 20]) ∧
    selectPivots (K := Rat) [0, 4, 4, 20] 4 1 [0, 0, 0, 0] 4 ⟨1, fun _ => 1 / 2, fun _ => 3⟩ false
      = some (.ok [4, 20, 0, 20]) := by decide +kernel

example : Fair (K := Rat) 4 ⟨1, fun _ => 1 / 2, fun _ => 3⟩ := by
  refine ⟨by decide, fun _ => ⟨by norm_num, by norm_num⟩, fun _ => by show 3 < 4; decide⟩

example : clustering (K := Rat) 1000 sortPairs [0, 4, 4, 20] 4 1 [0, 0, 0] 3 5 ⟨1, fun _ => 1 / 2, fun _ => 3⟩ false
    = some (.ok ⟨[4, 20, 0], [[1, 2], [3], [0]], [2, 0, 0, 1], 0⟩) := by decide +kernel

example : Rect (K := Rat) 1 [[0], [4], [20], [22]] ∧
    loss (K := Rat) [[0], [4], [20], [22]] [[0], [5]] [0, 1, 1, 1] < 1000 := by
  refine ⟨by simp [Rect], by decide +kernel⟩

/-! ### Squared norms -/

omit [LinearOrder K] [IsStrictOrderedRing K] in
/-- **C86.** Squared norms are computed exactly when the dimension is positive and the data is as long as it says: then
there is one per row, the sum of the squares of its components; otherwise there is an error. -/
theorem C86_norms (n : Nat) (data : List K) (dim : Nat) :
    ((∃ r, vecsL2sq n data dim = .ok r) ↔ 0 < dim ∧ data.length = n * dim) ∧
    ∀ rows : List (List K), (∀ r ∈ rows, r.length = dim) → 0 < dim →
      vecsL2sq rows.length rows.flatten dim = .ok (rows.map fun r => (r.map fun a => a * a).sum) := by
  constructor
  · unfold vecsL2sq
    split
    · simp; omega
    · split
      · simp; omega
      · simp; omega
  · intro rows h h0
    exact vecsL2sq_ok h0 h

example : vecsL2sq (K := Rat) 2 [1, 2, 3, 4] 2 = .ok [5, 25] ∧
    ¬ (0 < 2 ∧ ([1, 2, 3, 4, 5] : List Rat).length = 2 * 2) := by
  decide +kernel

end Verif.Kmeans.Disk
