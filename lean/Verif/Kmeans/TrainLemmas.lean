import Verif.Kmeans.PlusLemmas

/-! # Lemmas about the training of pivots -/

namespace Verif.Kmeans

variable {K : Type} [Field K] [LinearOrder K] [IsStrictOrderedRing K]

/-! ## Data with at most as many different rows as centers -/

theorem mean_const (n : Nat) (v : List K) (hv : v.length = n) (xs : List (List K)) (h0 : xs ≠ []) (h : ∀ x ∈ xs, x = v) :
    mean n xs = v := by
  obtain ⟨m, hm⟩ : ∃ m, xs = List.replicate m v := ⟨xs.length, List.eq_replicate_iff.2 ⟨rfl, h⟩⟩
  subst hm
  have hm0 : m ≠ 0 := by rintro rfl; exact h0 rfl
  unfold mean
  rw [if_neg h0]
  apply List.ext_getElem
  · simp [hv]
  · intro i h1 h2
    simp only [List.getElem_map, List.getElem_range, List.map_replicate, List.sum_replicate, List.length_replicate]
    rw [List.getD_eq_getElem _ _ h2, nsmul_eq_mul]
    have : (m : K) ≠ 0 := by exact_mod_cast hm0
    field_simp

/-- If every row is a center, it stays one. -/
theorem means_keep (n : Nat) (data centers : List (List K)) (hd : Rect n data) (hc : Rect n centers)
    (hall : ∀ x ∈ data, x ∈ centers) :
    ∀ x ∈ data, x ∈ means centers.length n data (nearestOf data centers) := by
  intro x hx
  have h0 : 0 < centers.length := List.length_pos_of_mem (hall x hx)
  have key : ∀ i < data.length, centers.getD (argIdx (dist data centers i) centers.length) [] = data.getD i [] := by
    intro i hi
    have hmem : data.getD i [] ∈ data := by rw [List.getD_eq_getElem _ _ hi]; exact List.getElem_mem _
    obtain ⟨j, hj, he⟩ := List.getElem_of_mem (hall _ hmem)
    have hmin := (argIdx_min (dist data centers i) _ j hj).1
    have hlt := argIdx_lt (dist data centers i) _ h0
    have e : dist data centers i j = 0 := by
      unfold dist
      rw [List.getD_eq_getElem centers _ hj, he, distSq_self]
    rw [e] at hmin
    have := le_antisymm hmin (distSq_nonneg _ _)
    exact ((distSq_eq_zero (by rw [getD_rect hd hi, getD_rect hc hlt])).1 this).symm
  obtain ⟨i, hi, rfl⟩ := List.getElem_of_mem hx
  set a := argIdx (dist data centers i) centers.length with ha
  have hlt : a < centers.length := argIdx_lt _ _ h0
  have hza : ∀ p ∈ data.zip (nearestOf data centers), p.1 = centers.getD p.2 [] := by
    intro p hp
    obtain ⟨j, hj, rfl⟩ := List.getElem_of_mem hp
    have hj' : j < data.length := by simp [nearestOf] at hj; omega
    simp only [List.getElem_zip]
    have := key j hj'
    rw [List.getD_eq_getElem data _ hj'] at this
    simp only [nearestOf, List.getElem_map, List.getElem_range]
    exact this.symm
  refine List.mem_map.2 ⟨a, List.mem_range.2 hlt, ?_⟩
  have hki := key i hi
  rw [List.getD_eq_getElem data _ hi] at hki
  apply mean_const n _ (hd _ (List.getElem_mem _))
  · intro hnil
    have : (data[i], a) ∈ (data.zip (nearestOf data centers)).filter (fun p => p.2 = a) := by
      rw [List.mem_filter]
      refine ⟨?_, by simp⟩
      have hz : i < (data.zip (nearestOf data centers)).length := by simp [nearestOf]; exact hi
      have := List.getElem_mem hz
      simpa [nearestOf] using this
    unfold members at hnil
    rw [List.map_eq_nil_iff.1 hnil] at this
    exact absurd this (by simp)
  · intro y hy
    unfold members at hy
    obtain ⟨p, hp, rfl⟩ := List.mem_map.1 hy
    obtain ⟨hp1, hp2⟩ := List.mem_filter.1 hp
    have hp2 : p.2 = a := by simpa using hp2
    rw [hza p hp1, hp2, hki]

theorem iter_keep (n : Nat) (data centers : List (List K)) (hd : Rect n data) (hc : Rect n centers)
    (hall : ∀ x ∈ data, x ∈ centers) : ∀ t, ∀ x ∈ data, x ∈ iter n data centers t
  | 0 => hall
  | t + 1 => by
    have := means_keep n data (iter n data centers t) hd (iter_rect _ _ _ hc _) (iter_keep n data centers hd hc hall t)
    rwa [iter_length] at this

theorem chosen_all {data : List (List K)} {d : Draws K} {idx : List Nat} (h : Chosen data d idx)
    (hl : idx.length = data.dedup.length) : ∀ x ∈ data, x ∈ rowsAt data idx := by
  have hsub : (rowsAt data idx) ⊆ data.dedup := fun r hr => List.mem_dedup.2 (rowsAt_sub h.inside r hr)
  have hp : (rowsAt data idx).Perm data.dedup :=
    (List.subperm_of_subset h.distinct hsub).perm_of_length_le (by simp [rowsAt, hl])
  intro x hx
  exact hp.mem_iff.2 (List.mem_dedup.2 hx)

/-! ## Chunks -/

omit [Field K] [LinearOrder K] [IsStrictOrderedRing K] in
theorem columns_length (data : List (List K)) (r : Nat × Nat) : (columns data r).length = data.length := by simp [columns]

omit [IsStrictOrderedRing K] in
theorem columns_rect {n : Nat} {data : List (List K)} (hd : Rect n data) (r : Nat × Nat) (hr : r.2 ≤ n) :
    Rect (r.2 - r.1) (columns data r) := by
  intro x hx
  obtain ⟨y, hy, rfl⟩ := List.mem_map.1 hx
  have := hd y hy
  simp [this]; omega

/-- The centers after k-means++. -/
def initial (rows n : Nat) (data : List (List K)) (idx : List Nat) : List (List K) :=
  rowsAt data idx ++ List.replicate (rows - idx.length) (List.replicate n 0)

omit [IsStrictOrderedRing K] in
theorem initial_rect {rows n : Nat} {data : List (List K)} (hd : Rect n data) {idx : List Nat}
    (h : ∀ i ∈ idx, i < data.length) : Rect n (initial rows n data idx) := by
  intro r hr
  rcases List.mem_append.1 hr with hr | hr
  · exact hd _ (rowsAt_sub h r hr)
  · rw [List.eq_of_mem_replicate hr]; simp

omit [IsStrictOrderedRing K] [LinearOrder K] in
theorem initial_length {rows n : Nat} {data : List (List K)} {idx : List Nat} (h : idx.length ≤ rows) :
    (initial rows n data idx).length = rows := by
  simp [initial, rowsAt]; omega

omit [Field K] [LinearOrder K] [IsStrictOrderedRing K] in
theorem keepError_outcome {rows n m : Nat} (hm : 0 < m) : keepError (ppOutcome rows n m) = none := by
  unfold ppOutcome
  split
  · rfl
  · simp only [keepError]
    rw [if_pos]
    unfold PpError.recoverable
    simp only [hm, gt_iff_lt, decide_true, Bool.and_true, decide_eq_true_eq, ne_eq]
    split <;> simp

theorem dedup_pos {data : List (List K)} (h0 : data ≠ []) : 0 < data.dedup.length := by
  obtain ⟨x, l, rfl⟩ := List.exists_cons_of_ne_nil h0
  exact List.length_pos_of_mem (List.mem_dedup.2 (List.mem_cons_self ..))

/-- A chunk that is not canceled. -/
theorem trainChunk_spec {n ncenters reps : Nat} {data : List (List K)} (hd : Rect n data) (h0 : data ≠ []) (hc : 0 < ncenters)
    (r : Nat × Nat) (hr : r.2 ≤ n) (d : Draws K) (hf : Fair (columns data r) d) (cancel : Bool × Bool)
    (hcan : cancel = (false, false)) :
    ∃ idx, Chosen (columns data r) d idx ∧ idx.length = min ncenters (columns data r).dedup.length ∧
      trainChunk ncenters reps data r d cancel
        = some (.ok (iter (r.2 - r.1) (columns data r) (initial ncenters (r.2 - r.1) (columns data r) idx) reps)) := by
  have hv := columns_rect hd r hr
  have hv0 : columns data r ≠ [] := by simpa [columns] using h0
  obtain ⟨idx, h1, h2, h3⟩ := plusPlusInner_spec hv hv0 hc hf
  refine ⟨idx, h1, h2, ?_⟩
  unfold trainChunk
  subst hcan
  rw [if_neg (by simp)]
  dsimp only
  rw [mapM_norm]
  simp only [Option.bind_eq_bind, Option.bind_some]
  rw [h3]
  simp only [Option.bind_some, keepError_outcome (dedup_pos hv0)]
  rw [if_neg (by simp)]
  cases reps with
  | zero =>
    unfold lloydsInner
    rw [if_pos (by simp), mapM_norm]
    rfl
  | succ t =>
    obtain ⟨s, g1, g2, _⟩ := lloydsInner_spec (r.2 - r.1) (columns data r) (initial ncenters (r.2 - r.1) (columns data r) idx) hv
      (initial_rect hv h1.inside) (by rw [initial_length (by omega)]; exact hc) t
    unfold initial at g1
    rw [g1]
    simp only [Option.bind_some, g2]

theorem trainChunk_canceled {n ncenters reps : Nat} {data : List (List K)} (hd : Rect n data) (h0 : data ≠ [])
    (hc : 0 < ncenters) (r : Nat × Nat) (hr : r.2 ≤ n) (d : Draws K) (hf : Fair (columns data r) d) (cancel : Bool × Bool)
    (hcan : cancel ≠ (false, false)) : trainChunk ncenters reps data r d cancel = some (.error .canceled) := by
  have hv := columns_rect hd r hr
  have hv0 : columns data r ≠ [] := by simpa [columns] using h0
  obtain ⟨idx, h1, h2, h3⟩ := plusPlusInner_spec hv hv0 hc hf
  unfold trainChunk
  by_cases h : cancel.1 = true
  · rw [if_pos h]
  · have h' : cancel.2 = true := by
      rcases cancel with ⟨a, b⟩
      cases a <;> cases b <;> simp_all
    rw [if_neg h]
    dsimp only
    rw [mapM_norm]
    simp only [Option.bind_eq_bind, Option.bind_some]
    rw [h3]
    simp only [Option.bind_some, keepError_outcome (dedup_pos hv0)]
    rw [if_pos h']

/-- All chunks, when none is canceled. -/
theorem trainAll_ok {n ncenters reps : Nat} {data : List (List K)} (hd : Rect n data) (h0 : data ≠ []) (hc : 0 < ncenters)
    (d : Nat → Draws K) (cancel : Nat → Bool × Bool) : ∀ (ranges : List (Nat × Nat)) (i : Nat),
    (∀ k r, ranges[k]? = some r → r.2 ≤ n ∧ Fair (columns data r) (d (i + k)) ∧ cancel (i + k) = (false, false)) →
    ∃ pivots, trainAll ncenters reps data d cancel ranges i = some (.ok pivots) ∧ pivots.length = ranges.length ∧
      ∀ (k : Nat) (r : Nat × Nat), ranges[k]? = some r → ∃ idx, Chosen (columns data r) (d (i + k)) idx ∧
        idx.length = min ncenters (columns data r).dedup.length ∧
        pivots[k]? = some (iter (r.2 - r.1) (columns data r) (initial ncenters (r.2 - r.1) (columns data r) idx) reps)
  | [], i, _ => ⟨[], rfl, rfl, by simp⟩
  | r :: rs, i, h => by
    obtain ⟨a1, a2, a3⟩ := h 0 r rfl
    obtain ⟨idx, h1, h2, h3⟩ := trainChunk_spec (reps := reps) hd h0 hc r a1 _ a2 _ a3
    obtain ⟨ps, g1, g2, g3⟩ := trainAll_ok hd h0 hc d cancel rs (i + 1) (fun k q hq => by
      have := h (k + 1) q (by simpa using hq)
      rwa [show i + (k + 1) = i + 1 + k by omega] at this)
    rw [trainAll]
    rw [Nat.add_zero] at h3
    rw [h3]
    simp only [Option.bind_eq_bind, Option.bind_some]
    rw [g1]
    refine ⟨_, rfl, by simp [g2], ?_⟩
    intro k q hq
    cases k with
    | zero =>
      have : r = q := by simpa using hq
      subst this
      exact ⟨idx, h1, h2, rfl⟩
    | succ k =>
      obtain ⟨idx', b1, b2, b3⟩ := g3 k q (by simpa using hq)
      rw [show i + 1 + k = i + (k + 1) by omega] at b1
      exact ⟨idx', b1, b2, by simpa using b3⟩

theorem trainAll_canceled {n ncenters reps : Nat} {data : List (List K)} (hd : Rect n data) (h0 : data ≠ [])
    (hc : 0 < ncenters) (d : Nat → Draws K) (cancel : Nat → Bool × Bool) : ∀ (ranges : List (Nat × Nat)) (i c : Nat),
    c < ranges.length → (∀ k r, ranges[k]? = some r → r.2 ≤ n ∧ Fair (columns data r) (d (i + k))) →
    (∀ k < c, cancel (i + k) = (false, false)) → cancel (i + c) ≠ (false, false) →
    trainAll ncenters reps data d cancel ranges i = some (.error (i + c, .canceled))
  | [], i, c, hl, _, _, _ => absurd hl (by simp)
  | r :: rs, i, c, hl, h, hb, hcan => by
    obtain ⟨a1, a2⟩ := h 0 r rfl
    rw [Nat.add_zero] at a2
    rw [trainAll]
    cases c with
    | zero =>
      rw [Nat.add_zero] at hcan
      rw [trainChunk_canceled hd h0 hc r a1 _ a2 _ hcan]
      rfl
    | succ c =>
      have hb0 := hb 0 (by omega)
      rw [Nat.add_zero] at hb0
      obtain ⟨idx, h1, h2, h3⟩ := trainChunk_spec (reps := reps) hd h0 hc r a1 _ a2 _ hb0
      rw [h3]
      simp only [Option.bind_eq_bind, Option.bind_some]
      have := trainAll_canceled (reps := reps) hd h0 hc d cancel rs (i + 1) c (by simpa using hl)
        (fun k q hq => by
          have := h (k + 1) q (by simpa using hq)
          rwa [show i + (k + 1) = i + 1 + k by omega] at this)
        (fun k hk => by
          have := hb (k + 1) (by omega)
          rwa [show i + (k + 1) = i + 1 + k by omega] at this)
        (by rwa [show i + (c + 1) = i + 1 + c by omega] at hcan)
      rw [this, show i + (c + 1) = i + 1 + c by omega]
      rfl

/-! ## Concatenation -/

omit [Field K] [LinearOrder K] [IsStrictOrderedRing K] in
theorem pasteRows_eq (col : Nat) : ∀ (dsts rows : List (List K)), dsts.length = rows.length →
    (∀ i < rows.length, col + (rows.getD i []).length ≤ (dsts.getD i []).length) →
    pasteRows col dsts rows = some (List.zipWith (fun dst row => dst.take col ++ row ++ dst.drop (col + row.length)) dsts rows)
  | [], [], _, _ => rfl
  | [], _ :: _, h, _ => by simp at h
  | _ :: _, [], h, _ => by simp at h
  | dst :: dsts, row :: rows, h, hl => by
    rw [pasteRows, if_pos (by simpa using hl 0 (by simp)),
      pasteRows_eq col dsts rows (by simpa using h) fun i hi => by simpa using hl (i + 1) (by simpa using hi)]
    rfl

/-- Row `r` of the matrices, one after the other. -/
def joined (pivots : List (List (List K) × Nat)) (r : Nat) : List K := (pivots.map fun m => m.1.getD r []).flatten

omit [LinearOrder K] [IsStrictOrderedRing K] in
theorem flatten_fold (ncenters : Nat) : ∀ (pivots : List (List (List K) × Nat)) (col rest : Nat) (pre : Nat → List K),
    (∀ m ∈ pivots, m.1.length = ncenters ∧ ∀ r ∈ m.1, r.length = m.2) → (∀ r, (pre r).length = col) →
    (pivots.map (·.2)).sum = rest →
    pivots.foldlM (fun (acc : List (List K) × Nat) m =>
      if m.1.length = acc.1.length then (pasteRows acc.2 acc.1 m.1).map fun f => (f, acc.2 + m.2) else none)
      ((List.range ncenters).map fun r => pre r ++ List.replicate rest 0, col)
      = some ((List.range ncenters).map fun r => pre r ++ joined pivots r, col + rest)
  | [], col, rest, pre, _, _, hs => by
    have : rest = 0 := by simpa using hs.symm
    subst this
    simp [joined]
  | m :: ms, col, rest, pre, hm, hp, hs => by
    obtain ⟨h1, h2⟩ := hm m (by simp)
    rw [List.foldlM_cons]
    have hs' : m.2 + (ms.map (·.2)).sum = rest := by simpa using hs
    have hw : ∀ r < ncenters, (m.1.getD r []).length = m.2 := fun r hr => h2 _ (by
      rw [List.getD_eq_getElem _ _ (by omega)]; exact List.getElem_mem _)
    have e : (if m.1.length = ((List.range ncenters).map fun r => pre r ++ List.replicate rest (0 : K)).length
        then (pasteRows col ((List.range ncenters).map fun r => pre r ++ List.replicate rest 0) m.1).map
          fun f => (f, col + m.2) else none)
        = some ((List.range ncenters).map fun r => (pre r ++ m.1.getD r []) ++ List.replicate (rest - m.2) 0, col + m.2) := by
      rw [if_pos (by simp [h1]), pasteRows_eq _ _ _ (by simp [h1])]
      · simp only [Option.map_some]
        congr 2
        apply List.ext_getElem
        · simp [h1]
        · intro r g1 g2
          have hr : r < ncenters := by simpa using g2
          simp only [List.getElem_zipWith, List.getElem_map, List.getElem_range]
          have hmr : m.1[r]'(by omega) = m.1.getD r [] := (List.getD_eq_getElem _ _ (by omega)).symm
          rw [hmr, hw r hr, List.take_left' (hp r), ← List.drop_drop, List.drop_left' (hp r)]
          simp
      · intro i hi
        rw [List.getD_eq_getElem ((List.range ncenters).map _) _ (by simp; omega)]
        simp only [List.getElem_map, List.getElem_range, List.length_append, List.length_replicate, hp,
          hw i (by omega)]
        omega
    simp only [Option.bind_eq_bind]
    rw [e]
    simp only [Option.bind_some]
    have hx := flatten_fold ncenters ms (col + m.2) (rest - m.2) (fun r => if r < ncenters then pre r ++ m.1.getD r []
        else List.replicate (col + m.2) 0) (fun q hq => hm q (by simp [hq])) (fun r => by
        split
        · rename_i hr; rw [List.length_append, hp, hw r hr]
        · simp) (by omega)
    have e1 : ((List.range ncenters).map fun r => (if r < ncenters then pre r ++ m.1.getD r []
        else List.replicate (col + m.2) 0) ++ List.replicate (rest - m.2) (0 : K))
        = (List.range ncenters).map fun r => (pre r ++ m.1.getD r []) ++ List.replicate (rest - m.2) 0 := by
      apply List.map_congr_left
      intro r hr
      rw [if_pos (List.mem_range.1 hr)]
    rw [e1] at hx
    rw [hx]
    congr 2
    · apply List.map_congr_left
      intro r hr
      rw [if_pos (List.mem_range.1 hr), List.append_assoc]
      simp [joined]
    · omega

end Verif.Kmeans
