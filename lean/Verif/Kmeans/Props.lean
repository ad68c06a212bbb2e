import Verif.Kmeans.TrainLemmas

/-! # C85: k-means++, Lloyd's algorithm and the training of pivots -/

namespace Verif.Kmeans

variable {K : Type} [Field K] [LinearOrder K] [IsStrictOrderedRing K]

/-! ## Lloyd's algorithm -/

/-- `lloyds` with at least one repetition and one center runs exactly Lloyd's algorithm: in each repetition every row is
assigned to its closest center (the first, if several are) and then every center becomes the mean of its rows, or zero if it
has none. The assignments and the residual are those of the last repetition, with respect to the centers before it. -/
theorem C85_lloyds (n : Nat) (data centers : List (List K)) (hd : Rect n data) (hc : Rect n centers)
    (h0 : centers ≠ []) (t : Nat) :
    ∃ (C : Nat → List (List K)) (A : Nat → List Nat),
      lloyds data n centers n (t + 1) = some (C (t + 1), A t, some (loss data (C t) (A t))) ∧
      C 0 = centers ∧
      (∀ u, Nearest data (C u) (A u)) ∧
      (∀ u, (C u).length = centers.length) ∧
      ∀ u c, c < centers.length → (C (u + 1))[c]? = some (mean n (members data (A u) c)) := by
  have h0' : 0 < centers.length := List.length_pos_iff.2 h0
  refine ⟨iter n data centers, fun u => nearestOf data (iter n data centers u), lloyds_spec n data centers hd hc h0' t, rfl,
    fun u => nearestOf_nearest _ _ (by rw [iter_length]; exact h0'), iter_length n data centers, fun u c hcl => ?_⟩
  simp [iter, means, hcl]

/-- Lloyd's algorithm never makes the clustering worse: the sum of the squared distances to the returned centers, for the
returned assignments, is at most the reported residual, and that is at most the sum for the initial centers and any
assignments. -/
theorem C85_never_worse (n : Nat) (data centers : List (List K)) (hd : Rect n data) (hc : Rect n centers)
    (t : Nat) (C : List (List K)) (A : List Nat) (r : K) (h0 : centers ≠ [])
    (h : lloyds data n centers n (t + 1) = some (C, A, some r)) :
    loss data C A ≤ r ∧
    ∀ assign, assign.length = data.length → (∀ a ∈ assign, a < centers.length) → r ≤ loss data centers assign := by
  have h0' : 0 < centers.length := List.length_pos_iff.2 h0
  rw [lloyds_spec n data centers hd hc h0' t] at h
  obtain ⟨rfl, rfl, rfl⟩ : iter n data centers (t + 1) = C ∧ nearestOf data (iter n data centers t) = A ∧
      loss data (iter n data centers t) (nearestOf data (iter n data centers t)) = r := by simpa using h
  refine ⟨(loss_iter_le n data centers hd hc h0' t).2, fun assign h1 h2 => ?_⟩
  exact (loss_iter_antitone n data centers hd hc h0' t).trans (loss_nearest_le _ _ _ h1 h2)

/-- More repetitions never give a larger residual. -/
theorem C85_more_repetitions (n : Nat) (data centers : List (List K)) (hd : Rect n data) (hc : Rect n centers)
    (h0 : centers ≠ []) (t : Nat) (x y : List (List K) × List Nat) (r r' : K)
    (h : lloyds data n centers n (t + 1) = some (x.1, x.2, some r))
    (h' : lloyds data n centers n (t + 2) = some (y.1, y.2, some r')) : r' ≤ r := by
  have h0' : 0 < centers.length := List.length_pos_iff.2 h0
  rw [lloyds_spec n data centers hd hc h0' t] at h
  rw [lloyds_spec n data centers hd hc h0' (t + 1)] at h'
  obtain ⟨-, -, rfl⟩ : _ ∧ _ ∧ loss data (iter n data centers t) (nearestOf data (iter n data centers t)) = r := by
    simpa using h
  obtain ⟨-, -, rfl⟩ : _ ∧ _ ∧ loss data (iter n data centers (t + 1)) (nearestOf data (iter n data centers (t + 1))) = r' := by
    simpa using h'
  exact (loss_iter_le n data centers hd hc h0' t).1.trans (loss_iter_le n data centers hd hc h0' t).2

/-- Four points, two centers, two repetitions. -/
example : lloyds (K := Rat) [[0], [4], [20], [22]] 1 [[0], [5]] 1 2 = some ([[2], [21]], [0, 0, 1, 1], some (16 + 196 / 9 + 400 / 9)) ∧
    Rect (K := Rat) 1 [[0], [4], [20], [22]] ∧ Rect (K := Rat) 1 [[0], [5]] := by
  refine ⟨by decide +kernel, by simp [Rect], by simp [Rect]⟩

/-- The documentation promises the assignments to the closest centers and the final residual. Both belong to the centers
before the last update, which the caller no longer has: for the returned centers the assignments are not the closest ones and
the residual is another one. -/
theorem C85_result_stale :
    ∃ (data centers C : List (List Rat)) (A : List Nat) (r : Rat),
      lloyds data 1 centers 1 1 = some (C, A, some r) ∧ ¬ Nearest data C A ∧ r ≠ loss data C A ∧
      ∀ assign, Nearest data C assign → r ≠ loss data C assign := by
  refine ⟨[[0], [4], [20]], [[0], [5]], [[0], [12]], [0, 1, 1], 226, by decide +kernel, ?_, by decide +kernel, ?_⟩
  · rintro ⟨_, h⟩
    obtain ⟨a, ha, c, hc, hmin⟩ := h 1 [4] rfl
    obtain rfl : 1 = a := by simpa using ha
    obtain rfl : [12] = c := by simpa using hc
    have := (hmin 0 [0] rfl).1
    revert this
    decide +kernel
  · rintro assign ⟨hl, h⟩ he
    have key : ∀ (i : Nat) (x : List Rat), ([[0], [4], [20]] : List (List Rat))[i]? = some x → assign[i]? = some 0 ∨ assign[i]? = some 1 := by
      intro i x hx
      obtain ⟨a, ha, c, hc, _⟩ := h i x hx
      have : a < 2 := by
        by_contra hlt
        rw [List.getElem?_eq_none (by simp; omega)] at hc
        exact absurd hc (by simp)
      rcases (by omega : a = 0 ∨ a = 1) with rfl | rfl
      · exact Or.inl ha
      · exact Or.inr ha
    match assign, hl with
    | [a, b, c], _ =>
      have h0 := key 0 _ rfl
      have h1 := key 1 _ rfl
      have h2 := key 2 _ rfl
      simp only [List.getElem?_cons_zero, List.getElem?_cons_succ, Option.some.injEq] at h0 h1 h2
      rcases h0 with rfl | rfl <;> rcases h1 with rfl | rfl <;> rcases h2 with rfl | rfl <;> revert he <;> decide +kernel

/-- Without a repetition the centers stay, all assignments are 0 and the residual is 0, whatever the data is. -/
theorem C85_no_repetition (n : Nat) (data centers : List (List K)) :
    lloyds data n centers n 0 = some (centers, List.replicate data.length 0, some 0) := by
  unfold lloyds lloydsInner
  rw [if_pos rfl, mapM_norm]
  simp only [Option.bind_eq_bind, Option.bind_some]
  rw [if_pos (by simp), mapM_norm]
  rfl

theorem storeLanes_length {α : Type} {buf lanes out : List α} {off first : Nat}
    (h : storeLanes buf off first lanes = some out) : out.length = buf.length := by
  unfold storeLanes at h
  dsimp only at h
  split at h
  · rename_i hle
    rw [← Option.some.inj h]
    simp only [List.length_append, List.length_take, List.length_drop]
    omega
  · exact absurd h (by simp)

omit [IsStrictOrderedRing K] in
theorem closestBlock_length {data centers : List (List K)} {n : Nat} {norms cnorms : List K} {b first : Nat}
    {st out : List Nat × (Nat → Option K)} (h : closestBlock data n norms centers cnorms b first st = some out) :
    out.1.length = st.1.length := by
  unfold closestBlock at h
  simp only [Option.bind_eq_bind, Option.bind_eq_some_iff] at h
  obtain ⟨t, _, nearest, h2, h3⟩ := h
  rw [← Option.some.inj h3]
  exact storeLanes_length h2

omit [IsStrictOrderedRing K] in
theorem distancesInPlace_length {data centers : List (List K)} {n m : Nat} {norms cnorms : List K} {nearest : List Nat}
    {out : List Nat × Option K} (h : distancesInPlace data n norms centers m cnorms nearest = some out) :
    out.1.length = data.length := by
  unfold distancesInPlace at h
  split at h
  · rename_i hcond
    simp only [Option.bind_eq_bind, Option.bind_eq_some_iff] at h
    obtain ⟨st, h1, h2⟩ := h
    rw [← Option.some.inj h2]
    show st.1.length = _
    unfold closestAll at h1
    simp only [Option.bind_eq_bind, Option.bind_eq_some_iff] at h1
    obtain ⟨st', h3, h4⟩ := h1
    have loop : ∀ (l : List Nat) (s s' : List Nat × (Nat → Option K)),
        l.foldlM (fun st b => closestBlock data n norms centers cnorms b 16 st) s = some s' → s'.1.length = s.1.length := by
      intro l
      induction l with
      | nil => intro s s' h; rw [← Option.some.inj h]
      | cons b l ih =>
        intro s s' h
        rw [List.foldlM_cons] at h
        simp only [Option.bind_eq_bind, Option.bind_eq_some_iff] at h
        obtain ⟨s1, g1, g2⟩ := h
        rw [ih _ _ g2, closestBlock_length g1]
    have h5 := loop _ _ _ h3
    dsimp only at h5
    split at h4
    · rw [closestBlock_length h4, h5, hcond.2.2.2]
    · rw [← Option.some.inj h4, h5, hcond.2.2.2]
  · exact absurd h (by simp)

/-- Without a center, `lloyds` panics on any data, although the documentation only names different widths. -/
theorem C85_no_centers_panics (n : Nat) (data : List (List K)) (h : data ≠ []) (t : Nat) : lloyds data n [] n (t + 1) = none := by
  have key : ∀ (s : Lloyd K), s.centers = [] → ∀ norms i, lloydStep data n norms (t + 1) s i = none := by
    intro s hs norms i
    unfold lloydStep
    cases hdp : distancesInPlace data n norms s.centers n s.cnorms s.assignments with
    | none => rfl
    | some r =>
      have hl := distancesInPlace_length hdp
      simp only [Option.bind_eq_bind, Option.bind_some, hs]
      have : updateCentroids [] n data r.1 = none := by
        unfold updateCentroids
        obtain ⟨x, l, rfl⟩ := List.exists_cons_of_ne_nil h
        obtain ⟨a, m, hr⟩ : ∃ a m, r.1 = a :: m := by
          cases hr : r.1 with
          | nil => rw [hr] at hl; simp at hl
          | cons a m => exact ⟨a, m, rfl⟩
        rw [hr]
        rfl
      rw [this]
      rfl
  unfold lloyds
  rw [if_pos rfl, mapM_norm]
  simp only [Option.bind_eq_bind, Option.bind_some]
  have : lloydsInner data n (data.map fun r => pre r r.length) [] (t + 1) = none := by
    unfold lloydsInner
    rw [if_pos (by simp), mapM_norm]
    simp only [Option.bind_eq_bind, Option.bind_some]
    rw [List.range_succ_eq_map, List.foldlM_cons, key _ rfl]
    rfl
  rw [this]
  rfl

/-! ## k-means++ -/

/-- `kmeans_plusplus_into` for data with at least one row and at least one center: the chosen rows, pairwise different, come
first, the remaining centers are zero. Every choice after the first has a probability proportional to the squared distance
from the rows already chosen. As many rows are chosen as there are centers, or different rows if these are fewer. The error
says whether rows or different rows were lacking. -/
theorem C85_plusplus (rows n : Nat) (data : List (List K)) (hd : Rect n data) (h0 : data ≠ []) (hrows : 0 < rows)
    (d : Draws K) (hf : Fair data d) :
    ∃ idx, Chosen data d idx ∧ idx.length = min rows data.dedup.length ∧
      plusPlus rows n data n d = some (rowsAt data idx ++ List.replicate (rows - idx.length) (List.replicate n 0),
        if rows ≤ data.dedup.length then none
        else some ⟨data.dedup.length, rows,
          if data.dedup.length = data.length then .datasetTooSmall else .insufficientDiversity⟩) := by
  obtain ⟨idx, h1, h2, h3⟩ := plusPlusInner_spec hd h0 hrows hf
  refine ⟨idx, h1, h2, ?_⟩
  unfold plusPlus
  rw [if_pos rfl, mapM_norm]
  exact h3

/-- Two centers for three rows of which two are equal, then three. The draws are row 1 and half of every sum. -/
example : plusPlus (K := Rat) 2 1 [[0], [3], [3]] 1 ⟨1, fun _ s => s / 2⟩ = some ([[3], [0]], none) ∧
    plusPlus (K := Rat) 3 1 [[0], [3], [3]] 1 ⟨1, fun _ s => s / 2⟩
      = some ([[3], [0], [0]], some ⟨2, 3, .insufficientDiversity⟩) ∧
    Fair (K := Rat) [[0], [3], [3]] ⟨1, fun _ s => s / 2⟩ := by
  refine ⟨by decide +kernel, by decide +kernel, by simp, fun c s hs => ?_⟩
  show (0 : Rat) ≤ s / 2 ∧ s / 2 < s
  constructor <;> linarith

/-- Without a row nothing is chosen; that is an error unless no center was asked for. -/
theorem C85_plusplus_empty (rows n : Nat) (d : Draws K) :
    plusPlus rows n [] n d = some (List.replicate rows (List.replicate n 0),
      if rows = 0 then none else some ⟨0, rows, .datasetTooSmall⟩) := by
  unfold plusPlus plusPlusInner
  rw [if_pos rfl, mapM_norm]
  simp only [Option.bind_eq_bind, Option.bind_some]
  rw [if_pos (by simp), if_pos (by simp)]

/-- No center at all is fine for empty data, but for any other data it is a panic. -/
theorem C85_plusplus_no_centers_panics (n : Nat) (data : List (List K)) (h0 : data ≠ []) (d : Draws K) :
    plusPlus 0 n data n d = none := by
  unfold plusPlus plusPlusInner
  rw [if_pos rfl, mapM_norm]
  simp only [Option.bind_eq_bind, Option.bind_some]
  rw [if_pos (by simp), if_neg (by simpa using h0)]
  have : ∀ i, Pp.take data (data.map fun r => pre r r.length) 0
      ⟨List.replicate 0 (List.replicate n 0), List.replicate data.length none, [], 0, 0⟩ i = none := by
    intro i
    unfold Pp.take
    cases data[i]? <;> cases (data.map fun r => pre r r.length)[i]? <;> rfl
  rw [this]
  rfl

/-! ## Training -/

/-- What a chunk is trained on: as many rows as there are vectors, and entry `j` of row `i` is entry `start + j` of vector
`i`, up to the end of the chunk. -/
theorem C85_columns (n : Nat) (data : List (List K)) (hd : Rect n data) (r : Nat × Nat) (hr : r.2 ≤ n) :
    (columns data r).length = data.length ∧ Rect (r.2 - r.1) (columns data r) ∧
      ∀ (i : Nat) (v : List K), data[i]? = some v → ∃ w, (columns data r)[i]? = some w ∧
        ∀ j, j < r.2 - r.1 → w[j]? = v[r.1 + j]? := by
  refine ⟨by rw [columns, List.length_map], fun w hw => ?_, fun i v hv => ⟨(v.take r.2).drop r.1, ?_, fun j hj => ?_⟩⟩
  · obtain ⟨v, hv, rfl⟩ := List.mem_map.1 hw
    rw [List.length_drop, List.length_take, hd v hv, Nat.min_eq_left hr]
  · rw [columns, List.getElem?_map, hv]
    rfl
  · rw [List.getElem?_drop, List.getElem?_take, if_pos (by omega)]

example : columns [[1, 2, 3], [4, 5, 6]] (1, 3) = [[(2 : ℚ), 3], [5, 6]] := by decide +kernel

/-- Training pivots on at least one row with at least one center per chunk succeeds unless it is canceled, and gives one
matrix per chunk. Each starts with k-means++ on the columns of the chunk, errors for lack of rows being ignored, and
approximates these columns at least as well as the initial centers do. -/
theorem C85_train (ncenters reps n : Nat) (data : List (List K)) (hd : Rect n data) (h0 : data ≠ []) (hc : 0 < ncenters)
    (ranges : List (Nat × Nat)) (d : Nat → Draws K) (cancel : Nat → Bool × Bool)
    (hr : ∀ (k : Nat) (r : Nat × Nat), ranges[k]? = some r → r.2 ≤ n ∧ Fair (columns data r) (d k) ∧ cancel k = (false, false)) :
    ∃ pivots, train ncenters reps data n n ranges d cancel = some (.ok pivots) ∧ pivots.length = ranges.length ∧
      ∀ (k : Nat) (r : Nat × Nat), ranges[k]? = some r → ∃ m idx, pivots[k]? = some m ∧
        m.length = ncenters ∧ Rect (r.2 - r.1) m ∧
        Chosen (columns data r) (d k) idx ∧ idx.length = min ncenters (columns data r).dedup.length ∧
        ∀ best assign, Nearest (columns data r) m best → assign.length = data.length → (∀ a ∈ assign, a < ncenters) →
          loss (columns data r) m best
            ≤ loss (columns data r)
                (rowsAt (columns data r) idx ++ List.replicate (ncenters - idx.length) (List.replicate (r.2 - r.1) 0)) assign := by
  obtain ⟨pivots, h1, h2, h3⟩ := trainAll_ok (reps := reps) hd h0 hc d cancel ranges 0 (fun k r h => by
    have := hr k r h
    rwa [Nat.zero_add])
  refine ⟨pivots, by rw [train, if_pos rfl, h1], h2, fun k r hk => ?_⟩
  obtain ⟨idx, g1, g2, g3⟩ := h3 k r hk
  rw [Nat.zero_add] at g1
  have hv := columns_rect hd r (hr k r hk).1
  have hir := initial_rect (rows := ncenters) hv g1.inside
  have hil : (initial ncenters (r.2 - r.1) (columns data r) idx).length = ncenters := initial_length (by omega)
  refine ⟨_, idx, g3, by rw [iter_length, hil], iter_rect _ _ _ hir _, g1, g2, fun best assign hb hl ha => ?_⟩
  have key : loss (columns data r) (iter (r.2 - r.1) (columns data r) (initial ncenters (r.2 - r.1) (columns data r) idx) reps) best
      ≤ loss (columns data r) (iter (r.2 - r.1) (columns data r) (initial ncenters (r.2 - r.1) (columns data r) idx) reps)
        (nearestOf (columns data r) (iter (r.2 - r.1) (columns data r) (initial ncenters (r.2 - r.1) (columns data r) idx) reps)) := by
    rw [loss_eq _ _ _ hb.1, loss_nearestOf]
    refine Finset.sum_le_sum fun i hi => ?_
    have hi' := Finset.mem_range.1 hi
    obtain ⟨a, ha1, c, hc1, hc2⟩ := hb.2 i ((columns data r).getD i []) (by
      rw [List.getElem?_eq_getElem hi', List.getD_eq_getElem _ _ hi'])
    set C := iter (r.2 - r.1) (columns data r) (initial ncenters (r.2 - r.1) (columns data r) idx) reps with hC
    have hlt := argIdx_lt (dist (columns data r) C i) C.length (by rw [hC, iter_length, hil]; exact hc)
    have := (hc2 (argIdx (dist (columns data r) C i) C.length) (C.getD (argIdx (dist (columns data r) C i) C.length) []) (by
      rw [List.getElem?_eq_getElem hlt, List.getD_eq_getElem _ _ hlt])).1
    unfold dist at this ⊢
    have e1 : best.getD i 0 = a := by simp [List.getD, ha1]
    have e2 : C.getD a [] = c := by simp [List.getD, hc1]
    rw [e1, e2]
    exact this
  refine key.trans ((loss_iter_antitone _ _ _ hv hir (by omega) reps).trans ?_)
  exact loss_nearest_le _ _ _ (by rw [hl, columns_length]) (by rw [hil]; exact ha)

/-- If a chunk has no more different rows than there are centers, training is lossless: each of its rows is a pivot. -/
theorem C85_train_lossless (ncenters reps n : Nat) (data : List (List K)) (hd : Rect n data) (h0 : data ≠ [])
    (hc : 0 < ncenters) (ranges : List (Nat × Nat)) (d : Nat → Draws K) (cancel : Nat → Bool × Bool)
    (hr : ∀ (k : Nat) (r : Nat × Nat), ranges[k]? = some r → r.2 ≤ n ∧ Fair (columns data r) (d k) ∧ cancel k = (false, false))
    (pivots : List (List (List K))) (h : train ncenters reps data n n ranges d cancel = some (.ok pivots))
    (k : Nat) (r : Nat × Nat) (hk : ranges[k]? = some r) (hfew : (columns data r).dedup.length ≤ ncenters) :
    ∃ m, pivots[k]? = some m ∧ ∀ x ∈ columns data r, x ∈ m := by
  obtain ⟨pivots', h1, h2, h3⟩ := trainAll_ok (reps := reps) hd h0 hc d cancel ranges 0 (fun k r h => by
    have := hr k r h
    rwa [Nat.zero_add])
  rw [train, if_pos rfl, h1] at h
  obtain rfl : pivots' = pivots := by simpa using h
  obtain ⟨idx, g1, g2, g3⟩ := h3 k r hk
  have hv := columns_rect hd r (hr k r hk).1
  refine ⟨_, g3, iter_keep _ _ _ hv (initial_rect hv g1.inside) ?_ reps⟩
  intro x hx
  exact List.mem_append_left _ (chosen_all g1 (by omega) x hx)

/-- The first chunk that is told to stop ends the training with that error. -/
theorem C85_train_canceled (ncenters reps n : Nat) (data : List (List K)) (hd : Rect n data) (h0 : data ≠ [])
    (hc : 0 < ncenters) (ranges : List (Nat × Nat)) (d : Nat → Draws K) (cancel : Nat → Bool × Bool)
    (hr : ∀ (k : Nat) (r : Nat × Nat), ranges[k]? = some r → r.2 ≤ n ∧ Fair (columns data r) (d k)) (c : Nat)
    (hcl : c < ranges.length) (hbefore : ∀ k < c, cancel k = (false, false)) (hcan : cancel c ≠ (false, false)) :
    train ncenters reps data n n ranges d cancel = some (.error (c, .canceled)) := by
  rw [train, if_pos rfl]
  have := trainAll_canceled (reps := reps) hd h0 hc d cancel ranges 0 c hcl (fun k r h => by
    have := hr k r h
    rwa [Nat.zero_add]) (fun k hk => by rw [Nat.zero_add]; exact hbefore k hk) (by rwa [Nat.zero_add])
  rwa [Nat.zero_add] at this

/-- Without rows the first chunk's initialization fails. -/
theorem C85_train_empty (ncenters reps n : Nat) (hc : 0 < ncenters) (r : Nat × Nat) (ranges : List (Nat × Nat))
    (d : Nat → Draws K) (cancel : Nat → Bool × Bool) (hcan : (cancel 0).1 = false) :
    train ncenters reps ([] : List (List K)) n n (r :: ranges) d cancel
      = some (.error (0, .initialization ⟨0, ncenters, .datasetTooSmall⟩)) := by
  rw [train, if_pos rfl, trainAll]
  have : trainChunk ncenters reps ([] : List (List K)) r (d 0) (cancel 0)
      = some (.error (.initialization ⟨0, ncenters, .datasetTooSmall⟩)) := by
    unfold trainChunk
    rw [if_neg (by simp [hcan])]
    have e : plusPlusInner ncenters ([] : List (List K)) (r.2 - r.1) [] (d 0)
        = some (List.replicate ncenters (List.replicate (r.2 - r.1) 0), some ⟨0, ncenters, .datasetTooSmall⟩) := by
      unfold plusPlusInner
      rw [if_pos (by simp)]
      dsimp only
      rw [if_pos (by simp), if_neg (by omega)]
    dsimp only
    rw [show columns ([] : List (List K)) r = [] from rfl, mapM_norm]
    simp only [List.map_nil, Option.bind_eq_bind, Option.bind_some]
    rw [e]
    rfl
  rw [this]
  rfl

/-- `flatten` puts row `r` of all matrices, in the order of the chunks, into row `r` of the dense matrix. -/
theorem C85_flatten (pivots : List (List (List K) × Nat)) (ncenters dim : Nat)
    (hm : ∀ m ∈ pivots, m.1.length = ncenters ∧ ∀ r ∈ m.1, r.length = m.2) (hs : (pivots.map (·.2)).sum = dim) :
    flatten pivots ncenters dim
      = some ((List.range ncenters).map fun r => (pivots.map fun m => m.1.getD r []).flatten).flatten := by
  unfold flatten
  have e : (List.replicate ncenters (List.replicate dim (0 : K)), 0)
      = ((List.range ncenters).map fun r => (fun _ => ([] : List K)) r ++ List.replicate dim 0, 0) := by simp
  rw [e, flatten_fold ncenters pivots 0 dim (fun _ => []) hm (fun _ => rfl) hs]
  simp [joined]

/-- Two chunks of widths 1 and 2. -/
example : flatten (K := Rat) [([[1], [2]], 1), ([[3, 4], [5, 6]], 2)] 2 3 = some [1, 3, 4, 2, 5, 6] := by decide +kernel

/-- Training three rows of width three on two chunks. -/
example : train (K := Rat) 2 3 [[0, 1, 1], [3, 2, 2], [3, 5, 5]] 3 3 [(0, 1), (1, 3)] (fun _ => ⟨1, fun _ s => s / 2⟩)
    (fun _ => (false, false)) = some (.ok [[[3], [0]], [[3 / 2, 3 / 2], [5, 5]]]) := by decide +kernel

end Verif.Kmeans
