import Verif.Kmeans.DiskLemmas

/-! # Lemmas about k-means++ of the disk index -/

namespace Verif.Kmeans.Disk

open Verif.Kmeans

variable {K : Type} [Field K] [LinearOrder K] [IsStrictOrderedRing K]

/-! ## The dart -/

theorem throwDart_hit (picked : List Nat) (dart d : K) (ds : List K) (i : Nat) (pre : K)
    (h : pre ≤ dart ∧ (dart < pre + d ∨ dart ≤ pre ∧ d ≠ 0)) :
    throwDart picked dart (d :: ds) i pre = if picked.contains i then .again else .picked i pre := by
  exact if_pos h

theorem throwDart_miss (picked : List Nat) (dart d : K) (ds : List K) (i : Nat) (pre : K)
    (h : ¬ (pre ≤ dart ∧ (dart < pre + d ∨ dart ≤ pre ∧ d ≠ 0))) :
    throwDart picked dart (d :: ds) i pre = throwDart picked dart ds (i + 1) (pre + d) := by
  exact if_neg h

theorem throwDart_spec (picked : List Nat) (dart : K) : ∀ (ds : List K) (i : Nat) (pre : K), (∀ d ∈ ds, 0 ≤ d) →
    pre ≤ dart → dart < pre + ds.sum →
    ∃ m < ds.length, pre + (ds.take m).sum ≤ dart ∧ dart < pre + (ds.take (m + 1)).sum ∧
      throwDart picked dart ds i pre = if picked.contains (i + m) then .again else .picked (i + m) (pre + (ds.take m).sum)
  | [], i, pre, _, h1, h2 => absurd h2 (by simpa using h1)
  | d :: ds, i, pre, hnn, h1, h2 => by
    by_cases hd : dart < pre + d
    · refine ⟨0, by simp, by simpa using h1, by simpa using hd, ?_⟩
      rw [throwDart_hit _ _ _ _ _ _ ⟨h1, Or.inl hd⟩]
      simp
    · have hmiss : ¬ (pre ≤ dart ∧ (dart < pre + d ∨ dart ≤ pre ∧ d ≠ 0)) := by
        rintro ⟨_, h | ⟨h, hne⟩⟩
        · exact hd h
        · have : 0 < d := lt_of_le_of_ne (hnn d (by simp)) (Ne.symm hne)
          exact hd (lt_of_le_of_lt h (lt_add_of_pos_right _ this))
      obtain ⟨m, hm, h3, h4, h5⟩ := throwDart_spec picked dart ds (i + 1) (pre + d) (fun x hx => hnn x (by simp [hx]))
        (not_lt.1 hd) (by rw [List.sum_cons] at h2; rwa [add_assoc])
      refine ⟨m + 1, by simpa using hm, ?_, ?_, ?_⟩
      · rw [List.take_succ_cons, List.sum_cons, ← add_assoc]; exact h3
      · rw [List.take_succ_cons, List.sum_cons, ← add_assoc]; exact h4
      · rw [throwDart_miss _ _ _ _ _ _ hmiss, h5, List.take_succ_cons, List.sum_cons, add_assoc pre,
          show i + 1 + m = i + (m + 1) by omega]

/-! ## The loop -/

/-- What holds at the start of every iteration. -/
structure Inv (rows : List (List K)) (d : Draws K) (nc : Nat) (idx : List Nat) (D : Nat → K) (s : Pivots K) : Prop where
  chosen : Chosen rows d idx
  le : idx.length ≤ nc
  picked : s.picked = idx
  pivots : s.pivots.length = nc
  rowsEq : s.pivots.take idx.length = rowsAt rows idx
  dist : s.dist = (List.range rows.length).map D
  min : ∀ j < rows.length, IsMinDist (rowsAt rows idx) (rows.getD j []) (D j)

omit [IsStrictOrderedRing K] in
theorem chosen_le {data : List (List K)} {d : Draws K} {idx : List Nat} (h : Chosen data d idx) :
    idx.length ≤ data.dedup.length := by
  have : (rowsAt data idx) ⊆ data.dedup := fun r hr => List.mem_dedup.2 (rowsAt_sub h.inside r hr)
  have := (List.subperm_of_subset h.distinct this).length_le
  simpa [rowsAt] using this

theorem all_chosen {n : Nat} {data : List (List K)} (hd : Rect n data) {d : Draws K} {idx : List Nat}
    (h : Chosen data d idx) (D : Nat → K)
    (hD : ∀ j < data.length, IsMinDist (rowsAt data idx) (data.getD j []) (D j))
    (h0 : ∑ j ∈ Finset.range data.length, D j = 0) : idx.length = data.dedup.length := by
  apply le_antisymm (chosen_le h)
  have hnn : ∀ j ∈ Finset.range data.length, 0 ≤ D j := by
    intro j hj
    obtain ⟨⟨c, _, hc⟩, _⟩ := hD j (Finset.mem_range.1 hj)
    rw [← hc]; exact distSq_nonneg _ _
  have hz := (Finset.sum_eq_zero_iff_of_nonneg hnn).1 h0
  have hsub : data.dedup ⊆ rowsAt data idx := by
    intro r hr
    obtain ⟨j, hj, rfl⟩ := List.getElem_of_mem (List.mem_dedup.1 hr)
    obtain ⟨⟨c, hc, hcd⟩, _⟩ := hD j hj
    rw [hz j (Finset.mem_range.2 hj), List.getD_eq_getElem _ _ hj] at hcd
    have hlen : data[j].length = c.length := by
      rw [hd _ (List.getElem_mem _), hd _ (rowsAt_sub h.inside c hc)]
    rw [(distSq_eq_zero hlen).1 hcd]
    exact hc
  have := (List.subperm_of_subset (List.nodup_dedup data) hsub).length_le
  simpa [rowsAt] using this

omit [IsStrictOrderedRing K] [Field K] [LinearOrder K] in
theorem setPivot_ok (pivots : List (List K)) (j : Nat) (row : List K) (h : j < pivots.length) :
    setPivot pivots j row = some (pivots.set j row) := if_pos h

omit [IsStrictOrderedRing K] [Field K] [LinearOrder K] in
theorem take_set_succ (l : List (List K)) (j : Nat) (row : List K) (h : j < l.length) :
    (l.set j row).take (j + 1) = l.take j ++ [row] := by
  rw [List.take_succ_eq_append_getElem (by simpa using h)]
  simp [List.take_set_of_le]

theorem step_stop {n : Nat} {rows : List (List K)} (hr : Rect n rows) {d : Draws K} {nc : Nat} {idx : List Nat} {D : Nat → K}
    {s : Pivots K} (h : Inv rows d nc idx D s) (h0 : s.dist.sum = 0) (x : K) :
    s.step rows x = some (.ok none) ∧ idx.length = rows.dedup.length := by
  refine ⟨if_pos h0, all_chosen hr h.chosen D h.min ?_⟩
  rwa [h.dist, sum_range_list] at h0

theorem step_more {rows : List (List K)} {d : Draws K} (hf : Fair rows.length d)
    {nc : Nat} {idx : List Nat} {D : Nat → K} {s : Pivots K} (h : Inv rows d nc idx D s) (h0 : s.dist.sum ≠ 0)
    (hlt : idx.length < nc) (hpos : 0 < idx.length) :
    ∃ i s' D', s.step rows (d.dart idx.length) = some (.ok (some s')) ∧ Inv rows d nc (idx ++ [i]) D' s' := by
  have hnn : ∀ j < rows.length, 0 ≤ D j := by
    intro j hj
    obtain ⟨⟨c, _, hc⟩, _⟩ := h.min j hj
    rw [← hc]; exact distSq_nonneg _ _
  have hsum : s.dist.sum = ∑ j ∈ Finset.range rows.length, D j := by rw [h.dist, sum_range_list]
  have hp : 0 < s.dist.sum := by
    refine lt_of_le_of_ne ?_ (Ne.symm h0)
    rw [hsum]; exact Finset.sum_nonneg fun j hj => hnn j (Finset.mem_range.1 hj)
  obtain ⟨_, hdart, _⟩ := hf
  obtain ⟨m, hm, h3, h4, h5⟩ := throwDart_spec s.picked (d.dart idx.length * s.dist.sum) s.dist 0 0
    (by
      intro x hx
      rw [h.dist] at hx
      obtain ⟨j, hj, rfl⟩ := List.mem_map.1 hx
      exact hnn j (List.mem_range.1 hj))
    (mul_nonneg (hdart _).1 hp.le)
    (by rw [zero_add]; exact mul_lt_of_lt_one_left hp (hdart _).2)
  rw [zero_add] at h3 h4 h5
  rw [zero_add] at h5
  have hm' : m < rows.length := by rw [h.dist] at hm; simpa using hm
  have htake : ∀ q, q ≤ rows.length → (s.dist.take q).sum = ∑ j ∈ Finset.range q, D j := by
    intro q hq
    rw [h.dist, ← List.map_take, List.take_range, Nat.min_eq_left hq, sum_range_list]
  have hDm : 0 < D m := by
    rw [htake m (by omega)] at h3
    rw [htake (m + 1) (by omega), Finset.sum_range_succ] at h4
    by_contra hc
    exact absurd (h3.trans_lt h4) (by simpa using not_lt.1 hc)
  have hnew : rows.getD m [] ∉ rowsAt rows idx := by
    intro hmem
    have := (h.min m hm').2 _ hmem
    rw [distSq_self] at this
    exact absurd hDm (not_lt.2 this)
  have hnp : s.picked.contains m = false := by
    rw [h.picked, List.contains_eq_mem, decide_eq_false_iff_not]
    exact fun hmem => hnew (List.mem_map.2 ⟨m, hmem, rfl⟩)
  rw [hnp, if_neg (by simp)] at h5
  have hrow : rows[m]? = some (rows.getD m []) := by
    rw [List.getElem?_eq_getElem hm', List.getD_eq_getElem _ _ hm']
  have hle : (s.dist.take m).sum ≤ s.dist.sum := by
    rw [htake m (by omega), hsum]
    exact Finset.sum_le_sum_of_subset_of_nonneg (fun j hj => Finset.mem_range.2 (by have := Finset.mem_range.1 hj; omega))
      fun j hj _ => hnn j (Finset.mem_range.1 hj)
  refine ⟨m, ⟨idx ++ [m], s.pivots.set idx.length (rows.getD m []),
    List.zipWith (fun d r => min d (squaredL2 r (rows.getD m []))) s.dist rows⟩,
    fun j => min (D j) (distSq (rows.getD j []) (rows.getD m [])), ?_, ?_⟩
  · unfold Pivots.step
    rw [if_neg h0, h5]
    dsimp only
    rw [if_neg (not_lt.2 hle)]
    unfold Pivots.add
    rw [hrow]
    simp only [Option.bind_eq_bind, Option.bind_some]
    rw [setPivot_ok _ _ _ (by rw [h.picked, h.pivots]; exact hlt), h.picked]
    rfl
  · refine ⟨?_, by simpa using hlt, rfl, by simpa using h.pivots, ?_, ?_, ?_⟩
    · refine ⟨?_, ?_, ?_, ?_⟩
      · rw [List.getElem?_append_left hpos]; exact h.chosen.first
      · intro i hi
        rcases List.mem_append.1 hi with hi | hi
        · exact h.chosen.inside i hi
        · rw [List.mem_singleton.1 hi]; exact hm'
      · rw [rowsAt_append, List.nodup_append]
        refine ⟨h.chosen.distinct, by simp, ?_⟩
        intro a ha b hb
        rw [List.mem_singleton.1 hb]
        rintro rfl
        exact hnew ha
      · intro c i hc hi
        by_cases hcl : c < idx.length
        · rw [List.getElem?_append_left hcl] at hi
          obtain ⟨D', h1, h2, h3⟩ := h.chosen.next c i hc hi
          refine ⟨D', ?_, h2, h3⟩
          rwa [List.take_append_of_le_length hcl.le]
        · have hceq : c = idx.length := by
            by_contra hne
            rw [List.getElem?_eq_none (by simp; omega)] at hi
            exact absurd hi (by simp)
          subst hceq
          rw [List.getElem?_append_right le_rfl] at hi
          obtain rfl : m = i := by simpa using hi
          refine ⟨D, by simpa using h.min, hsum ▸ hp, ?_, ?_⟩
          · rw [← htake m (by omega), ← hsum]; exact h3
          · rw [← htake (m + 1) (by omega), ← hsum]; exact h4
    · rw [List.length_append, List.length_singleton, take_set_succ _ _ _ (by rw [h.pivots]; exact hlt), h.rowsEq,
        rowsAt_append]
    · dsimp only
      rw [h.dist]
      apply List.ext_getElem
      · simp
      intro j h1 h2
      have hj : j < rows.length := by simpa using h2
      simp [squaredL2_eq, List.getD, hj]
    · intro j hj
      obtain ⟨⟨c, hc, hcd⟩, hmin⟩ := h.min j hj
      rw [rowsAt_append]
      refine ⟨?_, ?_⟩
      · rcases le_total (D j) (distSq (rows.getD j []) (rows.getD m [])) with hle | hle
        · exact ⟨c, by simp [hc], by rw [min_eq_left hle]; exact hcd⟩
        · exact ⟨rows.getD m [], by simp, by rw [min_eq_right hle]⟩
      · intro e he
        rcases List.mem_append.1 he with he | he
        · exact (min_le_left _ _).trans (hmin e he)
        · rw [List.mem_singleton.1 he]; exact min_le_right _ _

theorem loop_ok {n : Nat} {rows : List (List K)} (hr : Rect n rows) {d : Draws K} (hf : Fair rows.length d) {nc : Nat} :
    ∀ (left : Nat) (idx : List Nat) (D : Nat → K) (s : Pivots K), Inv rows d nc idx D s → 0 < idx.length →
    idx.length + left = nc →
    ∃ idx' D' s', Pivots.loop rows d false left idx.length s = some (.ok s') ∧ Inv rows d nc idx' D' s' ∧
      idx'.length = min nc rows.dedup.length
  | 0, idx, D, s, h, _, hl => ⟨idx, D, s, rfl, h, by have := chosen_le h.chosen; omega⟩
  | left + 1, idx, D, s, h, hp, hl => by
    unfold Pivots.loop
    rw [if_neg (by simp)]
    by_cases h0 : s.dist.sum = 0
    · obtain ⟨h1, h2⟩ := step_stop hr h h0 (d.dart idx.length)
      rw [h1]
      exact ⟨idx, D, s, rfl, h, by have := h.le; omega⟩
    · obtain ⟨i, s', D', h1, h2⟩ := step_more hf h h0 (by omega) hp
      rw [h1]
      simp only [Option.bind_eq_bind, Option.bind_some]
      have := loop_ok hr hf left (idx ++ [i]) D' s' h2 (by simp) (by rw [List.length_append, List.length_singleton]; omega)
      rwa [List.length_append, List.length_singleton] at this

omit [IsStrictOrderedRing K] [Field K] [LinearOrder K] in
theorem fillUp_ok (rows : List (List K)) (d : Draws K) (hf : ∀ j, d.fill j < rows.length) : ∀ (q p : Nat) (pivots : List (List K)),
    pivots.length = p + q →
    fillUp rows d (List.range' p q) pivots
      = some (pivots.take p ++ (List.range' p q).map fun j => rows.getD (d.fill j) [])
  | 0, p, pivots, h => by
    simp [fillUp, List.take_of_length_le (show pivots.length ≤ p by omega)]
  | q + 1, p, pivots, h => by
    rw [List.range'_succ]
    unfold fillUp
    rw [List.getElem?_eq_getElem (hf p)]
    simp only [Option.bind_eq_bind, Option.bind_some]
    rw [setPivot_ok _ _ _ (by omega)]
    simp only [Option.bind_some]
    rw [fillUp_ok rows d hf q (p + 1) _ (by simp; omega), take_set_succ _ _ _ (by omega), List.map_cons,
      List.getD_eq_getElem _ _ (hf p)]
    simp

theorem selectPivots_ok {dim : Nat} {rows : List (List K)} (hr : Rect dim rows) (h0 : rows ≠ []) (hn : rows.length ≤ 2 ^ 23)
    (pivots : List K) (nc : Nat) (hnc : 0 < nc) (hp : pivots.length = nc * dim) {d : Draws K} (hf : Fair rows.length d) :
    ∃ idx extra : List Nat, selectPivots rows.flatten rows.length dim pivots nc d false
        = some (.ok (rowsAt rows (idx ++ extra)).flatten) ∧
      Chosen rows d idx ∧ idx.length = min nc rows.dedup.length ∧ extra.length = nc - idx.length ∧
      ∀ i ∈ extra, i < rows.length := by
  have hpos : 0 < rows.length := List.length_pos_iff.2 h0
  have hfirst := hf.1
  have hrow : rows[d.first]? = some (rows.getD d.first []) := by
    rw [List.getElem?_eq_getElem hfirst, List.getD_eq_getElem _ _ hfirst]
  have hbl : (rowsOf pivots nc dim).length = nc := by simp [rowsOf]
  have hinv : Inv rows d nc [d.first] (fun j => distSq (rows.getD j []) (rows.getD d.first []))
      ⟨[d.first], (rowsOf pivots nc dim).set 0 (rows.getD d.first []), rows.map fun r => squaredL2 r (rows.getD d.first [])⟩ := by
    refine ⟨⟨rfl, by simpa using hfirst, by simp [rowsAt], ?_⟩, hnc, rfl, by simp [rowsOf], ?_, ?_, ?_⟩
    · intro c i hc hi
      rw [List.getElem?_eq_none (by simp; omega)] at hi
      exact absurd hi (by simp)
    · have := take_set_succ (rowsOf pivots nc dim) 0 (rows.getD d.first []) (by omega)
      simpa [rowsAt] using this
    · dsimp only
      rw [map_eq_range rows []]
      simp [squaredL2_eq]
    · intro j hj
      refine ⟨⟨_, by simp [rowsAt], rfl⟩, ?_⟩
      intro c hc
      obtain rfl : c = rows.getD d.first [] := by simpa [rowsAt] using hc
      exact le_rfl
  obtain ⟨idx, D, s, h1, h2, h3⟩ := loop_ok hr hf (nc - 1) _ _ _ hinv (by simp) (by simp; omega)
  refine ⟨idx, (List.range' idx.length (nc - idx.length)).map d.fill, ?_, h2.chosen, h3, by simp, ?_⟩
  · unfold selectPivots
    rw [if_neg (by omega), if_neg (by simpa using hp), if_neg (by simp), if_neg (by omega),
      if_neg (by rw [flatten_length hr]; omega)]
    simp only [rowsOf_flatten hr, hrow, Option.bind_eq_bind, Option.bind_some]
    rw [setPivot_ok _ _ _ (by omega)]
    simp only [Option.bind_some]
    rw [List.length_singleton] at h1
    rw [h1]
    simp only [Option.bind_some]
    have hle := h2.le
    rw [List.range_eq_range', List.drop_range', h2.picked]
    simp only [Nat.zero_add, Nat.mul_one]
    rw [fillUp_ok rows d hf.2.2 _ _ _ (by rw [h2.pivots]; omega), h2.rowsEq]
    simp [rowsAt, List.map_map, Function.comp_def]
  · intro i hi
    obtain ⟨j, _, rfl⟩ := List.mem_map.1 hi
    exact hf.2.2 j

end Verif.Kmeans.Disk
