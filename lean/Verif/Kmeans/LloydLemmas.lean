import Verif.Kmeans.Lemmas

/-! # Lemmas about Lloyd's algorithm -/

namespace Verif.Kmeans

variable {K : Type} [Field K] [LinearOrder K]

/-! ## The closest center -/

/-- The first position below `n` at which `f` is smallest. -/
def argIdx (f : Nat → K) : Nat → Nat
  | 0 => 2 ^ 32 - 1
  | n + 1 => if n = 0 then 0 else if f n < f (argIdx f n) then n else argIdx f n

/-- The loop over the centers on known distances. -/
def argFold (f : Nat → K) (n : Nat) : Option K × Nat :=
  (List.range n).foldl (fun t r => update t (f r) r) (none, 2 ^ 32 - 1)

theorem argFold_eq (f : Nat → K) : ∀ n, 0 < n → argFold f n = (some (f (argIdx f n)), argIdx f n)
  | 0, h => absurd h (by omega)
  | 1, _ => by simp [argFold, argIdx, update, ltInf]
  | n + 2, _ => by
    unfold argFold
    rw [List.range_succ, List.foldl_append]
    have ih := argFold_eq f (n + 1) (by omega)
    unfold argFold at ih
    rw [ih]
    rw [show argIdx f (n + 2) = if f (n + 1) < f (argIdx f (n + 1)) then n + 1 else argIdx f (n + 1) from rfl]
    simp only [List.foldl_cons, List.foldl_nil, update, ltInf, decide_eq_true_eq]
    split <;> rfl

theorem argIdx_lt (f : Nat → K) : ∀ n, 0 < n → argIdx f n < n
  | 0, h => absurd h (by omega)
  | 1, _ => by simp [argIdx]
  | n + 2, _ => by
    have := argIdx_lt f (n + 1) (by omega)
    rw [show argIdx f (n + 2) = if f (n + 1) < f (argIdx f (n + 1)) then n + 1 else argIdx f (n + 1) from rfl]
    split <;> omega

theorem argIdx_min (f : Nat → K) : ∀ n, ∀ j < n, f (argIdx f n) ≤ f j ∧ (j < argIdx f n → f (argIdx f n) < f j)
  | 0, j, h => absurd h (by omega)
  | 1, j, h => by
    obtain rfl : j = 0 := by omega
    simp [argIdx]
  | n + 2, j, h => by
    have ih := argIdx_min f (n + 1)
    have hl := argIdx_lt f (n + 1) (by omega)
    rw [show argIdx f (n + 2) = if f (n + 1) < f (argIdx f (n + 1)) then n + 1 else argIdx f (n + 1) from rfl]
    split
    · rename_i hlt
      by_cases hj : j = n + 1
      · subst hj; exact ⟨le_rfl, fun h => absurd h (by omega)⟩
      · have := (ih j (by omega)).1
        exact ⟨(hlt.trans_le this).le, fun _ => hlt.trans_le this⟩
    · rename_i hlt
      by_cases hj : j = n + 1
      · subst hj; exact ⟨not_lt.1 hlt, fun h => absurd h (by omega)⟩
      · exact ih j (by omega)

theorem compare_fold (data : List (List K)) (ncols : Nat) (centers : List (List K)) (hc : Rect ncols centers) (b l : Nat)
    (d : K) : ∀ m, m ≤ centers.length →
    (List.range m).foldlM (compare data ncols centers (centers.map fun c => pre c c.length) b l d) (none, 2 ^ 32 - 1)
      = some (argFold (fun r => pre (centers.getD r []) (centers.getD r []).length
          - (∑ j ∈ Finset.range ncols, (centers.getD r []).getD j 0 * laneAt data b j l)
          - (∑ j ∈ Finset.range ncols, (centers.getD r []).getD j 0 * laneAt data b j l) + d) m) := by
  intro m
  induction m with
  | zero => intro _; rfl
  | succ m ih =>
    intro hm
    rw [List.range_succ, List.foldlM_append, ih (by omega)]
    unfold argFold
    rw [List.range_succ, List.foldl_append]
    simp only [Option.bind_eq_bind, Option.bind_some, List.foldlM_cons, List.foldlM_nil, List.foldl_cons, List.foldl_nil]
    unfold compare
    have e : centers[m]? = some (centers.getD m []) := by
      rw [List.getElem?_eq_getElem (by omega), List.getD_eq_getElem _ _ (by omega)]
    have e2 : (centers.map fun c => pre c c.length)[m]? = some (pre (centers.getD m []) (centers.getD m []).length) := by
      rw [List.getElem?_map, e]; rfl
    have hr : (centers.getD m []).length = ncols := hc _ (by rw [List.getD_eq_getElem _ _ (by omega)]; exact List.getElem_mem _)
    simp only [e, e2, dotLane_eq _ _ _ _ _ hr, Option.bind_eq_bind, Option.bind_some]
    rfl

/-- The squared distance of row `i` to center `r`. -/
def dist (data centers : List (List K)) (i r : Nat) : K := distSq (data.getD i []) (centers.getD r [])

theorem getD_rect {n : Nat} {rows : List (List K)} (h : Rect n rows) {i : Nat} (hi : i < rows.length) :
    (rows.getD i []).length = n := h _ (by rw [List.getD_eq_getElem _ _ hi]; exact List.getElem_mem _)

/-- What is computed for a lane that holds row `i`. -/
theorem closestLane_in (data : List (List K)) (ncols : Nat) (centers : List (List K)) (hd : Rect ncols data)
    (hc : Rect ncols centers) (b first l : Nat) (hf : first ≤ 16) (hl : l < first) (hr : 16 * b + l < data.length) :
    closestLane data ncols (data.map fun r => pre r r.length) centers (centers.map fun c => pre c c.length) b first l
      = some (argFold (dist data centers (16 * b + l)) centers.length) := by
  unfold closestLane
  have e : (data.map fun r => pre r r.length)[16 * b + l]?
      = some (pre (data.getD (16 * b + l) []) (data.getD (16 * b + l) []).length) := by
    rw [List.getElem?_map, List.getElem?_eq_getElem hr, List.getD_eq_getElem _ _ hr]; rfl
  rw [loadLane_in _ _ _ _ _ hf hl, e, rowOrder_eq]
  simp only [Option.bind_eq_bind, Option.bind_some]
  rw [compare_fold _ _ _ hc _ _ _ _ le_rfl]
  congr 1
  unfold argFold
  apply List.foldl_ext
  intro t r hrr
  congr 1
  have hrl : r < centers.length := List.mem_range.1 hrr
  have h1 := getD_rect hd hr
  have h2 := getD_rect hc hrl
  have := dist_expand (data.getD (16 * b + l) []) (centers.getD r []) (by rw [h1, h2])
  rw [h1] at this
  unfold dist
  rw [← this, h1]
  rfl

theorem closestLane_out (data : List (List K)) (ncols : Nat) (centers : List (List K))
    (hc : Rect ncols centers) (norms : List K) (b first l : Nat) (hf : first ≤ 16) (hl : ¬ l < first) :
    ∃ v, closestLane data ncols norms centers (centers.map fun c => pre c c.length) b first l = some v := by
  unfold closestLane
  rw [loadLane_out _ _ _ _ _ hf hl, rowOrder_eq]
  simp only [Option.bind_eq_bind, Option.bind_some]
  rw [compare_fold _ _ _ hc _ _ _ _ le_rfl]
  exact ⟨_, rfl⟩

theorem sum_ite_lt (f : Nat → K) (m n : Nat) (h : m ≤ n) :
    ∑ l ∈ Finset.range m, f l = ∑ l ∈ Finset.range n, if l < m then f l else 0 := by
  conv_rhs => rw [show n = m + (n - m) by omega, Finset.sum_range_add]
  rw [Finset.sum_congr (s₁ := Finset.range m) rfl fun k hk => (if_pos (Finset.mem_range.1 hk)).symm,
    Finset.sum_eq_zero (s := Finset.range (n - m)) fun k _ => if_neg (by omega), add_zero]

/-- One block, when there is a center. -/
theorem closestBlock_spec (data : List (List K)) (ncols : Nat) (centers : List (List K)) (hd : Rect ncols data)
    (hc : Rect ncols centers) (h0 : 0 < centers.length) (b first : Nat) (hf : first ≤ 16)
    (hb : 16 * b + first ≤ data.length) (nearest : List Nat) (hn : nearest.length = data.length) (ρ : Nat → K) :
    ∃ ρ' : Nat → K,
      closestBlock data ncols (data.map fun r => pre r r.length) centers (centers.map fun c => pre c c.length) b first
        (nearest, fun l => some (ρ l))
      = some (nearest.take (16 * b) ++ ((List.range first).map fun l => argIdx (dist data centers (16 * b + l)) centers.length)
          ++ nearest.drop (16 * b + first), fun l => some (ρ' l)) ∧
      ∑ l ∈ Finset.range 8, ρ' l = ∑ l ∈ Finset.range 8, ρ l
        + ∑ l ∈ Finset.range first, dist data centers (16 * b + l) (argIdx (dist data centers (16 * b + l)) centers.length) := by
  classical
  have hlane : ∀ l, ∃ v, closestLane data ncols (data.map fun r => pre r r.length) centers
      (centers.map fun c => pre c c.length) b first l = some v := by
    intro l
    by_cases h : l < first
    · exact ⟨_, closestLane_in data ncols centers hd hc b first l hf h (by omega)⟩
    · exact closestLane_out data ncols centers hc _ b first l hf h
  choose g hg using hlane
  have hgin : ∀ l < first, g l = (some (dist data centers (16 * b + l) (argIdx (dist data centers (16 * b + l)) centers.length)),
      argIdx (dist data centers (16 * b + l)) centers.length) := by
    intro l h
    have := hg l
    rw [closestLane_in data ncols centers hd hc b first l hf h (by omega), argFold_eq _ _ h0] at this
    exact (Option.some.inj this).symm
  unfold closestBlock
  rw [mapM_some _ g _ fun a _ => hg a]
  simp only [Option.bind_eq_bind, Option.bind_some]
  rw [storeLanes_eq _ _ _ _ hf (by simp) (by omega)]
  simp only [Option.bind_some]
  have htake : List.take first (List.map (fun x => x.2) (List.map g (List.range 16)))
      = (List.range first).map fun l => argIdx (dist data centers (16 * b + l)) centers.length := by
    rw [List.map_map, ← List.map_take, List.take_range, Nat.min_eq_left hf]
    apply List.map_congr_left
    intro l hl
    simp [hgin l (List.mem_range.1 hl)]
  refine ⟨fun l => ρ l + (if l < first then dist data centers (16 * b + l)
      (argIdx (dist data centers (16 * b + l)) centers.length) else 0)
    + (if l + 8 < first then dist data centers (16 * b + (l + 8))
      (argIdx (dist data centers (16 * b + (l + 8))) centers.length) else 0), ?_, ?_⟩
  · rw [htake]
    congr 2
    funext l
    have hget : ∀ m, m < first → ((List.map g (List.range 16)).getD m (none, 0)).1
        = some (dist data centers (16 * b + m) (argIdx (dist data centers (16 * b + m)) centers.length)) := by
      intro m hm
      rw [List.getD_eq_getElem _ _ (by simp; omega)]
      simp [hgin m hm]
    rw [inLanes_eq hf, inLanes_eq hf]
    by_cases h1 : l < first
    · have h1' := hget l h1
      by_cases h2 : l + 8 < first
      · have h2' := hget (l + 8) h2
        simp only [h1, h2, decide_true, if_true, h1', h2', addInf]
      · simp only [h1, h2, decide_true, decide_false, if_true, h1', addInf]
        simp
    · have h2 : ¬ l + 8 < first := by omega
      simp [h1, h2]
  · rw [Finset.sum_add_distrib, Finset.sum_add_distrib, add_assoc]
    congr 1
    rw [sum_ite_lt _ first 16 hf]
    rw [Finset.sum_range_add _ 8 8]
    congr 1

theorem sumLanes_some (ρ : Nat → K) : sumLanes (fun l => some (ρ l)) = some (∑ l ∈ Finset.range 8, ρ l) := by
  simp [sumLanes, List.range_succ, addInf, Finset.sum_range_succ]

/-- The closest centers of all rows and the sum of the distances. -/
def nearestOf (data centers : List (List K)) : List Nat :=
  (List.range data.length).map fun i => argIdx (dist data centers i) centers.length

theorem closestAll_spec (data : List (List K)) (ncols : Nat) (centers : List (List K)) (hd : Rect ncols data)
    (hc : Rect ncols centers) (h0 : 0 < centers.length) (nearest : List Nat) (hn : nearest.length = data.length) :
    ∃ ρ : Nat → K,
      closestAll data ncols (data.map fun r => pre r r.length) centers (centers.map fun c => pre c c.length) nearest
        = some (nearestOf data centers, fun l => some (ρ l)) ∧
      ∑ l ∈ Finset.range 8, ρ l
        = ∑ i ∈ Finset.range data.length, dist data centers i (argIdx (dist data centers i) centers.length) := by
  set A : Nat → Nat := fun i => argIdx (dist data centers i) centers.length with hA
  have loop : ∀ m, 16 * m ≤ data.length → ∃ ρ : Nat → K,
      (List.range m).foldlM (fun st b => closestBlock data ncols (data.map fun r => pre r r.length) centers
        (centers.map fun c => pre c c.length) b 16 st) (nearest, fun _ => some 0)
        = some ((List.range (16 * m)).map A ++ nearest.drop (16 * m), fun l => some (ρ l)) ∧
      ∑ l ∈ Finset.range 8, ρ l = ∑ i ∈ Finset.range (16 * m), dist data centers i (A i) := by
    intro m
    induction m with
    | zero => intro _; exact ⟨fun _ => 0, by simp, by simp⟩
    | succ m ih =>
      intro hm
      obtain ⟨ρ, h1, h2⟩ := ih (by omega)
      rw [List.range_succ, List.foldlM_append, h1]
      obtain ⟨ρ', h3, h4⟩ := closestBlock_spec data ncols centers hd hc h0 m 16 le_rfl (by omega)
        ((List.range (16 * m)).map A ++ nearest.drop (16 * m)) (by simp; omega) ρ
      refine ⟨ρ', ?_, ?_⟩
      · simp only [Option.bind_eq_bind, Option.bind_some, List.foldlM_cons, List.foldlM_nil, h3]
        show some _ = some _
        congr 2
        rw [List.take_left' (by simp), show 16 * (m + 1) = 16 * m + 16 by ring, List.range_add, List.map_append, List.map_map]
        congr 1
        rw [List.drop_append]
        simp
      · rw [h4, h2, show 16 * (m + 1) = 16 * m + 16 by ring, Finset.sum_range_add]
  obtain ⟨ρ, h1, h2⟩ := loop (data.length / 16) (by omega)
  unfold closestAll
  rw [h1]
  simp only [Option.bind_eq_bind, Option.bind_some]
  by_cases h : data.length % 16 = 0
  · rw [if_neg (by simpa using h)]
    have e : 16 * (data.length / 16) = data.length := by omega
    rw [e] at h2 ⊢
    refine ⟨ρ, ?_, h2⟩
    rw [List.drop_of_length_le (by omega), List.append_nil]
    rfl
  · rw [if_pos h]
    obtain ⟨ρ', h3, h4⟩ := closestBlock_spec data ncols centers hd hc h0 (data.length / 16) (data.length % 16) (by omega)
      (by omega) ((List.range (16 * (data.length / 16))).map A ++ nearest.drop (16 * (data.length / 16))) (by simp; omega) ρ
    refine ⟨ρ', ?_, ?_⟩
    · rw [h3]
      congr 2
      rw [List.take_left' (by simp), show nearestOf data centers = (List.range data.length).map A from rfl]
      conv_rhs => rw [show data.length = 16 * (data.length / 16) + data.length % 16 by omega, List.range_add, List.map_append,
        List.map_map]
      rw [List.drop_of_length_le (l := _ ++ _) (by simp; omega), List.append_nil]
      rfl
    · rw [h4, h2]
      conv_rhs => rw [show data.length = 16 * (data.length / 16) + data.length % 16 by omega, Finset.sum_range_add]

theorem distancesInPlace_spec (data : List (List K)) (ncols : Nat) (centers : List (List K)) (hd : Rect ncols data)
    (hc : Rect ncols centers) (h0 : 0 < centers.length) (nearest : List Nat) (hn : nearest.length = data.length) :
    distancesInPlace data ncols (data.map fun r => pre r r.length) centers ncols (centers.map fun c => pre c c.length) nearest
      = some (nearestOf data centers,
          some (∑ i ∈ Finset.range data.length, dist data centers i (argIdx (dist data centers i) centers.length))) := by
  obtain ⟨ρ, h1, h2⟩ := closestAll_spec data ncols centers hd hc h0 nearest hn
  unfold distancesInPlace
  rw [if_pos ⟨by simp, rfl, by simp, hn⟩, h1]
  simp only [Option.bind_eq_bind, Option.bind_some, sumLanes_some, h2]

theorem nearestOf_nearest (data centers : List (List K)) (h0 : 0 < centers.length) :
    Nearest data centers (nearestOf data centers) := by
  refine ⟨by simp [nearestOf], fun i x hx => ?_⟩
  have hi : i < data.length := by
    by_contra h
    rw [List.getElem?_eq_none (by omega)] at hx
    exact absurd hx (by simp)
  have hx' : data.getD i [] = x := by simp [List.getD, hx]
  refine ⟨argIdx (dist data centers i) centers.length, by simp [nearestOf, hi], ?_⟩
  have hl := argIdx_lt (dist data centers i) _ h0
  refine ⟨centers.getD (argIdx (dist data centers i) centers.length) [], ?_, fun j e he => ?_⟩
  · rw [List.getElem?_eq_getElem hl, List.getD_eq_getElem _ _ hl]
  · have hj : j < centers.length := by
      by_contra h
      rw [List.getElem?_eq_none (by omega)] at he
      exact absurd he (by simp)
    have := argIdx_min (dist data centers i) _ j hj
    unfold dist at this ⊢
    rw [hx'] at this ⊢
    rw [show centers.getD j [] = e by simp [List.getD, he]] at this
    exact this

theorem loss_eq (data centers : List (List K)) (assign : List Nat) (h : assign.length = data.length) :
    loss data centers assign = ∑ i ∈ Finset.range data.length, dist data centers i (assign.getD i 0) := by
  unfold loss
  rw [sum_zipWith_getD _ [] 0 _ _ h.symm]
  rfl

theorem loss_nearestOf (data centers : List (List K)) :
    loss data centers (nearestOf data centers)
      = ∑ i ∈ Finset.range data.length, dist data centers i (argIdx (dist data centers i) centers.length) := by
  rw [loss_eq _ _ _ (by simp [nearestOf])]
  refine Finset.sum_congr rfl fun i hi => ?_
  have := Finset.mem_range.1 hi
  congr 1
  rw [List.getD_eq_getElem _ _ (by simpa [nearestOf] using this)]
  simp [nearestOf]

end Verif.Kmeans
