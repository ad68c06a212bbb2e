import Verif.Graph.UpdateProps

/-!
# C07, C08, C09: saturation, and the degree target of `prune_range`
-/

namespace Verif.Graph

variable {I : Type} [DecidableEq I]

theorem saturateLoop_prefix (degree : Nat) (excl : I → Bool) (pool : List (I × Rat)) (l : List I) :
    l <+: saturateLoop degree excl pool l := by
  induction pool generalizing l with
  | nil => exact List.prefix_rfl
  | cons b pool ih =>
    rw [saturateLoop]
    split
    · exact List.prefix_rfl
    · refine List.IsPrefix.trans ?_ (ih _)
      split
      · exact List.prefix_rfl
      · unfold push; split
        · exact List.prefix_rfl
        · exact List.prefix_append _ _

theorem saturateLoop_full (degree : Nat) (excl : I → Bool) (pool : List (I × Rat)) (l : List I)
    (hlt : (saturateLoop degree excl pool l).length < degree) :
    ∀ x ∈ pool, excl x.1 = false → x.1 ∈ saturateLoop degree excl pool l := by
  induction pool generalizing l with
  | nil => intro x hx; cases hx
  | cons a pool ih =>
    rw [saturateLoop] at hlt ⊢
    split
    · rename_i hd
      rw [if_pos hd] at hlt
      omega
    · rename_i hd
      rw [if_neg hd] at hlt
      intro x hx he
      rcases List.mem_cons.1 hx with rfl | hx
      · apply (saturateLoop_prefix _ _ _ _).subset
        rw [if_neg (by simp [he])]
        unfold push; split
        · assumption
        · simp
      · exact ih _ hlt x hx he

/-- C07, saturation. When saturation is forced by the caller, or configured together with an alpha above one, the list
falls short of the pruned degree only if it already holds every candidate of the pool that may be used. -/
theorem C07_saturation_fills (c : Config) (pool : List (I × Rat)) (vec excl : I → Bool) (dd : I → I → Rat)
    (force : Bool) (fuel : Nat) (out : List I)
    (hsat : force = true ∨ (c.saturate = true ∧ ∃ a, c.alpha = some a ∧ 1 < a))
    (h : occludeList c pool vec excl dd force fuel = some out) (hlt : out.length < c.prunedDegree) :
    ∀ x ∈ pool, excl x.1 = false → x.1 ∈ out := by
  unfold occludeList at h
  split at h
  · rename_i hp
    subst hp; intro x hx; cases hx
  · simp only [Option.map_eq_some_iff] at h
    obtain ⟨chosen, -, h⟩ := h
    have hcond : (force || (c.saturate && (c.alpha.any fun a => decide (1 < a)))) = true := by
      rcases hsat with rfl | ⟨h1, a, h2, h3⟩
      · rfl
      · simp [h1, h2, h3]
    rw [if_pos hcond] at h
    subst h
    exact saturateLoop_full _ _ _ _ hlt

/-- C08 for the list that is stored. Without saturation it is exactly the chosen candidates, in order of choice; with
saturation the chosen ones come first and the rest of the pool only fills the places left over. -/
theorem C08_stored_list (c : Config) (pool : List (I × Rat)) (vec excl : I → Bool) (dd : I → I → Rat)
    (force : Bool) (fuel : Nat) (out : List I) (hne : pool ≠ [])
    (h : occludeList c pool vec excl dd force fuel = some out) :
    ∃ chosen, robustPrune (toProblem c pool vec excl dd) fuel = some chosen ∧
      (chosen.filterMap fun i => (pool[i]?).map (·.1)) <+: out ∧
      (force = false → c.saturate = false → out = chosen.filterMap fun i => (pool[i]?).map (·.1)) := by
  unfold occludeList at h
  rw [if_neg hne] at h
  simp only [Option.map_eq_some_iff] at h
  obtain ⟨chosen, h1, h⟩ := h
  refine ⟨chosen, h1, ?_, ?_⟩
  · subst h
    split
    · exact saturateLoop_prefix _ _ _ _
    · exact List.prefix_rfl
  · rintro rfl hs
    rw [← h]; simp [hs]

example : occludeList { demoConfig with alpha := some 1 } [(1, 1), (2, 2), (3, 3)] (fun _ => true)
    (fun x => decide (x = 0)) (fun _ _ => (1 / 2 : Rat)) true 9 = some [1, 2, 3] ∧
  occludeList { demoConfig with alpha := some 1, saturate := false } [(1, 1), (2, 2), (3, 3)] (fun _ => true)
    (fun x => decide (x = 0)) (fun _ _ => (1 / 2 : Rat)) false 9 = some [1] := by decide +kernel

/-- C09, target of `prune_range`. Pruning a vertex whose vector can be read leaves it with at most the pruned degree
(not just the maximum degree), no duplicates, and only old neighbours; a list already within the pruned degree is left
alone; and no other vertex changes. -/
theorem C09_prune_reaches_target (c : Config) (srt : Sorter I) (env : Env I) (fuel : Nat) (g : Graph I) (v : I)
    (scratch : List I) (hn : (g v).Nodup) (g' : Graph I) (s' : List I)
    (h : pruneVertex c srt env fuel g v scratch = some (g', s')) :
    (env.view v = true → (g' v).length ≤ c.prunedDegree) ∧ (g' v).Nodup ∧ (∀ x ∈ g' v, x ∈ g v) ∧
    ((g v).length ≤ c.prunedDegree → g' = g) ∧ (∀ w, w ≠ v → g' w = g w) := by
  unfold pruneVertex at h
  split at h
  · rename_i hl
    simp only [Option.some.injEq, Prod.mk.injEq] at h
    obtain ⟨rfl, rfl⟩ := h
    exact ⟨fun _ => hl, hn, fun x hx => hx, fun _ => rfl, fun _ _ => rfl⟩
  · rename_i hl
    simp only [Option.map_eq_some_iff, Prod.exists] at h
    obtain ⟨res, out, h1, h2⟩ := h
    cases res with
    | ok =>
      simp only [Prod.mk.injEq] at h2
      obtain ⟨rfl, rfl⟩ := h2
      obtain ⟨a1, a2, a3, -⟩ := robustPruneList_ok c srt env fuel v (g v) scratch false out hn
        (by intro e; rw [e] at hl; simp at hl) h1
      refine ⟨fun _ => ?_, ?_, ?_, fun hx => absurd hx hl, fun w hw => ?_⟩
      · simpa [setNeighbors] using a1
      · simpa [setNeighbors] using a2
      · intro x hx
        simp only [setNeighbors, Function.update_self] at hx
        exact (a3 x hx).1
      · simp [setNeighbors, Function.update_of_ne hw]
    | failedRetrieval =>
      simp only [Prod.mk.injEq] at h2
      obtain ⟨rfl, rfl⟩ := h2
      obtain ⟨-, hv⟩ := robustPruneList_failed c srt env fuel v (g v) scratch false out h1
      exact ⟨fun hx => (by rw [hv] at hx; cases hx), hn, fun x hx => hx, fun _ => rfl, fun _ _ => rfl⟩

/-- Four neighbours are over the pruned degree three but within the maximum four. -/
example : ((pruneVertex demoConfig stdSorter demoEnv 9 (fun v => if v = 1 then [2, 4, 5, 6] else []) 1 []).map
    fun r => r.1 1) = some [2, 5] := by decide +kernel

end Verif.Graph
