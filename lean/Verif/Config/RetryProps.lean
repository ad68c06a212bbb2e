import Verif.Config.Props

/-!
# C102: insertions with retries

`outcome … k l` below is what attempt number `k` makes of its search with the window `l`.
-/

namespace Verif.Config

open Verif.Graph

variable {I : Type} [DecidableEq I]

/-- Saturation is forced in attempt `k` exactly if it is the last one allowed and this was asked for. -/
def forced : Option Retry → Nat → Bool
  | some r, k => r.saturateLast && decide (k + 1 = r.maxRetries)
  | none, _ => false

/-- The neighbours attempt `k` finds with the window `l`. -/
def outcome (c : Graph.Config) (srt : Sorter I) (env : Env I) (fuel : Nat) (v : I) (r : Option Retry)
    (search : Nat → Nat → List (I × Rat)) (k l : Nat) : Option (List I) :=
  occludeList c (srt.run (search k l) c.maxOcclusion) env.view (fun i => decide (i = v)) env.dd (forced r k) fuel

theorem forced_eq (r : Option Retry) (hr : ∀ x ∈ r, 0 < x.maxRetries) (k : Nat) :
    (r.any fun r => r.shouldSaturate k) = forced r k := by
  cases r with
  | none => rfl
  | some r =>
    have := hr r rfl
    simp only [Option.any_some, forced, Retry.shouldSaturate]
    congr 1
    rw [Bool.eq_iff_iff]
    simp; omega

theorem retryLoop_spec (c : Graph.Config) (srt : Sorter I) (env : Env I) (fuel : Nat) (v : I) (r : Option Retry)
    (hr : ∀ x ∈ r, 0 < x.maxRetries) (search : Nat → Nat → List (I × Rat)) (hne : ∀ k l, search k l ≠ []) :
    ∀ (left a l : Nat) (buffer : List I) (log : List (Nat × Bool)) (out : List I), a + left + 1 = attempts r →
      retryLoop c srt env fuel v r search (left + 1) a l buffer = some (log, out) →
      ∃ m ≤ left, log = (List.range (m + 1)).map (fun k => (l * 2 ^ k, forced r (a + k))) ∧
        outcome c srt env fuel v r search (a + m) (l * 2 ^ m) = some out ∧
        (∀ k < m, ∃ x ∈ r, ∃ o, outcome c srt env fuel v r search (a + k) (l * 2 ^ k) = some o ∧
          o.length < x.threshold) ∧
        (m = left ∨ ∀ x ∈ r, x.threshold ≤ out.length) := by
  intro left
  induction left with
  | zero =>
    intro a l buffer log out ha h
    rw [retryLoop] at h
    simp only [if_neg (hne a l), forced_eq r hr] at h
    cases ho : occludeList c (srt.run (search a l) c.maxOcclusion) env.view (fun i => decide (i = v)) env.dd
        (forced r a) fuel with
    | none => rw [ho] at h; simp at h
    | some o =>
      rw [ho] at h
      dsimp only at h
      have hn : (r.any fun r => r.shouldRetry a o.length) = false := by
        cases r with
        | none => rfl
        | some x =>
          have := hr x rfl
          simp only [attempts] at ha
          simp [Retry.shouldRetry]; omega
      rw [hn] at h
      simp only [Bool.false_eq_true, if_false, Option.some.injEq, Prod.mk.injEq] at h
      obtain ⟨rfl, rfl⟩ := h
      refine ⟨0, le_rfl, by simp, ?_, by simp, .inl rfl⟩
      simpa [outcome] using ho
  | succ left ih =>
    intro a l buffer log out ha h
    rw [retryLoop] at h
    simp only [if_neg (hne a l), forced_eq r hr] at h
    cases ho : occludeList c (srt.run (search a l) c.maxOcclusion) env.view (fun i => decide (i = v)) env.dd
        (forced r a) fuel with
    | none => rw [ho] at h; simp at h
    | some o =>
      rw [ho] at h
      dsimp only at h
      cases hn : (r.any fun r => r.shouldRetry a o.length) with
      | false =>
        rw [hn] at h
        simp only [Bool.false_eq_true, if_false, Option.some.injEq, Prod.mk.injEq] at h
        obtain ⟨rfl, rfl⟩ := h
        refine ⟨0, by omega, by simp, by simpa [outcome] using ho, by simp, .inr ?_⟩
        intro x hx
        cases hx
        have := hr x rfl
        simp only [attempts] at ha
        simp [Retry.shouldRetry] at hn
        exact hn (by omega)
      | true =>
        rw [hn] at h
        simp only [if_true, Option.map_eq_some_iff, Prod.exists, Prod.mk.injEq] at h
        obtain ⟨log', out', hrec, rfl, rfl⟩ := h
        obtain ⟨m, hm, rfl, h2, h3, h4⟩ := ih (a + 1) (l * 2) o _ _ (by omega) hrec
        refine ⟨m + 1, by omega, ?_, ?_, ?_, ?_⟩
        · conv_rhs => rw [List.range_succ_eq_map, List.map_cons, List.map_map]
          simp only [pow_zero, mul_one, Nat.add_zero]
          congr 1
          refine List.map_congr_left fun k _ => ?_
          simp only [Function.comp_apply, Prod.mk.injEq]
          exact ⟨by rw [Nat.succ_eq_add_one, pow_succ]; ring, by congr 1; omega⟩
        · rw [show a + (m + 1) = a + 1 + m by omega, show l * 2 ^ (m + 1) = l * 2 * 2 ^ m by rw [pow_succ]; ring]
          exact h2
        · intro k hk
          cases k with
          | zero =>
            cases r with
            | none => simp at hn
            | some x =>
              simp [Retry.shouldRetry] at hn
              exact ⟨x, rfl, o, by simpa [outcome] using ho, hn.2⟩
          | succ k =>
            rw [show a + (k + 1) = a + 1 + k by omega, show l * 2 ^ (k + 1) = l * 2 * 2 ^ k by rw [pow_succ]; ring]
            exact h3 k (by omega)
        · rcases h4 with h4 | h4
          · exact .inl (by omega)
          · exact .inr h4

/-- An insertion makes at least one attempt and at most as many as configured. Attempt `k` searches with the window
`l_build * 2 ^ k`; saturation is forced in the last one allowed, if asked for, and in no other. Every attempt but the
last one made found fewer neighbours than the threshold; the last one found enough or is the last allowed. The graph is
the one a single attempt with the record of the last one makes. Searches are assumed to find something, as they start
from the start points. -/
theorem C102_retry (c : Cfg) (srt : Sorter I) (env : Env I) (fuel : Nat) (g g' : Graph I) (v : I)
    (search : Nat → Nat → List (I × Rat)) (hne : ∀ k l, search k l ≠ []) (hr : ∀ x ∈ c.retry, 0 < x.maxRetries)
    (log : List (Nat × Bool)) (h : insertRetrying c srt env fuel g v search = some (log, g')) :
    ∃ m < attempts c.retry,
      log = (List.range (m + 1)).map (fun k => (c.lBuild * 2 ^ k, forced c.retry k)) ∧
      (∀ k < m, ∃ x ∈ c.retry, ∃ o, outcome c.graph srt env fuel v c.retry search k (c.lBuild * 2 ^ k) = some o ∧
        o.length < x.threshold) ∧
      (m + 1 = attempts c.retry ∨ ∃ o, outcome c.graph srt env fuel v c.retry search m (c.lBuild * 2 ^ m) = some o ∧
        ∀ x ∈ c.retry, x.threshold ≤ o.length) ∧
      insertVertex c.graph srt env fuel c.maxBackedges g v (search m (c.lBuild * 2 ^ m)) (forced c.retry m) = some g' := by
  unfold insertRetrying at h
  cases hl : retryLoop c.graph srt env fuel v c.retry search (attempts c.retry) 0 c.lBuild [] with
  | none => rw [hl] at h; simp at h
  | some p =>
    obtain ⟨log', new⟩ := p
    rw [hl] at h
    simp only [Option.map_eq_some_iff, Prod.mk.injEq] at h
    obtain ⟨st, hst, rfl, rfl⟩ := h
    have ha : 0 < attempts c.retry := by
      cases hc : c.retry with
      | none => simp [attempts]
      | some x => rw [hc] at hr; exact hr x rfl
    obtain ⟨left, hleft⟩ : ∃ left, attempts c.retry = left + 1 := ⟨attempts c.retry - 1, by omega⟩
    rw [hleft] at hl
    obtain ⟨m, hm, h1, h2, h3, h4⟩ := retryLoop_spec c.graph srt env fuel v c.retry hr search hne left 0 c.lBuild [] _ _
      (by omega) hl
    simp only [Nat.zero_add] at h1 h2 h3
    refine ⟨m, by omega, h1, h3, ?_, ?_⟩
    · rcases h4 with h4 | h4
      · exact .inl (by omega)
      · exact .inr ⟨new, h2, h4⟩
    · unfold insertVertex insertOutEdges
      unfold outcome at h2
      dsimp only
      rw [h2]
      simp only [Option.map_some]
      exact congrArg (Option.map (·.1)) hst

/-- With a search that finds more in a wider window: two of the three attempts are made. -/
example : (insertRetrying
      { prunedDegree := 3, maxDegree := 4, lBuild := 5, alpha := some (7 / 5), kind := .triangleInequality
        maxOcclusion := 10, maxBackedges := 3, minibatch := 1, intra := .all, saturate := false
        retry := some ⟨3, 2, true⟩ } stdSorter demoEnv 9 (fun _ => []) 9
      (fun _ l => if l < 10 then [(10, 1)] else [(10, 1), (5, 4), (12, 3)])).map (fun p => (p.1, p.2 9)) =
    some ([(5, false), (10, false)], [10, 5]) := by decide +kernel

/-- Without the experimental setting there is one attempt, with the window `l_build`, and nothing is forced. -/
theorem C102_no_retry (c : Cfg) (srt : Sorter I) (env : Env I) (fuel : Nat) (g g' : Graph I) (v : I)
    (search : Nat → Nat → List (I × Rat)) (hne : ∀ k l, search k l ≠ []) (hr : c.retry = none)
    (log : List (Nat × Bool)) (h : insertRetrying c srt env fuel g v search = some (log, g')) :
    log = [(c.lBuild, false)] ∧
    insertVertex c.graph srt env fuel c.maxBackedges g v (search 0 c.lBuild) false = some g' := by
  obtain ⟨m, hm, h1, -, -, h2⟩ := C102_retry c srt env fuel g g' v search hne (by simp [hr]) log h
  rw [hr] at hm h1 h2
  simp only [attempts] at hm
  obtain rfl : m = 0 := by omega
  exact ⟨by simpa [forced] using h1, by simpa [forced] using h2⟩

example : (insertRetrying
      { prunedDegree := 3, maxDegree := 4, lBuild := 5, alpha := some (7 / 5), kind := .triangleInequality
        maxOcclusion := 10, maxBackedges := 3, minibatch := 1, intra := .all, saturate := false
        retry := none } stdSorter demoEnv 9 (fun _ => []) 9
      (fun _ l => if l < 10 then [(10, 1)] else [(10, 1), (5, 4), (12, 3)])).map (fun p => (p.1, p.2 9)) =
    some ([(5, false)], [10]) := by decide +kernel

theorem retryLoop_empty (c : Graph.Config) (srt : Sorter I) (env : Env I) (fuel : Nat) (v : I) (r : Retry)
    (hr : 0 < r.maxRetries) (search : Nat → Nat → List (I × Rat)) (buffer : List I) (hb : buffer.length < r.threshold) :
    ∀ (left a l : Nat), a + left = r.maxRetries → (∀ k, a ≤ k → ∀ l, search k l = []) →
      retryLoop c srt env fuel v (some r) search left a l buffer =
        some ((List.range left).map (fun k => (l * 2 ^ k, forced (some r) (a + k))), buffer) := by
  intro left
  induction left with
  | zero => intro a l _ _; rfl
  | succ left ih =>
    intro a l ha he
    rw [retryLoop]
    simp only [if_pos (he a le_rfl l), forced_eq (some r) (fun x hx => by cases hx; exact hr)]
    by_cases hl : left = 0
    · subst hl
      have hn : ((some r).any fun r => r.shouldRetry a buffer.length) = false := by
        simp [Retry.shouldRetry]; omega
      rw [hn]
      simp
    · have hn : ((some r).any fun r => r.shouldRetry a buffer.length) = true := by
        simp [Retry.shouldRetry]; omega
      rw [hn, if_pos rfl, ih (a + 1) (l * 2) (by omega) fun k hk => he k (by omega)]
      simp only [Option.map_some, Option.some.injEq, Prod.mk.injEq, and_true]
      rw [List.range_succ_eq_map, List.map_cons, List.map_map]
      simp only [pow_zero, mul_one, Nat.add_zero]
      congr 1
      refine List.map_congr_left fun k _ => ?_
      simp only [Function.comp_apply, Prod.mk.injEq]
      exact ⟨by rw [Nat.succ_eq_add_one, pow_succ]; ring, by congr 1; omega⟩

/-- An attempt that finds nothing does not lose what an earlier one found: if the first attempt finds too few neighbours
and all the others none at all, all the attempts allowed are made and the graph is the one of the first. -/
theorem C102_empty_attempts (c : Cfg) (r : Retry) (hr : c.retry = some r) (h2 : 1 < r.maxRetries) (srt : Sorter I)
    (env : Env I) (fuel : Nat) (g : Graph I) (v : I) (search : Nat → Nat → List (I × Rat))
    (h0 : search 0 c.lBuild ≠ []) (he : ∀ k, 1 ≤ k → ∀ l, search k l = []) (o : List I)
    (ho : outcome c.graph srt env fuel v c.retry search 0 c.lBuild = some o) (hfew : o.length < r.threshold) :
    insertRetrying c srt env fuel g v search =
      (insertVertex c.graph srt env fuel c.maxBackedges g v (search 0 c.lBuild) false).map fun g' =>
        ((List.range r.maxRetries).map (fun k => (c.lBuild * 2 ^ k, forced c.retry k)), g') := by
  have hf0 : forced c.retry 0 = false := by rw [hr]; simp [forced]; omega
  have hl : retryLoop c.graph srt env fuel v c.retry search (attempts c.retry) 0 c.lBuild [] =
      some ((List.range r.maxRetries).map (fun k => (c.lBuild * 2 ^ k, forced c.retry k)), o) := by
    unfold outcome at ho
    obtain ⟨left, hleft⟩ : ∃ left, r.maxRetries = left + 1 := ⟨r.maxRetries - 1, by omega⟩
    rw [hr] at ho ⊢
    simp only [attempts, hleft]
    rw [retryLoop]
    simp only [if_neg h0, forced_eq (some r) (fun x hx => by cases hx; omega), ho]
    have hn : ((some r).any fun r => r.shouldRetry 0 o.length) = true := by
      simp [Retry.shouldRetry]; omega
    rw [hn, if_pos rfl, retryLoop_empty c.graph srt env fuel v r (by omega) search o hfew left 1 (c.lBuild * 2) (by omega)
      fun k hk => he k hk]
    simp only [Option.map_some, Option.some.injEq, Prod.mk.injEq, and_true]
    rw [List.range_succ_eq_map, List.map_cons, List.map_map]
    simp only [pow_zero, mul_one]
    congr 1
    refine List.map_congr_left fun k _ => ?_
    simp only [Function.comp_apply, Prod.mk.injEq]
    exact ⟨by rw [Nat.succ_eq_add_one, pow_succ]; ring, by congr 1; omega⟩
  unfold insertRetrying
  rw [hl]
  unfold outcome at ho
  rw [hf0] at ho
  unfold insertVertex insertOutEdges
  dsimp only
  rw [ho]
  simp only [Option.map_some, Option.map_map]
  rfl

example : (insertRetrying
      { prunedDegree := 3, maxDegree := 4, lBuild := 5, alpha := some (7 / 5), kind := .triangleInequality
        maxOcclusion := 10, maxBackedges := 3, minibatch := 1, intra := .all, saturate := false
        retry := some ⟨3, 2, true⟩ } stdSorter demoEnv 9 (fun _ => []) 9
      (fun k _ => if k = 0 then [(10, 1)] else [])).map (fun p => (p.1, p.2 9)) =
    some ([(5, false), (10, false), (20, true)], [10]) := by decide +kernel

/-- Under every configuration the builder accepts, an insertion with retries keeps every list free of duplicates and
within the maximum degree. -/
theorem C102_insert_degree (b : Builder) (c : Cfg) (hb : b.build = .ok c) (srt : Sorter I) (env : Env I) (fuel : Nat)
    (g g' : Graph I) (v : I) (hg : ∀ w, (g w).Nodup ∧ (g w).length ≤ c.maxDegree)
    (search : Nat → Nat → List (I × Rat)) (hne : ∀ k l, search k l ≠ [])
    (hd : ∀ k l, ((search k l).map (·.1)).Nodup) (hr : ∀ x ∈ c.retry, 0 < x.maxRetries)
    (log : List (Nat × Bool)) (h : insertRetrying c srt env fuel g v search = some (log, g')) :
    ∀ w, (g' w).Nodup ∧ (g' w).length ≤ c.maxDegree := by
  obtain ⟨m, -, -, -, -, h2⟩ := C102_retry c srt env fuel g g' v search hne hr log h
  have hv := ((C102_build b c).1 hb).2
  refine C09_degree_bound c.graph hv.le hv.pruned.1 srt fuel g hg
    [.insert env c.maxBackedges v (search m (c.lBuild * 2 ^ m)) (forced c.retry m)] ?_ g' [] ?_
  · intro op hop
    rw [List.mem_singleton] at hop
    subst hop
    exact hd _ _
  · simp [run, step, h2]

example : ((Builder.new 3 (.value 4) 5 .triangleInequality).set (.retry ⟨3, 2, true⟩)).build.toOption.map (·.retry) =
    some (some ⟨3, 2, true⟩) := by decide +kernel

/-- The threshold is not "relative to the `max_degree`", nor bounded by it: above the pruned degree every insertion
makes all the attempts, each with twice the window. -/
theorem C102_threshold_above_degree (c : Cfg) (r : Retry) (hr : c.retry = some r) (h0 : 0 < r.maxRetries)
    (ht : c.prunedDegree < r.threshold) (srt : Sorter I) (env : Env I) (fuel : Nat) (g g' : Graph I) (v : I)
    (search : Nat → Nat → List (I × Rat)) (hne : ∀ k l, search k l ≠ [])
    (hd : ∀ k l, ((search k l).map (·.1)).Nodup)
    (log : List (Nat × Bool)) (h : insertRetrying c srt env fuel g v search = some (log, g')) :
    log.map (·.1) = (List.range r.maxRetries).map fun k => c.lBuild * 2 ^ k := by
  obtain ⟨m, hm, h1, -, h3, -⟩ := C102_retry c srt env fuel g g' v search hne (by rw [hr]; rintro x ⟨⟩; exact h0) log h
  rw [hr] at hm h3
  simp only [attempts] at hm h3
  rcases h3 with h3 | ⟨o, ho, h3⟩
  · rw [h1, ← h3, List.map_map]; rfl
  · have := (C07_pruned_list_partial c.graph v (search m (c.lBuild * 2 ^ m)) _ _ _ _ _ _ (hd _ _) (srt.ok _ _) ho).1
    have h4 := h3 r rfl
    simp only [Cfg.graph] at this
    omega

example : (insertRetrying
      { prunedDegree := 3, maxDegree := 4, lBuild := 5, alpha := some (7 / 5), kind := .triangleInequality
        maxOcclusion := 10, maxBackedges := 3, minibatch := 1, intra := .all, saturate := false
        retry := some ⟨3, 4, true⟩ } stdSorter demoEnv 9 (fun _ => []) 9
      (fun _ l => if l < 10 then [(10, 1)] else [(10, 1), (5, 4), (12, 3)])).map (·.1) =
    some [(5, false), (10, false), (20, true)] := by decide +kernel

end Verif.Config
