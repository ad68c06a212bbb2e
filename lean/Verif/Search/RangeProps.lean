import Verif.Search.Props
import Mathlib.Algebra.Order.Ring.Rat

/-! # C17, C59: range search -/

namespace Verif.Search

open Verif.Queue

variable {I D : Type} [DecidableEq I] [LinearOrder D]

/-! ### Helper lemmas -/

theorem filter_notMem_add (V E new : List I) (hn : new.Nodup) (hV : ∀ x ∈ new, x ∈ V)
    (hE : ∀ x ∈ new, x ∉ E) :
    (V.filter fun v => decide (v ∉ E ++ new)).length + new.length
      ≤ (V.filter fun v => decide (v ∉ E)).length := by
  induction new generalizing E with
  | nil => simp
  | cons x new ih =>
    rw [List.nodup_cons] at hn
    have h1 := ih (E ++ [x]) hn.2 (fun y hy => hV y (List.mem_cons_of_mem _ hy)) (by
      intro y hy hm
      rcases List.mem_append.mp hm with h | h
      · exact hE y (List.mem_cons_of_mem _ hy) h
      · simp only [List.mem_singleton] at h; subst h; exact hn.1 hy)
    have h2 := filter_notMem_lt V E [x] x (hV x (by simp)) (hE x (by simp)) (by simp)
    rw [List.append_assoc, List.singleton_append] at h1
    simp only [List.length_cons]
    omega

/-- What `rangePush` over a list of newly seen ids does. -/
theorem rangePush_fold (p : RangeParams D) (G : Graph I D) (new : List I) (acc : List (I × D) × List I) :
    ∃ add, (new.foldl (rangePush p G) acc) = (acc.1 ++ add, acc.2 ++ add.map (·.1)) ∧
      (add.map (·.1)).Sublist new ∧ (∀ x ∈ add, G.dist x.1 = some x.2 ∧ leOpt x.2 p.outer = true) ∧
      (∀ m, p.maxReturned = some m → acc.1.length ≤ m → (acc.1 ++ add).length ≤ m) ∧
      (p.maxReturned = none → ∀ i ∈ new, ∀ d, G.dist i = some d → leOpt d p.outer = true → (i, d) ∈ add) := by
  induction new generalizing acc with
  | nil =>
    exact ⟨[], by simp, by simp, by simp, fun m _ h => by simpa using h, by simp⟩
  | cons j new ih =>
    rw [List.foldl_cons]
    by_cases hp : ∃ d, G.dist j = some d ∧ (leOpt d p.outer && below acc.1.length p.maxReturned) = true
    · obtain ⟨d, hd, hc⟩ := hp
      have hstep : rangePush p G acc j = (acc.1 ++ [(j, d)], acc.2 ++ [j]) := by
        unfold rangePush; rw [hd]; simp only [hc, if_true]
      rw [hstep]
      obtain ⟨add, h1, h2, h3, h4, h5⟩ := ih (acc.1 ++ [(j, d)], acc.2 ++ [j])
      simp only [Bool.and_eq_true] at hc
      refine ⟨(j, d) :: add, by rw [h1]; simp, by simpa using h2, ?_, ?_, ?_⟩
      · intro x hx
        rcases List.mem_cons.mp hx with rfl | hx
        · exact ⟨hd, hc.1⟩
        · exact h3 x hx
      · intro m hm hle
        have hb := hc.2
        rw [hm] at hb
        simp only [below, decide_eq_true_eq] at hb
        have := h4 m hm (by simp only [List.length_append, List.length_cons, List.length_nil]; omega)
        simpa using this
      · intro hm i hi d' hd' hle
        rcases List.mem_cons.mp hi with rfl | hi
        · rw [hd] at hd'; cases hd'; simp
        · exact List.mem_cons_of_mem _ (h5 hm i hi d' hd' hle)
    · have hstep : rangePush p G acc j = acc := by
        unfold rangePush
        cases hd : G.dist j with
        | none => rfl
        | some d =>
          have hc : ¬ (leOpt d p.outer && below acc.1.length p.maxReturned) = true :=
            fun h => hp ⟨d, hd, h⟩
          simp only [hc]; rfl
      rw [hstep]
      obtain ⟨add, h1, h2, h3, h4, h5⟩ := ih acc
      refine ⟨add, h1, h2.cons j, h3, h4, ?_⟩
      intro hm i hi d' hd' hle
      rcases List.mem_cons.mp hi with rfl | hi
      · exfalso; apply hp
        refine ⟨d', hd', ?_⟩
        rw [hm, hle]; rfl
      · exact h5 hm i hi d' hd' hle

/-- Invariant of the second phase. `first` is the in-range list it started from. -/
structure RInv (p : RangeParams D) (G : Graph I D) (R : I → Prop) (first : List (I × D))
    (s : RangeSt I D) : Prop where
  vis : s.visited.Nodup
  ids : (s.inRange.map (·.1)).Nodup
  sub : ∀ x ∈ s.inRange, x.1 ∈ s.visited
  dist : ∀ x ∈ s.inRange, G.dist x.1 = some x.2
  reach : ∀ x ∈ s.visited, R x
  front : ∀ x ∈ s.frontier, x ∈ s.visited
  max : ∀ m, p.maxReturned = some m → s.inRange.length ≤ m
  pre : ∀ x ∈ first, x ∈ s.inRange
  new : ∀ x ∈ s.inRange, x ∈ first ∨ leOpt x.2 p.outer = true
  seen : p.maxReturned = none → ∀ i ∈ s.visited, ∀ d, G.dist i = some d → leOpt d p.outer = true →
    (i, d) ∈ s.inRange
  closed : p.maxReturned = none → ∀ x ∈ s.inRange, x.1 ∈ s.frontier ∨ ∀ y ∈ G.adj x.1, y ∈ s.visited

theorem rangeRound_inv (p : RangeParams D) (G : Graph I D) {R : I → Prop}
    (hR : ∀ x y, R x → y ∈ G.adj x → R y) (first : List (I × D)) (s : RangeSt I D)
    (h : RInv p G R first s) : RInv p G R first (rangeRound p G s) := by
  obtain ⟨f1, f2, f3, f4⟩ := forward_spec s.visited ((s.frontier.take p.beam).flatMap G.adj) h.vis
  obtain ⟨add, a1, a2, a3, a4, a5⟩ := rangePush_fold p G
    (forward s.visited ((s.frontier.take p.beam).flatMap G.adj)).2 (s.inRange, s.frontier.drop p.beam)
  unfold rangeRound expandBeam
  simp only [a1]
  set new := (forward s.visited ((s.frontier.take p.beam).flatMap G.adj)).2 with hnew
  have f2' := List.nodup_append.mp f2
  have hadd : ∀ x ∈ add, x.1 ∈ new := fun x hx => a2.subset (List.mem_map.mpr ⟨x, hx, rfl⟩)
  constructor <;> simp only
  · rw [f1]; exact f2
  · rw [List.map_append, List.nodup_append]
    refine ⟨h.ids, f2'.2.1.sublist a2, ?_⟩
    intro a ha b hb hab
    subst hab
    obtain ⟨x, hx, rfl⟩ := List.mem_map.mp ha
    exact f2'.2.2 _ (h.sub x hx) _ (a2.subset hb) rfl
  · intro x hx
    rw [f1, List.mem_append]
    rcases List.mem_append.mp hx with hx | hx
    · exact Or.inl (h.sub x hx)
    · exact Or.inr (hadd x hx)
  · intro x hx
    rcases List.mem_append.mp hx with hx | hx
    · exact h.dist x hx
    · exact (a3 x hx).1
  · intro x hx
    rw [f1, List.mem_append] at hx
    rcases hx with hx | hx
    · exact h.reach x hx
    · obtain ⟨y, hy, hxy⟩ := List.mem_flatMap.mp (f4 x hx)
      exact hR y x (h.reach y (h.front y (List.mem_of_mem_take hy))) hxy
  · intro x hx
    rw [f1, List.mem_append]
    rcases List.mem_append.mp hx with hx | hx
    · exact Or.inl (h.front x (List.mem_of_mem_drop hx))
    · exact Or.inr (a2.subset hx)
  · intro m hm; exact a4 m hm (h.max m hm)
  · intro x hx; exact List.mem_append_left _ (h.pre x hx)
  · intro x hx
    rcases List.mem_append.mp hx with hx | hx
    · exact h.new x hx
    · exact Or.inr (a3 x hx).2
  · intro hm i hi d hd hle
    rw [f1, List.mem_append] at hi
    rcases hi with hi | hi
    · exact List.mem_append_left _ (h.seen hm i hi d hd hle)
    · exact List.mem_append_right _ (a5 hm i hi d hd hle)
  · intro hm x hx
    rcases List.mem_append.mp hx with hx | hx
    · rcases h.closed hm x hx with hf | hf
      · rw [← List.take_append_drop p.beam s.frontier, List.mem_append] at hf
        rcases hf with hf | hf
        · right
          intro y hy
          exact f3 y (List.mem_flatMap.mpr ⟨x.1, hf, hy⟩)
        · left; exact List.mem_append_left _ hf
      · right; intro y hy; rw [f1]; exact List.mem_append_left _ (hf y hy)
    · left; exact List.mem_append_right _ (List.mem_map.mpr ⟨x, hx, rfl⟩)

theorem rangeLoop_spec (p : RangeParams D) (G : Graph I D) {R : I → Prop}
    (hR : ∀ x y, R x → y ∈ G.adj x → R y) (V : List I) (hV : ∀ x, R x → x ∈ V)
    (hb : 1 ≤ p.beam) (first : List (I × D)) (fuel : Nat) (s : RangeSt I D)
    (h : RInv p G R first s)
    (hf : s.frontier.length + (V.filter fun v => decide (v ∉ s.visited)).length < fuel) :
    ∃ t, rangeLoop p G fuel s = some t ∧ RInv p G R first t ∧
      (t.frontier = [] ∨ ∃ m, p.maxReturned = some m ∧ m ≤ t.inRange.length) ∧
      ∃ new, t.computed = s.computed ++ new ∧ t.cmps = s.cmps + new.length := by
  induction fuel generalizing s with
  | zero => omega
  | succ fuel ih =>
    unfold rangeLoop
    by_cases hc : (decide (s.frontier ≠ []) && below s.inRange.length p.maxReturned) = true
    · rw [if_pos hc]
      simp only [Bool.and_eq_true, decide_eq_true_eq] at hc
      have hinv := rangeRound_inv p G hR first s h
      obtain ⟨f1, f2, f3, f4⟩ := forward_spec s.visited ((s.frontier.take p.beam).flatMap G.adj) h.vis
      obtain ⟨add, a1, a2, -, -, -⟩ := rangePush_fold p G
        (forward s.visited ((s.frontier.take p.beam).flatMap G.adj)).2 (s.inRange, s.frontier.drop p.beam)
      have f2' := List.nodup_append.mp f2
      have hlt : (rangeRound p G s).frontier.length +
          (V.filter fun v => decide (v ∉ (rangeRound p G s).visited)).length < fuel := by
        have e1 : (rangeRound p G s).frontier = s.frontier.drop p.beam ++ add.map (·.1) := by
          unfold rangeRound expandBeam; simp only [a1]
        have e2 : (rangeRound p G s).visited = s.visited ++
            (forward s.visited ((s.frontier.take p.beam).flatMap G.adj)).2 := f1
        have hadd : add.length ≤ (forward s.visited ((s.frontier.take p.beam).flatMap G.adj)).2.length := by
          have := a2.length_le; simpa using this
        have := filter_notMem_add V s.visited
          (forward s.visited ((s.frontier.take p.beam).flatMap G.adj)).2 f2'.2.1
          (fun x hx => hV x (hinv.reach x (by rw [e2]; exact List.mem_append_right _ hx)))
          (fun x hx hm => f2'.2.2 x hm x hx rfl)
        have hpos : 0 < s.frontier.length := List.length_pos_of_ne_nil hc.1
        rw [e1, e2]
        simp only [List.length_append, List.length_drop, List.length_map]
        omega
      obtain ⟨t, b1, b2, b3, new, b4, b5⟩ := ih _ hinv hlt
      refine ⟨t, b1, b2, b3, (forward s.visited ((s.frontier.take p.beam).flatMap G.adj)).2 ++ new, ?_, ?_⟩
      · rw [b4]; unfold rangeRound expandBeam; simp
      · rw [b5]; unfold rangeRound expandBeam; simp only [List.length_append]; omega
    · rw [if_neg hc]
      refine ⟨s, rfl, h, ?_, [], by simp, by simp⟩
      simp only [Bool.and_eq_true, decide_eq_true_eq, not_and] at hc
      by_cases hfr : s.frontier = []
      · exact Or.inl hfr
      · right
        have := hc hfr
        unfold below at this
        split at this
        · rename_i m hm
          exact ⟨m, hm, by simpa using this⟩
        · simp at this

/-- Full specification of the traversal. -/
theorem range_spec (pad : D) (G : Graph I D) (V starts : List I) (p : RangeParams D)
    (stop : Nat → Bool) (hG : FiniteGraph V G.adj starts) (hn : starts.Nodup) (hp : p.valid = true)
    (fuel : Nat) (hf : V.length + p.startingL < fuel) :
    ∃ s r, knnTraverse pad G starts p.startingL p.beam stop fuel = some s ∧
      rangeTraverse pad G starts p stop fuel = some r ∧
      (r.inRange.map (·.1)).Nodup ∧ (∀ x ∈ r.inRange, G.dist x.1 = some x.2 ∧ Reach G.adj starts x.1) ∧
      (∀ m, p.maxReturned = some m → r.inRange.length ≤ m) ∧
      (∀ x ∈ firstInRange p s, x ∈ r.inRange) ∧
      (∀ x ∈ r.inRange, x ∈ firstInRange p s ∨ leOpt x.2 p.outer = true) ∧
      r.stats.secondRound = (decide (p.need ≤ (firstInRange p s).length) &&
        below (firstInRange p s).length p.maxReturned) ∧
      (r.stats.secondRound = true → p.maxReturned = none →
        ∀ y d, ReachVia G.adj (fun x => (∃ d, (x, d) ∈ firstInRange p s) ∨ ∃ d, G.dist x = some d ∧ leOpt d p.outer = true)
          ((firstInRange p s).map (·.1)) y → G.dist y = some d → leOpt d p.outer = true → (y, d) ∈ r.inRange) ∧
      (r.stats.secondRound = false → r.stats.cmps = r.computed.length ∧ r.stats.hops = r.expanded.length) := by
  unfold RangeParams.valid at hp
  simp only [Bool.and_eq_true, decide_eq_true_eq] at hp
  obtain ⟨⟨hb, hl⟩, hm⟩ := hp
  obtain ⟨s, new, h1, h2, h3, ⟨q1, q2, q3, q4⟩, h5, h6, h7, h8, h9, h10⟩ := knn_spec pad G starts p.startingL
    p.beam stop
    (R := Reach G.adj starts) (fun x y hx _ he => .step hx he) (fun x hx => .start hx) V
    (reach_mem hG) hn hl hb fuel (by omega)
  have hiter := iter_eq_contents s.best h3 (by rw [q2, q3])
  have hidn : (s.best.iter.map (·.1)).Nodup := by
    rw [hiter]
    have := h2.ids_nodup
    unfold Queue.contents
    simpa [Function.comp_def] using this
  have hfsub : (firstInRange p s).Sublist s.best.iter :=
    (List.filter_sublist).trans (List.take_sublist _ _)
  have hfn : ((firstInRange p s).map (·.1)).Nodup := hidn.sublist (hfsub.map _)
  have hfd : ∀ x ∈ firstInRange p s, G.dist x.1 = some x.2 ∧ x.1 ∈ s.visited := by
    intro x hx
    have := hfsub.subset hx
    rw [hiter] at this
    obtain ⟨e, he, rfl⟩ := List.mem_map.mp this
    exact ⟨h2.ids_dist e he, h2.ids_visited e he⟩
  have hfl : (firstInRange p s).length ≤ p.startingL := by
    unfold firstInRange
    refine Nat.le_trans (List.length_filter_le _ _) ?_
    simp
  have hfm : ∀ m, p.maxReturned = some m → (firstInRange p s).length ≤ m := by
    intro m hmm
    rw [hmm] at hm
    simp only [decide_eq_true_eq] at hm
    omega
  unfold rangeTraverse
  simp only [h1]
  by_cases hc : (decide (p.need ≤ (firstInRange p s).length) && below (firstInRange p s).length p.maxReturned) = true
  · rw [if_pos hc]
    obtain ⟨t, a1, a2, a3, new', a4, a5⟩ := rangeLoop_spec p G (R := Reach G.adj starts)
      (fun x y hx he => .step hx he) V (reach_mem hG) hb (firstInRange p s) fuel
      { inRange := firstInRange p s, frontier := (firstInRange p s).map (·.1),
        visited := (firstInRange p s).map (·.1), cmps := s.cmps, hops := s.hops, computed := s.computed, expanded := s.expanded }
      (by
        constructor <;> simp only
        · exact hfn
        · exact hfn
        · intro x hx; exact List.mem_map.mpr ⟨x, hx, rfl⟩
        · intro x hx; exact (hfd x hx).1
        · intro x hx
          obtain ⟨y, hy, rfl⟩ := List.mem_map.mp hx
          exact h2.reach _ (hfd y hy).2
        · exact fun x hx => hx
        · exact hfm
        · exact fun x hx => hx
        · exact fun x hx => Or.inl hx
        · intro _ i hi d hd _
          obtain ⟨y, hy, rfl⟩ := List.mem_map.mp hi
          have := (hfd y hy).1
          rw [hd] at this; cases this
          exact hy
        · intro _ x hx; left; exact List.mem_map.mpr ⟨x, hx, rfl⟩)
      (by
        have := List.length_filter_le (fun v => decide (v ∉ (firstInRange p s).map (·.1))) V
        simp only [List.length_map]; omega)
    rw [a1]
    refine ⟨s, _, rfl, rfl, a2.ids, fun x hx => ⟨a2.dist x hx, a2.reach _ (a2.sub x hx)⟩, a2.max, a2.pre,
      a2.new, by simp only [hc], ?_, by simp⟩
    intro _ hmax y d hy hd hle
    have hfr : t.frontier = [] := by
      rcases a3 with h | ⟨m, hm', -⟩
      · exact h
      · rw [hmax] at hm'; cases hm'
    have hcl : ∀ x ∈ t.inRange, ∀ z ∈ G.adj x.1, z ∈ t.visited := by
      intro x hx
      rcases a2.closed hmax x hx with h | h
      · rw [hfr] at h; simp at h
      · exact h
    have hvis : y ∈ t.visited := by
      clear hd hle
      induction hy with
      | start h =>
        obtain ⟨x, hx, rfl⟩ := List.mem_map.mp h
        exact a2.sub x (a2.pre x hx)
      | step _ hpp he ih =>
        rcases hpp with ⟨d', hd'⟩ | ⟨d', hd', hle'⟩
        · exact hcl _ (a2.pre _ hd') _ he
        · exact hcl _ (a2.seen hmax _ ih d' hd' hle') _ he
    exact a2.seen hmax y hvis d hd hle
  · rw [if_neg hc]
    refine ⟨s, _, rfl, rfl, hfn, fun x hx => ⟨(hfd x hx).1, h2.reach _ (hfd x hx).2⟩, hfm, fun x hx => hx,
      fun x hx => Or.inl hx, ?_, by simp, ?_⟩
    · simp only [Bool.not_eq_true] at hc; rw [hc]
    · intro _; exact ⟨h7, h8⟩

/-! ## C17 -/

/-- **C17.** With validated parameters, for every finite graph, slack, early-stop behaviour and
post-processing selection, a range search ends without panic, and every id it outputs has its true
distance, lies within the outer radius, not within the inner radius, and is reachable; no id is output
twice; and at most `max_returned` ids are output. -/
theorem C17_range_search_sound (pad : D) (G : Graph I D) (V starts : List I) (p : RangeParams D)
    (stop : Nat → Bool) (hG : FiniteGraph V G.adj starts) (hn : starts.Nodup) (hp : p.valid = true)
    (fuel : Nat) (hf : V.length + p.startingL < fuel) (post : I → Bool) :
    ∃ r, rangeTraverse pad G starts p stop fuel = some r ∧
      (∀ x ∈ rangeOutput p post r, G.dist x.1 = some x.2 ∧ Reach G.adj starts x.1 ∧
        (∃ rad, p.radius = some rad ∧ x.2 ≤ rad) ∧ (∀ inn, p.inner = some inn → inn < x.2)) ∧
      ((rangeOutput p post r).map (·.1)).Nodup ∧
      (∀ m, p.maxReturned = some m → (rangeOutput p post r).length ≤ m) := by
  obtain ⟨s, r, h1, h2, h3, h4, h5, -⟩ := range_spec pad G V starts p stop hG hn hp fuel hf
  have hsub : (rangeOutput p post r).Sublist r.inRange := List.filter_sublist.trans List.filter_sublist
  refine ⟨r, h2, ?_, h3.sublist (hsub.map _), fun m hm => Nat.le_trans hsub.length_le (h5 m hm)⟩
  intro x hx
  obtain ⟨a, b⟩ := h4 x (hsub.subset hx)
  refine ⟨a, b, ?_⟩
  unfold rangeOutput at hx
  rw [List.mem_filter] at hx
  have hk := hx.2
  unfold rangeKeep at hk
  split at hk
  · simp at hk
  · rename_i hin
    constructor
    · unfold leOpt at hk
      split at hk
      · rename_i rad hr; exact ⟨rad, hr, by simpa using hk⟩
      · simp at hk
    · intro inn hi
      unfold leOpt at hin
      rw [hi] at hin
      simpa using hin

/-- C17, completeness of the second phase. The hits are the entries among the first `starting_l` of the
first-phase list that lie within the radius. The second phase runs exactly when there are enough of them.
When it runs and there is no maximum, the in-range list contains every vertex within `radius * range_slack`
that is connected to a hit by a path whose earlier vertices are hits or themselves within
`radius * range_slack`; it contains every hit; and it contains nothing but such vertices and hits. -/
theorem C17_range_expansion_complete (pad : D) (G : Graph I D) (V starts : List I) (p : RangeParams D)
    (stop : Nat → Bool) (hG : FiniteGraph V G.adj starts) (hn : starts.Nodup) (hp : p.valid = true)
    (fuel : Nat) (hf : V.length + p.startingL < fuel) (hmax : p.maxReturned = none) :
    ∃ s r, ∃ hits : List (I × D), knnTraverse pad G starts p.startingL p.beam stop fuel = some s ∧
      rangeTraverse pad G starts p stop fuel = some r ∧
      hits.Sublist (s.best.iter.take p.startingL) ∧
      (∀ x, x ∈ hits ↔ x ∈ s.best.iter.take p.startingL ∧ ∃ rad, p.radius = some rad ∧ x.2 ≤ rad) ∧
      r.stats.secondRound = decide (p.need ≤ hits.length) ∧
      (r.stats.secondRound = true → ∀ y d,
        ReachVia G.adj (fun x => (∃ d, (x, d) ∈ hits) ∨
            ∃ d, G.dist x = some d ∧ ∃ o, p.outer = some o ∧ d ≤ o)
          (hits.map (·.1)) y → G.dist y = some d → (∃ o, p.outer = some o ∧ d ≤ o) → (y, d) ∈ r.inRange) ∧
      (∀ x ∈ hits, x ∈ r.inRange) ∧
      (∀ x ∈ r.inRange, x ∈ hits ∨ ∃ o, p.outer = some o ∧ x.2 ≤ o) := by
  obtain ⟨s, r, h1, h2, h3, h4, h5, h6, h7, h8, h9, -⟩ := range_spec pad G V starts p stop hG hn hp fuel hf
  have hle : ∀ (d : D) (o : Option D), leOpt d o = true ↔ ∃ m, o = some m ∧ d ≤ m := by
    intro d o
    unfold leOpt
    cases o <;> simp
  refine ⟨s, r, firstInRange p s, h1, h2, List.filter_sublist, ?_, ?_, ?_, h6, ?_⟩
  · intro x
    unfold firstInRange
    rw [List.mem_filter, hle]
  · rw [h8, hmax]
    simp [below]
  · intro hs y d hy hd ho
    refine h9 hs hmax y d ?_ hd ((hle _ _).2 ho)
    simpa only [hle] using hy
  · intro x hx
    rw [← hle]
    exact h7 x hx

/-! ## C59: reported statistics -/

/-- **C59 (partial).** When the second phase does not run, the reported comparison and hop counts are the
number of distance computations and expansions performed. Missing: the same when it does run — see
`C59_second_round_stats_wrong`. -/
theorem C59_first_round_stats_partial (pad : D) (G : Graph I D) (V starts : List I) (p : RangeParams D)
    (stop : Nat → Bool) (hG : FiniteGraph V G.adj starts) (hn : starts.Nodup) (hp : p.valid = true)
    (fuel : Nat) (hf : V.length + p.startingL < fuel) :
    ∃ r, rangeTraverse pad G starts p stop fuel = some r ∧
      (r.stats.secondRound = false → r.stats.cmps = r.computed.length ∧ r.stats.hops = r.expanded.length) := by
  obtain ⟨s, r, h1, h2, h3, h4, h5, h6, h7, h8, h9, h10⟩ := range_spec pad G V starts p stop hG hn hp fuel hf
  exact ⟨r, h2, h10⟩

/-- A line 0 → 1 → 2 → 3 all within the radius; start list of length 1. -/
def lineG : Graph Nat Rat where
  adj := fun | 0 => [1] | 1 => [2] | 2 => [3] | _ => []
  dist := fun | 0 => some 1 | 1 => some 2 | 2 => some 3 | 3 => some 4 | _ => none

def lineP : RangeParams Rat :=
  { maxReturned := none, startingL := 1, beam := 1, radius := some 5, inner := none,
    outer := some (5 * 1), need := 1 }

/-- **C59 is violated by the code**: when the second phase runs, the reported comparison count leaves out
the second phase, and the reported hop count counts the first phase's hops twice. -/
theorem C59_second_round_stats_wrong :
    ∃ r, rangeTraverse 0 lineG [0] lineP (fun _ => false) 10 = some r ∧ r.stats.secondRound = true ∧
      r.stats.cmps = 3 ∧ r.computed.length = 6 ∧ r.stats.hops = 8 ∧ r.expanded.length = 6 := by
  have h : ∃ r, rangeTraverse 0 lineG [0] lineP (fun _ => false) 10 = some r := by
    have : (rangeTraverse 0 lineG [0] lineP (fun _ => false) 10).isSome = true := by decide +kernel
    exact Option.isSome_iff_exists.mp this
  obtain ⟨r, hr⟩ := h
  refine ⟨r, hr, ?_⟩
  have : (rangeTraverse 0 lineG [0] lineP (fun _ => false) 10).map
      (fun r => (r.stats, r.computed.length, r.expanded.length)) = some (⟨3, 8, true⟩, 6, 6) := by
    decide +kernel
  rw [hr] at this
  simp only [Option.map_some, Option.some.injEq, Prod.mk.injEq] at this
  obtain ⟨h1, h2, h3⟩ := this
  rw [h1]
  exact ⟨rfl, rfl, h2, rfl, h3⟩

/-! ### The slack factor with a negative radius -/

/-- 0 → 1 → 2, with negative (inner-product style) distances. -/
def negG : Graph Nat Rat where
  adj := fun | 0 => [1] | 1 => [2] | _ => []
  dist := fun | 0 => some (-30) | 1 => some (-15) | 2 => some (-12) | _ => none

def negP (slack : Rat) : RangeParams Rat :=
  { maxReturned := none, startingL := 1, beam := 1, radius := some (-10), inner := none,
    outer := some (-10 * slack), need := 1 }

/-- **Disagreement.** A slack factor of at least 1 is meant to widen the expansion; with a negative radius
(inner-product distances) it narrows it: raising the slack from 1 to 2 loses results 1 and 2, which are
both within the radius. -/
theorem C17_slack_narrows_negative_radius :
    (rangeTraverse 0 negG [0] (negP 1) (fun _ => false) 10).map (fun r => rangeOutput (negP 1) (fun _ => true) r)
      = some [(0, -30), (1, -15), (2, -12)] ∧
    (rangeTraverse 0 negG [0] (negP 2) (fun _ => false) 10).map (fun r => rangeOutput (negP 2) (fun _ => true) r)
      = some [(0, -30)] := by
  constructor <;> decide +kernel

/-! ### Non-vacuity -/

theorem lineG_finite : FiniteGraph [0, 1, 2, 3] lineG.adj [0] := by
  constructor
  · simp
  · decide

example := C17_range_search_sound 0 lineG [0, 1, 2, 3] [0] lineP (fun _ => false) lineG_finite (by simp)
  (by decide) 6 (by decide) (fun _ => true)

example := C17_range_expansion_complete 0 lineG [0, 1, 2, 3] [0] lineP (fun _ => false) lineG_finite (by simp)
  (by decide) 6 (by decide) rfl

/-- With an inner radius of 2 and at most two results. -/
example : (rangeTraverse 0 lineG [0] { lineP with maxReturned := some 3, inner := some 2 } (fun _ => false) 10).map
    (fun r => rangeOutput { lineP with maxReturned := some 3, inner := some 2 } (fun _ => true) r)
      = some [(2, 3)] := by
  decide +kernel

end Verif.Search
