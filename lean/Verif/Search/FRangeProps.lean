import Verif.Search.FilterProps
import Verif.Search.RangeProps

/-!
# C67: filtered range search

`ok` is the filter, `srt` any function satisfying the contract of `sort_unstable_by` (`IsSort`), `stop` the
answers of `terminate_early`, `post` an arbitrary selection made by post-processing.
-/

namespace Verif.Search

open Verif.Queue

variable {I D : Type} [DecidableEq I] [LinearOrder D]

/-! ### Helper lemmas -/

theorem leOpt_iff (d : D) (o : Option D) : leOpt d o = true ↔ ∃ m, o = some m ∧ d ≤ m := by
  unfold leOpt
  cases o <;> simp

theorem mem_matchedWithin (p : RangeParams D) (m : List (I × Option D)) (i : I) (d : D) :
    (i, d) ∈ matchedWithin p m ↔ (i, some d) ∈ m ∧ leOpt d p.radius = true := by
  unfold matchedWithin
  rw [List.mem_filterMap]
  constructor
  · rintro ⟨⟨j, o⟩, h1, h2⟩
    cases o with
    | none => simp at h2
    | some e =>
      simp only at h2
      split at h2
      · simp only [Option.some.injEq, Prod.mk.injEq] at h2
        obtain ⟨rfl, rfl⟩ := h2
        rename_i h; exact ⟨h1, h⟩
      · simp at h2
  · rintro ⟨h1, h2⟩
    exact ⟨(i, some d), h1, by simp [h2]⟩

theorem matchedWithin_ids (p : RangeParams D) (m : List (I × Option D)) :
    ((matchedWithin p m).map (·.1)).Sublist (m.map (·.1)) := by
  induction m with
  | nil => simp [matchedWithin]
  | cons x m ih =>
    unfold matchedWithin at ih ⊢
    rw [List.filterMap_cons, List.map_cons]
    split
    · exact ih.cons _
    · rename_i b hb
      rw [List.map_cons]
      have : b.1 = x.1 := by
        split at hb
        · split at hb
          · simp only [Option.some.injEq] at hb; rw [← hb]
          · simp at hb
        · simp at hb
      rw [this]
      exact ih.cons_cons _

theorem dedupAdj_spec [LinearOrder I] (l : List (I × D)) (hs : l.Pairwise totalLe)
    (hf : ∀ a ∈ l, ∀ b ∈ l, a.1 = b.1 → a = b) :
    (∀ x, x ∈ dedupAdj l ↔ x ∈ l) ∧ ((dedupAdj l).map (·.1)).Nodup := by
  induction l using dedupAdj.induct with
  | case1 => simp [dedupAdj]
  | case2 x => simp [dedupAdj]
  | case3 x y l hxy ih =>
    have e : x = y := hf x (by simp) y (by simp) hxy
    subst e
    rw [dedupAdj, if_pos rfl]
    obtain ⟨h1, h2⟩ := ih (List.pairwise_cons.mp hs).2
      (fun a ha b hb => hf a (List.mem_cons_of_mem _ ha) b (List.mem_cons_of_mem _ hb))
    refine ⟨fun z => ?_, h2⟩
    rw [h1]; simp
  | case4 x y l hxy ih =>
    rw [dedupAdj, if_neg hxy]
    have hs' := List.pairwise_cons.mp hs
    obtain ⟨h1, h2⟩ := ih hs'.2
      (fun a ha b hb => hf a (List.mem_cons_of_mem _ ha) b (List.mem_cons_of_mem _ hb))
    refine ⟨fun z => by rw [List.mem_cons, h1, List.mem_cons (l := y :: l)], ?_⟩
    rw [List.map_cons, List.nodup_cons]
    refine ⟨?_, h2⟩
    intro hm
    obtain ⟨z, hz, hzx⟩ := List.mem_map.mp hm
    rw [h1] at hz
    have hzx' : z = x := hf z (List.mem_cons_of_mem _ hz) x (by simp) hzx
    subst hzx'
    have hle := hs'.1 y (by simp)
    rcases List.mem_cons.mp hz with rfl | hz'
    · exact hxy rfl
    · have hge := (List.pairwise_cons.mp hs'.2).1 z hz'
      unfold totalLe at hle hge
      rcases hle with h | ⟨h, h'⟩
      · rcases hge with g | ⟨g, g'⟩
        · exact lt_asymm h g
        · rw [g] at h; exact lt_irrefl _ h
      · rcases hge with g | ⟨g, g'⟩
        · rw [h] at g; exact lt_irrefl _ g
        · exact hxy (le_antisymm h' g')

/-- The merged list of the first phase. -/
theorem frangeFirst_spec [LinearOrder I] (p : RangeParams D) (G : Graph I D) (best : List (I × D))
    (m : List (I × Option D)) (hb : ∀ x ∈ best, G.dist x.1 = some x.2)
    (hm : ∀ x ∈ m, G.dist x.1 = x.2) :
    ((frangeFirst p best m).map (·.1)).Nodup ∧
    ∀ x : I × D, x ∈ frangeFirst p best m ↔
      leOpt x.2 p.radius = true ∧ (x ∈ best.take p.startingL ∨ (x.1, some x.2) ∈ m) := by
  haveI : Std.Total (totalLe (I := I) (D := D)) := ⟨fun a b => by
    unfold totalLe
    rcases lt_trichotomy a.2 b.2 with h | h | h
    · exact Or.inl (Or.inl h)
    · rcases le_total a.1 b.1 with g | g
      · exact Or.inl (Or.inr ⟨h, g⟩)
      · exact Or.inr (Or.inr ⟨h.symm, g⟩)
    · exact Or.inr (Or.inl h)⟩
  haveI : IsTrans (I × D) (totalLe (I := I) (D := D)) := ⟨fun a b c h1 h2 => by
    unfold totalLe at *
    rcases h1 with h1 | ⟨h1, h1'⟩
    · rcases h2 with h2 | ⟨h2, h2'⟩
      · exact Or.inl (lt_trans h1 h2)
      · exact Or.inl (h2 ▸ h1)
    · rcases h2 with h2 | ⟨h2, h2'⟩
      · exact Or.inl (h1 ▸ h2)
      · exact Or.inr ⟨h1.trans h2, le_trans h1' h2'⟩⟩
  have hp := List.perm_insertionSort (totalLe (I := I) (D := D))
    ((best.take p.startingL).filter (fun x => leOpt x.2 p.radius) ++ matchedWithin p m)
  have hd : ∀ a ∈ ((best.take p.startingL).filter (fun x => leOpt x.2 p.radius) ++
      matchedWithin p m).insertionSort totalLe, G.dist a.1 = some a.2 := by
    intro a ha
    rw [hp.mem_iff, List.mem_append] at ha
    rcases ha with ha | ha
    · exact hb a (List.mem_of_mem_take (List.mem_of_mem_filter ha))
    · exact hm _ ((mem_matchedWithin p m a.1 a.2).mp ha).1
  obtain ⟨d1, d2⟩ := dedupAdj_spec _ (List.pairwise_insertionSort (totalLe (I := I) (D := D))
    ((best.take p.startingL).filter (fun x => leOpt x.2 p.radius) ++ matchedWithin p m)) (by
      intro a ha b hb' hab
      have h1 := hd a ha
      have h2 := hd b hb'
      rw [hab, h2] at h1
      exact Prod.ext hab (Option.some.inj h1).symm)
  refine ⟨d2, ?_⟩
  intro x
  unfold frangeFirst
  rw [d1, hp.mem_iff, List.mem_append, List.mem_filter, show x = (x.1, x.2) from rfl, mem_matchedWithin]
  constructor
  · rintro (⟨a, b⟩ | ⟨a, b⟩)
    · exact ⟨b, Or.inl a⟩
    · exact ⟨b, Or.inr a⟩
  · rintro ⟨a, b | b⟩
    · exact Or.inl ⟨b, a⟩
    · exact Or.inr ⟨b, a⟩

/-- What `frangePush` over a list of newly seen ids does. -/
theorem frangePush_fold (p : RangeParams D) (G : Graph I D) (ok : I → Bool) (new : List I)
    (acc : List (I × D) × List I) :
    ∃ add fr, (new.foldl (frangePush p G ok) acc) = (acc.1 ++ add, acc.2 ++ fr) ∧
      (add.map (·.1)).Sublist new ∧ fr = new.filter (fun i => (G.dist i).any fun d => leOpt d p.outer) ∧
      (∀ x ∈ add, G.dist x.1 = some x.2 ∧ leOpt x.2 p.radius = true ∧ ok x.1 = true) ∧
      (∀ m, p.maxReturned = some m → (acc.1 ++ add).length ≤ max m acc.1.length) ∧
      (p.maxReturned = none → ∀ i ∈ new, ∀ d, G.dist i = some d → leOpt d p.outer = true →
        leOpt d p.radius = true → ok i = true → (i, d) ∈ add) := by
  induction new generalizing acc with
  | nil => exact ⟨[], [], by simp, by simp, by simp, by simp, fun m _ => by simp, by simp⟩
  | cons j new ih =>
    rw [List.foldl_cons]
    cases hd : G.dist j with
    | none =>
      have hstep : frangePush p G ok acc j = acc := by unfold frangePush; rw [hd]
      rw [hstep]
      obtain ⟨add, fr, h1, h2, h3, h4, h5, h6⟩ := ih acc
      refine ⟨add, fr, h1, h2.cons j, by rw [h3, List.filter_cons]; simp [hd], h4, h5, ?_⟩
      intro hm i hi d' hd'
      rcases List.mem_cons.mp hi with rfl | hi
      · rw [hd] at hd'; cases hd'
      · exact h6 hm i hi d' hd'
    | some d =>
      by_cases ho : leOpt d p.outer = true
      · by_cases hr : (leOpt d p.radius && ok j && below acc.1.length p.maxReturned) = true
        · have hstep : frangePush p G ok acc j = (acc.1 ++ [(j, d)], acc.2 ++ [j]) := by
            unfold frangePush; rw [hd]; simp only [ho, hr, if_true]
          rw [hstep]
          simp only [Bool.and_eq_true] at hr
          obtain ⟨add, fr, h1, h2, h3, h4, h5, h6⟩ := ih (acc.1 ++ [(j, d)], acc.2 ++ [j])
          refine ⟨(j, d) :: add, j :: fr, by rw [h1]; simp, by simpa using h2,
            by rw [h3, List.filter_cons]; simp [hd, ho], ?_, ?_, ?_⟩
          · intro x hx
            rcases List.mem_cons.mp hx with rfl | hx
            · exact ⟨hd, hr.1.1, hr.1.2⟩
            · exact h4 x hx
          · intro m hm
            have := h5 m hm
            have hb := hr.2
            rw [hm] at hb
            simp only [below, decide_eq_true_eq] at hb
            simp only [List.length_append, List.length_cons, List.length_nil] at this ⊢
            omega
          · intro hm i hi d' hd' h7 h8 h9
            rcases List.mem_cons.mp hi with rfl | hi
            · rw [hd] at hd'; cases hd'; simp
            · exact List.mem_cons_of_mem _ (h6 hm i hi d' hd' h7 h8 h9)
        · have hstep : frangePush p G ok acc j = (acc.1, acc.2 ++ [j]) := by
            unfold frangePush; rw [hd]; simp only [ho, if_true, if_neg hr]
          rw [hstep]
          obtain ⟨add, fr, h1, h2, h3, h4, h5, h6⟩ := ih (acc.1, acc.2 ++ [j])
          refine ⟨add, j :: fr, by rw [h1]; simp, h2.cons j,
            by rw [h3, List.filter_cons]; simp [hd, ho], h4, h5, ?_⟩
          intro hm i hi d' hd' h7 h8 h9
          rcases List.mem_cons.mp hi with rfl | hi
          · rw [hd] at hd'; cases hd'
            exfalso; apply hr
            rw [h8, h9, hm]; rfl
          · exact h6 hm i hi d' hd' h7 h8 h9
      · have hstep : frangePush p G ok acc j = acc := by
          unfold frangePush; rw [hd]; simp only [if_neg ho]
        rw [hstep]
        obtain ⟨add, fr, h1, h2, h3, h4, h5, h6⟩ := ih acc
        refine ⟨add, fr, h1, h2.cons j, by rw [h3, List.filter_cons]; simp [hd, ho], h4, h5, ?_⟩
        intro hm i hi d' hd' h7
        rcases List.mem_cons.mp hi with rfl | hi
        · rw [hd] at hd'; cases hd'; exact absurd h7 ho
        · exact h6 hm i hi d' hd' h7

/-- Invariant of the second phase; `first` is the in-range list of the first phase, `mw` its matches. -/
structure FRInv (p : RangeParams D) (G : Graph I D) (R : I → Prop) (ok : I → Bool) (F : Nat)
    (first mw : List (I × D)) (s : FRangeSt I D) : Prop where
  vis : s.visited.Nodup
  ids : (s.matched.map (·.1)).Nodup
  sub : ∀ x ∈ s.matched, x.1 ∈ s.visited
  good : ∀ x ∈ s.matched, G.dist x.1 = some x.2 ∧ leOpt x.2 p.radius = true ∧ ok x.1 = true
  reach : ∀ x ∈ s.visited, R x
  front : ∀ x ∈ s.frontier, x ∈ s.visited
  max : ∀ m, p.maxReturned = some m → s.matched.length ≤ max m mw.length
  pre : mw <+: s.matched
  first_sub : ∀ x ∈ first, x.1 ∈ s.visited
  seen : p.maxReturned = none → ∀ i ∈ s.visited, ∀ d, G.dist i = some d → ok i = true →
    leOpt d p.radius = true → (leOpt d p.outer = true ∨ (i, d) ∈ first) → (i, d) ∈ s.matched
  closed : ∀ x ∈ s.visited, (x ∈ first.map (·.1) ∨ ∃ d, G.dist x = some d ∧ leOpt d p.outer = true) →
    x ∈ s.frontier ∨ ∀ y ∈ G.adj x, y ∈ s.visited
  cmps : s.cmps + F = s.computed.length
  hops : s.hops = s.expanded.length

theorem frangeRound_inv (p : RangeParams D) (G : Graph I D) {R : I → Prop}
    (hR : ∀ x y, R x → y ∈ G.adj x → R y) (ok : I → Bool) (F : Nat) (first mw : List (I × D)) (s : FRangeSt I D)
    (h : FRInv p G R ok F first mw s) : FRInv p G R ok F first mw (frangeRound p G ok s) ∧
      ∃ new fr, (frangeRound p G ok s).visited = s.visited ++ new ∧ (s.visited ++ new).Nodup ∧
        (frangeRound p G ok s).frontier = s.frontier.drop p.beam ++ fr ∧ fr.length ≤ new.length := by
  obtain ⟨f1, f2, f3, f4⟩ := forward_spec s.visited ((s.frontier.take p.beam).flatMap G.adj) h.vis
  obtain ⟨add, fr, a1, a2, a3, a4, a5, a6⟩ := frangePush_fold p G ok
    (forward s.visited ((s.frontier.take p.beam).flatMap G.adj)).2 (s.matched, s.frontier.drop p.beam)
  unfold frangeRound expandBeam
  simp only [a1]
  set new := (forward s.visited ((s.frontier.take p.beam).flatMap G.adj)).2 with hnew
  have f2' := List.nodup_append.mp f2
  have hadd : ∀ x ∈ add, x.1 ∈ new := fun x hx => a2.subset (List.mem_map.mpr ⟨x, hx, rfl⟩)
  have hfr : ∀ x ∈ fr, x ∈ new := fun x hx => by rw [a3] at hx; exact List.mem_of_mem_filter hx
  have hnewv : ∀ x ∈ new, x ∉ s.visited := fun x hx hm => f2'.2.2 x hm x hx rfl
  refine ⟨?_, new, fr, f1, f2, rfl, by rw [a3]; exact List.length_filter_le _ _⟩
  constructor <;> simp only
  · rw [f1]; exact f2
  · rw [List.map_append, List.nodup_append]
    refine ⟨h.ids, f2'.2.1.sublist a2, ?_⟩
    intro a ha b hb hab
    subst hab
    obtain ⟨x, hx, rfl⟩ := List.mem_map.mp ha
    exact f2'.2.2 _ (h.sub x hx) _ (a2.subset hb) rfl
  · intro x hx
    rw [f1, List.mem_append]
    rcases List.mem_append.mp hx with hx | hx
    · exact Or.inl (h.sub x hx)
    · exact Or.inr (hadd x hx)
  · intro x hx
    rcases List.mem_append.mp hx with hx | hx
    · exact h.good x hx
    · exact a4 x hx
  · intro x hx
    rw [f1, List.mem_append] at hx
    rcases hx with hx | hx
    · exact h.reach x hx
    · obtain ⟨y, hy, hxy⟩ := List.mem_flatMap.mp (f4 x hx)
      exact hR y x (h.reach y (h.front y (List.mem_of_mem_take hy))) hxy
  · intro x hx
    rw [f1, List.mem_append]
    rcases List.mem_append.mp hx with hx | hx
    · exact Or.inl (h.front x (List.mem_of_mem_drop hx))
    · exact Or.inr (hfr x hx)
  · intro m hm
    have := a5 m hm
    have := h.max m hm
    simp only [List.length_append] at *
    omega
  · exact h.pre.trans (List.prefix_append _ _)
  · intro x hx; rw [f1]; exact List.mem_append_left _ (h.first_sub x hx)
  · intro hm i hi d hd hok hle ho
    rw [f1, List.mem_append] at hi
    rcases hi with hi | hi
    · exact List.mem_append_left _ (h.seen hm i hi d hd hok hle ho)
    · rcases ho with ho | ho
      · exact List.mem_append_right _ (a6 hm i hi d hd ho hle hok)
      · exact absurd (h.first_sub _ ho) (hnewv i hi)
  · intro x hx hq
    rw [f1, List.mem_append] at hx
    rcases hx with hx | hx
    · rcases h.closed x hx hq with hf | hf
      · rw [← List.take_append_drop p.beam s.frontier, List.mem_append] at hf
        rcases hf with hf | hf
        · right
          intro y hy
          exact f3 y (List.mem_flatMap.mpr ⟨x, hf, hy⟩)
        · left; exact List.mem_append_left _ hf
      · right; intro y hy; rw [f1]; exact List.mem_append_left _ (hf y hy)
    · left
      refine List.mem_append_right _ ?_
      rcases hq with hq | ⟨d, hd, hq⟩
      · obtain ⟨z, hz, rfl⟩ := List.mem_map.mp hq
        exact absurd (h.first_sub _ hz) (hnewv _ hx)
      · rw [a3, List.mem_filter]
        exact ⟨hx, by rw [hd]; simpa using hq⟩
  · rw [List.length_append, ← h.cmps]; omega
  · rw [List.length_append, h.hops]

theorem frangeLoop_spec (p : RangeParams D) (G : Graph I D) {R : I → Prop}
    (hR : ∀ x y, R x → y ∈ G.adj x → R y) (V : List I) (hV : ∀ x, R x → x ∈ V) (ok : I → Bool) (F : Nat)
    (hb : 1 ≤ p.beam) (first mw : List (I × D)) (fuel : Nat) (s : FRangeSt I D)
    (h : FRInv p G R ok F first mw s)
    (hf : s.frontier.length + (V.filter fun v => decide (v ∉ s.visited)).length < fuel) :
    ∃ t, frangeLoop p G ok fuel s = some t ∧ FRInv p G R ok F first mw t ∧
      (t.frontier = [] ∨ ∃ m, p.maxReturned = some m ∧ m ≤ t.matched.length) := by
  induction fuel generalizing s with
  | zero => omega
  | succ fuel ih =>
    unfold frangeLoop
    by_cases hc : (decide (s.frontier ≠ []) && below s.matched.length p.maxReturned) = true
    · rw [if_pos hc]
      simp only [Bool.and_eq_true, decide_eq_true_eq] at hc
      obtain ⟨hinv, new, fr, e1, e2, e3, e4⟩ := frangeRound_inv p G hR ok F first mw s h
      refine ih _ hinv ?_
      have f2' := List.nodup_append.mp e2
      have := filter_notMem_add V s.visited new f2'.2.1
        (fun x hx => hV x (hinv.reach x (by rw [e1]; exact List.mem_append_right _ hx)))
        (fun x hx hm => f2'.2.2 x hm x hx rfl)
      have hpos : 0 < s.frontier.length := List.length_pos_of_ne_nil hc.1
      rw [e1, e3]
      simp only [List.length_append, List.length_drop]
      omega
    · rw [if_neg hc]
      refine ⟨s, rfl, h, ?_⟩
      simp only [Bool.and_eq_true, decide_eq_true_eq, not_and] at hc
      by_cases hfr : s.frontier = []
      · exact Or.inl hfr
      · right
        have := hc hfr
        unfold below at this
        split at this
        · rename_i m hm
          exact ⟨m, hm, by simpa using this⟩
        · simp at this

/-- Full specification of the traversal. -/
theorem frange_spec [LinearOrder I] (pad : D) (G : Graph I D) (ok : I → Bool) (V starts : List I)
    (p : RangeParams D) (stop : Nat → Bool) (srt : List (I × Option D) → Option (List (I × Option D)))
    (hs : IsSort srt) (hG : FiniteGraph V G.adj starts) (hn : starts.Nodup) (hp : p.valid = true)
    (fuel : Nat) (hf : V.length < fuel)
    (hnp : ∀ xs, srt xs ≠ none) :
    ∃ t r m, inlineTraverse pad G ok starts ⟨p.startingL, p.beam, none, fun _ _ => 1, 0⟩ stop fuel = some t ∧
      srt t.matched = some m ∧
      frangeTraverse pad G ok starts p stop srt fuel = some r ∧
      (r.matched.map (·.1)).Nodup ∧
      (∀ x ∈ r.matched, G.dist x.1 = some x.2 ∧ leOpt x.2 p.radius = true ∧ ok x.1 = true ∧
        Reach G.adj starts x.1) ∧
      (∀ x ∈ t.scratch.computed, Reach G.adj starts x) ∧
      (∀ i d, i ∈ t.scratch.computed → ok i = true → G.dist i = some d → leOpt d p.radius = true →
        (i, d) ∈ r.matched) ∧
      matchedWithin p m <+: r.matched ∧
      r.stats.cmps + starts.length = r.computed.length ∧ r.stats.hops = r.expanded.length ∧
      (∀ x : I × D, x ∈ frangeFirst p t.scratch.best.iter m ↔ leOpt x.2 p.radius = true ∧
        (x ∈ t.scratch.best.iter.take p.startingL ∨
          (x.1 ∈ t.scratch.computed ∧ ok x.1 = true ∧ G.dist x.1 = some x.2))) ∧
      ((frangeFirst p t.scratch.best.iter m).map (·.1)).Nodup ∧
      (∀ x ∈ t.scratch.best.iter, G.dist x.1 = some x.2) ∧
      r.stats.secondRound = (decide (p.need ≤ (frangeFirst p t.scratch.best.iter m).length) &&
        below (matchedWithin p m).length p.maxReturned) ∧
      (r.stats.secondRound = true → p.maxReturned = none → ∀ y d,
        ReachVia G.adj (fun x => (∃ d, (x, d) ∈ frangeFirst p t.scratch.best.iter m) ∨
            ∃ d, G.dist x = some d ∧ leOpt d p.outer = true)
          ((frangeFirst p t.scratch.best.iter m).map (·.1)) y →
        G.dist y = some d → ok y = true → leOpt d p.radius = true → leOpt d p.outer = true →
        (y, d) ∈ r.matched) := by
  unfold RangeParams.valid at hp
  simp only [Bool.and_eq_true, decide_eq_true_eq] at hp
  obtain ⟨⟨hb, hl⟩, -⟩ := hp
  obtain ⟨t, h1, h2, h3, -⟩ := inline_spec pad G (fixedQ_stable pad G (p.startingL + starts.length)) ok starts
    ⟨p.startingL, p.beam, none, fun _ _ => 1, 0⟩ stop
    (R := Reach G.adj starts) (fun x y hx _ he => .step hx he) (fun x hx => .start hx) V
    (reach_mem hG) hn (fun a ha => by cases ha) hl hb (fun h => absurd rfl h)
    (by refine ⟨rfl, rfl, rfl, ?_⟩; simp [Queue.new, Queue.contents, bestOf, comparable]) fuel hf
  obtain ⟨m, hm⟩ := Option.ne_none_iff_exists'.mp (hnp t.matched)
  have hperm := hs.perm _ _ hm
  have hRc : ∀ x ∈ t.scratch.computed, Reach G.adj starts x := fun x hx =>
    h2.core.reach x (by rw [h2.vis]; exact hx)
  have hcn : t.scratch.computed.Nodup := by rw [← h2.vis]; exact h2.core.nodup
  have hmm : ∀ i o, (i, o) ∈ m ↔ i ∈ t.scratch.computed ∧ ok i = true ∧ G.dist i = o := by
    intro i o; rw [hperm.mem_iff, h2.matched, mem_acceptedOf]
  have hiter : ∀ x ∈ t.scratch.best.iter, x.1 ∈ t.scratch.computed ∧ G.dist x.1 = some x.2 := by
    intro x hx
    rw [iter_eq_contents _ h2.inv (by rw [h2.q.2.1, h2.q.2.2.1])] at hx
    obtain ⟨e, he, rfl⟩ := List.mem_map.mp hx
    exact ⟨by rw [← h2.vis]; exact h2.core.ids_visited e he, h2.core.ids_dist e he⟩
  obtain ⟨g1, g2⟩ := frangeFirst_spec p G t.scratch.best.iter m (fun x hx => (hiter x hx).2)
    (fun x hx => ((hmm x.1 x.2).mp hx).2.2)
  set first := frangeFirst p t.scratch.best.iter m with hfirst
  have g2' : ∀ x : I × D, x ∈ first ↔ leOpt x.2 p.radius = true ∧
        (x ∈ t.scratch.best.iter.take p.startingL ∨
          (x.1 ∈ t.scratch.computed ∧ ok x.1 = true ∧ G.dist x.1 = some x.2)) := by
    intro x; rw [g2, hmm]
  have hfc : ∀ x ∈ first, x.1 ∈ t.scratch.computed ∧ G.dist x.1 = some x.2 := by
    intro x hx
    rcases ((g2' x).mp hx).2 with h | h
    · exact hiter x (List.mem_of_mem_take h)
    · exact ⟨h.1, h.2.2⟩
  have hmw : ∀ i d, (i, d) ∈ matchedWithin p m ↔
      i ∈ t.scratch.computed ∧ ok i = true ∧ G.dist i = some d ∧ leOpt d p.radius = true := by
    intro i d; rw [mem_matchedWithin, hmm]; simp [and_assoc]
  have hmwn : ((matchedWithin p m).map (·.1)).Nodup := by
    refine List.Nodup.sublist (matchedWithin_ids p m) ?_
    rw [(hperm.map _).nodup_iff, h2.matched, acceptedOf_ids]; exact hcn.filter _
  unfold frangeTraverse
  simp only [h1, hm]
  by_cases hc : (decide (p.need ≤ first.length) && below (matchedWithin p m).length p.maxReturned) = true
  · rw [if_pos hc]
    obtain ⟨u, a1, a2, a3⟩ := frangeLoop_spec p G (R := Reach G.adj starts)
      (fun x y hx he => .step hx he) V (reach_mem hG) ok starts.length hb first (matchedWithin p m) fuel
      { matched := matchedWithin p m, frontier := first.map (·.1), visited := first.map (·.1),
        cmps := t.scratch.cmps, hops := t.scratch.hops, computed := t.scratch.computed,
        expanded := t.scratch.expanded }
      (by
        constructor <;> simp only
        · exact g1
        · exact hmwn
        · intro x hx
          obtain ⟨k1, k2, k3, k4⟩ := (hmw x.1 x.2).mp hx
          exact List.mem_map.mpr ⟨x, (g2' x).mpr ⟨k4, Or.inr ⟨k1, k2, k3⟩⟩, rfl⟩
        · intro x hx
          obtain ⟨k1, k2, k3, k4⟩ := (hmw x.1 x.2).mp hx
          exact ⟨k3, k4, k2⟩
        · intro x hx
          obtain ⟨y, hy, rfl⟩ := List.mem_map.mp hx
          exact hRc _ (hfc y hy).1
        · exact fun x hx => hx
        · intro m _; exact Nat.le_max_right _ _
        · exact List.prefix_refl _
        · intro x hx; exact List.mem_map.mpr ⟨x, hx, rfl⟩
        · intro _ i hi d hd hok hle _
          obtain ⟨y, hy, rfl⟩ := List.mem_map.mp hi
          exact (hmw _ _).mpr ⟨(hfc y hy).1, hok, hd, hle⟩
        · intro x hx _; left; exact hx
        · exact h2.cmps
        · exact h2.hops)
      (by
        have := filter_notMem_add V [] (first.map (·.1)) g1
          (fun x hx => by
            obtain ⟨y, hy, rfl⟩ := List.mem_map.mp hx
            exact reach_mem hG _ (hRc _ (hfc y hy).1)) (by simp)
        simp only [List.nil_append] at this
        have h3 := List.length_filter_le (fun v => decide (v ∉ ([] : List I))) V
        dsimp only
        omega)
    rw [a1]
    refine ⟨t, _, m, rfl, hm, rfl, a2.ids, ?_, hRc, ?_, a2.pre, a2.cmps, a2.hops, g2', g1,
      fun x hx => (hiter x hx).2, hc.symm, ?_⟩
    · intro x hx
      obtain ⟨k1, k2, k3⟩ := a2.good x hx
      exact ⟨k1, k2, k3, a2.reach _ (a2.sub x hx)⟩
    · intro i d hi hok hd hle
      exact a2.pre.subset ((hmw i d).mpr ⟨hi, hok, hd, hle⟩)
    · intro _ hmax y d hy hd hok hle ho
      have hfr : u.frontier = [] := by
        rcases a3 with h | ⟨m, hm', -⟩
        · exact h
        · rw [hmax] at hm'; cases hm'
      refine a2.seen hmax y ?_ d hd hok hle (Or.inl ho)
      clear hd hle ho hok
      induction hy with
      | start h =>
        obtain ⟨x, hx, rfl⟩ := List.mem_map.mp h
        exact a2.first_sub x hx
      | @step x z _ hpp he ih =>
        have := a2.closed x ih (by
          rcases hpp with ⟨d', hd'⟩ | h
          · exact Or.inl (List.mem_map.mpr ⟨_, hd', rfl⟩)
          · exact Or.inr h)
        rw [hfr] at this
        rcases this with h | h
        · simp at h
        · exact h _ he
  · rw [if_neg hc]
    refine ⟨t, _, m, rfl, hm, rfl, hmwn, ?_, hRc, ?_, List.prefix_refl _, h2.cmps, h2.hops, g2', g1,
      fun x hx => (hiter x hx).2, ?_, by simp⟩
    · intro x hx
      obtain ⟨k1, k2, k3, k4⟩ := (hmw x.1 x.2).mp hx
      exact ⟨k3, k4, k2, hRc _ k1⟩
    · intro i d hi hok hd hle; exact (hmw i d).mpr ⟨hi, hok, hd, hle⟩
    · simp only [Bool.not_eq_true] at hc; rw [hc]

/-! ## C67 -/

/-- **C67, soundness.** With validated parameters, for every finite graph, filter, slack, early-stop
behaviour and post-processing selection, provided the sort does not panic: a filtered range search ends
without panic; every id it outputs is accepted by the filter, has its true distance, lies within the
radius and not within the inner radius, and is reachable; no id is output twice; at most `max_returned`
ids are output; `hops` counts the expansions and `cmps` the distance computations other than those to
start points, over both phases. -/
theorem C67_filtered_range_sound [LinearOrder I] (pad : D) (G : Graph I D) (ok : I → Bool) (V starts : List I)
    (p : RangeParams D) (stop : Nat → Bool) (srt : List (I × Option D) → Option (List (I × Option D)))
    (hs : IsSort srt) (hG : FiniteGraph V G.adj starts) (hn : starts.Nodup) (hp : p.valid = true)
    (fuel : Nat) (hf : V.length < fuel) (hnp : ∀ xs, srt xs ≠ none) (post : I → Bool) :
    ∃ r, frangeTraverse pad G ok starts p stop srt fuel = some r ∧
      (∀ x ∈ frangeOutput p post r, ok x.1 = true ∧ G.dist x.1 = some x.2 ∧ Reach G.adj starts x.1 ∧
        (∃ rad, p.radius = some rad ∧ x.2 ≤ rad) ∧ (∀ inn, p.inner = some inn → inn < x.2)) ∧
      ((frangeOutput p post r).map (·.1)).Nodup ∧
      (∀ m, p.maxReturned = some m → (frangeOutput p post r).length ≤ m) ∧
      r.stats.cmps + starts.length = r.computed.length ∧ r.stats.hops = r.expanded.length := by
  obtain ⟨t, r, m, h1, h2, h3, h4, h5, h6, h7, h8, h9, h10, -⟩ := frange_spec pad G ok V starts p stop srt hs hG
    hn hp fuel hf hnp
  set cands := (match p.maxReturned with | some m => r.matched.take m | none => r.matched) with hcands
  have hO : frangeOutput p post r =
      (cands.filter fun x => post x.1).filter fun x => !leOpt x.2 p.inner := rfl
  have hcsub : cands.Sublist r.matched := by
    rw [hcands]; split
    · exact List.take_sublist _ _
    · exact List.Sublist.refl _
  have hsub : (frangeOutput p post r).Sublist r.matched := by
    rw [hO]; exact (List.filter_sublist.trans List.filter_sublist).trans hcsub
  refine ⟨r, h3, ?_, h4.sublist (hsub.map _), ?_, h9, h10⟩
  · intro x hx
    obtain ⟨a, b, c, d⟩ := h5 x (hsub.subset hx)
    refine ⟨c, a, d, (leOpt_iff _ _).mp b, ?_⟩
    intro inn hi
    rw [hO, List.mem_filter] at hx
    have := hx.2
    rw [hi] at this
    simpa [leOpt] using this
  · intro m hm
    rw [hO]
    refine le_trans (List.filter_sublist.trans List.filter_sublist).length_le ?_
    rw [hcands, hm]
    exact List.length_take_le _ _

/-- **C67, nothing evaluated is lost.** Every accepted vertex within the radius whose distance was computed
in the first phase is among the matches; if there is no maximum and no inner radius, it is output unless
post-processing drops it. -/
theorem C67_first_phase_matches_kept [LinearOrder I] (pad : D) (G : Graph I D) (ok : I → Bool)
    (V starts : List I) (p : RangeParams D) (stop : Nat → Bool)
    (srt : List (I × Option D) → Option (List (I × Option D)))
    (hs : IsSort srt) (hG : FiniteGraph V G.adj starts) (hn : starts.Nodup) (hp : p.valid = true)
    (fuel : Nat) (hf : V.length < fuel) (hnp : ∀ xs, srt xs ≠ none) :
    ∃ t r, inlineTraverse pad G ok starts ⟨p.startingL, p.beam, none, fun _ _ => 1, 0⟩ stop fuel = some t ∧
      frangeTraverse pad G ok starts p stop srt fuel = some r ∧
      ∀ i d, i ∈ t.scratch.computed → ok i = true → G.dist i = some d →
        (∃ rad, p.radius = some rad ∧ d ≤ rad) →
        (i, d) ∈ r.matched ∧ (p.maxReturned = none → p.inner = none → ∀ post : I → Bool, post i = true →
          (i, d) ∈ frangeOutput p post r) := by
  obtain ⟨t, r, m, h1, h2, h3, h4, h5, h6, h7, -⟩ := frange_spec pad G ok V starts p stop srt hs hG
    hn hp fuel hf hnp
  refine ⟨t, r, h1, h3, ?_⟩
  intro i d hi hok hd hle
  have := h7 i d hi hok hd ((leOpt_iff _ _).mpr hle)
  refine ⟨this, ?_⟩
  intro hm hin post hpost
  unfold frangeOutput
  rw [hm, hin]
  simp only [List.mem_filter]
  exact ⟨⟨this, hpost⟩, by simp [leOpt]⟩

/-- **C67, completeness of the second phase.** The hits are the vertices within the radius that are among
the first `starting_l` candidates of the first phase or were accepted in it. If there is no maximum, the
second phase runs exactly when there are enough hits, and then every accepted vertex within the radius
connected to a hit by a path whose earlier vertices — accepted or not — are hits or within
`radius * range_slack` is found (provided `radius * range_slack` is not smaller than `radius`). -/
theorem C67_second_phase_complete [LinearOrder I] (pad : D) (G : Graph I D) (ok : I → Bool)
    (V starts : List I) (p : RangeParams D) (stop : Nat → Bool)
    (srt : List (I × Option D) → Option (List (I × Option D)))
    (hs : IsSort srt) (hG : FiniteGraph V G.adj starts) (hn : starts.Nodup) (hp : p.valid = true)
    (fuel : Nat) (hf : V.length < fuel) (hnp : ∀ xs, srt xs ≠ none) (hmax : p.maxReturned = none)
    (rad outer : D) (hrad : p.radius = some rad) (houter : p.outer = some outer) (hwide : rad ≤ outer) :
    ∃ t r, ∃ hits : List (I × D),
      inlineTraverse pad G ok starts ⟨p.startingL, p.beam, none, fun _ _ => 1, 0⟩ stop fuel = some t ∧
      frangeTraverse pad G ok starts p stop srt fuel = some r ∧
      (hits.map (·.1)).Nodup ∧
      (∀ i d, (i, d) ∈ hits ↔ d ≤ rad ∧ ((i, d) ∈ t.scratch.best.iter.take p.startingL ∨
        (i ∈ t.scratch.computed ∧ ok i = true ∧ G.dist i = some d))) ∧
      r.stats.secondRound = decide (p.need ≤ hits.length) ∧
      (r.stats.secondRound = true → ∀ y d,
        ReachVia G.adj (fun x => (∃ d, (x, d) ∈ hits) ∨ ∃ d, G.dist x = some d ∧ d ≤ outer)
          (hits.map (·.1)) y → G.dist y = some d → ok y = true → d ≤ rad → (y, d) ∈ r.matched) := by
  obtain ⟨t, r, m, h1, h2, h3, h4, h5, h6, h7, h8, h9, h10, h11, h12, h13, h14, h15⟩ :=
    frange_spec pad G ok V starts p stop srt hs hG hn hp fuel hf hnp
  refine ⟨t, r, _, h1, h3, h12, ?_, ?_, ?_⟩
  · intro i d
    rw [h11, hrad]
    simp only [leOpt, decide_eq_true_eq]
  · rw [h14, hmax]; simp [below]
  · intro hsr y d hy hd hok hle
    refine h15 hsr hmax y d ?_ hd hok (by rw [hrad]; simpa [leOpt] using hle)
      (by rw [houter]; simpa [leOpt] using le_trans hle hwide)
    rw [houter]
    simpa [leOpt] using hy

/-! ## Concrete cases and departures -/

/-- A line 0 → 1 → 2 → 3 → 4; even vertices are accepted. -/
def fline : Graph Nat Int where
  adj := fun | 0 => [1] | 1 => [2] | 2 => [3] | 3 => [4] | _ => []
  dist := fun | 0 => some 5 | 1 => some 6 | 2 => some 7 | 3 => some 8 | 4 => some 9 | _ => none

theorem fline_finite : FiniteGraph [0, 1, 2, 3, 4] fline.adj [0] := by
  constructor <;> decide

def flineP : RangeParams Int :=
  { maxReturned := none, startingL := 1, beam := 1, radius := some 9, inner := none,
    outer := some 9, need := 1 }

theorem demoSort_total (xs : List (Nat × Option Int)) : demoSort xs ≠ none := by
  unfold demoSort; split <;> simp

example := C67_filtered_range_sound 0 fline (fun i => i % 2 == 0) [0, 1, 2, 3, 4] [0] flineP (fun _ => false)
  demoSort demoSort_isSort fline_finite (by simp) (by decide) 6 (by decide) demoSort_total (fun _ => true)

example := C67_first_phase_matches_kept 0 fline (fun i => i % 2 == 0) [0, 1, 2, 3, 4] [0] flineP
  (fun _ => false) demoSort demoSort_isSort fline_finite (by simp) (by decide) 6 (by decide) demoSort_total

example := C67_second_phase_complete 0 fline (fun i => i % 2 == 0) [0, 1, 2, 3, 4] [0] flineP
  (fun _ => false) demoSort demoSort_isSort fline_finite (by simp) (by decide) 6 (by decide) demoSort_total
  rfl 9 9 rfl rfl (by decide)

/-- The second phase finds 2 and 4 through the rejected 1 and 3. -/
example : (frangeTraverse 0 fline (fun i => i % 2 == 0) [0] flineP (fun _ => false) demoSort 6).map
    (fun r => (frangeOutput flineP (fun _ => true) r, r.stats.secondRound)) =
    some ([(0, 5), (2, 7), (4, 9)], true) := by decide +kernel

/-- **Disagreement.** The maximum is applied before the inner radius: matches inside the inner radius,
which are never output, use up `max_returned`. With an inner radius of 6 and at most one result, vertex 2
qualifies, and the search returns nothing. -/
theorem C67_inner_radius_uses_up_maximum :
    (frangeTraverse 0 fline (fun i => i % 2 == 0) [0] { flineP with maxReturned := some 1, inner := some 6 }
      (fun _ => false) demoSort 6).map
        (fun r => frangeOutput { flineP with maxReturned := some 1, inner := some 6 } (fun _ => true) r) =
      some [] ∧
    (frangeTraverse 0 fline (fun i => i % 2 == 0) [0] { flineP with inner := some 6 }
      (fun _ => false) demoSort 6).map
        (fun r => frangeOutput { flineP with inner := some 6 } (fun _ => true) r) =
      some [(2, 7), (4, 9)] := by
  constructor <;> decide +kernel

/-- 0 → 5, 6, 3 and 3 → 1, 2; only 1 (distance 9) and 2 (distance 1) are accepted. -/
def farG : Graph Nat Int where
  adj := fun | 0 => [5, 6, 3] | 3 => [1, 2] | _ => []
  dist := fun | 0 => some 0 | 5 => some 1 | 6 => some 2 | 3 => some 3 | 1 => some 9 | 2 => some 1 | _ => none

/-- **Limit.** With a maximum the results need not be the closest ones: the second phase stops as soon
as it has enough matches, whatever their distance. Here 2, at distance 1, is the neighbour after 1, at
distance 9, and only 1 is returned. -/
theorem C67_maximum_keeps_far_matches :
    (frangeTraverse 0 farG (fun i => i == 1 || i == 2) [0] { flineP with maxReturned := some 1 }
      (fun _ => false) demoSort 9).map
        (fun r => frangeOutput { flineP with maxReturned := some 1 } (fun _ => true) r) =
      some [(1, 9)] := by
  decide +kernel

end Verif.Search
