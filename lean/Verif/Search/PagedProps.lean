import Verif.Search.Props

/-! # C57: paged search -/

namespace Verif.Search

open Verif.Queue

variable {I D : Type} [DecidableEq I] [LinearOrder D]

/-- Ask for pages of the given sizes, one after the other; collects the pages (an error contributes
`none`). `none` is a panic or exhausted fuel. -/
def pages (pad : D) (G : Graph I D) (starts : List I) (stop : Nat → Bool) (fuel : Nat) :
    Paged I D → List Nat → Option (List (Option (List (I × D))) × Paged I D)
  | p, [] => some ([], p)
  | p, k :: ks =>
    match p.nextPage pad G starts stop fuel k with
    | none => none
    | some (r, p') =>
      match pages pad G starts stop fuel p' ks with
      | none => none
      | some (rs, p'') => some ((match r with | .error => none | .page xs => some xs) :: rs, p'')

/-- All results of a list of pages, in the order returned. -/
def allResults (rs : List (Option (List (I × D)))) : List (I × D) :=
  rs.flatMap fun r => match r with | some xs => xs | none => []

/-! ### Helper lemmas -/

theorem filterCandidates_spec (starts : List I) (k : Nat) (hk : 1 ≤ k) (xs acc : List (I × D)) (t : Nat)
    (hacc : acc.length < k) :
    ∃ m, m ≤ xs.length ∧ filterCandidates starts k xs acc t
        = (acc ++ (xs.take m).filter (fun x => decide (x.1 ∉ starts)), t + m) ∧
      (filterCandidates starts k xs acc t).1.length ≤ k ∧
      ((filterCandidates starts k xs acc t).1.length < k → m = xs.length) := by
  induction xs generalizing acc t with
  | nil => exact ⟨0, by simp, by simp [filterCandidates], by simp [filterCandidates]; omega, by simp⟩
  | cons x xs ih =>
    unfold filterCandidates
    by_cases hx : x.1 ∈ starts
    · rw [if_pos hx]
      obtain ⟨m, h1, h2, h3, h4⟩ := ih acc (t + 1) hacc
      refine ⟨m + 1, by simp [h1], ?_, h3, fun h => by simp [h4 h]⟩
      rw [h2, List.take_succ_cons, List.filter_cons]
      simp only [hx, not_true, decide_false, Bool.false_eq_true, if_false]
      congr 1; omega
    · rw [if_neg hx]
      simp only
      by_cases hfull : (acc ++ [x]).length ≥ k
      · rw [if_pos hfull]
        refine ⟨1, by simp, ?_, ?_, ?_⟩
        · simp [hx]
        · simp only [List.length_append, List.length_cons, List.length_nil]; omega
        · simp only; omega
      · rw [if_neg hfull]
        obtain ⟨m, h1, h2, h3, h4⟩ := ih (acc ++ [x]) (t + 1) (by omega)
        refine ⟨m + 1, by simp [h1], ?_, h3, fun h => by simp [h4 h]⟩
        rw [h2, List.take_succ_cons, List.filter_cons]
        simp only [hx, not_false_eq_true, decide_true, if_true]
        rw [List.append_assoc, List.singleton_append]
        congr 1; omega

/-- Invariant of a paged search; `drained` are the entries taken out of the candidate list so far,
`init` the (deduplicated) seed ids. -/
structure PInv (G : Graph I D) (R : I → Prop) (starts init : List I) (l : Nat) (strict : Prop)
    (drained : List (I × D)) (p : Paged I D) : Prop where
  core : Core G R p.scratch
  winv : WInv p.scratch.best
  autoQ : AutoQ G (l + starts.length) drained p.scratch.best p.scratch.computed
  visited : p.scratch.visited = init ++ p.scratch.computed
  next : p.next = p.computedResult.length
  l_eq : p.l = l
  done : strict → ∀ x ∈ drained, x.1 ∈ p.scratch.expanded
  init_closed : ∀ x ∈ init, ∀ y ∈ G.adj x, y ∈ p.scratch.visited

theorem iter_prefix (q : Queue I D) : q.iter <+: q.contents := by
  unfold Queue.iter Queue.contents
  exact (List.take_prefix _ _).map _

theorem nextPage_spec (pad : D) (G : Graph I D) (starts init : List I) (l k : Nat) (stop : Nat → Bool)
    {R : I → Prop} (hR : ∀ x y, R x → G.dist x ≠ none → y ∈ G.adj x → R y) (V : List I)
    (hV : ∀ x, R x → x ∈ V) (hinit : init ≠ []) (hsn : starts.Nodup) (fuel : Nat) (hf : V.length + 1 < fuel)
    (hk1 : 1 ≤ k) (hkl : k ≤ l) (p : Paged I D) (drained : List (I × D))
    (h : PInv G R starts init l (∀ m, stop m = false) drained p) :
    ∃ page p' taken, p.nextPage pad G starts stop fuel k = some (.page page, p') ∧
      PInv G R starts init l (∀ m, stop m = false) (drained ++ taken) p' ∧
      page = taken.filter (fun x => decide (x.1 ∉ starts)) ∧
      page.length ≤ k ∧ taken.Pairwise (fun a b => a.2 ≤ b.2) ∧
      ((∀ m, stop m = false) → page.length < k →
        p'.scratch.best.entries = [] ) := by
  have hvis : p.scratch.visited ≠ [] := by
    rw [h.visited]; intro h0; exact hinit (List.append_eq_nil_iff.mp h0).1
  have hnoc : min k (p.computedResult.length - p.next) = 0 := by rw [h.next]; simp
  obtain ⟨s, new, nodes, b1, b2, b3, b4, b5, b6, b7, b8⟩ :=
    searchLoop_spec_weak pad G (autoQ_stable pad G (l + starts.length) drained) hR V hV 1 (Nat.le_refl 1) stop
      fuel 0 p.scratch h.core h.winv h.autoQ hf
  obtain ⟨m, c1, c2, c3, c4⟩ := filterCandidates_spec starts k hk1 s.best.iter [] 0 (by simp only [List.length_nil]; omega)
  simp only [List.nil_append, Nat.zero_add] at c2
  rw [c2] at c3 c4
  simp only at c3 c4
  have hpre := iter_prefix s.best
  have hil : s.best.iter.length = min s.best.searchL s.best.size := by
    unfold Queue.iter; simp [Queue.size]
  have hmsize : m ≤ s.best.size := by omega
  have htake : s.best.iter.take m = s.best.contents.take m := by
    obtain ⟨rest, hr⟩ := hpre
    rw [← hr, List.take_append_of_le_length c1]
  have hsortc : s.best.contents.Pairwise (fun a b => a.2 ≤ b.2) := by
    unfold Queue.contents
    rw [List.pairwise_map]
    exact b4.sorted
  have hdc : (s.best.drainBest m).contents = s.best.contents.drop m := by
    unfold Queue.drainBest Queue.contents
    simp only [Nat.min_eq_left hmsize, List.map_drop]
  have hent : (s.best.drainBest m).entries = s.best.entries.drop m := by
    unfold Queue.drainBest
    simp only [Nat.min_eq_left hmsize]
  have hresult : p.nextPage pad G starts stop fuel k = some
      (.page ((s.best.iter.take m).filter fun x => decide (x.1 ∉ starts)),
        { p with scratch := { s with best := s.best.drainBest m },
                 computedResult := (s.best.iter.take m).filter fun x => decide (x.1 ∉ starts),
                 next := ((s.best.iter.take m).filter fun x => decide (x.1 ∉ starts)).length }) := by
    unfold Paged.nextPage
    rw [if_neg (by rw [h.l_eq]; omega), if_neg (by omega)]
    simp only [hnoc, Nat.lt_irrefl, if_false, false_and]
    unfold searchInternal
    rw [if_neg hvis, b1]
    simp only [c2, List.length_nil, Nat.not_lt_zero, gt_iff_lt, if_false, Nat.sub_zero, List.nil_append,
      Nat.min_eq_right c3, List.take_length]
  refine ⟨_, _, s.best.iter.take m, hresult, ?_, rfl, c3, ?_, ?_⟩
  · constructor <;> simp only
    · -- core
      constructor <;> simp only
      · exact b3.nodup
      · rw [hent]; exact b3.ids_nodup.sublist ((List.drop_sublist _ _).map _)
      · intro e he; rw [hent] at he; exact b3.ids_visited e (List.mem_of_mem_drop he)
      · intro e he; rw [hent] at he; exact b3.ids_dist e (List.mem_of_mem_drop he)
      · intro e he; rw [hent] at he; exact b3.flag e (List.mem_of_mem_drop he)
      · exact b3.exp_visited
      · exact b3.exp_closed
      · exact b3.reach
    · constructor
      · rw [hent]; exact b4.sorted.sublist (List.drop_sublist _ _)
      · exact b4.cap
      · have := b4.size_le
        unfold Queue.size at this ⊢
        rw [hent]
        simp only [List.length_drop]
        unfold Queue.drainBest
        simp only
        omega
      · unfold Queue.drainBest; simp
      · intro i hi hc
        unfold Queue.drainBest at hc
        simp at hc
    · refine ⟨b5.1, b5.2.1, ?_⟩
      rw [hdc, htake, List.append_assoc, List.take_append_drop]
      exact b5.2.2
    · rw [b2.visited, b2.computed, h.visited, List.append_assoc]
    · exact h.l_eq
    · intro hst x hx
      rcases List.mem_append.mp hx with hx | hx
      · rw [b2.expanded]; exact List.mem_append_left _ (h.done hst x hx)
      · have hnv : s.best.hasNotVisited = false := by
          rcases b8 with h | ⟨m, hm⟩
          · exact h
          · rw [hst m] at hm; cases hm
        unfold Queue.hasNotVisited at hnv
        simp only [decide_eq_false_iff_not] at hnv
        obtain ⟨i, hi, hxi⟩ := List.getElem_of_mem hx
        simp only [List.length_take] at hi
        have hei : i < s.best.entries.length := by
          have : s.best.entries.length = s.best.size := rfl
          omega
        have hv := b4.before i hei (by omega)
        have : x.1 = s.best.entries[i].id := by
          rw [← hxi]
          simp [Queue.iter]
        rw [this]
        exact (b3.flag _ (List.getElem_mem hei)).mp hv
    · intro x hx y hy
      rw [b2.visited]
      exact List.mem_append_left _ (h.init_closed x hx y hy)
  · rw [htake]; exact hsortc.sublist (List.take_sublist _ _)
  · intro hst hlt
    simp only
    have hm := c4 hlt
    rw [hent]
    apply List.drop_eq_nil_of_le
    have hes : s.best.entries.length = s.best.size := rfl
    have hiternd : (s.best.iter.map (·.1)).Nodup := by
      obtain ⟨rest, hr⟩ := hpre
      have := b3.ids_nodup
      have h2 : (s.best.contents.map (·.1)).Nodup := by
        unfold Queue.contents; simpa [Function.comp_def] using this
      rw [← hr, List.map_append, List.nodup_append] at h2
      exact h2.1
    -- at most `starts.length` entries of the window are start points
    have hcount : s.best.iter.length ≤
        (s.best.iter.filter fun x => decide (x.1 ∉ starts)).length + starts.length := by
      have hsplit := List.length_eq_length_filter_add (l := s.best.iter) (fun x => decide (x.1 ∉ starts))
      have : (s.best.iter.filter fun x => !decide (x.1 ∉ starts)).length ≤ starts.length := by
        rw [← List.length_map (f := (·.1))]
        apply List.Subperm.length_le
        apply List.subperm_of_subset
        · exact hiternd.sublist (List.filter_sublist.map _)
        · intro x hx
          obtain ⟨y, hy, rfl⟩ := List.mem_map.mp hx
          rw [List.mem_filter] at hy
          simpa using hy.2
      omega
    rw [hm, List.take_length] at hlt
    have hsl : s.best.searchL = l + starts.length := b5.2.1
    omega

/-- The outcome of any sequence of page requests. -/
theorem pages_spec (pad : D) (G : Graph I D) (starts init : List I) (l : Nat) (stop : Nat → Bool)
    {R : I → Prop} (hR : ∀ x y, R x → G.dist x ≠ none → y ∈ G.adj x → R y) (V : List I)
    (hV : ∀ x, R x → x ∈ V) (hinit : init ≠ []) (hsn : starts.Nodup) (fuel : Nat) (hf : V.length + 1 < fuel)
    (ks : List Nat) (p : Paged I D) (drained : List (I × D))
    (h : PInv G R starts init l (∀ m, stop m = false) drained p) :
    ∃ rs p' drained', pages pad G starts stop fuel p ks = some (rs, p') ∧
      PInv G R starts init l (∀ m, stop m = false) (drained ++ drained') p' ∧
      allResults rs = drained'.filter (fun x => decide (x.1 ∉ starts)) ∧
      rs.length = ks.length ∧
      (∀ i (h : i < rs.length) (h' : i < ks.length),
        (rs[i] = none ↔ ks[i] = 0 ∨ l < ks[i]) ∧
        ∀ page, rs[i] = some page → page.length ≤ ks[i] ∧ page.Pairwise (fun a b => a.2 ≤ b.2)) ∧
      ((∀ m, stop m = false) → ∀ pre k page, ks = pre ++ [k] → rs.getLast? = some (some page) →
        page.length < k → p'.scratch.best.entries = []) := by
  induction ks generalizing p drained with
  | nil => exact ⟨[], p, [], rfl, by simpa using h, rfl, rfl, by simp, by simp⟩
  | cons k ks ih =>
    by_cases hk : k = 0 ∨ l < k
    · have hstep : p.nextPage pad G starts stop fuel k = some (.error, p) := by
        unfold Paged.nextPage
        rw [h.l_eq]
        by_cases hk' : k > l
        · rw [if_pos hk']
        · rw [if_neg hk', if_pos (by omega)]
      obtain ⟨rs, p', dr', a1, a2, a3, a4, a5, a6⟩ := ih p drained h
      refine ⟨none :: rs, p', dr', ?_, a2, ?_, by simp [a4], ?_, ?_⟩
      · simp only [pages, hstep, a1]
      · rw [← a3]; simp [allResults]
      · intro i hi hi'
        cases i with
        | zero => simp [hk]
        | succ i => simpa using a5 i (by simpa using hi) (by simpa using hi')
      · intro hst pre k' page hks hlast
        cases pre with
        | nil =>
          simp only [List.nil_append, List.cons.injEq] at hks
          obtain ⟨rfl, rfl⟩ := hks
          simp only [List.length_nil, List.length_eq_zero_iff] at a4
          subst a4
          simp at hlast
        | cons a pre =>
          simp only [List.cons_append, List.cons.injEq] at hks
          have hne : rs ≠ [] := by
            intro h0; subst h0
            rw [hks.2] at a4; simp at a4
          rw [List.getLast?_cons, List.getLast?_eq_some_getLast hne] at hlast
          refine a6 hst pre k' page hks.2 ?_
          rw [List.getLast?_eq_some_getLast hne]
          simpa using hlast
    · have hk1 : 1 ≤ k := by omega
      have hk2 : k ≤ l := by omega
      obtain ⟨page, p1, taken, b1, b2, b3, b4, b5, b6⟩ :=
        nextPage_spec pad G starts init l k stop hR V hV hinit hsn fuel hf hk1 hk2 p drained h
      obtain ⟨rs, p', dr', a1, a2, a3, a4, a5, a6⟩ := ih p1 (drained ++ taken) b2
      refine ⟨some page :: rs, p', taken ++ dr', ?_, ?_, ?_, by simp [a4], ?_, ?_⟩
      · simp only [pages, b1, a1]
      · rw [← List.append_assoc]; exact a2
      · unfold allResults at a3 ⊢
        rw [List.flatMap_cons, a3, List.filter_append, b3]
      · intro i hi hi'
        cases i with
        | zero =>
          simp only [List.getElem_cons_zero]
          refine ⟨by simpa using hk, ?_⟩
          intro pg hpg
          simp only [Option.some.injEq] at hpg
          subst hpg
          exact ⟨b4, by rw [b3]; exact b5.sublist List.filter_sublist⟩
        | succ i => simpa using a5 i (by simpa using hi) (by simpa using hi')
      · intro hst pre k' page' hks hlast hlt
        cases pre with
        | nil =>
          simp only [List.nil_append, List.cons.injEq] at hks
          obtain ⟨rfl, rfl⟩ := hks
          simp only [List.length_nil, List.length_eq_zero_iff] at a4
          subst a4
          simp only [List.getLast?_singleton, Option.some.injEq] at hlast
          subst hlast
          simp only [pages, Option.some.injEq, Prod.mk.injEq] at a1
          rw [← a1.2]
          exact b6 hst hlt
        | cons a pre =>
          simp only [List.cons_append, List.cons.injEq] at hks
          have hne : rs ≠ [] := by
            intro h0; subst h0
            rw [hks.2] at a4; simp at a4
          rw [List.getLast?_cons, List.getLast?_eq_some_getLast hne] at hlast
          refine a6 hst pre k' page' hks.2 ?_ hlt
          rw [List.getLast?_eq_some_getLast hne]
          simpa using hlast

/-- The seed ids as a set. -/
def dedupInit (init : List I) : List I := init.foldl (fun v i => if i ∈ v then v else v ++ [i]) []

theorem dedup_fold (init v : List I) (hv : v.Nodup) :
    (init.foldl (fun v i => if i ∈ v then v else v ++ [i]) v).Nodup ∧
    ∀ x, x ∈ init.foldl (fun v i => if i ∈ v then v else v ++ [i]) v ↔ x ∈ v ∨ x ∈ init := by
  induction init generalizing v with
  | nil => simp [hv]
  | cons i init ih =>
    rw [List.foldl_cons]
    by_cases hi : i ∈ v
    · rw [if_pos hi]
      obtain ⟨h1, h2⟩ := ih v hv
      refine ⟨h1, fun x => ?_⟩
      rw [h2, List.mem_cons]
      constructor
      · rintro (h | h)
        · exact Or.inl h
        · exact Or.inr (Or.inr h)
      · rintro (h | rfl | h)
        · exact Or.inl h
        · exact Or.inl hi
        · exact Or.inr h
    · rw [if_neg hi]
      have hn : (v ++ [i]).Nodup := by
        rw [List.nodup_append]
        refine ⟨hv, by simp, ?_⟩
        intro a ha b hb hab
        simp only [List.mem_singleton] at hb
        subst hab; subst hb; exact hi ha
      obtain ⟨h1, h2⟩ := ih _ hn
      refine ⟨h1, fun x => ?_⟩
      rw [h2, List.mem_append, List.mem_singleton, List.mem_cons]
      tauto

theorem start_spec (pad : D) (G : Graph I D) (starts init : List I) (l : Nat) (dflt : I × D)
    {R : I → Prop} (hRi : ∀ x ∈ init, R x) (hRn : ∀ x ∈ init, ∀ y ∈ G.adj x, R y) (strict : Prop) :
    ∃ p, Paged.start pad G starts init l dflt = some p ∧
      PInv G R starts (dedupInit init) l strict [] p ∧ p.scratch.expanded = init := by
  obtain ⟨d1, d2⟩ := dedup_fold init ([] : List I) (by simp)
  obtain ⟨f1, f2, f3, f4⟩ := forward_spec (dedupInit init) (init.flatMap G.adj) d1
  have f2' := List.nodup_append.mp f2
  set new := (forward (dedupInit init) (init.flatMap G.adj)).2 with hnew
  obtain ⟨q', b1, b2, b3, b4, b5, b6, b7, b8, b9⟩ := insertAll_spec pad G
    (autoQ_stable pad G (l + starts.length) []) new (Queue.newAuto (l + starts.length)) [] init
    (newAuto_inv _) ⟨rfl, rfl, by simp [Queue.newAuto, Queue.contents, comparable]⟩ (by simp [Queue.newAuto])
    f2'.2.1 (by simp [Queue.newAuto])
    (by
      intro x hx hm
      exact f2'.2.2 x ((d2 x).mpr (Or.inr hm)) x hx rfl)
    (by simp [Queue.newAuto]) (by simp [Queue.newAuto])
  refine ⟨{ scratch := { best := q', visited := (forward (dedupInit init) (init.flatMap G.adj)).1, cmps := 0,
                         hops := 0, computed := new, expanded := init }
            computedResult := List.replicate l dflt, next := l, l := l }, ?_, ?_, rfl⟩
  · unfold Paged.start expandBeam
    simp only [dedupInit] at hnew b1 ⊢
    rw [← hnew, b1]
  · constructor <;> simp only
    · constructor <;> simp only
      · rw [f1]; exact f2
      · exact b6
      · intro e he
        rw [f1, List.mem_append]
        rcases b9 e he with h | h
        · exact Or.inr h
        · simp [Queue.newAuto] at h
      · exact b7
      · exact b8
      · intro x hx
        rw [f1, List.mem_append]; left
        exact (d2 x).mpr (Or.inr hx)
      · intro x hx y hy
        exact f3 y (List.mem_flatMap.mpr ⟨x, hx, hy⟩)
      · intro x hx
        rw [f1, List.mem_append] at hx
        rcases hx with hx | hx
        · rcases (d2 x).mp hx with h | h
          · simp at h
          · exact hRi x h
        · obtain ⟨y, hy, hxy⟩ := List.mem_flatMap.mp (f4 x hx)
          exact hRn y hy x hxy
    · exact b2.toW
    · simpa using b3
    · exact f1
    · simp
    · simp
    · intro x hx y hy
      rcases (d2 x).mp hx with h | h
      · simp at h
      · exact f3 y (List.mem_flatMap.mpr ⟨x, h, hy⟩)

/-! ## C57 -/

/-- **C57.** For every finite graph, every non-empty set of seed ids (the start points by default), every
early-stop behaviour and every sequence of requested page sizes: paging never panics; a request is
refused exactly when its size is zero or exceeds the list size; each page has at most the requested number
of results, in order of distance; across all pages no id is returned twice; and every result carries its
true distance, is reachable from the seeds, is not a start point — and, contrary to the comment in the
code, is never itself a seed id. -/
theorem C57_pages_sound (pad : D) (G : Graph I D) (V starts init : List I) (l : Nat) (dflt : I × D)
    (stop : Nat → Bool) (hG : FiniteGraph V G.adj init) (hinit : init ≠ []) (hsn : starts.Nodup)
    (fuel : Nat) (hf : V.length + 1 < fuel) (ks : List Nat) :
    ∃ p rs p', Paged.start pad G starts init l dflt = some p ∧
      pages pad G starts stop fuel p ks = some (rs, p') ∧ rs.length = ks.length ∧
      (∀ i (h : i < rs.length) (h' : i < ks.length),
        (rs[i] = none ↔ ks[i] = 0 ∨ l < ks[i]) ∧
        ∀ page, rs[i] = some page → page.length ≤ ks[i] ∧ page.Pairwise (fun a b => a.2 ≤ b.2)) ∧
      ((allResults rs).map (·.1)).Nodup ∧
      (∀ x ∈ allResults rs, G.dist x.1 = some x.2 ∧ Reach G.adj init x.1 ∧ x.1 ∉ starts ∧ x.1 ∉ init) := by
  obtain ⟨p, h1, h2, -⟩ := start_spec pad G starts init l dflt (R := Reach G.adj init)
    (fun x hx => .start hx) (fun x hx y hy => .step (.start hx) hy) (∀ m, stop m = false)
  obtain ⟨d1, d2⟩ := dedup_fold init ([] : List I) (by simp)
  have hdi : dedupInit init ≠ [] := by
    obtain ⟨x, hx⟩ := List.exists_mem_of_ne_nil _ hinit
    exact List.ne_nil_of_mem ((d2 x).mpr (Or.inr hx))
  obtain ⟨rs, p', dr, a1, a2, a3, a4, a5, -⟩ := pages_spec pad G starts (dedupInit init) l stop
    (R := Reach G.adj init) (fun x y hx _ he => .step hx he) V (reach_mem hG) hdi hsn fuel hf ks p [] h2
  simp only [List.nil_append] at a2
  have hnd := a2.core.nodup
  rw [a2.visited, List.nodup_append] at hnd
  have hperm := a2.autoQ.2.2
  have hdrids : (dr.map (·.1)).Nodup := by
    have hc : ((comparable (p'.scratch.computed.map fun i => (i, G.dist i))).map (·.1)).Nodup := by
      rw [comparable_map_ids]; exact hnd.2.1.filter _
    have := ((hperm.map (·.1)).nodup_iff).mpr hc
    rw [List.map_append, List.nodup_append] at this
    exact this.1
  refine ⟨p, rs, p', h1, a1, a4, a5, ?_, ?_⟩
  · rw [a3]; exact hdrids.sublist (List.filter_sublist.map _)
  · rintro ⟨i, d⟩ hx
    rw [a3, List.mem_filter] at hx
    have hm := hperm.mem_iff.mp (List.mem_append_left _ hx.1)
    rw [comparable_map] at hm
    refine ⟨hm.2, a2.core.reach i (by rw [a2.visited]; exact List.mem_append_right _ hm.1), by simpa using hx.2, ?_⟩
    intro hi
    exact hnd.2.2 i ((d2 i).mpr (Or.inr hi)) i hm.1 rfl

/-- **C57, exhaustion.** Without early stops: as soon as some page comes back with fewer results than
asked for (in particular empty), everything has been returned: every vertex reachable from the seeds
through vertices with comparable distance, other than seeds and start points, is in some page. -/
theorem C57_short_page_means_exhausted (pad : D) (G : Graph I D) (V starts init : List I) (l : Nat)
    (dflt : I × D) (hG : FiniteGraph V G.adj init) (hinit : init ≠ []) (hsn : starts.Nodup)
    (fuel : Nat) (hf : V.length + 1 < fuel) (pre : List Nat) (k : Nat) :
    ∃ p rs p', Paged.start pad G starts init l dflt = some p ∧
      pages pad G starts (fun _ => false) fuel p (pre ++ [k]) = some (rs, p') ∧
      ∀ page, rs.getLast? = some (some page) → page.length < k →
        ∀ y d, ReachVia G.adj (fun x => x ∈ init ∨ G.dist x ≠ none) init y → G.dist y = some d →
          y ∉ init → y ∉ starts → (y, d) ∈ allResults rs := by
  obtain ⟨p, h1, h2, h3⟩ := start_spec pad G starts init l dflt (R := Reach G.adj init)
    (fun x hx => .start hx) (fun x hx y hy => .step (.start hx) hy) (∀ m : Nat, (fun _ => false) m = false)
  obtain ⟨d1, d2⟩ := dedup_fold init ([] : List I) (by simp)
  have hdi : dedupInit init ≠ [] := by
    obtain ⟨x, hx⟩ := List.exists_mem_of_ne_nil _ hinit
    exact List.ne_nil_of_mem ((d2 x).mpr (Or.inr hx))
  obtain ⟨rs, p', dr, a1, a2, a3, a4, a5, a6⟩ := pages_spec pad G starts (dedupInit init) l (fun _ => false)
    (R := Reach G.adj init) (fun x y hx _ he => .step hx he) V (reach_mem hG) hdi hsn fuel hf (pre ++ [k]) p [] h2
  simp only [List.nil_append] at a2
  refine ⟨p, rs, p', h1, a1, ?_⟩
  intro page hlast hlt y d hy hd hyi hys
  have hempty := a6 (fun _ => rfl) pre k page rfl hlast hlt
  have hperm := a2.autoQ.2.2
  have hcont : p'.scratch.best.contents = [] := by unfold Queue.contents; rw [hempty]; rfl
  rw [hcont, List.append_nil] at hperm
  have hexp : ∀ x, x ∈ p'.scratch.computed → G.dist x ≠ none → x ∈ p'.scratch.expanded := by
    intro x hx hxd
    obtain ⟨dx, hdx⟩ := Option.ne_none_iff_exists'.mp hxd
    exact a2.done (by simp) _ (hperm.mem_iff.mpr ((comparable_map G _ x dx).mpr ⟨hx, hdx⟩))
  have hin : ∀ x, x ∈ init → x ∈ p'.scratch.visited := by
    intro x hx
    rw [a2.visited]; exact List.mem_append_left _ ((d2 x).mpr (Or.inr hx))
  have hvis : ∀ x, ReachVia G.adj (fun x => x ∈ init ∨ G.dist x ≠ none) init x → x ∈ p'.scratch.visited := by
    intro x hx
    induction hx with
    | start h => exact hin _ h
    | step _ hp he ih =>
      rw [a2.visited] at ih
      rcases List.mem_append.mp ih with h | h
      · rcases (d2 _).mp h with h | h
        · simp at h
        · exact a2.init_closed _ ((d2 _).mpr (Or.inr h)) _ he
      · rcases hp with hp | hp
        · exact a2.init_closed _ ((d2 _).mpr (Or.inr hp)) _ he
        · exact a2.core.exp_closed _ (hexp _ h hp) _ he
  have hyv := hvis y hy
  rw [a2.visited] at hyv
  rcases List.mem_append.mp hyv with h | h
  · rcases (d2 y).mp h with h | h
    · simp at h
    · exact absurd h hyi
  · rw [a3, List.mem_filter]
    refine ⟨hperm.mem_iff.mpr ((comparable_map G _ y d).mpr ⟨h, hd⟩), by simpa using hys⟩

/-- The demo graph with vertex 1 nearest to the query. -/
def seedG : Graph Nat Int := { demoG' with dist := fun x => if x = 1 then some (-5) else demoG'.dist x }

/-- **Disagreement.** The comment in `paged_search_with_init_ids` says the given ids "are real points, and
shouldn't be excluded from candidates". They are excluded: here the seed 1 is the nearest vertex of all, and
paging to exhaustion never returns it. -/
theorem C57_seed_ids_never_returned :
    seedG.dist 1 = some (-5) ∧
    ((Paged.start 0 seedG [0] [1] 3 (0, 0)).bind fun p =>
      (pages 0 seedG [0] (fun _ => false) 10 p [2, 2, 2]).map (·.1)) =
        some [some [(2, 1), (4, 7)], some [], some []] := by
  decide +kernel

/-! ### Non-vacuity -/

example := C57_pages_sound 0 demoG' [0, 1, 2, 4, 5] [0] [0] 2 (0, 0) (fun _ => false)
  demoG'_finite (by simp) (by simp) 10 (by simp) [1, 2, 5, 0, 2]

/-- The pages of this run: two refused requests, and an empty page at the end. -/
example : ((Paged.start 0 demoG' [0] [0] 2 (0, 0)).bind fun p =>
      (pages 0 demoG' [0] (fun _ => false) 10 p [1, 2, 5, 0, 2]).map (·.1)) =
    some [some [(2, 1)], some [(1, 4), (4, 7)], none, none, some []] := by
  decide +kernel

example := C57_short_page_means_exhausted 0 demoG' [0, 1, 2, 4, 5] [0] [0] 2 (0, 0)
  demoG'_finite (by simp) (by simp) 10 (by simp) [1, 2] 2

end Verif.Search
