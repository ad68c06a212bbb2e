import Verif.Search.DSearchLemmas

/-!
# C104: the diversity-aware search from start to end

`pad` is the padding value of the SIMD tail load, `stop` the answers of `terminate_early`, `fuel` the allowance given to
the loop: any allowance above the number of vertices is enough.
-/

namespace Verif.Search

open Verif.Queue

variable {I A D : Type} [DecidableEq I] [DecidableEq A] [LinearOrder D]

/-- The constructors accept exactly positive counts with `total_k ≤ l`, and say which check failed. -/
theorem C104_parameters (l k dk : Nat) :
    (divCheck l k dk = none ↔ 1 ≤ k ∧ k ≤ l ∧ 1 ≤ dk) ∧
    (divCheck l k dk = some .diverseKZero ↔ dk = 0) ∧
    (divCheck l k dk = some .totalKZero ↔ 1 ≤ dk ∧ k = 0) ∧
    (divCheck l k dk = some .lTooSmall ↔ 1 ≤ dk ∧ 1 ≤ k ∧ l < k) := by
  unfold divCheck
  split
  · simp; omega
  · split
    · simp; omega
    · split
      · simp; omega
      · simp; omega

/-- A limit per attribute above the number of results is accepted, although an error for it is declared: no parameters
produce that error. -/
theorem C104_declared_error_never (l k dk : Nat) : divCheck l k dk ≠ some .diverseKGreaterThanTotalK := by
  unfold divCheck
  split
  · simp
  · split
    · simp
    · split <;> simp

example : divCheck 10 3 7 = none := rfl

theorem contents_of_entries (q : Queue (I × A) D) (x : (I × A) × D) (hx : x ∈ q.contents) :
    ∃ e ∈ q.entries, x = (e.id, e.dist) := by
  unfold Queue.contents at hx
  obtain ⟨e, he, rfl⟩ := List.mem_map.1 hx
  exact ⟨e, he, rfl⟩

/-- Everything a search answers, whatever the graph, the attributes and the answers of `terminate_early`. -/
theorem C104_total (pad : D) (G : Graph I D) (attr : I → Option A) (V starts : List I)
    (hG : FiniteGraph V G.adj starts) (hn : starts.Nodup) (l k dk : Nat) (hp : divCheck l k dk = none)
    (beam : Nat) (hb : 1 ≤ beam) (stop : Nat → Bool) (fuel : Nat) (hf : V.length < fuel)
    (b : Buf I D) (hb1 : b.ids.length = b.distances.length) (hb2 : b.position = 0) :
    ∃ s n b', divSearch pad G starts l k dk attr beam stop fuel b = some (s, n, b') ∧
      s.computed.Nodup ∧ s.expanded.Nodup ∧ (∀ x ∈ s.expanded, x ∈ s.computed) ∧
      s.cmps = s.computed.length ∧ s.hops = s.expanded.length ∧
      n = b'.written.length ∧ b'.written.length ≤ min l b.ids.length ∧
      b'.written.Pairwise (fun x y => x.2 ≤ y.2) ∧ (b'.written.map (·.1)).Nodup ∧
      ∀ i d, (i, d) ∈ b'.written → i ∉ starts ∧ attr i ≠ none ∧ G.dist i = some d ∧
        ReachVia G.adj (Passable G attr) starts i := by
  obtain ⟨hk, hkl, hdk⟩ := (C104_parameters l k dk).1.1 hp
  obtain ⟨s, h1, h2, -, -⟩ := div_spec pad G attr V starts hG hn l k dk hk hkl hdk beam hb stop fuel hf
  have hw := written_extend b ((s.candidates l).filter fun x => decide (x.1 ∉ starts)) hb1 (by omega)
  obtain ⟨w1, -, -, -⟩ := extend_closed b ((s.candidates l).filter fun x => decide (x.1 ∉ starts)) hb1 (by omega)
  have hb0 : b.written = [] := by unfold Buf.written; rw [hb2]; simp
  rw [hb0, hb2, List.nil_append, Nat.sub_zero] at hw
  have hsub : (((s.candidates l).filter fun x => decide (x.1 ∉ starts)).take b.ids.length).Sublist
      (s.best.global.contents.map fun x => (x.1.1, x.2)) :=
    (List.take_sublist _ _).trans (List.filter_sublist.trans ((List.take_sublist _ _).trans
      (postProcess_sublist l _ dk attr s.best h2.weak)))
  refine ⟨s, (postProcess starts (s.candidates l) b).1, (postProcess starts (s.candidates l) b).2, ?_, by rw [h2.comp]; exact h2.nodup, h2.exp_nodup,
    fun x hx => by rw [h2.comp]; exact (h2.exp x hx).1, h2.counts.1, h2.counts.2, ?_, ?_, ?_, ?_, ?_⟩
  · unfold divSearch; rw [h1]
  · unfold postProcess
    rw [hw, w1, hb2, List.length_take]; simp
  · unfold postProcess
    rw [hw]
    simp only [List.length_take]
    have := List.length_filter_le (fun x : I × D => decide (x.1 ∉ starts)) (s.candidates l)
    have h3 : (s.candidates l).length ≤ l := by unfold DSt.candidates; rw [List.length_take]; omega
    omega
  · unfold postProcess
    rw [hw]
    refine List.Pairwise.sublist hsub ?_
    rw [List.pairwise_map]
    unfold Queue.contents
    rw [List.pairwise_map]
    exact h2.weak.ginv.sorted
  · unfold postProcess
    rw [hw]
    refine List.Nodup.sublist (hsub.map _) ?_
    have := h2.ids_nodup
    unfold Queue.contents
    simpa [Function.comp_def] using this
  · unfold postProcess
    rw [hw]
    intro i d hid
    have hm := hsub.subset hid
    obtain ⟨x, hx, hxe⟩ := List.mem_map.1 hm
    obtain ⟨e, he, rfl⟩ := contents_of_entries _ x hx
    simp only [Prod.mk.injEq] at hxe
    obtain ⟨i1, i2, i3⟩ := h2.ids e he
    have hf' := List.mem_of_mem_take hid
    rw [List.mem_filter] at hf'
    rw [← hxe.1, ← hxe.2]
    refine ⟨by rw [hxe.1]; simpa using hf'.2, by rw [i2]; simp, i3, h2.origin _ i1⟩

theorem mem_eligible (G : Graph I D) (attr : I → Option A) (ids : List I) (i : I) (a : A) (d : D) :
    ((i, a), d) ∈ eligible G attr ids ↔ i ∈ ids ∧ attr i = some a ∧ G.dist i = some d := by
  unfold eligible
  rw [List.mem_filterMap]
  constructor
  · rintro ⟨j, hj, h⟩
    split at h
    · rename_i a' d' h1 h2
      simp only [Option.some.injEq, Prod.mk.injEq] at h
      obtain ⟨⟨rfl, rfl⟩, rfl⟩ := h
      exact ⟨hj, h1, h2⟩
    · cases h
  · rintro ⟨h1, h2, h3⟩
    exact ⟨i, h1, by rw [h2, h3]⟩

theorem eligible_ids (G : Graph I D) (attr : I → Option A) (ids : List I) :
    ((eligible G attr ids).map (·.1.1)).Sublist ids := by
  induction ids with
  | nil => exact List.Sublist.refl _
  | cons i ids ih =>
    unfold eligible at ih ⊢
    rw [List.filterMap_cons]
    split
    · exact ih.cons _
    · rename_i b hb
      split at hb
      · obtain rfl := Option.some.inj hb
        simp only [List.map_cons]
        exact ih.cons_cons _
      · cases hb

theorem eligible_nodup (G : Graph I D) (attr : I → Option A) (ids : List I) (h : ids.Nodup) :
    (eligible G attr ids).Nodup := List.Nodup.of_map _ (h.sublist (eligible_ids G attr ids))

theorem eligible_dist_nodup (G : Graph I D) (attr : I → Option A) (V ids : List I) (h : ids.Nodup)
    (hsub : ∀ x ∈ ids, x ∈ V)
    (hd : ∀ x ∈ V, ∀ y ∈ V, Passable G attr x → Passable G attr y → G.dist x = G.dist y → x = y) :
    ((eligible G attr ids).map (·.2)).Nodup := by
  refine List.Nodup.map_on ?_ (eligible_nodup G attr ids h)
  rintro ⟨⟨i, a⟩, d⟩ hx ⟨⟨j, a'⟩, d'⟩ hy hxy
  simp only at hxy
  rw [mem_eligible] at hx hy
  obtain ⟨x1, x2, x3⟩ := hx
  obtain ⟨y1, y2, y3⟩ := hy
  have : i = j := hd i (hsub i x1) j (hsub j y1) ⟨by rw [x2]; simp, by rw [x3]; simp⟩
    ⟨by rw [y2]; simp, by rw [y3]; simp⟩ (by rw [x3, y3, hxy])
  subst this
  rw [x2] at y2
  cases y2
  rw [hxy]

/-- What the final list is when no two candidates tie. -/
theorem div_best (pad : D) (G : Graph I D) (attr : I → Option A) (V starts : List I)
    (hG : FiniteGraph V G.adj starts) (hn : starts.Nodup) (l k dk : Nat) (hk : 1 ≤ k) (hkl : k ≤ l) (hdk : 1 ≤ dk)
    (beam : Nat) (hb : 1 ≤ beam) (stop : Nat → Bool) (fuel : Nat) (hf : V.length < fuel)
    (hd : ∀ x ∈ V, ∀ y ∈ V, Passable G attr x → Passable G attr y → G.dist x = G.dist y → x = y) :
    ∃ s, divTraverse pad G starts l k dk attr beam stop fuel = some s ∧
      DCore pad G attr (ReachVia G.adj (Passable G attr) starts) l k dk s ∧ (∀ x ∈ starts, x ∈ s.computed) ∧
      (s.best.global.hasNotVisited = false ∨ ∃ m, stop m = true) ∧
      DiverseBest l (dk * l / k) (eligible G attr s.computed) s.best.global.contents ∧
      s.candidates l = (closestPer dk s.best.global.contents).map fun x => (x.1.1, x.2) := by
  obtain ⟨s, h1, h2, h3, h4⟩ := div_spec pad G attr V starts hG hn l k dk hk hkl hdk beam hb stop fuel hf
  obtain ⟨ops, o1, o2⟩ := h2.hist
  have hcn : s.computed.Nodup := by rw [h2.comp]; exact h2.nodup
  have hcV : ∀ x ∈ s.computed, x ∈ V := by
    intro x hx
    rw [h2.comp] at hx
    exact reach_mem hG x (reachVia_reach (h2.origin x hx))
  have hdn : ((offered attr ops).map (·.2)).Nodup := by
    rw [o2]; exact eligible_dist_nodup G attr V s.computed hcn hcV hd
  have hin : ((offered attr ops).map (·.1.1)).Nodup := by
    rw [o2]; exact hcn.sublist (eligible_ids G attr _)
  have hs := dstrong_run pad l k dk hk hkl hdk attr ops hdn s.best o1
  have hcid : (s.best.global.contents.map (·.1.1)).Nodup := by
    have := h2.ids_nodup
    unfold Queue.contents
    simpa [Function.comp_def] using this
  have hpi := postProcess_iter l _ dk attr s.best h2.weak _ hs hcid
  refine ⟨s, h1, h2, h3, h4, by rw [← o2]; exact hs.spec, ?_⟩
  unfold DSt.candidates
  rw [hpi]
  apply List.take_of_length_le
  rw [List.length_map]
  exact (List.length_filter_le _ _).trans hs.spec.total

theorem div_written (pad : D) (G : Graph I D) (attr : I → Option A) (starts : List I) (l k dk beam : Nat)
    (stop : Nat → Bool) (fuel : Nat) (b : Buf I D) (hb1 : b.ids.length = b.distances.length) (hb2 : b.position = 0)
    (s : DSt I A D) (h : divTraverse pad G starts l k dk attr beam stop fuel = some s) :
    ∃ n b', divSearch pad G starts l k dk attr beam stop fuel b = some (s, n, b') ∧
      b'.written = ((s.candidates l).filter fun x => decide (x.1 ∉ starts)).take b.ids.length := by
  have hw := written_extend b ((s.candidates l).filter fun x => decide (x.1 ∉ starts)) hb1 (by omega)
  have hb0 : b.written = [] := by unfold Buf.written; rw [hb2]; simp
  rw [hb0, hb2, List.nil_append, Nat.sub_zero] at hw
  exact ⟨(postProcess starts (s.candidates l) b).1, (postProcess starts (s.candidates l) b).2,
    by unfold divSearch; rw [h], hw⟩

/-- **C104.** If no two vertices with an attribute tie, the results are the closest `dk` for each attribute among the best
selection of the evaluated vertices under the limits `l` and `dk · l / k`, start points dropped afterwards, cut to the buffer. -/
theorem C104_best_partial (pad : D) (G : Graph I D) (attr : I → Option A) (V starts : List I)
    (hG : FiniteGraph V G.adj starts) (hn : starts.Nodup) (l k dk : Nat) (hp : divCheck l k dk = none)
    (beam : Nat) (hb : 1 ≤ beam) (stop : Nat → Bool) (fuel : Nat) (hf : V.length < fuel)
    (hd : ∀ x ∈ V, ∀ y ∈ V, Passable G attr x → Passable G attr y → G.dist x = G.dist y → x = y)
    (b : Buf I D) (hb1 : b.ids.length = b.distances.length) (hb2 : b.position = 0) :
    ∃ s n b' g, divSearch pad G starts l k dk attr beam stop fuel b = some (s, n, b') ∧
      DiverseBest l (dk * l / k) (eligible G attr s.computed) g ∧
      b'.written = (((closestPer dk g).map fun x => (x.1.1, x.2)).filter fun x => decide (x.1 ∉ starts)).take
        b.ids.length := by
  obtain ⟨hk, hkl, hdk⟩ := (C104_parameters l k dk).1.1 hp
  obtain ⟨s, h1, -, -, -, h5, h6⟩ := div_best pad G attr V starts hG hn l k dk hk hkl hdk beam hb stop fuel hf hd
  obtain ⟨n, b', e1, e2⟩ := div_written pad G attr starts l k dk beam stop fuel b hb1 hb2 s h1
  exact ⟨s, n, b', _, e1, h5, by rw [e2, h6]⟩

/-- **C104.** … hence at most `dk` results for any attribute. -/
theorem C104_limit_partial (pad : D) (G : Graph I D) (attr : I → Option A) (V starts : List I)
    (hG : FiniteGraph V G.adj starts) (hn : starts.Nodup) (l k dk : Nat) (hp : divCheck l k dk = none)
    (beam : Nat) (hb : 1 ≤ beam) (stop : Nat → Bool) (fuel : Nat) (hf : V.length < fuel)
    (hd : ∀ x ∈ V, ∀ y ∈ V, Passable G attr x → Passable G attr y → G.dist x = G.dist y → x = y)
    (b : Buf I D) (hb1 : b.ids.length = b.distances.length) (hb2 : b.position = 0) :
    ∃ s n b', divSearch pad G starts l k dk attr beam stop fuel b = some (s, n, b') ∧
      ∀ a, (b'.written.filter fun x => decide (attr x.1 = some a)).length ≤ dk := by
  obtain ⟨hk, hkl, hdk⟩ := (C104_parameters l k dk).1.1 hp
  obtain ⟨s, h1, h2, -, -, h5, -⟩ := div_best pad G attr V starts hG hn l k dk hk hkl hdk beam hb stop fuel hf hd
  obtain ⟨n, b', e1, e2⟩ := div_written pad G attr starts l k dk beam stop fuel b hb1 hb2 s h1
  refine ⟨s, n, b', e1, ?_⟩
  intro a
  have hcn : s.computed.Nodup := by rw [h2.comp]; exact h2.nodup
  have hcV : ∀ x ∈ s.computed, x ∈ V := by
    intro x hx
    rw [h2.comp] at hx
    exact reach_mem hG x (reachVia_reach (h2.origin x hx))
  obtain ⟨ops, o1, o2⟩ := h2.hist
  obtain ⟨q, q1, q2⟩ := C63_at_most_k_per_attribute_partial pad l k dk hk hkl hdk attr ops
    (by rw [o2]; exact eligible_dist_nodup G attr V s.computed hcn hcV hd)
    (by rw [o2]; exact hcn.sublist (eligible_ids G attr _))
  rw [o1] at q1
  obtain rfl := Option.some.inj q1
  refine Nat.le_trans ?_ (q2 a)
  apply List.Sublist.length_le
  apply List.Sublist.filter
  rw [e2]
  exact (List.take_sublist _ _).trans (List.filter_sublist.trans (List.take_sublist _ _))

/-- **C104.** If the list holds all vertices that can be reached, in total and per attribute, and no two tie, the search
returns for each attribute exactly its `dk` closest reachable vertices, start points dropped afterwards, in order of distance. -/
theorem C104_exact_partial (pad : D) (G : Graph I D) (attr : I → Option A) (V starts : List I)
    (hG : FiniteGraph V G.adj starts) (hn : starts.Nodup) (l k dk : Nat) (hp : divCheck l k dk = none)
    (beam : Nat) (hb : 1 ≤ beam) (fuel : Nat) (hf : V.length < fuel)
    (hd : ∀ x ∈ V, ∀ y ∈ V, Passable G attr x → Passable G attr y → G.dist x = G.dist y → x = y)
    (reachable : List I) (hrn : reachable.Nodup)
    (hreach : ∀ x, x ∈ reachable ↔ ReachVia G.adj (Passable G attr) starts x)
    (hl : (eligible G attr reachable).length ≤ l)
    (hdl : ∀ a, (eligible G attr reachable).countP (fun x => decide (x.1.2 = a)) ≤ dk * l / k)
    (b : Buf I D) (hb1 : b.ids.length = b.distances.length) (hb2 : b.position = 0) (hb3 : l ≤ b.ids.length) :
    ∃ s n b', divSearch pad G starts l k dk attr beam (fun _ => false) fuel b = some (s, n, b') ∧
      b'.written.Pairwise (fun x y => x.2 < y.2) ∧
      ∀ i d, (i, d) ∈ b'.written ↔ i ∉ starts ∧ ∃ a, ((i, a), d) ∈ closestPer dk (eligible G attr reachable) := by
  obtain ⟨hk, hkl, hdk⟩ := (C104_parameters l k dk).1.1 hp
  obtain ⟨s, h1, h2, h3, h4, h5, h6⟩ := div_best pad G attr V starts hG hn l k dk hk hkl hdk beam hb
    (fun _ => false) fuel hf hd
  obtain ⟨n, b', e1, e2⟩ := div_written pad G attr starts l k dk beam (fun _ => false) fuel b hb1 hb2 s h1
  have hnv : s.best.global.hasNotVisited = false := by simpa using h4
  have hcn : s.computed.Nodup := by rw [h2.comp]; exact h2.nodup
  have hcr : ∀ x ∈ s.computed, x ∈ reachable := by
    intro x hx
    rw [h2.comp] at hx
    exact (hreach x).2 (h2.origin x hx)
  set g := s.best.global.contents with hg
  have hgn : g.Nodup := h5.sorted.imp (fun hab => by rintro rfl; exact lt_irrefl _ hab)
  have hgr : ∀ x ∈ eligible G attr s.computed, x ∈ eligible G attr reachable := by
    rintro ⟨⟨i, a⟩, d⟩ hx
    rw [mem_eligible] at hx ⊢
    exact ⟨hcr i hx.1, hx.2⟩
  -- nothing was cut
  have hall : ∀ x ∈ eligible G attr s.computed, x ∈ g := by
    intro x hx
    by_contra hxg
    have hsp : (x :: g).Subperm (eligible G attr reachable) := by
      apply List.subperm_of_subset (List.nodup_cons.2 ⟨hxg, hgn⟩)
      intro y hy
      rcases List.mem_cons.1 hy with rfl | hy
      · exact hgr _ hx
      · exact hgr _ (h5.sub y hy)
    rcases h5.best x hx hxg with h | ⟨h, -⟩
    · have hc := hsp.countP_le (fun y => decide (y.1.2 = x.1.2))
      rw [List.countP_cons] at hc
      simp only [decide_true, if_true] at hc
      have hm : g.countP (fun y => decide (y.1.2 = x.1.2 ∧ y.2 < x.2)) ≤ g.countP (fun y => decide (y.1.2 = x.1.2)) := by
        apply List.countP_mono_left
        intro y _ hy
        simp only [decide_eq_true_eq] at hy ⊢
        exact hy.1
      have := hdl x.1.2
      omega
    · have := hsp.length_le
      rw [List.length_cons] at this
      omega
  -- everything passable was expanded
  have hexp : ∀ x ∈ s.computed, Passable G attr x → x ∈ s.expanded := by
    rintro x hx ⟨p1, p2⟩
    obtain ⟨a, ha⟩ := Option.ne_none_iff_exists'.mp p1
    obtain ⟨d, hdd⟩ := Option.ne_none_iff_exists'.mp p2
    have := hall ((x, a), d) ((mem_eligible ..).2 ⟨hx, ha, hdd⟩)
    obtain ⟨e, he, hee⟩ := contents_of_entries _ _ this
    simp only [Prod.mk.injEq] at hee
    have hx' : e.id.1 = x := by rw [← hee.1]
    rw [← hx', ← h2.flag e he]
    obtain ⟨i, hi, rfl⟩ := List.getElem_of_mem he
    refine h2.weak.ginv.before i hi ?_
    unfold Queue.hasNotVisited at hnv
    simp only [decide_eq_false_iff_not] at hnv
    have := h2.weak.ginv.size_le
    rw [h2.weak.gcap] at this
    have hL := h2.weak.gL
    have hz : s.best.global.entries.length = s.best.global.size := rfl
    omega
  have hrc : ∀ x, ReachVia G.adj (Passable G attr) starts x → x ∈ s.computed := by
    intro x hx
    induction hx with
    | start hs => exact h3 _ hs
    | step _ hpp he ih => rw [h2.comp]; exact h2.closed _ (hexp _ ih hpp) _ he
  have hperm : g.Perm (eligible G attr reachable) := by
    rw [List.perm_ext_iff_of_nodup hgn (eligible_nodup G attr _ hrn)]
    rintro ⟨⟨i, a⟩, d⟩
    constructor
    · intro h; exact hgr _ (h5.sub _ h)
    · intro h
      refine hall _ ?_
      rw [mem_eligible] at h ⊢
      exact ⟨hrc i ((hreach i).1 h.1), h.2⟩
  have hclosest : ∀ x, x ∈ closestPer dk g ↔ x ∈ closestPer dk (eligible G attr reachable) := by
    intro x
    unfold closestPer
    rw [List.mem_filter, List.mem_filter, hperm.mem_iff, hperm.countP_eq]
  have hlen : ((s.candidates l).filter fun x => decide (x.1 ∉ starts)).length ≤ b.ids.length := by
    refine (List.length_filter_le _ _).trans ?_
    unfold DSt.candidates
    rw [List.length_take]; omega
  rw [List.take_of_length_le hlen, h6] at e2
  refine ⟨s, n, b', e1, ?_, ?_⟩
  · rw [e2]
    refine List.Pairwise.sublist List.filter_sublist ?_
    rw [List.pairwise_map]
    exact h5.sorted.sublist List.filter_sublist
  · intro i d
    rw [e2, List.mem_filter, List.mem_map]
    constructor
    · rintro ⟨⟨⟨⟨j, a⟩, d'⟩, hx, hxe⟩, hi⟩
      simp only [Prod.mk.injEq] at hxe
      obtain ⟨rfl, rfl⟩ := hxe
      exact ⟨by simpa using hi, a, (hclosest _).1 hx⟩
    · rintro ⟨hi, a, hx⟩
      exact ⟨⟨_, (hclosest _).2 hx, rfl⟩, by simpa using hi⟩

/-! ## Where the search falls short -/

/-- If no start point has an attribute the search returns nothing, whatever the graph. -/
theorem C104_no_attribute_start (pad : D) (G : Graph I D) (attr : I → Option A) (V starts : List I)
    (hG : FiniteGraph V G.adj starts) (hn : starts.Nodup) (l k dk : Nat) (hp : divCheck l k dk = none)
    (beam : Nat) (hb : 1 ≤ beam) (stop : Nat → Bool) (fuel : Nat) (hf : V.length < fuel)
    (hs : ∀ x ∈ starts, attr x = none)
    (b : Buf I D) (hb1 : b.ids.length = b.distances.length) (hb2 : b.position = 0) :
    ∃ s n b', divSearch pad G starts l k dk attr beam stop fuel b = some (s, n, b') ∧ b'.written = [] := by
  obtain ⟨s, n, b', h1, -, -, -, -, -, -, -, -, -, h2⟩ := C104_total pad G attr V starts hG hn l k dk hp beam hb stop fuel
    hf b hb1 hb2
  refine ⟨s, n, b', h1, ?_⟩
  have hr : ∀ x, ReachVia G.adj (Passable G attr) starts x → x ∈ starts := by
    intro x hx
    induction hx with
    | start h => exact h
    | step _ hpp _ ih => exact absurd (hs _ ih) hpp.1
  rw [List.eq_nil_iff_forall_not_mem]
  rintro ⟨i, d⟩ hm
  obtain ⟨a1, -, -, a4⟩ := h2 i d hm
  exact a1 (hr i a4)

/-- A path `0 → 1 → 2` with distances `2, 1, 0`. -/
def pathGraph : Graph Nat Nat := ⟨fun i => if i < 2 then [i + 1] else [], fun i => some (2 - i)⟩

/-- A result is lost if the only way to it passes a vertex without attribute, whatever the list size. -/
theorem C104_hidden (l k dk : Nat) (hp : divCheck l k dk = none) (beam : Nat) (hb : 1 ≤ beam) (fuel : Nat) (hf : 3 < fuel)
    (b : Buf Nat Nat) (hb1 : b.ids.length = b.distances.length) (hb2 : b.position = 0) :
    ∃ s n b', divSearch 0 pathGraph [0] l k dk (fun i => if i = 1 then none else some 7) beam (fun _ => false) fuel b
      = some (s, n, b') ∧ Reach pathGraph.adj [0] 2 ∧ b'.written = [] := by
  obtain ⟨s, n, b', h1, -, -, -, -, -, -, -, -, -, h2⟩ := C104_total 0 pathGraph (fun i => if i = 1 then none else some 7)
    [0, 1, 2] [0] ⟨by simp, by
      intro x hx y hy
      simp only [pathGraph] at hy
      split at hy
      · simp only [List.mem_singleton] at hy; subst hy
        simp only [List.mem_cons, List.not_mem_nil, or_false] at hx ⊢
        omega
      · cases hy⟩ (by simp) l k dk hp beam hb (fun _ => false) fuel hf b hb1 hb2
  refine ⟨s, n, b', h1, .step (x := 1) (.step (x := 0) (.start (by simp)) (by decide)) (by decide), ?_⟩
  have hr : ∀ x, ReachVia pathGraph.adj (Passable pathGraph (fun i => if i = 1 then none else some 7)) [0] x →
      x = 0 ∨ x = 1 := by
    intro x hx
    induction hx with
    | start h => left; simpa using h
    | step _ hpp he ih =>
      rcases ih with rfl | rfl
      · right; simpa [pathGraph] using he
      · exact absurd rfl hpp.1
  rw [List.eq_nil_iff_forall_not_mem]
  rintro ⟨i, d⟩ hm
  obtain ⟨a1, a2, -, a4⟩ := h2 i d hm
  rcases hr i a4 with rfl | rfl
  · simp at a1
  · exact a2 rfl

/-- Start points take places on the list and are dropped from the results afterwards: of two reachable vertices only
one is returned for `k = l = 2`. The plain search makes room for the start points. -/
theorem C104_start_takes_place :
    (divSearch 0 pathGraph [1] 1 1 1 (fun _ => some 7) 1 (fun _ => false) 10 ⟨[9], [9], 0⟩).map (fun r => r.2.2.written)
      = some [(2, 0)] ∧
    (divSearch 0 ⟨pathGraph.adj, fun i => some i⟩ [0] 2 2 2 (fun _ => some 7) 1 (fun _ => false) 10
      ⟨[9, 9], [9, 9], 0⟩).map (fun r => r.2.2.written) = some [(1, 1)] ∧
    (knnSearch 0 ⟨pathGraph.adj, fun i => some i⟩ [0] 2 1 (fun _ => false) 10
      ⟨[9, 9], [9, 9], 0⟩).map (fun r => r.2.2.written) = some [(1, 1), (2, 2)] := by decide +kernel

/-- A start point uses up its attribute's places too: with one result per attribute its attribute is never returned. -/
theorem C104_start_takes_attribute :
    (divSearch 0 ⟨pathGraph.adj, fun i => some i⟩ [0] 10 2 1 (fun _ => some 7) 1 (fun _ => false) 10
      ⟨[9, 9], [9, 9], 0⟩).map (fun r => r.2.2.written) = some [] := by decide +kernel

/-! ## The hypotheses are met -/

/-- Vertices `0 … 5` in a ring with a chord, attributes by remainder modulo 2, distances all different. -/
def ringGraph : Graph Nat Nat :=
  ⟨fun i => if i < 6 then [(i + 1) % 6, (i + 3) % 6] else [], fun i => if i = 5 then none else some (10 - 2 * i)⟩

theorem ring_finite : FiniteGraph [0, 1, 2, 3, 4, 5] ringGraph.adj [0] := by
  refine ⟨by simp, ?_⟩
  intro x hx y hy
  have h : ∀ x ∈ [0, 1, 2, 3, 4, 5], ∀ y ∈ ringGraph.adj x, y ∈ [0, 1, 2, 3, 4, 5] := by decide
  exact h x hx y hy

example : FiniteGraph [0, 1, 2, 3, 4, 5] ringGraph.adj [0] ∧ divCheck 6 2 1 = none ∧
    (∀ x ∈ [0, 1, 2, 3, 4, 5], ∀ y ∈ [0, 1, 2, 3, 4, 5], ringGraph.dist x ≠ none → ringGraph.dist y ≠ none →
      ringGraph.dist x = ringGraph.dist y → x = y) ∧
    (divSearch 0 ringGraph [0] 6 2 1 (fun i => some (i % 2)) 2 (fun _ => false) 10
      ⟨[9, 9, 9, 9, 9, 9], [0, 0, 0, 0, 0, 0], 0⟩).map (fun r => (r.1.computed, r.1.expanded, r.2.1, r.2.2.written))
      = some ([0, 1, 3, 4, 2, 5], [0, 3, 1, 4, 2], 2, [(4, 2), (3, 4)]) :=
  ⟨ring_finite, rfl, by decide, by decide +kernel⟩

example : (eligible ringGraph (fun i => some (i % 2)) [0, 1, 2, 3, 4, 5]).length ≤ 6 ∧
    closestPer 1 (eligible ringGraph (fun i => some (i % 2)) [0, 1, 2, 3, 4, 5]) = [((3, 1), 4), ((4, 0), 2)] := by
  decide +kernel

end Verif.Search
