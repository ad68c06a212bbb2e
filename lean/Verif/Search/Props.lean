import Verif.Search.Lemmas
import Verif.Search.BufferProps

/-!
# C13–C16, C58: greedy search and the reachability count

`pad` is the padding value of the SIMD tail load (irrelevant, universally quantified), `stop` the
answers of the accessor's `terminate_early`, `fuel` the allowance given to the loop: the theorems say
any allowance above the number of vertices is enough.
-/

namespace Verif.Search

open Verif.Queue

variable {I D : Type} [DecidableEq I] [LinearOrder D]

theorem core_create (G : Graph I D) (R : I → Prop) (l f : Nat) : Core G R (St.create l f : St I D) := by
  constructor <;> simp [St.create, Queue.new]

/-- Everything known about the final state of a search. -/
theorem knn_spec (pad : D) (G : Graph I D) (starts : List I) (l beam : Nat) (stop : Nat → Bool)
    {R : I → Prop} (hR : ∀ x y, R x → G.dist x ≠ none → y ∈ G.adj x → R y)
    (hRs : ∀ x ∈ starts, R x) (V : List I) (hV : ∀ x, R x → x ∈ V)
    (hn : starts.Nodup) (hl : 1 ≤ l) (hb : 1 ≤ beam) (fuel : Nat) (hf : V.length < fuel) :
    ∃ s new, knnTraverse pad G starts l beam stop fuel = some s ∧ Core G R s ∧ Inv s.best ∧
      FixedQ G (l + starts.length) s.best s.computed ∧
      s.computed = starts ++ new ∧ s.visited = s.computed ∧ s.cmps = s.computed.length ∧
      s.hops = s.expanded.length ∧ s.expanded.Nodup ∧
      (s.best.hasNotVisited = false ∨ ∃ m, stop m = true) := by
  have hq0 : FixedQ G (l + starts.length) (St.create l starts.length : St I D).best
      (St.create l starts.length : St I D).computed := by
    refine ⟨rfl, rfl, rfl, ?_⟩
    simp [St.create, Queue.new, Queue.contents, bestOf, comparable]
  obtain ⟨s1, a1, a2, a3, a4, a5, -, -⟩ := starts_spec pad G (fixedQ_stable pad G (l + starts.length))
    (R := R) starts (St.create l starts.length) hn (by simp [St.create]) hRs (core_create G R _ _)
    (new_inv _ (by omega)) hq0
  have hex : s1.expanded = [] := by rw [a2.expanded]; simp [St.create]
  obtain ⟨s', new, nodes, b1, b2, b3, b4, b5, -, -, b8, b9⟩ :=
    searchLoop_spec pad G (fixedQ_stable pad G (l + starts.length)) hR V hV beam hb stop fuel 0 s1
      a3 a4 a5 (Nat.lt_of_le_of_lt (List.length_filter_le _ _) hf)
  have e := a2.trans b2
  refine ⟨s', new, ?_, b3, b4, b5, ?_, ?_, ?_, ?_, ?_, b9⟩
  · unfold knnTraverse searchInternal
    rw [if_pos (by simp [St.create]), a1]
    exact b1
  · rw [e.computed]; simp [St.create]
  · rw [e.computed, e.visited]; simp [St.create]
  · rw [e.computed, e.cmps]; simp [St.create]
  · rw [e.expanded, e.hops]; simp [St.create]
  · rw [e.expanded]; simpa [St.create] using b8.1

theorem reach_mem {V : List I} {adj : I → List I} {starts : List I} (h : FiniteGraph V adj starts)
    (x : I) (hx : Reach adj starts x) : x ∈ V := by
  induction hx with
  | start hs => exact h.starts_mem _ hs
  | step _ he ih => exact h.closed _ ih _ he

theorem reachVia_reach {adj : I → List I} {p : I → Prop} {starts : List I} {x : I}
    (h : ReachVia adj p starts x) : Reach adj starts x := by
  induction h with
  | start hs => exact .start hs
  | step _ _ he ih => exact .step ih he

/-! ## C13 -/

/-- **C13.** On every finite graph, with every list size and beam width of at least one and every
early-stop behaviour, the search ends without panic; the log of distance computations contains no
vertex twice, the log of expansions contains no vertex twice, only vertices whose distance was computed
are expanded, and the reported counters are exactly the number of distance computations and of
expansions. -/
theorem C13_search_at_most_once (pad : D) (G : Graph I D) (V starts : List I) (l beam : Nat)
    (stop : Nat → Bool) (hG : FiniteGraph V G.adj starts) (hn : starts.Nodup) (hl : 1 ≤ l)
    (hb : 1 ≤ beam) (fuel : Nat) (hf : V.length < fuel) :
    ∃ s, knnTraverse pad G starts l beam stop fuel = some s ∧
      s.computed.Nodup ∧ s.expanded.Nodup ∧ (∀ x ∈ s.expanded, x ∈ s.computed) ∧
      s.cmps = s.computed.length ∧ s.hops = s.expanded.length := by
  obtain ⟨s, new, h1, h2, h3, h4, h5, h6, h7, h8, h9, h10⟩ := knn_spec pad G starts l beam stop
    (R := Reach G.adj starts) (fun x y hx _ he => .step hx he) (fun x hx => .start hx) V
    (reach_mem hG) hn hl hb fuel hf
  exact ⟨s, h1, by rw [← h6]; exact h2.nodup, h9, fun x hx => by rw [← h6]; exact h2.exp_visited x hx, h7, h8⟩

/-- The result does not depend on the allowance: any two sufficient ones give the same final state. -/
theorem searchLoop_mono (pad : D) (G : Graph I D) (beam : Nat) (stop : Nat → Bool) (f : Nat) :
    ∀ n s s', searchLoop pad G beam stop f n s = some s' →
      searchLoop pad G beam stop (f + 1) n s = some s' := by
  induction f with
  | zero => intro n s s' h; simp [searchLoop] at h
  | succ f ih =>
    intro n s s' h
    rw [searchLoop] at h ⊢
    split
    · rename_i hc
      rw [if_pos hc] at h
      cases hi : iterate pad G beam s with
      | none => rw [hi] at h; simp at h
      | some s1 => rw [hi] at h; exact ih _ _ _ h
    · rename_i hc
      rw [if_neg hc] at h; exact h

/-- C13, continued: the outcome is a function of the input alone — every sufficient allowance gives the
same final state. -/
theorem C13_fuel_irrelevant (pad : D) (G : Graph I D) (starts : List I) (l beam : Nat)
    (stop : Nat → Bool) (f : Nat) (s : St I D)
    (h : knnTraverse pad G starts l beam stop f = some s) (f' : Nat) (hff : f ≤ f') :
    knnTraverse pad G starts l beam stop f' = some s := by
  induction f', hff using Nat.le_induction with
  | base => exact h
  | succ f' _ ih =>
    unfold knnTraverse searchInternal at ih ⊢
    split
    · rename_i hv
      rw [if_pos hv] at ih
      cases hi : List.foldlM (addStart pad G) (St.create l starts.length) starts with
      | none => rw [hi] at ih; simp at ih
      | some s1 => rw [hi] at ih; exact searchLoop_mono _ _ _ _ _ _ _ _ ih
    · rename_i hv
      rw [if_neg hv] at ih
      exact searchLoop_mono _ _ _ _ _ _ _ _ ih

/-! ## C14 -/

theorem comparable_map (G : Graph I D) (cs : List I) (i : I) (d : D) :
    (i, d) ∈ comparable (cs.map fun i => (i, G.dist i)) ↔ i ∈ cs ∧ G.dist i = some d := by
  induction cs with
  | nil => simp [comparable]
  | cons c cs ih =>
    unfold comparable at ih ⊢
    rw [List.map_cons, List.filterMap_cons]
    cases h : G.dist c with
    | none =>
      simp only [Option.map_none, List.mem_cons]
      rw [ih]
      constructor
      · rintro ⟨a, b⟩; exact ⟨Or.inr a, b⟩
      · rintro ⟨rfl | a, b⟩
        · rw [h] at b; cases b
        · exact ⟨a, b⟩
    | some d' =>
      simp only [Option.map_some, List.mem_cons, Prod.mk.injEq]
      rw [ih]
      constructor
      · rintro (⟨rfl, rfl⟩ | ⟨a, b⟩)
        · exact ⟨Or.inl rfl, h⟩
        · exact ⟨Or.inr a, b⟩
      · rintro ⟨rfl | a, b⟩
        · left; rw [h] at b; cases b; exact ⟨rfl, rfl⟩
        · exact Or.inr ⟨a, b⟩

theorem comparable_map_ids (G : Graph I D) (cs : List I) :
    (comparable (cs.map fun i => (i, G.dist i))).map (·.1) = cs.filter fun i => (G.dist i).isSome := by
  induction cs with
  | nil => rfl
  | cons c cs ih =>
    unfold comparable at ih ⊢
    rw [List.map_cons, List.filterMap_cons, List.filter_cons]
    cases h : G.dist c with
    | none => simpa using ih
    | some d => simpa using ih

theorem iter_eq_contents (q : Queue I D) (h : Inv q) (hL : q.capacity = q.searchL) :
    q.iter = q.contents := by
  unfold Queue.iter Queue.contents
  have := h.size_le
  have e : q.entries.length = q.size := rfl
  rw [List.take_of_length_le (by omega)]

/-- General form of C14, with NaN distances: a vertex whose distance is NaN is never put on the list,
hence never expanded. If the list is long enough for all comparable vertices reachable through
comparable vertices, the search returns exactly these. -/
theorem C14_exact_general (pad : D) (G : Graph I D) (V starts : List I) (l beam : Nat)
    (hG : FiniteGraph V G.adj starts) (hn : starts.Nodup) (hl : 1 ≤ l)
    (hb : 1 ≤ beam) (fuel : Nat) (hf : V.length < fuel)
    (reachable : List I)
    (hreach : ∀ x, ReachVia G.adj (fun y => G.dist y ≠ none) starts x → G.dist x ≠ none → x ∈ reachable)
    (hlen : reachable.length ≤ l) :
    ∃ s, knnTraverse pad G starts l beam (fun _ => false) fuel = some s ∧
      s.best.iter.Pairwise (fun a b => a.2 ≤ b.2) ∧ (s.best.iter.map (·.1)).Nodup ∧
      ∀ i d, (i, d) ∈ s.best.iter ↔
        ReachVia G.adj (fun y => G.dist y ≠ none) starts i ∧ G.dist i = some d := by
  set R := ReachVia G.adj (fun y => G.dist y ≠ none) starts with hRdef
  obtain ⟨s, new, h1, h2, h3, ⟨q1, q2, q3, q4⟩, h5, h6, h7, h8, h9, h10⟩ := knn_spec pad G starts l beam
    (fun _ => false) (R := R) (fun x y hx hd he => .step hx hd he) (fun x hx => .start hx) V
    (fun x hx => reach_mem hG x (reachVia_reach hx)) hn hl hb fuel hf
  have hnv : s.best.hasNotVisited = false := by simpa using h10
  have hiter := iter_eq_contents s.best h3 (by rw [q2, q3])
  -- nothing was cut
  have hcslen : (comparable (s.computed.map fun i => (i, G.dist i))).length ≤ l + starts.length := by
    rw [← List.length_map (f := (·.1)), comparable_map_ids]
    have : (s.computed.filter fun i => (G.dist i).isSome).length ≤ reachable.length := by
      have hnd : (s.computed.filter fun i => (G.dist i).isSome).Nodup := by
        apply List.Nodup.filter; rw [← h6]; exact h2.nodup
      apply List.Subperm.length_le
      apply List.subperm_of_subset hnd
      intro x hx
      rw [List.mem_filter] at hx
      exact hreach x (h2.reach x (by rw [h6]; exact hx.1)) (by
        intro hnone; rw [hnone] at hx; simp at hx)
    omega
  obtain ⟨m1, m2, rej, m3, m4⟩ := C01_bestOf_meaning (l + starts.length) (s.computed.map fun i => (i, G.dist i))
  have hrej : rej = [] := by
    have := m3.length_eq
    rw [List.length_append, m2] at this
    have : rej.length = 0 := by omega
    exact List.length_eq_zero_iff.mp this
  rw [hrej, List.append_nil] at m3
  have hmem : ∀ i d, (i, d) ∈ s.best.iter ↔ i ∈ s.computed ∧ G.dist i = some d := by
    intro i d
    rw [hiter, q4, m3.mem_iff, comparable_map]
  -- everything comparable was expanded
  have hexp : ∀ x ∈ s.computed, G.dist x ≠ none → x ∈ s.expanded := by
    intro x hx hd
    obtain ⟨d, hd⟩ := Option.ne_none_iff_exists'.mp hd
    have := (hmem x d).mpr ⟨hx, hd⟩
    rw [hiter] at this
    unfold Queue.contents at this
    obtain ⟨e, he, hee⟩ := List.mem_map.mp this
    simp only [Prod.mk.injEq] at hee
    rw [← hee.1, ← h2.flag e he]
    obtain ⟨i, hi, rfl⟩ := List.getElem_of_mem he
    refine h3.before i hi ?_
    unfold Queue.hasNotVisited at hnv
    simp only [decide_eq_false_iff_not] at hnv
    have := h3.size_le
    have e : s.best.entries.length = s.best.size := rfl
    omega
  have hall : ∀ x, R x → x ∈ s.computed := by
    intro x hx
    induction hx with
    | start hs => rw [h5]; exact List.mem_append_left _ hs
    | step _ hp he ih => rw [← h6]; exact h2.exp_closed _ (hexp _ ih hp) _ he
  refine ⟨s, h1, ?_, ?_, ?_⟩
  · rw [hiter, q4]; exact m1
  · rw [hiter]
    have := h2.ids_nodup
    unfold Queue.contents
    simpa [Function.comp_def] using this
  · intro i d
    rw [hmem]
    constructor
    · rintro ⟨a, b⟩; exact ⟨h2.reach i (by rw [h6]; exact a), b⟩
    · rintro ⟨a, b⟩; exact ⟨hall i a, b⟩

/-- **C14.** If every reachable vertex has a comparable distance and the list size is at least the
number of reachable vertices, the search returns exactly the reachable vertices, each once, with its
true distance, in order of distance. -/
theorem C14_exact_on_reachable (pad : D) (G : Graph I D) (V starts : List I) (l beam : Nat)
    (hG : FiniteGraph V G.adj starts) (hn : starts.Nodup) (hl : 1 ≤ l)
    (hb : 1 ≤ beam) (fuel : Nat) (hf : V.length < fuel)
    (reachable : List I) (hreach : ∀ x, x ∈ reachable ↔ Reach G.adj starts x)
    (hd : ∀ x ∈ reachable, G.dist x ≠ none) (hlen : reachable.length ≤ l) :
    ∃ s, knnTraverse pad G starts l beam (fun _ => false) fuel = some s ∧
      s.best.iter.Pairwise (fun a b => a.2 ≤ b.2) ∧ (s.best.iter.map (·.1)).Nodup ∧
      ∀ i d, (i, d) ∈ s.best.iter ↔ Reach G.adj starts i ∧ G.dist i = some d := by
  have key : ∀ x, ReachVia G.adj (fun y => G.dist y ≠ none) starts x ↔ Reach G.adj starts x := by
    intro x
    refine ⟨reachVia_reach, fun h => ?_⟩
    induction h with
    | start hs => exact .start hs
    | step hx he ih => exact .step ih (hd _ ((hreach _).mpr hx)) he
  obtain ⟨s, h1, h2, h3, h4⟩ := C14_exact_general pad G V starts l beam hG hn hl hb fuel hf reachable
    (fun x hx _ => (hreach x).mpr ((key x).mp hx)) hlen
  exact ⟨s, h1, h2, h3, fun i d => by rw [h4, key]⟩

/-- **C14, end to end.** Under the hypotheses of `C14_exact_on_reachable`, a k-nearest-neighbour search
into empty buffers of length `k` reports `min k (number of reachable vertices that are not start points)`
results, writes that many, and they are the true nearest ones: reachable, not start points, sorted,
distinct, and every reachable non-start vertex left out is at least as far as every one returned. -/
theorem C14_true_k_nearest (pad : D) (G : Graph I D) (V starts : List I) (l beam : Nat)
    (hG : FiniteGraph V G.adj starts) (hn : starts.Nodup) (hl : 1 ≤ l)
    (hb : 1 ≤ beam) (fuel : Nat) (hf : V.length < fuel)
    (reachable : List I) (hreach : ∀ x, x ∈ reachable ↔ Reach G.adj starts x)
    (hrn : reachable.Nodup)
    (hd : ∀ x ∈ reachable, G.dist x ≠ none) (hlen : reachable.length ≤ l)
    (ids : List I) (distances : List D) (b : Buf I D) (hbuf : Buf.new ids distances = some b) :
    ∃ s n b', knnSearch pad G starts l beam (fun _ => false) fuel b = some (s, n, b') ∧
      n = min ids.length (reachable.filter fun x => decide (x ∉ starts)).length ∧
      b'.written.length = n ∧
      b'.written.Pairwise (fun a b => a.2 ≤ b.2) ∧ (b'.written.map (·.1)).Nodup ∧
      (∀ x ∈ b'.written, Reach G.adj starts x.1 ∧ x.1 ∉ starts ∧ G.dist x.1 = some x.2) ∧
      (∀ y d, Reach G.adj starts y → y ∉ starts → G.dist y = some d → y ∉ b'.written.map (·.1) →
        ∀ x ∈ b'.written, x.2 ≤ d) := by
  obtain ⟨s, h1, h2, h3, h4⟩ := C14_exact_on_reachable pad G V starts l beam hG hn hl hb fuel hf
    reachable hreach hd hlen
  unfold Buf.new at hbuf
  split at hbuf
  case isFalse => simp at hbuf
  rename_i hll
  simp only [Option.some.injEq] at hbuf
  subst hbuf
  set cands := s.best.iter.filter fun x => decide (x.1 ∉ starts) with hc
  obtain ⟨e1, -, -, -⟩ := extend_closed (⟨ids, distances, 0⟩ : Buf I D) cands hll (Nat.zero_le _)
  have e2 := written_extend (⟨ids, distances, 0⟩ : Buf I D) cands hll (Nat.zero_le _)
  simp only [Buf.written, List.take_zero, List.nil_append, Nat.sub_zero] at e1 e2
  have hsort : cands.Pairwise (fun a b => a.2 ≤ b.2) := h2.sublist List.filter_sublist
  have hnd : (cands.map (·.1)).Nodup := h3.sublist (List.filter_sublist.map _)
  have hcm : ∀ i d, (i, d) ∈ cands ↔ (Reach G.adj starts i ∧ G.dist i = some d) ∧ i ∉ starts := by
    intro i d; rw [hc, List.mem_filter, h4]; simp
  have hclen : cands.length = (reachable.filter fun x => decide (x ∉ starts)).length := by
    rw [← List.length_map (f := (·.1))]
    apply List.Perm.length_eq
    rw [List.perm_ext_iff_of_nodup hnd (hrn.filter _)]
    intro a
    simp only [List.mem_map, List.mem_filter, decide_eq_true_eq]
    constructor
    · rintro ⟨⟨i, d⟩, hm, rfl⟩
      have := (hcm i d).mp hm
      exact ⟨(hreach i).mpr this.1.1, this.2⟩
    · rintro ⟨ha, hs⟩
      obtain ⟨d, hd'⟩ := Option.ne_none_iff_exists'.mp (hd a ha)
      exact ⟨(a, d), (hcm a d).mpr ⟨⟨(hreach a).mp ha, hd'⟩, hs⟩, rfl⟩
  refine ⟨s, (postProcess starts s.best.iter ⟨ids, distances, 0⟩).1,
    (postProcess starts s.best.iter ⟨ids, distances, 0⟩).2, ?_, ?_, ?_, ?_, ?_, ?_, ?_⟩
  · unfold knnSearch; rw [h1]
  · unfold postProcess; rw [← hc, e1, hclen]
  · unfold postProcess Buf.written; rw [← hc, e1, e2]; simp
  · unfold postProcess Buf.written; rw [← hc, e2]; exact hsort.sublist (List.take_sublist _ _)
  · unfold postProcess Buf.written; rw [← hc, e2]; exact hnd.sublist ((List.take_sublist _ _).map _)
  · unfold postProcess Buf.written; rw [← hc, e2]
    intro x hx
    have := (hcm x.1 x.2).mp (List.mem_of_mem_take hx)
    exact ⟨this.1.1, this.2, this.1.2⟩
  · unfold postProcess Buf.written; rw [← hc, e2]
    intro y d hy hys hyd hnot x hx
    have hmem : (y, d) ∈ cands := (hcm y d).mpr ⟨⟨hy, hyd⟩, hys⟩
    rw [← List.take_append_drop ids.length cands] at hmem hsort
    rcases List.mem_append.mp hmem with h | h
    · exact absurd (List.mem_map.mpr ⟨_, h, rfl⟩) hnot
    · exact (List.pairwise_append.mp hsort).2.2 x hx _ h

/-! ## C15 -/

/-- **C15.** Whatever the list size, beam width and early-stop behaviour: the result list has at most
`l` plus the number of start points entries, is sorted by distance, contains no vertex twice, every
entry carries its true distance and is reachable; and it is the best possible among all vertices
evaluated — anything evaluated and left out is at least as far as everything listed, and nothing is left
out unless the list is full. -/
theorem C15_results_sound (pad : D) (G : Graph I D) (V starts : List I) (l beam : Nat)
    (stop : Nat → Bool) (hG : FiniteGraph V G.adj starts) (hn : starts.Nodup) (hl : 1 ≤ l)
    (hb : 1 ≤ beam) (fuel : Nat) (hf : V.length < fuel) :
    ∃ s, knnTraverse pad G starts l beam stop fuel = some s ∧
      s.best.iter.length ≤ l + starts.length ∧
      s.best.iter.Pairwise (fun a b => a.2 ≤ b.2) ∧ (s.best.iter.map (·.1)).Nodup ∧
      (∀ x ∈ s.best.iter, G.dist x.1 = some x.2 ∧ Reach G.adj starts x.1 ∧ x.1 ∈ s.computed) ∧
      (∀ y d, y ∈ s.computed → G.dist y = some d → y ∉ s.best.iter.map (·.1) →
        s.best.iter.length = l + starts.length ∧ ∀ x ∈ s.best.iter, x.2 ≤ d) := by
  obtain ⟨s, new, h1, h2, h3, ⟨q1, q2, q3, q4⟩, h5, h6, h7, h8, h9, h10⟩ := knn_spec pad G starts l beam stop
    (R := Reach G.adj starts) (fun x y hx _ he => .step hx he) (fun x hx => .start hx) V
    (reach_mem hG) hn hl hb fuel hf
  have hiter := iter_eq_contents s.best h3 (by rw [q2, q3])
  obtain ⟨m1, m2, rej, m3, m4⟩ := C01_bestOf_meaning (l + starts.length) (s.computed.map fun i => (i, G.dist i))
  rw [← q4, ← hiter] at m1 m2 m3 m4
  refine ⟨s, h1, by omega, m1, ?_, ?_, ?_⟩
  · rw [hiter]
    have := h2.ids_nodup
    unfold Queue.contents
    simpa [Function.comp_def] using this
  · rintro ⟨i, d⟩ hx
    have : (i, d) ∈ comparable (s.computed.map fun i => (i, G.dist i)) :=
      m3.mem_iff.mp (List.mem_append_left _ hx)
    rw [comparable_map] at this
    exact ⟨this.2, h2.reach i (by rw [h6]; exact this.1), this.1⟩
  · intro y d hy hyd hnot
    have : (y, d) ∈ s.best.iter ++ rej := m3.mem_iff.mpr ((comparable_map G _ y d).mpr ⟨hy, hyd⟩)
    rcases List.mem_append.mp this with h | h
    · exact absurd (List.mem_map.mpr ⟨_, h, rfl⟩) hnot
    · refine ⟨?_, fun x hx => m4 x hx _ h⟩
      have hr : 0 < rej.length := List.length_pos_of_mem h
      have := m3.length_eq
      rw [List.length_append, m2] at this
      omega

/-! ## C16 -/

theorem countLoop_sound (adj : I → List I) (starts : List I) (fuel : Nat) (queue expanded out : List I)
    (hq : ∀ x ∈ queue, Reach adj starts x) (he : ∀ x ∈ expanded, Reach adj starts x)
    (hn : expanded.Nodup) (hcl : ∀ x ∈ expanded, ∀ y ∈ adj x, y ∈ expanded ∨ y ∈ queue)
    (h : countLoop adj fuel queue expanded = some out) :
    out.Nodup ∧ (∀ x ∈ out, Reach adj starts x) ∧ (∀ x ∈ out, ∀ y ∈ adj x, y ∈ out) ∧
    (∀ x, x ∈ expanded ∨ x ∈ queue → x ∈ out) := by
  induction fuel generalizing queue expanded with
  | zero =>
    cases queue with
    | nil =>
      simp only [countLoop, Option.some.injEq] at h
      subst h
      exact ⟨hn, he, fun x hx y hy => by simpa using hcl x hx y hy, by simp⟩
    | cons a q => simp [countLoop] at h
  | succ fuel ih =>
    cases queue with
    | nil =>
      simp only [countLoop, Option.some.injEq] at h
      subst h
      exact ⟨hn, he, fun x hx y hy => by simpa using hcl x hx y hy, by simp⟩
    | cons a q =>
      rw [countLoop] at h
      by_cases ha : a ∈ expanded
      · rw [if_pos ha] at h
        obtain ⟨r1, r2, r3, r4⟩ := ih q expanded (fun x hx => hq x (List.mem_cons_of_mem _ hx)) he hn (by
          intro x hx y hy
          rcases hcl x hx y hy with h | h
          · exact Or.inl h
          · rcases List.mem_cons.mp h with rfl | h
            · exact Or.inl ha
            · exact Or.inr h) h
        refine ⟨r1, r2, r3, ?_⟩
        intro x hx
        rcases hx with hx | hx
        · exact r4 x (Or.inl hx)
        · rcases List.mem_cons.mp hx with rfl | hx
          · exact r4 x (Or.inl ha)
          · exact r4 x (Or.inr hx)
      · rw [if_neg ha] at h
        have hra := hq a (by simp)
        obtain ⟨r1, r2, r3, r4⟩ := ih (q ++ adj a) (expanded ++ [a]) (by
            intro x hx
            rcases List.mem_append.mp hx with h | h
            · exact hq x (List.mem_cons_of_mem _ h)
            · exact .step hra h)
          (by
            intro x hx
            rcases List.mem_append.mp hx with h | h
            · exact he x h
            · simp only [List.mem_singleton] at h; subst h; exact hra)
          (by
            rw [List.nodup_append]
            refine ⟨hn, by simp, ?_⟩
            intro x hx y hy hxy
            simp only [List.mem_singleton] at hy
            subst hxy; subst hy; exact ha hx)
          (by
            intro x hx y hy
            rcases List.mem_append.mp hx with h | h
            · rcases hcl x h y hy with h | h
              · left; exact List.mem_append_left _ h
              · rcases List.mem_cons.mp h with rfl | h
                · left; simp
                · right; exact List.mem_append_left _ h
            · simp only [List.mem_singleton] at h; subst h
              right; exact List.mem_append_right _ hy) h
        refine ⟨r1, r2, r3, ?_⟩
        intro x hx
        rcases hx with hx | hx
        · exact r4 x (Or.inl (List.mem_append_left _ hx))
        · rcases List.mem_cons.mp hx with rfl | hx
          · exact r4 x (Or.inl (by simp))
          · exact r4 x (Or.inr (List.mem_append_left _ hx))

theorem sum_filter_le (adj : I → List I) (E : List I) (a : I) (V : List I) (ha : a ∈ V) (hE : a ∉ E) :
    ((V.filter fun v => decide (v ∉ E ++ [a])).map fun v => (adj v).length).sum + (adj a).length
      ≤ ((V.filter fun v => decide (v ∉ E)).map fun v => (adj v).length).sum := by
  have hle : ∀ V : List I, ((V.filter fun v => decide (v ∉ E ++ [a])).map fun v => (adj v).length).sum
      ≤ ((V.filter fun v => decide (v ∉ E)).map fun v => (adj v).length).sum := by
    intro V
    induction V with
    | nil => simp
    | cons v V ih =>
      rw [List.filter_cons, List.filter_cons]
      by_cases h1 : v ∈ E
      · have : v ∈ E ++ [a] := List.mem_append_left _ h1
        simp only [this, h1, not_true, decide_false, Bool.false_eq_true, if_false]; exact ih
      · by_cases h2 : v ∈ E ++ [a]
        · simp only [h1, h2, not_true, not_false_eq_true, decide_false, decide_true, Bool.false_eq_true,
            if_false, if_true, List.map_cons, List.sum_cons]; omega
        · simp only [h1, h2, not_false_eq_true, decide_true, if_true, List.map_cons, List.sum_cons]; omega
  induction V with
  | nil => simp at ha
  | cons v V ih =>
    rw [List.filter_cons, List.filter_cons]
    by_cases hv : a = v
    · subst hv
      have := hle V
      have h2 : a ∈ E ++ [a] := by simp
      simp only [hE, h2, not_true, not_false_eq_true, decide_false, decide_true, Bool.false_eq_true,
        if_false, if_true, List.map_cons, List.sum_cons]; omega
    · have ha' : a ∈ V := by
        rcases List.mem_cons.mp ha with h | h
        · exact absurd h hv
        · exact h
      have := ih ha'
      by_cases h1 : v ∈ E
      · have h2 : v ∈ E ++ [a] := List.mem_append_left _ h1
        simp only [h2, h1, not_true, decide_false, Bool.false_eq_true, if_false]; exact this
      · have h2 : v ∉ E ++ [a] := by
          simp only [List.mem_append, List.mem_singleton, not_or]
          exact ⟨h1, fun h => hv h.symm⟩
        simp only [h1, h2, not_false_eq_true, decide_true, if_true, List.map_cons, List.sum_cons]; omega

theorem countLoop_terminates (adj : I → List I) (V : List I) (hV : ∀ x ∈ V, ∀ y ∈ adj x, y ∈ V)
    (fuel : Nat) (queue expanded : List I) (hq : ∀ x ∈ queue, x ∈ V)
    (hf : queue.length + ((V.filter fun v => decide (v ∉ expanded)).map fun v => (adj v).length).sum ≤ fuel) :
    ∃ out, countLoop adj fuel queue expanded = some out := by
  induction fuel generalizing queue expanded with
  | zero =>
    cases queue with
    | nil => exact ⟨_, rfl⟩
    | cons a q => simp at hf
  | succ fuel ih =>
    cases queue with
    | nil => exact ⟨_, rfl⟩
    | cons a q =>
      rw [countLoop]
      by_cases ha : a ∈ expanded
      · rw [if_pos ha]
        refine ih q expanded (fun x hx => hq x (List.mem_cons_of_mem _ hx)) ?_
        simp only [List.length_cons] at hf; omega
      · rw [if_neg ha]
        refine ih _ _ ?_ ?_
        · intro x hx
          rcases List.mem_append.mp hx with h | h
          · exact hq x (List.mem_cons_of_mem _ h)
          · exact hV a (hq a (by simp)) x h
        · have := sum_filter_le adj expanded a V (hq a (by simp)) ha
          simp only [List.length_cons, List.length_append] at hf ⊢
          omega

/-- **C16.** On every finite graph the count terminates and equals the number of distinct vertices
reachable from the start points, for every list `reachable` enumerating them without repetition. -/
theorem C16_reachable_count (adj : I → List I) (V starts : List I) (hG : FiniteGraph V adj starts)
    (reachable : List I) (hn : reachable.Nodup) (hr : ∀ x, x ∈ reachable ↔ Reach adj starts x)
    (fuel : Nat) (hf : starts.length + (V.map fun v => (adj v).length).sum ≤ fuel) :
    countReachable adj starts fuel = some reachable.length := by
  have hsum : ((V.filter fun v => decide (v ∉ ([] : List I))).map fun v => (adj v).length).sum
      = (V.map fun v => (adj v).length).sum := by simp
  obtain ⟨out, ho⟩ := countLoop_terminates adj V hG.closed fuel starts [] hG.starts_mem (by omega)
  obtain ⟨h1, h2, h3, h4⟩ := countLoop_sound adj starts fuel starts [] out (fun x hx => .start hx)
    (by simp) (by simp) (by simp) ho
  unfold countReachable
  rw [ho]
  simp only [Option.map_some, Option.some.injEq]
  apply List.Perm.length_eq
  rw [List.perm_ext_iff_of_nodup h1 hn]
  intro x
  rw [hr]
  refine ⟨h2 x, fun h => ?_⟩
  induction h with
  | start hs => exact h4 _ (Or.inr hs)
  | step _ he ih => exact h3 _ ih _ he

/-! ## C58: pooled scratch space -/

/-- **C58.** Taking a used scratch space from the pool and configuring it for a new search gives exactly
the state of a newly created one, whatever the previous search left behind. -/
theorem C58_pooled_scratch_is_fresh (s : St I D) (l frozen : Nat) :
    s.modify l frozen = St.create l frozen := by
  unfold St.modify St.create St.clear Queue.clear Queue.new Queue.reconfigure
  simp only [Queue.size, List.length_nil, Nat.not_lt_zero, if_false]
  split
  · rfl
  · rename_i h
    simp only [Bool.not_eq_true] at h
    rw [h]

/-! ## Non-vacuity: a concrete graph -/

/-- Six vertices with a cycle 0 → 1 → 2 → 0, a dangling leaf 4, an unreachable vertex 5 and a NaN
vertex 3 in front of nothing. -/
def demoG : Graph Nat Int where
  adj := fun | 0 => [1, 4] | 1 => [2, 0] | 2 => [0, 1, 3] | 5 => [0] | _ => []
  dist := fun | 0 => some 9 | 1 => some 4 | 2 => some 1 | 3 => none | 4 => some 7 | 5 => some 0 | _ => none

theorem demoG_finite : FiniteGraph [0, 1, 2, 3, 4, 5] demoG.adj [0] := by
  constructor
  · simp
  · decide

/-- C13, C15 apply with list size 2, beam width 2. -/
example : (knnTraverse 0 demoG [0] 2 2 (fun _ => false) 7).map
    (fun s => (s.best.iter, s.cmps, s.hops, s.expanded)) =
      some ([(2, 1), (1, 4), (4, 7)], 5, 4, [0, 1, 4, 2]) := by
  decide +kernel

example := C13_search_at_most_once 0 demoG [0, 1, 2, 3, 4, 5] [0] 2 2 (fun _ => false) demoG_finite
  (by simp) (by omega) (by omega) 7 (by simp)

/-- A graph without NaN for C14 and C16; 0, 1, 2, 4 are reachable from 0. -/
def demoG' : Graph Nat Int where
  adj := fun | 0 => [1, 4] | 1 => [2, 0] | 2 => [0, 1] | 5 => [0] | _ => []
  dist := fun | 0 => some 9 | 1 => some 4 | 2 => some 1 | 4 => some 7 | 5 => some 0 | _ => none

theorem demoG'_finite : FiniteGraph [0, 1, 2, 4, 5] demoG'.adj [0] := by
  constructor
  · simp
  · decide

theorem demoG'_reach (x : Nat) : x ∈ [0, 1, 2, 4] ↔ Reach demoG'.adj [0] x := by
  constructor
  · intro h
    have r0 : Reach demoG'.adj [0] 0 := .start (by simp)
    have r1 : Reach demoG'.adj [0] 1 := .step r0 (by decide)
    have r2 : Reach demoG'.adj [0] 2 := .step r1 (by decide)
    have r4 : Reach demoG'.adj [0] 4 := .step r0 (by decide)
    simp only [List.mem_cons, List.not_mem_nil, or_false] at h
    rcases h with rfl | rfl | rfl | rfl <;> assumption
  · intro h
    induction h with
    | start h => simp at h; subst h; simp
    | step _ he ih =>
      have : ∀ x ∈ [0, 1, 2, 4], ∀ y ∈ demoG'.adj x, y ∈ [0, 1, 2, 4] := by decide
      exact this _ ih _ he

example := C14_exact_on_reachable 0 demoG' [0, 1, 2, 4, 5] [0] 4 1 demoG'_finite (by simp) (by omega)
  (by omega) 6 (by simp) [0, 1, 2, 4] demoG'_reach (by decide) (by simp)

example := C14_true_k_nearest 0 demoG' [0, 1, 2, 4, 5] [0] 4 1 demoG'_finite (by simp) (by omega)
  (by omega) 6 (by simp) [0, 1, 2, 4] demoG'_reach (by decide) (by decide) (by simp)
  [100, 100] [50, 50] _ rfl

/-- What it computes: the two nearest are 2 and 1. -/
example : (knnSearch 0 demoG' [0] 4 1 (fun _ => false) 6 ⟨[100, 100], [50, 50], 0⟩).map
    (fun r => (r.2.1, r.2.2.ids, r.2.2.distances)) = some (2, [2, 1], [1, 4]) := by
  decide +kernel

example : countReachable demoG'.adj [0, 4] 20 = some 4 := by decide

example := C16_reachable_count demoG'.adj [0, 1, 2, 4, 5] [0] demoG'_finite [0, 1, 2, 4] (by decide)
  demoG'_reach 8 (by decide)

/-- C14 is not vacuous in its list-size hypothesis: with a list size below the number of reachable
vertices the search can miss the nearest one (a "valley": the good vertex hides behind a bad one). -/
def valleyG : Graph Nat Int where
  adj := fun | 0 => [1, 2] | 2 => [3] | _ => []
  dist := fun | 0 => some 5 | 1 => some 4 | 2 => some 9 | 3 => some 0 | _ => none

example : (knnTraverse 0 valleyG [0] 1 1 (fun _ => false) 7).map (fun s => s.best.iter) =
    some [(1, 4), (0, 5)] := by
  decide +kernel

end Verif.Search
