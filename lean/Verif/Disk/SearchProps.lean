import Verif.Disk.SearchApiLemmas
import Mathlib.Tactic.IntervalCases

/-!
# C81: searching a disk index

`pad` is the padding value of the SIMD tail load of the candidate list, `zero` and `dflt` the values the
output buffers are filled with, `srt` the unstable sort (any sorting function), `fuel` the allowance of
the traversal loop (any number above the number of points), `pooled` the scratch found in the pool.
-/

namespace Verif.DiskSearch

open Verif.Queue Verif.Search

variable {V A D : Type} [LinearOrder D]

/-! ## Flat scan -/

/-- The ids the flat scan hands to reranking. -/
theorem flat_cands (l : Nat) (ix : Index V A D) (ids : List Nat) (hn : ids.Nodup) :
    (((bestOf l (ids.map fun i => (i, ix.quant i))).map (·.1)).Nodup) ∧
    (∀ i ∈ (bestOf l (ids.map fun i => (i, ix.quant i))).map (·.1), i ∈ ids) ∧
    ((∀ i ∈ ids, ix.quant i ≠ none) → ids.length ≤ l →
      ((bestOf l (ids.map fun i => (i, ix.quant i))).map (·.1)).Perm ids) := by
  obtain ⟨-, h2, rej, h3, -⟩ := C01_bestOf_meaning l (ids.map fun i => (i, ix.quant i))
  have hG := comparable_map_ids (⟨fun _ => [], ix.quant⟩ : Graph Nat D) ids
  simp only at hG
  have hp := h3.map (·.1)
  rw [hG, List.map_append] at hp
  have hnd : ((bestOf l (ids.map fun i => (i, ix.quant i))).map (·.1) ++ rej.map (·.1)).Nodup :=
    hp.nodup_iff.mpr (hn.filter _)
  refine ⟨(List.nodup_append.mp hnd).1, ?_, ?_⟩
  · intro i hi
    exact (List.mem_filter.mp (hp.mem_iff.mp (List.mem_append_left _ hi))).1
  · intro hq hl
    have hall : ids.filter (fun i => (ix.quant i).isSome) = ids := by
      rw [List.filter_eq_self]
      intro i hi
      exact Option.isSome_iff_ne_none.mpr (hq i hi)
    rw [hall] at hp hG
    have hlen : (comparable (ids.map fun i => (i, ix.quant i))).length = ids.length := by
      have := congrArg List.length hG
      simpa using this
    rw [hlen, Nat.min_eq_right hl] at h2
    have := hp.length_eq
    simp only [List.length_append, List.length_map] at this
    have hr : rej = [] := List.length_eq_zero_iff.mp (by omega)
    rw [hr] at hp
    simpa using hp

/-- **C81, flat scan.** For every usable index, filter, list size of at least one, `k` not above it, and
whatever the pooled scratch held: the candidates are the best `l` by quantized distance of the points
accepted by the filter; `search_with_indexed_vectors` returns the `k` closest of these by full-precision
distance, closest first, each with its own stored data and vector; `search` returns the same, followed by
fill values up to `k`; the reported number of comparisons is the number of accepted points. -/
theorem C81_flat (pad zero : D) (dflt : A) (srt : List (Nat × A × D) → List (Nat × A × D)) (hs : IsSort srt)
    (fuel : Nat) (ix : Index V A D) (hw : WellFormed ix) (k l : Nat) (hl : 1 ≤ l) (hk : k ≤ l)
    (beam : Option Nat) (filter : Nat → Bool) :
    ∃ results : List (Nat × D × A × V),
      TopK ix ((bestOf l (((List.range ix.numPoints).filter filter).map fun i => (i, ix.quant i))).map (·.1))
        k results ∧
      ∀ pooled : Acc V A D,
        search pad zero dflt srt fuel ix pooled k l beam (.flat filter)
          = .ok (padded zero dflt k results,
              ⟨((List.range ix.numPoints).filter filter).length, 0, results.length, 0⟩) ∧
        searchWithVectors pad zero dflt srt fuel ix pooled k l beam (.flat filter)
          = .ok (results, ⟨((List.range ix.numPoints).filter filter).length, 0, results.length, 0⟩) := by
  set ids := (List.range ix.numPoints).filter filter with hids
  have hidn : ids.Nodup := List.nodup_range.filter _
  have hidlt : ∀ i ∈ ids, i < ix.numPoints := fun i hi => List.mem_range.mp (List.mem_filter.mp hi).1
  obtain ⟨c1, c2, -⟩ := flat_cands l ix ids hidn
  set cands := (bestOf l (ids.map fun i => (i, ix.quant i))).map (·.1) with hcands
  obtain ⟨q, q1, -, q3⟩ := C01_queue_best_l pad l hl (ids.map fun i => (i, ix.quant i))
  have hscan := scan_ok pad ix hw.capacity (ix.numPoints + 1) ids (Queue.new l) q 0 hidlt
    (by
      have := List.length_filter_le filter (List.range ix.numPoints)
      rw [List.length_range, ← hids] at this
      omega) q1
  have hclt : ∀ i ∈ cands, i < ix.numPoints := fun i hi => hidlt i (c2 i hi)
  have hctrue : cands.filter (fun _ => true) = cands := by simp
  have hL := hs.perm (rerankList ix [] cands)
  have htop := topK_of_sorted ix hw k cands _
    (show (cands.filter (fun n => decide (n ∈ ([] : List Nat))) ++ cands.filter fun n => decide (n ∉ ([] : List Nat))).Perm cands by
      simp) c1 hclt _ hL (hs.sorted _)
  have hst : ∀ x ∈ srt (rerankList ix [] cands), ∃ v, ix.node x.1 = some v := by
    intro x hx
    obtain ⟨i, hi, he⟩ := List.mem_filterMap.mp (hL.mem_iff.mp hx)
    obtain ⟨v, hv, rfl⟩ := Option.map_eq_some_iff.mp he
    exact ⟨v, hv⟩
  have hlen : (srt (rerankList ix [] cands)).length = cands.length := by
    have h1 := hL.length_eq
    have h2 := congrArg List.length (rerankList_ids ix hw cands hclt)
    rw [List.length_map] at h2
    rw [h1]
    simpa [rerankList] using h2
  refine ⟨_, htop, fun pooled => ?_⟩
  rw [htop.count]
  refine api_eq ix pooled k l beam (.flat filter) ⟨ids.length, 0, min k cands.length, 0⟩ _ hst (by rw [hlen]) ?_
  intro wv
  obtain ⟨o, o1, o2⟩ := out_new (V := V) k zero dflt wv
  obtain ⟨a', o', r1, r2, -, r4⟩ := rerank_ok srt hs ix hw (fun _ => true) wv (Acc.new pooled wv) []
    (accInv_new ix pooled wv) cands c1 hclt o o2
  rw [hctrue] at r1 r4
  refine ⟨a', o', ?_, r4⟩
  unfold searchImpl
  rw [if_neg (by omega), o1, ok_bind]
  show flatSearch pad srt ix filter l (Acc.new pooled wv) o = _
  unfold flatSearch
  rw [if_neg (by have := hw.capacity; omega)]
  dsimp only
  rw [← hids, hscan, ok_bind]
  dsimp only
  rw [q3, ← hcands, r1, ok_bind]
  dsimp only
  rw [pure_ok, r2]
  simp [Acc.new]

theorem TopK.perm {ix : Index V A D} {c c' : List Nat} {k : Nat} {r : List (Nat × D × A × V)} (h : TopK ix c k r)
    (hp : c.Perm c') : TopK ix c' k r :=
  ⟨fun x hx => hp.mem_iff.mp (h.mem x hx), h.faithful, h.distinct, h.sorted, by rw [h.count, hp.length_eq],
   fun i hi => h.best i (hp.mem_iff.mpr hi)⟩

/-- **C81, the flat scan is exact.** If the list is long enough for every accepted point and no quantized
distance is NaN, the flat scan returns the true `k` nearest accepted points. -/
theorem C81_flat_exact (pad zero : D) (dflt : A) (srt : List (Nat × A × D) → List (Nat × A × D)) (hs : IsSort srt)
    (fuel : Nat) (ix : Index V A D) (hw : WellFormed ix) (k l : Nat) (hl : 1 ≤ l) (hk : k ≤ l)
    (beam : Option Nat) (filter : Nat → Bool)
    (hlen : ((List.range ix.numPoints).filter filter).length ≤ l) (hq : ∀ i, i < ix.numPoints → ix.quant i ≠ none) :
    ∃ results : List (Nat × D × A × V), TopK ix ((List.range ix.numPoints).filter filter) k results ∧
      ∀ pooled : Acc V A D, ∃ st, searchWithVectors pad zero dflt srt fuel ix pooled k l beam (.flat filter) = .ok (results, st) := by
  obtain ⟨r, h1, h2⟩ := C81_flat pad zero dflt srt hs fuel ix hw k l hl hk beam filter
  have hp := (flat_cands l ix ((List.range ix.numPoints).filter filter) (List.nodup_range.filter _)).2.2
    (fun i hi => hq i (List.mem_range.mp (List.mem_filter.mp hi).1)) hlen
  exact ⟨r, h1.perm hp, fun p => ⟨_, (h2 p).2⟩⟩

/-! ## Graph search -/

omit [LinearOrder D] in
theorem graphOn_reach {ix : Index V A D} {E : List Nat} {x : Nat} (h : Reach (ix.graphOn E).adj [ix.medoid] x) :
    Reach ix.graph.adj [ix.medoid] x := by
  induction h with
  | start hs => exact .start hs
  | step _ he ih =>
    simp only [Index.graphOn] at he
    split at he
    · exact .step ih he
    · simp at he

omit [LinearOrder D] in
theorem graphOn_finite {ix : Index V A D} (hw : WellFormed ix) (E : List Nat) :
    FiniteGraph (List.range ix.numPoints) (ix.graphOn E).adj [ix.medoid] := by
  refine ⟨by simpa using hw.medoid, ?_⟩
  intro x hx y hy
  obtain ⟨v, hv⟩ := hw.stored x (List.mem_range.mp hx)
  simp only [Index.graphOn] at hy
  split at hy
  · rw [hv] at hy
    exact List.mem_range.mpr (hw.edges x v hv y (by simpa using hy))
  · simp at hy

/-- A traversal that expands no more vertices than the limit is the unlimited traversal. -/
theorem unlimited (pad : D) (ix : Index V A D) (l beam fuel n : Nat) (s : St Nat D) (hle : s.expanded.length ≤ n)
    (h : knnTraverse pad (ix.graphOn (s.expanded.take n)) [ix.medoid] l beam (fun _ => false) fuel = some s) :
    knnTraverse pad ix.graph [ix.medoid] l beam (fun _ => false) fuel = some s := by
  rw [List.take_of_length_le hle] at h
  unfold knnTraverse searchInternal at h ⊢
  rw [if_pos (by simp [St.create])] at h ⊢
  have : [ix.medoid].foldlM (addStart pad ix.graph) (St.create l [ix.medoid].length)
      = [ix.medoid].foldlM (addStart pad (ix.graphOn s.expanded)) (St.create l [ix.medoid].length) := rfl
  rw [this]
  split at h
  · cases h
  · refine searchLoop_congr pad (ix.graphOn s.expanded) ix.graph beam _ rfl fuel _ _ _ h ?_
    intro x hx
    simp only [Index.graphOn, Index.graph]
    rw [if_pos hx]

/-- What the graph search of the disk index does, for both entry points and any pooled scratch. -/
theorem graph_spec (pad zero : D) (dflt : A) (srt : List (Nat × A × D) → List (Nat × A × D)) (hs : IsSort srt)
    (fuel : Nat) (ix : Index V A D) (hw : WellFormed ix) (hf : ix.numPoints < fuel) (k l : Nat) (hl : 1 ≤ l) (hk : k ≤ l)
    (beam : Option Nat) (hb : beam ≠ some 0) (filter : Nat → Bool) :
    ∃ (s : St Nat D) (results : List (Nat × D × A × V)),
      s.expanded.Nodup ∧ (∀ x ∈ s.expanded, Reach ix.graph.adj [ix.medoid] x) ∧
      knnTraverse pad (ix.graphOn (s.expanded.take ix.ioLimit)) [ix.medoid] l (beam.getD 1) (fun _ => false) fuel
        = some s ∧
      TopK ix ((s.best.iter.map (·.1)).filter filter) k results ∧
      ∀ (pooled : Acc V A D) (wv : Bool),
        (∃ a o, searchImpl pad zero dflt srt fuel ix pooled k l beam wv (.graph filter)
          = .ok (a, ⟨s.cmps, s.hops, results.length, min ix.ioLimit s.expanded.length⟩, o) ∧
          a.reads = s.expanded.take ix.ioLimit ++ ((s.best.iter.map (·.1)).filter filter).filter
            fun n => decide (n ∉ s.expanded.take ix.ioLimit)) ∧
        search pad zero dflt srt fuel ix pooled k l beam (.graph filter)
          = .ok (padded zero dflt k results, ⟨s.cmps, s.hops, results.length, min ix.ioLimit s.expanded.length⟩) ∧
        searchWithVectors pad zero dflt srt fuel ix pooled k l beam (.graph filter)
          = .ok (results, ⟨s.cmps, s.hops, results.length, min ix.ioLimit s.expanded.length⟩) := by
  have hb1 : 1 ≤ beam.getD 1 := by
    cases beam with
    | none => simp
    | some b =>
      have : b ≠ 0 := fun h => hb (by rw [h])
      simp only [Option.getD_some]; omega
  have hknn : knnNew l beam = .ok (l, beam.getD 1) := by
    unfold knnNew
    rw [if_neg (by omega)]
    cases beam with
    | none => rfl
    | some b =>
      cases b with
      | zero => exact absurd rfl hb
      | succ b => rfl
  obtain ⟨s, t1, t2, t3⟩ := traverse_spec pad ix hw l (beam.getD 1) fuel hl hb1 hf
  set E := s.expanded.take ix.ioLimit with hE
  obtain ⟨s', e1, -, e3, e4, e5, -⟩ := C15_results_sound pad (ix.graphOn E) (List.range ix.numPoints) [ix.medoid] l
    (beam.getD 1) (fun _ => false) (graphOn_finite hw E) (by simp) hl hb1 fuel (by simpa using hf)
  rw [t3] at e1; cases e1
  obtain ⟨s', new, f1, core, -⟩ := knn_spec pad (ix.graphOn E) [ix.medoid] l (beam.getD 1) (fun _ => false)
    (R := Reach (ix.graphOn E).adj [ix.medoid]) (fun x y hx _ he => .step hx he) (fun x hx => .start hx)
    (List.range ix.numPoints) (reach_mem (graphOn_finite hw E)) (by simp) hl hb1 fuel (by simpa using hf)
  rw [t3] at f1; cases f1
  have hreach : ∀ x ∈ s.expanded, Reach ix.graph.adj [ix.medoid] x :=
    fun x hx => graphOn_reach (core.reach x (core.exp_visited x hx))
  set cands := s.best.iter.map (·.1) with hcands
  have hclt : ∀ i ∈ cands, i < ix.numPoints := by
    intro i hi
    obtain ⟨x, hx, rfl⟩ := List.mem_map.mp hi
    exact List.mem_range.mp (reach_mem (graphOn_finite hw E) _ (e5 x hx).2.1)
  have hnf := e4.filter filter
  have hltf : ∀ i ∈ cands.filter filter, i < ix.numPoints := fun i hi => hclt i (List.mem_filter.mp hi).1
  set ids := cands.filter filter with hids
  have hL := hs.perm (rerankList ix E ids)
  have hperm : (ids.filter (fun n => decide (n ∈ E)) ++ ids.filter fun n => decide (n ∉ E)).Perm ids := by
    have : (fun n => decide (n ∉ E)) = fun n => !decide (n ∈ E) := by funext n; simp
    rw [this]
    exact List.filter_append_perm _ _
  have htop := topK_of_sorted ix hw k ids _ hperm hnf hltf _ hL (hs.sorted _)
  have hst : ∀ x ∈ srt (rerankList ix E ids), ∃ v, ix.node x.1 = some v := by
    intro x hx
    obtain ⟨i, hi, he⟩ := List.mem_filterMap.mp (hL.mem_iff.mp hx)
    obtain ⟨v, hv, rfl⟩ := Option.map_eq_some_iff.mp he
    exact ⟨v, hv⟩
  have hlen : (srt (rerankList ix E ids)).length = ids.length := by
    have h1 := hL.length_eq
    have h2 := congrArg List.length (rerankList_ids ix hw _ (fun i hi => hltf i (hperm.mem_iff.mp hi)))
    rw [List.length_map, hperm.length_eq] at h2
    rw [h1]
    exact h2
  refine ⟨s, _, t2, hreach, t3, htop, fun pooled wv => ?_⟩
  rw [htop.count]
  have himpl : ∀ wv, ∃ a o, searchImpl pad zero dflt srt fuel ix pooled k l beam wv (.graph filter)
      = .ok (a, ⟨s.cmps, s.hops, min k ids.length, min ix.ioLimit s.expanded.length⟩, o) ∧
      a.reads = E ++ ids.filter (fun n => decide (n ∉ E)) ∧
      Holds k zero dflt wv o (((srt (rerankList ix E ids)).map (toItem ix wv)).take k) := by
    intro wv
    obtain ⟨o, o1, o2⟩ := out_new (V := V) k zero dflt wv
    obtain ⟨a, u1, u2⟩ := t1 pooled wv
    obtain ⟨a', o', r1, r2, r3, r4⟩ := rerank_ok srt hs ix hw filter wv a E u2 cands e4 hclt o o2
    refine ⟨a', o', ?_, by rw [r3, u2.reads], r4⟩
    unfold searchImpl
    rw [if_neg (by omega), o1, ok_bind]
    unfold runMode
    dsimp only
    rw [hknn, ok_bind]
    dsimp only
    rw [u1, ok_bind]
    dsimp only
    rw [← hcands, r1, ok_bind]
    dsimp only
    rw [pure_ok, r2, u2.io, hE, List.length_take]
  refine ⟨?_, ?_⟩
  · obtain ⟨a, o, h1, h2, -⟩ := himpl wv
    exact ⟨a, o, h1, h2⟩
  · refine api_eq ix pooled k l beam (.graph filter) _ _ hst (by rw [hlen]) ?_
    intro wv
    obtain ⟨a, o, h1, -, h3⟩ := himpl wv
    exact ⟨a, o, h1, h3⟩

/-- **C81, graph search.** For every usable index, list size and beam width of at least one, `k` not above
the list size, filter, I/O limit, and whatever the pooled scratch held: the traversal is the in-memory
search over quantized distances (C13–C15) on the stored graph in which only the first `search_io_limit`
vertices it expands have out-edges — on the stored graph itself if it expands no more than that; the
results are the `k` closest by full-precision distance of its candidates that pass the filter, closest
first, each with its own stored data and vector; `search` returns the same followed by fill values up to
`k`. -/
theorem C81_graph (pad zero : D) (dflt : A) (srt : List (Nat × A × D) → List (Nat × A × D)) (hs : IsSort srt)
    (fuel : Nat) (ix : Index V A D) (hw : WellFormed ix) (hf : ix.numPoints < fuel) (k l : Nat) (hl : 1 ≤ l) (hk : k ≤ l)
    (beam : Option Nat) (hb : beam ≠ some 0) (filter : Nat → Bool) :
    ∃ (s : St Nat D) (results : List (Nat × D × A × V)),
      knnTraverse pad (ix.graphOn (s.expanded.take ix.ioLimit)) [ix.medoid] l (beam.getD 1) (fun _ => false) fuel
        = some s ∧
      (s.expanded.length ≤ ix.ioLimit →
        knnTraverse pad ix.graph [ix.medoid] l (beam.getD 1) (fun _ => false) fuel = some s) ∧
      TopK ix ((s.best.iter.map (·.1)).filter filter) k results ∧
      ∀ pooled : Acc V A D,
        search pad zero dflt srt fuel ix pooled k l beam (.graph filter)
          = .ok (padded zero dflt k results, ⟨s.cmps, s.hops, results.length, min ix.ioLimit s.expanded.length⟩) ∧
        searchWithVectors pad zero dflt srt fuel ix pooled k l beam (.graph filter)
          = .ok (results, ⟨s.cmps, s.hops, results.length, min ix.ioLimit s.expanded.length⟩) := by
  obtain ⟨s, r, -, -, h3, h4, h5⟩ := graph_spec pad zero dflt srt hs fuel ix hw hf k l hl hk beam hb filter
  exact ⟨s, r, h3, fun hle => unlimited pad ix l _ fuel _ s hle h3, h4, fun p => (h5 p false).2⟩

/-- **C81, exactness.** If the list size and the I/O limit are at least the number of points reachable from
the entry point and no quantized distance of these is NaN, the results are the true `k` nearest, by
full-precision distance, of the reachable points that pass the filter. -/
theorem C81_graph_exact (pad zero : D) (dflt : A) (srt : List (Nat × A × D) → List (Nat × A × D)) (hs : IsSort srt)
    (fuel : Nat) (ix : Index V A D) (hw : WellFormed ix) (hf : ix.numPoints < fuel) (k l : Nat) (hl : 1 ≤ l) (hk : k ≤ l)
    (beam : Option Nat) (hb : beam ≠ some 0) (filter : Nat → Bool) (reachable : List Nat) (hrn : reachable.Nodup)
    (hreach : ∀ x, x ∈ reachable ↔ Reach ix.graph.adj [ix.medoid] x)
    (hq : ∀ x ∈ reachable, ix.quant x ≠ none) (hlen : reachable.length ≤ l) (hio : reachable.length ≤ ix.ioLimit) :
    ∃ results : List (Nat × D × A × V), TopK ix (reachable.filter filter) k results ∧
      ∀ pooled : Acc V A D, ∃ st,
        searchWithVectors pad zero dflt srt fuel ix pooled k l beam (.graph filter) = .ok (results, st) := by
  obtain ⟨s, r, h1, h2, h3, h4, h5⟩ := graph_spec pad zero dflt srt hs fuel ix hw hf k l hl hk beam hb filter
  have hle : s.expanded.length ≤ ix.ioLimit := by
    refine le_trans ?_ hio
    exact (List.subperm_of_subset h1 (fun x hx => (hreach x).mpr (h2 x hx))).length_le
  have hun := unlimited pad ix l _ fuel _ s hle h3
  have hb1 : 1 ≤ beam.getD 1 := by
    cases beam with
    | none => simp
    | some b =>
      have : b ≠ 0 := fun h => hb (by rw [h])
      simp only [Option.getD_some]; omega
  have hfin : FiniteGraph (List.range ix.numPoints) ix.graph.adj [ix.medoid] := by
    refine ⟨by simpa using hw.medoid, ?_⟩
    intro x hx y hy
    obtain ⟨v, hv⟩ := hw.stored x (List.mem_range.mp hx)
    rw [graph_adj ix x v hv] at hy
    exact List.mem_range.mpr (hw.edges x v hv y hy)
  obtain ⟨s', g1, -, g3, g4⟩ := C14_exact_on_reachable pad ix.graph (List.range ix.numPoints) [ix.medoid] l
    (beam.getD 1) hfin (by simp) hl hb1 fuel (by simpa using hf) reachable hreach hq hlen
  rw [hun] at g1; cases g1
  have hp : (s.best.iter.map (·.1)).Perm reachable := by
    rw [List.perm_ext_iff_of_nodup g3 hrn]
    intro i
    rw [List.mem_map]
    constructor
    · rintro ⟨x, hx, rfl⟩
      exact (hreach _).mpr ((g4 x.1 x.2).1 hx).1
    · intro hi
      obtain ⟨d, hd⟩ := Option.ne_none_iff_exists'.mp (hq i hi)
      exact ⟨(i, d), (g4 i d).2 ⟨(hreach i).mp hi, hd⟩, rfl⟩
  exact ⟨r, h4.perm (hp.filter _), fun p => ⟨_, (h5 p false).2.2⟩⟩

/-- **C81, reads.** A graph search never reads a vertex twice, reports at most `search_io_limit` reads, and
reads at most `l + 1` vertices more than it reports. -/
theorem C81_reads (pad zero : D) (dflt : A) (srt : List (Nat × A × D) → List (Nat × A × D)) (hs : IsSort srt)
    (fuel : Nat) (ix : Index V A D) (hw : WellFormed ix) (hf : ix.numPoints < fuel) (k l : Nat) (hl : 1 ≤ l) (hk : k ≤ l)
    (beam : Option Nat) (hb : beam ≠ some 0) (filter : Nat → Bool) (pooled : Acc V A D) (wv : Bool) :
    ∃ a st o, searchImpl pad zero dflt srt fuel ix pooled k l beam wv (.graph filter) = .ok (a, st, o) ∧
      a.reads.Nodup ∧ st.io ≤ ix.ioLimit ∧ st.io ≤ a.reads.length ∧ a.reads.length ≤ st.io + (l + 1) := by
  obtain ⟨s, r, h1, h2, h3, h4, h5⟩ := graph_spec pad zero dflt srt hs fuel ix hw hf k l hl hk beam hb filter
  obtain ⟨a, o, g1, g2⟩ := (h5 pooled wv).1
  have hb1 : 1 ≤ beam.getD 1 := by
    cases beam with
    | none => simp
    | some b =>
      have : b ≠ 0 := fun h => hb (by rw [h])
      simp only [Option.getD_some]; omega
  obtain ⟨s', e1, e2, -, e4, -⟩ := C15_results_sound pad (ix.graphOn (s.expanded.take ix.ioLimit))
    (List.range ix.numPoints) [ix.medoid] l (beam.getD 1) (fun _ => false) (graphOn_finite hw _) (by simp) hl hb1 fuel
    (by simpa using hf)
  rw [h3] at e1; cases e1
  refine ⟨a, _, o, g1, ?_, Nat.min_le_left _ _, ?_, ?_⟩
  · rw [g2, List.nodup_append]
    refine ⟨h1.sublist (List.take_sublist _ _), (e4.filter _).filter _, ?_⟩
    intro x hx y hy hxy
    subst hxy
    have := (List.mem_filter.mp hy).2
    simp only [decide_eq_true_eq] at this
    exact this hx
  · rw [g2, List.length_append, List.length_take]; dsimp only; omega
  · rw [g2, List.length_append, List.length_take]
    dsimp only
    have h6 := List.length_filter_le (fun n => decide (n ∉ s.expanded.take ix.ioLimit))
      ((s.best.iter.map (·.1)).filter filter)
    have h7 := List.length_filter_le filter (s.best.iter.map (·.1))
    rw [List.length_map] at h7
    simp only [List.length_cons, List.length_nil] at e2
    omega

/-- **C81, arguments.** A list size below the number of results asked for is refused by both entry points in
every mode; so are a list size of zero and a beam width of zero in the graph modes. -/
theorem C81_arguments (pad zero : D) (dflt : A) (srt : List (Nat × A × D) → List (Nat × A × D)) (fuel : Nat)
    (ix : Index V A D) (pooled : Acc V A D) (k l : Nat) (beam : Option Nat) (mode : Mode V A D)
    (h : l < k ∨ ((∀ f, mode ≠ .flat f) ∧ (l = 0 ∨ beam = some 0))) :
    search pad zero dflt srt fuel ix pooled k l beam mode = .err ∧
    searchWithVectors pad zero dflt srt fuel ix pooled k l beam mode = .err := by
  have key : ∀ wv, searchImpl pad zero dflt srt fuel ix pooled k l beam wv mode = .err := by
    intro wv
    unfold searchImpl
    by_cases hlk : l < k
    · rw [if_pos hlk]
    · rw [if_neg hlk]
      obtain ⟨hm, hor⟩ := h.resolve_left hlk
      obtain ⟨o, o1, -⟩ := out_new (V := V) k zero dflt wv
      rw [o1, ok_bind]
      have hknn : knnNew l beam = .err := by
        unfold knnNew
        by_cases h0 : l = 0
        · rw [if_pos h0]
        · rw [if_neg h0]
          rw [hor.resolve_left h0]
          rfl
      cases mode with
      | flat f => exact absurd rfl (hm f)
      | graph f => unfold runMode; dsimp only; rw [hknn]; rfl
      | diverse f sel => unfold runMode; dsimp only; rw [hknn]; rfl
  constructor
  · unfold search; rw [key]; rfl
  · unfold searchWithVectors; rw [key]; rfl

/-! ## Diversity -/

/-- What a diversity selection may return for vectors of the index: distinct row numbers. -/
def GoodSelection (ix : Index V A D) (sel : List (V × D) → Res (List Nat)) : Prop :=
  ∀ rows, rows ≠ [] → (∀ r ∈ rows, ∃ i v, ix.node i = some v ∧ r = (v.vec, ix.exact v.vec)) → ∃ order, sel rows = .ok order ∧ order.Nodup ∧ ∀ i ∈ order, i < rows.length

/-- **C81, diversity.** With any selection that returns distinct rows, the diverse graph search hands to it
every candidate of the traversal that passes the filter, with its stored vector and full-precision
distance, and returns the first `k` it selects, in its order, each with its own stored data, vector and
distance. -/
theorem C81_diverse (pad zero : D) (dflt : A) (srt : List (Nat × A × D) → List (Nat × A × D))
    (fuel : Nat) (ix : Index V A D) (hw : WellFormed ix) (hf : ix.numPoints < fuel) (k l : Nat) (hl : 1 ≤ l) (hk : k ≤ l)
    (beam : Option Nat) (hb : beam ≠ some 0) (filter : Nat → Bool) (sel : List (V × D) → Res (List Nat))
    (hsel : GoodSelection ix sel) :
    ∃ (s : St Nat D) (rows : List (Nat × Vertex V A)) (order : List Nat) (results : List (Nat × D × A × V)),
      knnTraverse pad (ix.graphOn (s.expanded.take ix.ioLimit)) [ix.medoid] l (beam.getD 1) (fun _ => false) fuel
        = some s ∧
      rows.map (·.1) = (s.best.iter.map (·.1)).filter filter ∧ (∀ x ∈ rows, ix.node x.1 = some x.2) ∧
      (rows = [] ∧ order = [] ∨ sel (rows.map fun x => (x.2.vec, ix.exact x.2.vec)) = .ok order) ∧
      results = (order.take k).filterMap
        (fun i => rows[i]?.map fun x => (x.1, ix.exact x.2.vec, x.2.assoc, x.2.vec)) ∧
      results.length = min k order.length ∧ (results.map (·.1)).Nodup ∧
      ∀ pooled : Acc V A D,
        search pad zero dflt srt fuel ix pooled k l beam (.diverse filter sel)
          = .ok (padded zero dflt k results, ⟨s.cmps, s.hops, results.length, min ix.ioLimit s.expanded.length⟩) ∧
        searchWithVectors pad zero dflt srt fuel ix pooled k l beam (.diverse filter sel)
          = .ok (results, ⟨s.cmps, s.hops, results.length, min ix.ioLimit s.expanded.length⟩) := by
  have hb1 : 1 ≤ beam.getD 1 := by
    cases beam with
    | none => simp
    | some b =>
      have : b ≠ 0 := fun h => hb (by rw [h])
      simp only [Option.getD_some]; omega
  have hknn : knnNew l beam = .ok (l, beam.getD 1) := by
    unfold knnNew
    rw [if_neg (by omega)]
    cases beam with
    | none => rfl
    | some b =>
      cases b with
      | zero => exact absurd rfl hb
      | succ b => rfl
  obtain ⟨s, t1, t2, t3⟩ := traverse_spec pad ix hw l (beam.getD 1) fuel hl hb1 hf
  set E := s.expanded.take ix.ioLimit with hE
  obtain ⟨s', e1, -, e3, e4, e5, -⟩ := C15_results_sound pad (ix.graphOn E) (List.range ix.numPoints) [ix.medoid] l
    (beam.getD 1) (fun _ => false) (graphOn_finite hw E) (by simp) hl hb1 fuel (by simpa using hf)
  rw [t3] at e1; cases e1
  set cands := s.best.iter.map (·.1) with hcands
  have hclt : ∀ i ∈ cands, i < ix.numPoints := by
    intro i hi
    obtain ⟨x, hx, rfl⟩ := List.mem_map.mp hi
    exact List.mem_range.mp (reach_mem (graphOn_finite hw E) _ (e5 x hx).2.1)
  have hnf := e4.filter filter
  have hltf : ∀ i ∈ cands.filter filter, i < ix.numPoints := fun i hi => hclt i (List.mem_filter.mp hi).1
  set ids := cands.filter filter with hids
  by_cases hnil : ids = []
  · refine ⟨s, [], [], [], t3, hnil.symm, by simp, Or.inl ⟨rfl, rfl⟩, by simp, by simp, by simp, fun pooled => ?_⟩
    have := api_eq (pad := pad) (zero := zero) (dflt := dflt) (srt := srt) (fuel := fuel) ix pooled k l beam
      (.diverse filter sel) ⟨s.cmps, s.hops, 0, min ix.ioLimit s.expanded.length⟩ [] (by simp) (by simp) (by
        intro wv
        obtain ⟨o, o1, o2⟩ := out_new (V := V) k zero dflt wv
        obtain ⟨a, u1, u2⟩ := t1 pooled wv
        refine ⟨a, o, ?_, by simpa using o2⟩
        unfold searchImpl
        rw [if_neg (by omega), o1, ok_bind]
        unfold runMode
        dsimp only
        rw [hknn, ok_bind]
        dsimp only
        rw [u1, ok_bind]
        dsimp only
        unfold diversify
        rw [← hcands, ← hids, if_pos hnil, ok_bind]
        dsimp only
        rw [pure_ok, u2.io, hE, List.length_take])
    simpa [validOf] using this
  · -- the rows do not depend on the accessor
    have hrows : ∃ vs : List (Nat × Vertex V A), vs.map (·.1) = ids ∧ (∀ x ∈ vs, ix.node x.1 = some x.2) ∧
        ∀ a : Acc V A D, a.batch = ids → fetch ix a ids = .ok vs := by
      obtain ⟨vs, v1, v2, v3⟩ := fetch_ok ix hw ({ cache := fun _ => none, batch := ids, io := 0, reads := [], cacheVecs := false } : Acc V A D)
        ids (fun i hi => ⟨hi, hltf i hi⟩)
      refine ⟨vs, v2, v3, fun a ha => ?_⟩
      obtain ⟨ws, w1, w2, w3⟩ := fetch_ok ix hw a ids (fun i hi => ⟨by rw [ha]; exact hi, hltf i hi⟩)
      have hvw : ws = vs := by
        apply List.ext_getElem
        · have := congrArg List.length (w2.trans v2.symm)
          simpa using this
        · intro n h1 h2
          have hfst : ws[n].1 = vs[n].1 := by
            have := w2.trans v2.symm
            have := congrArg (fun l => l[n]?) this
            simpa [h1, h2] using this
          have a1 := w3 _ (List.getElem_mem h1)
          have a2 := v3 _ (List.getElem_mem h2)
          rw [hfst, a2] at a1
          exact Prod.ext hfst (Option.some.inj a1).symm
      rw [w1, hvw]
    obtain ⟨vs, v2, v3, v4⟩ := hrows
    have hvlen : vs.length = ids.length := by rw [← v2, List.length_map]
    obtain ⟨order, p1, p2, p3⟩ := hsel (vs.map fun x => (x.2.vec, ix.exact x.2.vec)) (by
      intro h
      have := congrArg List.length h
      rw [List.length_map, hvlen] at this
      exact hnil (List.length_eq_zero_iff.mp this)) (by
      intro r hr
      obtain ⟨x, hx, rfl⟩ := List.mem_map.mp hr
      exact ⟨x.1, x.2, v3 x hx, rfl⟩)
    rw [List.length_map] at p3
    obtain ⟨L, m1, m2, m3⟩ := mapM_get vs (fun x => (x.1, x.2.assoc, ix.exact x.2.vec)) order p3
    have hLmem : ∀ x ∈ L, ∃ y ∈ vs, x = (y.1, y.2.assoc, ix.exact y.2.vec) := by
      intro x hx
      rw [m2] at hx
      obtain ⟨i, hi, he⟩ := List.mem_filterMap.mp hx
      rw [List.getElem?_eq_getElem (p3 i hi)] at he
      exact ⟨vs[i]'(p3 i hi), List.getElem_mem _, (Option.some.inj he).symm⟩
    have hst : ∀ x ∈ L, ∃ v, ix.node x.1 = some v := by
      intro x hx
      obtain ⟨y, hy, rfl⟩ := hLmem x hx
      exact ⟨y.2, v3 y hy⟩
    have hLids : L.map (·.1) = order.filterMap fun i => ids[i]? := by
      rw [m2, List.map_filterMap]
      apply List.filterMap_congr
      intro i hi
      rw [← v2]
      simp [Function.comp_def]
    have hLn : (L.map (·.1)).Nodup := by
      rw [hLids]
      refine List.Nodup.filterMap ?_ p2
      intro a a' b hb hb'
      rw [Option.mem_def, List.getElem?_eq_some_iff] at hb hb'
      obtain ⟨ha, hb⟩ := hb
      obtain ⟨ha', hb'⟩ := hb'
      exact (List.Nodup.getElem_inj_iff hnf).mp (hb.trans hb'.symm)
    have hst' : ∀ x ∈ L.take k, ∃ v, ix.node x.1 = some v := fun x hx => hst x (List.mem_of_mem_take hx)
    have hvids : (validOf ix k L).map (·.1) = (L.take k).map (·.1) := validOf_ids ix _ hst'
    have hcount : (validOf ix k L).length = min k order.length := by
      have := congrArg List.length hvids
      rw [List.length_map, List.length_map, List.length_take, m3] at this
      exact this
    refine ⟨s, vs, order, validOf ix k L, t3, v2, v3, Or.inr p1, ?_, hcount, ?_, fun pooled => ?_⟩
    · have htk : L.take k = (order.take k).filterMap (fun i => vs[i]?.map fun x => (x.1, x.2.assoc, ix.exact x.2.vec)) := by
        obtain ⟨L1, n1, n2, n3⟩ := mapM_get vs (fun x => (x.1, x.2.assoc, ix.exact x.2.vec)) (order.take k)
          (fun i hi => p3 i (List.mem_of_mem_take hi))
        rw [← n2]
        have hsplit : L = L1 ++ (order.drop k).filterMap (fun i => vs[i]?.map fun x => (x.1, x.2.assoc, ix.exact x.2.vec)) := by
          rw [n2, ← List.filterMap_append, List.take_append_drop]; exact m2
        by_cases hko : k ≤ order.length
        · rw [hsplit, List.take_left' (by rw [n3, List.length_take]; omega)]
        · rw [List.take_of_length_le (by omega), m2, n2, List.take_of_length_le (by omega)]
      unfold validOf
      rw [htk, List.filterMap_filterMap]
      apply List.filterMap_congr
      intro i hi
      have hi' := p3 i (List.mem_of_mem_take hi)
      rw [List.getElem?_eq_getElem hi']
      simp [vecOf, v3 _ (List.getElem_mem hi')]
    · rw [hvids, List.map_take]; exact hLn.sublist (List.take_sublist _ _)
    · rw [hcount, ← m3]
      refine api_eq ix pooled k l beam (.diverse filter sel) _ _ hst rfl ?_
      intro wv
      obtain ⟨o, o1, o2⟩ := out_new (V := V) k zero dflt wv
      obtain ⟨a, u1, u2⟩ := t1 pooled wv
      have hload := ensureVertexLoaded_ok ix hw a ids hnf hltf
      obtain ⟨o', c1, c2⟩ := extendOutput_ok ix { a with batch := ids, reads := a.reads ++ ids } wv u2.cv L o o2 hLn (by
        intro hwv x hx
        obtain ⟨y, hy, rfl⟩ := hLmem x hx
        refine ⟨y.2, v3 y hy, ?_⟩
        dsimp only
        rw [u2.cache]
        by_cases hE' : y.1 ∈ E
        · left
          rw [if_pos hE', v3 y hy, hwv]
          exact ⟨_, _, rfl⟩
        · right
          rw [if_neg hE']
          exact ⟨rfl, by rw [← v2]; exact List.mem_map.mpr ⟨y, hy, rfl⟩⟩)
      refine ⟨{ a with batch := ids, reads := a.reads ++ ids }, o', ?_, c2⟩
      unfold searchImpl
      rw [if_neg (by omega), o1, ok_bind]
      unfold runMode
      dsimp only
      rw [hknn, ok_bind]
      dsimp only
      rw [u1, ok_bind]
      dsimp only
      unfold diversify
      rw [← hcands, ← hids, if_neg hnil, hload, ok_bind, v4 _ rfl, ok_bind, p1, ok_bind, m1, ofOption_some, ok_bind,
        c1, ok_bind, pure_ok, ok_bind]
      dsimp only
      rw [pure_ok, u2.io, hE, List.length_take]

/-! ## Disagreements -/

/-- **Disagreement.** A flat scan with list size 0 and 0 results asked for passes the argument checks and
then panics, as soon as one accepted point has a comparable quantized distance (the graph modes return an
error). -/
theorem C81_flat_zero_list_panics (pad zero : D) (dflt : A) (srt : List (Nat × A × D) → List (Nat × A × D))
    (fuel : Nat) (ix : Index V A D) (hc : 1 ≤ ix.maxVectors) (pooled : Acc V A D) (beam : Option Nat)
    (filter : Nat → Bool) (d : D) (h0 : 0 < ix.numPoints) (hf0 : filter 0 = true) (hd : ix.quant 0 = some d) :
    search pad zero dflt srt fuel ix pooled 0 0 beam (.flat filter) = .panic := by
  obtain ⟨n, hn⟩ : ∃ n, ix.numPoints = n + 1 := ⟨ix.numPoints - 1, by omega⟩
  obtain ⟨m, hm⟩ : ∃ m, ix.maxVectors = m + 1 := ⟨ix.maxVectors - 1, by omega⟩
  obtain ⟨rest, hrest⟩ : ∃ rest, (List.range ix.numPoints).filter filter = 0 :: rest := by
    rw [hn, List.range_succ_eq_map, List.filter_cons, if_pos hf0]; exact ⟨_, rfl⟩
  have hlt : ∀ i ∈ (0 :: rest).take ix.maxVectors, i < ix.numPoints := by
    intro i hi
    have := List.mem_of_mem_take hi
    rw [← hrest] at this
    exact List.mem_range.mp (List.mem_filter.mp this).1
  have hscan : scan pad ix (ix.numPoints + 1) (0 :: rest) (Queue.new 0) 0 = .panic := by
    rw [scan]
    rw [if_neg (by rw [hm]; simp), pqDistances_ok ix _ (by rw [List.length_take]; omega) hlt, ok_bind, hm,
      List.take_succ_cons, List.map_cons, List.foldlM_cons, hd]
    simp [Queue.insert, Queue.new, Queue.size]
    rfl
  obtain ⟨o, o1, -⟩ := out_new (V := V) 0 zero dflt false
  unfold search searchImpl
  rw [if_neg (by omega), o1, ok_bind]
  unfold runMode flatSearch
  dsimp only
  rw [if_neg (by omega), hrest, hscan]
  rfl

/-- A small index: vectors are numbers, data are strings of digits, the graph is a path with a shortcut.
Quantized distances rank 3 before 2, full-precision distances the other way round. -/
def demo (limit : Nat) : Index Int Nat Int where
  node := fun
    | 0 => some ⟨10, [1, 4], 100⟩
    | 1 => some ⟨7, [0, 2], 101⟩
    | 2 => some ⟨3, [1, 3], 102⟩
    | 3 => some ⟨2, [2], 103⟩
    | 4 => some ⟨-20, [0], 104⟩
    | _ => none
  numPoints := 5
  medoid := 0
  maxVectors := 2
  ioLimit := limit
  exact v := |v - 4|
  quant := fun
    | 0 => some 6
    | 1 => some 4
    | 2 => some 2
    | 3 => some 1
    | 4 => some 25
    | _ => none

theorem demo_wellFormed (limit : Nat) : WellFormed (demo limit) := by
  have hcases : ∀ i v, (demo limit).node i = some v → i < 5 := by
    intro i v h
    match i with
    | 0 | 1 | 2 | 3 | 4 => omega
    | i + 5 => simp [demo] at h
  refine ⟨?_, by simp [demo], ?_, ?_, by simp [demo]⟩
  · intro i hi
    change i < 5 at hi
    interval_cases i <;> exact ⟨_, rfl⟩
  · intro i v h j hj
    have hi := hcases i v h
    change j < 5
    interval_cases i <;> · simp only [demo, Option.some.injEq] at h; subst h; revert hj; revert j; decide
  · intro i v h
    have hi := hcases i v h
    interval_cases i <;> · simp only [demo, Option.some.injEq] at h; subst h; simp [demo]

/-- Insertion sort by distance. -/
def demoSort (l : List (Nat × Nat × Int)) : List (Nat × Nat × Int) := l.insertionSort fun a b => a.2.2 ≤ b.2.2

theorem demoSort_isSort : IsSort demoSort := by
  have : Std.Total (fun a b : Nat × Nat × Int => a.2.2 ≤ b.2.2) := ⟨fun a b => le_total a.2.2 b.2.2⟩
  have : IsTrans (Nat × Nat × Int) (fun a b => a.2.2 ≤ b.2.2) := ⟨fun a b c h1 h2 => le_trans (α := Int) h1 h2⟩
  exact ⟨fun l => List.perm_insertionSort _ l, fun l => List.pairwise_insertionSort _ l⟩

/-- A scratch left in the pool by another query. -/
def demoPooled : Acc Int Nat Int :=
  { cache := fun _ => some (0, 7, some 5), batch := [0, 1, 2], io := 3, reads := [], cacheVecs := true }

/-- The number of vertices read and the reported number of reads. -/
def readsOf (r : Res (Acc Int Nat Int × Stats × Out Int Nat Int)) : Option (Nat × Nat) :=
  match r with
  | .ok (a, st, _) => some (a.reads.length, st.io)
  | _ => none

/-- **Disagreement.** The reads of reranking are neither limited nor counted: a graph search with
`search_io_limit = 0` reads a vertex, a flat scan reads three vertices, and both report no I/O. -/
theorem C81_rerank_reads_uncounted :
    readsOf (searchImpl 0 0 0 demoSort 6 (demo 0) demoPooled 1 3 none false (.graph fun _ => true)) = some (1, 0) ∧
    readsOf (searchImpl 0 0 0 demoSort 6 (demo 0) demoPooled 1 3 none false (.flat fun _ => true)) = some (3, 0) := by
  decide +kernel

/-! ## Non-vacuity -/

/-- The hypotheses of the theorems above are met. -/
example : ∃ results : List (Nat × Int × Nat × Int),
    TopK (demo 9) ((List.range 5).filter fun i => i != 1) 2 results ∧
      ∀ pooled, ∃ st, searchWithVectors 0 0 0 demoSort 6 (demo 9) pooled 2 5 none (.flat fun i => i != 1) = .ok (results, st) :=
  C81_flat_exact 0 0 0 demoSort demoSort_isSort 6 (demo 9) (demo_wellFormed 9) 2 5 (by decide) (by decide) none _
    (by decide) (by
      intro i hi
      change i < 5 at hi
      interval_cases i <;> simp [demo])

/-- So are those of `C81_graph_exact`, with every point reachable. -/
example : ∃ results : List (Nat × Int × Nat × Int),
    TopK (demo 9) ([0, 1, 2, 3, 4].filter fun i => i != 1) 3 results ∧
      ∀ pooled, ∃ st, searchWithVectors 0 0 0 demoSort 6 (demo 9) pooled 3 5 (some 2) (.graph fun i => i != 1) = .ok (results, st) := by
  refine C81_graph_exact 0 0 0 demoSort demoSort_isSort 6 (demo 9) (demo_wellFormed 9) (by decide) 3 5 (by decide)
    (by decide) (some 2) (by decide) _ [0, 1, 2, 3, 4] (by decide) ?_ (by decide) (by decide) (by decide)
  have h0 : Reach (demo 9).graph.adj [(demo 9).medoid] 0 := .start (by decide)
  have h1 : Reach (demo 9).graph.adj [(demo 9).medoid] 1 := .step h0 (by decide)
  have h4 : Reach (demo 9).graph.adj [(demo 9).medoid] 4 := .step h0 (by decide)
  have h2 : Reach (demo 9).graph.adj [(demo 9).medoid] 2 := .step h1 (by decide)
  have h3 : Reach (demo 9).graph.adj [(demo 9).medoid] 3 := .step h2 (by decide)
  intro x
  constructor
  · intro hx
    simp only [List.mem_cons, List.not_mem_nil, or_false] at hx
    rcases hx with rfl | rfl | rfl | rfl | rfl <;> assumption
  · intro hx
    induction hx with
    | start h => revert h; simp [demo]; omega
    | step _ he ih =>
      simp only [List.mem_cons, List.not_mem_nil, or_false] at ih
      rcases ih with rfl | rfl | rfl | rfl | rfl <;>
        · simp only [Index.graph, demo, Option.map_some, Option.getD_some, List.mem_cons, List.not_mem_nil, or_false] at he
          simp only [List.mem_cons, List.not_mem_nil, or_false]
          omega

/-- A graph search with vectors: the full-precision order, the stored data and vectors. -/
example : searchWithVectors 0 0 0 demoSort 6 (demo 9) demoPooled 3 4 (some 2) (.graph fun i => i != 1)
    = .ok ([(2, 1, 102, 3), (3, 2, 103, 2), (0, 6, 100, 10)], ⟨5, 5, 3, 5⟩) := by decide +kernel

/-- The same with an I/O limit of one: only the entry point is expanded, and its neighbours reranked. -/
example : searchWithVectors 0 0 0 demoSort 6 (demo 1) demoPooled 3 3 (some 2) (.graph fun i => i != 1)
    = .ok ([(0, 6, 100, 10), (4, 24, 104, -20)], ⟨3, 3, 2, 1⟩) := by decide +kernel

/-- `search` fills up to `k`. -/
example : search 0 0 0 demoSort 6 (demo 1) demoPooled 3 3 (some 2) (.graph fun i => i != 1)
    = .ok ([(0, 6, 100), (4, 24, 104), (0, 0, 0)], ⟨3, 3, 2, 1⟩) := by decide +kernel

/-- A flat scan: reranking corrects the quantized order. -/
example : searchWithVectors 0 0 0 demoSort 6 (demo 9) demoPooled 2 2 none (.flat fun _ => true)
    = .ok ([(2, 1, 102, 3), (3, 2, 103, 2)], ⟨5, 0, 2, 0⟩) := by decide +kernel

/-- A diverse search selecting every second row. -/
example : searchWithVectors 0 0 0 demoSort 6 (demo 9) demoPooled 2 3 none
      (.diverse (fun _ => true) fun rows => .ok ((List.range rows.length).filter fun i => i % 2 == 0))
    = .ok ([(3, 2, 103, 2), (1, 3, 101, 7)], ⟨5, 4, 2, 4⟩) := by decide +kernel

example : GoodSelection (demo 9) fun rows => .ok ((List.range rows.length).filter fun i => i % 2 == 0) :=
  fun _ _ _ => ⟨_, rfl, List.nodup_range.filter _, fun _ hi => List.mem_range.mp (List.mem_filter.mp hi).1⟩

end Verif.DiskSearch
