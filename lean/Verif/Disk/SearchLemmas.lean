import Verif.Disk.SearchSpec
import Verif.Search.Props

/-! Helper lemmas for C81. -/

namespace Verif.DiskSearch

open Verif.Queue Verif.Search

variable {V A D : Type} [LinearOrder D]

@[simp] theorem ok_bind {α β : Type} (a : α) (f : α → Res β) : (Res.ok a >>= f) = f a := rfl
@[simp] theorem pure_ok {α : Type} (a : α) : (pure a : Res α) = .ok a := rfl
@[simp] theorem resBind_ok {α β : Type} (a : α) (f : α → Res β) : (Res.ok a).bind f = f a := rfl
@[simp] theorem ofOption_some {α : Type} (a : α) : Res.ofOption (some a) = .ok a := rfl

/-! ### `forward` -/

theorem forward_append (vis xs ys : List Nat) :
    forward vis (xs ++ ys) =
      ((forward (forward vis xs).1 ys).1, (forward vis xs).2 ++ (forward (forward vis xs).1 ys).2) := by
  induction xs generalizing vis with
  | nil => simp [forward]
  | cons x xs ih =>
    rw [List.cons_append, forward, forward]
    by_cases h : x ∈ vis
    · rw [if_pos h, if_pos h]; exact ih vis
    · rw [if_neg h, if_neg h, ih]; rfl

theorem forward_length (vis js : List Nat) : (forward vis js).2.length ≤ js.length := by
  induction js generalizing vis with
  | nil => simp [forward]
  | cons j js ih =>
    rw [forward]
    split
    · have := ih vis; simp only [List.length_cons]; omega
    · have := ih (vis ++ [j]); simp only [List.length_cons]; omega

theorem forward_sub (vis js : List Nat) : ∀ x ∈ (forward vis js).2, x ∈ js := by
  induction js generalizing vis with
  | nil => simp [forward]
  | cons j js ih =>
    rw [forward]
    split
    · intro x hx; exact List.mem_cons_of_mem _ (ih vis x hx)
    · intro x hx
      rcases List.mem_cons.mp hx with rfl | hx
      · simp
      · exact List.mem_cons_of_mem _ (ih _ x hx)

/-! ### The accessor -/

/-- The cache entry of a stored vertex. -/
def entry (ix : Index V A D) (cv : Bool) (v : Vertex V A) : D × A × Option V :=
  (ix.exact v.vec, v.assoc, if cv then some v.vec else none)

/-- The state of the accessor after loading the vertices `E` during the traversal. -/
structure AccInv (ix : Index V A D) (cv : Bool) (a : Acc V A D) (E : List Nat) : Prop where
  cache : ∀ i, a.cache i = if i ∈ E then (ix.node i).map (entry ix cv) else none
  io : a.io = E.length
  reads : a.reads = E
  cv : a.cacheVecs = cv

theorem accInv_new (ix : Index V A D) (p : Acc V A D) (cv : Bool) : AccInv ix cv (Acc.new p cv) [] :=
  ⟨fun i => by simp [Acc.new], rfl, rfl, rfl⟩

theorem getVertex_batch (ix : Index V A D) (a : Acc V A D) (i : Nat) (v : Vertex V A) (h : i ∈ a.batch)
    (hv : ix.node i = some v) : getVertex ix a i = .ok v := by
  unfold getVertex
  rw [if_pos h, hv]

theorem ensureVertexLoaded_ok (ix : Index V A D) (hw : WellFormed ix) (a : Acc V A D) (ids : List Nat)
    (hn : ids.Nodup) (hlt : ∀ i ∈ ids, i < ix.numPoints) :
    ensureVertexLoaded ix a ids = .ok { a with batch := ids, reads := a.reads ++ ids } := by
  unfold ensureVertexLoaded
  rw [if_pos hn, if_pos]
  rw [List.all_eq_true]
  intro i hi
  obtain ⟨v, hv⟩ := hw.stored i (hlt i hi)
  rw [hv]; rfl

theorem cacheDistances_ok (ix : Index V A D) (hw : WellFormed ix) (ids : List Nat) (a : Acc V A D)
    (hb : ∀ i ∈ ids, i ∈ a.batch) (hlt : ∀ i ∈ ids, i < ix.numPoints) :
    ∃ a', cacheDistances ix ids a = .ok a' ∧ a'.batch = a.batch ∧ a'.io = a.io ∧ a'.reads = a.reads ∧
      a'.cacheVecs = a.cacheVecs ∧
      ∀ i, a'.cache i = if i ∈ ids then (ix.node i).map (entry ix a.cacheVecs) else a.cache i := by
  induction ids generalizing a with
  | nil => exact ⟨a, rfl, rfl, rfl, rfl, rfl, by simp⟩
  | cons j ids ih =>
    obtain ⟨v, hv⟩ := hw.stored j (hlt j (by simp))
    obtain ⟨a', h1, h2, h3, h4, h5, h6⟩ := ih
      { a with cache := cacheSet a.cache j (some (entry ix a.cacheVecs v)) }
      (fun i hi => hb i (List.mem_cons_of_mem _ hi)) (fun i hi => hlt i (List.mem_cons_of_mem _ hi))
    refine ⟨a', ?_, h2, h3, h4, h5, ?_⟩
    · rw [cacheDistances, getVertex_batch ix a j v (hb j (by simp)) hv]
      exact h1
    · intro i
      rw [h6]
      dsimp only
      by_cases hi : i ∈ ids
      · rw [if_pos hi, if_pos (List.mem_cons_of_mem _ hi)]
      · rw [if_neg hi]
        unfold cacheSet
        by_cases hj : i = j
        · subst hj
          rw [if_pos rfl, if_pos (by simp), hv]; rfl
        · rw [if_neg hj, if_neg (by simp [hi, hj])]

theorem ensureLoaded_ok (ix : Index V A D) (hw : WellFormed ix) (cv : Bool) (a : Acc V A D) (E ids : List Nat)
    (hi : AccInv ix cv a E) (hn : ids.Nodup) (hlt : ∀ i ∈ ids, i < ix.numPoints) :
    ∃ a', ensureLoaded ix a ids = .ok a' ∧ AccInv ix cv a' (E ++ ids) ∧ ∀ i ∈ ids, i ∈ a'.batch := by
  unfold ensureLoaded
  by_cases h : ids = []
  · rw [if_pos h]; subst h
    exact ⟨a, rfl, by simpa using hi, by simp⟩
  · rw [if_neg h, ensureVertexLoaded_ok ix hw a ids hn hlt, ok_bind]
    obtain ⟨a', h1, h2, h3, h4, h5, h6⟩ := cacheDistances_ok ix hw ids
      { a with batch := ids, reads := a.reads ++ ids, io := a.io + ids.length } (fun i hi => hi) hlt
    refine ⟨a', h1, ⟨?_, ?_, ?_, ?_⟩, ?_⟩
    · intro i
      rw [h6]
      dsimp only
      rw [hi.cv, hi.cache]
      by_cases h1 : i ∈ ids
      · rw [if_pos h1, if_pos (List.mem_append_right _ h1)]
      · rw [if_neg h1]
        simp only [List.mem_append, h1, or_false]
    · rw [h3]; dsimp only; rw [hi.io, List.length_append]
    · rw [h4]; dsimp only; rw [hi.reads]
    · rw [h5]; exact hi.cv
    · intro i hi; rw [h2]; exact hi

theorem pqDistances_ok (ix : Index V A D) (ids : List Nat) (hl : ids.length ≤ ix.maxVectors)
    (hlt : ∀ i ∈ ids, i < ix.numPoints) :
    pqDistances ix ids = .ok (ids.map fun i => (i, ix.quant i)) := by
  unfold pqDistances
  rw [if_neg (by omega), if_pos (by simpa using hlt)]

theorem graph_adj (ix : Index V A D) (i : Nat) (v : Vertex V A) (h : ix.node i = some v) :
    ix.graph.adj i = v.adj := by
  simp [Index.graph, h]

theorem expandEach_ok (ix : Index V A D) (hw : WellFormed ix) (a : Acc V A D) (is visited : List Nat)
    (hb : ∀ i ∈ is, i ∈ a.batch) (hlt : ∀ i ∈ is, i < ix.numPoints) :
    expandEach ix a is visited = .ok ((forward visited (is.flatMap ix.graph.adj)).1,
      (forward visited (is.flatMap ix.graph.adj)).2.map fun i => (i, ix.quant i)) := by
  induction is generalizing visited with
  | nil => rfl
  | cons i is ih =>
    obtain ⟨v, hv⟩ := hw.stored i (hlt i (by simp))
    rw [expandEach, getVertex_batch ix a i v (hb i (by simp)) hv, ok_bind]
    dsimp only
    rw [pqDistances_ok ix _ (le_trans (forward_length _ _) (hw.degree i v hv))
      (fun j hj => hw.edges i v hv j (forward_sub _ _ j hj)), ok_bind,
      ih _ (fun j hj => hb j (List.mem_cons_of_mem _ hj)) (fun j hj => hlt j (List.mem_cons_of_mem _ hj)),
      ok_bind, List.flatMap_cons, graph_adj ix i v hv, forward_append]
    simp

theorem insertAll_eq (pad : D) (G : Graph Nat D) (q : Queue Nat D) (ids : List Nat) :
    (ids.map fun i => (i, G.dist i)).foldlM (fun q x => Queue.insert pad q x.1 x.2) q = insertAll pad G q ids := by
  unfold insertAll
  induction ids generalizing q with
  | nil => rfl
  | cons i ids ih =>
    rw [List.map_cons, List.foldlM_cons, List.foldlM_cons]
    cases Queue.insert pad q i (G.dist i) with
    | none => rfl
    | some q => exact ih q

theorem flatMap_graphOn (ix : Index V A D) (E load nodes : List Nat) (n : Nat) (hload : load = nodes.take n)
    (h : ∀ x ∈ nodes, x ∈ E ↔ x ∈ load) (hn : nodes.Nodup) :
    nodes.flatMap (ix.graphOn E).adj = load.flatMap ix.graph.adj := by
  have h1 : ∀ x ∈ load, x ∈ nodes := by rw [hload]; exact fun x hx => List.mem_of_mem_take hx
  have key : nodes = load ++ nodes.drop n := by rw [hload, List.take_append_drop]
  have hd : ∀ x ∈ nodes.drop n, x ∉ load := by
    intro x hx hl
    rw [key, List.nodup_append] at hn
    exact hn.2.2 x hl x hx rfl
  rw [key, List.flatMap_append]
  have e1 : load.flatMap (ix.graphOn E).adj = load.flatMap ix.graph.adj := by
    apply List.flatMap_congr
    intro x hx
    simp only [Index.graphOn, Index.graph]
    rw [if_pos ((h x (h1 x hx)).2 hx)]
  have e2 : (nodes.drop n).flatMap (ix.graphOn E).adj = [] := by
    rw [List.flatMap_eq_nil_iff]
    intro x hx
    simp only [Index.graphOn]
    rw [if_neg (fun hE => hd x hx ((h x (List.mem_of_mem_drop hx)).1 hE))]
  rw [e1, e2, List.append_nil]

/-- One round of the disk search is a round of the graph search in which only the loaded vertices have
out-edges. -/
theorem round_eq (pad : D) (ix : Index V A D) (hw : WellFormed ix) (cv : Bool) (beam : Nat) (a : Acc V A D)
    (s : St Nat D) (nodes : List Nat) (q : Queue Nat D) (hfill : fillBeam s.best beam = some (nodes, q))
    (hn : nodes.Nodup) (hlt : ∀ i ∈ nodes, i < ix.numPoints)
    (ha : AccInv ix cv a (s.expanded.take ix.ioLimit)) (E : List Nat)
    (hE : ∀ x ∈ nodes, x ∈ E ↔ x ∈ nodes.take (ix.ioLimit - s.expanded.length)) (s' : St Nat D)
    (hit : iterate pad (ix.graphOn E) beam s = some s') :
    ∃ a', round pad ix beam a s = .ok (a', s') ∧ AccInv ix cv a' (s'.expanded.take ix.ioLimit) := by
  have hio : a.io = min ix.ioLimit s.expanded.length := by rw [ha.io, List.length_take]
  have hsub : ix.ioLimit - a.io = ix.ioLimit - s.expanded.length := by omega
  obtain ⟨a', b1, b2, b3⟩ := ensureLoaded_ok ix hw cv a _ (nodes.take (ix.ioLimit - s.expanded.length)) ha
    (hn.sublist (List.take_sublist _ _)) (fun i hi => hlt i (List.mem_of_mem_take hi))
  have hx : expandBeamD ix a s.visited nodes = .ok (a',
      (forward s.visited (nodes.flatMap (ix.graphOn E).adj)).1,
      (forward s.visited (nodes.flatMap (ix.graphOn E).adj)).2.map fun i => (i, ix.quant i)) := by
    unfold expandBeamD
    rw [if_neg (by omega)]
    dsimp only
    rw [hsub, b1, ok_bind, expandEach_ok ix hw a' _ _ b3 (fun i hi => hlt i (List.mem_of_mem_take hi)), ok_bind,
      flatMap_graphOn ix E _ nodes _ rfl hE hn]
    rfl
  unfold iterate expandBeam at hit
  rw [hfill] at hit
  dsimp only at hit
  refine ⟨a', ?_, ?_⟩
  · unfold round
    rw [hfill, ofOption_some, ok_bind]
    dsimp only
    rw [hx, ok_bind]
    dsimp only
    have hie := insertAll_eq pad (ix.graphOn E) q (forward s.visited (nodes.flatMap (ix.graphOn E).adj)).2
    have hq : (ix.graphOn E).dist = ix.quant := rfl
    rw [hq] at hie
    rw [hie]
    split at hit
    · cases hit
    · rename_i q' hq'
      rw [hq', ofOption_some, ok_bind, pure_ok, ← Option.some.inj hit]
      simp [Function.comp_def]
  · split at hit
    · cases hit
    · rw [← Option.some.inj hit]
      dsimp only
      rw [List.take_append]
      exact b2

theorem iterate_congr (pad : D) (G G' : Graph Nat D) (beam : Nat) (s : St Nat D) (nodes : List Nat)
    (q : Queue Nat D) (hfill : fillBeam s.best beam = some (nodes, q)) (hd : G.dist = G'.dist)
    (h : ∀ x ∈ nodes, G.adj x = G'.adj x) : iterate pad G beam s = iterate pad G' beam s := by
  unfold iterate expandBeam
  rw [hfill]
  dsimp only
  rw [List.flatMap_congr h]
  unfold insertAll
  rw [hd]

theorem iterate_expanded (pad : D) (G : Graph Nat D) (beam : Nat) (s s' : St Nat D)
    (h : iterate pad G beam s = some s') :
    ∃ nodes q, fillBeam s.best beam = some (nodes, q) ∧ s'.expanded = s.expanded ++ nodes := by
  unfold iterate at h
  split at h
  · cases h
  · rename_i nodes q hq
    dsimp only at h
    split at h
    · cases h
    · exact ⟨nodes, q, hq, by rw [← Option.some.inj h]⟩

theorem searchLoop_expanded (pad : D) (G : Graph Nat D) (beam : Nat) (stop : Nat → Bool) (fuel : Nat) :
    ∀ n s s', searchLoop pad G beam stop fuel n s = some s' → ∀ x ∈ s.expanded, x ∈ s'.expanded := by
  induction fuel with
  | zero => intro n s s' h; simp [searchLoop] at h
  | succ fuel ih =>
    intro n s s' h x hx
    rw [searchLoop] at h
    split at h
    · split at h
      · cases h
      · rename_i s1 hs1
        obtain ⟨nodes, q, -, he⟩ := iterate_expanded pad G beam s s1 hs1
        exact ih _ _ _ h x (by rw [he]; exact List.mem_append_left _ hx)
    · cases h; exact hx

/-- A search depends only on the adjacency lists of the vertices it expands. -/
theorem searchLoop_congr (pad : D) (G G' : Graph Nat D) (beam : Nat) (stop : Nat → Bool)
    (hd : G.dist = G'.dist) (fuel : Nat) :
    ∀ n s s', searchLoop pad G beam stop fuel n s = some s' → (∀ x ∈ s'.expanded, G.adj x = G'.adj x) →
      searchLoop pad G' beam stop fuel n s = some s' := by
  induction fuel with
  | zero => intro n s s' h; simp [searchLoop] at h
  | succ fuel ih =>
    intro n s s' h hx
    rw [searchLoop] at h ⊢
    split at h
    · rename_i hc
      rw [if_pos hc]
      split at h
      · cases h
      · rename_i s1 hs1
        obtain ⟨nodes, q, hq, he⟩ := iterate_expanded pad G beam s s1 hs1
        rw [← iterate_congr pad G G' beam s nodes q hq hd, hs1]
        · exact ih _ _ _ h hx
        · intro x hxn
          exact hx x (searchLoop_expanded pad G beam stop fuel _ _ _ h x (by rw [he]; exact List.mem_append_right _ hxn))
    · rename_i hc
      rw [if_neg hc]; exact h

/-- Restricting the out-edges weakens the search invariant. -/
theorem core_weaken {G G' : Graph Nat D} {R : Nat → Prop} {s : St Nat D} (hd : G.dist = G'.dist)
    (h : Core G R s) (hsub : ∀ x ∈ s.expanded, ∀ y ∈ G'.adj x, y ∈ s.visited) : Core G' R s :=
  ⟨h.nodup, h.ids_nodup, h.ids_visited, fun e he => by rw [← hd]; exact h.ids_dist e he, h.flag, h.exp_visited, hsub, h.reach⟩

theorem mem_take_mid (a b c : List Nat) (n : Nat) (h : (a ++ b ++ c).Nodup) (x : Nat) (hx : x ∈ b) :
    x ∈ (a ++ b ++ c).take n ↔ x ∈ b.take (n - a.length) := by
  rw [List.take_append, List.take_append, List.mem_append, List.mem_append]
  rw [List.nodup_append, List.nodup_append] at h
  constructor
  · rintro ((h1 | h1) | h1)
    · exact absurd rfl (h.1.2.2 x (List.mem_of_mem_take h1) x hx)
    · exact h1
    · exact absurd rfl (h.2.2 x (List.mem_append_right _ hx) x (List.mem_of_mem_take h1))
  · intro h1; exact Or.inl (Or.inr h1)

/-- The loop of the disk search: it ends, the loaded vertices are the first `ioLimit` expanded ones, and
it is the loop of the graph search in which only these have out-edges. -/
theorem loop_spec (pad : D) (ix : Index V A D) (hw : WellFormed ix) (beam : Nat) (hb : 1 ≤ beam)
    (fuel n : Nat) (s : St Nat D)
    (hc : Core (ix.graphOn []) (fun i => i < ix.numPoints) s) (hi : Inv s.best)
    (hex : s.expanded.Nodup)
    (hfuel : ((List.range ix.numPoints).filter fun v => decide (v ∉ s.expanded)).length < fuel) :
    ∃ s' nodes, (∀ cv a, AccInv ix cv a (s.expanded.take ix.ioLimit) →
        ∃ a', loop pad ix beam fuel a s = .ok (a', s') ∧ AccInv ix cv a' (s'.expanded.take ix.ioLimit)) ∧
      s'.expanded = s.expanded ++ nodes ∧ s'.expanded.Nodup ∧
      searchLoop pad (ix.graphOn (s'.expanded.take ix.ioLimit)) beam (fun _ => false) fuel n s = some s' := by
  induction fuel generalizing n s with
  | zero => omega
  | succ fuel ih =>
    have hterm : ∀ cv a, AccInv ix cv a (s.expanded.take ix.ioLimit) → terminateEarly ix a = false := by
      intro cv a ha
      unfold terminateEarly
      rw [ha.io, List.length_take]
      simp
    by_cases hcond : s.best.hasNotVisited = true
    · obtain ⟨nodes, q, f1, f2, f3, f4, f5, f6, f7, f8, f9, f10⟩ :=
        fillBeam_spec beam s.best s.expanded hi.toW hc.ids_nodup hc.flag
      obtain ⟨g1, g2, g3⟩ := f10 hi
      have hnodes : ∀ i ∈ nodes, i < ix.numPoints := by
        intro x hx
        obtain ⟨e, he, rfl⟩ := f8 x hx
        exact hc.reach _ (hc.ids_visited e he)
      set load := nodes.take (ix.ioLimit - s.expanded.length) with hload
      have hcl : Core (ix.graphOn load) (fun i => i < ix.numPoints) s := by
        refine core_weaken (G := ix.graphOn []) rfl hc ?_
        intro x hx y hy
        simp only [Index.graphOn] at hy
        rw [if_neg (fun hl => g3 x (List.mem_of_mem_take hl) hx)] at hy
        simp at hy
      have hR : ∀ x y, x < ix.numPoints → (ix.graphOn load).dist x ≠ none → y ∈ (ix.graphOn load).adj x →
          y < ix.numPoints := by
        intro x y hx _ hy
        simp only [Index.graphOn] at hy
        split at hy
        · obtain ⟨v, hv⟩ := hw.stored x hx
          rw [hv] at hy
          exact hw.edges x v hv y (by simpa using hy)
        · simp at hy
      obtain ⟨s1, new, nodes', i1, i2, i3, i4, i5, i6, i7, i8, i9, i10⟩ :=
        iterate_spec pad (ix.graphOn load) (Q := fun _ _ => True) ⟨by simp, by simp⟩
          (R := fun i => i < ix.numPoints) hR beam hb s hcl hi.toW trivial hcond
      obtain ⟨nn, qq, e1, e2⟩ := iterate_expanded pad _ beam s s1 i1
      rw [f1] at e1
      obtain ⟨rfl, rfl⟩ := Prod.mk.inj (Option.some.inj e1)
      have hnn : nodes' = nodes := by
        have := i2.expanded
        rw [e2] at this
        exact (List.append_cancel_left this).symm
      subst hnn
      have hex1 : s1.expanded.Nodup := by
        rw [e2, List.nodup_append]
        refine ⟨hex, g2, ?_⟩
        intro x hx y hy hxy
        subst hxy
        exact g3 x hy hx
      have hlt : ((List.range ix.numPoints).filter fun v => decide (v ∉ s1.expanded)).length
          < ((List.range ix.numPoints).filter fun v => decide (v ∉ s.expanded)).length := by
        obtain ⟨x, hx⟩ := List.exists_mem_of_ne_nil _ i3
        rw [e2]
        exact filter_notMem_lt _ s.expanded _ x (List.mem_range.mpr (hnodes x hx)) (g3 x hx) hx
      obtain ⟨s', rest, l1, l3, l4, l5⟩ := ih (n + 1) s1
        (core_weaken (G := ix.graphOn load) rfl i4 (by intro x _ y hy; simp [Index.graphOn] at hy)) i5 hex1 (by omega)
      refine ⟨s', nodes' ++ rest, ?_, by rw [l3, e2, List.append_assoc], l4, ?_⟩
      · intro cv a ha
        obtain ⟨a1, r1, r2⟩ := round_eq pad ix hw cv beam a s _ q f1 g2 hnodes ha load (fun x _ => Iff.rfl) s1 i1
        rw [loop, if_pos (by simp [hcond, hterm cv a ha]), r1, ok_bind]
        exact l1 cv a1 r2
      · rw [searchLoop, if_pos (by simp [hcond])]
        have hsame : iterate pad (ix.graphOn (s'.expanded.take ix.ioLimit)) beam s = some s1 := by
          rw [← i1]
          refine iterate_congr pad _ _ beam s _ _ f1 rfl ?_
          intro x hx
          simp only [Index.graphOn]
          have : x ∈ s'.expanded.take ix.ioLimit ↔ x ∈ load := by
            rw [l3, e2] at l4 ⊢
            exact mem_take_mid _ _ _ _ l4 x hx
          simp only [this]
        rw [hsame]
        exact l5
    · refine ⟨s, [], ?_, by simp, hex, ?_⟩
      · intro cv a ha
        rw [loop, if_neg (by simp [hcond])]
        exact ⟨a, rfl, ha⟩
      · rw [searchLoop, if_neg (by simp [hcond])]

theorem start_eq (pad : D) (ix : Index V A D) (hw : WellFormed ix) (G : Graph Nat D) (hG : G.dist = ix.quant)
    (s : St Nat D) : start pad ix s = Res.ofOption ([ix.medoid].foldlM (addStart pad G) s) := by
  unfold start
  rw [pqDistances_ok ix _ (by simpa using hw.capacity) (by simpa using hw.medoid), ok_bind]
  congr 1
  simp only [List.map_cons, List.map_nil, List.foldlM_cons, List.foldlM_nil]
  unfold addStart
  rw [hG]

/-- The traversal of the disk search. -/
theorem traverse_spec (pad : D) (ix : Index V A D) (hw : WellFormed ix) (l beam fuel : Nat)
    (hl : 1 ≤ l) (hb : 1 ≤ beam) (hf : ix.numPoints < fuel) :
    ∃ s, (∀ p cv, ∃ a, traverse pad ix l beam fuel (Acc.new p cv) = .ok (a, s) ∧
        AccInv ix cv a (s.expanded.take ix.ioLimit)) ∧ s.expanded.Nodup ∧
      knnTraverse pad (ix.graphOn (s.expanded.take ix.ioLimit)) [ix.medoid] l beam (fun _ => false) fuel = some s := by
  obtain ⟨s1, a1, a2, a3, a4, -, -, -⟩ := starts_spec pad (ix.graphOn []) (Q := fun _ _ => True) ⟨by simp, by simp⟩
    (R := fun i => i < ix.numPoints) [ix.medoid] (St.create l 1) (by simp) (by simp [St.create])
    (by simpa using hw.medoid) (core_create _ _ _ _) (new_inv _ (by omega)) trivial
  have hex : s1.expanded = [] := by rw [a2.expanded]; simp [St.create]
  obtain ⟨s', nodes, l1, l3, l4, l5⟩ := loop_spec pad ix hw beam hb fuel 0 s1 a3 a4 (by rw [hex]; simp)
    (Nat.lt_of_le_of_lt (List.length_filter_le _ _) (by simpa using hf))
  refine ⟨s', ?_, l4, ?_⟩
  · intro p cv
    unfold traverse
    rw [start_eq pad ix hw (ix.graphOn []) rfl, a1, ofOption_some, ok_bind]
    exact l1 cv _ (by rw [hex]; simpa using accInv_new ix p cv)
  · unfold knnTraverse searchInternal
    rw [if_pos (by simp [St.create])]
    have : [ix.medoid].foldlM (addStart pad (ix.graphOn (s'.expanded.take ix.ioLimit))) (St.create l [ix.medoid].length)
        = some s1 := by
      rw [← a1]; rfl
    rw [this]
    exact l5

end Verif.DiskSearch
