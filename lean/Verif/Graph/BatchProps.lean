import Verif.Graph.BatchLemmas

/-!
# C64: batch insertion

`multi_insert` searches for every vector of the batch on the graph as it was, then writes all out-edges and all
back-edges. The theorems quantify over the search records, the number of tasks, which task handles what and in which
order, and the iteration order of the hash map.
-/

namespace Verif.Graph

variable {I : Type} [LinearOrder I]

/-! ### Specification -/

/-- `u` was chosen as an out-neighbour of `s`. -/
def Chose (edges : List (Pending I)) (s u : I) : Prop := ∃ l, (s, l) ∈ edges ∧ u ∈ l

/-- The list of `u` once the out-edges of the batch are written: its own new out-edges, or else its old list. -/
def withOutEdges (edges : List (Pending I)) (g : Graph I) (u : I) : List I := (edges.lookup u).getD (g u)

/-- The out-edges of a batch: one duplicate-free list within the pruned degree for each listed batch member, not
containing it, drawn from its own search record and the batch. -/
structure BatchEdges (c : Config) (ids : List I) (rec : Nat → List (I × Rat)) (edges : List (Pending I)) : Prop where
  once : (edges.map (·.1)).Nodup
  member : ∀ v l, (v, l) ∈ edges → v ∈ ids
  lists : ∀ v l, (v, l) ∈ edges → l.Nodup ∧ l.length ≤ c.prunedDegree ∧ v ∉ l
  drawn : ∀ v l, (v, l) ∈ edges → ∀ x ∈ l, x ∈ ids ∨ ∃ pos, ids[pos]? = some v ∧ x ∈ (rec pos).map (·.1)

/-- Nothing failed: every batch position was claimed, every claimed bootstrap position too, and the batch's own vectors
can be read. -/
structure Complete (c : Config) (srt : Sorter I) (env : Env I) (fill : List I → I → Bool) (fuel : Nat)
    (intra : IntraBatch) (ids : List I) (rec : Nat → List (I × Rat)) (force : Nat → Bool) (done done2 : List Nat) :
    Prop where
  claimed : done.Perm (List.range ids.length)
  claimed2 : ∀ edges, collect (searchAndPrune c srt fill env.dd fuel intra ids rec force) done = some edges →
    done2.Perm (List.range edges.length)
  fills : ∀ v ∈ ids, ∀ l, fill (v :: l) v = true
  reads : ∀ v ∈ ids, env.view v = true
  room : 0 < c.maxOcclusion

/-! ### Lemmas -/

theorem nodup_pick (ids : List I) (hn : ids.Nodup) (ps : List Nat) (hp : ps.Nodup) :
    (ps.filterMap fun p => ids[p]?).Nodup := by
  refine List.Nodup.filterMap ?_ hp
  intro a a' b hb hb'
  rw [Option.mem_def] at hb hb'
  obtain ⟨h1, e1⟩ := List.getElem?_eq_some_iff.1 hb
  obtain ⟨h2, e2⟩ := List.getElem?_eq_some_iff.1 hb'
  exact (List.Nodup.getElem_inj_iff hn).1 (e1.trans e2.symm)

theorem extras_spec (ids : List I) (hn : ids.Nodup) (pos n : Nat) (hpos : pos < ids.length) :
    ((AsyncTools.around ids pos n).filterMap id).Nodup ∧
    ∀ x ∈ (AsyncTools.around ids pos n).filterMap id, x ∈ ids := by
  obtain ⟨idx, h1, -, -, h4⟩ := AsyncTools.C28_around ids pos n hpos
  have e : (AsyncTools.around ids pos n).filterMap id = idx.filterMap fun j => ids[j]? := by
    rw [h1, List.filterMap_map]; rfl
  rw [e]
  refine ⟨nodup_pick ids hn idx h4, ?_⟩
  intro x hx
  obtain ⟨j, -, hj⟩ := List.mem_filterMap.1 hx
  exact List.mem_of_getElem? hj

/-- The claim about one list of out-edges. -/
def ListOk (c : Config) (ids : List I) (rec : Nat → List (I × Rat)) (v : I) (l : List I) : Prop :=
  v ∈ ids ∧ (l.Nodup ∧ l.length ≤ c.prunedDegree ∧ v ∉ l) ∧
    ∀ x ∈ l, x ∈ ids ∨ ∃ pos : Nat, ids[pos]? = some v ∧ x ∈ (rec pos).map (·.1)

theorem searchAndPrune_spec (c : Config) (srt : Sorter I) (fill : List I → I → Bool) (dd : I → I → Rat) (fuel : Nat)
    (intra : IntraBatch) (ids : List I) (hn : ids.Nodup) (rec : Nat → List (I × Rat))
    (hrec : ∀ pos, ((rec pos).map (·.1)).Nodup ∧ ∀ x ∈ (rec pos).map (·.1), x ∉ ids) (force : Nat → Bool)
    (pos : Nat) (l : List (Pending I)) (h : searchAndPrune c srt fill dd fuel intra ids rec force pos = some l) :
    l = [] ∨ ∃ v x, ids[pos]? = some v ∧ l = [(v, x)] ∧ ListOk c ids rec v x := by
  unfold searchAndPrune at h
  split at h
  · cases h
  · rename_i v hv
    have hpos : pos < ids.length := (List.getElem?_eq_some_iff.1 hv).1
    obtain ⟨e1, e2⟩ := extras_spec ids hn pos (intra.get ids.length) hpos
    simp only [Option.map_eq_some_iff, Prod.exists] at h
    obtain ⟨res, out, h, rfl⟩ := h
    cases res with
    | failedRetrieval => exact Or.inl rfl
    | ok =>
      right
      refine ⟨v, out, hv, rfl, List.mem_of_getElem? hv, ?_⟩
      unfold robustPruneWith at h
      simp only at h
      split at h
      · simp at h
      · simp only [Option.map_eq_some_iff, Prod.mk.injEq, true_and, exists_eq_right] at h
        generalize (AsyncTools.around ids pos (intra.get ids.length)).filterMap id = extras at *
        generalize fill ((v :: (extras ++ (rec pos).map (·.1))).take c.maxOcclusion) = view at *
        have hmap : ((rec pos) ++ (extras.filter view).map fun i => (i, dd v i)).map (·.1) =
            (rec pos).map (·.1) ++ extras.filter view := by
          rw [List.map_append, List.map_map]
          congr 1
          exact List.map_id _
        obtain ⟨h1, h2, h3, h4⟩ := C07_pruned_list_partial c v _ _ _ _ _ _ _ (by
          rw [hmap]
          refine List.Nodup.append (hrec pos).1 (e1.filter _) ?_
          intro x hx hx'
          exact (hrec pos).2 x hx (e2 x (List.mem_filter.1 hx').1)) (srt.ok _ _) h
        refine ⟨⟨h2, h1, h4⟩, ?_⟩
        intro x hx
        have := h3 x hx
        rw [hmap, List.mem_append] at this
        rcases this with h | h
        · exact Or.inr ⟨pos, hv, h⟩
        · exact Or.inl (e2 x (List.mem_filter.1 h).1)

theorem searchAndPrune_ok (c : Config) (srt : Sorter I) (fill : List I → I → Bool) (dd : I → I → Rat) (fuel : Nat)
    (intra : IntraBatch) (ids : List I) (rec : Nat → List (I × Rat)) (force : Nat → Bool)
    (hfill : ∀ v ∈ ids, ∀ l, fill (v :: l) v = true) (hocc : 0 < c.maxOcclusion)
    (pos : Nat) (l : List (Pending I)) (h : searchAndPrune c srt fill dd fuel intra ids rec force pos = some l) :
    ∃ v x, ids[pos]? = some v ∧ l = [(v, x)] := by
  unfold searchAndPrune at h
  split at h
  · cases h
  · rename_i v hv
    simp only [Option.map_eq_some_iff, Prod.exists] at h
    obtain ⟨res, out, h, rfl⟩ := h
    unfold robustPruneWith at h
    simp only at h
    obtain ⟨n, hn⟩ : ∃ n, c.maxOcclusion = n + 1 := ⟨c.maxOcclusion - 1, by omega⟩
    rw [if_neg (by
      rw [hn, List.take_succ_cons, hfill v (List.mem_of_getElem? hv)]
      simp)] at h
    simp only [Option.map_eq_some_iff, Prod.mk.injEq] at h
    obtain ⟨x, -, rfl, rfl⟩ := h
    exact ⟨v, x, hv, rfl⟩

theorem bootstrap_spec (c : Config) (srt : Sorter I) (env : Env I) (fuel : Nat) (ids : List I)
    (rec : Nat → List (I × Rat)) (batch : List (Pending I)) (hb : ∀ e ∈ batch, ListOk c ids rec e.1 e.2) (pos : Nat)
    (l : List (Pending I)) (h : bootstrapLeaf c srt env fuel batch pos = some l) :
    l = [] ∨ ∃ v x, (batch[pos]?).map (·.1) = some v ∧ l = [(v, x)] ∧ ListOk c ids rec v x := by
  unfold bootstrapLeaf at h
  split at h
  · cases h
  · rename_i cur hcur
    have hok := hb cur (List.mem_of_getElem? hcur)
    simp only [Option.map_eq_some_iff, Prod.exists] at h
    obtain ⟨res, out, h, rfl⟩ := h
    cases res with
    | failedRetrieval => exact Or.inl rfl
    | ok =>
      right
      refine ⟨cur.1, out, by rw [hcur]; rfl, rfl, hok.1, ?_⟩
      obtain ⟨s1, s2⟩ := C05_from_stream
        (cur.2 ++ (batch.filterMap fun p => if p.1 = cur.1 then none else some p.1))
      generalize fromIterUntrusted (cur.2 ++ (batch.filterMap fun p => if p.1 = cur.1 then none else some p.1)) =
        cands at *
      by_cases hne : cands = []
      · subst hne
        unfold robustPruneList at h
        simp only [if_true, Option.some.injEq, Prod.mk.injEq, true_and] at h
        subst h
        simp
      · obtain ⟨h1, h2, h3, h4⟩ := robustPruneList_ok c srt env fuel cur.1 cands [] true out
          (s1.imp (fun h => ne_of_lt h)) hne h
        refine ⟨⟨h2, h1, h4⟩, ?_⟩
        intro x hx
        have := (s2 x).1 (h3 x hx).1
        rcases List.mem_append.1 this with h | h
        · exact hok.2.2 x h
        · obtain ⟨p, hp, hpx⟩ := List.mem_filterMap.1 h
          left
          split at hpx
          · cases hpx
          · simp only [Option.some.injEq] at hpx
            rw [← hpx]; exact (hb p hp).1

theorem bootstrap_ok (c : Config) (srt : Sorter I) (env : Env I) (fuel : Nat) (batch : List (Pending I))
    (hv : ∀ e ∈ batch, env.view e.1 = true) (pos : Nat) (l : List (Pending I))
    (h : bootstrapLeaf c srt env fuel batch pos = some l) :
    ∃ v x, (batch[pos]?).map (·.1) = some v ∧ l = [(v, x)] := by
  unfold bootstrapLeaf at h
  split at h
  · cases h
  · rename_i cur hcur
    simp only [Option.map_eq_some_iff, Prod.exists] at h
    obtain ⟨res, out, h, rfl⟩ := h
    cases res with
    | failedRetrieval =>
      have := (robustPruneList_failed _ _ _ _ _ _ _ _ _ h).2
      rw [hv cur (List.mem_of_getElem? hcur)] at this; cases this
    | ok => exact ⟨cur.1, out, by rw [hcur]; rfl, rfl⟩

theorem pending_spec (c : Config) (srt : Sorter I) (env : Env I) (fill : List I → I → Bool) (fuel : Nat)
    (intra : IntraBatch) (ids : List I) (hn : ids.Nodup) (rec : Nat → List (I × Rat))
    (hrec : ∀ pos, ((rec pos).map (·.1)).Nodup ∧ ∀ x ∈ (rec pos).map (·.1), x ∉ ids) (force : Nat → Bool)
    (done done2 : List Nat) (hd : done.Nodup) (hd2 : done2.Nodup) (edges : List (Pending I))
    (h : pendingEdges c srt env fill fuel intra ids rec force done done2 = some edges) :
    (edges.map (·.1)).Nodup ∧ ∀ e ∈ edges, ListOk c ids rec e.1 e.2 := by
  unfold pendingEdges at h
  split at h
  · cases h
  · rename_i edges1 h1
    have a : (edges1.map (·.1)).Nodup := by
      refine (collect_sources _ (fun p => ids[p]?) (fun p l hl => ?_) done edges1 h1).nodup (nodup_pick ids hn done hd)
      rcases searchAndPrune_spec c srt fill env.dd fuel intra ids hn rec hrec force p l hl with h | ⟨v, x, h1, h2, -⟩
      · exact Or.inl h
      · exact Or.inr ⟨v, x, h1, h2⟩
    have b : ∀ e ∈ edges1, ListOk c ids rec e.1 e.2 := by
      intro e he
      obtain ⟨p, -, l, hl, hel⟩ := collect_mem _ _ _ h1 e he
      rcases searchAndPrune_spec c srt fill env.dd fuel intra ids hn rec hrec force p l hl with rfl | ⟨v, x, -, rfl, h3⟩
      · cases hel
      · rw [List.mem_singleton] at hel; subst hel; exact h3
    split at h
    · refine ⟨?_, ?_⟩
      · refine (collect_sources _ (fun p => (edges1[p]?).map (·.1)) (fun p l hl => ?_) done2 edges h).nodup ?_
        · rcases bootstrap_spec c srt env fuel ids rec edges1 b p l hl with h | ⟨v, x, h1, h2, -⟩
          · exact Or.inl h
          · exact Or.inr ⟨v, x, h1, h2⟩
        · have := nodup_pick (edges1.map (·.1)) a done2 hd2
          simpa only [List.getElem?_map] using this
      · intro e he
        obtain ⟨p, -, l, hl, hel⟩ := collect_mem _ _ _ h e he
        rcases bootstrap_spec c srt env fuel ids rec edges1 b p l hl with rfl | ⟨v, x, -, rfl, h3⟩
        · cases hel
        · rw [List.mem_singleton] at hel; subst hel; exact h3
    · simp only [Option.some.injEq] at h
      subst h
      exact ⟨a, b⟩

theorem range_pick {α : Type} (l : List α) : (List.range l.length).filterMap (fun p => l[p]?) = l := by
  apply List.ext_getElem?
  intro i
  have : (List.range l.length).filterMap (fun p => l[p]?) = l := by
    induction l using List.reverseRecOn with
    | nil => rfl
    | append_singleton l x ih =>
      rw [List.length_append, List.length_singleton, List.range_succ, List.filterMap_append]
      congr 1
      · conv_rhs => rw [← ih]
        apply List.filterMap_congr
        intro p hp
        rw [List.mem_range] at hp
        rw [List.getElem?_append_left hp]
      · simp
  rw [this]

theorem pending_complete (c : Config) (srt : Sorter I) (env : Env I) (fill : List I → I → Bool) (fuel : Nat)
    (intra : IntraBatch) (ids : List I) (rec : Nat → List (I × Rat)) (force : Nat → Bool)
    (done done2 : List Nat) (hcom : Complete c srt env fill fuel intra ids rec force done done2)
    (edges : List (Pending I))
    (h : pendingEdges c srt env fill fuel intra ids rec force done done2 = some edges) :
    (edges.map (·.1)).Perm ids := by
  unfold pendingEdges at h
  split at h
  · cases h
  · rename_i edges1 h1
    have a : (edges1.map (·.1)).Perm ids := by
      rw [collect_sources_all _ (fun p => ids[p]?) done (fun p _ l hl =>
        searchAndPrune_ok c srt fill env.dd fuel intra ids rec force hcom.fills hcom.room p l hl) edges1 h1]
      have := hcom.claimed.filterMap (fun p => ids[p]?)
      rwa [range_pick] at this
    split at h
    · have hv : ∀ e ∈ edges1, env.view e.1 = true := fun e he =>
        hcom.reads _ (a.mem_iff.1 (List.mem_map.2 ⟨e, he, rfl⟩))
      rw [collect_sources_all _ (fun p => (edges1[p]?).map (·.1)) done2 (fun p _ l hl =>
        bootstrap_ok c srt env fuel edges1 hv p l hl) edges h]
      have e := (hcom.claimed2 edges1 h1).filterMap (fun p => (edges1.map (·.1))[p]?)
      have e2 := range_pick (edges1.map (·.1))
      rw [List.length_map] at e2
      rw [e2] at e
      simp only [List.getElem?_map] at e
      exact e.trans a
    · simp only [Option.some.injEq] at h
      subst h
      exact a

/-! ### C64 -/

/-- **C64.** For every batch of fresh ids, every graph within the degree bound, every set of search records that do not
yet contain the batch, every claim order, number of tasks and hash order: when a batch insertion finishes, there is one
list of out-edges per handled batch member (all of them if nothing failed) and the new graph is the old one with those
lists stored and their reverses added. That is, for every vertex `u`:
1. its list has no duplicates and respects the degree bound;
2. everything in it was in `u`'s new or old list or is a batch member that chose `u`;
3. if nobody chose `u`, it is exactly `u`'s new or old list;
4. if there is room for all that chose `u`, it is that list followed by those of them not already in it, ascending. -/
theorem C64_batch_insert (c : Config) (hc : c.prunedDegree ≤ c.maxDegree) (srt : Sorter I) (env : Env I)
    (fill : List I → I → Bool) (fuel : Nat) (intra : IntraBatch) (ntasks : Nat) (ht : 0 < ntasks) (ids : List I)
    (hn : ids.Nodup) (rec : Nat → List (I × Rat))
    (hrec : ∀ pos, ((rec pos).map (·.1)).Nodup ∧ ∀ x ∈ (rec pos).map (·.1), x ∉ ids) (force : Nat → Bool)
    (done done2 : List Nat) (hd : done.Nodup) (hd2 : done2.Nodup) (order : List I → List I)
    (hord : ∀ l, (order l).Perm l) (g : Graph I) (hg : ∀ u, (g u).Nodup ∧ (g u).length ≤ c.maxDegree)
    (hread : ∀ u, (u ∈ ids ∨ ∃ pos, u ∈ (rec pos).map (·.1)) → env.view u = true) (g' : Graph I)
    (h : multiInsert c srt env fill fuel intra ntasks ids rec force done done2 order g = some g') :
    ∃ edges : List (Pending I), BatchEdges c ids rec edges ∧
      (Complete c srt env fill fuel intra ids rec force done done2 → ∀ v ∈ ids, ∃ l, (v, l) ∈ edges) ∧
      ∀ u, ((g' u).Nodup ∧ (g' u).length ≤ c.maxDegree) ∧
        (∀ x ∈ g' u, x ∈ withOutEdges edges g u ∨ Chose edges x u) ∧
        ((∀ s, ¬ Chose edges s u) → g' u = withOutEdges edges g u) ∧
        ((withOutEdges edges g u).length + (edges.filter fun e => decide (u ∈ e.2)).length ≤ c.maxDegree →
          ∃ add, g' u = withOutEdges edges g u ++ add ∧ add.Pairwise (· < ·) ∧
            ∀ x, x ∈ add ↔ Chose edges x u ∧ x ∉ withOutEdges edges g u) := by
  unfold multiInsert at h
  split at h
  · cases h
  · rename_i edges he
    simp only at h
    obtain ⟨p1, p2⟩ := pending_spec c srt env fill fuel intra ids hn rec hrec force done done2 hd hd2 edges he
    obtain ⟨a1, a2, a3, a4⟩ := aggregate_spec edges
    have hmem : ∀ k, k ∈ order (aggregate edges).keys ↔ k ∈ (aggregate edges).keys := fun k => (hord _).mem_iff
    have hview : ∀ k ∈ order (aggregate edges).keys, env.view k = true := by
      intro k hk
      obtain ⟨s, l, hs, hkl⟩ := (a2 k).1 ((hmem k).1 hk)
      rcases (p2 _ hs).2.2 k hkl with h | ⟨pos, -, h⟩
      · exact hread k (Or.inl h)
      · exact hread k (Or.inr ⟨pos, h⟩)
    have happ := allTasks_applied c srt env fuel (aggregate edges) (order (aggregate edges).keys) ntasks ht
      ((hord _).nodup_iff.2 a1) hview _ g' h
    have hbase : ∀ u, setBulk g edges u = withOutEdges edges g u := fun u => setBulk_eq g edges p1 u
    refine ⟨edges, ⟨p1, fun v l hv => (p2 _ hv).1, fun v l hv => (p2 _ hv).2.1, fun v l hv => (p2 _ hv).2.2⟩, ?_, ?_⟩
    · intro hcom v hv
      have := (pending_complete c srt env fill fuel intra ids rec force done done2 hcom edges he).mem_iff.2 hv
      obtain ⟨e, he, rfl⟩ := List.mem_map.1 this
      exact ⟨e.2, he⟩
    · intro u
      have hb : (withOutEdges edges g u).Nodup ∧ (withOutEdges edges g u).length ≤ c.maxDegree := by
        unfold withOutEdges
        cases hl : edges.lookup u with
        | none => exact hg u
        | some l =>
          have := (p2 _ ((lookup_iff edges p1 u l).1 hl)).2.1
          exact ⟨this.1, Nat.le_trans this.2.1 hc⟩
      have hno : u ∉ order (aggregate edges).keys → (∀ s, ¬ Chose edges s u) ∧ g' u = withOutEdges edges g u := by
        intro hu
        refine ⟨fun s ⟨l, hs, hl⟩ => hu ((hmem u).2 ((a2 u).2 ⟨s, l, hs, hl⟩)), ?_⟩
        rw [happ.other u hu, hbase]
      have hsort : ∀ x, x ∈ ((aggregate edges).get u).toList.insertionSort (· ≤ ·) ↔ Chose edges x u := by
        intro x; rw [List.mem_insertionSort, a4]; rfl
      by_cases hu : u ∈ order (aggregate edges).keys
      · have hk := happ.key u hu
        rw [hbase] at hk
        obtain ⟨u1, u2, u3⟩ := upd_spec c hc srt env fuel u _ _ _ hb (hview u hu) hk
        refine ⟨u1, ?_, ?_, ?_⟩
        · intro x hx
          rcases u2 x hx with h | h
          · exact Or.inl h
          · exact Or.inr ((hsort x).1 h)
        · intro hnone
          obtain ⟨s, l, hs, hl⟩ := (a2 u).1 ((hmem u).1 hu)
          exact absurd ⟨l, hs, hl⟩ (hnone s)
        · intro hroom
          have hlen : (((aggregate edges).get u).toList.insertionSort (· ≤ ·)).length ≤
              (edges.filter fun e => decide (u ∈ e.2)).length := by
            rw [List.length_insertionSort]
            have hsub : ((aggregate edges).get u).toList ⊆ (edges.filter fun e => decide (u ∈ e.2)).map (·.1) := by
              intro x hx
              obtain ⟨l, hl, hul⟩ := (a4 u x).1 hx
              exact List.mem_map.2 ⟨(x, l), List.mem_filter.2 ⟨hl, by simpa using hul⟩, rfl⟩
            have := (List.subperm_of_subset (a3 u) hsub).length_le
            simpa using this
          obtain ⟨add, e1, e2⟩ := appendNew_add (((aggregate edges).get u).toList.insertionSort (· ≤ ·))
            (withOutEdges edges g u)
          have hfit : (appendNew (withOutEdges edges g u)
              (((aggregate edges).get u).toList.insertionSort (· ≤ ·))).length ≤ c.maxDegree := by
            rw [e1, List.length_append]
            have := e2.length_le
            omega
          have hg' := u3 hfit
          have hnd : (withOutEdges edges g u ++ add).Nodup := by rw [← e1, ← hg']; exact u1.1
          refine ⟨add, by rw [hg', e1], ?_, ?_⟩
          · have hs : add.Pairwise (· ≤ ·) := (List.pairwise_insertionSort (· ≤ ·) _).sublist e2
            have hne : add.Pairwise (· ≠ ·) := (List.nodup_append.1 hnd).2.1
            exact hs.imp₂ (fun a b h1 h2 => lt_of_le_of_ne h1 h2) hne
          · intro x
            constructor
            · intro hx
              refine ⟨(hsort x).1 (e2.subset hx), fun hx' => ?_⟩
              exact (List.nodup_append.1 hnd).2.2 x hx' x hx rfl
            · rintro ⟨h1, h2⟩
              have : x ∈ appendNew (withOutEdges edges g u)
                  (((aggregate edges).get u).toList.insertionSort (· ≤ ·)) :=
                (mem_appendNew _ _ _).2 (Or.inr ((hsort x).2 h1))
              rw [e1] at this
              rcases List.mem_append.1 this with h | h
              · exact absurd h h2
              · exact h
      · obtain ⟨n1, n2⟩ := hno hu
        rw [n2]
        refine ⟨hb, fun x hx => Or.inl hx, fun _ => rfl, fun _ => ⟨[], by simp, List.Pairwise.nil, ?_⟩⟩
        intro x
        simp only [List.not_mem_nil, false_iff, not_and]
        intro hx
        exact absurd hx (n1 x)

/-! ### Independence of the schedule -/

theorem fromIter_congr (a b : List I) (h : ∀ x, x ∈ a ↔ x ∈ b) : fromIterUntrusted a = fromIterUntrusted b := by
  obtain ⟨a1, a2⟩ := C05_from_stream a
  obtain ⟨b1, b2⟩ := C05_from_stream b
  have hp : (fromIterUntrusted a).Perm (fromIterUntrusted b) :=
    (List.perm_ext_iff_of_nodup (a1.imp fun h => ne_of_lt h) (b1.imp fun h => ne_of_lt h)).2
      (fun x => by rw [a2, b2, h])
  exact List.Perm.eq_of_pairwise (fun x y _ _ h1 h2 => absurd h1 (lt_asymm h2)) a1 b1 hp

theorem sort_congr (a b : List I) (ha : a.Nodup) (hb : b.Nodup) (h : ∀ x, x ∈ a ↔ x ∈ b) :
    a.insertionSort (· ≤ ·) = b.insertionSort (· ≤ ·) := by
  have hp : (a.insertionSort (· ≤ ·)).Perm (b.insertionSort (· ≤ ·)) :=
    (List.perm_insertionSort _ a).trans (((List.perm_ext_iff_of_nodup ha hb).2 h).trans
      (List.perm_insertionSort _ b).symm)
  exact List.Perm.eq_of_pairwise (fun x y _ _ h1 h2 => le_antisymm h1 h2) (List.pairwise_insertionSort _ _)
    (List.pairwise_insertionSort _ _) hp

/-- One bootstrap replacement, given the members of the batch. -/
def leafOf (c : Config) (srt : Sorter I) (env : Env I) (fuel : Nat) (members : List I) (cur : Pending I) :
    Option (List (Pending I)) :=
  (robustPruneList c srt env fuel cur.1
    (fromIterUntrusted (cur.2 ++ members.filter fun s => decide (s ≠ cur.1))) [] true).map fun r =>
      match r.1 with
      | .ok => [(cur.1, r.2)]
      | .failedRetrieval => []

theorem bootstrapLeaf_eq (c : Config) (srt : Sorter I) (env : Env I) (fuel : Nat) (batch : List (Pending I)) :
    bootstrapLeaf c srt env fuel batch = fun p => (batch[p]?).bind (leafOf c srt env fuel (batch.map (·.1))) := by
  funext p
  unfold bootstrapLeaf
  cases batch[p]? with
  | none => rfl
  | some cur =>
    simp only [leafOf, Option.bind_some]
    congr 2
    apply fromIter_congr
    intro x
    simp only [List.mem_append, List.mem_filterMap, List.mem_filter, List.mem_map, ne_eq, decide_not,
      Bool.not_eq_eq_eq_not, Bool.not_true, decide_eq_false_iff_not]
    constructor
    · rintro (h | ⟨e, he, h⟩)
      · exact Or.inl h
      · split at h
        · cases h
        · rename_i hne
          simp only [Option.some.injEq] at h
          subst h
          exact Or.inr ⟨⟨e, he, rfl⟩, hne⟩
    · rintro (h | ⟨⟨e, he, rfl⟩, hne⟩)
      · exact Or.inl h
      · exact Or.inr ⟨e, he, by rw [if_neg hne]⟩

theorem keys_length_perm (e1 e2 : List (Pending I)) (hp : e1.Perm e2) :
    (aggregate e1).keys.length = (aggregate e2).keys.length := by
  obtain ⟨a1, a2, -, -⟩ := aggregate_spec e1
  obtain ⟨b1, b2, -, -⟩ := aggregate_spec e2
  refine ((List.perm_ext_iff_of_nodup a1 b1).2 fun x => ?_).length_eq
  rw [a2, b2]
  simp only [hp.mem_iff]

theorem pending_perm (c : Config) (srt : Sorter I) (env : Env I) (fill : List I → I → Bool) (fuel : Nat)
    (intra : IntraBatch) (ids : List I) (rec : Nat → List (I × Rat)) (force : Nat → Bool)
    (done done2 done' done2' : List Nat) (hcom : Complete c srt env fill fuel intra ids rec force done done2)
    (hcom' : Complete c srt env fill fuel intra ids rec force done' done2') (edges edges' : List (Pending I))
    (h : pendingEdges c srt env fill fuel intra ids rec force done done2 = some edges)
    (h' : pendingEdges c srt env fill fuel intra ids rec force done' done2' = some edges') : edges.Perm edges' := by
  unfold pendingEdges at h h'
  split at h
  · cases h
  · rename_i e1 h1
    split at h'
    · cases h'
    · rename_i e2 h2
      have hp : e1.Perm e2 := collect_perm _ _ _ (hcom.claimed.trans hcom'.claimed.symm) _ _ h1 h2
      rw [keys_length_perm e1 e2 hp] at h
      split at h
      · rename_i hb
        rw [if_pos hb] at h'
        -- bring both runs to the same function over the batch
        have key : ∀ (e : List (Pending I)) (d : List Nat) (r : List (Pending I)), d.Perm (List.range e.length) →
            collect (bootstrapLeaf c srt env fuel e) d = some r →
            ∃ r0, collect (leafOf c srt env fuel (e.map (·.1))) e = some r0 ∧ r.Perm r0 := by
          intro e d r hd hr
          rw [bootstrapLeaf_eq] at hr
          cases hc : collect (leafOf c srt env fuel (e.map (·.1))) e with
          | some r0 =>
            refine ⟨r0, rfl, collect_perm _ _ _ hd r r0 hr ?_⟩
            rw [collect_range]; exact hc
          | none =>
            exfalso
            rw [← collect_range] at hc
            have key : ∀ (f : Nat → Option (List (Pending I))) (l : List Nat),
                collect f l = none ↔ ∃ p ∈ l, f p = none := by
              intro f l
              induction l with
              | nil => simp [collect]
              | cons p l ih =>
                rw [collect]
                cases hp : f p <;> cases hl : collect f l <;> simp_all
            obtain ⟨p, hp, hfp⟩ := (key _ _).1 hc
            have := (key (fun p => (e[p]?).bind (leafOf c srt env fuel (e.map (·.1)))) d).2 ⟨p, hd.mem_iff.2 hp, hfp⟩
            rw [hr] at this; cases this
        obtain ⟨r1, k1, q1⟩ := key e1 done2 edges (hcom.claimed2 e1 h1) h
        obtain ⟨r2, k2, q2⟩ := key e2 done2' edges' (hcom'.claimed2 e2 h2) h'
        have hleaf : leafOf c srt env fuel (e1.map (·.1)) = leafOf c srt env fuel (e2.map (·.1)) := by
          funext cur
          unfold leafOf
          congr 2
          apply fromIter_congr
          intro x
          simp only [List.mem_append, List.mem_filter, (hp.map (·.1)).mem_iff]
        rw [hleaf] at k1
        exact q1.trans ((collect_perm _ _ _ hp r1 r2 k1 k2).trans q2.symm)
      · rename_i hb
        rw [if_neg hb] at h'
        cases h; cases h'
        exact hp

/-- C64, determinism. With readable vectors, two complete runs of the same batch insertion — with different numbers of
tasks, different claim orders in both rounds and different hash orders — produce the same graph. -/
theorem C64_schedule_independent (c : Config) (srt : Sorter I) (env : Env I)
    (fill : List I → I → Bool) (fuel : Nat) (intra : IntraBatch) (ids : List I)
    (hn : ids.Nodup) (rec : Nat → List (I × Rat))
    (hrec : ∀ pos, ((rec pos).map (·.1)).Nodup ∧ ∀ x ∈ (rec pos).map (·.1), x ∉ ids) (force : Nat → Bool)
    (hread : ∀ u, (u ∈ ids ∨ ∃ pos, u ∈ (rec pos).map (·.1)) → env.view u = true) (g : Graph I)
    (ntasks ntasks' : Nat) (ht : 0 < ntasks) (ht' : 0 < ntasks') (done done2 done' done2' : List Nat)
    (hcom : Complete c srt env fill fuel intra ids rec force done done2)
    (hcom' : Complete c srt env fill fuel intra ids rec force done' done2') (hd2 : done2.Nodup) (hd2' : done2'.Nodup)
    (order order' : List I → List I) (hord : ∀ l, (order l).Perm l) (hord' : ∀ l, (order' l).Perm l)
    (g1 g2 : Graph I)
    (h1 : multiInsert c srt env fill fuel intra ntasks ids rec force done done2 order g = some g1)
    (h2 : multiInsert c srt env fill fuel intra ntasks' ids rec force done' done2' order' g = some g2) : g1 = g2 := by
  unfold multiInsert at h1 h2
  split at h1
  · cases h1
  · rename_i e1 he1
    split at h2
    · cases h2
    · rename_i e2 he2
      simp only at h1 h2
      have hd : done.Nodup := hcom.claimed.nodup_iff.2 List.nodup_range
      have hd' : done'.Nodup := hcom'.claimed.nodup_iff.2 List.nodup_range
      obtain ⟨p1, p2⟩ := pending_spec c srt env fill fuel intra ids hn rec hrec force done done2 hd hd2 e1 he1
      have hp := pending_perm c srt env fill fuel intra ids rec force done done2 done' done2' hcom hcom' e1 e2 he1 he2
      have p1' : (e2.map (·.1)).Nodup := (hp.map _).nodup_iff.1 p1
      have hbase : setBulk g e1 = setBulk g e2 := by
        funext u
        rw [setBulk_eq g e1 p1, setBulk_eq g e2 p1', lookup_perm e1 e2 p1 hp]
      obtain ⟨a1, a2, a3, a4⟩ := aggregate_spec e1
      obtain ⟨b1, b2, b3, b4⟩ := aggregate_spec e2
      have hkeys : ∀ u, u ∈ (aggregate e1).keys ↔ u ∈ (aggregate e2).keys := by
        intro u; rw [a2, b2]; simp only [hp.mem_iff]
      have hview : ∀ k ∈ (aggregate e1).keys, env.view k = true := by
        intro k hk
        obtain ⟨s, l, hs, hkl⟩ := (a2 k).1 hk
        rcases (p2 _ hs).2.2 k hkl with h | ⟨pos, -, h⟩
        · exact hread k (Or.inl h)
        · exact hread k (Or.inr ⟨pos, h⟩)
      have x1 := allTasks_applied c srt env fuel (aggregate e1) (order (aggregate e1).keys) ntasks ht
        ((hord _).nodup_iff.2 a1) (fun k hk => hview k ((hord _).mem_iff.1 hk)) _ g1 h1
      have x2 := allTasks_applied c srt env fuel (aggregate e2) (order' (aggregate e2).keys) ntasks' ht'
        ((hord' _).nodup_iff.2 b1) (fun k hk => hview k ((hkeys k).2 ((hord' _).mem_iff.1 hk))) _ g2 h2
      rw [← hbase] at x2
      refine applied_unique (fun u => ?_) (fun u _ => ?_) x1 x2
      · rw [(hord _).mem_iff, (hord' _).mem_iff, hkeys]
      · refine sort_congr _ _ (a3 u) (b3 u) fun x => ?_
        rw [a4, b4]; simp only [hp.mem_iff]

/-! ### A batch of one -/

theorem insertLoop_applyEdges (c : Config) (srt : Sorter I) (env : Env I) (fuel : Nat) (v : I) (l : List I)
    (st : Graph I × List I) :
    l.foldl (fun st source =>
      match st with
      | none => none
      | some (g, scratch) => addEdgeAndPrune c srt env fuel g [v] source scratch (fun _ => false)) (some st) =
      applyEdges c srt env fuel (fun _ => false) (fun _ => [v]) l st := by
  induction l generalizing st with
  | nil => rfl
  | cons k l ih =>
    obtain ⟨g, s⟩ := st
    rw [List.foldl_cons, applyEdges]
    simp only
    cases ha : addEdgeAndPrune c srt env fuel g [v] k s (fun _ => false) with
    | none =>
      clear ha ih
      simp only
      induction l with
      | nil => rfl
      | cons _ l ih => rw [List.foldl_cons]; exact ih
    | some st => exact ih st

/-- C64, a batch of one is a plain insertion. With every vector readable, inserting the single vector `v` as a batch
produces the same graph as `insert` with the same search record and a back-edge limit of at least the pruned degree,
whatever the batch settings. -/
theorem C64_batch_of_one (c : Config) (srt : Sorter I) (env : Env I) (fuel : Nat) (intra : IntraBatch)
    (ntasks : Nat) (ht : 0 < ntasks) (v : I) (record : List (I × Rat)) (hrec : (record.map (·.1)).Nodup)
    (hv : v ∉ record.map (·.1)) (hview : ∀ u ∈ record.map (·.1), env.view u = true)
    (force : Bool) (maxBackedges : Nat) (hmax : c.prunedDegree ≤ maxBackedges) (done2 : List Nat)
    (order : List I → List I) (hord : ∀ l, (order l).Perm l) (g g1 g2 : Graph I)
    (h1 : multiInsert c srt env (fun _ => env.view) fuel intra ntasks [v] (fun _ => record) (fun _ => force) [0] done2
      order g = some g1)
    (h2 : insertVertex c srt env fuel maxBackedges g v record force = some g2) : g1 = g2 := by
  unfold insertVertex at h2
  split at h2
  · cases h2
  · rename_i gi new hins
    unfold insertOutEdges at hins
    simp only [Option.map_eq_some_iff, Prod.mk.injEq] at hins
    obtain ⟨l, hl, rfl, rfl⟩ := hins
    obtain ⟨q1, q2, q3, q4⟩ := C07_pruned_list_partial c v record _ _ _ _ _ _ hrec (srt.ok _ _) hl
    rw [List.take_of_length_le (Nat.le_trans q1 hmax)] at h2
    replace h2 : (applyEdges c srt env fuel (fun _ => false) (fun _ => [v]) l (setNeighbors g v l, [])).map (·.1) =
        some g2 := by
      rw [← insertLoop_applyEdges]; exact h2
    simp only [Option.map_eq_some_iff, Prod.exists] at h2
    obtain ⟨g2', s2, h2, rfl⟩ := h2
    have x2 := applyEdges_applied c srt env fuel _ l q2 (fun k hk => hview k (q3 k hk)) _ g2' [] s2 h2
    -- the batch
    have hex : (AsyncTools.around [v] 0 (intra.get [v].length)).filterMap id = [] := by
      obtain ⟨idx, e1, e2, -, -⟩ := AsyncTools.C28_around [v] 0 (intra.get [v].length) (by simp)
      have : idx = [] := List.length_eq_zero_iff.1 (by simpa using e2)
      rw [e1, this]; rfl
    have hsp : searchAndPrune c srt (fun _ => env.view) env.dd fuel intra [v] (fun _ => record) (fun _ => force) 0 =
        some [(v, l)] := by
      unfold searchAndPrune robustPruneWith
      rw [hex]
      simp [hl]
    have hpend : pendingEdges c srt env (fun _ => env.view) fuel intra [v] (fun _ => record) (fun _ => force) [0] done2 =
        some [(v, l)] := by
      unfold pendingEdges
      simp only [collect, hsp, List.append_nil]
      rw [if_neg]
      simp [needsBootstrap]
    unfold multiInsert at h1
    rw [hpend] at h1
    simp only at h1
    obtain ⟨a1, a2, a3, a4⟩ := aggregate_spec [(v, l)]
    have hkeys : ∀ u, u ∈ (aggregate [(v, l)]).keys ↔ u ∈ l := by
      intro u; rw [a2]; simp
    have x1 := allTasks_applied c srt env fuel (aggregate [(v, l)]) (order (aggregate [(v, l)]).keys) ntasks ht
      ((hord _).nodup_iff.2 a1) (fun k hk => hview k (q3 k ((hkeys k).1 ((hord _).mem_iff.1 hk)))) _ g1 h1
    refine applied_unique (g := setNeighbors g v l) (fun u => ?_) (fun u hu => ?_) x1 x2
    · rw [(hord _).mem_iff, hkeys]
    · have hu' := (hkeys u).1 ((hord _).mem_iff.1 hu)
      have := sort_congr ((aggregate [(v, l)]).get u).toList [v] (a3 u) (by simp) (fun x => by
        rw [a4]; simp [hu'])
      simpa using this

/-! ### Cases -/

def batchConfig : Config :=
  { prunedDegree := 3, maxDegree := 4, maxOcclusion := 8, alpha := some (6 / 5), kind := .triangleInequality,
    saturate := false }

def batchGraph : Graph Nat := fun v => if v = 10 then [12] else if v = 12 then [10, 30, 31, 32] else if v = 20 then [10] else []

def batchEnv : Env Nat := { deleted := fun _ => false, view := fun _ => true, dd := demoDist }

/-- The two new vectors 13 and 19 both saw 10, 12 and 20. -/
def batchRec (pos : Nat) : List (Nat × Rat) :=
  if pos = 0 then [(10, 3), (12, 1), (20, 7)] else if pos = 1 then [(10, 9), (12, 7), (20, 1)] else []

/-- Non-vacuity: a batch of two, with two tasks, on a graph where one back-edge fits, one triggers a prune; the two
tasks claim in either order and the hash order is reversed. -/
example :
    ((multiInsert batchConfig stdSorter batchEnv (fun _ _ => true) 20 .all 2 [13, 19] batchRec (fun _ => false) [0, 1] []
      id batchGraph).map fun g => [10, 12, 13, 19, 20].map g) =
    some [[12], [13, 10, 30], [12, 19], [20, 13], [10, 19]] := by decide +kernel

example :
    ((multiInsert batchConfig stdSorter batchEnv (fun _ _ => true) 20 .all 3 [13, 19] batchRec (fun _ => false) [1, 0] []
      List.reverse batchGraph).map fun g => [10, 12, 13, 19, 20].map g) =
    ((multiInsert batchConfig stdSorter batchEnv (fun _ _ => true) 20 .all 2 [13, 19] batchRec (fun _ => false) [0, 1] []
      id batchGraph).map fun g => [10, 12, 13, 19, 20].map g) := by decide +kernel

/-- The hypotheses on the batch hold in this case. -/
example : (∀ pos, ((batchRec pos).map (·.1)).Nodup ∧ ∀ x ∈ (batchRec pos).map (·.1), x ∉ [13, 19]) ∧
    (∀ u, (batchGraph u).Nodup ∧ (batchGraph u).length ≤ batchConfig.maxDegree) ∧
    Complete batchConfig stdSorter batchEnv (fun _ _ => true) 20 .all [13, 19] batchRec (fun _ => false) [1, 0]
      [1, 0] := by
  refine ⟨?_, ?_, ?_⟩
  · intro pos
    unfold batchRec
    split
    · decide +kernel
    · split
      · decide +kernel
      · simp
  · intro u
    unfold batchGraph
    repeat' split
    all_goals decide +kernel
  · refine ⟨by decide, ?_, fun _ _ _ => rfl, fun _ _ => rfl, by decide⟩
    intro edges he
    have e : collect (searchAndPrune batchConfig stdSorter (fun _ _ => true) batchEnv.dd 20 .all [13, 19] batchRec
        (fun _ => false)) [1, 0] = some [(19, [20, 13]), (13, [12, 19])] := by decide +kernel
    rw [e] at he
    cases he
    decide

/-- With no intra-batch candidates the bootstrap round links the batch internally. -/
example :
    ((multiInsert batchConfig stdSorter batchEnv (fun _ _ => true) 20 .none 2 [13, 19] batchRec (fun _ => false) [0, 1]
      [1, 0] id batchGraph).map fun g => [10, 12, 13, 19, 20].map g) =
    some [[12], [13, 10, 19], [12, 19, 20], [20, 13, 12], [10, 13, 19]] := by decide +kernel

/-- C64, a disagreement between the two insertion paths. With a provider whose working set holds just what it is asked
to fetch, a batch insertion fetches the first `max_occlusion_size` vectors in the order the search visited them — the
far ones first — before the record is sorted. Here the nearest vertex 12 is visited last and the limit is 3: the batch
links the new vertex 13 to 20 only, while `insert` with the same record links it to 12 and 20. -/
theorem C64_cut_in_visit_order :
    let c := { batchConfig with maxOcclusion := 3 }
    let record : List (Nat × Rat) := [(40, 27), (20, 7), (12, 1)]
    ((multiInsert c stdSorter batchEnv (fun l i => decide (i ∈ l)) 20 .none 1 [13] (fun _ => record) (fun _ => false) [0] []
      id batchGraph).map fun g => g 13) = some [20] ∧
    ((insertVertex c stdSorter batchEnv 20 3 batchGraph 13 record false).map fun g => g 13) = some [12, 20] := by
  decide +kernel

end Verif.Graph
