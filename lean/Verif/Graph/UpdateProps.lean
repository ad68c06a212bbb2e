import Verif.Graph.UpdateModel
import Verif.Graph.PruneProps

/-!
# C09–C12: graph update operations
-/

namespace Verif.Graph

variable {I : Type} [DecidableEq I]

/-! ### A concrete sorter, used by the examples -/

theorem takeSort_ok (pool : List (I × Rat)) (max : Nat) :
    SortedPrefix pool max ((pool.insertionSort (fun a b => a.2 ≤ b.2)).take max) := by
  have hperm := List.perm_insertionSort (fun a b : I × Rat => a.2 ≤ b.2) pool
  have hsort : (pool.insertionSort (fun a b : I × Rat => a.2 ≤ b.2)).Pairwise (fun a b => a.2 ≤ b.2) := by
    have : Std.Total (fun a b : I × Rat => a.2 ≤ b.2) := ⟨fun a b => le_total a.2 b.2⟩
    have : IsTrans (I × Rat) (fun a b : I × Rat => a.2 ≤ b.2) := ⟨fun a b c => le_trans⟩
    exact List.pairwise_insertionSort _ _
  refine ⟨by rw [List.length_take, hperm.length_eq], hsort.sublist (List.take_sublist _ _),
    (pool.insertionSort (fun a b => a.2 ≤ b.2)).drop max, by rw [List.take_append_drop]; exact hperm, ?_⟩
  rw [← List.take_append_drop max (pool.insertionSort _)] at hsort
  exact (List.pairwise_append.1 hsort).2.2

def stdSorter : Sorter I := ⟨fun pool max => (pool.insertionSort (fun a b => a.2 ≤ b.2)).take max, takeSort_ok⟩

/-! ### Lemmas -/

theorem robustPruneList_ok (c : Config) (srt : Sorter I) (env : Env I) (fuel : Nat) (location : I)
    (list scratch : List I) (force : Bool) (out : List I) (hn : list.Nodup) (hne : list ≠ [])
    (h : robustPruneList c srt env fuel location list scratch force = some (.ok, out)) :
    out.length ≤ c.prunedDegree ∧ out.Nodup ∧ (∀ x ∈ out, x ∈ list ∧ env.view x = true) ∧
      location ∉ out := by
  unfold robustPruneList at h
  rw [if_neg hne] at h
  split at h
  · simp at h
  · simp only [Option.map_eq_some_iff, Prod.mk.injEq, true_and] at h
    obtain ⟨out', h, rfl⟩ := h
    have hmap : ((list.filter fun i => decide (i ≠ location) && env.view i).map fun i =>
        (i, env.dd location i)).map (·.1) = list.filter fun i => decide (i ≠ location) && env.view i := by
      rw [List.map_map]; exact List.map_id _
    obtain ⟨h1, h2, h3, h4⟩ := C07_pruned_list_partial c location _ _ env.view env.dd force fuel out'
      (by rw [hmap]; exact hn.filter _) (srt.ok _ _) h
    refine ⟨h1, h2, ?_, h4⟩
    intro x hx
    have := h3 x hx
    rw [hmap, List.mem_filter] at this
    simp only [ne_eq, decide_not, Bool.and_eq_true] at this
    exact ⟨this.1, this.2.2⟩

theorem robustPruneList_failed (c : Config) (srt : Sorter I) (env : Env I) (fuel : Nat) (location : I)
    (list scratch : List I) (force : Bool) (out : List I)
    (h : robustPruneList c srt env fuel location list scratch force = some (.failedRetrieval, out)) :
    out = scratch ∧ env.view location = false := by
  unfold robustPruneList at h
  split at h
  · simp at h
  · split at h
    · rename_i hv; simp at h; exact ⟨h.symm, hv⟩
    · simp [Option.map_eq_some_iff] at h

/-- Scratch and graph bounds, together. -/
structure Bounded (c : Config) (g : Graph I) (scratch : List I) : Prop where
  graph : ∀ v, (g v).Nodup ∧ (g v).length ≤ c.maxDegree
  scratch : scratch.Nodup ∧ scratch.length ≤ c.prunedDegree

theorem bounded_set {c : Config} {g : Graph I} {scratch : List I} (h : Bounded c g scratch) (v : I)
    (l : List I) (hl : l.Nodup ∧ l.length ≤ c.maxDegree) : Bounded c (setNeighbors g v l) scratch := by
  refine ⟨fun w => ?_, h.scratch⟩
  unfold setNeighbors
  by_cases hw : w = v
  · subst hw; simpa using hl
  · rw [Function.update_of_ne hw]; exact h.graph w

theorem extend_last (l ts : List I) :
    last (extendFromSlice l ts).1 (extendFromSlice l ts).2 = some ((extendFromSlice l ts).1.drop l.length) := by
  have := extend_count ts l
  unfold last
  rw [if_pos (by omega)]
  congr 2
  omega

theorem addEdge_bounded (c : Config) (hc : c.prunedDegree ≤ c.maxDegree) (srt : Sorter I) (env : Env I)
    (fuel : Nat) (g : Graph I) (targets : List I) (source : I) (scratch : List I) (toRemove : I → Bool)
    (h : Bounded c g scratch) (g' : Graph I) (s' : List I)
    (hr : addEdgeAndPrune c srt env fuel g targets source scratch toRemove = some (g', s')) :
    Bounded c g' s' := by
  have hnd : (extendFromSlice ((g source).filter fun i => !toRemove i) targets).1.Nodup :=
    extend_nodup _ ((h.graph source).1.filter _)
  unfold addEdgeAndPrune at hr
  simp only at hr
  split at hr
  · simp at hr; obtain ⟨rfl, rfl⟩ := hr; exact h
  · split at hr
    · rename_i hlen
      split at hr
      · simp at hr; obtain ⟨rfl, rfl⟩ := hr; exact bounded_set h _ _ ⟨hnd, hlen⟩
      · rename_i hrem
        rw [extend_last] at hr
        simp only [Option.some.injEq, Prod.mk.injEq] at hr
        obtain ⟨rfl, rfl⟩ := hr
        have hk : (g source).filter (fun i => !toRemove i) = g source := by
          rw [List.filter_eq_self]
          intro a ha
          simp only [Bool.not_eq_true, List.any_eq_false] at hrem
          simp [hrem a ha]
        rw [hk] at hnd hlen ⊢
        have : g source ++ (extendFromSlice (g source) targets).1.drop (g source).length
            = (extendFromSlice (g source) targets).1 := by
          obtain ⟨t, ht⟩ := extend_prefix targets (g source)
          rw [← ht]; simp
        unfold appendVector
        rw [this]
        exact bounded_set h _ _ ⟨hnd, hlen⟩
    · rename_i hlen
      simp only [Option.map_eq_some_iff, Prod.mk.injEq, Prod.exists] at hr
      obtain ⟨res, s'', hrp, rfl, rfl⟩ := hr
      have hs : s''.Nodup ∧ s''.length ≤ c.prunedDegree := by
        cases res with
        | ok =>
          obtain ⟨h1, h2, _⟩ := robustPruneList_ok c srt env fuel source _ scratch false s'' hnd
            (by intro e; rw [e] at hlen; simp at hlen) hrp
          exact ⟨h2, h1⟩
        | failedRetrieval =>
          rw [(robustPruneList_failed c srt env fuel source _ scratch false s'' hrp).1]
          exact h.scratch
      exact ⟨(bounded_set h _ _ ⟨hs.1, Nat.le_trans hs.2 hc⟩).graph, hs⟩

theorem setInsertAll_nodup (s l : List I) (h : s.Nodup) : (setInsertAll s l).Nodup := extend_nodup _ h

theorem mem_setInsertAll (s l : List I) (x : I) : x ∈ setInsertAll s l ↔ x ∈ s ∨ x ∈ l := by
  unfold setInsertAll; rw [extend_eq, mem_appendNew]

theorem mem_foldl_setInsertAll (f : I → List I) (ds : List I) (s : List I) (x : I) :
    x ∈ ds.foldl (fun s d => setInsertAll s (f d)) s ↔ x ∈ s ∨ ∃ d ∈ ds, x ∈ f d := by
  induction ds generalizing s with
  | nil => simp
  | cons d ds ih => rw [List.foldl_cons, ih, mem_setInsertAll]; simp [or_assoc]

theorem foldl_setInsertAll_nodup (f : I → List I) (ds : List I) (s : List I) (h : s.Nodup) :
    (ds.foldl (fun s d => setInsertAll s (f d)) s).Nodup := by
  induction ds generalizing s with
  | nil => exact h
  | cons d ds ih => exact ih _ (setInsertAll_nodup _ _ h)

/-- What `consolidate_vector` writes. -/
theorem consolidate_cases (c : Config) (hpos : 0 < c.prunedDegree) (srt : Sorter I) (env : Env I)
    (fuel : Nat) (shuffle : List I → List I)
    (hsh : ∀ l, (shuffle l).Perm l) (g : Graph I) (v : I) (kind : ConsolidateKind) (g' : Graph I)
    (h : consolidateVector c srt env fuel shuffle g v = some (kind, g')) :
    (kind = .deleted ∧ env.deleted v = true ∧ g' = g) ∨
    (kind = .failedVectorRetrieval ∧ env.view v = false ∧ g' = g) ∨
    (kind = .complete ∧ env.deleted v = false ∧ g' = g ∧ (∀ x ∈ g v, env.deleted x = false) ∧
      ((g v).Nodup → (g v).length ≤ c.prunedDegree)) ∨
    (kind = .complete ∧ env.deleted v = false ∧ ∃ l, g' = setNeighbors g v l ∧ l.Nodup ∧
      l.length ≤ c.prunedDegree ∧ v ∉ l ∧
      ∀ x ∈ l, env.deleted x = false ∧
        (x ∈ g v ∨ ∃ d ∈ g v, env.deleted d = true ∧ x ∈ g d)) := by
  unfold consolidateVector at h
  split at h
  · rename_i hd; simp at h; exact Or.inl ⟨h.1.symm, hd, h.2.symm⟩
  · rename_i hd
    have hd' : env.deleted v = false := by simpa using hd
    simp only at h
    split at h
    · rename_i hc
      simp only [Option.some.injEq, Prod.mk.injEq] at h
      refine Or.inr (Or.inr (Or.inl ⟨h.1.symm, hd', h.2.symm, ?_, ?_⟩))
      · intro x hx
        have := hc.1
        rw [List.filter_eq_nil_iff] at this
        simpa using this x hx
      · intro hn
        have h0 := hc.1
        have hall : (g v).filter (fun i => !env.deleted i) = g v := by
          rw [List.filter_eq_nil_iff] at h0
          rw [List.filter_eq_self]
          intro x hx; simpa using h0 x hx
        have h2 := hc.2
        rw [hall] at h2
        refine Nat.le_trans ?_ h2
        have hsub : g v ⊆ setInsertAll [] (g v) := fun x hx => (mem_setInsertAll _ _ _).2 (Or.inr hx)
        exact (List.subperm_of_subset hn hsub).length_le
    · set pool := shuffle (List.filter (fun i => decide (i ≠ v))
        (List.foldl (fun s d => setInsertAll s ((g d).filter fun i => !env.deleted i))
          (setInsertAll [] ((g v).filter fun i => !env.deleted i)) ((g v).filter env.deleted))) with hpool
      have hn : pool.Nodup := by
        rw [hpool]
        exact (hsh _).nodup_iff.2 ((foldl_setInsertAll_nodup _ _ _ (setInsertAll_nodup _ _ List.nodup_nil)).filter _)
      have hmem : ∀ x ∈ pool, x ≠ v ∧ env.deleted x = false ∧
          (x ∈ g v ∨ ∃ d ∈ g v, env.deleted d = true ∧ x ∈ g d) := by
        intro x hx
        rw [hpool] at hx
        have hx := (hsh _).subset hx
        rw [List.mem_filter, mem_foldl_setInsertAll, mem_setInsertAll] at hx
        simp only [List.not_mem_nil, false_or, List.mem_filter, Bool.not_eq_true', decide_eq_true_eq] at hx
        obtain ⟨h1, h2⟩ := hx
        refine ⟨h2, ?_⟩
        rcases h1 with h1 | ⟨d, hd, h1⟩
        · exact ⟨h1.2, Or.inl h1.1⟩
        · exact ⟨h1.2, Or.inr ⟨d, hd.1, hd.2, h1.1⟩⟩
      clear_value pool
      split at h
      · rename_i hlt
        simp only [Option.some.injEq, Prod.mk.injEq] at h
        refine Or.inr (Or.inr (Or.inr ⟨h.1.symm, hd', pool, h.2.symm, hn, Nat.le_of_lt hlt, ?_, ?_⟩))
        · intro hv; exact (hmem v hv).1 rfl
        · intro x hx; exact (hmem x hx).2
      · rename_i hge
        simp only [Option.map_eq_some_iff, Prod.exists] at h
        obtain ⟨res, l, hrp, h⟩ := h
        cases res with
        | failedRetrieval =>
          simp only [Prod.mk.injEq] at h
          exact Or.inr (Or.inl ⟨h.1.symm, (robustPruneList_failed _ _ _ _ _ _ _ _ _ hrp).2, h.2.symm⟩)
        | ok =>
          simp only [Prod.mk.injEq] at h
          have hne : pool ≠ [] := by
            intro e; rw [e] at hge; simp at hge; omega
          obtain ⟨h1, h2, h3, h4⟩ := robustPruneList_ok _ _ _ _ _ _ _ _ _ hn hne hrp
          exact Or.inr (Or.inr (Or.inr ⟨h.1.symm, hd', l, h.2.symm, h2, h1, h4,
            fun x hx => (hmem x (h3 x hx).1).2⟩))

theorem dropDeleted_bounded (c : Config) (env : Env I) (g : Graph I) (v : I) (oo : Bool)
    (scratch : List I) (h : Bounded c g scratch) :
    Bounded c (dropDeletedNeighbors c env g v oo).2 scratch := by
  have hn := (h.graph v).1
  have hlen := (h.graph v).2
  have hsplit : ((g v).filter fun i => !env.deleted i).length + ((g v).filter env.deleted).length
      = (g v).length := by
    have := List.length_eq_length_filter_add (l := g v) env.deleted
    omega
  have hpool : ∀ pool, pool = (if oo then (g v).filter (fun i => !env.deleted i) ++
      ((g v).filter env.deleted).filter (fun d => decide (g d ≠ []))
      else (g v).filter fun i => !env.deleted i) → pool.Nodup ∧ pool.length ≤ c.maxDegree := by
    rintro pool rfl
    split
    · constructor
      · rw [List.nodup_append]
        refine ⟨hn.filter _, (hn.filter _).filter _, ?_⟩
        intro a ha b hb hab
        subst hab
        simp only [List.mem_filter, Bool.not_eq_true'] at ha hb
        simp [ha.2] at hb
      · rw [List.length_append]
        have := List.length_filter_le (fun d => decide (g d ≠ [])) ((g v).filter env.deleted)
        omega
    · exact ⟨hn.filter _, Nat.le_trans (List.length_filter_le _ _) hlen⟩
  unfold dropDeletedNeighbors
  by_cases hd : env.deleted v = true
  · rw [if_pos hd]; exact h
  · rw [if_neg hd]
    simp only
    generalize hp : (if oo then (g v).filter (fun i => !env.deleted i) ++
      ((g v).filter env.deleted).filter (fun d => decide (g d ≠ []))
      else (g v).filter fun i => !env.deleted i) = pool
    by_cases hc : (g v).filter env.deleted = [] ∧ pool.length ≤ c.prunedDegree
    · rw [if_pos hc]; exact h
    · rw [if_neg hc]; exact bounded_set h _ _ (hpool pool hp.symm)

theorem insertOut_bounded (c : Config) (hc : c.prunedDegree ≤ c.maxDegree) (srt : Sorter I) (env : Env I)
    (fuel : Nat) (g : Graph I) (v : I) (record : List (I × Rat)) (force : Bool) (scratch : List I)
    (hrec : (record.map (·.1)).Nodup) (h : Bounded c g scratch) (g' : Graph I) (l : List I)
    (hr : insertOutEdges c srt env fuel g v record force = some (g', l)) :
    Bounded c g' scratch ∧ g' = setNeighbors g v l ∧ v ∉ l := by
  unfold insertOutEdges at hr
  simp only [Option.map_eq_some_iff, Prod.mk.injEq] at hr
  obtain ⟨l', ho, rfl, rfl⟩ := hr
  obtain ⟨h1, h2, _, h4⟩ := C07_pruned_list_partial c v record _ _ _ _ _ _ hrec (srt.ok _ _) ho
  exact ⟨bounded_set h _ _ ⟨h2, Nat.le_trans h1 hc⟩, rfl, h4⟩

theorem insertLoop_bounded (c : Config) (hc : c.prunedDegree ≤ c.maxDegree) (srt : Sorter I) (env : Env I)
    (fuel : Nat) (v : I) (sources : List I) (st st' : Graph I × List I) (h : Bounded c st.1 st.2)
    (hr : sources.foldl (fun st source =>
      match st with
      | none => none
      | some (g, scratch) => addEdgeAndPrune c srt env fuel g [v] source scratch (fun _ => false))
      (some st) = some st') : Bounded c st'.1 st'.2 := by
  induction sources generalizing st with
  | nil => simp at hr; subst hr; exact h
  | cons s sources ih =>
    rw [List.foldl_cons] at hr
    simp only at hr
    cases ha : addEdgeAndPrune c srt env fuel st.1 [v] s st.2 (fun _ => false) with
    | none =>
      rw [ha] at hr
      have hnone : ∀ l : List I, List.foldl (fun (st : Option (Graph I × List I)) source => match st with
        | none => none
        | some (g, scratch) => addEdgeAndPrune c srt env fuel g [v] source scratch (fun _ => false))
        none l = none := by
        intro l
        induction l with
        | nil => rfl
        | cons _ l ih => rw [List.foldl_cons]; exact ih
      rw [hnone] at hr
      simp at hr
    | some st1 =>
      rw [ha] at hr
      exact ih st1 (addEdge_bounded c hc srt env fuel _ _ _ _ _ h _ _ ha) hr

/-! ### C09 -/

/-- Caller contract: a hash set iterates over each element once, and a search record holds each id
once. -/
def Op.ok : Op I → Prop
  | .consolidate _ shuffle _ => ∀ l, (shuffle l).Perm l
  | .insertOut _ _ record _ => (record.map (·.1)).Nodup
  | .insert _ _ _ record _ => (record.map (·.1)).Nodup
  | _ => True

theorem step_bounded (c : Config) (hc : c.prunedDegree ≤ c.maxDegree) (hpos : 0 < c.prunedDegree)
    (srt : Sorter I) (fuel : Nat)
    (st st' : Graph I × List I) (op : Op I) (hop : op.ok) (h : Bounded c st.1 st.2)
    (hr : step c srt fuel st op = some st') : Bounded c st'.1 st'.2 := by
  cases op with
  | addEdge env targets source toRemove => exact addEdge_bounded c hc srt env fuel _ _ _ _ _ h _ _ hr
  | prune env v =>
    simp only [step, pruneVertex] at hr
    split at hr
    · simp at hr; subst hr; exact h
    · rename_i hlen
      simp only [Option.map_eq_some_iff, Prod.exists] at hr
      obtain ⟨res, s'', hrp, hr⟩ := hr
      cases res with
      | ok =>
        obtain ⟨h1, h2, _⟩ := robustPruneList_ok _ _ _ _ _ _ _ _ _ (h.graph v).1
          (by intro e; rw [e] at hlen; simp at hlen) hrp
        subst hr
        exact ⟨(bounded_set h _ _ ⟨h2, Nat.le_trans h1 hc⟩).graph, h2, h1⟩
      | failedRetrieval =>
        subst hr
        rw [(robustPruneList_failed _ _ _ _ _ _ _ _ _ hrp).1]
        exact h
  | consolidate env shuffle v =>
    simp only [step, Option.map_eq_some_iff, Prod.exists] at hr
    obtain ⟨kind, g', hcv, rfl⟩ := hr
    rcases consolidate_cases c hpos srt env fuel shuffle hop st.1 v kind g' hcv with
      ⟨_, _, rfl⟩ | ⟨_, _, rfl⟩ | ⟨_, _, rfl, _⟩ | ⟨_, _, l, rfl, hn, hl, _⟩
    · exact h
    · exact h
    · exact h
    · exact bounded_set h _ _ ⟨hn, Nat.le_trans hl hc⟩
  | dropDeleted env v oo =>
    simp only [step, Option.some.injEq] at hr; subst hr
    exact dropDeleted_bounded c env st.1 v oo st.2 h
  | dropList v =>
    simp only [step, Option.some.injEq] at hr; subst hr
    exact bounded_set h _ _ ⟨List.nodup_nil, Nat.zero_le _⟩
  | insertOut env v record force =>
    simp only [step, Option.map_eq_some_iff, Prod.exists] at hr
    obtain ⟨g', l, ho, rfl⟩ := hr
    exact (insertOut_bounded c hc srt env fuel _ _ _ _ _ hop h _ _ ho).1
  | insert env mb v record force =>
    simp only [step, Option.map_eq_some_iff, insertVertex] at hr
    obtain ⟨g', ho, rfl⟩ := hr
    split at ho
    · simp at ho
    · rename_i g1 new heq
      simp only [Option.map_eq_some_iff] at ho
      obtain ⟨st1, ho, rfl⟩ := ho
      have hb := (insertOut_bounded c hc srt env fuel _ _ _ _ _ hop h _ _ heq).1
      have := insertLoop_bounded c hc srt env fuel v _ (g1, []) st1
        ⟨hb.graph, List.nodup_nil, Nat.zero_le _⟩ ho
      exact ⟨this.graph, h.scratch⟩
  | freshScratch =>
    simp only [step, Option.some.injEq] at hr; subst hr
    exact ⟨h.graph, List.nodup_nil, Nat.zero_le _⟩

/-- C09. Start from any graph whose lists are duplicate-free and within the maximum degree. After
any history of insertions, back-edge updates, prunes, consolidations and removals — each seeing
whatever provider state it sees — every list is still duplicate-free and within the maximum. -/
theorem C09_degree_bound (c : Config) (hc : c.prunedDegree ≤ c.maxDegree) (hpos : 0 < c.prunedDegree)
    (srt : Sorter I) (fuel : Nat) (g : Graph I)
    (hg : ∀ v, (g v).Nodup ∧ (g v).length ≤ c.maxDegree)
    (ops : List (Op I)) (hops : ∀ op ∈ ops, op.ok) (g' : Graph I) (scratch' : List I)
    (hr : run c srt fuel (g, []) ops = some (g', scratch')) :
    ∀ v, (g' v).Nodup ∧ (g' v).length ≤ c.maxDegree := by
  suffices h : ∀ (ops : List (Op I)) (st st' : Graph I × List I), (∀ op ∈ ops, op.ok) →
      Bounded c st.1 st.2 → run c srt fuel st ops = some st' → Bounded c st'.1 st'.2 from
    (h ops (g, []) (g', scratch') hops ⟨hg, List.nodup_nil, Nat.zero_le _⟩ hr).graph
  intro ops
  induction ops with
  | nil => intro st st' _ hb hr; simp [run] at hr; subst hr; exact hb
  | cons op ops ih =>
    intro st st' hok hb hr
    rw [run] at hr
    split at hr
    · rename_i st1 heq
      exact ih st1 st' (fun o ho => hok o (List.mem_cons_of_mem _ ho))
        (step_bounded c hc hpos srt fuel st st1 op (hok op (by simp)) hb heq) hr
    · simp at hr

/-! ### C10 -/

/-- C10 (room). If the old list without the removed ids, plus the new targets, fits, exactly that is
stored: the surviving old edges in order, then the distinct new targets in order. -/
theorem C10_room_appends (c : Config) (srt : Sorter I) (env : Env I) (fuel : Nat) (g : Graph I)
    (targets : List I) (source : I) (scratch : List I) (toRemove : I → Bool)
    (hroom : (appendNew ((g source).filter fun i => !toRemove i) targets).length ≤ c.maxDegree) :
    ∃ g', addEdgeAndPrune c srt env fuel g targets source scratch toRemove = some (g', scratch) ∧
      g' source = appendNew ((g source).filter fun i => !toRemove i) targets := by
  unfold addEdgeAndPrune
  simp only
  rw [← extend_eq] at hroom ⊢
  have hcount := extend_count targets ((g source).filter fun i => !toRemove i)
  have hpre := extend_prefix targets ((g source).filter fun i => !toRemove i)
  by_cases hrem : (g source).any toRemove = true
  · rw [if_neg (by simp [hrem]), if_pos hroom, if_pos hrem]
    exact ⟨_, rfl, by simp [setNeighbors]⟩
  · have hk : (g source).filter (fun i => !toRemove i) = g source := by
      rw [List.filter_eq_self]
      intro a ha
      simp only [Bool.not_eq_true, List.any_eq_false] at hrem
      simp [hrem a ha]
    rw [hk] at hroom hcount hpre ⊢
    obtain ⟨t, ht⟩ := hpre
    by_cases h0 : (extendFromSlice (g source) targets).2 = 0
    · rw [if_pos ⟨h0, by simpa using hrem⟩]
      refine ⟨g, rfl, ?_⟩
      rw [← ht] at hcount ⊢
      rw [h0] at hcount
      simp only [List.length_append] at hcount
      have : t = [] := List.length_eq_zero_iff.1 (by omega)
      simp [this]
    · rw [if_neg (by simp [h0]), if_pos hroom, if_neg hrem, extend_last]
      refine ⟨_, rfl, ?_⟩
      simp only [appendVector, Function.update_self]
      rw [← ht]; simp

/-- C10. No other vertex's list is touched. -/
theorem C10_only_source (c : Config) (srt : Sorter I) (env : Env I) (fuel : Nat) (g : Graph I)
    (targets : List I) (source : I) (scratch : List I) (toRemove : I → Bool) (g' : Graph I) (s' : List I)
    (h : addEdgeAndPrune c srt env fuel g targets source scratch toRemove = some (g', s')) :
    ∀ v, v ≠ source → g' v = g v := by
  intro v hv
  unfold addEdgeAndPrune at h
  simp only at h
  split at h
  · simp at h; rw [← h.1]
  · split at h
    · split at h
      · simp at h; rw [← h.1]; simp [setNeighbors, Function.update_of_ne hv]
      · split at h
        · simp at h; rw [← h.1]; simp [appendVector, Function.update_of_ne hv]
        · simp at h; rw [← h.1]
    · simp only [Option.map_eq_some_iff, Prod.exists, Prod.mk.injEq] at h
      obtain ⟨_, _, _, rfl, _⟩ := h
      simp [setNeighbors, Function.update_of_ne hv]

/-- C10 (no room), for a source whose vector can still be read: the stored list is drawn from the
surviving old edges and the targets. Missing for the full claim: a source whose vector has become
unavailable, where the code writes whatever the shared scratch holds (`C10_stale_scratch_written`). -/
theorem C10_drawn_from_old_and_targets_partial (c : Config) (srt : Sorter I) (env : Env I) (fuel : Nat)
    (g : Graph I) (targets : List I) (source : I) (scratch : List I) (toRemove : I → Bool)
    (g' : Graph I) (s' : List I) (hn : (g source).Nodup) (hv : env.view source = true)
    (h : addEdgeAndPrune c srt env fuel g targets source scratch toRemove = some (g', s')) :
    ∀ x ∈ g' source, (x ∈ g source ∧ toRemove x = false) ∨ x ∈ targets := by
  by_cases hroom : (appendNew ((g source).filter fun i => !toRemove i) targets).length ≤ c.maxDegree
  · obtain ⟨g1, h1, h2⟩ := C10_room_appends c srt env fuel g targets source scratch toRemove hroom
    rw [h1] at h
    simp at h
    rw [← h.1, h2]
    intro x hx
    rw [mem_appendNew, List.mem_filter] at hx
    simpa using hx
  · unfold addEdgeAndPrune at h
    simp only at h
    have hnd : (extendFromSlice ((g source).filter fun i => !toRemove i) targets).1.Nodup :=
      extend_nodup _ (hn.filter _)
    split at h
    · simp at h
      rw [← h.1]
      rename_i h0
      intro x hx
      left
      refine ⟨hx, ?_⟩
      have := h0.2
      rw [List.any_eq_false] at this
      simpa using this x hx
    · rw [if_neg (by rw [extend_eq]; exact hroom)] at h
      simp only [Option.map_eq_some_iff, Prod.exists, Prod.mk.injEq] at h
      obtain ⟨res, s'', hrp, rfl, rfl⟩ := h
      cases res with
      | failedRetrieval =>
        have := (robustPruneList_failed _ _ _ _ _ _ _ _ _ hrp).2
        rw [hv] at this; simp at this
      | ok =>
        obtain ⟨_, _, h3, _⟩ := robustPruneList_ok _ _ _ _ _ _ _ _ _ hnd
          (by intro e; rw [extend_eq] at e; rw [e] at hroom; simp at hroom) hrp
        intro x hx
        simp only [setNeighbors, Function.update_self] at hx
        have := (h3 x hx).1
        rw [extend_eq, mem_appendNew, List.mem_filter] at this
        simpa using this

def demoGraph : Graph Nat := fun v => if v = 1 then [0, 2, 3, 4] else if v = 2 then [10, 11] else []

def demoEnv : Env Nat := { deleted := fun v => v == 3, view := fun v => v != 7, dd := demoDist }

/-- C10 non-vacuity: with room the target is appended; without, vertex 1 is pruned. -/
example : ((addEdgeAndPrune demoConfig stdSorter demoEnv 9 demoGraph [12, 10] 2 [] (fun _ => false)).map
    fun r => r.1 2) = some [10, 11, 12] := by decide +kernel

example : ((addEdgeAndPrune demoConfig stdSorter demoEnv 9 demoGraph [8] 1 [] (fun _ => false)).map
    fun r => r.1 1) = some [0, 2, 8] := by decide +kernel

/-- C10, disagreement: vertex 7's vector has been hard-deleted by a concurrent operation. Its back-edge
update is preceded, with the same scratch, by one of vertex 1. Vertex 7's list `[20, 21, 22, 23]` with
target 24 is then replaced by the pruning result of vertex 1. -/
theorem C10_stale_scratch_written :
    ((run demoConfig stdSorter 9
      ((fun v => if v = 1 then [0, 2, 3, 4] else if v = 7 then [20, 21, 22, 23] else []), [])
      [.addEdge demoEnv [8] 1 (fun _ => false), .addEdge demoEnv [24] 7 (fun _ => false)]).map
      fun r => r.1 7) = some [0, 2, 8] := by decide +kernel

/-! ### C11 -/

/-- C11. When `consolidate_vector` reports completion for `v`: `v` is live; no neighbour of `v` is
deleted; every neighbour was a live neighbour of `v` or a live neighbour of a deleted neighbour of
`v`; the list has at most `pruned_degree` distinct entries; and it has no self-loop unless `v` had one
and nothing needed rewriting. Other vertices are untouched. -/
theorem C11_consolidation (c : Config) (hpos : 0 < c.prunedDegree) (srt : Sorter I) (env : Env I)
    (fuel : Nat) (shuffle : List I → List I) (hsh : ∀ l, (shuffle l).Perm l) (g : Graph I) (v : I)
    (g' : Graph I) (hn : (g v).Nodup)
    (h : consolidateVector c srt env fuel shuffle g v = some (.complete, g')) :
    env.deleted v = false ∧ (g' v).length ≤ c.prunedDegree ∧ (g' v).Nodup ∧
    (∀ x ∈ g' v, env.deleted x = false ∧ (x ∈ g v ∨ ∃ d ∈ g v, env.deleted d = true ∧ x ∈ g d)) ∧
    (v ∈ g' v → g' = g ∧ v ∈ g v) ∧ (∀ w, w ≠ v → g' w = g w) := by
  rcases consolidate_cases c hpos srt env fuel shuffle hsh g v _ g' h with
    ⟨hk, _⟩ | ⟨hk, _⟩ | ⟨_, hd, rfl, hl, hlen⟩ | ⟨_, hd, l, rfl, hnd, hlen, hv, hl⟩
  · simp at hk
  · simp at hk
  · exact ⟨hd, hlen hn, hn, fun x hx => ⟨hl x hx, Or.inl hx⟩, fun h => ⟨rfl, h⟩, fun _ _ => rfl⟩
  · have e : setNeighbors g v l v = l := by simp [setNeighbors]
    rw [e]
    exact ⟨hd, hlen, hnd, hl, fun h => absurd h hv,
      fun w hw => by simp [setNeighbors, Function.update_of_ne hw]⟩

/-- C11. If consolidation reports anything else, nothing was written. -/
theorem C11_no_write_otherwise (c : Config) (hpos : 0 < c.prunedDegree) (srt : Sorter I) (env : Env I)
    (fuel : Nat) (shuffle : List I → List I) (hsh : ∀ l, (shuffle l).Perm l) (g : Graph I) (v : I)
    (kind : ConsolidateKind) (g' : Graph I) (hk : kind ≠ .complete)
    (h : consolidateVector c srt env fuel shuffle g v = some (kind, g')) : g' = g := by
  rcases consolidate_cases c hpos srt env fuel shuffle hsh g v _ g' h with
    ⟨_, _, h⟩ | ⟨_, _, h⟩ | ⟨hk', _⟩ | ⟨hk', _⟩
  · exact h
  · exact h
  · exact absurd hk' hk
  · exact absurd hk' hk

/-- C11 non-vacuity: vertex 1 loses the deleted neighbour 3 and gains 3's live neighbour 6. -/
example : ((consolidateVector demoConfig stdSorter demoEnv 9 id
    (fun v => if v = 1 then [2, 3] else if v = 3 then [6, 1] else []) 1).map
    fun r => (r.1, r.2 1)) = some (.complete, [2, 6]) := by decide +kernel

/-- C11 non-vacuity, with a prune: the pool is larger than the degree. -/
example : ((consolidateVector demoConfig stdSorter demoEnv 9 id
    (fun v => if v = 1 then [0, 2, 3] else if v = 3 then [9, 6, 1] else []) 1).map
    fun r => (r.1, r.2 1)) = some (.complete, [0, 2, 9]) := by decide +kernel

/-! ### C12 -/

/-- C12. Dropping deleted neighbours of a live vertex: the new list starts with all edges to live
vertices in their old order; in only-orphans mode these are followed by exactly the edges to deleted
vertices that still have outgoing edges, otherwise by nothing. Other vertices are untouched. -/
theorem C12_drop_deleted (c : Config) (env : Env I) (g : Graph I) (v : I) (onlyOrphans : Bool)
    (hv : env.deleted v = false) :
    (dropDeletedNeighbors c env g v onlyOrphans).1 = .complete ∧
    (dropDeletedNeighbors c env g v onlyOrphans).2 v =
      (g v).filter (fun i => !env.deleted i) ++
        (if onlyOrphans then (g v).filter (fun d => env.deleted d && decide (g d ≠ [])) else []) ∧
    (∀ w, w ≠ v → (dropDeletedNeighbors c env g v onlyOrphans).2 w = g w) := by
  have e : (if onlyOrphans then (g v).filter (fun i => !env.deleted i) ++
      ((g v).filter env.deleted).filter (fun d => decide (g d ≠ []))
      else (g v).filter fun i => !env.deleted i) = (g v).filter (fun i => !env.deleted i) ++
        (if onlyOrphans then (g v).filter (fun d => env.deleted d && decide (g d ≠ [])) else []) := by
    cases onlyOrphans
    · simp
    · simp only [if_true, List.filter_filter]
      congr 2; funext a; rw [Bool.and_comm]
  unfold dropDeletedNeighbors
  rw [if_neg (by simp [hv])]
  simp only
  rw [e]
  generalize hp : (g v).filter (fun i => !env.deleted i) ++
        (if onlyOrphans then (g v).filter (fun d => env.deleted d && decide (g d ≠ [])) else []) = pool
  by_cases hc : (g v).filter env.deleted = [] ∧ pool.length ≤ c.prunedDegree
  · rw [if_pos hc]
    refine ⟨rfl, ?_, fun _ _ => rfl⟩
    have hdead := hc.1
    rw [List.filter_eq_nil_iff] at hdead
    have h1 : (g v).filter (fun i => !env.deleted i) = g v := by
      rw [List.filter_eq_self]; intro a ha; simpa using hdead a ha
    have h2 : (g v).filter (fun d => env.deleted d && decide (g d ≠ [])) = [] := by
      rw [List.filter_eq_nil_iff]; intro a ha; simp [hdead a ha]
    rw [← hp, h1, h2]
    split <;> simp
  · rw [if_neg hc]
    exact ⟨rfl, by simp [setNeighbors], fun w hw => by simp [setNeighbors, Function.update_of_ne hw]⟩

/-- C12: nothing happens to a vertex that is itself deleted. -/
theorem C12_deleted_vertex_untouched (c : Config) (env : Env I) (g : Graph I) (v : I) (oo : Bool)
    (hv : env.deleted v = true) : dropDeletedNeighbors c env g v oo = (.deleted, g) := by
  unfold dropDeletedNeighbors; rw [if_pos hv]

/-- C12 non-vacuity: 3 and 13 are deleted, only 13 still has edges. -/
example : ((dropDeletedNeighbors demoConfig { demoEnv with deleted := fun v => v == 3 || v == 13 }
    (fun v => if v = 1 then [13, 2, 3, 4] else if v = 13 then [2] else []) 1 true).2 1) = [2, 4, 13] := by
  decide +kernel

end Verif.Graph
