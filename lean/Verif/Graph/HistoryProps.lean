import Verif.Graph.BatchProps
import Verif.Graph.DeleteProps

/-!
# C09 for whole histories, including batch insertions and in-place deletions
-/

namespace Verif.Graph

variable {I : Type} [LinearOrder I]

/-- Every graph-changing operation of the index (index.rs). -/
inductive AnyOp (I : Type) where
  | basic (op : Op I)
  | batchInsert (env : Env I) (fill : List I → I → Bool) (intra : IntraBatch) (ntasks : Nat) (ids : List I)
      (rec : Nat → List (I × Rat)) (force : Nat → Bool) (done done2 : List Nat) (order : List I → List I)
  | delete (env env' : Env I) (num : Nat) (sh order : List I → List I) (v : I) (method : DeleteMethod I)
  | batchDelete (env' : Env I) (num : Nat) (sh order : List I → List I) (tasks : List (I × Env I × DeleteMethod I))

/-- Caller contract: what a search record, a claim order and a hash order are. Nothing is assumed about the
provider. -/
def AnyOp.ok : AnyOp I → Prop
  | .basic op => op.ok
  | .batchInsert _ _ _ _ ids rec _ done done2 _ =>
    ids.Nodup ∧ done.Nodup ∧ done2.Nodup ∧
      ∀ pos, ((rec pos).map (·.1)).Nodup ∧ ∀ x ∈ (rec pos).map (·.1), x ∉ ids
  | _ => True

/-- One operation of a history. -/
def anyStep (c : Config) (srt : Sorter I) (fuel : Nat) (st : Graph I × List I) : AnyOp I → Option (Graph I × List I)
  | .basic op => step c srt fuel st op
  | .batchInsert env fill intra ntasks ids rec force done done2 order =>
    (multiInsert c srt env fill fuel intra ntasks ids rec force done done2 order st.1).map fun g => (g, st.2)
  | .delete env env' num sh order v method =>
    (inplaceDelete c srt env env' fuel num sh order st.1 v method).map fun g => (g, st.2)
  | .batchDelete env' num sh order tasks =>
    (batchDelete c srt env' fuel num sh order st.1 tasks).map fun g => (g, st.2)

def anyRun (c : Config) (srt : Sorter I) (fuel : Nat) (st : Graph I × List I) :
    List (AnyOp I) → Option (Graph I × List I)
  | [] => some st
  | op :: ops =>
    match anyStep c srt fuel st op with
    | some st => anyRun c srt fuel st ops
    | none => none

theorem applyEdges_bounded (c : Config) (hc : c.prunedDegree ≤ c.maxDegree) (srt : Sorter I) (env : Env I)
    (fuel : Nat) (toRemove : I → Bool) (get : I → List I) (ks : List I) (g g' : Graph I) (s s' : List I)
    (hb : Bounded c g s) (h : applyEdges c srt env fuel toRemove get ks (g, s) = some (g', s')) : Bounded c g' s' := by
  induction ks generalizing g s with
  | nil =>
    simp only [applyEdges, Option.some.injEq, Prod.mk.injEq] at h
    obtain ⟨rfl, rfl⟩ := h
    exact hb
  | cons k ks ih =>
    rw [applyEdges] at h
    split at h
    · cases h
    · rename_i st hst
      obtain ⟨g1, s1⟩ := st
      exact ih g1 s1 (addEdge_bounded c hc srt env fuel g (get k) k s toRemove hb g1 s1 hst) h

theorem applyBatch_bounded (c : Config) (hc : c.prunedDegree ≤ c.maxDegree) (srt : Sorter I) (env : Env I)
    (fuel : Nat) (toRemove : I → Bool) (maps : List (EdgeMap I)) (ks : List I) (g g' : Graph I)
    (hb : Bounded c g []) (h : applyBatch c srt env fuel toRemove maps ks g = some g') : Bounded c g' [] := by
  induction ks generalizing g with
  | nil => simp only [applyBatch, Option.some.injEq] at h; subst h; exact hb
  | cons k ks ih =>
    rw [applyBatch] at h
    split at h
    · cases h
    · rename_i st hst
      obtain ⟨g1, s1⟩ := st
      have := addEdge_bounded c hc srt env fuel g _ k [] toRemove hb g1 s1 hst
      exact ih g1 ⟨this.graph, List.nodup_nil, Nat.zero_le _⟩ h

theorem backedgeTasks_bounded (c : Config) (hc : c.prunedDegree ≤ c.maxDegree) (srt : Sorter I) (env : Env I)
    (fuel : Nat) (m : BackMap I) (keys : List I) (t : Nat) (is : List Nat) (g g' : Graph I) (hb : Bounded c g [])
    (h : backedgeTasks c srt env fuel m keys t is g = some g') : Bounded c g' [] := by
  induction is generalizing g with
  | nil => simp only [backedgeTasks, Option.some.injEq] at h; subst h; exact hb
  | cons i is ih =>
    rw [backedgeTasks] at h
    split at h
    · cases h
    · rename_i g1 hg1
      unfold backedgeTask at hg1
      simp only [Option.map_eq_some_iff, Prod.exists] at hg1
      obtain ⟨g1', s1, hg1, rfl⟩ := hg1
      have := applyEdges_bounded c hc srt env fuel _ _ _ g g1' [] s1 hb hg1
      exact ih g1' ⟨this.graph, List.nodup_nil, Nat.zero_le _⟩ h

theorem anyStep_bounded (c : Config) (hc : c.prunedDegree ≤ c.maxDegree) (hpos : 0 < c.prunedDegree)
    (srt : Sorter I) (fuel : Nat) (st st' : Graph I × List I) (op : AnyOp I) (hop : op.ok) (h : Bounded c st.1 st.2)
    (hr : anyStep c srt fuel st op = some st') : Bounded c st'.1 st'.2 := by
  have h0 : Bounded c st.1 [] := ⟨h.graph, List.nodup_nil, Nat.zero_le _⟩
  cases op with
  | basic op => exact step_bounded c hc hpos srt fuel st st' op hop h hr
  | batchInsert env fill intra ntasks ids rec force done done2 order =>
    simp only [anyStep, Option.map_eq_some_iff] at hr
    obtain ⟨g', hr, rfl⟩ := hr
    unfold multiInsert at hr
    split at hr
    · cases hr
    · rename_i edges he
      obtain ⟨p1, p2⟩ := pending_spec c srt env fill fuel intra ids hop.1 rec hop.2.2.2 force done done2 hop.2.1
        hop.2.2.1 edges he
      have hb : Bounded c (setBulk st.1 edges) [] := by
        refine ⟨fun u => ?_, List.nodup_nil, Nat.zero_le _⟩
        rw [setBulk_eq _ _ p1]
        cases hl : edges.lookup u with
        | none => exact h.graph u
        | some l =>
          have := (p2 _ ((lookup_iff edges p1 u l).1 hl)).2.1
          exact ⟨this.1, Nat.le_trans this.2.1 hc⟩
      exact ⟨(backedgeTasks_bounded c hc srt env fuel _ _ _ _ _ g' hb hr).graph, h.scratch⟩
  | delete env env' num sh order v method =>
    simp only [anyStep, Option.map_eq_some_iff, inplaceDelete] at hr
    obtain ⟨g', ⟨⟨g1, s1⟩, hr, rfl⟩, rfl⟩ := hr
    have := applyEdges_bounded c hc srt env' fuel _ _ _ st.1 g1 [] s1 h0 hr
    exact ⟨(bounded_set this v [] ⟨List.nodup_nil, Nat.zero_le _⟩).graph, h.scratch⟩
  | batchDelete env' num sh order tasks =>
    simp only [anyStep, Option.map_eq_some_iff, batchDelete] at hr
    obtain ⟨g', ⟨g1, hr, rfl⟩, rfl⟩ := hr
    have := applyBatch_bounded c hc srt env' fuel _ _ _ st.1 g1 h0 hr
    refine ⟨fun u => ?_, h.scratch⟩
    show ((List.foldl dropAdjList g1 (tasks.map (·.1))) u).Nodup ∧
      ((List.foldl dropAdjList g1 (tasks.map (·.1))) u).length ≤ c.maxDegree
    rw [foldl_drop]
    split
    · exact ⟨List.nodup_nil, Nat.zero_le _⟩
    · exact this.graph u

/-- **C09.** Start from any graph whose lists are duplicate-free and within the maximum degree. After any history of
insertions, batch insertions, in-place deletions, batch deletions, back-edge updates, prunes, consolidations and
removals — each seeing whatever provider state it sees, vectors unreadable or not — every list is still duplicate-free
and within the maximum. -/
theorem C09_degree_bound_all (c : Config) (hc : c.prunedDegree ≤ c.maxDegree) (hpos : 0 < c.prunedDegree)
    (srt : Sorter I) (fuel : Nat) (g : Graph I)
    (hg : ∀ v, (g v).Nodup ∧ (g v).length ≤ c.maxDegree)
    (ops : List (AnyOp I)) (hops : ∀ op ∈ ops, op.ok) (g' : Graph I) (scratch' : List I)
    (hr : anyRun c srt fuel (g, []) ops = some (g', scratch')) :
    ∀ v, (g' v).Nodup ∧ (g' v).length ≤ c.maxDegree := by
  suffices h : ∀ (ops : List (AnyOp I)) (st st' : Graph I × List I), (∀ op ∈ ops, op.ok) →
      Bounded c st.1 st.2 → anyRun c srt fuel st ops = some st' → Bounded c st'.1 st'.2 from
    (h ops (g, []) (g', scratch') hops ⟨hg, List.nodup_nil, Nat.zero_le _⟩ hr).graph
  intro ops
  induction ops with
  | nil => intro st st' _ hb hr; simp [anyRun] at hr; subst hr; exact hb
  | cons op ops ih =>
    intro st st' hok hb hr
    rw [anyRun] at hr
    split at hr
    · rename_i st1 heq
      exact ih st1 st' (fun o ho => hok o (List.mem_cons_of_mem _ ho))
        (anyStep_bounded c hc hpos srt fuel st st1 op (hok op (by simp)) hb heq) hr
    · simp at hr

/-- Non-vacuity: a batch insertion, an in-place deletion and a consolidation in a row. -/
example :
    ((anyRun batchConfig stdSorter 20 (batchGraph, [])
      [.batchInsert batchEnv (fun _ _ => true) .all 2 [13, 19] batchRec (fun _ => false) [0, 1] [] id,
       .delete (delEnv [13]) (delEnv [13]) 2 id id 13 .twoHopAndOneHop,
       .basic (.consolidate (delEnv [13]) id 19)]).map fun st => [10, 12, 13, 19, 20].map st.1) =
    some [[12], [10, 30, 19], [], [20, 12], [10, 19]] := by decide +kernel

end Verif.Graph
