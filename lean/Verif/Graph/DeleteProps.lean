import Verif.Graph.DeleteLemmas

/-!
# C56: in-place deletion unlinks the vertex it deletes
-/

namespace Verif.Graph

variable {I : Type} [DecidableEq I]

/-! ### Specification -/

/-- The vertices whose lists an in-place deletion of `v` looks at: the search results, the live vertices within two
hops through live vertices, or the live out-neighbours. -/
def Examined (env : Env I) (g : Graph I) (v : I) : DeleteMethod I → I → Prop
  | .visitedAndTopK results _, u => u ∈ results
  | .twoHopAndOneHop, u => env.deleted u = false ∧ ∃ n ∈ g v, env.deleted n = false ∧ (u = n ∨ u ∈ g n)
  | .oneHop, u => u ∈ g v ∧ env.deleted u = false

/-- The vertices offered as replacements: the first `k` search results, or the live out-neighbours. -/
def Replacement (env : Env I) (g : Graph I) (v : I) : DeleteMethod I → I → Prop
  | .visitedAndTopK results k, u => u ∈ results.take k
  | _, u => u ∈ g v ∧ env.deleted u = false

/-- Search results handed to the deletion contain live vertices only ("we rely on `post_process` to remove deleted
items", index.rs:1198). -/
def LiveResults (env : Env I) : DeleteMethod I → Prop
  | .visitedAndTopK results _ => ∀ x ∈ results, env.deleted x = false
  | _ => True

/-- `best` is a choice of the `num` replacements closest to `u` (all of them, if fewer), among the readable ones other
than `u`. -/
def ClosestReplacements (env : Env I) (g : Graph I) (v : I) (method : DeleteMethod I) (num : Nat) (u : I)
    (best : List I) : Prop :=
  (∀ x ∈ best, Replacement env g v method x ∧ x ≠ u ∧ env.view x = true) ∧ best.length ≤ num ∧
  (∀ x ∈ best, ∀ y, Replacement env g v method y → y ≠ u → env.view y = true → y ∉ best →
    env.dd u x ≤ env.dd u y) ∧
  (best.length < num → ∀ y, Replacement env g v method y → y ≠ u → env.view y = true → y ∈ best)

/-! ### Lemmas -/

theorem mem_inNeighbors (env : Env I) (sh : List I → List I) (hsh : ∀ l, (sh l).Perm l) (g : Graph I) (v : I)
    (method : DeleteMethod I) (u : I) :
    u ∈ (workList env sh g v method).inNeighbors ↔ Examined env g v method u ∧ v ∈ g u := by
  cases method with
  | visitedAndTopK results k => simp [workList, refsTo, Examined]
  | oneHop => simp [workList, refsTo, Examined, mem_undeleted env sh hsh]
  | twoHopAndOneHop =>
    have key : ∀ (one s : List I) (x : I),
        x ∈ one.foldl (fun s n => setInsertAll (setInsertAll s [n]) (g n)) s ↔
          x ∈ s ∨ ∃ n ∈ one, x = n ∨ x ∈ g n := by
      intro one
      induction one with
      | nil => simp
      | cons n one ih =>
        intro s x
        rw [List.foldl_cons, ih, mem_setInsertAll, mem_setInsertAll]
        simp only [List.mem_cons, List.not_mem_nil, or_false, exists_eq_or_imp, or_assoc]
    simp only [workList, refsTo, Examined, List.mem_filter, (hsh _).mem_iff, key, decide_eq_true_eq,
      mem_undeleted env sh hsh, List.not_mem_nil, false_or, Bool.not_eq_true']
    constructor
    · rintro ⟨⟨⟨n, ⟨h1, h2⟩, h3⟩, h4⟩, h5⟩
      exact ⟨⟨h4, n, h1, h2, h3⟩, h5⟩
    · rintro ⟨⟨h4, n, h1, h2, h3⟩, h5⟩
      exact ⟨⟨⟨n, ⟨h1, h2⟩, h3⟩, h4⟩, h5⟩

theorem mem_replace (env : Env I) (sh : List I → List I) (hsh : ∀ l, (sh l).Perm l) (g : Graph I) (v : I)
    (method : DeleteMethod I) (u : I) :
    u ∈ (workList env sh g v method).replace ↔ Replacement env g v method u := by
  cases method with
  | visitedAndTopK results k => simp [workList, Replacement]
  | oneHop => simp [workList, Replacement, mem_undeleted env sh hsh]
  | twoHopAndOneHop => simp [workList, Replacement, mem_undeleted env sh hsh]

theorem replacement_live (env : Env I) (g : Graph I) (v : I) (method : DeleteMethod I) (hl : LiveResults env method)
    (u : I) (h : Replacement env g v method u) : env.deleted u = false := by
  cases method with
  | visitedAndTopK results k => exact hl u (List.mem_of_mem_take h)
  | oneHop => exact h.2
  | twoHopAndOneHop => exact h.2

theorem closest_ok (env : Env I) (srt : Sorter I) (num : Nat) (sh : List I → List I) (hsh : ∀ l, (sh l).Perm l)
    (g : Graph I) (v : I) (method : DeleteMethod I) (u : I) :
    ClosestReplacements env g v method num u (closest env srt num (workList env sh g v method).replace u) := by
  refine ⟨?_, closest_length _ _ _ _ _, ?_, ?_⟩
  · intro x hx
    obtain ⟨h1, h2, h3⟩ := closest_spec _ _ _ _ _ _ hx
    exact ⟨(mem_replace env sh hsh g v method x).1 h1, h2, h3⟩
  all_goals
    have hs := srt.ok (((workList env sh g v method).replace.filter fun o => decide (o ≠ u) && env.view o).map
      fun o => (o, env.dd u o)) num
    obtain ⟨rest, hp, hr⟩ := hs.rest
    have hin : ∀ y, Replacement env g v method y → y ≠ u → env.view y = true →
        (y, env.dd u y) ∈ ((workList env sh g v method).replace.filter fun o => decide (o ≠ u) && env.view o).map
          fun o => (o, env.dd u o) := by
      intro y h1 h2 h3
      exact List.mem_map.2 ⟨y, List.mem_filter.2 ⟨(mem_replace env sh hsh g v method y).2 h1, by simp [h2, h3]⟩, rfl⟩
  · intro x hx y h1 h2 h3 hy
    unfold closest at hx hy
    obtain ⟨⟨x', d⟩, hx', rfl⟩ := List.mem_map.1 hx
    have hxd : d = env.dd u x' := by
      have := hp.subset (List.mem_append_left _ hx')
      obtain ⟨z, -, e⟩ := List.mem_map.1 this
      simp only [Prod.mk.injEq] at e
      rw [← e.2, e.1]
    rcases List.mem_append.1 (hp.symm.subset (hin y h1 h2 h3)) with h | h
    · exact absurd (List.mem_map.2 ⟨_, h, rfl⟩) hy
    · have := hr _ hx' _ h
      rw [hxd] at this
      exact this
  · intro hlt y h1 h2 h3
    unfold closest at hlt ⊢
    rw [List.length_map, hs.length_eq] at hlt
    have hnil : rest = [] := by
      have := hp.length_eq
      rw [List.length_append, hs.length_eq] at this
      exact List.eq_nil_of_length_eq_zero (by omega)
    have := hp.symm.subset (hin y h1 h2 h3)
    rw [hnil, List.append_nil] at this
    exact List.mem_map.2 ⟨_, this, rfl⟩

theorem appendNew_room (l t a b : List I) (hl : l.Nodup) (ht : ∀ x ∈ t, x ∈ a ∨ x ∈ b) (n : Nat)
    (hn : l.length + a.length + b.length ≤ n) : (appendNew l t).length ≤ n := by
  have hnd : (appendNew l t).Nodup := by rw [← extend_eq]; exact extend_nodup _ hl
  have hsub : appendNew l t ⊆ l ++ (a ++ b) := by
    intro x hx
    rw [mem_appendNew] at hx
    rcases hx with hx | hx
    · simp [hx]
    · have := ht x hx; simp only [List.mem_append]; tauto
  have := (List.subperm_of_subset hnd hsub).length_le
  simp only [List.length_append] at this
  omega

/-! ### C56 -/

/-- **C56.** `env` is what the deletion sees once `v` is marked deleted, `env'` what it sees when it writes. For every
graph within the degree bound, every method, every tie-breaking and every hash order, when an in-place deletion of `v`
finishes:
1. `v` has no out-edges;
2. no examined vertex with a readable vector links to `v` any more;
3. every edge is an old one, or leads to a vertex that is live and not the source; so no vertex gains a link to `v`;
4. every list is still duplicate-free and within the degree bound. -/
theorem C56_unlinks (c : Config) (hc : c.prunedDegree ≤ c.maxDegree) (srt : Sorter I) (env env' : Env I)
    (fuel num : Nat) (sh order : List I → List I) (hsh : ∀ l, (sh l).Perm l) (hord : ∀ l, (order l).Perm l)
    (g : Graph I) (hg : ∀ u, (g u).Nodup ∧ (g u).length ≤ c.maxDegree) (v : I) (method : DeleteMethod I)
    (hv : env.deleted v = true) (hlive : LiveResults env method)
    (hread : ∀ u, env.view u = true → env'.view u = true) (g' : Graph I)
    (h : inplaceDelete c srt env env' fuel num sh order g v method = some g') :
    g' v = [] ∧
    (∀ u, Examined env g v method u → env.view u = true → v ∉ g' u) ∧
    (∀ u x, x ∈ g' u → x ∈ g u ∨ (env.deleted x = false ∧ x ≠ u)) ∧
    (∀ u, (g' u).Nodup ∧ (g' u).length ≤ c.maxDegree) := by
  unfold inplaceDelete at h
  simp only [Option.map_eq_some_iff, Prod.exists] at h
  obtain ⟨g1, s1, h, rfl⟩ := h
  obtain ⟨m1, m2, m3, m4, m5⟩ := deleteEdges_spec env srt num (workList env sh g v method)
    (undeletedNeighbors env sh g v)
  change (deleteInner env srt num sh g v method).keys.Nodup at m1
  generalize hm : deleteInner env srt num sh g v method = m at *
  have hm' : deleteEdges env srt num (workList env sh g v method) (undeletedNeighbors env sh g v) = m := hm
  simp only [hm'] at m2 m3 m4 m5
  obtain ⟨a1, a2, a3, -⟩ := applyEdges_spec c srt env' fuel _ m.get (order m.keys) ((hord _).nodup_iff.2 m1)
    (fun k hk => hread k (m2 k ((hord _).mem_iff.1 hk)).1) g [] hc ⟨hg, List.nodup_nil, Nat.zero_le _⟩ g1 s1 h
  have hmem : ∀ k, k ∈ order m.keys ↔ k ∈ m.keys := fun k => (hord _).mem_iff
  have hval : ∀ k ∈ m.keys, ∀ x ∈ m.get k, env.deleted x = false ∧ x ≠ k := by
    intro k hk x hx
    obtain ⟨h1, h2, h3⟩ := m3 k hk x hx
    refine ⟨?_, h1⟩
    rcases h2 with h2 | h2
    · exact replacement_live env g v method hlive x
        ((mem_replace env sh hsh g v method x).1 (closest_spec _ _ _ _ _ _ h2).1)
    · exact ((mem_undeleted env sh hsh g v x).1 h2).2
  have hvv : ∀ k ∈ m.keys, v ∉ m.get k := by
    intro k hk hx
    have := (hval k hk v hx).1
    rw [hv] at this; cases this
  have hdrop : ∀ u, dropAdjList g1 v u = if u = v then [] else g1 u := by
    intro u
    unfold dropAdjList setNeighbors
    by_cases e : u = v
    · subst e; simp
    · simp [Function.update_of_ne e, e]
  refine ⟨by rw [hdrop]; simp, ?_, ?_, ?_⟩
  · intro u hu huv
    rw [hdrop]
    split
    · simp
    · intro hx
      by_cases hk : u ∈ m.keys
      · rcases a3 u ((hmem u).2 hk) v hx with ⟨-, h2⟩ | h2
        · simp at h2
        · exact hvv u hk h2
      · rw [a2 u (fun e => hk ((hmem u).1 e))] at hx
        exact hk (m4 u ((mem_inNeighbors env sh hsh g v method u).2 ⟨hu, hx⟩) huv).1
  · intro u x hx
    rw [hdrop] at hx
    split at hx
    · cases hx
    · by_cases hk : u ∈ m.keys
      · rcases a3 u ((hmem u).2 hk) x hx with ⟨h1, -⟩ | h2
        · exact Or.inl h1
        · exact Or.inr (hval u hk x h2)
      · rw [a2 u (fun e => hk ((hmem u).1 e))] at hx
        exact Or.inl hx
  · intro u
    rw [hdrop]
    split
    · simp
    · exact a1.graph u

/-- C56, repair of the neighbourhood. After the deletion, every examined vertex that linked to `v` and has room links to
the `num_to_replace` replacements closest to it; and every live out-neighbour of `v` is linked to from the
`num_to_replace` replacements closest to it that have room. Nothing else than `v` is lost from a list with room. -/
theorem C56_replacements (c : Config) (hc : c.prunedDegree ≤ c.maxDegree) (srt : Sorter I) (env env' : Env I)
    (fuel num : Nat) (sh order : List I → List I) (hsh : ∀ l, (sh l).Perm l) (hord : ∀ l, (order l).Perm l)
    (g : Graph I) (hg : ∀ u, (g u).Nodup ∧ (g u).length ≤ c.maxDegree) (v : I) (method : DeleteMethod I)
    (hv : env.deleted v = true) (hlive : LiveResults env method)
    (hread : ∀ u, env.view u = true → env'.view u = true) (g' : Graph I)
    (h : inplaceDelete c srt env env' fuel num sh order g v method = some g') :
    (∀ u, Examined env g v method u → v ∈ g u → u ≠ v → env.view u = true →
      (g u).length + num + (g v).length ≤ c.maxDegree →
      ∃ best, ClosestReplacements env g v method num u best ∧ ∀ x ∈ best, x ∈ g' u) ∧
    (∀ y, y ∈ g v → env.deleted y = false → env.view y = true →
      ∃ best, ClosestReplacements env g v method num y best ∧
        ∀ x ∈ best, (g x).length + num + (g v).length ≤ c.maxDegree → y ∈ g' x) ∧
    (∀ u, u ≠ v → (g u).length + num + (g v).length ≤ c.maxDegree → ∀ x ∈ g u, x ≠ v → x ∈ g' u) := by
  unfold inplaceDelete at h
  simp only [Option.map_eq_some_iff, Prod.exists] at h
  obtain ⟨g1, s1, h, rfl⟩ := h
  obtain ⟨m1, m2, m3, m4, m5⟩ := deleteEdges_spec env srt num (workList env sh g v method)
    (undeletedNeighbors env sh g v)
  change (deleteInner env srt num sh g v method).keys.Nodup at m1
  generalize hm : deleteInner env srt num sh g v method = m at *
  have hm' : deleteEdges env srt num (workList env sh g v method) (undeletedNeighbors env sh g v) = m := hm
  simp only [hm'] at m2 m3 m4 m5
  obtain ⟨-, a2, -, a4⟩ := applyEdges_spec c srt env' fuel _ m.get (order m.keys) ((hord _).nodup_iff.2 m1)
    (fun k hk => hread k (m2 k ((hord _).mem_iff.1 hk)).1) g [] hc ⟨hg, List.nodup_nil, Nat.zero_le _⟩ g1 s1 h
  have hmem : ∀ k, k ∈ order m.keys ↔ k ∈ m.keys := fun k => (hord _).mem_iff
  have hdrop : ∀ u, u ≠ v → dropAdjList g1 v u = g1 u := by
    intro u e
    simp [dropAdjList, setNeighbors, Function.update_of_ne e]
  have hadj : (undeletedNeighbors env sh g v).length ≤ (g v).length := by
    unfold undeletedNeighbors
    rw [(hsh _).length_eq]
    exact List.length_filter_le _ _
  have room : ∀ k ∈ m.keys, (g k).length + num + (g v).length ≤ c.maxDegree →
      g1 k = appendNew ((g k).filter fun i => !decide (i = v)) (m.get k) := by
    intro k hk hr
    refine a4 k ((hmem k).2 hk) (appendNew_room _ _ (closest env srt num (workList env sh g v method).replace k)
      (undeletedNeighbors env sh g v) ((hg k).1.filter _) (fun x hx => (m3 k hk x hx).2.1) _ ?_)
    have h1 := closest_length env srt num (workList env sh g v method).replace k
    have h2 := List.length_filter_le (fun i => !decide (i = v)) (g k)
    omega
  have hrv : ∀ k, Replacement env g v method k → k ≠ v := by
    rintro k hk rfl
    have := replacement_live env g k method hlive k hk
    rw [hv] at this; cases this
  refine ⟨?_, ?_, ?_⟩
  · intro u hu hvu hne huv hr
    obtain ⟨hk, hx⟩ := m4 u ((mem_inNeighbors env sh hsh g v method u).2 ⟨hu, hvu⟩) huv
    refine ⟨_, closest_ok env srt num sh hsh g v method u, fun x hxc => ?_⟩
    rw [hdrop u hne, room u hk hr, mem_appendNew]
    exact Or.inr (hx x hxc)
  · intro y hy hyd hyv
    refine ⟨_, closest_ok env srt num sh hsh g v method y, fun x hx hr => ?_⟩
    obtain ⟨hk, hyx⟩ := m5 y ((mem_undeleted env sh hsh g v y).2 ⟨hy, hyd⟩) hyv x hx
    have hxr := (mem_replace env sh hsh g v method x).1 (closest_spec _ _ _ _ _ _ hx).1
    rw [hdrop x (hrv x hxr), room x hk hr, mem_appendNew]
    exact Or.inr hyx
  · intro u hu hr x hx hxv
    rw [hdrop u hu]
    by_cases hk : u ∈ m.keys
    · rw [room u hk hr, mem_appendNew, List.mem_filter]
      left; simp [hx, hxv]
    · rw [a2 u (fun e => hk ((hmem u).1 e))]
      exact hx

/-- C56, together with the background clean-up it is meant for. After an in-place deletion of `v`, dropping deleted
neighbours of the vertices `us` in turn (in either mode) leaves no live vertex of `us` linked to `v`. -/
theorem C56_then_cleanup (c : Config) (hc : c.prunedDegree ≤ c.maxDegree) (srt : Sorter I) (env env' env2 : Env I)
    (fuel num : Nat) (sh order : List I → List I) (hsh : ∀ l, (sh l).Perm l) (hord : ∀ l, (order l).Perm l)
    (g : Graph I) (hg : ∀ u, (g u).Nodup ∧ (g u).length ≤ c.maxDegree) (v : I) (method : DeleteMethod I)
    (hv : env.deleted v = true) (hv2 : env2.deleted v = true) (hlive : LiveResults env method)
    (hread : ∀ u, env.view u = true → env'.view u = true) (g' : Graph I)
    (h : inplaceDelete c srt env env' fuel num sh order g v method = some g') (us : List I) (onlyOrphans : Bool) :
    ∀ u ∈ us, env2.deleted u = false →
      v ∉ us.foldl (fun g w => (dropDeletedNeighbors c env2 g w onlyOrphans).2) g' u := by
  have h0 := (C56_unlinks c hc srt env env' fuel num sh order hsh hord g hg v method hv hlive hread g' h).1
  clear h hg
  suffices hs : ∀ (us : List I) (g' : Graph I), g' v = [] →
      (∀ u, v ∉ g' u → v ∉ us.foldl (fun g w => (dropDeletedNeighbors c env2 g w onlyOrphans).2) g' u) ∧
      ∀ u ∈ us, env2.deleted u = false →
        v ∉ us.foldl (fun g w => (dropDeletedNeighbors c env2 g w onlyOrphans).2) g' u from (hs us g' h0).2
  intro us
  induction us with
  | nil => intro g' _; exact ⟨fun u hu => hu, by simp⟩
  | cons w us ih =>
    intro g' hg0
    rw [List.foldl_cons]
    by_cases hw : env2.deleted w = true
    · rw [C12_deleted_vertex_untouched c env2 g' w onlyOrphans hw]
      obtain ⟨i1, i2⟩ := ih g' hg0
      refine ⟨i1, fun u hu hud => ?_⟩
      rcases List.mem_cons.1 hu with rfl | hu
      · rw [hw] at hud; cases hud
      · exact i2 u hu hud
    · have hw : env2.deleted w = false := by simpa using hw
      obtain ⟨-, d1, d2⟩ := C12_drop_deleted c env2 g' w onlyOrphans hw
      have hwv : v ≠ w := by rintro rfl; rw [hv2] at hw; cases hw
      have hnot : v ∉ (dropDeletedNeighbors c env2 g' w onlyOrphans).2 w := by
        rw [d1]
        intro hx
        rcases List.mem_append.1 hx with hx | hx
        · rw [List.mem_filter] at hx; simp [hv2] at hx
        · split at hx
          · rw [List.mem_filter] at hx; simp [hg0] at hx
          · cases hx
      obtain ⟨i1, i2⟩ := ih (dropDeletedNeighbors c env2 g' w onlyOrphans).2 (by rw [d2 v hwv]; exact hg0)
      refine ⟨fun u hu => i1 u ?_, fun u hu hud => ?_⟩
      · by_cases e : u = w
        · rw [e]; exact hnot
        · rw [d2 u e]; exact hu
      · rcases List.mem_cons.1 hu with rfl | hu
        · exact i1 u hnot
        · exact i2 u hu hud

/-! ### Batches -/

theorem foldl_drop (ids : List I) (g : Graph I) (u : I) :
    ids.foldl dropAdjList g u = if u ∈ ids then [] else g u := by
  induction ids generalizing g with
  | nil => simp
  | cons v ids ih =>
    rw [List.foldl_cons, ih]
    by_cases e : u = v
    · subst e; simp [dropAdjList, setNeighbors]
    · simp [dropAdjList, setNeighbors, Function.update_of_ne e, e]

/-- **C56 for a batch** (partial: see `C56_batch_links_to_deleted`). When one chunk of a batch deletion finishes, every
vertex of the chunk has an empty list; a vertex examined by one of the deletions and readable links to a vertex of the
chunk only if some deletion of the chunk still saw that vertex as live; new edges lead to vertices some deletion saw as
live; and the degree bound holds. In particular, if the provider reports every vertex of the chunk as deleted to every
deletion of the chunk, no examined readable vertex links to the chunk. -/
theorem C56_batch_partial (c : Config) (hc : c.prunedDegree ≤ c.maxDegree) (srt : Sorter I) (env' : Env I)
    (fuel num : Nat) (sh order : List I → List I) (hsh : ∀ l, (sh l).Perm l) (hord : ∀ l, (order l).Perm l)
    (g : Graph I) (hg : ∀ u, (g u).Nodup ∧ (g u).length ≤ c.maxDegree) (tasks : List (I × Env I × DeleteMethod I))
    (hlive : ∀ t ∈ tasks, LiveResults t.2.1 t.2.2)
    (hread : ∀ t ∈ tasks, ∀ u, t.2.1.view u = true → env'.view u = true) (g' : Graph I)
    (h : batchDelete c srt env' fuel num sh order g tasks = some g') :
    (∀ t ∈ tasks, g' t.1 = []) ∧
    (∀ t ∈ tasks, ∀ u, Examined t.2.1 g t.1 t.2.2 u → t.2.1.view u = true → t.1 ∈ g' u →
      ∃ s ∈ tasks, s.2.1.deleted t.1 = false) ∧
    (∀ u x, x ∈ g' u → x ∈ g u ∨ (x ≠ u ∧ ∃ t ∈ tasks, t.2.1.deleted x = false)) ∧
    (∀ u, (g' u).Nodup ∧ (g' u).length ≤ c.maxDegree) := by
  unfold batchDelete at h
  simp only [Option.map_eq_some_iff] at h
  obtain ⟨g1, h, rfl⟩ := h
  have hkeys : ∀ k, k ∈ (tasks.map fun t => deleteInner t.2.1 srt num sh g t.1 t.2.2).foldl
      (fun s m => setInsertAll s m.keys) [] ↔ ∃ t ∈ tasks, k ∈ (deleteInner t.2.1 srt num sh g t.1 t.2.2).keys := by
    have : ∀ (maps : List (EdgeMap I)) (s : List I) (k : I),
        k ∈ maps.foldl (fun s m => setInsertAll s m.keys) s ↔ k ∈ s ∨ ∃ m ∈ maps, k ∈ m.keys := by
      intro maps
      induction maps with
      | nil => simp
      | cons m maps ih =>
        intro s k
        rw [List.foldl_cons, ih, mem_setInsertAll]
        simp only [List.mem_cons, exists_eq_or_imp, or_assoc]
    intro k
    rw [this]
    simp
  have hkn : ((tasks.map fun t => deleteInner t.2.1 srt num sh g t.1 t.2.2).foldl
      (fun s m => setInsertAll s m.keys) []).Nodup := by
    have : ∀ (maps : List (EdgeMap I)) (s : List I), s.Nodup →
        (maps.foldl (fun s m => setInsertAll s m.keys) s).Nodup := by
      intro maps
      induction maps with
      | nil => intro s hs; exact hs
      | cons m maps ih => intro s hs; exact ih _ (setInsertAll_nodup _ _ hs)
    exact this _ _ List.nodup_nil
  have hspec := fun t : I × Env I × DeleteMethod I =>
    deleteEdges_spec t.2.1 srt num (workList t.2.1 sh g t.1 t.2.2) (undeletedNeighbors t.2.1 sh g t.1)
  change ∀ t : I × Env I × DeleteMethod I, let m := deleteInner t.2.1 srt num sh g t.1 t.2.2; _ at hspec
  obtain ⟨a1, a2, a3⟩ := applyBatch_spec c srt env' fuel _ _ _ ((hord _).nodup_iff.2 hkn) (fun k hk => by
      rw [(hord _).mem_iff, hkeys] at hk
      obtain ⟨t, ht, hk⟩ := hk
      exact hread t ht k ((hspec t).2.1 k hk).1) g hc ⟨hg, List.nodup_nil, Nat.zero_le _⟩ g1 h
  have hval : ∀ t ∈ tasks, ∀ k ∈ (deleteInner t.2.1 srt num sh g t.1 t.2.2).keys,
      ∀ x ∈ (deleteInner t.2.1 srt num sh g t.1 t.2.2).get k, t.2.1.deleted x = false ∧ x ≠ k := by
    intro t ht k hk x hx
    obtain ⟨h1, h2, h3⟩ := (hspec t).2.2.1 k hk x hx
    refine ⟨?_, h1⟩
    rcases h2 with h2 | h2
    · exact replacement_live t.2.1 g t.1 t.2.2 (hlive t ht) x
        ((mem_replace t.2.1 sh hsh g t.1 t.2.2 x).1 (closest_spec _ _ _ _ _ _ h2).1)
    · exact ((mem_undeleted t.2.1 sh hsh g t.1 x).1 h2).2
  refine ⟨?_, ?_, ?_, ?_⟩
  · intro t ht
    rw [foldl_drop, if_pos (List.mem_map.2 ⟨t, ht, rfl⟩)]
  · intro t ht u hu huv hx
    rw [foldl_drop] at hx
    split at hx
    · cases hx
    · by_cases hk : u ∈ order ((tasks.map fun t => deleteInner t.2.1 srt num sh g t.1 t.2.2).foldl
          (fun s m => setInsertAll s m.keys) [])
      · rcases a3 u hk t.1 hx with ⟨-, h2⟩ | ⟨m, hm, h1, h2⟩
        · have h3 : t.1 ∉ tasks.map (·.1) := by simpa using h2
          exact absurd (List.mem_map.2 ⟨t, ht, rfl⟩) h3
        · obtain ⟨s, hs, rfl⟩ := List.mem_map.1 hm
          exact ⟨s, hs, (hval s hs u h1 t.1 h2).1⟩
      · rw [a2 u hk] at hx
        exfalso
        apply hk
        rw [(hord _).mem_iff, hkeys]
        exact ⟨t, ht, ((hspec t).2.2.2.1 u ((mem_inNeighbors t.2.1 sh hsh g t.1 t.2.2 u).2 ⟨hu, hx⟩) huv).1⟩
  · intro u x hx
    rw [foldl_drop] at hx
    split at hx
    · cases hx
    · by_cases hk : u ∈ order ((tasks.map fun t => deleteInner t.2.1 srt num sh g t.1 t.2.2).foldl
          (fun s m => setInsertAll s m.keys) [])
      · rcases a3 u hk x hx with ⟨h1, -⟩ | ⟨m, hm, h1, h2⟩
        · exact Or.inl h1
        · obtain ⟨s, hs, rfl⟩ := List.mem_map.1 hm
          have := hval s hs u h1 x h2
          exact Or.inr ⟨this.2, s, hs, this.1⟩
      · rw [a2 u hk] at hx
        exact Or.inl hx
  · intro u
    rw [foldl_drop]
    split
    · simp
    · exact a1.graph u

/-! ### Concrete cases -/

/-- A small graph: 1 ↔ 2, 2 → 3, 3 → 1, 4 → 2 and 1 → 4. -/
def delGraph : Graph Nat := fun v =>
  if v = 1 then [2, 4] else if v = 2 then [1, 3] else if v = 3 then [1, 2] else if v = 4 then [2] else []

def delEnv (dead : List Nat) : Env Nat := { deleted := fun v => decide (v ∈ dead), view := fun _ => true, dd := demoDist }

/-- Deleting 2 from `delGraph`: its in-neighbours 1 and 3 are out-neighbours and get linked up; 4 is not examined by
the one-hop method and keeps its link. -/
example : (inplaceDelete demoConfig stdSorter (delEnv [2]) (delEnv [2]) 9 2 id id delGraph 2 .oneHop).map
    (fun g => (g 1, g 2, g 3, g 4)) = some ([4, 3], [], [1], [2]) := by decide +kernel

/-- The two-hop method sees 4 through 1, and 4 is unlinked too. -/
example : (inplaceDelete demoConfig stdSorter (delEnv [2]) (delEnv [2]) 9 2 id id delGraph 2 .twoHopAndOneHop).map
    (fun g => (g 1, g 2, g 3, g 4)) = some ([4, 3], [], [1], [3, 1]) := by decide +kernel

/-- **C56 fails for batches**: `multi_inplace_delete` starts all deletions of a chunk concurrently and each marks only
its own vertex as deleted. Here 2 and 3 are deleted together and the deletion of 2 runs before 3 is marked deleted, so
it picks 3 as a replacement for 2. The targets of an update are not filtered against the chunk (index.rs:2291), so
vertex 1 gets a *new* edge to the deleted vertex 3. -/
theorem C56_batch_links_to_deleted :
    3 ∉ delGraph 1 ∧
    (batchDelete demoConfig stdSorter (delEnv [2, 3]) 9 2 id id delGraph
      [(2, delEnv [2], .oneHop), (3, delEnv [2, 3], .oneHop)]).map (fun g => (g 1, g 2, g 3)) =
        some ([4, 3], [], []) := by
  constructor <;> decide +kernel

end Verif.Graph
