import Verif.Graph.DeleteModel
import Verif.Graph.UpdateProps

/-! Helper lemmas for C56. -/

namespace Verif.Graph

variable {I : Type} [DecidableEq I]

theorem mem_addKey (m : EdgeMap I) (k x : I) : x ∈ m.addKey k ↔ x = k ∨ x ∈ m.keys := by
  unfold EdgeMap.addKey
  split
  · constructor
    · exact Or.inr
    · rintro (rfl | h) <;> assumption
  · simp [or_comm]

theorem addKey_nodup (m : EdgeMap I) (k : I) (h : m.keys.Nodup) : (m.addKey k).Nodup := by
  unfold EdgeMap.addKey
  split
  · exact h
  · rename_i hk
    exact List.Nodup.append h (by simp) (by simpa using hk)

/-- Everything that is proved about the computed map. `P k x`: `x` may be listed under `k`. -/
structure MapOk (env : Env I) (K : I → Prop) (P : I → I → Prop) (m : EdgeMap I) : Prop where
  nodup : m.keys.Nodup
  key : ∀ k ∈ m.keys, env.view k = true ∧ K k
  val : ∀ k ∈ m.keys, ∀ x ∈ m.get k, P k x

theorem mapOk_put {env : Env I} {K : I → Prop} {P : I → I → Prop} {m : EdgeMap I} (h : MapOk env K P m) (k : I)
    (l : List I) (hk : env.view k = true ∧ K k) (hl : ∀ x ∈ l, P k x) : MapOk env K P (m.put k l) := by
  refine ⟨addKey_nodup _ _ h.nodup, ?_, ?_⟩
  · intro x hx
    rcases (mem_addKey _ _ _).1 hx with rfl | hx
    · exact hk
    · exact h.key x hx
  · intro x hx y hy
    by_cases e : x = k
    · subst e
      simp only [EdgeMap.put, Function.update_self] at hy
      exact hl y hy
    · simp only [EdgeMap.put, Function.update_of_ne e] at hy
      rcases (mem_addKey _ _ _).1 hx with rfl | hx
      · exact absurd rfl e
      · exact h.val x hx y hy

theorem mapOk_push {env : Env I} {K : I → Prop} {P : I → I → Prop} {m : EdgeMap I} (h : MapOk env K P m) (k y : I)
    (hk : env.view k = true ∧ K k) (hl : P k y) : MapOk env K P (m.push k y) := by
  refine ⟨addKey_nodup _ _ h.nodup, ?_, ?_⟩
  · intro x hx
    rcases (mem_addKey _ _ _).1 hx with rfl | hx
    · exact hk
    · exact h.key x hx
  · intro x hx z hz
    by_cases e : x = k
    · subst e
      simp only [EdgeMap.push, Function.update_self, List.mem_append, List.mem_singleton] at hz
      rcases hz with hz | rfl
      · split at hz
        · rename_i hxk
          exact h.val x hxk z hz
        · cases hz
      · exact hl
    · simp only [EdgeMap.push, Function.update_of_ne e] at hz
      rcases (mem_addKey _ _ _).1 hx with rfl | hx
      · exact absurd rfl e
      · exact h.val x hx z hz

/-- `m'` has at least the entries of `m`. -/
def MapLe (m m' : EdgeMap I) : Prop := ∀ k ∈ m.keys, k ∈ m'.keys ∧ ∀ x ∈ m.get k, x ∈ m'.get k

theorem MapLe.refl (m : EdgeMap I) : MapLe m m := fun _ h => ⟨h, fun _ hx => hx⟩

theorem MapLe.trans {a b c : EdgeMap I} (h1 : MapLe a b) (h2 : MapLe b c) : MapLe a c :=
  fun k hk => ⟨(h2 k (h1 k hk).1).1, fun x hx => (h2 k (h1 k hk).1).2 x ((h1 k hk).2 x hx)⟩

theorem mapLe_push (m : EdgeMap I) (k y : I) : MapLe m (m.push k y) := by
  intro x hx
  refine ⟨(mem_addKey _ _ _).2 (Or.inr hx), fun z hz => ?_⟩
  by_cases e : x = k
  · subst e
    simp only [EdgeMap.push, Function.update_self, if_pos hx]
    simp [hz]
  · simpa only [EdgeMap.push, Function.update_of_ne e] using hz

theorem push_mem (m : EdgeMap I) (k y : I) : k ∈ (m.push k y).keys ∧ y ∈ (m.push k y).get k := by
  refine ⟨(mem_addKey _ _ _).2 (Or.inl rfl), ?_⟩
  simp [EdgeMap.push]

theorem closest_spec (env : Env I) (srt : Sorter I) (num : Nat) (replace : List I) (n x : I)
    (h : x ∈ closest env srt num replace n) : x ∈ replace ∧ x ≠ n ∧ env.view x = true := by
  unfold closest at h
  obtain ⟨⟨a, d⟩, ha, rfl⟩ := List.mem_map.1 h
  obtain ⟨rest, hp, -⟩ := (srt.ok _ _).rest
  have := hp.subset (List.mem_append_left _ ha)
  obtain ⟨y, hy, e⟩ := List.mem_map.1 this
  simp only [Prod.mk.injEq] at e
  obtain ⟨rfl, -⟩ := e
  rw [List.mem_filter] at hy
  simpa using hy

theorem closest_length (env : Env I) (srt : Sorter I) (num : Nat) (replace : List I) (n : I) :
    (closest env srt num replace n).length ≤ num := by
  unfold closest
  rw [List.length_map, (srt.ok _ _).length_eq]
  omega

/-- The inner loop of the second pass: one out-neighbour is pushed to several keys. -/
theorem pushAll_spec {env : Env I} {K : I → Prop} {P : I → I → Prop} (ks : List I) (y : I) (m : EdgeMap I)
    (h : MapOk env K P m) (hks : ∀ k ∈ ks, (env.view k = true ∧ K k) ∧ P k y) :
    MapOk env K P (ks.foldl (fun m n => m.push n y) m) ∧ MapLe m (ks.foldl (fun m n => m.push n y) m) ∧
      ∀ k ∈ ks, k ∈ (ks.foldl (fun m n => m.push n y) m).keys ∧ y ∈ (ks.foldl (fun m n => m.push n y) m).get k := by
  induction ks generalizing m with
  | nil => exact ⟨h, MapLe.refl m, by simp⟩
  | cons k ks ih =>
    rw [List.foldl_cons]
    have hk := hks k (by simp)
    obtain ⟨a, b, d⟩ := ih (m.push k y) (mapOk_push h k y hk.1 hk.2) (fun x hx => hks x (by simp [hx]))
    refine ⟨a, (mapLe_push m k y).trans b, ?_⟩
    intro x hx
    rcases List.mem_cons.1 hx with rfl | hx
    · have := push_mem m x y
      exact ⟨(b x this.1).1, (b x this.1).2 y this.2⟩
    · exact d x hx

theorem pass1_spec {env : Env I} {srt : Sorter I} {num : Nat} {replace : List I} {K : I → Prop} {P : I → I → Prop}
    (ins : List I) (m : EdgeMap I) (h : MapOk env K P m) (hK : ∀ n ∈ ins, K n)
    (hP : ∀ n ∈ ins, ∀ x ∈ closest env srt num replace n, P n x) :
    let m' := ins.foldl (fun m n => if env.view n then m.put n (closest env srt num replace n) else m) m
    MapOk env K P m' ∧ (∀ k, k ∈ m'.keys ↔ k ∈ m.keys ∨ (k ∈ ins ∧ env.view k = true)) ∧
      (∀ k, m'.get k = if k ∈ ins ∧ env.view k = true then closest env srt num replace k else m.get k) := by
  induction ins generalizing m with
  | nil => exact ⟨h, by simp, by simp⟩
  | cons n ins ih =>
    simp only [List.foldl_cons]
    by_cases hv : env.view n = true
    · simp only [hv, if_true]
      obtain ⟨a, b, d⟩ := ih (m.put n (closest env srt num replace n))
        (mapOk_put h n _ ⟨hv, hK n (by simp)⟩ (hP n (by simp))) (fun x hx => hK x (by simp [hx]))
        (fun x hx => hP x (by simp [hx]))
      refine ⟨a, ?_, ?_⟩
      · intro k
        rw [b k]
        simp only [EdgeMap.put, mem_addKey, List.mem_cons]
        constructor
        · rintro ((rfl | h) | ⟨h1, h2⟩)
          · exact Or.inr ⟨Or.inl rfl, hv⟩
          · exact Or.inl h
          · exact Or.inr ⟨Or.inr h1, h2⟩
        · rintro (h | ⟨rfl | h1, h2⟩)
          · exact Or.inl (Or.inr h)
          · exact Or.inl (Or.inl rfl)
          · exact Or.inr ⟨h1, h2⟩
      · intro k
        rw [d k]
        by_cases hk : k ∈ ins ∧ env.view k = true
        · rw [if_pos hk, if_pos ⟨by simp [hk.1], hk.2⟩]
        · rw [if_neg hk]
          by_cases e : k = n
          · subst e
            rw [if_pos ⟨by simp, hv⟩]
            simp [EdgeMap.put]
          · rw [if_neg (by rintro ⟨h1, h2⟩; rcases List.mem_cons.1 h1 with h1 | h1; exacts [e h1, hk ⟨h1, h2⟩])]
            simp [EdgeMap.put, Function.update_of_ne e]
    · simp only [hv, if_false, Bool.false_eq_true]
      obtain ⟨a, b, d⟩ := ih m h (fun x hx => hK x (by simp [hx])) (fun x hx => hP x (by simp [hx]))
      have e : ∀ k, (k ∈ n :: ins ∧ env.view k = true) ↔ (k ∈ ins ∧ env.view k = true) := by
        intro k
        constructor
        · rintro ⟨h1, h2⟩
          rcases List.mem_cons.1 h1 with rfl | h1
          · exact absurd h2 hv
          · exact ⟨h1, h2⟩
        · rintro ⟨h1, h2⟩; exact ⟨by simp [h1], h2⟩
      refine ⟨a, ?_, ?_⟩
      · intro k; rw [b k, e]
      · intro k; rw [d k]; simp only [e]

theorem pass2_spec {env : Env I} {srt : Sorter I} {num : Nat} {replace : List I} {K : I → Prop} {P : I → I → Prop}
    (adj : List I) (m : EdgeMap I) (h : MapOk env K P m) (hK : ∀ k ∈ replace, K k)
    (hP : ∀ y ∈ adj, env.view y = true → ∀ k ∈ closest env srt num replace y, P k y) :
    let m' := adj.foldl (fun m y =>
      if env.view y then (closest env srt num replace y).foldl (fun m n => m.push n y) m else m) m
    MapOk env K P m' ∧ MapLe m m' ∧
      ∀ y ∈ adj, env.view y = true → ∀ k ∈ closest env srt num replace y, k ∈ m'.keys ∧ y ∈ m'.get k := by
  induction adj generalizing m with
  | nil => exact ⟨h, MapLe.refl m, by simp⟩
  | cons y adj ih =>
    simp only [List.foldl_cons]
    by_cases hv : env.view y = true
    · simp only [hv, if_true]
      obtain ⟨a, b, d⟩ := pushAll_spec (closest env srt num replace y) y m h (fun k hk =>
        ⟨⟨(closest_spec _ _ _ _ _ _ hk).2.2, hK k (closest_spec _ _ _ _ _ _ hk).1⟩, hP y (by simp) hv k hk⟩)
      obtain ⟨a', b', d'⟩ := ih _ a (fun x hx => hP x (by simp [hx]))
      refine ⟨a', b.trans b', ?_⟩
      intro z hz hzv k hk
      rcases List.mem_cons.1 hz with rfl | hz
      · have := d k hk
        exact ⟨(b' k this.1).1, (b' k this.1).2 _ this.2⟩
      · exact d' z hz hzv k hk
    · simp only [hv, if_false, Bool.false_eq_true]
      obtain ⟨a', b', d'⟩ := ih m h (fun x hx => hP x (by simp [hx]))
      refine ⟨a', b', ?_⟩
      intro z hz hzv k hk
      rcases List.mem_cons.1 hz with rfl | hz
      · exact absurd hzv hv
      · exact d' z hz hzv k hk

/-- What the two passes compute. -/
theorem deleteEdges_spec (env : Env I) (srt : Sorter I) (num : Nat) (w : WorkList I) (adj : List I) :
    let m := deleteEdges env srt num w adj
    m.keys.Nodup ∧
    (∀ k ∈ m.keys, env.view k = true ∧ (k ∈ w.inNeighbors ∨ k ∈ w.replace)) ∧
    (∀ k ∈ m.keys, ∀ x ∈ m.get k, x ≠ k ∧ (x ∈ closest env srt num w.replace k ∨ x ∈ adj) ∧ env.view x = true) ∧
    (∀ n ∈ w.inNeighbors, env.view n = true → n ∈ m.keys ∧ ∀ x ∈ closest env srt num w.replace n, x ∈ m.get n) ∧
    (∀ y ∈ adj, env.view y = true → ∀ k ∈ closest env srt num w.replace y, k ∈ m.keys ∧ y ∈ m.get k) := by
  intro m
  obtain ⟨a, b, d⟩ := pass1_spec (env := env) (srt := srt) (num := num) (replace := w.replace)
    (K := fun k => k ∈ w.inNeighbors ∨ k ∈ w.replace)
    (P := fun k x => x ≠ k ∧ (x ∈ closest env srt num w.replace k ∨ x ∈ adj) ∧ env.view x = true)
    w.inNeighbors EdgeMap.empty ⟨by simp [EdgeMap.empty], by simp [EdgeMap.empty], by simp [EdgeMap.empty]⟩
    (fun n hn => Or.inl hn) (fun n _ x hx => by
      obtain ⟨h1, h2, h3⟩ := closest_spec _ _ _ _ _ _ hx
      exact ⟨h2, Or.inl hx, h3⟩)
  obtain ⟨a', b', d'⟩ := pass2_spec (env := env) (srt := srt) (num := num) (replace := w.replace) adj _ a
    (fun k hk => Or.inr hk) (fun y hy hv k hk => by
      obtain ⟨h1, h2, h3⟩ := closest_spec _ _ _ _ _ _ hk
      exact ⟨fun e => h2 e.symm, Or.inr hy, hv⟩)
  refine ⟨a'.nodup, a'.key, a'.val, ?_, d'⟩
  intro n hn hv
  have hk := (b n).2 (Or.inr ⟨hn, hv⟩)
  refine ⟨(b' n hk).1, fun x hx => (b' n hk).2 x ?_⟩
  rw [d n, if_pos ⟨hn, hv⟩]
  exact hx

/-! ### The application of the updates -/

theorem applyEdges_spec (c : Config) (srt : Sorter I) (env : Env I) (fuel : Nat) (toRemove : I → Bool)
    (get : I → List I) (ks : List I) (hks : ks.Nodup) (hv : ∀ k ∈ ks, env.view k = true) (g : Graph I)
    (scratch : List I) (hc : c.prunedDegree ≤ c.maxDegree) (hb : Bounded c g scratch) (g' : Graph I) (s' : List I)
    (h : applyEdges c srt env fuel toRemove get ks (g, scratch) = some (g', s')) :
    Bounded c g' s' ∧ (∀ u, u ∉ ks → g' u = g u) ∧
    (∀ k ∈ ks, ∀ x ∈ g' k, (x ∈ g k ∧ toRemove x = false) ∨ x ∈ get k) ∧
    (∀ k ∈ ks, (appendNew ((g k).filter fun i => !toRemove i) (get k)).length ≤ c.maxDegree →
      g' k = appendNew ((g k).filter fun i => !toRemove i) (get k)) := by
  induction ks generalizing g scratch with
  | nil =>
    simp only [applyEdges, Option.some.injEq, Prod.mk.injEq] at h
    obtain ⟨rfl, rfl⟩ := h
    exact ⟨hb, by simp, by simp, by simp⟩
  | cons k ks ih =>
    rw [applyEdges] at h
    split at h
    · cases h
    · rename_i st hst
      obtain ⟨g1, s1⟩ := st
      have hb1 := addEdge_bounded c hc srt env fuel g (get k) k scratch toRemove hb g1 s1 hst
      have ho := C10_only_source c srt env fuel g (get k) k scratch toRemove g1 s1 hst
      have hd := C10_drawn_from_old_and_targets_partial c srt env fuel g (get k) k scratch toRemove g1 s1
        (hb.graph k).1 (hv k (by simp)) hst
      have hnk : k ∉ ks := (List.nodup_cons.1 hks).1
      obtain ⟨a, b, d, e⟩ := ih (List.nodup_cons.1 hks).2 (fun x hx => hv x (by simp [hx])) g1 s1 hb1 h
      refine ⟨a, ?_, ?_, ?_⟩
      · intro u hu
        rw [b u (fun hx => hu (by simp [hx])), ho u (fun hx => hu (by simp [hx]))]
      · intro x hx
        rcases List.mem_cons.1 hx with rfl | hx'
        · rw [b x hnk]; exact hd
        · have := d x hx'
          rwa [ho x (by rintro rfl; exact hnk hx')] at this
      · intro x hx hroom
        rcases List.mem_cons.1 hx with rfl | hx'
        · rw [b x hnk]
          obtain ⟨g2, h1, h2⟩ := C10_room_appends c srt env fuel g (get x) x scratch toRemove hroom
          rw [h1] at hst
          simp only [Option.some.injEq, Prod.mk.injEq] at hst
          rw [← hst.1, h2]
        · have e' := ho x (by rintro rfl; exact hnk hx')
          have := e x hx'
          rw [e'] at this
          exact this hroom

theorem applyBatch_spec (c : Config) (srt : Sorter I) (env : Env I) (fuel : Nat) (toRemove : I → Bool)
    (maps : List (EdgeMap I)) (ks : List I) (hks : ks.Nodup) (hv : ∀ k ∈ ks, env.view k = true) (g : Graph I)
    (hc : c.prunedDegree ≤ c.maxDegree) (hb : Bounded c g []) (g' : Graph I)
    (h : applyBatch c srt env fuel toRemove maps ks g = some g') :
    Bounded c g' [] ∧ (∀ u, u ∉ ks → g' u = g u) ∧
    (∀ k ∈ ks, ∀ x ∈ g' k, (x ∈ g k ∧ toRemove x = false) ∨ ∃ m ∈ maps, k ∈ m.keys ∧ x ∈ m.get k) := by
  induction ks generalizing g with
  | nil =>
    simp only [applyBatch, Option.some.injEq] at h
    subst h
    exact ⟨hb, by simp, by simp⟩
  | cons k ks ih =>
    rw [applyBatch] at h
    split at h
    · cases h
    · rename_i st hst
      obtain ⟨g1, s1⟩ := st
      have hb1 := addEdge_bounded c hc srt env fuel g _ k [] toRemove hb g1 s1 hst
      have ho := C10_only_source c srt env fuel g _ k [] toRemove g1 s1 hst
      have hd := C10_drawn_from_old_and_targets_partial c srt env fuel g _ k [] toRemove g1 s1
        (hb.graph k).1 (hv k (by simp)) hst
      have hnk : k ∉ ks := (List.nodup_cons.1 hks).1
      obtain ⟨a, b, d⟩ := ih (List.nodup_cons.1 hks).2 (fun x hx => hv x (by simp [hx])) g1
        ⟨hb1.graph, List.nodup_nil, Nat.zero_le _⟩ h
      refine ⟨a, ?_, ?_⟩
      · intro u hu
        rw [b u (fun hx => hu (by simp [hx])), ho u (fun hx => hu (by simp [hx]))]
      · intro x hx
        rcases List.mem_cons.1 hx with rfl | hx'
        · rw [b x hnk]
          intro y hy
          rcases hd y hy with h1 | h1
          · exact Or.inl h1
          · right
            obtain ⟨m, hm, hy⟩ := List.mem_flatMap.1 h1
            split at hy
            · exact ⟨m, hm, by assumption, hy⟩
            · cases hy
        · have := d x hx'
          rwa [ho x (by rintro rfl; exact hnk hx')] at this

theorem mem_undeleted (env : Env I) (sh : List I → List I) (hsh : ∀ l, (sh l).Perm l) (g : Graph I) (v x : I) :
    x ∈ undeletedNeighbors env sh g v ↔ x ∈ g v ∧ env.deleted x = false := by
  unfold undeletedNeighbors
  rw [(hsh _).mem_iff, List.mem_filter]
  simp

end Verif.Graph
