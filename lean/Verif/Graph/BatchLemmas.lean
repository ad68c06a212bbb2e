import Verif.Graph.BatchModel
import Verif.Graph.DeleteLemmas
import Verif.AsyncTools.Props

/-! Helper lemmas for C64. -/

namespace Verif.Graph

variable {I : Type} [LinearOrder I]

/-! ### Aggregation -/

theorem appendNew_add (vs pre : List I) : ∃ add, appendNew pre vs = pre ++ add ∧ add.Sublist vs := by
  induction vs generalizing pre with
  | nil => exact ⟨[], by simp [appendNew], List.Sublist.refl _⟩
  | cons v vs ih =>
    rw [appendNew]
    split
    · obtain ⟨add, h1, h2⟩ := ih pre
      exact ⟨add, h1, h2.cons _⟩
    · obtain ⟨add, h1, h2⟩ := ih (pre ++ [v])
      exact ⟨v :: add, by rw [h1]; simp, h2.cons_cons _⟩

/-- The `(target, source)` pairs in the order in which they are aggregated. -/
def reversed (edges : List (Pending I)) : List (I × I) := edges.flatMap fun p => p.2.map fun t => (t, p.1)

theorem aggregate_eq (edges : List (Pending I)) :
    aggregate edges = (reversed edges).foldl (fun m p => m.add p.1 p.2) ⟨[], fun _ => .none⟩ := by
  unfold aggregate reversed
  generalize (⟨[], fun _ => .none⟩ : BackMap I) = m
  induction edges generalizing m with
  | nil => rfl
  | cons e es ih =>
    rw [List.foldl_cons, List.flatMap_cons, List.foldl_append, ih, List.foldl_map]

theorem add_fold (ps : List (I × I)) (m : BackMap I) (hm : ∀ k, k ∉ m.keys → m.get k = .none) :
    let r := ps.foldl (fun m p => m.add p.1 p.2) m
    r.keys = appendNew m.keys (ps.map (·.1)) ∧
    ∀ k, (r.get k).toList = appendNew (m.get k).toList ((ps.filter fun p => decide (p.1 = k)).map (·.2)) := by
  induction ps generalizing m with
  | nil => exact ⟨rfl, fun k => rfl⟩
  | cons p ps ih =>
    obtain ⟨t, s⟩ := p
    rw [List.foldl_cons]
    simp only
    have hget : ∀ k, ((m.add t s).get k).toList =
        if t = k then (push (m.get k).toList s).1 else (m.get k).toList := by
      intro k
      unfold BackMap.add
      split
      · by_cases e : t = k
        · subst e; simp [(backedge_push _ _).1]
        · simp [e, Function.update_of_ne (Ne.symm e)]
      · rename_i ht
        by_cases e : t = k
        · subst e; simp [hm t ht, Backedge.toList, push]
        · simp [e, Function.update_of_ne (Ne.symm e)]
    have hkeys : (m.add t s).keys = if t ∈ m.keys then m.keys else m.keys ++ [t] := by
      unfold BackMap.add; split <;> rfl
    have hnone : ∀ k, k ∉ (m.add t s).keys → (m.add t s).get k = .none := by
      intro k hk
      rw [hkeys] at hk
      unfold BackMap.add
      split at hk
      · rename_i ht
        rw [if_pos ht]
        have e : k ≠ t := by rintro rfl; exact hk ht
        simp [Function.update_of_ne e, hm k hk]
      · rename_i ht
        rw [if_neg ht]
        simp only [List.mem_append, List.mem_singleton, not_or] at hk
        simp [Function.update_of_ne hk.2, hm k hk.1]
    obtain ⟨h1, h2⟩ := ih _ hnone
    refine ⟨by rw [h1, hkeys]; rfl, ?_⟩
    intro k
    rw [h2 k, hget k, List.filter_cons]
    by_cases e : t = k
    · simp only [e, if_true, decide_true, List.map_cons, appendNew]
      congr 1
      unfold push; split <;> rfl
    · simp [e]

theorem mem_reversed (edges : List (Pending I)) (t s : I) : (t, s) ∈ reversed edges ↔ ∃ l, (s, l) ∈ edges ∧ t ∈ l := by
  unfold reversed
  simp only [List.mem_flatMap, List.mem_map, Prod.mk.injEq]
  constructor
  · rintro ⟨⟨s', l⟩, hp, x, hx, rfl, rfl⟩; exact ⟨l, hp, hx⟩
  · rintro ⟨l, hp, hx⟩; exact ⟨_, hp, t, hx, rfl, rfl⟩

theorem aggregate_spec (edges : List (Pending I)) :
    (aggregate edges).keys.Nodup ∧
    (∀ t, t ∈ (aggregate edges).keys ↔ ∃ s l, (s, l) ∈ edges ∧ t ∈ l) ∧
    (∀ t, ((aggregate edges).get t).toList.Nodup) ∧
    (∀ t s, s ∈ ((aggregate edges).get t).toList ↔ ∃ l, (s, l) ∈ edges ∧ t ∈ l) := by
  obtain ⟨h1, h2⟩ := add_fold (reversed edges) ⟨[], fun _ => .none⟩ (fun _ _ => rfl)
  rw [← aggregate_eq] at h1 h2
  refine ⟨?_, ?_, ?_, ?_⟩
  · rw [h1]; exact (C06_first_seen_meaning _).1
  · intro t
    rw [h1, (C06_first_seen_meaning _).2.1, List.mem_map]
    constructor
    · rintro ⟨⟨t', s⟩, hp, rfl⟩; obtain ⟨l, hl⟩ := (mem_reversed _ _ _).1 hp; exact ⟨s, l, hl⟩
    · rintro ⟨s, l, hl⟩; exact ⟨(t, s), (mem_reversed _ _ _).2 ⟨l, hl⟩, rfl⟩
  · intro t; rw [h2]; exact (C06_first_seen_meaning _).1
  · intro t s
    rw [h2]
    show s ∈ appendNew [] _ ↔ _
    rw [(C06_first_seen_meaning _).2.1, List.mem_map, ← mem_reversed]
    constructor
    · rintro ⟨⟨t', s'⟩, hp, rfl⟩
      rw [List.mem_filter] at hp
      have : t' = t := by simpa using hp.2
      rw [← this]; exact hp.1
    · intro h; exact ⟨(t, s), List.mem_filter.2 ⟨h, by simp⟩, rfl⟩

/-! ### One back-edge update -/

/-- The list an update of `k` with targets `ts` stores, as a function of the old list, for a readable `k`. -/
def upd (c : Config) (srt : Sorter I) (env : Env I) (fuel : Nat) (k : I) (old ts : List I) : Option (List I) :=
  if (appendNew old ts).length ≤ c.maxDegree ∨ appendNew old ts = old then some (appendNew old ts)
  else (robustPruneList c srt env fuel k (appendNew old ts) [] false).map (·.2)

theorem robustPruneList_scratch (c : Config) (srt : Sorter I) (env : Env I) (fuel : Nat) (k : I) (l s : List I)
    (force : Bool) (hl : l ≠ []) (hv : env.view k = true) :
    robustPruneList c srt env fuel k l s force = robustPruneList c srt env fuel k l [] force := by
  unfold robustPruneList
  rw [if_neg hl, if_neg (by simp [hv]), if_neg hl, if_neg (by simp [hv])]

theorem addEdge_upd (c : Config) (srt : Sorter I) (env : Env I) (fuel : Nat) (g : Graph I) (ts : List I) (k : I)
    (s : List I) (hv : env.view k = true) (g' : Graph I) (s' : List I)
    (h : addEdgeAndPrune c srt env fuel g ts k s (fun _ => false) = some (g', s')) :
    upd c srt env fuel k (g k) ts = some (g' k) := by
  have hf : (g k).filter (fun i => !((fun _ => false : I → Bool) i)) = g k := by simp
  by_cases hroom : (appendNew (g k) ts).length ≤ c.maxDegree
  · obtain ⟨g2, h1, h2⟩ := C10_room_appends c srt env fuel g ts k s (fun _ => false) (by rw [hf]; exact hroom)
    rw [h1] at h
    simp only [Option.some.injEq, Prod.mk.injEq] at h
    rw [← h.1, h2, hf]
    unfold upd
    rw [if_pos (Or.inl hroom)]
  · unfold addEdgeAndPrune at h
    simp only [hf] at h
    have hcount := extend_count ts (g k)
    split at h
    · rename_i h0
      simp only [Option.some.injEq, Prod.mk.injEq] at h
      obtain ⟨t, ht⟩ := extend_prefix ts (g k)
      have e : appendNew (g k) ts = g k := by
        rw [← extend_eq, ← ht]
        rw [← ht, h0.1] at hcount
        simp only [List.length_append] at hcount
        have : t = [] := List.length_eq_zero_iff.1 (by omega)
        simp [this]
      rw [← h.1]
      unfold upd
      rw [if_pos (Or.inr e), e]
    · rename_i h0
      rw [if_neg (by rw [extend_eq]; exact hroom)] at h
      simp only [Option.map_eq_some_iff, Prod.exists, Prod.mk.injEq] at h
      obtain ⟨res, s'', hrp, rfl, rfl⟩ := h
      have hne : appendNew (g k) ts ≠ [] := by intro e; rw [e] at hroom; simp at hroom
      have hold : appendNew (g k) ts ≠ g k := by
        intro e
        rw [← extend_eq] at e
        rw [e] at hcount
        exact h0 ⟨by omega, by simp⟩
      rw [extend_eq, robustPruneList_scratch _ _ _ _ _ _ _ _ hne hv] at hrp
      unfold upd
      rw [if_neg (by simp [hroom, hold]), hrp]
      simp [setNeighbors]

theorem upd_spec (c : Config) (hc : c.prunedDegree ≤ c.maxDegree) (srt : Sorter I) (env : Env I) (fuel : Nat) (k : I)
    (old ts new : List I) (ho : old.Nodup ∧ old.length ≤ c.maxDegree) (hv : env.view k = true)
    (h : upd c srt env fuel k old ts = some new) :
    (new.Nodup ∧ new.length ≤ c.maxDegree) ∧ (∀ x ∈ new, x ∈ old ∨ x ∈ ts) ∧
    ((appendNew old ts).length ≤ c.maxDegree → new = appendNew old ts) := by
  unfold upd at h
  have hnd : (appendNew old ts).Nodup := by rw [← extend_eq]; exact extend_nodup _ ho.1
  split at h
  · rename_i hor
    simp only [Option.some.injEq] at h
    subst h
    refine ⟨⟨hnd, ?_⟩, fun x hx => (mem_appendNew _ _ _).1 hx, fun _ => rfl⟩
    rcases hor with h | h
    · exact h
    · rw [h]; exact ho.2
  · rename_i hor
    simp only [not_or] at hor
    simp only [Option.map_eq_some_iff, Prod.exists, exists_eq_right] at h
    obtain ⟨res, h⟩ := h
    cases res with
    | failedRetrieval =>
      have := (robustPruneList_failed _ _ _ _ _ _ _ _ _ h).2
      rw [hv] at this; cases this
    | ok =>
      obtain ⟨h1, h2, h3, -⟩ := robustPruneList_ok _ _ _ _ _ _ _ _ _ hnd
        (by intro e; rw [e] at hor; simp at hor) h
      exact ⟨⟨h2, Nat.le_trans h1 hc⟩, fun x hx => (mem_appendNew _ _ _).1 (h3 x hx).1, fun hr => absurd hr hor.1⟩

/-- What applying updates to the vertices `ks` leaves. -/
structure Applied (c : Config) (srt : Sorter I) (env : Env I) (fuel : Nat) (get : I → List I) (ks : List I)
    (g g' : Graph I) : Prop where
  other : ∀ u, u ∉ ks → g' u = g u
  key : ∀ u ∈ ks, upd c srt env fuel u (g u) (get u) = some (g' u)

theorem Applied.append {c : Config} {srt : Sorter I} {env : Env I} {fuel : Nat} {get : I → List I} {ks ks' : List I}
    {g g1 g' : Graph I} (hn : (ks ++ ks').Nodup) (h1 : Applied c srt env fuel get ks g g1)
    (h2 : Applied c srt env fuel get ks' g1 g') : Applied c srt env fuel get (ks ++ ks') g g' := by
  have hd := (List.nodup_append.1 hn).2.2
  refine ⟨?_, ?_⟩
  · intro u hu
    simp only [List.mem_append, not_or] at hu
    rw [h2.other u hu.2, h1.other u hu.1]
  · intro u hu
    rcases List.mem_append.1 hu with hu | hu
    · rw [h2.other u (fun h => hd u hu u h rfl)]; exact h1.key u hu
    · have := h2.key u hu
      rwa [h1.other u (fun h => hd u h u hu rfl)] at this

theorem applied_unique {c : Config} {srt : Sorter I} {env : Env I} {fuel : Nat} {get get' : I → List I}
    {ks ks' : List I} {g g1 g2 : Graph I} (hk : ∀ u, u ∈ ks ↔ u ∈ ks') (hget : ∀ u ∈ ks, get u = get' u)
    (h1 : Applied c srt env fuel get ks g g1) (h2 : Applied c srt env fuel get' ks' g g2) : g1 = g2 := by
  funext u
  by_cases hu : u ∈ ks
  · have a := h1.key u hu
    have b := h2.key u ((hk u).1 hu)
    rw [← hget u hu, a] at b
    exact Option.some.inj b
  · rw [h1.other u hu, h2.other u (fun h => hu ((hk u).2 h))]

theorem applyEdges_applied (c : Config) (srt : Sorter I) (env : Env I) (fuel : Nat) (get : I → List I) (ks : List I)
    (hks : ks.Nodup) (hv : ∀ k ∈ ks, env.view k = true) (g g' : Graph I) (s s' : List I)
    (h : applyEdges c srt env fuel (fun _ => false) get ks (g, s) = some (g', s')) :
    Applied c srt env fuel get ks g g' := by
  induction ks generalizing g s with
  | nil =>
    simp only [applyEdges, Option.some.injEq, Prod.mk.injEq] at h
    obtain ⟨rfl, rfl⟩ := h
    exact ⟨by simp, by simp⟩
  | cons k ks ih =>
    rw [applyEdges] at h
    split at h
    · cases h
    · rename_i st hst
      obtain ⟨g1, s1⟩ := st
      have h1 : Applied c srt env fuel get [k] g g1 := by
        refine ⟨fun u hu => ?_, fun u hu => ?_⟩
        · exact C10_only_source c srt env fuel g (get k) k s _ g1 s1 hst u (by simpa using hu)
        · rw [List.mem_singleton] at hu
          subst hu
          exact addEdge_upd c srt env fuel g (get u) u s (hv u (by simp)) g1 s1 hst
      exact Applied.append (ks := [k]) hks h1 (ih (List.nodup_cons.1 hks).2 (fun x hx => hv x (by simp [hx])) g1 s1 h)

/-- The part of the keys that task `i` handles. -/
def chunk (keys : List I) (t i : Nat) : List I :=
  (keys.drop (AsyncTools.bound keys.length t i)).take
    (AsyncTools.bound keys.length t (i + 1) - AsyncTools.bound keys.length t i)

theorem chunks_take (keys : List I) (t n : Nat) :
    (List.range n).flatMap (chunk keys t) = keys.take (AsyncTools.bound keys.length t n) := by
  induction n with
  | zero => simp [AsyncTools.bound]
  | succ n ih =>
    rw [List.range_succ, List.flatMap_append, ih]
    simp only [List.flatMap_cons, List.flatMap_nil, List.append_nil, chunk]
    have := AsyncTools.bound_mono (n := keys.length) (t := t) (Nat.le_succ n)
    obtain ⟨d, hd⟩ := Nat.exists_eq_add_of_le this
    rw [Nat.succ_eq_add_one] at hd
    rw [hd, Nat.add_sub_cancel_left, List.take_add]

theorem tasks_applied (c : Config) (srt : Sorter I) (env : Env I) (fuel : Nat) (m : BackMap I) (keys : List I)
    (t : Nat) (is : List Nat) (hn : (is.flatMap (chunk keys t)).Nodup)
    (hv : ∀ k ∈ keys, env.view k = true) (g g' : Graph I)
    (h : backedgeTasks c srt env fuel m keys t is g = some g') :
    Applied c srt env fuel (fun k => (m.get k).toList.insertionSort (· ≤ ·)) (is.flatMap (chunk keys t)) g g' := by
  induction is generalizing g with
  | nil =>
    simp only [backedgeTasks, Option.some.injEq] at h
    subst h
    exact ⟨by simp, by simp⟩
  | cons i is ih =>
    rw [backedgeTasks] at h
    split at h
    · cases h
    · rename_i g1 hg1
      unfold backedgeTask at hg1
      simp only [AsyncTools.impl_eq, Option.map_eq_some_iff, Prod.exists] at hg1
      obtain ⟨g1', s1, hg1, rfl⟩ := hg1
      rw [List.flatMap_cons] at hn ⊢
      exact Applied.append hn (applyEdges_applied c srt env fuel _ (chunk keys t i) (List.nodup_append.1 hn).1
        (fun k hk => hv k (List.mem_of_mem_drop (List.mem_of_mem_take hk))) g g1' [] s1 hg1)
        (ih (List.nodup_append.1 hn).2.1 g1' h)

theorem allTasks_applied (c : Config) (srt : Sorter I) (env : Env I) (fuel : Nat) (m : BackMap I) (keys : List I)
    (t : Nat) (ht : 0 < t) (hn : keys.Nodup) (hv : ∀ k ∈ keys, env.view k = true) (g g' : Graph I)
    (h : backedgeTasks c srt env fuel m keys t (List.range t) g = some g') :
    Applied c srt env fuel (fun k => (m.get k).toList.insertionSort (· ≤ ·)) keys g g' := by
  have e : (List.range t).flatMap (chunk keys t) = keys := by
    rw [chunks_take, AsyncTools.bound_last ht, List.take_length]
  have := tasks_applied c srt env fuel m keys t (List.range t) (by rw [e]; exact hn) hv g g' h
  rwa [e] at this

/-! ### Bulk assignment -/

theorem setBulk_eq (g : Graph I) (edges : List (Pending I)) (hn : (edges.map (·.1)).Nodup) (u : I) :
    setBulk g edges u = (edges.lookup u).getD (g u) := by
  unfold setBulk
  induction edges generalizing g with
  | nil => rfl
  | cons e es ih =>
    obtain ⟨s, l⟩ := e
    rw [List.foldl_cons, ih _ (List.nodup_cons.1 hn).2, List.lookup_cons]
    simp only [List.map_cons, List.nodup_cons] at hn
    by_cases h : u = s
    · subst h
      have : es.lookup u = none := by
        rw [List.lookup_eq_none_iff]
        intro p hp
        have : u ≠ p.1 := fun e => hn.1 (List.mem_map.2 ⟨p, hp, e.symm⟩)
        simpa using this
      simp [this, setNeighbors]
    · have : (u == s) = false := by simpa using h
      simp [this, setNeighbors, Function.update_of_ne h]

theorem lookup_iff (edges : List (Pending I)) (hn : (edges.map (·.1)).Nodup) (u : I) (l : List I) :
    edges.lookup u = some l ↔ (u, l) ∈ edges := by
  induction edges with
  | nil => simp
  | cons e es ih =>
    obtain ⟨s, l'⟩ := e
    simp only [List.map_cons, List.nodup_cons] at hn
    rw [List.lookup_cons]
    by_cases h : u = s
    · subst h
      simp only [beq_self_eq_true, Option.some.injEq, List.mem_cons, Prod.mk.injEq, true_and]
      constructor
      · exact fun h => Or.inl h.symm
      · rintro (h | h)
        · exact h.symm
        · exact absurd (List.mem_map.2 ⟨_, h, rfl⟩) hn.1
    · have : (u == s) = false := by simpa using h
      simp [this, ih hn.2, h]

theorem lookup_perm (edges edges' : List (Pending I)) (hn : (edges.map (·.1)).Nodup) (hp : edges.Perm edges') (u : I) :
    edges.lookup u = edges'.lookup u := by
  have hn' : (edges'.map (·.1)).Nodup := (hp.map _).nodup_iff.1 hn
  apply Option.ext
  intro l
  rw [lookup_iff _ hn, lookup_iff _ hn', hp.mem_iff]

/-! ### Collecting results -/

theorem collect_mem {α : Type} (f : α → Option (List (Pending I))) (ps : List α) (r : List (Pending I))
    (h : collect f ps = some r) (e : Pending I) (he : e ∈ r) : ∃ p ∈ ps, ∃ l, f p = some l ∧ e ∈ l := by
  induction ps generalizing r with
  | nil => simp only [collect, Option.some.injEq] at h; subst h; cases he
  | cons p ps ih =>
    rw [collect] at h
    split at h
    · rename_i l r' h1 h2
      simp only [Option.some.injEq] at h
      subst h
      rcases List.mem_append.1 he with he | he
      · exact ⟨p, by simp, l, h1, he⟩
      · obtain ⟨q, hq, x⟩ := ih r' h2 he
        exact ⟨q, by simp [hq], x⟩
    · cases h

theorem collect_sources {α : Type} (f : α → Option (List (Pending I))) (src : α → Option I)
    (hf : ∀ p l, f p = some l → l = [] ∨ ∃ v x, src p = some v ∧ l = [(v, x)]) (ps : List α)
    (r : List (Pending I)) (h : collect f ps = some r) : (r.map (·.1)).Sublist (ps.filterMap src) := by
  induction ps generalizing r with
  | nil => simp only [collect, Option.some.injEq] at h; subst h; simp
  | cons p ps ih =>
    rw [collect] at h
    split at h
    · rename_i l r' h1 h2
      simp only [Option.some.injEq] at h
      subst h
      have := ih r' h2
      rcases hf p l h1 with rfl | ⟨v, x, hv, rfl⟩
      · rw [List.filterMap_cons]
        split
        · exact this
        · exact this.cons _
      · rw [List.filterMap_cons, hv]
        exact this.cons_cons _
    · cases h

theorem collect_sources_all {α : Type} (f : α → Option (List (Pending I))) (src : α → Option I) (ps : List α)
    (hf : ∀ p ∈ ps, ∀ l, f p = some l → ∃ v x, src p = some v ∧ l = [(v, x)])
    (r : List (Pending I)) (h : collect f ps = some r) : r.map (·.1) = ps.filterMap src := by
  induction ps generalizing r with
  | nil => simp only [collect, Option.some.injEq] at h; subst h; simp
  | cons p ps ih =>
    rw [collect] at h
    split at h
    · rename_i l r' h1 h2
      simp only [Option.some.injEq] at h
      subst h
      have := ih (fun q hq => hf q (by simp [hq])) r' h2
      obtain ⟨v, x, hv, rfl⟩ := hf p (by simp) l h1
      rw [List.filterMap_cons, hv]
      simp [this]
    · cases h

theorem collect_perm {α : Type} (f : α → Option (List (Pending I))) (ps ps' : List α) (hp : ps.Perm ps')
    (r r' : List (Pending I)) (h : collect f ps = some r) (h' : collect f ps' = some r') : r.Perm r' := by
  induction hp generalizing r r' with
  | nil => rw [h] at h'; cases h'; exact List.Perm.refl _
  | cons x _ ih =>
    rw [collect] at h h'
    split at h
    · rename_i l r1 h1 h2
      split at h'
      · rename_i l' r2 h3 h4
        rw [h1] at h3
        cases h3
        cases h
        cases h'
        exact (ih r1 r2 h2 h4).append_left _
      · cases h'
    · cases h
  | swap x y l =>
    simp only [collect] at h h'
    cases hx : f x <;> cases hy : f y <;> cases hl : collect f l <;> simp only [hx, hy, hl] at h h' <;>
      first
      | cases h; done
      | skip
    simp only [Option.some.injEq] at h h'
    subst h; subst h'
    rw [← List.append_assoc, ← List.append_assoc]
    exact List.perm_append_comm.append_right _
  | trans p1 p2 ih1 ih2 =>
    rename_i l1 l2 l3
    cases hm : collect f l2 with
    | some rm => exact (ih1 r rm h hm).trans (ih2 rm r' hm h')
    | none =>
      exfalso
      have key : ∀ (l : List α), collect f l = none ↔ ∃ p ∈ l, f p = none := by
        intro l
        induction l with
        | nil => simp [collect]
        | cons p l ih =>
          rw [collect]
          cases hp : f p <;> cases hl : collect f l <;> simp_all
      obtain ⟨p, hp, hfp⟩ := (key l2).1 hm
      have := (key l1).2 ⟨p, p1.mem_iff.2 hp, hfp⟩
      rw [h] at this; cases this

theorem collect_range {α : Type} (F : α → Option (List (Pending I))) (l : List α) :
    collect (fun p => (l[p]?).bind F) (List.range l.length) = collect F l := by
  have key : ∀ (post pre : List α), collect (fun p => ((pre ++ post)[p]?).bind F)
      ((List.range post.length).map (pre.length + ·)) = collect F post := by
    intro post
    induction post with
    | nil => intro pre; rfl
    | cons x post ih =>
      intro pre
      rw [List.length_cons, List.range_succ_eq_map, List.map_cons, List.map_map, collect, collect]
      have e := ih (pre ++ [x])
      simp only [List.append_assoc, List.cons_append, List.nil_append, List.length_append, List.length_cons,
        List.length_nil, Nat.zero_add] at e
      have e2 : (List.range post.length).map ((fun x => pre.length + x) ∘ Nat.succ) =
          (List.range post.length).map (pre.length + 1 + ·) := by
        apply List.map_congr_left
        intro j _
        simp only [Function.comp]; omega
      rw [e2, e]
      simp
  have := key l []
  simpa using this

end Verif.Graph
