import Verif.Search.Model
import Verif.Search.Spec
import Verif.Queue.Props

/-! Helper lemmas for the search properties. -/

namespace Verif.Search

open Verif.Queue

variable {I D : Type} [DecidableEq I] [LinearOrder D]

/-! ### `forward` -/

theorem forward_spec (visited js : List I) (h : visited.Nodup) :
    (forward visited js).1 = visited ++ (forward visited js).2 ∧
    (visited ++ (forward visited js).2).Nodup ∧
    (∀ j ∈ js, j ∈ (forward visited js).1) ∧
    (∀ j ∈ (forward visited js).2, j ∈ js) := by
  induction js generalizing visited with
  | nil => simp [forward, h]
  | cons j js ih =>
    unfold forward
    by_cases hj : j ∈ visited
    · rw [if_pos hj]
      obtain ⟨h1, h2, h3, h4⟩ := ih visited h
      refine ⟨h1, h2, ?_, fun x hx => List.mem_cons_of_mem _ (h4 x hx)⟩
      intro x hx
      rcases List.mem_cons.mp hx with rfl | hx
      · rw [h1]; exact List.mem_append_left _ hj
      · exact h3 x hx
    · rw [if_neg hj]
      have hn : (visited ++ [j]).Nodup := by
        rw [List.nodup_append]
        refine ⟨h, by simp, ?_⟩
        intro a ha b hb
        simp only [List.mem_singleton] at hb
        subst hb
        intro hab; subst hab; exact hj ha
      obtain ⟨h1, h2, h3, h4⟩ := ih (visited ++ [j]) hn
      simp only
      refine ⟨by rw [h1]; simp, by simpa using h2, ?_, ?_⟩
      · intro x hx
        rcases List.mem_cons.mp hx with rfl | hx
        · rw [h1]; simp
        · exact h3 x hx
      · intro x hx
        rcases List.mem_cons.mp hx with rfl | hx
        · simp
        · exact List.mem_cons_of_mem _ (h4 x hx)

/-! ### Filling the beam -/

theorem contents_set (q : Queue I D) (c : Nat) (hc : c < q.entries.length) (b : Bool) :
    (q.entries.set c { q.entries[c] with visited := b }).map (fun e => (e.id, e.dist)) = q.contents := by
  unfold Queue.contents
  rw [List.map_set]
  apply List.ext_getElem
  · simp
  · intro i h1 h2
    rw [List.getElem_set]
    split
    · rename_i h; subst h; simp
    · rfl

theorem ids_eq_of_contents {q q' : Queue I D} (h : q'.contents = q.contents) :
    q'.entries.map (·.id) = q.entries.map (·.id) := by
  have := congrArg (List.map Prod.fst) h
  simpa [Queue.contents, Function.comp_def] using this

theorem mem_of_contents {q q' : Queue I D} (h : q'.contents = q.contents) (e : Entry I D)
    (he : e ∈ q'.entries) : ∃ e' ∈ q.entries, e'.id = e.id ∧ e'.dist = e.dist := by
  have : (e.id, e.dist) ∈ q'.contents := List.mem_map.mpr ⟨e, he, rfl⟩
  rw [h] at this
  obtain ⟨e', h1, h2⟩ := List.mem_map.mp this
  simp only [Prod.mk.injEq] at h2
  exact ⟨e', h1, h2.1, h2.2⟩

theorem pop_flags (q : Queue I D) (E : List I) (hn : (q.entries.map (·.id)).Nodup)
    (hf : ∀ e ∈ q.entries, (e.visited = true ↔ e.id ∈ E)) (c : Nat) (hc : c < q.entries.length) :
    ∀ e ∈ q.entries.set c { q.entries[c] with visited := true },
      (e.visited = true ↔ e.id ∈ E ++ [q.entries[c].id]) := by
  intro e he
  obtain ⟨i, hi, rfl⟩ := List.getElem_of_mem he
  simp only [List.length_set] at hi
  rw [List.getElem_set]
  split
  · rename_i h; subst h; simp
  · rename_i h
    rw [hf _ (List.getElem_mem hi)]
    simp only [List.mem_append, List.mem_singleton]
    constructor
    · exact Or.inl
    · rintro (h1 | h1)
      · exact h1
      · exfalso
        rw [List.nodup_iff_injective_getElem] at hn
        have := @hn ⟨i, by simpa using hi⟩ ⟨c, by simpa using hc⟩ (by simpa using h1)
        simp at this
        omega

theorem fillBeam_spec (n : Nat) (q : Queue I D) (E : List I) (h : WInv q)
    (hn : (q.entries.map (·.id)).Nodup)
    (hf : ∀ e ∈ q.entries, (e.visited = true ↔ e.id ∈ E)) :
    ∃ nodes q', fillBeam q n = some (nodes, q') ∧ WInv q' ∧ q'.contents = q.contents ∧
      q'.capacity = q.capacity ∧ q'.auto = q.auto ∧ q'.searchL = q.searchL ∧
      (∀ e ∈ q'.entries, (e.visited = true ↔ e.id ∈ E ++ nodes)) ∧
      (∀ x ∈ nodes, ∃ e ∈ q.entries, e.id = x) ∧
      (1 ≤ n → q.hasNotVisited = true → nodes ≠ [] ∧ Inv q') ∧
      (Inv q → Inv q' ∧ nodes.Nodup ∧ ∀ x ∈ nodes, x ∉ E) := by
  induction n generalizing q E with
  | zero =>
    exact ⟨[], q, rfl, h, rfl, rfl, rfl, rfl, by simpa using hf, by simp, by omega,
      fun hi => ⟨hi, by simp, by simp⟩⟩
  | succ n ih =>
    unfold fillBeam
    rcases pop_core q h with ⟨e, hc, hl, he, q1, h1, h2, h3, h4, h5, h6⟩ | ⟨h0, h1⟩
    · rw [h1]
      subst he
      have hcont : q1.contents = q.contents := by
        unfold Queue.contents; rw [h3]; exact contents_set q q.cursor hc true
      have hids := ids_eq_of_contents hcont
      have hflags := pop_flags q E hn hf q.cursor hc
      rw [← h3] at hflags
      obtain ⟨nodes, q', b1, b2, b3, b4, b5, b6, b7, b8, b9, b10⟩ :=
        ih q1 (E ++ [q.entries[q.cursor].id]) h2.toW (by rw [hids]; exact hn) hflags
      simp only [b1]
      obtain ⟨c1, c2, c3⟩ := b10 h2
      refine ⟨_, _, rfl, b2, b3.trans hcont, b4.trans h4, b5.trans h5, b6.trans h6, ?_, ?_, ?_, ?_⟩
      · intro e he
        rw [b7 e he]; simp
      · intro x hx
        rcases List.mem_cons.mp hx with rfl | hx
        · exact ⟨_, List.getElem_mem hc, rfl⟩
        · obtain ⟨e, he, rfl⟩ := b8 x hx
          obtain ⟨e', he', h', -⟩ := mem_of_contents hcont e he
          exact ⟨e', he', h'⟩
      · intro _ _; exact ⟨by simp, c1⟩
      · intro hi
        refine ⟨c1, ?_, ?_⟩
        · rw [List.nodup_cons]
          refine ⟨fun hm => ?_, c2⟩
          exact c3 _ hm (by simp)
        · intro x hx
          rcases List.mem_cons.mp hx with rfl | hx
          · have hv := hi.at_cursor hc
            intro hE
            rw [(hf _ (List.getElem_mem hc)).mpr hE] at hv
            exact absurd hv (by simp)
          · intro hE; exact c3 x hx (by simp [hE])
    · rw [h1]
      refine ⟨[], q, rfl, h, rfl, rfl, rfl, rfl, by simpa using hf, by simp, ?_,
        fun hi => ⟨hi, by simp, by simp⟩⟩
      intro _ hnv
      unfold Queue.hasNotVisited at hnv
      simp only [decide_eq_true_eq] at hnv
      omega

/-! ### Insertions -/

theorem insert_entries (pad : D) (q q' : Queue I D) (h : Inv q) (x : I) (d : Option D)
    (hi : q.insert pad x d = some q') :
    Inv q' ∧ q'.auto = q.auto ∧ q'.searchL = q.searchL ∧
    (∀ e ∈ q'.entries, e ∈ q.entries ∨ (e.id = x ∧ some e.dist = d ∧ e.visited = false)) ∧
    ((q.entries.map (·.id)).Nodup → x ∉ q.entries.map (·.id) → (q'.entries.map (·.id)).Nodup) := by
  obtain ⟨q'', h1, h2⟩ := insert_inv pad q h x d
  rw [hi] at h1; cases h1
  cases d with
  | none =>
    simp only [Queue.insert, Option.some.injEq] at hi
    subst hi
    exact ⟨h2, rfl, rfl, fun e he => Or.inl he, fun h _ => h⟩
  | some d =>
    obtain ⟨q3, a1, a2, a3, a4, a5, -⟩ := insert_core pad q x d h.cap h.size_le h.sorted
    rw [hi] at a1; cases a1
    refine ⟨h2, a4, a5, ?_, ?_⟩
    · intro e he
      rw [a2] at he
      have := List.mem_of_mem_take he
      rw [List.mem_orderedInsert] at this
      rcases this with rfl | h
      · right; exact ⟨rfl, rfl, rfl⟩
      · exact Or.inl h
    · intro hn hx
      rw [a2, List.map_take]
      apply List.Nodup.sublist (List.take_sublist _ _)
      have hp : (q.entries.orderedInsert le ⟨x, d, false⟩).Perm (⟨x, d, false⟩ :: q.entries) :=
        List.perm_orderedInsert _ _ _
      rw [(hp.map (·.id)).nodup_iff]
      simp only [List.map_cons, List.nodup_cons]
      exact ⟨hx, hn⟩

/-- A property `Q` of the queue and the list of fed ids that insertions and pops preserve. -/
structure Stable (pad : D) (G : Graph I D) (Q : Queue I D → List I → Prop) : Prop where
  ins : ∀ (q : Queue I D) (cs : List I) (x : I) (q' : Queue I D), Inv q → Q q cs → q.insert pad x (G.dist x) = some q' → Q q' (cs ++ [x])
  pop : ∀ (q : Queue I D) (cs : List I) (q' : Queue I D), Q q cs → q'.contents = q.contents → q'.capacity = q.capacity →
    q'.auto = q.auto → q'.searchL = q.searchL → Q q' cs

theorem insertAll_spec (pad : D) (G : Graph I D) {Q : Queue I D → List I → Prop}
    (hQ : Stable pad G Q) (ids : List I) (q : Queue I D) (cs : List I) (E : List I)
    (h : Inv q) (hq : Q q cs) (hn : (q.entries.map (·.id)).Nodup)
    (hids : ids.Nodup) (hdis : ∀ x ∈ ids, x ∉ q.entries.map (·.id)) (hE : ∀ x ∈ ids, x ∉ E)
    (hd : ∀ e ∈ q.entries, G.dist e.id = some e.dist)
    (hf : ∀ e ∈ q.entries, (e.visited = true ↔ e.id ∈ E)) :
    ∃ q', insertAll pad G q ids = some q' ∧ Inv q' ∧ Q q' (cs ++ ids) ∧
      q'.auto = q.auto ∧ q'.searchL = q.searchL ∧
      (q'.entries.map (·.id)).Nodup ∧ (∀ e ∈ q'.entries, G.dist e.id = some e.dist) ∧
      (∀ e ∈ q'.entries, (e.visited = true ↔ e.id ∈ E)) ∧
      (∀ e ∈ q'.entries, e.id ∈ ids ∨ e.id ∈ q.entries.map (·.id)) := by
  induction ids generalizing q cs with
  | nil =>
    exact ⟨q, rfl, h, by simpa using hq, rfl, rfl, hn, hd, hf,
      fun e he => Or.inr (List.mem_map.mpr ⟨e, he, rfl⟩)⟩
  | cons x ids ih =>
    obtain ⟨q1, h1, -⟩ := insert_inv pad q h x (G.dist x)
    obtain ⟨a1, a2, a3, a4, a5⟩ := insert_entries pad q q1 h x (G.dist x) h1
    rw [List.nodup_cons] at hids
    have hx : x ∉ q.entries.map (·.id) := hdis x (by simp)
    obtain ⟨q', b1, b2, b3, b4, b5, b6, b7, b8, b9⟩ := ih q1 (cs ++ [x]) a1
      (hQ.ins q cs x q1 h hq h1) (a5 hn hx) hids.2
      (by
        intro y hy hm
        obtain ⟨e, he, rfl⟩ := List.mem_map.mp hm
        rcases a4 e he with h | ⟨h, -⟩
        · exact hdis e.id (List.mem_cons_of_mem _ hy) (List.mem_map.mpr ⟨e, h, rfl⟩)
        · rw [h] at hy; exact hids.1 hy)
      (fun y hy => hE y (List.mem_cons_of_mem _ hy))
      (by
        intro e he
        rcases a4 e he with h | ⟨h, h', -⟩
        · exact hd e h
        · rw [h, h'])
      (by
        intro e he
        rcases a4 e he with h | ⟨h, -, h'⟩
        · exact hf e h
        · rw [h, h']
          have := hE x (by simp)
          simp [this])
    refine ⟨q', ?_, b2, by simpa using b3, b4.trans a2, b5.trans a3, b6, b7, b8, ?_⟩
    · unfold insertAll at b1 ⊢
      rw [List.foldlM_cons, h1]
      exact b1
    · intro e he
      rcases b9 e he with h | h
      · left; exact List.mem_cons_of_mem _ h
      · obtain ⟨e', he', h'⟩ := List.mem_map.mp h
        rcases a4 e' he' with h2 | ⟨h2, -⟩
        · right; rw [← h']; exact List.mem_map.mpr ⟨e', h2, rfl⟩
        · left; rw [← h', h2]; simp

/-! ### The search invariant -/

/-- State invariant of a search; `R` is the reachability predicate. -/
structure Core (G : Graph I D) (R : I → Prop) (s : St I D) : Prop where
  nodup : s.visited.Nodup
  ids_nodup : (s.best.entries.map (·.id)).Nodup
  ids_visited : ∀ e ∈ s.best.entries, e.id ∈ s.visited
  ids_dist : ∀ e ∈ s.best.entries, G.dist e.id = some e.dist
  flag : ∀ e ∈ s.best.entries, (e.visited = true ↔ e.id ∈ s.expanded)
  exp_visited : ∀ x ∈ s.expanded, x ∈ s.visited
  exp_closed : ∀ x ∈ s.expanded, ∀ y ∈ G.adj x, y ∈ s.visited
  reach : ∀ x ∈ s.visited, R x

/-- `s'` continues `s`: `new` distances computed, `nodes` expanded. -/
structure Ext (s s' : St I D) (new nodes : List I) : Prop where
  visited : s'.visited = s.visited ++ new
  computed : s'.computed = s.computed ++ new
  cmps : s'.cmps = s.cmps + new.length
  expanded : s'.expanded = s.expanded ++ nodes
  hops : s'.hops = s.hops + nodes.length

theorem Ext.refl (s : St I D) : Ext s s [] [] := ⟨by simp, by simp, by simp, by simp, by simp⟩

theorem Ext.trans {s s' s'' : St I D} {a b a' b' : List I} (h : Ext s s' a b) (h' : Ext s' s'' a' b') :
    Ext s s'' (a ++ a') (b ++ b') :=
  ⟨by rw [h'.visited, h.visited, List.append_assoc], by rw [h'.computed, h.computed, List.append_assoc],
   by rw [h'.cmps, h.cmps, List.length_append]; omega, by rw [h'.expanded, h.expanded, List.append_assoc],
   by rw [h'.hops, h.hops, List.length_append]; omega⟩

theorem iterate_spec (pad : D) (G : Graph I D) {Q : Queue I D → List I → Prop} (hQ : Stable pad G Q)
    {R : I → Prop} (hR : ∀ x y, R x → G.dist x ≠ none → y ∈ G.adj x → R y)
    (beam : Nat) (hb : 1 ≤ beam) (s : St I D) (hc : Core G R s) (hw : WInv s.best)
    (hq : Q s.best s.computed) (hnv : s.best.hasNotVisited = true) :
    ∃ s' new nodes, iterate pad G beam s = some s' ∧ Ext s s' new nodes ∧ nodes ≠ [] ∧
      Core G R s' ∧ Inv s'.best ∧ Q s'.best s'.computed ∧
      s'.best.auto = s.best.auto ∧ s'.best.searchL = s.best.searchL ∧
      (∀ x ∈ nodes, R x) ∧
      (Inv s.best → nodes.Nodup ∧ ∀ x ∈ nodes, x ∉ s.expanded) := by
  obtain ⟨nodes, q, a1, a2, a3, a4, a5, a6, a7, a8, a9, a10⟩ :=
    fillBeam_spec beam s.best s.expanded hw hc.ids_nodup hc.flag
  obtain ⟨c1, c2⟩ := a9 hb hnv
  obtain ⟨f1, f2, f3, f4⟩ := forward_spec s.visited (nodes.flatMap G.adj) hc.nodup
  have hids := ids_eq_of_contents a3
  have hnodes : ∀ x ∈ nodes, x ∈ s.visited ∧ G.dist x ≠ none := by
    intro x hx
    obtain ⟨e, he, rfl⟩ := a8 x hx
    exact ⟨hc.ids_visited e he, by rw [hc.ids_dist e he]; simp⟩
  set new := (forward s.visited (nodes.flatMap G.adj)).2 with hnew
  rw [List.nodup_append] at f2
  obtain ⟨q', b1, b2, b3, b4, b5, b6, b7, b8, b9⟩ := insertAll_spec pad G hQ new q s.computed
    (s.expanded ++ nodes) c2 (hQ.pop _ _ _ hq a3 a4 a5 a6) (by rw [hids]; exact hc.ids_nodup) f2.2.1
    (by
      intro x hx hm
      rw [hids] at hm
      obtain ⟨e, he, rfl⟩ := List.mem_map.mp hm
      exact f2.2.2 _ (hc.ids_visited e he) _ hx rfl)
    (by
      intro x hx hm
      rw [List.mem_append] at hm
      rcases hm with hm | hm
      · exact f2.2.2 _ (hc.exp_visited x hm) _ hx rfl
      · exact f2.2.2 _ (hnodes x hm).1 _ hx rfl)
    (by
      intro e he
      obtain ⟨e', he', h1, h2⟩ := mem_of_contents a3 e he
      rw [← h1, ← h2]; exact hc.ids_dist e' he')
    a7
  refine ⟨{ best := q', visited := (forward s.visited (nodes.flatMap G.adj)).1,
            cmps := s.cmps + new.length, hops := s.hops + nodes.length,
            computed := s.computed ++ new, expanded := s.expanded ++ nodes },
    new, nodes, ?_, ⟨?_, rfl, rfl, rfl, rfl⟩, c1, ?_, b2, b3, b4.trans a5, b5.trans a6, ?_, ?_⟩
  · unfold iterate expandBeam
    rw [a1]
    simp only [← hnew, b1]
  · exact f1
  · constructor <;> simp only
    · rw [f1, List.nodup_append]; exact f2
    · exact b6
    · intro e he
      rw [f1, List.mem_append]
      rcases b9 e he with h | h
      · exact Or.inr h
      · left
        rw [hids] at h
        obtain ⟨e', he', h'⟩ := List.mem_map.mp h
        rw [← h']; exact hc.ids_visited e' he'
    · exact b7
    · exact b8
    · intro x hx
      rw [f1, List.mem_append]
      left
      rcases List.mem_append.mp hx with h | h
      · exact hc.exp_visited x h
      · exact (hnodes x h).1
    · intro x hx y hy
      rcases List.mem_append.mp hx with h | h
      · rw [f1]; exact List.mem_append_left _ (hc.exp_closed x h y hy)
      · exact f3 y (List.mem_flatMap.mpr ⟨x, h, hy⟩)
    · intro x hx
      rw [f1, List.mem_append] at hx
      rcases hx with h | h
      · exact hc.reach x h
      · obtain ⟨y, hy, hxy⟩ := List.mem_flatMap.mp (f4 x h)
        exact hR y x (hc.reach y (hnodes y hy).1) (hnodes y hy).2 hxy
  · intro x hx; exact hc.reach x (hnodes x hx).1
  · intro hi; exact (a10 hi).2

theorem filter_notMem_lt (V E nodes : List I) (x : I) (hxV : x ∈ V) (hxE : x ∉ E) (hxn : x ∈ nodes) :
    (V.filter fun v => decide (v ∉ E ++ nodes)).length < (V.filter fun v => decide (v ∉ E)).length := by
  have hle : ∀ V : List I, (V.filter fun v => decide (v ∉ E ++ nodes)).length
      ≤ (V.filter fun v => decide (v ∉ E)).length := by
    intro V
    apply List.Sublist.length_le
    apply List.monotone_filter_right
    intro a ha
    simp only [decide_eq_true_eq, List.mem_append, not_or] at ha ⊢
    exact ha.1
  induction V with
  | nil => simp at hxV
  | cons v V ih =>
    by_cases hvx : x = v
    · subst hvx
      have h1 : (decide (x ∉ E ++ nodes)) = false := by simp [hxn]
      have h2 : (decide (x ∉ E)) = true := by simp [hxE]
      rw [List.filter_cons, List.filter_cons, h1, h2]
      have := hle V
      simp only [Bool.false_eq_true, if_false, if_true, List.length_cons]
      omega
    · have hxV' : x ∈ V := by
        rcases List.mem_cons.mp hxV with h | h
        · exact absurd h hvx
        · exact h
      have := ih hxV'
      rw [List.filter_cons, List.filter_cons]
      by_cases h2 : v ∈ E
      · have h1 : v ∈ E ++ nodes := List.mem_append_left _ h2
        simp only [h1, h2, not_true, decide_false, Bool.false_eq_true, if_false]
        exact this
      · by_cases h1 : v ∈ E ++ nodes
        · simp only [h1, h2, not_true, not_false_eq_true, decide_false, decide_true, Bool.false_eq_true,
            if_false, if_true, List.length_cons]
          omega
        · simp only [h1, h2, not_false_eq_true, decide_true, if_true, List.length_cons]
          omega

/-- The loop terminates and preserves the invariant. -/
theorem searchLoop_spec (pad : D) (G : Graph I D) {Q : Queue I D → List I → Prop} (hQ : Stable pad G Q)
    {R : I → Prop} (hR : ∀ x y, R x → G.dist x ≠ none → y ∈ G.adj x → R y)
    (V : List I) (hV : ∀ x, R x → x ∈ V) (beam : Nat) (hb : 1 ≤ beam) (stop : Nat → Bool)
    (fuel n : Nat) (s : St I D) (hc : Core G R s) (hi : Inv s.best) (hq : Q s.best s.computed)
    (hfuel : (V.filter fun v => decide (v ∉ s.expanded)).length < fuel) :
    ∃ s' new nodes, searchLoop pad G beam stop fuel n s = some s' ∧ Ext s s' new nodes ∧
      Core G R s' ∧ Inv s'.best ∧ Q s'.best s'.computed ∧
      s'.best.auto = s.best.auto ∧ s'.best.searchL = s.best.searchL ∧
      (nodes.Nodup ∧ ∀ x ∈ nodes, x ∉ s.expanded) ∧
      (s'.best.hasNotVisited = false ∨ ∃ m, stop m = true) := by
  induction fuel generalizing n s with
  | zero => omega
  | succ fuel ih =>
    unfold searchLoop
    by_cases hcond : (s.best.hasNotVisited && !stop n) = true
    · rw [if_pos hcond]
      simp only [Bool.and_eq_true, Bool.not_eq_true'] at hcond
      obtain ⟨s1, new, nodes, a1, a2, a3, a4, a5, a6, a7, a8, a9, a10⟩ :=
        iterate_spec pad G hQ hR beam hb s hc hi.toW hq hcond.1
      obtain ⟨d1, d2⟩ := a10 hi
      rw [a1]
      simp only
      have hlt : (V.filter fun v => decide (v ∉ s1.expanded)).length
          < (V.filter fun v => decide (v ∉ s.expanded)).length := by
        obtain ⟨x, hx⟩ := List.exists_mem_of_ne_nil _ a3
        rw [a2.expanded]
        exact filter_notMem_lt V s.expanded nodes x (hV x (a9 x hx)) (d2 x hx) hx
      obtain ⟨s', new', nodes', b1, b2, b3, b4, b5, b6, b7, b8, b9⟩ :=
        ih (n + 1) s1 a4 a5 a6 (by omega)
      refine ⟨s', new ++ new', nodes ++ nodes', b1, a2.trans b2, b3, b4, b5, b6.trans a7, b7.trans a8, ?_, b9⟩
      refine ⟨?_, ?_⟩
      · rw [List.nodup_append]
        refine ⟨d1, b8.1, ?_⟩
        intro x hx y hy hxy
        subst hxy
        exact b8.2 x hy (by rw [a2.expanded]; exact List.mem_append_right _ hx)
      · intro x hx hE
        rcases List.mem_append.mp hx with h | h
        · exact d2 x h hE
        · exact b8.2 x h (by rw [a2.expanded]; exact List.mem_append_left _ hE)
    · rw [if_neg hcond]
      refine ⟨s, [], [], rfl, Ext.refl s, hc, hi, hq, rfl, rfl, by simp, ?_⟩
      by_cases h : s.best.hasNotVisited = true
      · right
        refine ⟨n, ?_⟩
        simpa [h] using hcond
      · left; simpa using h

/-- The same from a state where the cursor may stand on an already expanded entry (after
`drain_best`). -/
theorem searchLoop_spec_weak (pad : D) (G : Graph I D) {Q : Queue I D → List I → Prop} (hQ : Stable pad G Q)
    {R : I → Prop} (hR : ∀ x y, R x → G.dist x ≠ none → y ∈ G.adj x → R y)
    (V : List I) (hV : ∀ x, R x → x ∈ V) (beam : Nat) (hb : 1 ≤ beam) (stop : Nat → Bool)
    (fuel n : Nat) (s : St I D) (hc : Core G R s) (hi : WInv s.best) (hq : Q s.best s.computed)
    (hfuel : V.length + 1 < fuel) :
    ∃ s' new nodes, searchLoop pad G beam stop fuel n s = some s' ∧ Ext s s' new nodes ∧
      Core G R s' ∧ WInv s'.best ∧ Q s'.best s'.computed ∧
      s'.best.auto = s.best.auto ∧ s'.best.searchL = s.best.searchL ∧
      (s'.best.hasNotVisited = false ∨ ∃ m, stop m = true) := by
  obtain ⟨fuel, rfl⟩ : ∃ f, fuel = f + 1 := ⟨fuel - 1, by omega⟩
  unfold searchLoop
  by_cases hcond : (s.best.hasNotVisited && !stop n) = true
  · rw [if_pos hcond]
    simp only [Bool.and_eq_true, Bool.not_eq_true'] at hcond
    obtain ⟨s1, new, nodes, a1, a2, a3, a4, a5, a6, a7, a8, a9, a10⟩ :=
      iterate_spec pad G hQ hR beam hb s hc hi hq hcond.1
    rw [a1]
    simp only
    obtain ⟨s', new', nodes', b1, b2, b3, b4, b5, b6, b7, b8, b9⟩ :=
      searchLoop_spec pad G hQ hR V hV beam hb stop fuel (n + 1) s1 a4 a5 a6
        (by have := List.length_filter_le (fun v => decide (v ∉ s1.expanded)) V; omega)
    exact ⟨s', new ++ new', nodes ++ nodes', b1, a2.trans b2, b3, b4.toW, b5, b6.trans a7, b7.trans a8, b9⟩
  · rw [if_neg hcond]
    refine ⟨s, [], [], rfl, Ext.refl s, hc, hi, hq, rfl, rfl, ?_⟩
    by_cases h : s.best.hasNotVisited = true
    · right
      refine ⟨n, ?_⟩
      simpa [h] using hcond
    · left; simpa using h

/-- The start phase. -/
theorem starts_spec (pad : D) (G : Graph I D) {Q : Queue I D → List I → Prop} (hQ : Stable pad G Q)
    {R : I → Prop} (starts : List I) (s : St I D) (hn : starts.Nodup)
    (hdis : ∀ x ∈ starts, x ∉ s.visited) (hR : ∀ x ∈ starts, R x)
    (hc : Core G R s) (hi : Inv s.best) (hq : Q s.best s.computed) :
    ∃ s', starts.foldlM (addStart pad G) s = some s' ∧ Ext s s' starts [] ∧ Core G R s' ∧ Inv s'.best ∧
      Q s'.best s'.computed ∧ s'.best.auto = s.best.auto ∧ s'.best.searchL = s.best.searchL := by
  induction starts generalizing s with
  | nil => exact ⟨s, rfl, Ext.refl s, hc, hi, hq, rfl, rfl⟩
  | cons x starts ih =>
    rw [List.nodup_cons] at hn
    obtain ⟨q, h1, -⟩ := insert_inv pad s.best hi x (G.dist x)
    obtain ⟨a1, a2, a3, a4, a5⟩ := insert_entries pad s.best q hi x (G.dist x) h1
    have hx : x ∉ s.visited := hdis x (by simp)
    have hxe : x ∉ s.best.entries.map (·.id) := by
      intro hm
      obtain ⟨e, he, rfl⟩ := List.mem_map.mp hm
      exact hx (hc.ids_visited e he)
    have hst : addStart pad G s x = some { s with best := q, visited := s.visited ++ [x], cmps := s.cmps + 1, computed := s.computed ++ [x] } := by
      unfold addStart
      rw [h1]; simp only [if_neg hx]
    have hcore : Core G R { s with best := q, visited := s.visited ++ [x], cmps := s.cmps + 1, computed := s.computed ++ [x] } := by
      constructor <;> simp only
      · rw [List.nodup_append]
        refine ⟨hc.nodup, by simp, ?_⟩
        intro a ha b hb hab
        simp only [List.mem_singleton] at hb
        subst hab; subst hb; exact hx ha
      · exact a5 hc.ids_nodup hxe
      · intro e he
        rcases a4 e he with h | ⟨h, -⟩
        · exact List.mem_append_left _ (hc.ids_visited e h)
        · rw [h]; simp
      · intro e he
        rcases a4 e he with h | ⟨h, h', -⟩
        · exact hc.ids_dist e h
        · rw [h, h']
      · intro e he
        rcases a4 e he with h | ⟨h, -, h'⟩
        · exact hc.flag e h
        · rw [h, h']
          have : x ∉ s.expanded := fun hm => hx (hc.exp_visited x hm)
          simp [this]
      · intro y hy; exact List.mem_append_left _ (hc.exp_visited y hy)
      · intro y hy z hz; exact List.mem_append_left _ (hc.exp_closed y hy z hz)
      · intro y hy
        rcases List.mem_append.mp hy with h | h
        · exact hc.reach y h
        · simp only [List.mem_singleton] at h; subst h; exact hR y (by simp)
    obtain ⟨s', b1, b2, b3, b4, b5, b6, b7⟩ := ih _ hn.2 (by
        intro y hy hm
        rcases List.mem_append.mp hm with h | h
        · exact hdis y (List.mem_cons_of_mem _ hy) h
        · simp only [List.mem_singleton] at h; subst h; exact hn.1 hy)
      (fun y hy => hR y (List.mem_cons_of_mem _ hy)) hcore a1 (hQ.ins _ _ _ _ hi hq h1)
    refine ⟨s', ?_, ?_, b3, b4, b5, b6.trans a2, b7.trans a3⟩
    · rw [List.foldlM_cons, hst]; exact b1
    · have : Ext s { s with best := q, visited := s.visited ++ [x], cmps := s.cmps + 1, computed := s.computed ++ [x] } [x] [] :=
        ⟨rfl, rfl, rfl, by simp, by simp⟩
      exact this.trans b2

/-! ### The two queue policies -/

/-- Fixed list of length `L` over the fed ids. -/
def FixedQ (G : Graph I D) (L : Nat) (q : Queue I D) (cs : List I) : Prop :=
  q.auto = false ∧ q.capacity = L ∧ q.searchL = L ∧
    q.contents = bestOf L (cs.map fun i => (i, G.dist i))

theorem fixedQ_stable (pad : D) (G : Graph I D) (L : Nat) : Stable pad G (FixedQ G L) := by
  constructor
  · rintro q cs x q' hi ⟨h1, h2, h3, h4⟩ hins
    rw [FixedQ, List.map_append]
    simp only [List.map_cons, List.map_nil]
    cases hd : G.dist x with
    | none =>
      rw [hd] at hins
      simp only [Queue.insert, Option.some.injEq] at hins
      subst hins
      refine ⟨h1, h2, h3, ?_⟩
      rw [h4]; simp only [bestOf, comparable_append_none]
    | some d =>
      rw [hd] at hins
      obtain ⟨q3, a1, a2, a3, a4, a5, -⟩ := insert_core pad q x d hi.cap hi.size_le hi.sorted
      rw [hins] at a1; cases a1
      have hg : grown q = L := by simp [grown, h1, h2]
      refine ⟨by rw [a4, h1], by rw [a3, hg], by rw [a5, h3], ?_⟩
      unfold Queue.contents at h4 ⊢
      rw [a2, List.map_take, contents_orderedInsert, h4, hg]
      simp only [bestOf, comparable_append_some, List.reverse_append, List.reverse_cons,
        List.reverse_nil, List.nil_append, List.cons_append, List.insertionSort_cons]
      rw [take_orderedInsert']
  · rintro q cs q' ⟨h1, h2, h3, h4⟩ hc hcap hauto hL
    exact ⟨by rw [hauto, h1], by rw [hcap, h2], by rw [hL, h3], by rw [hc, h4]⟩

/-- Growable list: everything fed and comparable is stored or was drained. -/
def AutoQ (G : Graph I D) (L : Nat) (drained : List (I × D)) (q : Queue I D) (cs : List I) : Prop :=
  q.auto = true ∧ q.searchL = L ∧
    (drained ++ q.contents).Perm (comparable (cs.map fun i => (i, G.dist i)))

theorem autoQ_stable (pad : D) (G : Graph I D) (L : Nat) (drained : List (I × D)) :
    Stable pad G (AutoQ G L drained) := by
  constructor
  · rintro q cs x q' hi ⟨h1, h2, h4⟩ hins
    rw [AutoQ, List.map_append]
    simp only [List.map_cons, List.map_nil]
    cases hd : G.dist x with
    | none =>
      rw [hd] at hins
      simp only [Queue.insert, Option.some.injEq] at hins
      subst hins
      exact ⟨h1, h2, by rw [comparable_append_none]; exact h4⟩
    | some d =>
      rw [hd] at hins
      obtain ⟨q3, a1, a2, a3, a4, a5, -⟩ := insert_core pad q x d hi.cap hi.size_le hi.sorted
      rw [hins] at a1; cases a1
      refine ⟨by rw [a4, h1], by rw [a5, h2], ?_⟩
      have hg : q.size < grown q := by
        have := hi.size_le
        unfold grown
        split
        · omega
        · rename_i hx; simp [h1] at hx; omega
      rw [comparable_append_some]
      unfold Queue.contents at h4 ⊢
      rw [a2, List.take_of_length_le (by rw [List.orderedInsert_length]; exact hg), contents_orderedInsert]
      have hp := List.perm_orderedInsert (fun a b : I × D => a.2 ≤ b.2) (x, d) (q.entries.map fun e => (e.id, e.dist))
      refine (hp.append_left drained).trans ?_
      refine List.perm_middle.trans ?_
      refine (h4.cons (x, d)).trans ?_
      exact (List.perm_append_singleton _ _).symm
  · rintro q cs q' ⟨h1, h2, h4⟩ hc hcap hauto hL
    exact ⟨by rw [hauto, h1], by rw [hL, h2], by rw [hc]; exact h4⟩

end Verif.Search
