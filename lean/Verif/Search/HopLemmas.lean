import Verif.Search.FilterLemmas

/-! Lemmas about the multi-hop filtered search (C66). -/

namespace Verif.Search

open Verif.Queue

variable {I D : Type} [DecidableEq I] [LinearOrder D]

theorem forwardAccept_spec (ok : I → Bool) (visited js : List I) (h : visited.Nodup) :
    (forwardAccept ok visited js).1 = visited ++ (forwardAccept ok visited js).2 ∧
    (visited ++ (forwardAccept ok visited js).2).Nodup ∧
    (∀ j ∈ js, ok j = true → j ∈ (forwardAccept ok visited js).1) ∧
    (∀ j ∈ (forwardAccept ok visited js).2, j ∈ js ∧ ok j = true) := by
  induction js generalizing visited with
  | nil => simp [forwardAccept, h]
  | cons j js ih =>
    unfold forwardAccept
    by_cases hj : (ok j && decide (j ∉ visited)) = true
    · rw [if_pos hj]
      simp only [Bool.and_eq_true, decide_eq_true_eq] at hj
      have hn : (visited ++ [j]).Nodup := by
        rw [List.nodup_append]
        refine ⟨h, by simp, ?_⟩
        intro a ha b hb
        simp only [List.mem_singleton] at hb
        subst hb
        intro hab; subst hab; exact hj.2 ha
      obtain ⟨h1, h2, h3, h4⟩ := ih (visited ++ [j]) hn
      dsimp only
      refine ⟨by rw [h1]; simp, by simpa using h2, ?_, ?_⟩
      · intro x hx hox
        rcases List.mem_cons.mp hx with rfl | hx
        · rw [h1]; simp
        · exact h3 x hx hox
      · intro x hx
        rcases List.mem_cons.mp hx with rfl | hx
        · exact ⟨by simp, hj.1⟩
        · exact ⟨List.mem_cons_of_mem _ (h4 x hx).1, (h4 x hx).2⟩
    · rw [if_neg hj]
      obtain ⟨h1, h2, h3, h4⟩ := ih visited h
      refine ⟨h1, h2, ?_, fun x hx => ⟨List.mem_cons_of_mem _ (h4 x hx).1, (h4 x hx).2⟩⟩
      intro x hx hox
      rcases List.mem_cons.mp hx with rfl | hx
      · rw [h1]
        refine List.mem_append_left _ ?_
        simp only [hox, Bool.true_and, decide_eq_true_eq, Classical.not_not] at hj
        exact hj
      · exact h3 x hx hox

/-- `sort_unstable_by(fast_distance)` on ids; see `IsSort`. -/
structure IsOrder (G : Graph I D) (order : List I → Option (List I)) : Prop where
  perm : ∀ l l', order l = some l' → l'.Perm l
  sorted : ∀ l : List I, (∀ x ∈ l, G.dist x ≠ none) → ∃ l', order l = some l' ∧ l'.Pairwise (distLe G)

theorem entries_fed (G : Graph I D) (L : Nat) (q : Queue I D) (cs : List I) (h : FixedQ G L q cs)
    (e : Entry I D) (he : e ∈ q.entries) : e.id ∈ cs := by
  have hm : (e.id, e.dist) ∈ q.contents := List.mem_map.mpr ⟨e, he, rfl⟩
  rw [h.2.2.2] at hm
  obtain ⟨-, -, rej, m3, -⟩ := C01_bestOf_meaning L (cs.map fun i => (i, G.dist i))
  exact ((comparable_map G cs e.id e.dist).mp (m3.mem_iff.mp (List.mem_append_left _ hm))).1

theorem fillBeam_length (n : Nat) (q q' : Queue I D) (nodes : List I)
    (h : fillBeam q n = some (nodes, q')) : nodes.length ≤ n := by
  induction n generalizing q nodes q' with
  | zero => simp only [fillBeam, Option.some.injEq, Prod.mk.injEq] at h; rw [← h.1]; simp
  | succ n ih =>
    unfold fillBeam at h
    cases hp : q.pop with
    | none => rw [hp] at h; simp at h
    | some r =>
      obtain ⟨o, q1⟩ := r
      rw [hp] at h
      cases o with
      | none => simp only [Option.some.injEq, Prod.mk.injEq] at h; rw [← h.1]; simp
      | some x =>
        simp only at h
        cases hr : fillBeam q1 n with
        | none => rw [hr] at h; simp at h
        | some t =>
          rw [hr] at h
          simp only [Option.some.injEq, Prod.mk.injEq] at h
          rw [← h.1]
          have := ih q1 t.2 t.1 hr
          simp only [List.length_cons]; omega

/-- The invariant of the multi-hop search. `roomy` says that no rejected candidate is ever cut. -/
structure HopInv (G : Graph I D) (R : I → Prop) (L : Nat) (ok : I → Bool) (starts : List I)
    (roomy : Prop) (s : HopSt I D) : Prop where
  core : Core G R s.scratch
  inv : Inv s.scratch.best
  q : FixedQ G L s.scratch.best s.fed
  vis : s.scratch.visited = s.scratch.computed
  cmps : s.scratch.cmps + starts.length = s.scratch.computed.length
  fed_nodup : s.fed.Nodup
  fed_ok : ∀ x ∈ s.fed, x ∈ s.scratch.computed ∧ (ok x = true ∨ x ∈ starts)
  fed_all : ∀ x ∈ s.scratch.computed, ok x = true → x ∈ s.fed
  fed_starts : ∀ x ∈ starts, x ∈ s.fed
  rej : s.rejected = starts.filter fun i => !ok i
  exp : s.scratch.expanded.Nodup
  exp_fed : ∀ x ∈ s.scratch.expanded, x ∈ s.fed
  hop_nodup : s.hopped.Nodup
  hop : ∀ x ∈ s.hopped, x ∈ s.scratch.computed ∧ ok x = false ∧ x ∉ starts
  hops : s.scratch.hops = s.scratch.expanded.length + s.hopped.length
  hop_closed : ∀ z ∈ s.hopped, ∀ y ∈ G.adj z, ok y = true → y ∈ s.scratch.computed
  hop_all : roomy → ∀ z ∈ s.scratch.computed, ok z = false → z ∉ starts → z ∈ s.hopped

theorem flatMap_filter_length (G : Graph I D) (f : I → Bool) (K : Nat)
    (hK : ∀ x, ((G.adj x).filter f).length ≤ K) (nodes : List I) :
    ((nodes.flatMap G.adj).filter f).length ≤ nodes.length * K := by
  induction nodes with
  | nil => simp
  | cons x nodes ih =>
    rw [List.flatMap_cons, List.filter_append, List.length_append, List.length_cons, Nat.succ_mul]
    have := hK x
    omega

theorem hopRound_spec (pad : D) (G : Graph I D) {R : I → Prop} (ok : I → Bool) (starts : List I)
    (hR1 : ∀ x y, R x → (ok x = true ∨ x ∈ starts) → y ∈ G.adj x → R y)
    (hR2 : ∀ x y, R x → ok x = false → y ∈ G.adj x → ok y = true → R y) (L beam half : Nat)
    (hb : 1 ≤ beam) (roomy : Prop)
    (hroom : roomy → ∃ K, (∀ x, ((G.adj x).filter fun i => !ok i).length ≤ K) ∧ beam * K ≤ half)
    (order : List I → Option (List I)) (hord : IsOrder G order) (s : HopSt I D)
    (hs : HopInv G R L ok starts roomy s) (hnv : s.scratch.best.hasNotVisited = true) :
    (∃ l, (∀ x ∈ l, R x ∧ ok x = false) ∧ order l = none) ∨
    ∃ s' nodes, hopRound pad G ok beam half order s = some s' ∧ HopInv G R L ok starts roomy s' ∧
      s'.scratch.expanded = s.scratch.expanded ++ nodes ∧ nodes ≠ [] ∧
      (∀ x ∈ nodes, R x ∧ x ∉ s.scratch.expanded) := by
  have hc := hs.core
  obtain ⟨nodes, q, a1, a2, a3, a4, a5, a6, a7, a8, a9, a10⟩ :=
    fillBeam_spec beam s.scratch.best s.scratch.expanded hs.inv.toW hc.ids_nodup hc.flag
  obtain ⟨c1, c2⟩ := a9 hb hnv
  obtain ⟨-, d1, d2⟩ := a10 hs.inv
  obtain ⟨f1, f2, f3, f4⟩ := forward_spec s.scratch.visited (nodes.flatMap G.adj) hc.nodup
  have hids := ids_eq_of_contents a3
  have hnodes : ∀ x ∈ nodes, x ∈ s.scratch.visited ∧ x ∈ s.fed := by
    intro x hx
    obtain ⟨e, he, rfl⟩ := a8 x hx
    exact ⟨hc.ids_visited e he, entries_fed G L _ _ hs.q e he⟩
  set new := (forward s.scratch.visited (nodes.flatMap G.adj)).2 with hnew
  have f2' := List.nodup_append.mp f2
  have hnewR : ∀ x ∈ new, R x := by
    intro x hx
    obtain ⟨y, hy, hxy⟩ := List.mem_flatMap.mp (f4 x hx)
    exact hR1 y x (hc.reach y (hnodes y hy).1) (hs.fed_ok y (hnodes y hy).2).2 hxy
  have hnewv : ∀ x ∈ new, x ∉ s.scratch.visited := fun x hx hm => f2'.2.2 x hm x hx rfl
  have hQ := fixedQ_stable pad G L
  obtain ⟨q1, b1, b2, b3, b4, b5, b6, b7, b8, b9⟩ := insertAll_spec pad G hQ (new.filter ok) q s.fed
    (s.scratch.expanded ++ nodes) c2 (hQ.pop _ _ _ hs.q a3 a4 a5 a6) (by rw [hids]; exact hc.ids_nodup)
    (f2'.2.1.filter _)
    (by
      intro x hx hm
      rw [hids] at hm
      obtain ⟨e, he, rfl⟩ := List.mem_map.mp hm
      exact hnewv _ (List.mem_of_mem_filter hx) (hc.ids_visited e he))
    (by
      intro x hx hm
      rcases List.mem_append.mp hm with hm | hm
      · exact hnewv x (List.mem_of_mem_filter hx) (hc.exp_visited x hm)
      · exact hnewv x (List.mem_of_mem_filter hx) (hnodes x hm).1)
    (by
      intro e he
      obtain ⟨e', he', h1, h2⟩ := mem_of_contents a3 e he
      rw [← h1, ← h2]; exact hc.ids_dist e' he')
    a7
  cases ho : order (new.filter fun i => !ok i) with
  | none =>
    left
    refine ⟨_, ?_, ho⟩
    intro x hx
    rw [List.mem_filter] at hx
    exact ⟨hnewR x hx.1, by simpa using hx.2⟩
  | some cands =>
    right
    have hperm := hord.perm _ _ ho
    set cs := cands.take half with hcs
    have hcsm : ∀ x ∈ cs, x ∈ new ∧ ok x = false := by
      intro x hx
      have := hperm.mem_iff.mp (List.mem_of_mem_take hx)
      rw [List.mem_filter] at this
      exact ⟨this.1, by simpa using this.2⟩
    have hcsn : cs.Nodup :=
      ((hperm.nodup_iff).mpr (f2'.2.1.filter _)).sublist (List.take_sublist _ _)
    have hv1 : (forward s.scratch.visited (nodes.flatMap G.adj)).1.Nodup := by rw [f1]; exact f2
    obtain ⟨g1, g2, g3, g4⟩ := forwardAccept_spec ok (forward s.scratch.visited (nodes.flatMap G.adj)).1
      (cs.flatMap G.adj) hv1
    set new2 := (forwardAccept ok (forward s.scratch.visited (nodes.flatMap G.adj)).1 (cs.flatMap G.adj)).2
      with hnew2
    have g2' := List.nodup_append.mp g2
    have hn2v : ∀ x ∈ new2, x ∉ s.scratch.visited ∧ x ∉ new := by
      intro x hx
      have : x ∉ (forward s.scratch.visited (nodes.flatMap G.adj)).1 := fun hm => g2'.2.2 x hm x hx rfl
      rw [f1] at this
      exact ⟨fun h => this (List.mem_append_left _ h), fun h => this (List.mem_append_right _ h)⟩
    have hn2R : ∀ x ∈ new2, R x := by
      intro x hx
      obtain ⟨y, hy, hxy⟩ := List.mem_flatMap.mp (g4 x hx).1
      exact hR2 y x (hnewR y (hcsm y hy).1) (hcsm y hy).2 hxy (g4 x hx).2
    have hq1v : ∀ e ∈ q1.entries, e.id ∈ s.scratch.visited ++ new := by
      intro e he
      rcases b9 e he with h | h
      · exact List.mem_append_right _ (List.mem_of_mem_filter h)
      · rw [hids] at h
        obtain ⟨e', he', h'⟩ := List.mem_map.mp h
        rw [← h']; exact List.mem_append_left _ (hc.ids_visited e' he')
    obtain ⟨q2, e1, e2, e3, e4, e5, e6, e7, e8, e9⟩ := insertAll_spec pad G hQ new2 q1 (s.fed ++ new.filter ok)
      (s.scratch.expanded ++ nodes) b2 b3 b6 g2'.2.1
      (by
        intro x hx hm
        obtain ⟨e, he, rfl⟩ := List.mem_map.mp hm
        rcases List.mem_append.mp (hq1v e he) with h | h
        · exact (hn2v _ hx).1 h
        · exact (hn2v _ hx).2 h)
      (by
        intro x hx hm
        rcases List.mem_append.mp hm with hm | hm
        · exact (hn2v x hx).1 (hc.exp_visited x hm)
        · exact (hn2v x hx).1 (hnodes x hm).1)
      b7 b8
    have hvis2 : (forwardAccept ok (forward s.scratch.visited (nodes.flatMap G.adj)).1
        (cs.flatMap G.adj)).1 = s.scratch.visited ++ new ++ new2 := by rw [g1, f1]
    refine ⟨{ scratch := { best := q2, visited := s.scratch.visited ++ new ++ new2,
                           cmps := s.scratch.cmps + new.length + new2.length,
                           hops := s.scratch.hops + nodes.length + cs.length,
                           computed := s.scratch.computed ++ new ++ new2,
                           expanded := s.scratch.expanded ++ nodes }
              rejected := s.rejected
              fed := s.fed ++ new.filter ok ++ new2
              hopped := s.hopped ++ cs }, nodes, ?_, ?_, rfl, c1, ?_⟩
    · unfold hopRound expandBeam
      rw [a1]
      simp only [← hnew, b1, ho, ← hcs, ← hnew2, e1, hvis2]
    · constructor <;> simp only
      · constructor <;> simp only
        · rw [f1] at g2; exact g2
        · exact e6
        · intro e he
          rcases e9 e he with h | h
          · exact List.mem_append_right _ h
          · obtain ⟨e', he', h'⟩ := List.mem_map.mp h
            rw [← h']; exact List.mem_append_left _ (hq1v e' he')
        · exact e7
        · exact e8
        · intro x hx
          rw [List.append_assoc]
          refine List.mem_append_left _ ?_
          rcases List.mem_append.mp hx with h | h
          · exact hc.exp_visited x h
          · exact (hnodes x h).1
        · intro x hx y hy
          refine List.mem_append_left _ ?_
          rcases List.mem_append.mp hx with h | h
          · exact List.mem_append_left _ (hc.exp_closed x h y hy)
          · rw [← f1]; exact f3 y (List.mem_flatMap.mpr ⟨x, h, hy⟩)
        · intro x hx
          rcases List.mem_append.mp hx with hx | hx
          · rcases List.mem_append.mp hx with hx | hx
            · exact hc.reach x hx
            · exact hnewR x hx
          · exact hn2R x hx
      · exact e2
      · exact e3
      · rw [hs.vis]
      · rw [List.length_append, List.length_append, ← hs.cmps]; omega
      · rw [List.nodup_append, List.nodup_append]
        refine ⟨⟨hs.fed_nodup, f2'.2.1.filter _, ?_⟩, g2'.2.1, ?_⟩
        · intro a ha b hb hab
          subst hab
          exact hnewv a (List.mem_of_mem_filter hb) (by rw [hs.vis]; exact (hs.fed_ok a ha).1)
        · intro a ha b hb hab
          subst hab
          rcases List.mem_append.mp ha with h | h
          · exact (hn2v a hb).1 (by rw [hs.vis]; exact (hs.fed_ok a h).1)
          · exact (hn2v a hb).2 (List.mem_of_mem_filter h)
      · intro x hx
        rcases List.mem_append.mp hx with hx | hx
        · rcases List.mem_append.mp hx with hx | hx
          · obtain ⟨k1, k2⟩ := hs.fed_ok x hx
            exact ⟨List.mem_append_left _ (List.mem_append_left _ k1), k2⟩
          · rw [List.mem_filter] at hx
            exact ⟨List.mem_append_left _ (List.mem_append_right _ hx.1), Or.inl hx.2⟩
        · exact ⟨List.mem_append_right _ hx, Or.inl (g4 x hx).2⟩
      · intro x hx hox
        rcases List.mem_append.mp hx with hx | hx
        · rcases List.mem_append.mp hx with hx | hx
          · exact List.mem_append_left _ (List.mem_append_left _ (hs.fed_all x hx hox))
          · exact List.mem_append_left _ (List.mem_append_right _ (List.mem_filter.mpr ⟨hx, hox⟩))
        · exact List.mem_append_right _ hx
      · intro x hx
        exact List.mem_append_left _ (List.mem_append_left _ (hs.fed_starts x hx))
      · exact hs.rej
      · rw [List.nodup_append]
        refine ⟨hs.exp, d1, ?_⟩
        intro a ha b hb hab
        subst hab
        exact d2 a hb ha
      · intro x hx
        refine List.mem_append_left _ (List.mem_append_left _ ?_)
        rcases List.mem_append.mp hx with h | h
        · exact hs.exp_fed x h
        · exact (hnodes x h).2
      · rw [List.nodup_append]
        refine ⟨hs.hop_nodup, hcsn, ?_⟩
        intro a ha b hb hab
        subst hab
        exact hnewv a (hcsm a hb).1 (by rw [hs.vis]; exact (hs.hop a ha).1)
      · intro x hx
        rcases List.mem_append.mp hx with hx | hx
        · obtain ⟨k1, k2⟩ := hs.hop x hx
          exact ⟨List.mem_append_left _ (List.mem_append_left _ k1), k2⟩
        · obtain ⟨k1, k2⟩ := hcsm x hx
          refine ⟨List.mem_append_left _ (List.mem_append_right _ k1), k2, fun hst => ?_⟩
          exact hnewv x k1 (by rw [hs.vis]; exact (hs.fed_ok x (hs.fed_starts x hst)).1)
      · rw [List.length_append, List.length_append, hs.hops]; omega
      · intro z hz y hy hoy
        rcases List.mem_append.mp hz with hz | hz
        · exact List.mem_append_left _ (List.mem_append_left _ (hs.hop_closed z hz y hy hoy))
        · have := g3 y (List.mem_flatMap.mpr ⟨z, hz, hy⟩) hoy
          rw [hvis2, hs.vis] at this
          exact this
      · intro hr z hz hoz hzs
        rcases List.mem_append.mp hz with hz | hz
        · rcases List.mem_append.mp hz with hz | hz
          · exact List.mem_append_left _ (hs.hop_all hr z hz hoz hzs)
          · refine List.mem_append_right _ ?_
            obtain ⟨K, k1, k2⟩ := hroom hr
            have hlen : cands.length ≤ half := by
              rw [hperm.length_eq]
              have hsub : (new.filter fun i => !ok i).Sublist ((nodes.flatMap G.adj).filter fun i => !ok i) ∨
                  (new.filter fun i => !ok i).length ≤ ((nodes.flatMap G.adj).filter fun i => !ok i).length := by
                right
                refine (List.subperm_of_subset (f2'.2.1.filter _) ?_).length_le
                intro x hx
                rw [List.mem_filter] at hx ⊢
                exact ⟨f4 x hx.1, hx.2⟩
              have h1 : (new.filter fun i => !ok i).length ≤
                  ((nodes.flatMap G.adj).filter fun i => !ok i).length := by
                rcases hsub with h | h
                · exact h.length_le
                · exact h
              have h2 := flatMap_filter_length G (fun i => !ok i) K k1 nodes
              have h3 := fillBeam_length _ _ _ _ a1
              have h4 := Nat.mul_le_mul_right K h3
              omega
            rw [hcs, List.take_of_length_le hlen]
            exact hperm.mem_iff.mpr (List.mem_filter.mpr ⟨hz, by simp [hoz]⟩)
        · have := (g4 z hz).2
          rw [hoz] at this; cases this
    · intro x hx
      exact ⟨hc.reach x (hnodes x hx).1, d2 x hx⟩

theorem hopLoop_spec (pad : D) (G : Graph I D) {R : I → Prop} (ok : I → Bool) (starts : List I)
    (hR1 : ∀ x y, R x → (ok x = true ∨ x ∈ starts) → y ∈ G.adj x → R y)
    (hR2 : ∀ x y, R x → ok x = false → y ∈ G.adj x → ok y = true → R y) (V : List I) (hV : ∀ x, R x → x ∈ V)
    (L beam half : Nat)
    (hb : 1 ≤ beam) (roomy : Prop)
    (hroom : roomy → ∃ K, (∀ x, ((G.adj x).filter fun i => !ok i).length ≤ K) ∧ beam * K ≤ half)
    (order : List I → Option (List I)) (hord : IsOrder G order) (stop : Nat → Bool)
    (fuel n : Nat) (s : HopSt I D) (hs : HopInv G R L ok starts roomy s)
    (hfuel : (V.filter fun v => decide (v ∉ s.scratch.expanded)).length < fuel) :
    (∃ l, (∀ x ∈ l, R x ∧ ok x = false) ∧ order l = none) ∨
    ∃ s', hopLoop pad G ok beam half order stop fuel n s = some s' ∧ HopInv G R L ok starts roomy s' ∧
      (s'.scratch.best.hasNotVisited = false ∨ ∃ m, stop m = true) := by
  induction fuel generalizing n s with
  | zero => omega
  | succ fuel ih =>
    unfold hopLoop
    by_cases hcond : (s.scratch.best.hasNotVisited && !stop n) = true
    · rw [if_pos hcond]
      simp only [Bool.and_eq_true, Bool.not_eq_true'] at hcond
      rcases hopRound_spec pad G ok starts hR1 hR2 L beam half hb roomy hroom order hord s hs hcond.1 with
        h | ⟨s1, nodes, a1, a2, a3, a4, a5⟩
      · exact Or.inl h
      · rw [a1]
        have hlt : (V.filter fun v => decide (v ∉ s1.scratch.expanded)).length
            < (V.filter fun v => decide (v ∉ s.scratch.expanded)).length := by
          obtain ⟨x, hx⟩ := List.exists_mem_of_ne_nil _ a4
          rw [a3]
          exact filter_notMem_lt V s.scratch.expanded nodes x (hV x (a5 x hx).1) (a5 x hx).2 hx
        exact ih (n + 1) s1 a2 (by omega)
    · rw [if_neg hcond]
      right
      refine ⟨s, rfl, hs, ?_⟩
      by_cases h : s.scratch.best.hasNotVisited = true
      · right
        refine ⟨n, ?_⟩
        simpa [h] using hcond
      · left; simpa using h

theorem hopStarts_spec (pad : D) (G : Graph I D) (ok : I → Bool) (starts : List I) (s : HopSt I D)
    (k : Nat) (t : St I D)
    (h : starts.foldlM (addStart pad G) { s.scratch with cmps := s.scratch.cmps + k } = some t) :
    ∃ s', starts.foldlM (hopStart pad G ok) s = some s' ∧
      t = { s'.scratch with cmps := s'.scratch.cmps + k + starts.length } ∧
      s'.scratch.cmps = s.scratch.cmps ∧
      s'.rejected = s.rejected ++ starts.filter (fun i => !ok i) ∧
      s'.fed = s.fed ++ starts ∧ s'.hopped = s.hopped := by
  induction starts generalizing s k with
  | nil =>
    simp only [List.foldlM_nil] at h
    cases h
    exact ⟨s, rfl, by simp, rfl, by simp, by simp, rfl⟩
  | cons x starts ih =>
    rw [List.foldlM_cons] at h
    unfold addStart at h
    dsimp only at h
    cases hq : s.scratch.best.insert pad x (G.dist x) with
    | none => rw [hq] at h; cases h
    | some q =>
      rw [hq] at h
      obtain ⟨s', h1, h2, h3, h4, h5, h6⟩ := ih
        { scratch := { s.scratch with
            best := q
            visited := if x ∈ s.scratch.visited then s.scratch.visited else s.scratch.visited ++ [x]
            computed := s.scratch.computed ++ [x] }
          rejected := if ok x then s.rejected else s.rejected ++ [x]
          fed := s.fed ++ [x]
          hopped := s.hopped } (k + 1) h
      refine ⟨s', ?_, ?_, h3, ?_, ?_, h6⟩
      · rw [List.foldlM_cons]
        unfold hopStart
        rw [hq]
        exact h1
      · rw [h2]
        have : s'.scratch.cmps + (k + 1) + starts.length = s'.scratch.cmps + k + (x :: starts).length := by
          simp only [List.length_cons]; omega
        rw [this]
      · rw [h4]
        by_cases hx : ok x = true <;> simp [hx]
      · rw [h5]; simp

/-- Everything known about the final state of a multi-hop search. -/
theorem hop_spec (pad : D) (G : Graph I D) {R : I → Prop} (ok : I → Bool) (starts : List I)
    (hR1 : ∀ x y, R x → (ok x = true ∨ x ∈ starts) → y ∈ G.adj x → R y)
    (hR2 : ∀ x y, R x → ok x = false → y ∈ G.adj x → ok y = true → R y) (V : List I) (hV : ∀ x, R x → x ∈ V)
    (hRs : ∀ x ∈ starts, R x) (hn : starts.Nodup) (l beam half : Nat)
    (hl : 1 ≤ l) (hb : 1 ≤ beam) (roomy : Prop)
    (hroom : roomy → ∃ K, (∀ x, ((G.adj x).filter fun i => !ok i).length ≤ K) ∧ beam * K ≤ half)
    (order : List I → Option (List I)) (hord : IsOrder G order) (stop : Nat → Bool)
    (fuel : Nat) (hf : V.length < fuel) :
    (∃ l, (∀ x ∈ l, R x ∧ ok x = false) ∧ order l = none) ∨
    ∃ s, hopTraverse pad G ok starts l beam half order stop fuel = some s ∧
      HopInv G R (l + starts.length) ok starts roomy s ∧
      (s.scratch.best.hasNotVisited = false ∨ ∃ m, stop m = true) := by
  have hq0 : FixedQ G (l + starts.length) (St.create l starts.length : St I D).best
      (St.create l starts.length : St I D).computed := by
    refine ⟨rfl, rfl, rfl, ?_⟩
    simp [St.create, Queue.new, Queue.contents, bestOf, comparable]
  obtain ⟨t, a1, a2, a3, a4, a5, -, -⟩ := starts_spec pad G (fixedQ_stable pad G (l + starts.length))
    (R := R) starts (St.create l starts.length) hn (by simp [St.create]) hRs (core_create G R _ _)
    (new_inv _ (by omega)) hq0
  obtain ⟨s0, b1, b2, b3, b4, b5, b6⟩ := hopStarts_spec pad G ok starts
    { scratch := St.create l starts.length, rejected := [], fed := [], hopped := [] } 0 t a1
  simp only [Nat.add_zero] at b2
  have e1 : s0.scratch.computed = starts := by
    have := a2.computed; rw [b2] at this; simpa [St.create] using this
  have e2 : s0.scratch.visited = starts := by
    have := a2.visited; rw [b2] at this; simpa [St.create] using this
  have e3 : s0.scratch.expanded = [] := by
    have := a2.expanded; rw [b2] at this; simpa [St.create] using this
  have e4 : s0.scratch.hops = 0 := by
    have := a2.hops; rw [b2] at this; simpa [St.create] using this
  have e5 : s0.scratch.cmps = 0 := by rw [b3]; rfl
  simp only [List.nil_append] at b4 b5
  have hinv : HopInv G R (l + starts.length) ok starts roomy s0 := by
    constructor
    · rw [b2] at a3; exact (Core.cmps_irrel _).mp a3
    · rw [b2] at a4; exact a4
    · rw [b2] at a5
      dsimp only at a5
      rw [e1] at a5; rw [b5]; exact a5
    · rw [e1, e2]
    · rw [e1, e5]; omega
    · rw [b5]; exact hn
    · rw [b5, e1]; exact fun x hx => ⟨hx, Or.inr hx⟩
    · rw [b5, e1]; exact fun x hx _ => hx
    · rw [b5]; exact fun x hx => hx
    · rw [b4]
    · rw [e3]; exact List.nodup_nil
    · rw [e3]; simp
    · rw [b6]; exact List.nodup_nil
    · rw [b6]; simp
    · rw [b6, e3, e4]; rfl
    · rw [b6]; simp
    · rw [e1]; intro _ z hz _ hzs; exact absurd hz hzs
  rcases hopLoop_spec pad G ok starts hR1 hR2 V hV (l + starts.length) beam half hb roomy hroom order hord stop fuel 0 s0
    hinv (Nat.lt_of_le_of_lt (List.length_filter_le _ _) hf) with h | ⟨s', c1, c2, c3⟩
  · exact Or.inl h
  · refine Or.inr ⟨s', ?_, c2, c3⟩
    unfold hopTraverse; rw [b1]; exact c1

end Verif.Search
