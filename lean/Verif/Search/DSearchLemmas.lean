import Verif.Search.DSearchSpec
import Verif.Search.Props
import Verif.Queue.DiverseProps
import Verif.Queue.RemoveProps

/-! # Lemmas for C104 -/

namespace Verif.Search

open Verif.Queue

variable {I A D : Type} [DecidableEq I] [DecidableEq A] [LinearOrder D]

/-! ## Insertions -/

theorem dinsert_global (pad : D) (l dl dk : Nat) (attr : I → Option A) (q q' : DQueue I A D)
    (h : DWeak l dl attr dk q) (id : I) (dist : Option D) (hi : q.insert pad id dist = some q') :
    q'.global = q.global ∨ ∃ (g : Queue (I × A) D) (a : A), attr id = some a ∧ BInv g ∧
      g.entries.Sublist q.global.entries ∧ g.insert pad (id, a) dist = some q'.global := by
  unfold DQueue.insert at hi
  rw [h.qattr] at hi
  cases hat : attr id with
  | none =>
    rw [hat] at hi
    obtain rfl := Option.some.inj hi
    exact Or.inl rfl
  | some a =>
    rw [hat] at hi
    simp only at hi
    generalize (if a ∈ q.keys then q.keys else a :: q.keys) = ks at hi
    cases hlf : (q.loc a).isFull with
    | false =>
      cases hgf : q.global.isFull with
      | false =>
        simp only [hlf, hgf, Bool.not_false, Bool.and_self, if_true, Option.bind_eq_bind, Option.bind_eq_some_iff,
          Option.some.injEq] at hi
        obtain ⟨lq, -, gq, h1, rfl⟩ := hi
        exact Or.inr ⟨q.global, a, rfl, h.ginv.toB, List.Sublist.refl _, h1⟩
      | true =>
        simp only [hlf, hgf, Bool.not_true, Bool.not_false, Bool.and_false, Bool.false_eq_true, if_false,
          Option.bind_eq_bind, Option.bind_eq_some_iff] at hi
        obtain ⟨i, -, w, -, hi⟩ := hi
        rcases dist with _ | d
        · obtain rfl := Option.some.inj hi
          exact Or.inl rfl
        by_cases hcd : d < w.2
        · simp only [hcd, decide_true, if_true, Option.bind_eq_some_iff] at hi
          obtain ⟨lq, -, gq, h1, hi⟩ := hi
          split at hi
          · obtain rfl := Option.some.inj hi
            exact Or.inr ⟨q.global, a, rfl, h.ginv.toB, List.Sublist.refl _, h1⟩
          · obtain rfl := Option.some.inj hi
            exact Or.inr ⟨q.global, a, rfl, h.ginv.toB, List.Sublist.refl _, h1⟩
        · simp only [hcd, decide_false, Bool.false_eq_true, if_false] at hi
          obtain rfl := Option.some.inj hi
          exact Or.inl rfl
    | true =>
      simp only [hlf, Bool.not_true, Bool.false_and, Bool.false_eq_true, if_false, if_true,
        Option.bind_eq_bind, Option.bind_eq_some_iff] at hi
      obtain ⟨i, -, w, -, hi⟩ := hi
      rcases dist with _ | d
      · obtain rfl := Option.some.inj hi
        exact Or.inl rfl
      by_cases hcd : d < w.2
      · simp only [hcd, decide_true, if_true, Option.bind_eq_some_iff] at hi
        obtain ⟨lq, -, gq, h1, hi⟩ := hi
        obtain rfl := Option.some.inj hi
        refine Or.inr ⟨(q.global.remove pad (w.1, a) w.2).2, a, rfl, (remove_bspec pad q.global h.ginv.toB _ _).1, ?_, h1⟩
        rcases remove_cases pad q.global (w.1, a) w.2 with e | ⟨i, hi, -, e⟩
        · rw [e]
        · rw [e]; exact List.eraseIdx_sublist _ _
      · simp only [hcd, decide_false, Bool.false_eq_true, if_false] at hi
        obtain rfl := Option.some.inj hi
        exact Or.inl rfl

theorem dinsert_entries (pad : D) (l dl dk : Nat) (attr : I → Option A) (q q' : DQueue I A D)
    (h : DWeak l dl attr dk q) (id : I) (dist : Option D) (hi : q.insert pad id dist = some q') :
    (∀ e ∈ q'.global.entries, e ∈ q.global.entries ∨
      (attr id = some e.id.2 ∧ e.id.1 = id ∧ dist = some e.dist ∧ e.visited = false)) ∧
    ((q.global.entries.map (·.id.1)).Nodup → id ∉ q.global.entries.map (·.id.1) →
      (q'.global.entries.map (·.id.1)).Nodup) := by
  rcases dinsert_global pad l dl dk attr q q' h id dist hi with e | ⟨g, a, ha, hb, hs, hg⟩
  · rw [e]; exact ⟨fun x hx => Or.inl hx, fun hn _ => hn⟩
  · cases dist with
    | none =>
      simp only [Queue.insert, Option.some.injEq] at hg
      rw [← hg]
      exact ⟨fun x hx => Or.inl (hs.subset hx), fun hn _ => hn.sublist (hs.map _)⟩
    | some d =>
      obtain ⟨q3, a1, a2, -, -, -, -⟩ := insert_core pad g (id, a) d hb.cap hb.size_le hb.sorted
      rw [hg] at a1; cases a1
      constructor
      · intro e he
        rw [a2] at he
        have := List.mem_of_mem_take he
        rw [List.mem_orderedInsert] at this
        rcases this with rfl | h
        · right; exact ⟨ha, rfl, rfl, rfl⟩
        · exact Or.inl (hs.subset h)
      · intro hn hx
        rw [a2, List.map_take]
        apply List.Nodup.sublist (List.take_sublist _ _)
        have hp : (g.entries.orderedInsert le ⟨(id, a), d, false⟩).Perm (⟨(id, a), d, false⟩ :: g.entries) :=
          List.perm_orderedInsert _ _ _
        rw [(hp.map (·.id.1)).nodup_iff]
        simp only [List.map_cons, List.nodup_cons]
        refine ⟨fun hm => hx ((hs.map _).subset hm), hn.sublist (hs.map _)⟩

/-! ## The invariant -/

/-- State invariant; `R` is the reachability predicate. -/
structure DCore (pad : D) (G : Graph I D) (attr : I → Option A) (R : I → Prop) (l k dk : Nat) (s : DSt I A D) :
    Prop where
  weak : DWeak l (dk * l / k) attr dk s.best
  nodup : s.visited.Nodup
  comp : s.computed = s.visited
  ids_nodup : (s.best.global.entries.map (·.id.1)).Nodup
  ids : ∀ e ∈ s.best.global.entries, e.id.1 ∈ s.visited ∧ attr e.id.1 = some e.id.2 ∧ G.dist e.id.1 = some e.dist
  flag : ∀ e ∈ s.best.global.entries, (e.visited = true ↔ e.id.1 ∈ s.expanded)
  exp : ∀ x ∈ s.expanded, x ∈ s.visited ∧ Passable G attr x
  exp_nodup : s.expanded.Nodup
  closed : ∀ x ∈ s.expanded, ∀ y ∈ G.adj x, y ∈ s.visited
  origin : ∀ x ∈ s.visited, R x
  hist : ∃ ops, drun pad (DQueue.new l k dk attr) ops = some s.best ∧ offered attr ops = eligible G attr s.computed
  counts : s.cmps = s.computed.length ∧ s.hops = s.expanded.length

theorem eligible_snoc (G : Graph I D) (attr : I → Option A) (ids : List I) (x : I) (ops : List (DOp I D))
    (h : offered attr ops = eligible G attr ids) :
    offered attr (ops ++ [.insert x (G.dist x)]) = eligible G attr (ids ++ [x]) := by
  rw [offered_snoc]
  unfold eligible at h ⊢
  rw [List.filterMap_append, ← h]
  cases hd : G.dist x with
  | none =>
    simp only [List.filterMap_cons, List.filterMap_nil, hd]
    cases attr x <;> simp
  | some d =>
    simp only [List.filterMap_cons, List.filterMap_nil, hd]
    cases attr x <;> simp

/-- What an insertion of new ids keeps; `E` are the vertices expanded. -/
theorem dinsertAll_spec (pad : D) (G : Graph I D) (attr : I → Option A) (l k dk : Nat) (hk : 1 ≤ k) (hkl : k ≤ l)
    (hdk : 1 ≤ dk) (V E : List I) (ids : List I) : ∀ (done : List I) (q : DQueue I A D),
    DWeak l (dk * l / k) attr dk q → (q.global.entries.map (·.id.1)).Nodup →
    (∀ e ∈ q.global.entries, e.id.1 ∈ V ++ done ∧ attr e.id.1 = some e.id.2 ∧ G.dist e.id.1 = some e.dist) →
    (∀ e ∈ q.global.entries, (e.visited = true ↔ e.id.1 ∈ E)) → (∀ x ∈ E, x ∈ V) → (V ++ done ++ ids).Nodup →
    (∃ ops, drun pad (DQueue.new l k dk attr) ops = some q ∧ offered attr ops = eligible G attr (V ++ done)) →
    ∃ q', dinsertAll pad G q ids = some q' ∧ DWeak l (dk * l / k) attr dk q' ∧
      (q'.global.entries.map (·.id.1)).Nodup ∧
      (∀ e ∈ q'.global.entries, e.id.1 ∈ V ++ done ++ ids ∧ attr e.id.1 = some e.id.2 ∧ G.dist e.id.1 = some e.dist) ∧
      (∀ e ∈ q'.global.entries, (e.visited = true ↔ e.id.1 ∈ E)) ∧
      (∃ ops, drun pad (DQueue.new l k dk attr) ops = some q' ∧
        offered attr ops = eligible G attr (V ++ done ++ ids)) := by
  have hdl := dl_pos l k dk hk hkl hdk
  induction ids with
  | nil =>
    intro done q h1 h2 h3 h4 _ _ h7
    exact ⟨q, rfl, h1, h2, by simpa using h3, h4, by simpa using h7⟩
  | cons x ids ih =>
    intro done q h1 h2 h3 h4 h5 h6 h7
    obtain ⟨q1, e1, e2⟩ := insert_cases pad l _ dk (by omega) (by omega) attr q h1 x (G.dist x)
    obtain ⟨e3, e4⟩ := dinsert_entries pad l _ dk attr q q1 h1 x (G.dist x) e1
    have hx : x ∉ V ++ done := by
      intro hm
      exact (List.nodup_append.1 h6).2.2 x hm x (by simp) rfl
    have hxe : x ∉ q.global.entries.map (·.id.1) := by
      intro hm
      obtain ⟨e, he, rfl⟩ := List.mem_map.1 hm
      exact hx (h3 e he).1
    have hcons : V ++ done ++ x :: ids = V ++ (done ++ [x]) ++ ids := by simp
    obtain ⟨ops, o1, o2⟩ := h7
    obtain ⟨q', b1, b2, b3, b4, b5, b6⟩ := ih (done ++ [x]) q1 e2 (e4 h2 hxe)
      (by
        intro e he
        rcases e3 e he with h | ⟨g1, g2, g3, -⟩
        · obtain ⟨a1, a2⟩ := h3 e h
          exact ⟨by rw [← List.append_assoc]; exact List.mem_append_left _ a1, a2⟩
        · rw [g2]; exact ⟨by simp, g1, g3⟩)
      (by
        intro e he
        rcases e3 e he with h | ⟨-, g2, -, g4⟩
        · exact h4 e h
        · rw [g2, g4]
          have : x ∉ E := fun hm => hx (List.mem_append_left _ (h5 x hm))
          simp [this])
      h5 (by rw [← hcons]; exact h6)
      ⟨ops ++ [.insert x (G.dist x)], by rw [drun_snoc, o1]; exact e1, by
        rw [eligible_snoc G attr (V ++ done) x ops o2, List.append_assoc]⟩
    refine ⟨q', ?_, b2, b3, by rw [hcons]; exact b4, b5, by rw [hcons]; exact b6⟩
    unfold dinsertAll at b1 ⊢
    rw [List.foldlM_cons, e1]
    exact b1

theorem dfillBeam_eq (n : Nat) : ∀ q : DQueue I A D,
    dfillBeam q n = (fillBeam q.global n).map fun r => (r.1.map (·.1), { q with global := r.2 }) := by
  induction n with
  | zero => intro q; rfl
  | succ n ih =>
    intro q
    unfold dfillBeam fillBeam DQueue.pop
    match hp : q.global.pop with
    | none => rfl
    | some (none, g) => rfl
    | some (some x, g) =>
      simp only [Option.map_some]
      rw [ih]
      simp only
      cases fillBeam g n with
      | none => rfl
      | some r => rfl

/-- Beams are pops. -/
theorem dfillBeam_hist (pad : D) (n : Nat) : ∀ (q q' : DQueue I A D) (nodes : List I),
    dfillBeam q n = some (nodes, q') → ∃ j, drun pad q (List.replicate j .pop) = some q' := by
  induction n with
  | zero =>
    intro q q' nodes h
    simp only [dfillBeam, Option.some.injEq, Prod.mk.injEq] at h
    exact ⟨0, by rw [← h.2]; rfl⟩
  | succ n ih =>
    intro q q' nodes h
    unfold dfillBeam at h
    match hp : q.pop with
    | none => rw [hp] at h; cases h
    | some (none, g) =>
      rw [hp] at h
      simp only [Option.some.injEq, Prod.mk.injEq] at h
      refine ⟨1, ?_⟩
      simp only [List.replicate, drun, List.foldlM_cons, List.foldlM_nil, dstep, hp]
      rw [← h.2]; rfl
    | some (some x, g) =>
      rw [hp] at h
      simp only at h
      match hf : dfillBeam g n with
      | none => rw [hf] at h; cases h
      | some r =>
        rw [hf] at h
        simp only [Option.some.injEq, Prod.mk.injEq] at h
        obtain ⟨j, hj⟩ := ih g r.2 r.1 hf
        refine ⟨j + 1, ?_⟩
        simp only [List.replicate_succ, drun, List.foldlM_cons, dstep, hp]
        rw [← h.2]; exact hj

theorem offered_pops (attr : I → Option A) (ops : List (DOp I D)) (j : Nat) :
    offered attr (ops ++ List.replicate j .pop) = offered attr ops := by
  induction j with
  | zero => simp
  | succ j ih => rw [List.replicate_succ', ← List.append_assoc, offered_snoc]; exact ih

theorem diterate_spec (pad : D) (G : Graph I D) (attr : I → Option A) {R : I → Prop}
    (hR : ∀ x y, R x → Passable G attr x → y ∈ G.adj x → R y) (l k dk : Nat) (hk : 1 ≤ k) (hkl : k ≤ l)
    (hdk : 1 ≤ dk) (beam : Nat) (hb : 1 ≤ beam) (s : DSt I A D) (hc : DCore pad G attr R l k dk s)
    (hnv : s.best.global.hasNotVisited = true) :
    ∃ s' nodes, diterate pad G beam s = some s' ∧ DCore pad G attr R l k dk s' ∧ nodes ≠ [] ∧
      s'.expanded = s.expanded ++ nodes ∧ (∃ new, s'.computed = s.computed ++ new) ∧ (∀ x ∈ nodes, x ∈ s.visited) := by
  set E : List (I × A) := s.expanded.filterMap fun i => (attr i).map fun a => (i, a) with hE
  have hEm : ∀ p : I × A, attr p.1 = some p.2 → (p ∈ E ↔ p.1 ∈ s.expanded) := by
    intro p hp
    rw [hE, List.mem_filterMap]
    constructor
    · rintro ⟨i, hi, h⟩
      rw [Option.map_eq_some_iff] at h
      obtain ⟨a, -, rfl⟩ := h
      exact hi
    · intro h; exact ⟨p.1, h, by rw [hp]; rfl⟩
  have hidn : (s.best.global.entries.map (·.id)).Nodup := by
    have := hc.ids_nodup
    have e : s.best.global.entries.map (·.id.1) = (s.best.global.entries.map (·.id)).map (·.1) := by simp
    rw [e] at this
    exact List.Nodup.of_map _ this
  obtain ⟨nodes, q, a1, -, a3, a4, a5, a6, a7, a8, a9, a10⟩ := fillBeam_spec beam s.best.global E hc.weak.ginv.toW hidn
    (fun e he => by rw [hc.flag e he, hEm e.id (hc.ids e he).2.1])
  obtain ⟨c1, c2⟩ := a9 hb hnv
  obtain ⟨-, c3, c4⟩ := a10 hc.weak.ginv
  have hna : ∀ p ∈ nodes, p.1 ∈ s.visited ∧ attr p.1 = some p.2 ∧ G.dist p.1 ≠ none := by
    intro p hp
    obtain ⟨e, he, rfl⟩ := a8 p hp
    obtain ⟨i1, i2, i3⟩ := hc.ids e he
    exact ⟨i1, i2, by rw [i3]; simp⟩
  have hfill : dfillBeam s.best beam = some (nodes.map (·.1), { s.best with global := q }) := by
    rw [dfillBeam_eq, a1]; rfl
  have hweak : DWeak l (dk * l / k) attr dk { s.best with global := q } := by
    obtain ⟨w1, w2, w3, w4, w5, w6, w7, w8, w9, w10, w11⟩ := hc.weak
    exact ⟨c2, a4.trans w2, a5.trans w3, a6.trans w4, w5, w6, w7, w8, w9, w10, w11⟩
  obtain ⟨f1, f2, f3, f4⟩ := forward_spec s.visited ((nodes.map (·.1)).flatMap G.adj) hc.nodup
  set new := (forward s.visited ((nodes.map (·.1)).flatMap G.adj)).2 with hnew
  have hids1 : q.entries.map (·.id.1) = s.best.global.entries.map (·.id.1) := by
    have := ids_eq_of_contents a3
    have h2 := congrArg (List.map Prod.fst) this
    simpa [Function.comp_def] using h2
  have hq_ids : ∀ e ∈ q.entries, e.id.1 ∈ s.visited ∧ attr e.id.1 = some e.id.2 ∧ G.dist e.id.1 = some e.dist := by
    intro e he
    obtain ⟨e', he', h1, h2⟩ := mem_of_contents a3 e he
    rw [← h1, ← h2]; exact hc.ids e' he'
  have hnodes_exp : ∀ x ∈ s.expanded ++ nodes.map (·.1), x ∈ s.visited := by
    intro x hx
    rcases List.mem_append.1 hx with h | h
    · exact (hc.exp x h).1
    · obtain ⟨p, hp, rfl⟩ := List.mem_map.1 h
      exact (hna p hp).1
  obtain ⟨q', b1, b2, b3, b4, b5, b6⟩ := dinsertAll_spec pad G attr l k dk hk hkl hdk s.visited
    (s.expanded ++ nodes.map (·.1)) new [] { s.best with global := q } hweak (by rw [hids1]; exact hc.ids_nodup)
    (by simpa using hq_ids)
    (by
      intro e he
      rw [a7 e he]
      obtain ⟨-, h2, -⟩ := hq_ids e he
      rw [List.mem_append, List.mem_append, hEm e.id h2]
      constructor
      · rintro (h | h)
        · exact Or.inl h
        · exact Or.inr (List.mem_map_of_mem h)
      · rintro (h | h)
        · exact Or.inl h
        · obtain ⟨p, hp, h⟩ := List.mem_map.1 h
          right
          have : p = e.id := by
            refine Prod.ext h ?_
            have h3 := (hna p hp).2.1
            rw [h, h2] at h3
            exact (Option.some.inj h3).symm
          rw [← this]; exact hp)
    hnodes_exp (by simpa using f2)
    (by
      obtain ⟨ops, o1, o2⟩ := hc.hist
      obtain ⟨j, hj⟩ := dfillBeam_hist pad beam s.best _ _ hfill
      refine ⟨ops ++ List.replicate j .pop, ?_, by rw [offered_pops, o2, hc.comp]; simp⟩
      unfold drun at o1 hj ⊢
      rw [List.foldlM_append, o1]
      exact hj)
  simp only [List.append_nil] at b4 b6
  have hdn : (nodes.map (·.1)).Nodup := by
    refine List.Nodup.map_on ?_ c3
    intro p hp p' hp' h
    refine Prod.ext h ?_
    have h3 := (hna p hp).2.1
    rw [h, (hna p' hp').2.1] at h3
    exact (Option.some.inj h3).symm
  refine ⟨{ best := q', visited := (forward s.visited ((nodes.map (·.1)).flatMap G.adj)).1,
            cmps := s.cmps + new.length, hops := s.hops + (nodes.map (·.1)).length,
            computed := s.computed ++ new, expanded := s.expanded ++ nodes.map (·.1) }, nodes.map (·.1), ?_, ?_, ?_, rfl,
    ⟨new, rfl⟩, fun x hx => hnodes_exp x (List.mem_append_right _ hx)⟩
  · unfold diterate expandBeam
    rw [hfill]
    simp only [← hnew, b1]
  · refine ⟨b2, by rw [f1]; exact f2, by rw [f1, hc.comp], b3, by rw [f1]; exact b4, b5, ?_, ?_, ?_, ?_, ?_, ?_⟩
    · intro x hx
      refine ⟨by rw [f1]; exact List.mem_append_left _ (hnodes_exp x hx), ?_⟩
      rcases List.mem_append.1 hx with h | h
      · exact (hc.exp x h).2
      · obtain ⟨p, hp, rfl⟩ := List.mem_map.1 h
        obtain ⟨-, h2, h3⟩ := hna p hp
        exact ⟨by rw [h2]; simp, h3⟩
    · rw [List.nodup_append]
      refine ⟨hc.exp_nodup, hdn, ?_⟩
      intro x hx y hy hxy
      subst hxy
      obtain ⟨p, hp, rfl⟩ := List.mem_map.1 hy
      exact c4 p hp ((hEm p (hna p hp).2.1).2 hx)
    · intro x hx y hy
      rcases List.mem_append.1 hx with h | h
      · rw [f1]; exact List.mem_append_left _ (hc.closed x h y hy)
      · exact f3 y (List.mem_flatMap.2 ⟨x, h, hy⟩)
    · intro x hx
      rw [f1, List.mem_append] at hx
      rcases hx with h | h
      · exact hc.origin x h
      · obtain ⟨y, hy, hxy⟩ := List.mem_flatMap.1 (f4 x h)
        obtain ⟨p, hp, rfl⟩ := List.mem_map.1 hy
        obtain ⟨h1, h2, h3⟩ := hna p hp
        exact hR p.1 x (hc.origin _ h1) ⟨by rw [h2]; simp, h3⟩ hxy
    · obtain ⟨ops, o1, o2⟩ := b6
      exact ⟨ops, o1, by rw [o2, hc.comp]⟩
    · obtain ⟨k1, k2⟩ := hc.counts
      simp only [List.length_append, k1, k2]
      exact ⟨trivial, trivial⟩
  · simpa using c1

theorem dloop_spec (pad : D) (G : Graph I D) (attr : I → Option A) {R : I → Prop}
    (hR : ∀ x y, R x → Passable G attr x → y ∈ G.adj x → R y) (V : List I) (hV : ∀ x, R x → x ∈ V) (l k dk : Nat)
    (hk : 1 ≤ k) (hkl : k ≤ l) (hdk : 1 ≤ dk) (beam : Nat) (hb : 1 ≤ beam) (stop : Nat → Bool) (fuel : Nat) :
    ∀ (n : Nat) (s : DSt I A D), DCore pad G attr R l k dk s →
      (V.filter fun v => decide (v ∉ s.expanded)).length < fuel →
      ∃ s', dsearchLoop pad G beam stop fuel n s = some s' ∧ DCore pad G attr R l k dk s' ∧
        (∃ new, s'.computed = s.computed ++ new) ∧ (s'.best.global.hasNotVisited = false ∨ ∃ m, stop m = true) := by
  induction fuel with
  | zero => intro n s _ h; omega
  | succ fuel ih =>
    intro n s hc hf
    unfold dsearchLoop
    by_cases hcond : (s.best.global.hasNotVisited && !stop n) = true
    · rw [if_pos hcond]
      simp only [Bool.and_eq_true, Bool.not_eq_true'] at hcond
      obtain ⟨s1, nodes, a1, a2, a3, a4, ⟨new, a5⟩, a6⟩ := diterate_spec pad G attr hR l k dk hk hkl hdk beam hb s hc hcond.1
      rw [a1]
      simp only
      obtain ⟨x, hx⟩ := List.exists_mem_of_ne_nil _ a3
      have hxe : x ∉ s.expanded := by
        have := a2.exp_nodup
        rw [a4, List.nodup_append] at this
        exact fun h => this.2.2 x h x hx rfl
      have hlt := filter_notMem_lt V s.expanded nodes x (hV x (hc.origin x (a6 x hx))) hxe hx
      obtain ⟨s', b1, b2, ⟨new', b3⟩, b4⟩ := ih (n + 1) s1 a2 (by rw [a4]; omega)
      exact ⟨s', b1, b2, ⟨new ++ new', by rw [b3, a5, List.append_assoc]⟩, b4⟩
    · rw [if_neg hcond]
      refine ⟨s, rfl, hc, ⟨[], by simp⟩, ?_⟩
      by_cases h : s.best.global.hasNotVisited = true
      · right; exact ⟨n, by simpa [h] using hcond⟩
      · left; simpa using h

theorem dstarts_spec (pad : D) (G : Graph I D) (attr : I → Option A) {R : I → Prop} (l k dk : Nat) (hk : 1 ≤ k)
    (hkl : k ≤ l) (hdk : 1 ≤ dk) (starts : List I) : ∀ (s : DSt I A D), (s.visited ++ starts).Nodup →
    (∀ x ∈ starts, R x) → DCore pad G attr R l k dk s →
    ∃ s', starts.foldlM (daddStart pad G) s = some s' ∧ DCore pad G attr R l k dk s' ∧
      s'.computed = s.computed ++ starts := by
  have hdl := dl_pos l k dk hk hkl hdk
  induction starts with
  | nil => intro s _ _ hc; exact ⟨s, rfl, hc, by simp⟩
  | cons x starts ih =>
    intro s hn hR hc
    have hx : x ∉ s.visited := fun hm => (List.nodup_append.1 hn).2.2 x hm x (by simp) rfl
    obtain ⟨q, e1, e2⟩ := insert_cases pad l _ dk (by omega) (by omega) attr s.best hc.weak x (G.dist x)
    obtain ⟨e3, e4⟩ := dinsert_entries pad l _ dk attr s.best q hc.weak x (G.dist x) e1
    have hst : daddStart pad G s x = some (DSt.mk q (s.visited ++ [x]) (s.cmps + 1) s.hops
        (s.computed ++ [x]) s.expanded) := by
      unfold daddStart
      rw [e1]; simp only [if_neg hx]
    have hn' : (s.visited ++ [x] ++ starts).Nodup := by simpa using hn
    have hcore : DCore pad G attr R l k dk (DSt.mk q (s.visited ++ [x]) (s.cmps + 1) s.hops
        (s.computed ++ [x]) s.expanded) := by
      refine ⟨e2, (List.nodup_append.1 hn').1, by simp [hc.comp], ?_, ?_, ?_, ?_, hc.exp_nodup, ?_, ?_, ?_, ?_⟩
      · refine e4 hc.ids_nodup ?_
        intro hm
        obtain ⟨e, he, rfl⟩ := List.mem_map.1 hm
        exact hx (hc.ids e he).1
      · intro e he
        rcases e3 e he with h | ⟨g1, g2, g3, -⟩
        · obtain ⟨i1, i2⟩ := hc.ids e h
          exact ⟨List.mem_append_left _ i1, i2⟩
        · rw [g2]; exact ⟨by simp, g1, g3⟩
      · intro e he
        rcases e3 e he with h | ⟨-, g2, -, g4⟩
        · exact hc.flag e h
        · rw [g2, g4]
          have : x ∉ s.expanded := fun hm => hx (hc.exp x hm).1
          simp [this]
      · intro y hy
        exact ⟨List.mem_append_left _ (hc.exp y hy).1, (hc.exp y hy).2⟩
      · intro y hy z hz
        exact List.mem_append_left _ (hc.closed y hy z hz)
      · intro y hy
        rcases List.mem_append.1 hy with h | h
        · exact hc.origin y h
        · rw [List.mem_singleton] at h; subst h; exact hR y (by simp)
      · obtain ⟨ops, o1, o2⟩ := hc.hist
        exact ⟨ops ++ [.insert x (G.dist x)], by rw [drun_snoc, o1]; exact e1, eligible_snoc G attr _ x ops o2⟩
      · obtain ⟨k1, k2⟩ := hc.counts
        exact ⟨by simp [k1], k2⟩
    obtain ⟨s', b1, b2, b3⟩ := ih _ hn' (fun y hy => hR y (by simp [hy])) hcore
    refine ⟨s', ?_, b2, by rw [b3]; simp⟩
    rw [List.foldlM_cons, hst]; exact b1

theorem dcore_create (pad : D) (G : Graph I D) (attr : I → Option A) (R : I → Prop) (l k dk : Nat) (hk : 1 ≤ k)
    (hkl : k ≤ l) (hdk : 1 ≤ dk) : DCore pad G attr R l k dk (DSt.create l k dk attr) := by
  have hdl := dl_pos l k dk hk hkl hdk
  refine ⟨new_weak l k dk (by omega) (by omega) attr, by simp [DSt.create], rfl, ?_, ?_, ?_, by simp [DSt.create],
    by simp [DSt.create], by simp [DSt.create], by simp [DSt.create], ⟨[], rfl, rfl⟩, rfl, rfl⟩
  · simp [DSt.create, DQueue.new, Queue.new]
  · simp [DSt.create, DQueue.new, Queue.new]
  · simp [DSt.create, DQueue.new, Queue.new]

theorem div_spec (pad : D) (G : Graph I D) (attr : I → Option A) (V starts : List I)
    (hG : FiniteGraph V G.adj starts) (hn : starts.Nodup) (l k dk : Nat) (hk : 1 ≤ k) (hkl : k ≤ l) (hdk : 1 ≤ dk)
    (beam : Nat) (hb : 1 ≤ beam) (stop : Nat → Bool) (fuel : Nat) (hf : V.length < fuel) :
    ∃ s, divTraverse pad G starts l k dk attr beam stop fuel = some s ∧
      DCore pad G attr (ReachVia G.adj (Passable G attr) starts) l k dk s ∧ (∀ x ∈ starts, x ∈ s.computed) ∧
      (s.best.global.hasNotVisited = false ∨ ∃ m, stop m = true) := by
  obtain ⟨s0, a1, a2, a3⟩ := dstarts_spec pad G attr (R := ReachVia G.adj (Passable G attr) starts) l k dk hk hkl hdk
    starts (DSt.create l k dk attr) (by simpa [DSt.create] using hn) (fun x hx => .start hx)
    (dcore_create pad G attr _ l k dk hk hkl hdk)
  have hV : ∀ x, ReachVia G.adj (Passable G attr) starts x → x ∈ V :=
    fun x hx => reach_mem hG x (reachVia_reach hx)
  obtain ⟨s, b1, b2, ⟨new, b3⟩, b4⟩ := dloop_spec pad G attr
    (fun x y hx hp he => .step hx hp he) V hV l k dk hk hkl hdk beam hb stop fuel 0 s0 a2
    (by have := List.length_filter_le (fun v => decide (v ∉ s0.expanded)) V; omega)
  refine ⟨s, ?_, b2, ?_, b4⟩
  · unfold divTraverse; rw [a1]; exact b1
  · intro x hx
    rw [b3, a3]
    exact List.mem_append_left _ (List.mem_append_right _ hx)

/-! ## Post-processing -/

theorem postProcess_sublist (l dl dk : Nat) (attr : I → Option A) (q : DQueue I A D) (h : DWeak l dl attr dk q) :
    q.postProcess.iter.Sublist (q.global.contents.map fun x => (x.1.1, x.2)) := by
  have hsub : ∀ g : Queue (I × A) D, g.contents.Sublist q.global.contents →
      (g.iter.map fun x => (x.1.1, x.2)).Sublist (q.global.contents.map fun x => (x.1.1, x.2)) := by
    intro g hg
    refine List.Sublist.map _ (List.Sublist.trans ?_ hg)
    unfold Queue.iter Queue.contents
    exact List.Sublist.map _ (List.take_sublist _ _)
  unfold DQueue.postProcess
  dsimp only
  split
  · exact hsub q.global (List.Sublist.refl _)
  · unfold DQueue.iter
    refine hsub _ ?_
    rw [retain_contents]
    exact List.filter_sublist

end Verif.Search
