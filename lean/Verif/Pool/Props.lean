import Verif.Pool.Spec
import Mathlib.Data.List.Nodup

/-!
# C72: the object pool
-/

namespace Verif.Pool

variable {V A : Type}

/-- Invariant behind C72. -/
structure Inv (s : Sys V A) : Prop where
  qnd : (s.queue.map (·.uid)).Nodup
  qlt : ∀ u ∈ s.queue.map (·.uid), u < s.next
  hlt : ∀ r u, Has s r u → u < s.next
  uniq : ∀ r r' u, Has s r u → Has s r' u → r = r'
  qh : ∀ u ∈ s.queue.map (·.uid), ∀ r, ¬ Has s r u
  dnd : s.dropped.Nodup
  dlt : ∀ u ∈ s.dropped, u < s.next
  dq : ∀ u ∈ s.dropped, u ∉ s.queue.map (·.uid)
  dh : ∀ u ∈ s.dropped, ∀ r, ¬ Has s r u
  all : ∀ u < s.next, u ∈ s.queue.map (·.uid) ∨ (∃ r, Has s r u) ∨ u ∈ s.dropped

theorem has_holding {s : Sys V A} {r : Nat} {o : Obj V} (h : s.req r = .holding o) (u : Nat) : Has s r u ↔ u = o.uid := by
  constructor
  · rintro (⟨o', a, h1, h2⟩ | ⟨o', h1, h2⟩)
    · rw [h] at h1; cases h1
    · rw [h] at h1; cases h1; exact h2.symm
  · rintro rfl; exact .inr ⟨o, h, rfl⟩

theorem has_modifying {s : Sys V A} {r : Nat} {o : Obj V} {a : A} (h : s.req r = .modifying o a) (u : Nat) :
    Has s r u ↔ u = o.uid := by
  constructor
  · rintro (⟨o', a, h1, h2⟩ | ⟨o', h1, h2⟩)
    · rw [h] at h1; cases h1; exact h2.symm
    · rw [h] at h1; cases h1
  · rintro rfl; exact .inl ⟨o, a, h, rfl⟩

theorem has_idle {s : Sys V A} {r : Nat} (h : s.req r = .idle) (u : Nat) : ¬ Has s r u := by
  rintro (⟨o', a, h1, h2⟩ | ⟨o', h1, h2⟩) <;> rw [h] at h1 <;> cases h1

theorem has_creating {s : Sys V A} {r : Nat} {a : A} (h : s.req r = .creating a) (u : Nat) : ¬ Has s r u := by
  rintro (⟨o', a, h1, h2⟩ | ⟨o', h1, h2⟩) <;> rw [h] at h1 <;> cases h1

/-- Only the request of the step changes what it has. -/
theorem has_other {s s' : Sys V A} {r r' : Nat} {x : Req V A} (h : s'.req = Function.update s.req r x) (hr : r' ≠ r)
    (u : Nat) : Has s' r' u ↔ Has s r' u := by
  have : s'.req r' = s.req r' := by rw [h, Function.update_of_ne hr]
  unfold Has
  rw [this]

theorem has_self {s s' : Sys V A} {r : Nat} {x : Req V A} (h : s'.req = Function.update s.req r x) : s'.req r = x := by
  rw [h, Function.update_self]

/-- Same holdings, same places. -/
theorem Inv.congr {s s' : Sys V A} (h : Inv s) (hq : s'.queue.map (·.uid) = s.queue.map (·.uid))
    (hn : s'.next = s.next) (hd : s'.dropped = s.dropped) (hh : ∀ r u, Has s' r u ↔ Has s r u) : Inv s' := by
  constructor
  · rw [hq]; exact h.qnd
  · rw [hq, hn]; exact h.qlt
  · intro r u hu; rw [hn]; exact h.hlt r u ((hh r u).1 hu)
  · intro r r' u h1 h2; exact h.uniq r r' u ((hh _ _).1 h1) ((hh _ _).1 h2)
  · rw [hq]; intro u hu r hr; exact h.qh u hu r ((hh _ _).1 hr)
  · rw [hd]; exact h.dnd
  · rw [hd, hn]; exact h.dlt
  · rw [hd, hq]; exact h.dq
  · rw [hd]; intro u hu r hr; exact h.dh u hu r ((hh _ _).1 hr)
  · rw [hn, hq, hd]
    intro u hu
    rcases h.all u hu with h' | ⟨r, h'⟩ | h'
    · exact .inl h'
    · exact .inr (.inl ⟨r, (hh _ _).2 h'⟩)
    · exact .inr (.inr h')

/-- An object leaves a request and is dropped. -/
theorem Inv.to_dropped {s s' : Sys V A} (h : Inv s) (r w : Nat) (hw : ∀ u, Has s r u ↔ u = w)
    (hreq : s'.req = Function.update s.req r .idle) (hq : s'.queue = s.queue) (hn : s'.next = s.next)
    (hd : s'.dropped = w :: s.dropped) : Inv s' := by
  have hsw : Has s r w := (hw w).2 rfl
  have hno : ∀ u, ¬ Has s' r u := has_idle (has_self hreq)
  have old : ∀ r' u, Has s' r' u → r' ≠ r ∧ Has s r' u := by
    intro r' u hu
    have hne : r' ≠ r := by rintro rfl; exact hno u hu
    exact ⟨hne, (has_other hreq hne u).1 hu⟩
  constructor
  · rw [hq]; exact h.qnd
  · rw [hq, hn]; exact h.qlt
  · intro r' u hu; rw [hn]; exact h.hlt r' u (old r' u hu).2
  · intro r1 r2 u h1 h2; exact h.uniq r1 r2 u (old _ _ h1).2 (old _ _ h2).2
  · rw [hq]; intro u hu r' hr; exact h.qh u hu r' (old _ _ hr).2
  · rw [hd, List.nodup_cons]; exact ⟨fun hm => h.dh w hm r hsw, h.dnd⟩
  · rw [hd, hn]; intro u hu
    rcases List.mem_cons.1 hu with rfl | hu
    · exact h.hlt r _ hsw
    · exact h.dlt u hu
  · rw [hd, hq]; intro u hu
    rcases List.mem_cons.1 hu with rfl | hu
    · intro hm; exact h.qh _ hm r hsw
    · exact h.dq u hu
  · rw [hd]; intro u hu r' hr
    obtain ⟨hne, hr⟩ := old _ _ hr
    rcases List.mem_cons.1 hu with rfl | hu
    · exact hne (h.uniq _ _ _ hr hsw)
    · exact h.dh u hu r' hr
  · rw [hn, hq, hd]
    intro u hu
    rcases h.all u hu with h' | ⟨r', h'⟩ | h'
    · exact .inl h'
    · by_cases hr : r' = r
      · subst hr
        rw [(hw u).1 h']
        exact .inr (.inr List.mem_cons_self)
      · exact .inr (.inl ⟨r', (has_other hreq hr u).2 h'⟩)
    · exact .inr (.inr (List.mem_cons_of_mem _ h'))

theorem step_inv (k : Kind V A) (s : Sys V A) (st : Step V A) (h : Inv s) : Inv (s.step k st) := by
  cases st with
  | get r a =>
    show Inv (s.get r a)
    unfold Sys.get
    cases hr : s.req r with
    | idle =>
      dsimp only
      cases hq : s.queue with
      | nil =>
        dsimp only
        refine h.congr (by rw [hq]) rfl rfl ?_
        intro r' u
        by_cases hne : r' = r
        · subst hne
          exact ⟨fun x => absurd x (has_creating (has_self rfl) u), fun x => absurd x (has_idle hr u)⟩
        · exact has_other rfl hne u
      | cons o q =>
        dsimp only
        let s' : Sys V A := { s with queue := q, req := Function.update s.req r (.modifying o a) }
        show Inv s'
        have hreq : s'.req = Function.update s.req r (.modifying o a) := rfl
        have hself : ∀ u, Has s' r u ↔ u = o.uid := has_modifying (has_self hreq)
        have hoth : ∀ r', r' ≠ r → ∀ u, Has s' r' u ↔ Has s r' u := fun r' hne u => has_other hreq hne u
        have hqq : s.queue.map (·.uid) = o.uid :: s'.queue.map (·.uid) := by rw [hq]; rfl
        have hqn := h.qnd
        rw [hqq, List.nodup_cons] at hqn
        have hmem : o.uid ∈ s.queue.map (·.uid) := by rw [hqq]; exact List.mem_cons_self
        have hsub : ∀ u ∈ s'.queue.map (·.uid), u ∈ s.queue.map (·.uid) := by
          intro u hu; rw [hqq]; exact List.mem_cons_of_mem _ hu
        constructor
        · exact hqn.2
        · intro u hu; exact h.qlt u (hsub u hu)
        · intro r' u hu
          by_cases hne : r' = r
          · subst hne; rw [(hself u).1 hu]; exact h.qlt _ hmem
          · exact h.hlt r' u ((hoth r' hne u).1 hu)
        · intro r1 r2 u h1 h2
          by_cases e1 : r1 = r
          · by_cases e2 : r2 = r
            · rw [e1, e2]
            · subst e1
              rw [(hself u).1 h1] at h2
              exact absurd ((hoth r2 e2 _).1 h2) (h.qh _ hmem r2)
          · by_cases e2 : r2 = r
            · subst e2
              rw [(hself u).1 h2] at h1
              exact absurd ((hoth r1 e1 _).1 h1) (h.qh _ hmem r1)
            · exact h.uniq r1 r2 u ((hoth r1 e1 u).1 h1) ((hoth r2 e2 u).1 h2)
        · intro u hu r' hr'
          by_cases hne : r' = r
          · subst hne; rw [(hself u).1 hr'] at hu; exact hqn.1 hu
          · exact h.qh u (hsub u hu) r' ((hoth r' hne u).1 hr')
        · exact h.dnd
        · exact h.dlt
        · intro u hu hm; exact h.dq u hu (hsub u hm)
        · intro u hu r' hr'
          by_cases hne : r' = r
          · subst hne; rw [(hself u).1 hr'] at hu; exact h.dq _ hu hmem
          · exact h.dh u hu r' ((hoth r' hne u).1 hr')
        · intro u hu
          rcases h.all u hu with h' | ⟨r', h'⟩ | h'
          · rw [hqq] at h'
            rcases List.mem_cons.1 h' with rfl | h'
            · exact .inr (.inl ⟨r, (hself _).2 rfl⟩)
            · exact .inl h'
          · have hne : r' ≠ r := by rintro rfl; exact has_idle hr u h'
            exact .inr (.inl ⟨r', (hoth r' hne u).2 h'⟩)
          · exact .inr (.inr h')
    | creating a' => exact h
    | modifying o a' => exact h
    | holding o => exact h
  | finish r =>
    show Inv (s.finish k r)
    unfold Sys.finish
    cases hr : s.req r with
    | idle => exact h
    | holding o => exact h
    | creating a =>
      dsimp only
      cases hc : k.create a with
      | none =>
        dsimp only
        refine h.congr rfl rfl rfl ?_
        intro r' u
        by_cases hne : r' = r
        · subst hne
          exact ⟨fun x => absurd x (has_idle (has_self rfl) u), fun x => absurd x (has_creating hr u)⟩
        · exact has_other rfl hne u
      | some v =>
        dsimp only
        let s' : Sys V A := { s with req := Function.update s.req r (.holding ⟨s.next, v⟩), next := s.next + 1,
                                     answers := (a, some v) :: s.answers }
        show Inv s'
        have hreq : s'.req = Function.update s.req r (.holding ⟨s.next, v⟩) := rfl
        have hself : ∀ u, Has s' r u ↔ u = s.next := has_holding (has_self hreq)
        have hoth : ∀ r', r' ≠ r → ∀ u, Has s' r' u ↔ Has s r' u := fun r' hne u => has_other hreq hne u
        constructor
        · exact h.qnd
        · intro u hu; exact Nat.lt_succ_of_lt (h.qlt u hu)
        · intro r' u hu
          show u < s.next + 1
          by_cases hne : r' = r
          · subst hne; rw [(hself u).1 hu]; omega
          · have := h.hlt r' u ((hoth r' hne u).1 hu); omega
        · intro r1 r2 u h1 h2
          by_cases e1 : r1 = r
          · by_cases e2 : r2 = r
            · rw [e1, e2]
            · subst e1
              have := h.hlt r2 u ((hoth r2 e2 _).1 h2)
              have := (hself u).1 h1
              omega
          · by_cases e2 : r2 = r
            · subst e2
              have := h.hlt r1 u ((hoth r1 e1 _).1 h1)
              have := (hself u).1 h2
              omega
            · exact h.uniq r1 r2 u ((hoth r1 e1 u).1 h1) ((hoth r2 e2 u).1 h2)
        · intro u hu r' hr'
          by_cases hne : r' = r
          · subst hne
            have := (hself u).1 hr'
            have := h.qlt u hu
            omega
          · exact h.qh u hu r' ((hoth r' hne u).1 hr')
        · exact h.dnd
        · intro u hu; exact Nat.lt_succ_of_lt (h.dlt u hu)
        · exact h.dq
        · intro u hu r' hr'
          by_cases hne : r' = r
          · subst hne
            have := (hself u).1 hr'
            have := h.dlt u hu
            omega
          · exact h.dh u hu r' ((hoth r' hne u).1 hr')
        · intro u hu
          by_cases hun : u = s.next
          · exact .inr (.inl ⟨r, (hself u).2 hun⟩)
          · rcases h.all u (by have : u < s.next + 1 := hu; omega) with h' | ⟨r', h'⟩ | h'
            · exact .inl h'
            · have hne : r' ≠ r := by rintro rfl; exact has_creating hr u h'
              exact .inr (.inl ⟨r', (hoth r' hne u).2 h'⟩)
            · exact .inr (.inr h')
    | modifying o a =>
      dsimp only
      cases hm : k.modify a o.val with
      | none => exact h.to_dropped r o.uid (has_modifying hr) rfl rfl rfl rfl
      | some v =>
        dsimp only
        refine h.congr rfl rfl rfl ?_
        intro r' u
        by_cases hne : r' = r
        · subst hne
          rw [has_holding (has_self rfl), has_modifying hr]
        · exact has_other rfl hne u
  | use r v =>
    show Inv (s.use r v)
    unfold Sys.use
    cases hr : s.req r with
    | idle => exact h
    | creating a => exact h
    | modifying o a => exact h
    | holding o =>
      dsimp only
      refine h.congr rfl rfl rfl ?_
      intro r' u
      by_cases hne : r' = r
      · subst hne
        rw [has_holding (has_self rfl), has_holding hr]
      · exact has_other rfl hne u
  | drop r =>
    show Inv (s.drop r)
    unfold Sys.drop
    cases hr : s.req r with
    | idle => exact h
    | creating a => exact h
    | modifying o a => exact h
    | holding o =>
      dsimp only
      split
      · let s' : Sys V A := { s with req := Function.update s.req r .idle, queue := s.queue ++ [o] }
        show Inv s'
        have hreq : s'.req = Function.update s.req r .idle := rfl
        have hw : ∀ u, Has s r u ↔ u = o.uid := has_holding hr
        have hsw : Has s r o.uid := (hw _).2 rfl
        have hno : ∀ u, ¬ Has s' r u := has_idle (has_self hreq)
        have old : ∀ r' u, Has s' r' u → r' ≠ r ∧ Has s r' u := by
          intro r' u hu
          have hne : r' ≠ r := by rintro rfl; exact hno u hu
          exact ⟨hne, (has_other hreq hne u).1 hu⟩
        have hqq : s'.queue.map (·.uid) = s.queue.map (·.uid) ++ [o.uid] := by
          show (s.queue ++ [o]).map (·.uid) = _; simp
        constructor
        · rw [hqq, List.nodup_append]
          refine ⟨h.qnd, by simp, ?_⟩
          intro a ha b hb
          rw [List.mem_singleton] at hb
          subst hb
          rintro rfl
          exact h.qh _ ha r hsw
        · rw [hqq]; intro u hu
          rcases List.mem_append.1 hu with hu | hu
          · exact h.qlt u hu
          · rw [List.mem_singleton] at hu; rw [hu]; exact h.hlt r _ hsw
        · intro r' u hu; exact h.hlt r' u (old r' u hu).2
        · intro r1 r2 u h1 h2; exact h.uniq r1 r2 u (old _ _ h1).2 (old _ _ h2).2
        · rw [hqq]; intro u hu r' hr'
          obtain ⟨hne, hr'⟩ := old _ _ hr'
          rcases List.mem_append.1 hu with hu | hu
          · exact h.qh u hu r' hr'
          · rw [List.mem_singleton] at hu; rw [hu] at hr'
            exact hne (h.uniq _ _ _ hr' hsw)
        · exact h.dnd
        · exact h.dlt
        · rw [hqq]; intro u hu hm
          rcases List.mem_append.1 hm with hm | hm
          · exact h.dq u hu hm
          · rw [List.mem_singleton] at hm; rw [hm] at hu; exact h.dh _ hu r hsw
        · intro u hu r' hr'; exact h.dh u hu r' (old _ _ hr').2
        · rw [hqq]; intro u hu
          rcases h.all u hu with h' | ⟨r', h'⟩ | h'
          · exact .inl (List.mem_append_left _ h')
          · by_cases hne : r' = r
            · subst hne
              rw [(hw u).1 h']
              exact .inl (by simp)
            · exact .inr (.inl ⟨r', (has_other hreq hne u).2 h'⟩)
          · exact .inr (.inr h')
      · exact h.to_dropped r o.uid (has_holding hr) rfl rfl rfl rfl

theorem createMany_spec (k : Kind V A) (a : A) (n uid : Nat) (q : List (Obj V)) (h : createMany k a n uid = some q) :
    q.map (·.uid) = List.range' uid n ∧ ∀ o ∈ q, k.create a = some o.val := by
  induction n generalizing uid q with
  | zero => cases h; simp
  | succ n ih =>
    unfold createMany at h
    cases hc : k.create a with
    | none => rw [hc] at h; cases h
    | some v =>
      rw [hc] at h
      dsimp only at h
      cases hm : createMany k a n (uid + 1) with
      | none => rw [hm] at h; cases h
      | some q' =>
        rw [hm] at h
        cases h
        obtain ⟨h1, h2⟩ := ih _ _ hm
        refine ⟨by rw [List.map_cons, h1]; rfl, ?_⟩
        intro o ho
        rcases List.mem_cons.1 ho with rfl | ho
        · rfl
        · rw [← hc]; exact h2 o ho

theorem run_inv (k : Kind V A) (s : Sys V A) (steps : List (Step V A)) (h : Inv s) : Inv (s.run k steps) := by
  unfold Sys.run
  induction steps generalizing s with
  | nil => exact h
  | cons st steps ih => exact ih _ (step_inv k s st h)

/-- C72. However requests interleave, every object ever made is in exactly one place: once in the pool, with one
request, or dropped once. -/
theorem C72_one_place (k : Kind V A) (a : A) (initial : Nat) (capacity : Option Nat) (s : Sys V A)
    (h : Sys.new k a initial capacity = some s) (steps : List (Step V A)) :
    ∀ u < (s.run k steps).next, OnePlace (s.run k steps) u := by
  have h0 : Inv s := by
    unfold Sys.new at h
    cases hm : createMany k a initial 0 with
    | none => rw [hm] at h; cases h
    | some q =>
      rw [hm] at h; cases h
      obtain ⟨h1, -⟩ := createMany_spec k a initial 0 q hm
      have hno : ∀ r u, ¬ Has (⟨q, capacity, fun _ => .idle, initial, [], []⟩ : Sys V A) r u :=
        fun r u => has_idle rfl u
      constructor
      · show (q.map (·.uid)).Nodup
        rw [h1]; exact List.nodup_range'
      · show ∀ u ∈ q.map (·.uid), u < initial
        rw [h1]; intro u hu; have := List.mem_range'_1.1 hu; omega
      · intro r u hu; exact absurd hu (hno r u)
      · intro r r' u hu; exact absurd hu (hno r u)
      · intro u hu r; exact hno r u
      · exact List.nodup_nil
      · intro u hu; cases hu
      · intro u hu; cases hu
      · intro u hu; cases hu
      · intro u hu
        left
        show u ∈ q.map (·.uid)
        rw [h1]; exact List.mem_range'_1.2 ⟨Nat.zero_le _, by show u < 0 + initial; have : u < initial := hu; omega⟩
  have hi := run_inv k s steps h0
  intro u hu
  rcases hi.all u hu with h' | ⟨r, h'⟩ | h'
  · exact .inl ⟨List.count_eq_one_of_mem hi.qnd h', hi.qh u h', fun hd => hi.dq u hd h'⟩
  · exact .inr (.inl ⟨fun hq => hi.qh u hq r h', ⟨r, h', fun r' hr' => hi.uniq r' r u hr' h'⟩,
      fun hd => hi.dh u hd r h'⟩)
  · exact .inr (.inr ⟨hi.dq u h', hi.dh u h', List.count_eq_one_of_mem hi.dnd h'⟩)

/-- C72, size. The pool never holds more than its capacity, or what it was created with if that was more. -/
theorem C72_bounded (k : Kind V A) (a : A) (initial : Nat) (capacity : Option Nat) (s : Sys V A)
    (h : Sys.new k a initial capacity = some s) (steps : List (Step V A)) :
    (s.run k steps).queue.length ≤ max initial (capacity.getD usizeMax) := by
  have h0 : s.queue.length ≤ max initial (capacity.getD usizeMax) ∧ s.capacity = capacity := by
    unfold Sys.new at h
    cases hm : createMany k a initial 0 with
    | none => rw [hm] at h; cases h
    | some q =>
      rw [hm] at h; cases h
      obtain ⟨h1, -⟩ := createMany_spec k a initial 0 q hm
      have : q.length = initial := by
        have := congrArg List.length h1
        simpa using this
      refine ⟨?_, rfl⟩
      show q.length ≤ _
      omega
  have key : ∀ (steps : List (Step V A)) (s : Sys V A),
      s.queue.length ≤ max initial (capacity.getD usizeMax) ∧ s.capacity = capacity →
      (steps.foldl (Sys.step k) s).queue.length ≤ max initial (capacity.getD usizeMax) := by
    intro steps
    induction steps with
    | nil => intro s hs; exact hs.1
    | cons st steps ih =>
      intro s hs
      refine ih _ ?_
      obtain ⟨h1, h2⟩ := hs
      cases st with
      | get r a =>
        show (s.get r a).queue.length ≤ _ ∧ (s.get r a).capacity = _
        unfold Sys.get
        split
        · split
          · exact ⟨h1, h2⟩
          · rename_i o q hq
            rw [hq, List.length_cons] at h1
            exact ⟨by show q.length ≤ _; omega, h2⟩
        · exact ⟨h1, h2⟩
      | finish r =>
        show (s.finish k r).queue.length ≤ _ ∧ (s.finish k r).capacity = _
        unfold Sys.finish
        repeat' split
        all_goals exact ⟨h1, h2⟩
      | use r v =>
        show (s.use r v).queue.length ≤ _ ∧ (s.use r v).capacity = _
        unfold Sys.use
        split <;> exact ⟨h1, h2⟩
      | drop r =>
        show (s.drop r).queue.length ≤ _ ∧ (s.drop r).capacity = _
        unfold Sys.drop
        split
        · split
          · rename_i hlt
            refine ⟨?_, h2⟩
            show (s.queue ++ _).length ≤ _
            rw [List.length_append, List.length_singleton]
            rw [h2] at hlt
            omega
          · exact ⟨h1, h2⟩
        · exact ⟨h1, h2⟩
  exact key steps s h0

/-- C72, transparency. If `modify` keeps its contract, no caller can tell a reused object from a new one: every
finished call returned what creating an object with its arguments would have given, an error exactly when creating
would have failed. -/
theorem C72_transparent (k : Kind V A) (Same : V → V → Prop) (hrefl : ∀ v, Same v v) (hk : Lawful k Same) (a : A)
    (initial : Nat) (capacity : Option Nat) (s : Sys V A) (h : Sys.new k a initial capacity = some s)
    (steps : List (Step V A)) :
    ∀ x ∈ (s.run k steps).answers, (k.create x.1 = none ∧ x.2 = none) ∨
      ∃ w v, k.create x.1 = some w ∧ x.2 = some v ∧ Same v w := by
  have h0 : s.answers = [] := by
    unfold Sys.new at h
    cases hm : createMany k a initial 0 with
    | none => rw [hm] at h; cases h
    | some q => rw [hm] at h; cases h; rfl
  have key : ∀ (steps : List (Step V A)) (s : Sys V A),
      (∀ x ∈ s.answers, (k.create x.1 = none ∧ x.2 = none) ∨
        ∃ w v, k.create x.1 = some w ∧ x.2 = some v ∧ Same v w) →
      ∀ x ∈ (steps.foldl (Sys.step k) s).answers, (k.create x.1 = none ∧ x.2 = none) ∨
        ∃ w v, k.create x.1 = some w ∧ x.2 = some v ∧ Same v w := by
    intro steps
    induction steps with
    | nil => intro s hs; exact hs
    | cons st steps ih =>
      intro s hs
      refine ih _ ?_
      cases st with
      | get r a =>
        show ∀ x ∈ (s.get r a).answers, _
        unfold Sys.get
        split
        · split <;> exact hs
        · exact hs
      | use r v =>
        show ∀ x ∈ (s.use r v).answers, _
        unfold Sys.use
        split <;> exact hs
      | drop r =>
        show ∀ x ∈ (s.drop r).answers, _
        unfold Sys.drop
        split
        · split <;> exact hs
        · exact hs
      | finish r =>
        show ∀ x ∈ (s.finish k r).answers, _
        unfold Sys.finish
        split
        · rename_i a' hr
          cases hc : k.create a' with
          | none =>
            intro x hx
            rcases List.mem_cons.1 hx with rfl | hx
            · exact .inl ⟨hc, rfl⟩
            · exact hs x hx
          | some v =>
            intro x hx
            rcases List.mem_cons.1 hx with rfl | hx
            · exact .inr ⟨v, v, hc, rfl, hrefl v⟩
            · exact hs x hx
        · rename_i o a' hr
          obtain ⟨l1, l2⟩ := hk a' o.val
          cases hc : k.create a' with
          | none =>
            rw [l1 hc]
            intro x hx
            rcases List.mem_cons.1 hx with rfl | hx
            · exact .inl ⟨hc, rfl⟩
            · exact hs x hx
          | some w =>
            obtain ⟨v', e1, e2⟩ := l2 w hc
            rw [e1]
            intro x hx
            rcases List.mem_cons.1 hx with rfl | hx
            · exact .inr ⟨w, v', hc, rfl, e2⟩
            · exact hs x hx
        · exact hs
  exact key steps s (by rw [h0]; simp)

/-- C72: pooled vectors keep the contract up to their contents, which are documented as unspecified: they have the
length asked for. -/
theorem C72_vectors {T : Type} (dflt : T) :
    Lawful (undefVec dflt) (fun v w => v.length = w.length) ∧
    ∀ n v, (undefVec dflt).create n = some v → v.length = n := by
  refine ⟨?_, ?_⟩
  · intro n v
    refine ⟨fun h => (by cases h), ?_⟩
    intro w hw
    cases hw
    refine ⟨_, rfl, ?_⟩
    split
    · rw [List.length_take, List.length_replicate]; omega
    · rw [List.length_append, List.length_replicate, List.length_replicate]; omega
  · intro n v h
    cases h
    exact List.length_replicate

/-- The pool hands out what was put back first. -/
theorem C72_reuse_order (k : Kind V A) (s : Sys V A) (r : Nat) (a : A) (o : Obj V) (q : List (Obj V))
    (hr : s.req r = .idle) (hq : s.queue = o :: q) :
    Has (s.step k (.get r a)) r o.uid ∧ (s.step k (.get r a)).queue = q := by
  have : s.step k (.get r a) = { s with queue := q, req := Function.update s.req r (.modifying o a) } := by
    show s.get r a = _
    unfold Sys.get
    rw [hr]
    dsimp only
    rw [hq]
  rw [this]
  exact ⟨(has_modifying (has_self rfl) _).2 rfl, rfl⟩

/-- The request a step belongs to. -/
def Step.owner : Step V A → Nat
  | .get r _ => r
  | .finish r => r
  | .use r _ => r
  | .drop r => r

theorem step_other (k : Kind V A) (s : Sys V A) (st : Step V A) (r : Nat) (h : st.owner ≠ r) :
    (s.step k st).req r = s.req r := by
  have hu : ∀ (q : Nat) (x : Req V A), q ≠ r → Function.update s.req q x r = s.req r :=
    fun q x hq => Function.update_of_ne (Ne.symm hq) x s.req
  cases st with
  | get q a =>
    show (s.get q a).req r = _
    unfold Sys.get
    repeat' split
    all_goals first | rfl | exact hu q _ h
  | finish q =>
    show (s.finish k q).req r = _
    unfold Sys.finish
    repeat' split
    all_goals first | rfl | exact hu q _ h
  | use q v =>
    show (s.use q v).req r = _
    unfold Sys.use
    repeat' split
    all_goals first | rfl | exact hu q _ h
  | drop q =>
    show (s.drop q).req r = _
    unfold Sys.drop
    repeat' split
    all_goals first | rfl | exact hu q _ h

/-- What a holder stores in its object is what it sees afterwards, whatever the other requests do meanwhile; and that
is the object which goes back to the pool when the guard is dropped and there is room. -/
theorem C72_exclusive (k : Kind V A) (s : Sys V A) (r : Nat) (o : Obj V) (v : V) (hr : s.req r = .holding o)
    (steps : List (Step V A)) (ho : ∀ st ∈ steps, st.owner ≠ r) :
    ((s.step k (.use r v)).run k steps).req r = .holding ⟨o.uid, v⟩ ∧
    (((s.step k (.use r v)).run k steps).queue.length < ((s.step k (.use r v)).run k steps).capacity.getD usizeMax →
      (((s.step k (.use r v)).run k steps).step k (.drop r)).queue
        = ((s.step k (.use r v)).run k steps).queue ++ [⟨o.uid, v⟩]) := by
  have h0 : (s.step k (.use r v)).req r = .holding ⟨o.uid, v⟩ := by
    show (s.use r v).req r = _
    unfold Sys.use
    rw [hr]
    exact Function.update_self r _ s.req
  have key : ∀ (steps : List (Step V A)) (t : Sys V A), (∀ st ∈ steps, st.owner ≠ r) → (t.run k steps).req r = t.req r := by
    intro steps
    induction steps with
    | nil => intro t _; rfl
    | cons st steps ih =>
      intro t h
      show ((t.step k st).run k steps).req r = _
      rw [ih _ (fun x hx => h x (List.mem_cons_of_mem _ hx)), step_other k t st r (h st List.mem_cons_self)]
  have h1 : ((s.step k (.use r v)).run k steps).req r = .holding ⟨o.uid, v⟩ := (key steps _ ho).trans h0
  refine ⟨h1, fun hroom => ?_⟩
  generalize (s.step k (.use r v)).run k steps = t at *
  show (t.drop r).queue = _
  unfold Sys.drop
  rw [h1]
  dsimp only
  rw [if_pos hroom]

/-- Two requests on a pool of one vector with capacity one: one reuses it, one makes a new vector; the second guard to
be dropped finds the pool full. -/
example : ∃ s, Sys.new (undefVec (T := Nat) 0) 2 1 (some 1) = some s ∧
    (s.run (undefVec 0) [.get 7 3, .get 8 1, .finish 8, .finish 7, .use 7 [5, 6, 7], .drop 7, .drop 8]).queue =
      [⟨0, [5, 6, 7]⟩] ∧
    (s.run (undefVec 0) [.get 7 3, .get 8 1, .finish 8, .finish 7, .use 7 [5, 6, 7], .drop 7, .drop 8]).dropped = [1] ∧
    (s.run (undefVec 0) [.get 7 3, .get 8 1, .finish 8, .finish 7, .use 7 [5, 6, 7], .drop 7, .drop 8]).answers =
      [(3, some [0, 0, 0]), (1, some [0])] := by
  refine ⟨_, rfl, ?_, ?_, ?_⟩ <;> decide +kernel

end Verif.Pool
