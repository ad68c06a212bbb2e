/-
C115: insertions and removals of a Garnet vector set that run at the same time.

What a user relies on: an element whose insertion answered true, and which nobody removed, is there: it exists,
its vector and its name are stored, and the removal of another element neither drops its list of neighbours nor
the edges that lead to it.  The code frees the id of a removed element before it repairs the graph and deletes
the rest by that id, so this holds only as long as no insertion gets an id that a running removal has looked up
(the two `_partial` theorems and the case of ids that are never reused), and is refuted otherwise.
-/
import Verif.Garnet.RaceLemmas

namespace Verif.Garnet.Race

variable {E V : Type} [DecidableEq E]

/-! ### Specification -/

/-- The steps of any threads in any order: each allowed by `ok`, each state in `P`. -/
inductive Run (cap bound backs : Nat) (ok : Sys E V → Choice E V → Prop) (P : Sys E V → Prop) :
    Sys E V → Sys E V → Prop
  | refl {s} : P s → Run cap bound backs ok P s s
  | step {s s1 s2 t c} : Run cap bound backs ok P s s1 → s1.step cap bound backs t c = some s2 → ok s1 c →
      P s2 → Run cap bound backs ok P s s2

/-- No insertion gets an id that a running removal has looked up. -/
def NotHeld (s : Sys E V) (c : Choice E V) : Prop :=
  ∀ x v i, c = .startInsert x v i → ∀ u, i ∉ (s.th u).held

/-- Ids are not reused: every insertion gets a new one (`reuse_enabled` is off, fsm.rs 321, 356). -/
def Fresh (s : Sys E V) (c : Choice E V) : Prop := ∀ x v i, c = .startInsert x v i → i = s.st.next

/-- Nobody is removing `y`. -/
def NotRemoving (y : E) (s : Sys E V) : Prop := ∀ u, (s.th u).removing ≠ some y

/-- The element `y` exists, as `check_external_id_valid` answers it. -/
def Known (st : Store E V) (y : E) : Prop := ∃ i, st.int y = some i ∧ st.used i = true

/-- The id `i` is in use, with the vector `v` and the name `y`: searches find and report it. -/
def Holds (st : Store E V) (y : E) (v : V) (i : Nat) : Prop :=
  st.used i = true ∧ st.vec i = some v ∧ st.ext i = some y

/-! ### Runs and the invariant -/

theorem inv_run {cap bound backs : Nat} {ok : Sys E V → Choice E V → Prop} {P : Sys E V → Prop} {s s' : Sys E V}
    (hok : ∀ own s c, Inv own s → ok s c → Quiet s c) (h : Run cap bound backs ok P s s')
    (hs : ∃ own, Inv own s) : ∃ own, Inv own s' := by
  induction h with
  | refl _ => exact hs
  | step _ h1 h2 _ ih =>
    obtain ⟨own, hi⟩ := ih
    exact hi.step (hok _ _ _ hi h2) h1

theorem kept_run {cap bound backs : Nat} {ok : Sys E V → Choice E V → Prop} {s s' : Sys E V} {y : E}
    (hok : ∀ own s c, Inv own s → ok s c → Quiet s c) (h : Run cap bound backs ok (NotRemoving y) s s')
    (hs : ∃ own, Inv own s) {t : Nat} (ht : s.th t = .idle) {v : V} {i : Nat}
    (hp : (s'.th t).post = some (y, v, i)) : Holds s'.st y v i ∧ s'.st.int y ≠ none := by
  suffices hn : NotRemoving y s' ∧ ((s'.th t).post = some (y, v, i) → Holds s'.st y v i ∧ s'.st.int y ≠ none) from
    hn.2 hp
  clear hp
  induction h with
  | refl hP => exact ⟨hP, by simp [ht, Thread.post]⟩
  | step hr h1 h2 hP ih =>
    refine ⟨hP, fun hp => ?_⟩
    obtain ⟨hn, hi⟩ := ih
    obtain ⟨own, hI⟩ := inv_run hok hr hs
    rcases post_step h1 t hp with h | ⟨rfl, h, e⟩
    · obtain ⟨⟨hu, hv, he⟩, hint⟩ := hi h
      have hk := hI.keep (hok _ _ _ hI h2) h1 hn hv he hu
      exact ⟨⟨hk.2.2, hk.1, hk.2.1⟩, Inv.keepInt h1 hn hint⟩
    · have hw := hI.we _ _ _ _ h
      have hu := (hI.pre _ _ _ (pre_of (.inr (.inr h)))).1
      rw [e]
      exact ⟨⟨hu, hw.1, hw.2⟩, by simp [upd]⟩

omit [DecidableEq E] in
theorem known_of {s : Sys E V} {y : E} (hs : ∃ own, Inv own s) (h : s.st.int y ≠ none) : Known s.st y := by
  obtain ⟨own, hi⟩ := hs
  cases e : s.st.int y with
  | none => exact absurd e h
  | some i => exact ⟨i, e, (hi.int _ _ e).2⟩

omit [DecidableEq E] in
theorem fresh_quiet (own : Nat → Option E) (s : Sys E V) (c : Choice E V) (hi : Inv own s) (h : Fresh s c) :
    Quiet s c := by
  intro x v i hc u hu
  have := hi.heldLt u i hu
  rw [h x v i hc] at this
  exact Nat.lt_irrefl _ this

/-! ### Theorems -/

/-- Proved part: as long as no insertion gets an id that a running removal has looked up, in every interleaving
of any number of insertions and removals, an insertion that began when nobody was removing that element and has
answered true has stored it, and it stays until somebody starts to remove it: it exists and its id carries its
vector and its name, whatever other elements are inserted and removed, be it several times at once.
Missing: an insertion may get such an id (`C115_reuse_refuted`, `C115_double_remove_refuted`). -/
theorem C115_kept_partial (cap bound backs : Nat) (v0 : V) {s s' : Sys E V} {t : Nat} {y : E} {v : V} {i : Nat}
    (h0 : Run cap bound backs NotHeld (fun _ => True) (Sys.new v0) s) (ht : s.th t = .idle)
    (h : Run cap bound backs NotHeld (NotRemoving y) s s') (hd : s'.th t = .inserted y v i) :
    Known s'.st y ∧ Holds s'.st y v i := by
  have hok : ∀ own (s : Sys E V) c, Inv own s → NotHeld s c → Quiet s c := fun _ _ _ _ h => h
  have hi := inv_run hok h0 ⟨_, Inv.new v0⟩
  have hk := kept_run hok h hi ht (v := v) (i := i) (by rw [hd]; rfl)
  exact ⟨known_of (inv_run hok h hi) hk.2, hk.1⟩

/-- While ids are not reused (before a quantized set works with codes) the same holds without exception. -/
theorem C115_fresh_kept (cap bound backs : Nat) (v0 : V) {s s' : Sys E V} {t : Nat} {y : E} {v : V} {i : Nat}
    (h0 : Run cap bound backs Fresh (fun _ => True) (Sys.new v0) s) (ht : s.th t = .idle)
    (h : Run cap bound backs Fresh (NotRemoving y) s s') (hd : s'.th t = .inserted y v i) :
    Known s'.st y ∧ Holds s'.st y v i := by
  have hi := inv_run fresh_quiet h0 ⟨_, Inv.new v0⟩
  have hk := kept_run fresh_quiet h hi ht (v := v) (i := i) (by rw [hd]; rfl)
  exact ⟨known_of (inv_run fresh_quiet h hi) hk.2, hk.1⟩

theorem extend_mem {l : List Nat} {e : Nat} (h : e ∈ l) (ts : List Nat) : e ∈ extend l ts := by
  induction ts generalizing l with
  | nil => exact h
  | cons t ts ih =>
    simp only [extend]
    split
    · exact ih h
    · exact ih (List.mem_append_left _ h)

theorem extend_length (l ts : List Nat) : (extend l ts).length ≤ l.length + ts.length := by
  induction ts generalizing l with
  | nil => simp [extend]
  | cons t ts ih =>
    simp only [extend]
    split
    · have := ih l; simp; omega
    · have := ih (l ++ [t]); simp at this ⊢; omega

theorem append_mem {cap : Nat} {l : List Nat} {e : Nat} (h : e ∈ l) (ts : List Nat) : e ∈ append cap l ts := by
  induction ts generalizing l with
  | nil => exact h
  | cons t ts ih =>
    simp only [append]
    split
    · exact h
    · split
      · exact ih h
      · exact ih (List.mem_append_left _ h)

omit [DecidableEq E] in
theorem writeList_keeps {cap bound : Nat} {i : Nat} {targets read now l : List Nat} {c : Choice E V}
    (h : writeList cap bound (some i) targets read now c = some l) (hb : read.length + targets.length ≤ bound)
    {e : Nat} (h1 : e ∈ read) (h2 : e ∈ now) (h3 : e ≠ i) : e ∈ l := by
  unfold writeList at h
  split at h
  · rename_i l' he
    cases h
    unfold edgeWrite at he
    simp only at he
    split at he
    · cases he; exact h2
    · split at he
      · split at he <;> cases he
        · exact extend_mem (by simpa [h1] using fun e' => h3 e'.symm) _
        · exact append_mem h2 _
      · cases he
  · rename_i l' he
    unfold edgeWrite at he
    simp only at he
    split at he
    · cases he
    · split at he
      · split at he <;> cases he
      · rename_i hn
        have := extend_length (read.filter fun e => decide (some i ≠ some e)) targets
        have hle := List.length_filter_le (fun e => decide (some i ≠ some e)) read
        omega
  · cases h

/-- Proved part, lists of neighbours: in the same interleavings, a step of the removal of `x` changes the list
of another element `y` only to add its replacement edges.  It never drops that list.  An edge that was there
when the removal read the list, and still is, stays, unless the list became too long and is pruned or the edge
leads to the id of `x`; and that id belongs to no other element.
Missing: ids that are handed out while a removal has looked them up (`C115_reuse_refuted`), and edges that are
added after the list was read (`C115_lost_edge_refuted`). -/
theorem C115_lists_partial (cap bound backs : Nat) (v0 : V) {s s' : Sys E V} {t : Nat} {c : Choice E V} {x y : E}
    {k : Nat} (h0 : Run cap bound backs NotHeld (fun _ => True) (Sys.new v0) s)
    (hs : s.step cap bound backs t c = some s') (hx : (s.th t).removing = some x) (hk : s.st.ext k = some y)
    (hy : y ≠ x) :
    s'.st.lists k = s.st.lists k ∨
      ∃ i targets read todo, s.th t = .repairRead x i k targets read todo ∧ (∀ z, z ≠ x → s.st.ext i ≠ some z) ∧
        (read.length + targets.length ≤ bound →
          ∀ e, e ∈ read → e ∈ s.st.lists k → e ≠ i → e ∈ s'.st.lists k) := by
  have hok : ∀ own (s : Sys E V) c, Inv own s → NotHeld s c → Quiet s c := fun _ _ _ _ h => h
  obtain ⟨own, hi⟩ := inv_run hok h0 ⟨_, Inv.new v0⟩
  have held : ∀ j, j ∈ (s.th t).held → ∀ z, z ≠ x → s.st.ext j ≠ some z := by
    intro j hj z hz he
    have h1 := hi.hold t x j hx hj
    rw [hi.ext _ _ he] at h1
    exact hz (Option.some.inj h1)
  obtain ⟨r, hr, rfl⟩ := sys_step hs
  cases ht : s.th t <;> rw [ht] at hr hx held <;> simp only [Race.step] at hr <;>
    simp only [Thread.removing, Option.some.injEq, reduceCtorEq] at hx
  case checked =>
    split at hr <;> cases hr <;> exact .inl rfl
  case found =>
    split at hr <;> cases hr <;> exact .inl rfl
  case deleted =>
    split at hr <;> cases hr; exact .inl rfl
  case deleting p ok =>
    split at hr
    · match p, hr with
      | 0, hr => cases hr; exact .inl rfl
      | 1, hr => cases hr; exact .inl rfl
      | 2, hr => cases hr; exact .inl rfl
      | 3, hr => cases hr; exact .inl rfl
    · cases hr
  case repairing i todo =>
    split at hr <;> cases hr
    · left
      have hne : k ≠ i := by
        intro e
        subst e
        exact held k (by simp [Thread.held]) y hy hk
      simp [upd, hne]
    · exact .inl rfl
  case repairRead x' i src targets read todo =>
    subst hx
    split at hr <;> cases hr
    rename_i l hl
    by_cases hks : k = src
    · subst hks
      right
      refine ⟨i, targets, read, todo, rfl, held i (by simp [Thread.held]), ?_⟩
      intro hb e h1 h2 h3
      simpa [upd] using writeList_keeps hl hb h1 h2 h3
    · left
      simp [upd, hks]

/-! ### What the code does not guarantee -/

/-- One whole insertion by thread `t` under id `i` with the only neighbour 0. -/
def insertAll (t x v i : Nat) : List (Nat × Choice Nat Nat) :=
  [(t, .startInsert x v i), (t, .go), (t, .go), (t, .go), (t, .link [0]), (t, .go), (t, .go), (t, .go)]

/-- A removal by thread `t` up to the point where the id is free again. -/
def removeRecords (t x : Nat) : List (Nat × Choice Nat Nat) :=
  [(t, .startRemove x), (t, .go), (t, .go), (t, .go), (t, .go), (t, .go), (t, .go)]

/-- The elements that the calls in a list of steps start to remove. -/
def removals (l : List (Nat × Choice Nat Nat)) : List Nat :=
  l.filterMap fun tc => match tc.2 with | .startRemove x => some x | _ => none

/-- The ids that the calls in a list of steps get. -/
def takenIds (l : List (Nat × Choice Nat Nat)) : List Nat :=
  l.filterMap fun tc => match tc.2 with | .startInsert _ _ i => some i | _ => none

/-- The id of an element is free before its removal has repaired the graph.  An insertion that gets it in
between answers true, and nobody removes the new element; but the rest of the removal drops the edge from the
start point to it and then its list: both calls have answered true and no search can reach the element. -/
theorem C115_reuse_refuted : ∃ (l : List (Nat × Choice Nat Nat)) (s : Sys Nat Nat),
    (Sys.new 7 : Sys Nat Nat).run 4 4 4 l = some s ∧ 20 ∉ removals l ∧ s.th 2 = .inserted 20 8 1 ∧
      s.th 1 = .removed 10 ∧ s.st.vec 1 = some 8 ∧ ∀ k, s.st.lists k = [] :=
  ⟨insertAll 0 10 5 1 ++ removeRecords 1 10 ++ [(1, .plan [(0, [])])] ++ insertAll 2 20 8 1 ++
      [(1, .go), (1, .go), (1, .go)], _, rfl, by decide, rfl, rfl, rfl, by
    intro k
    by_cases h0 : k = 0
    · subst h0; decide
    · by_cases h1 : k = 1
      · subst h1; decide
      · simp [upd, h0, h1, deletePhase, Sys.new]⟩

/-- Two removals of the same element at once, and an insertion of another one: the slower removal deletes by the
id it looked up, which now belongs to the other element.  That insertion answered true and nobody removed the
element, but its vector and its name are gone and its id is free. -/
theorem C115_double_remove_refuted : ∃ (l : List (Nat × Choice Nat Nat)) (s : Sys Nat Nat),
    (Sys.new 7 : Sys Nat Nat).run 4 4 4 l = some s ∧ 20 ∉ removals l ∧ s.th 3 = .inserted 20 8 1 ∧
      s.th 2 = .removed 10 ∧ s.th 1 = .failed 10 ∧
      s.st.vec 1 = none ∧ s.st.ext 1 = none ∧ s.st.int 20 = some 1 ∧ s.st.used 1 = false :=
  ⟨insertAll 0 10 5 1 ++ [(1, .startRemove 10), (1, .go), (1, .go)] ++ removeRecords 2 10 ++
      [(2, .plan [(0, [])]), (2, .go), (2, .go), (2, .go)] ++ insertAll 3 20 8 1 ++
      [(1, .go), (1, .go), (1, .go), (1, .go)], _, rfl, by decide, rfl, rfl, rfl, rfl, rfl, rfl, rfl⟩

/-- Edges are added by reading a list and writing it later.  Even if no id is handed out twice, an edge that an
insertion adds in between is lost: both calls answer true, and no list leads to the new element. -/
theorem C115_lost_edge_refuted : ∃ (l : List (Nat × Choice Nat Nat)) (s : Sys Nat Nat),
    (Sys.new 7 : Sys Nat Nat).run 4 4 4 l = some s ∧ 20 ∉ removals l ∧ (takenIds l).Nodup ∧
      s.th 2 = .inserted 20 8 2 ∧ s.th 1 = .removed 10 ∧ ∀ k, 2 ∉ s.st.lists k :=
  ⟨insertAll 0 10 5 1 ++ removeRecords 1 10 ++ [(1, .plan [(0, [])]), (1, .go)] ++ insertAll 2 20 8 2 ++
      [(1, .go), (1, .go)], _, rfl, by decide, by decide, rfl, rfl, by
    intro k
    by_cases h0 : k = 0
    · subst h0; decide
    · by_cases h1 : k = 1
      · subst h1; decide
      · by_cases h2 : k = 2
        · subst h2; decide
        · simp [upd, h0, h1, h2, deletePhase, Sys.new]⟩

/-! ### Examples -/

theorem removing_step {cap bound backs : Nat} {s s' : Sys E V} {t : Nat} {c : Choice E V} {y : E}
    (hs : s.step cap bound backs t c = some s') (hc : c ≠ .startRemove y) (hn : NotRemoving y s) :
    NotRemoving y s' := by
  intro u hu
  obtain ⟨r, hr, rfl⟩ := sys_step hs
  by_cases e : u = t
  · subst e
    have hn' := hn u
    simp only [upd, if_pos] at hu
    cases ht : s.th u <;> rw [ht] at hr hn' <;> simp only [Race.step] at hr
    case deleting x k j p ok =>
      split at hr
      · match p, hr with
        | 0, hr => cases hr; exact hn' hu
        | 1, hr => cases hr; exact hn' hu
        | 2, hr => cases hr; exact hn' hu
        | 3, hr =>
          cases hr
          split at hu
          · exact hn' hu
          · simp [Thread.removing] at hu
      · cases hr
    case idle =>
      split at hr
      · split at hr <;> cases hr
        simp [Thread.removing] at hu
      · split at hr <;> cases hr
        · simp [Thread.removing] at hu
        · split at hu
          · simp only [Thread.removing, Option.some.injEq] at hu
            exact hc (by rw [hu])
          · simp [Thread.removing] at hu
      · cases hr
    all_goals first
      | (split at hr <;> cases hr <;> first | exact hn' hu | (simp [Thread.removing] at hu))
      | cases hr
  · simp only [upd, if_neg e] at hu
    exact hn u hu

/-- Whether every insertion in a list of steps gets a new id. -/
def freshRun (cap bound backs : Nat) (s : Sys Nat Nat) : List (Nat × Choice Nat Nat) → Bool
  | [] => true
  | tc :: l =>
    (match tc.2 with | .startInsert _ _ i => i == s.st.next | _ => true) &&
      match s.step cap bound backs tc.1 tc.2 with
      | some s' => freshRun cap bound backs s' l
      | none => false

theorem run_of {cap bound backs y : Nat} (s0 : Sys Nat Nat) (l : List (Nat × Choice Nat Nat)) {s s' : Sys Nat Nat}
    (h0 : Run cap bound backs Fresh (NotRemoving y) s0 s) (hs : NotRemoving y s)
    (h : s.run cap bound backs l = some s') (hf : freshRun cap bound backs s l = true) (hy : y ∉ removals l) :
    Run cap bound backs Fresh (NotRemoving y) s0 s' := by
  induction l generalizing s with
  | nil => cases h; exact h0
  | cons tc l ih =>
    simp only [Sys.run] at h
    simp only [freshRun, Bool.and_eq_true] at hf
    split at h
    · rename_i s1 e
      have hc : tc.2 ≠ .startRemove y := by
        intro e'
        apply hy
        simp [removals, e']
      have hn := removing_step e hc hs
      refine ih (h0.step e ?_ hn) hn h ?_ ?_
      · intro x v i e'
        have := hf.1
        rw [e'] at this
        simpa using this
      · have := hf.2
        rw [e] at this
        exact this
      · intro hm
        apply hy
        simp only [removals, List.filterMap_cons]
        split
        · exact hm
        · exact List.mem_cons_of_mem _ hm
    · cases h

/-- An element is inserted, then another one under a new id while the first one is being removed. -/
def story : List (Nat × Choice Nat Nat) :=
  insertAll 0 10 5 1 ++ removeRecords 1 10 ++ insertAll 2 20 8 2 ++
    [(1, .plan [(0, [])]), (1, .go), (1, .go), (1, .go)]

example : ∃ s : Sys Nat Nat, (Sys.new 7 : Sys Nat Nat).run 4 4 4 story = some s ∧ s.th 2 = .inserted 20 8 2 ∧
      s.th 1 = .removed 10 ∧ s.st.lists 0 = [2] ∧ s.st.lists 1 = [] ∧ s.st.lists 2 = [0] :=
  ⟨_, rfl, rfl, rfl, rfl, rfl, rfl⟩

/-- The hypotheses of `C115_fresh_kept` are met by this story. -/
example : ∃ s : Sys Nat Nat, Run 4 4 4 Fresh (NotRemoving 20) (Sys.new 7) s ∧ s.th 2 = .inserted 20 8 2 ∧
    Known s.st 20 ∧ Holds s.st 20 8 2 := by
  have h : Run 4 4 4 Fresh (NotRemoving 20) (Sys.new 7 : Sys Nat Nat) _ :=
    run_of (Sys.new 7) story (.refl (by intro u; simp [Sys.new, Thread.removing]))
      (by intro u; simp [Sys.new, Thread.removing]) rfl (by decide) (by decide)
  exact ⟨_, h, rfl, C115_fresh_kept 4 4 4 7 (t := 2) (.refl trivial) rfl h rfl⟩

theorem notHeld_of_fresh {cap bound backs : Nat} {P : Sys E V → Prop} {v0 : V} {s : Sys E V}
    (h : Run cap bound backs Fresh P (Sys.new v0) s) : Run cap bound backs NotHeld P (Sys.new v0) s := by
  generalize h0 : (Sys.new v0 : Sys E V) = s0 at h
  induction h with
  | refl hp => exact .refl hp
  | step hr h1 h2 hp ih =>
    subst h0
    obtain ⟨own, hi⟩ := inv_run fresh_quiet hr ⟨_, Inv.new v0⟩
    exact ih.step h1 (fresh_quiet own _ _ hi h2) hp

/-- And so are those of `C115_kept_partial`. -/
example : ∃ s : Sys Nat Nat, Run 4 4 4 NotHeld (NotRemoving 20) (Sys.new 7) s ∧ s.th 2 = .inserted 20 8 2 := by
  have h : Run 4 4 4 Fresh (NotRemoving 20) (Sys.new 7 : Sys Nat Nat) _ :=
    run_of (Sys.new 7) story (.refl (by intro u; simp [Sys.new, Thread.removing]))
      (by intro u; simp [Sys.new, Thread.removing]) rfl (by decide) (by decide)
  exact ⟨_, notHeld_of_fresh h, rfl⟩

/-- Two elements, the second one linked to the first; the first one is removed up to the point where the list
of the second one has been read. -/
def story2 : List (Nat × Choice Nat Nat) :=
  insertAll 0 10 5 1 ++
    [(2, .startInsert 20 8 2), (2, .go), (2, .go), (2, .go), (2, .link [0, 1]), (2, .go), (2, .go), (2, .go),
      (2, .go), (2, .go)] ++ removeRecords 1 10 ++ [(1, .plan [(2, [])]), (1, .go)]

/-- The hypotheses of `C115_lists_partial` are met, and the list of element 20 loses only the edge to id 1. -/
example : ∃ s s' : Sys Nat Nat, Run 4 4 4 NotHeld (NotRemoving 20) (Sys.new 7) s ∧
    s.step 4 4 4 1 .go = some s' ∧ (s.th 1).removing = some 10 ∧ s.st.ext 2 = some 20 ∧
    s.st.lists 2 = [0, 1] ∧ s'.st.lists 2 = [0] := by
  have h : Run 4 4 4 Fresh (NotRemoving 20) (Sys.new 7 : Sys Nat Nat) _ :=
    run_of (Sys.new 7) story2 (.refl (by intro u; simp [Sys.new, Thread.removing]))
      (by intro u; simp [Sys.new, Thread.removing]) rfl (by decide) (by decide)
  exact ⟨_, _, notHeld_of_fresh h, rfl, rfl, rfl, rfl, rfl⟩

/-- `held`: after the records are deleted the removal still works on id 1, which is free. -/
example : ∃ s : Sys Nat Nat,
    (Sys.new 7 : Sys Nat Nat).run 4 4 4 (insertAll 0 10 5 1 ++ removeRecords 1 10) = some s ∧
      (s.th 1).held = [1] ∧ (s.th 1).removing = some 10 ∧ s.st.used 1 = false :=
  ⟨_, rfl, rfl, rfl, rfl⟩

/-- A removal that adds replacement edges: the edge to the removed id goes, the others stay. -/
example : edgeWrite 4 4 (some 1) [3] [1, 2] [1, 2] = some [2, 3] := by decide
example : edgeWrite 4 4 (some 1) [3] [2] [2, 5] = some [2, 5, 3] := by decide
example : edgeWrite 4 4 none [1] [2, 1] [2, 1] = some [2, 1] := by decide
example : edgeWrite 2 2 none [1] [2, 3] [2, 3] = none := by decide

end Verif.Garnet.Race
