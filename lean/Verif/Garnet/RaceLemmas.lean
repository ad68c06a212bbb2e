/-
Helper lemmas for `RaceProps.lean`: an invariant of the interleavings in which an insertion never gets an id
that a running removal has looked up.
-/
import Verif.Garnet.RaceModel

namespace Verif.Garnet.Race

variable {E V : Type} [DecidableEq E]

/-- An insertion that has an id and has not written the mapping to it yet. -/
def Thread.pre : Thread E V → Option (E × Nat)
  | .took x _ i => some (x, i)
  | .wroteVec x _ i => some (x, i)
  | .wroteExt x _ i => some (x, i)
  | _ => none

/-- The invariant; `own i` is the last element that got the id `i`. -/
structure Inv (own : Nat → Option E) (s : Sys E V) : Prop where
  pre : ∀ t x i, (s.th t).pre = some (x, i) →
    s.st.used i = true ∧ own i = some x ∧ (∀ z, s.st.int z ≠ some i) ∧ ∀ u, i ∉ (s.th u).held
  preU : ∀ t u x y i, (s.th t).pre = some (x, i) → (s.th u).pre = some (y, i) → t = u
  tk : ∀ t x v i, s.th t = .took x v i → s.st.ext i = none
  wv : ∀ t x v i, s.th t = .wroteVec x v i → s.st.vec i = some v
  we : ∀ t x v i, s.th t = .wroteExt x v i → s.st.vec i = some v ∧ s.st.ext i = some x
  int : ∀ x i, s.st.int x = some i → own i = some x ∧ s.st.used i = true
  ext : ∀ x i, s.st.ext i = some x → own i = some x
  hold : ∀ t x i, (s.th t).removing = some x → i ∈ (s.th t).held → own i = some x
  ph : ∀ t x i j p ok, s.th t = .deleting x i j p ok →
    (1 ≤ p.val → s.st.ext j = none) ∧ (2 ≤ p.val → s.st.int x ≠ some j) ∧ (3 ≤ p.val → s.st.vec j = none)
  free : ∀ i, s.st.used i = false → s.st.ext i = none ∧ s.st.vec i = none
  lt : ∀ i, s.st.used i = true → i < s.st.next
  heldLt : ∀ t i, i ∈ (s.th t).held → i < s.st.next

omit [DecidableEq E] in
theorem Inv.new (v0 : V) : Inv (fun _ => none) (Sys.new v0 : Sys E V) := by
  constructor <;> simp [Sys.new, Thread.pre, Thread.removing, Thread.held]
  

/-- The step does not hand out an id that a running removal has looked up. -/
def Quiet (s : Sys E V) (c : Choice E V) : Prop :=
  ∀ x v i, c = .startInsert x v i → ∀ u, i ∉ (s.th u).held

theorem sys_step {cap bound backs : Nat} {s s' : Sys E V} {t : Nat} {c : Choice E V}
    (h : s.step cap bound backs t c = some s') :
    ∃ r, step cap bound backs s.st c (s.th t) = some r ∧ s' = ⟨r.1, upd s.th t r.2⟩ := by
  unfold Sys.step at h
  split at h
  · exact ⟨_, by assumption, by simpa using h.symm⟩
  · simp at h

omit [DecidableEq E] in
theorem pre_of {s : Sys E V} {t : Nat} {x : E} {v : V} {i : Nat}
    (h : s.th t = .took x v i ∨ s.th t = .wroteVec x v i ∨ s.th t = .wroteExt x v i) :
    (s.th t).pre = some (x, i) := by
  rcases h with h | h | h <;> simp [h, Thread.pre]

omit [DecidableEq E] in
theorem held_of {s : Sys E V} {t : Nat} {x : E} {i j : Nat} {p : Fin 4} {ok : Bool}
    (h : s.th t = .deleting x i j p ok) :
    i ∈ (s.th t).held ∧ j ∈ (s.th t).held ∧ (s.th t).removing = some x := by
  simp [h, Thread.held, Thread.removing]

theorem Inv.took {own : Nat → Option E} {s : Sys E V} (h : Inv own s) {t : Nat} {x : E} {v : V} {i : Nat}
    (ht : s.th t = .took x v i) :
    Inv own ⟨{ s.st with vec := upd s.st.vec i (some v) }, upd s.th t (.wroteVec x v i)⟩ := by
  obtain ⟨h1, h2, h3, h4, h5, h6, h7, h8, h9, h10, h11, h12⟩ := h
  have p1 : ∀ t x v i, s.th t = .took x v i → (s.th t).pre = some (x, i) := fun t x v i e => pre_of (.inl e)
  have p2 : ∀ t x v i, s.th t = .wroteVec x v i → (s.th t).pre = some (x, i) :=
    fun t x v i e => pre_of (.inr (.inl e))
  have p3 : ∀ t x v i, s.th t = .wroteExt x v i → (s.th t).pre = some (x, i) :=
    fun t x v i e => pre_of (.inr (.inr e))
  have p4 : ∀ t x i j p ok, s.th t = .deleting x i j p ok →
      i ∈ (s.th t).held ∧ j ∈ (s.th t).held ∧ (s.th t).removing = some x := fun t x i j p ok e => held_of e
  constructor <;> grind [upd, Thread.pre, Thread.held, Thread.removing]

theorem Inv.wroteVec {own : Nat → Option E} {s : Sys E V} (h : Inv own s) {t : Nat} {x : E} {v : V} {i : Nat}
    (ht : s.th t = .wroteVec x v i) :
    Inv own ⟨{ s.st with ext := upd s.st.ext i (some x) }, upd s.th t (.wroteExt x v i)⟩ := by
  obtain ⟨h1, h2, h3, h4, h5, h6, h7, h8, h9, h10, h11, h12⟩ := h
  have p1 : ∀ t x v i, s.th t = .took x v i → (s.th t).pre = some (x, i) := fun t x v i e => pre_of (.inl e)
  have p2 : ∀ t x v i, s.th t = .wroteVec x v i → (s.th t).pre = some (x, i) :=
    fun t x v i e => pre_of (.inr (.inl e))
  have p3 : ∀ t x v i, s.th t = .wroteExt x v i → (s.th t).pre = some (x, i) :=
    fun t x v i e => pre_of (.inr (.inr e))
  have p4 : ∀ t x i j p ok, s.th t = .deleting x i j p ok →
      i ∈ (s.th t).held ∧ j ∈ (s.th t).held ∧ (s.th t).removing = some x := fun t x i j p ok e => held_of e
  constructor <;> grind [upd, Thread.pre, Thread.held, Thread.removing]

theorem Inv.wroteExt {own : Nat → Option E} {s : Sys E V} (h : Inv own s) {t : Nat} {x : E} {v : V} {i : Nat}
    (ht : s.th t = .wroteExt x v i) :
    Inv own ⟨{ s.st with int := upd s.st.int x (some i) }, upd s.th t (.stored x v i)⟩ := by
  obtain ⟨h1, h2, h3, h4, h5, h6, h7, h8, h9, h10, h11, h12⟩ := h
  have p1 : ∀ t x v i, s.th t = .took x v i → (s.th t).pre = some (x, i) := fun t x v i e => pre_of (.inl e)
  have p2 : ∀ t x v i, s.th t = .wroteVec x v i → (s.th t).pre = some (x, i) :=
    fun t x v i e => pre_of (.inr (.inl e))
  have p3 : ∀ t x v i, s.th t = .wroteExt x v i → (s.th t).pre = some (x, i) :=
    fun t x v i e => pre_of (.inr (.inr e))
  have p4 : ∀ t x i j p ok, s.th t = .deleting x i j p ok →
      i ∈ (s.th t).held ∧ j ∈ (s.th t).held ∧ (s.th t).removing = some x := fun t x i j p ok e => held_of e
  constructor <;> grind [upd, Thread.pre, Thread.held, Thread.removing]

theorem Inv.take {own : Nat → Option E} {s : Sys E V} (h : Inv own s) {t : Nat} {x : E} {v : V} {i : Nat}
    (ht : s.th t = .idle) (hu : s.st.used i = false) (hq : ∀ u, i ∉ (s.th u).held) :
    Inv (upd own i (some x)) ⟨{ s.st with used := upd s.st.used i true, next := max s.st.next (i + 1) }, upd s.th t (.took x v i)⟩ := by
  obtain ⟨h1, h2, h3, h4, h5, h6, h7, h8, h9, h10, h11, h12⟩ := h
  have p1 : ∀ t x v i, s.th t = .took x v i → (s.th t).pre = some (x, i) := fun t x v i e => pre_of (.inl e)
  have p2 : ∀ t x v i, s.th t = .wroteVec x v i → (s.th t).pre = some (x, i) :=
    fun t x v i e => pre_of (.inr (.inl e))
  have p3 : ∀ t x v i, s.th t = .wroteExt x v i → (s.th t).pre = some (x, i) :=
    fun t x v i e => pre_of (.inr (.inr e))
  have p4 : ∀ t x i j p ok, s.th t = .deleting x i j p ok →
      i ∈ (s.th t).held ∧ j ∈ (s.th t).held ∧ (s.th t).removing = some x := fun t x i j p ok e => held_of e
  constructor <;> grind [upd, Thread.pre, Thread.held, Thread.removing]

theorem Inv.checked {own : Nat → Option E} {s : Sys E V} (h : Inv own s) {t : Nat} {x : E} {i : Nat}
    (ht : s.th t = .checked x) (hi : s.st.int x = some i) :
    Inv own ⟨s.st, upd s.th t (.found x i)⟩ := by
  obtain ⟨h1, h2, h3, h4, h5, h6, h7, h8, h9, h10, h11, h12⟩ := h
  have p1 : ∀ t x v i, s.th t = .took x v i → (s.th t).pre = some (x, i) := fun t x v i e => pre_of (.inl e)
  have p2 : ∀ t x v i, s.th t = .wroteVec x v i → (s.th t).pre = some (x, i) :=
    fun t x v i e => pre_of (.inr (.inl e))
  have p3 : ∀ t x v i, s.th t = .wroteExt x v i → (s.th t).pre = some (x, i) :=
    fun t x v i e => pre_of (.inr (.inr e))
  have p4 : ∀ t x i j p ok, s.th t = .deleting x i j p ok →
      i ∈ (s.th t).held ∧ j ∈ (s.th t).held ∧ (s.th t).removing = some x := fun t x i j p ok e => held_of e
  constructor <;> grind [upd, Thread.pre, Thread.held, Thread.removing]

theorem Inv.found {own : Nat → Option E} {s : Sys E V} (h : Inv own s) {t : Nat} {x : E} {i j : Nat}
    (ht : s.th t = .found x i) (hi : s.st.int x = some j) :
    Inv own ⟨s.st, upd s.th t (.deleting x i j 0 true)⟩ := by
  obtain ⟨h1, h2, h3, h4, h5, h6, h7, h8, h9, h10, h11, h12⟩ := h
  have p1 : ∀ t x v i, s.th t = .took x v i → (s.th t).pre = some (x, i) := fun t x v i e => pre_of (.inl e)
  have p2 : ∀ t x v i, s.th t = .wroteVec x v i → (s.th t).pre = some (x, i) :=
    fun t x v i e => pre_of (.inr (.inl e))
  have p3 : ∀ t x v i, s.th t = .wroteExt x v i → (s.th t).pre = some (x, i) :=
    fun t x v i e => pre_of (.inr (.inr e))
  have p4 : ∀ t x i j p ok, s.th t = .deleting x i j p ok →
      i ∈ (s.th t).held ∧ j ∈ (s.th t).held ∧ (s.th t).removing = some x := fun t x i j p ok e => held_of e
  constructor <;> grind [upd, Thread.pre, Thread.held, Thread.removing]

theorem Inv.del0 {own : Nat → Option E} {s : Sys E V} (h : Inv own s) {t : Nat} {x : E} {i j : Nat} {ok ok' : Bool}
    (ht : s.th t = .deleting x i j 0 ok) :
    Inv own ⟨{ s.st with ext := upd s.st.ext j none }, upd s.th t (.deleting x i j 1 ok')⟩ := by
  obtain ⟨h1, h2, h3, h4, h5, h6, h7, h8, h9, h10, h11, h12⟩ := h
  have p1 : ∀ t x v i, s.th t = .took x v i → (s.th t).pre = some (x, i) := fun t x v i e => pre_of (.inl e)
  have p2 : ∀ t x v i, s.th t = .wroteVec x v i → (s.th t).pre = some (x, i) :=
    fun t x v i e => pre_of (.inr (.inl e))
  have p3 : ∀ t x v i, s.th t = .wroteExt x v i → (s.th t).pre = some (x, i) :=
    fun t x v i e => pre_of (.inr (.inr e))
  have p4 : ∀ t x i j p ok, s.th t = .deleting x i j p ok →
      i ∈ (s.th t).held ∧ j ∈ (s.th t).held ∧ (s.th t).removing = some x := fun t x i j p ok e => held_of e
  constructor <;> grind [upd, Thread.pre, Thread.held, Thread.removing]

theorem Inv.del1 {own : Nat → Option E} {s : Sys E V} (h : Inv own s) {t : Nat} {x : E} {i j : Nat} {ok ok' : Bool}
    (ht : s.th t = .deleting x i j 1 ok) :
    Inv own ⟨{ s.st with int := upd s.st.int x none }, upd s.th t (.deleting x i j 2 ok')⟩ := by
  obtain ⟨h1, h2, h3, h4, h5, h6, h7, h8, h9, h10, h11, h12⟩ := h
  have p1 : ∀ t x v i, s.th t = .took x v i → (s.th t).pre = some (x, i) := fun t x v i e => pre_of (.inl e)
  have p2 : ∀ t x v i, s.th t = .wroteVec x v i → (s.th t).pre = some (x, i) :=
    fun t x v i e => pre_of (.inr (.inl e))
  have p3 : ∀ t x v i, s.th t = .wroteExt x v i → (s.th t).pre = some (x, i) :=
    fun t x v i e => pre_of (.inr (.inr e))
  have p4 : ∀ t x i j p ok, s.th t = .deleting x i j p ok →
      i ∈ (s.th t).held ∧ j ∈ (s.th t).held ∧ (s.th t).removing = some x := fun t x i j p ok e => held_of e
  constructor <;> grind [upd, Thread.pre, Thread.held, Thread.removing]

theorem Inv.del2 {own : Nat → Option E} {s : Sys E V} (h : Inv own s) {t : Nat} {x : E} {i j : Nat} {ok ok' : Bool}
    (ht : s.th t = .deleting x i j 2 ok) :
    Inv own ⟨{ s.st with vec := upd s.st.vec j none }, upd s.th t (.deleting x i j 3 ok')⟩ := by
  obtain ⟨h1, h2, h3, h4, h5, h6, h7, h8, h9, h10, h11, h12⟩ := h
  have p1 : ∀ t x v i, s.th t = .took x v i → (s.th t).pre = some (x, i) := fun t x v i e => pre_of (.inl e)
  have p2 : ∀ t x v i, s.th t = .wroteVec x v i → (s.th t).pre = some (x, i) :=
    fun t x v i e => pre_of (.inr (.inl e))
  have p3 : ∀ t x v i, s.th t = .wroteExt x v i → (s.th t).pre = some (x, i) :=
    fun t x v i e => pre_of (.inr (.inr e))
  have p4 : ∀ t x i j p ok, s.th t = .deleting x i j p ok →
      i ∈ (s.th t).held ∧ j ∈ (s.th t).held ∧ (s.th t).removing = some x := fun t x i j p ok e => held_of e
  constructor <;> grind [upd, Thread.pre, Thread.held, Thread.removing]

theorem Inv.del3 {own : Nat → Option E} {s : Sys E V} (h : Inv own s) {t : Nat} {x : E} {i j : Nat} {ok : Bool}
    (ht : s.th t = .deleting x i j 3 ok) :
    Inv own ⟨{ s.st with used := upd s.st.used j false }, upd s.th t (.deleted x i)⟩ := by
  obtain ⟨h1, h2, h3, h4, h5, h6, h7, h8, h9, h10, h11, h12⟩ := h
  have p1 : ∀ t x v i, s.th t = .took x v i → (s.th t).pre = some (x, i) := fun t x v i e => pre_of (.inl e)
  have p2 : ∀ t x v i, s.th t = .wroteVec x v i → (s.th t).pre = some (x, i) :=
    fun t x v i e => pre_of (.inr (.inl e))
  have p3 : ∀ t x v i, s.th t = .wroteExt x v i → (s.th t).pre = some (x, i) :=
    fun t x v i e => pre_of (.inr (.inr e))
  have p4 : ∀ t x i j p ok, s.th t = .deleting x i j p ok →
      i ∈ (s.th t).held ∧ j ∈ (s.th t).held ∧ (s.th t).removing = some x := fun t x i j p ok e => held_of e
  constructor <;> grind [upd, Thread.pre, Thread.held, Thread.removing]

theorem Inv.del3f {own : Nat → Option E} {s : Sys E V} (h : Inv own s) {t : Nat} {x : E} {i j : Nat} {ok : Bool}
    (ht : s.th t = .deleting x i j 3 ok) :
    Inv own ⟨{ s.st with used := upd s.st.used j false }, upd s.th t (.failed x)⟩ := by
  obtain ⟨h1, h2, h3, h4, h5, h6, h7, h8, h9, h10, h11, h12⟩ := h
  have p1 : ∀ t x v i, s.th t = .took x v i → (s.th t).pre = some (x, i) := fun t x v i e => pre_of (.inl e)
  have p2 : ∀ t x v i, s.th t = .wroteVec x v i → (s.th t).pre = some (x, i) :=
    fun t x v i e => pre_of (.inr (.inl e))
  have p3 : ∀ t x v i, s.th t = .wroteExt x v i → (s.th t).pre = some (x, i) :=
    fun t x v i e => pre_of (.inr (.inr e))
  have p4 : ∀ t x i j p ok, s.th t = .deleting x i j p ok →
      i ∈ (s.th t).held ∧ j ∈ (s.th t).held ∧ (s.th t).removing = some x := fun t x i j p ok e => held_of e
  constructor <;> grind [upd, Thread.pre, Thread.held, Thread.removing]

theorem Inv.lists {own : Nat → Option E} {s : Sys E V} (h : Inv own s) {t : Nat} {l : Nat → List Nat} {th' : Thread E V}
    (hp : th'.pre = none) (hh : ∀ i ∈ th'.held, i ∈ (s.th t).held)
    (hr : ∀ i ∈ th'.held, th'.removing = (s.th t).removing) (hd : ∀ x i j p ok, th' ≠ .deleting x i j p ok) :
    Inv own ⟨{ s.st with lists := l }, upd s.th t (th')⟩ := by
  obtain ⟨h1, h2, h3, h4, h5, h6, h7, h8, h9, h10, h11, h12⟩ := h
  have p1 : ∀ t x v i, s.th t = .took x v i → (s.th t).pre = some (x, i) := fun t x v i e => pre_of (.inl e)
  have p2 : ∀ t x v i, s.th t = .wroteVec x v i → (s.th t).pre = some (x, i) :=
    fun t x v i e => pre_of (.inr (.inl e))
  have p3 : ∀ t x v i, s.th t = .wroteExt x v i → (s.th t).pre = some (x, i) :=
    fun t x v i e => pre_of (.inr (.inr e))
  have p4 : ∀ t x i j p ok, s.th t = .deleting x i j p ok →
      i ∈ (s.th t).held ∧ j ∈ (s.th t).held ∧ (s.th t).removing = some x := fun t x i j p ok e => held_of e
  constructor <;> grind [upd, Thread.pre, Thread.held, Thread.removing]

/-- Every quiet step keeps the invariant. -/
theorem Inv.step {cap bound backs : Nat} {own : Nat → Option E} {s s' : Sys E V} {t : Nat} {c : Choice E V}
    (h : Inv own s) (hq : Quiet s c) (hs : s.step cap bound backs t c = some s') : ∃ own', Inv own' s' := by
  obtain ⟨r, hr, rfl⟩ := sys_step hs
  cases ht : s.th t <;> rw [ht] at hr <;> simp only [Race.step] at hr
  case idle =>
    split at hr
    · rename_i x v i
      split at hr
      · rename_i hc
        cases hr
        exact ⟨_, h.take ht hc.1 (hq _ _ _ rfl)⟩
      · cases hr
    · rename_i x
      split at hr
      · cases hr
        exact ⟨own, h.lists (l := s.st.lists) rfl (by simp [Thread.held]) (by simp [Thread.held]) (by simp)⟩
      · cases hr
        refine ⟨own, h.lists (l := s.st.lists) ?_ ?_ ?_ ?_⟩ <;> split <;> simp [Thread.held, Thread.pre]
    · cases hr
  case took =>
    split at hr <;> cases hr
    exact ⟨own, h.took ht⟩
  case wroteVec =>
    split at hr <;> cases hr
    exact ⟨own, h.wroteVec ht⟩
  case wroteExt =>
    split at hr <;> cases hr
    exact ⟨own, h.wroteExt ht⟩
  case stored =>
    split at hr <;> cases hr
    exact ⟨own, h.lists rfl (by simp [Thread.held]) (by simp [Thread.held]) (by simp)⟩
  case linked =>
    split at hr <;> cases hr
    · exact ⟨own, h.lists (l := s.st.lists) rfl (by simp [Thread.held]) (by simp [Thread.held]) (by simp)⟩
    · exact ⟨own, h.lists (l := s.st.lists) rfl (by simp [Thread.held]) (by simp [Thread.held]) (by simp)⟩
  case linkRead =>
    split at hr <;> cases hr
    exact ⟨own, h.lists rfl (by simp [Thread.held]) (by simp [Thread.held]) (by simp)⟩
  case inserted => cases hr
  case checked =>
    split at hr <;> cases hr
    · exact ⟨own, h.checked ht (by assumption)⟩
    · exact ⟨own, h.lists (l := s.st.lists) rfl (by simp [Thread.held]) (by simp [Thread.held]) (by simp)⟩
  case found =>
    split at hr <;> cases hr
    · exact ⟨own, h.found ht (by assumption)⟩
    · exact ⟨own, h.lists (l := s.st.lists) rfl (by simp [Thread.held]) (by simp [Thread.held]) (by simp)⟩
  case deleting x i j p ok =>
    split at hr
    · match p, hr, ht with
      | 0, hr, ht => cases hr; exact ⟨own, h.del0 ht⟩
      | 1, hr, ht => cases hr; exact ⟨own, h.del1 ht⟩
      | 2, hr, ht => cases hr; exact ⟨own, h.del2 ht⟩
      | 3, hr, ht =>
        cases ok
        · cases hr; exact ⟨own, h.del3f ht⟩
        · cases hr; exact ⟨own, h.del3 ht⟩
    · cases hr
  case deleted =>
    split at hr <;> cases hr
    exact ⟨own, h.lists (l := s.st.lists) rfl (by simp [ht, Thread.held]) (by simp [ht, Thread.held, Thread.removing])
      (by simp)⟩
  case repairing =>
    split at hr <;> cases hr
    · exact ⟨own, h.lists rfl (by simp [Thread.held]) (by simp [Thread.held]) (by simp)⟩
    · exact ⟨own, h.lists (l := s.st.lists) rfl (by simp [ht, Thread.held])
        (by simp [ht, Thread.held, Thread.removing]) (by simp)⟩
  case repairRead =>
    split at hr <;> cases hr
    exact ⟨own, h.lists rfl (by simp [ht, Thread.held]) (by simp [ht, Thread.held, Thread.removing]) (by simp)⟩
  case removed => cases hr
  case failed => cases hr

/-- A quiet step while the element is not being removed keeps its records. -/
theorem Inv.keep {cap bound backs : Nat} {own : Nat → Option E} {s s' : Sys E V} {t : Nat} {c : Choice E V}
    (h : Inv own s) (hq : Quiet s c) (hs : s.step cap bound backs t c = some s') {y : E} {v : V} {i : Nat}
    (hy : ∀ u, (s.th u).removing ≠ some y) (hv : s.st.vec i = some v) (he : s.st.ext i = some y)
    (hu : s.st.used i = true) :
    s'.st.vec i = some v ∧ s'.st.ext i = some y ∧ s'.st.used i = true := by
  obtain ⟨r, hr, rfl⟩ := sys_step hs
  have hown := h.ext _ _ he
  cases ht : s.th t <;> rw [ht] at hr <;> simp only [Race.step] at hr
  case deleting x k j p ok =>
    have hj := held_of ht
    have hx : x ≠ y := by
      intro e; subst e; exact hy t hj.2.2
    have hij : i ≠ j := by
      intro e
      subst e
      have := h.hold t x i hj.2.2 hj.2.1
      rw [hown] at this
      exact hx (Option.some.inj this).symm
    split at hr
    · match p, hr with
      | 0, hr => cases hr; exact ⟨hv, by simpa [deletePhase, upd, hij] using he, hu⟩
      | 1, hr => cases hr; exact ⟨hv, he, hu⟩
      | 2, hr => cases hr; exact ⟨by simpa [deletePhase, upd, hij] using hv, he, hu⟩
      | 3, hr => cases hr; exact ⟨hv, he, by simpa [deletePhase, upd, hij] using hu⟩
    · cases hr
  case took x w k =>
    split at hr <;> cases hr
    have hk : i ≠ k := by
      intro e
      subst e
      rw [h.tk t x w i ht] at he
      cases he
    exact ⟨by simpa [upd, hk] using hv, he, hu⟩
  case wroteVec x w k =>
    split at hr <;> cases hr
    refine ⟨hv, ?_, hu⟩
    by_cases hk : i = k
    · subst hk
      have := (h.pre t x i (pre_of (.inr (.inl ht)))).2.1
      rw [hown] at this
      simp [upd, Option.some.inj this]
    · simpa [upd, hk] using he
  case idle =>
    split at hr
    · split at hr
      · cases hr
        refine ⟨hv, he, ?_⟩
        simp only [upd]
        split
        · rfl
        · exact hu
      · cases hr
    · split at hr <;> cases hr <;> exact ⟨hv, he, hu⟩
    · cases hr
  all_goals first
    | (split at hr <;> cases hr <;> exact ⟨hv, he, hu⟩)
    | cases hr

/-- So does the mapping to its id. -/
theorem Inv.keepInt {cap bound backs : Nat} {s s' : Sys E V} {t : Nat} {c : Choice E V}
    (hs : s.step cap bound backs t c = some s') {y : E}
    (hy : ∀ u, (s.th u).removing ≠ some y) (hi : s.st.int y ≠ none) : s'.st.int y ≠ none := by
  obtain ⟨r, hr, rfl⟩ := sys_step hs
  cases ht : s.th t <;> rw [ht] at hr <;> simp only [Race.step] at hr
  case deleting x k j p ok =>
    have hj := held_of ht
    have hx : y ≠ x := by
      intro e; subst e; exact hy t hj.2.2
    split at hr
    · match p, hr with
      | 0, hr => cases hr; exact hi
      | 1, hr => cases hr; simpa [deletePhase, upd, hx] using hi
      | 2, hr => cases hr; exact hi
      | 3, hr => cases hr; exact hi
    · cases hr
  case wroteExt x w k =>
    split at hr <;> cases hr
    simp only [upd]
    split
    · simp
    · exact hi
  case idle =>
    split at hr
    · split at hr <;> cases hr
      exact hi
    · split at hr <;> cases hr <;> exact hi
    · cases hr
  all_goals first
    | (split at hr <;> cases hr <;> exact hi)
    | cases hr

/-- An insertion whose records are all written. -/
def Thread.post : Thread E V → Option (E × V × Nat)
  | .stored x v i => some (x, v, i)
  | .linked x v i _ => some (x, v, i)
  | .linkRead x v i _ _ _ => some (x, v, i)
  | .inserted x v i => some (x, v, i)
  | _ => none

/-- A thread that becomes an insertion with all records written was one before or has just written them. -/
theorem post_step {cap bound backs : Nat} {s s' : Sys E V} {t : Nat} {c : Choice E V} {y : E} {v : V} {i : Nat}
    (hs : s.step cap bound backs t c = some s') (u : Nat) (hp : (s'.th u).post = some (y, v, i)) :
    (s.th u).post = some (y, v, i) ∨ (u = t ∧ s.th u = .wroteExt y v i ∧
      s'.st = { s.st with int := upd s.st.int y (some i) }) := by
  obtain ⟨r, hr, rfl⟩ := sys_step hs
  by_cases hu : u = t
  · subst hu
    simp only [upd, if_pos] at hp
    cases ht : s.th u <;> rw [ht] at hr <;> simp only [Race.step] at hr
    case wroteExt x w k =>
      split at hr <;> cases hr
      simp only [Thread.post, Option.some.injEq, Prod.mk.injEq] at hp
      obtain ⟨rfl, rfl, rfl⟩ := hp
      exact .inr ⟨rfl, rfl, rfl⟩
    case deleting x k j p ok =>
      split at hr
      · match p, hr with
        | 0, hr => cases hr; simp [Thread.post] at hp
        | 1, hr => cases hr; simp [Thread.post] at hp
        | 2, hr => cases hr; simp [Thread.post] at hp
        | 3, hr =>
          cases hr
          split at hp <;> simp [Thread.post] at hp
      · cases hr
    case idle =>
      split at hr
      · split at hr <;> cases hr
        simp [Thread.post] at hp
      · split at hr <;> cases hr
        · simp [Thread.post] at hp
        · split at hp <;> simp [Thread.post] at hp
      · cases hr
    all_goals first
      | (split at hr <;> cases hr <;> first
          | exact .inl (by simpa [Thread.post] using hp)
          | (simp [Thread.post] at hp))
      | cases hr
  · left
    simpa [upd, hu] using hp

end Verif.Garnet.Race
