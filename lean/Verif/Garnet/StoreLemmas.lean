import Verif.Garnet.StoreSpec
/-
Helper lemmas for the element records of a Garnet vector set.
-/
namespace Verif.Garnet.Store

variable {E V C : Type} [DecidableEq E]

@[simp] theorem upd_same {α β : Type} [DecidableEq α] (f : α → β) (k : α) (v : β) : upd f k v k = v := by
  simp [upd]

theorem upd_other {α β : Type} [DecidableEq α] (f : α → β) {k x : α} (v : β) (h : x ≠ k) :
    upd f k v x = f x := by
  simp [upd, h]

/-- What holds of the records in every state without lost mappings. -/
structure Inv (s : State E V C) : Prop where
  start : s.used 0 = true
  below : ∀ i, s.used i = true → i < s.next
  pos : ∀ e i, s.int e = some i → i ≠ 0
  live : ∀ e i, s.int e = some i → s.used i = true
  vec : ∀ e i, s.int e = some i → (s.vec i).isSome
  inj : ∀ e e' i, s.int e = some i → s.int e' = some i → e = e'

/-- The mappings are inverse to each other. -/
def Inverse (s : State E V C) : Prop := ∀ i e, s.ext i = some e ↔ s.int e = some i

theorem inv_init (v : V) (c : Option C) : Inv (init v c : State E V C) := by
  constructor <;> simp [init]

theorem inverse_init (v : V) (c : Option C) : Inverse (init v c : State E V C) := by
  intro i e; simp [init]

/-- What `set_element` does when it is given an id. -/
theorem setElement_gives (q : Option (V → Option C)) (s : State E V C) (e : E) (v : V) (i : Nat)
    (f : InsertFaults) :
    (∃ code, setElement q s e v (.gives i) f =
      ({ used := upd s.used i true, next := max s.next (i + 1), vec := upd s.vec i (some v), code := code,
         ext := upd s.ext i (some e), int := upd s.int e (some i), attr := s.attr }, true) ∧
        f.vec = true ∧ f.ext = true ∧ f.int = true) ∨
    ((∃ used vec code ext, setElement q s e v (.gives i) f =
      ({ used := used, next := max s.next (i + 1), vec := vec, code := code, ext := ext,
         int := s.int, attr := s.attr }, false) ∧
      (∀ j, j ≠ i → used j = s.used j ∧ vec j = s.vec j ∧ ext j = s.ext j)) ∧
      ¬ (f.vec = true ∧ f.code = true ∧ f.ext = true ∧ f.int = true ∧ ∀ k, q = some k → (k v).isSome)) := by
  rcases f with ⟨fv, fc, fe, fi, ff, fg, fa⟩
  have key : ∀ (u : Nat → Bool) (ve : Nat → Option V) (ex : Nat → Option E) (b b1 b2 b3 : Bool),
      ∀ j, j ≠ i →
      (if b then upd (upd s.used i true) i false else upd s.used i true) j = s.used j ∧
      (if b1 then upd s.vec i (some v) else s.vec) j = s.vec j ∧
      (if b2 then upd s.ext i (some e) else s.ext) j = s.ext j := by
    intro u ve ex b b1 b2 b3 j hj
    refine ⟨?_, ?_, ?_⟩ <;> split <;> simp [upd, hj]
  cases fv
  · right
    refine ⟨⟨(if ff then upd (upd s.used i true) i false else upd s.used i true), s.vec, s.code, s.ext, ?_, ?_⟩, by simp⟩
    · cases ff <;> simp [setElement, writeRecords, State.free, State.take]
    · intro j hj; exact ⟨(key s.used s.vec s.ext ff true true true j hj).1, rfl, rfl⟩
  · cases q with
    | none =>
      cases fe
      · right
        refine ⟨⟨(if ff then upd (upd s.used i true) i false else upd s.used i true), upd s.vec i (some v),
          s.code, s.ext, ?_, ?_⟩, by simp⟩
        · cases ff <;> simp [setElement, writeRecords, State.free, State.take, State.putVec]
        · intro j hj
          exact ⟨(key s.used s.vec s.ext ff true true true j hj).1, by simp [upd, hj], rfl⟩
      · cases fi
        · right
          refine ⟨⟨(if ff then upd (upd s.used i true) i false else upd s.used i true), upd s.vec i (some v),
            s.code, upd s.ext i (some e), ?_, ?_⟩, by simp⟩
          · cases ff <;> simp [setElement, writeRecords, State.free, State.take, State.putVec, State.putExt]
          · intro j hj
            exact ⟨(key s.used s.vec s.ext ff true true true j hj).1, by simp [upd, hj], by simp [upd, hj]⟩
        · left
          exact ⟨s.code, by simp [setElement, writeRecords, State.take, State.putVec, State.putExt, State.putInt],
            rfl, rfl, rfl⟩
    | some k =>
      cases hk : k v with
      | none =>
        right
        refine ⟨⟨(if ff then upd (upd s.used i true) i false else upd s.used i true), upd s.vec i (some v),
          s.code, s.ext, ?_, ?_⟩, ?_⟩
        · cases ff <;> simp [setElement, writeRecords, State.free, State.take, State.putVec, hk]
        · intro j hj
          exact ⟨(key s.used s.vec s.ext ff true true true j hj).1, by simp [upd, hj], rfl⟩
        · rintro ⟨_, _, _, _, h⟩
          have := h k rfl
          simp [hk] at this
      | some c =>
        cases fc
        · right
          refine ⟨⟨(if ff then upd (upd s.used i true) i false else upd s.used i true), upd s.vec i (some v),
            s.code, s.ext, ?_, ?_⟩, by simp⟩
          · cases ff <;> simp [setElement, writeRecords, State.free, State.take, State.putVec, hk]
          · intro j hj
            exact ⟨(key s.used s.vec s.ext ff true true true j hj).1, by simp [upd, hj], rfl⟩
        · cases fe
          · right
            refine ⟨⟨(if ff then upd (upd s.used i true) i false else upd s.used i true), upd s.vec i (some v),
              upd s.code i (some c), s.ext, ?_, ?_⟩, by simp⟩
            · cases ff <;> simp [setElement, writeRecords, State.free, State.take, State.putVec, State.putCode, hk]
            · intro j hj
              exact ⟨(key s.used s.vec s.ext ff true true true j hj).1, by simp [upd, hj], rfl⟩
          · cases fi
            · right
              refine ⟨⟨(if ff then upd (upd s.used i true) i false else upd s.used i true), upd s.vec i (some v),
                upd s.code i (some c), upd s.ext i (some e), ?_, ?_⟩, by simp⟩
              · cases ff <;>
                  simp [setElement, writeRecords, State.free, State.take, State.putVec, State.putCode, State.putExt, hk]
              · intro j hj
                exact ⟨(key s.used s.vec s.ext ff true true true j hj).1, by simp [upd, hj], by simp [upd, hj]⟩
            · left
              exact ⟨upd s.code i (some c), by
                simp [setElement, writeRecords, State.take, State.putVec, State.putExt, State.putInt,
                  State.putCode, hk], rfl, rfl, rfl⟩

/-- The element as the calls show it, from the records. -/
def view (s : State E V C) : View E V := fun e =>
  (s.int e).bind fun i => (s.vec i).map fun v => (v, (s.attr i).getD [])

theorem shows_view {s : State E V C} (h : Inv s) : Shows s (view s) := by
  intro e
  cases hi : s.int e with
  | none => simp [view, hi, exists?]
  | some i =>
    obtain ⟨v, hv⟩ := Option.isSome_iff_exists.1 (h.vec e i hi)
    have hl := h.live e i hi
    have hb := h.below i hl
    simp [view, hi, hv, exists?, hl, hb, vectorOf, attrsOf]

theorem exists_iff {s : State E V C} (h : Inv s) (e : E) : exists? s e = (s.int e).isSome := by
  cases hi : s.int e with
  | none => simp [exists?, hi]
  | some i =>
    have hl := h.live e i hi
    have hb := h.below i hl
    simp [exists?, hi, hl, hb]

/-- Writing an element under a free id keeps the records in order. -/
theorem inv_place {s : State E V C} (h : Inv s) (e : E) (v : V) (i : Nat) (code : Nat → Option C)
    (hf : s.used i = false) :
    Inv ({ used := upd s.used i true, next := max s.next (i + 1), vec := upd s.vec i (some v), code := code,
           ext := upd s.ext i (some e), int := upd s.int e (some i), attr := s.attr } : State E V C) := by
  have hi0 : i ≠ 0 := by rintro rfl; simp [h.start] at hf
  constructor
  · simp only []; rw [upd_other _ _ (Ne.symm hi0)]; exact h.start
  · intro j hj
    simp only [upd] at hj ⊢
    split at hj
    · omega
    · have := h.below j hj; omega
  · intro e' j hj
    simp only [upd] at hj
    split at hj
    · cases hj; exact hi0
    · exact h.pos e' j hj
  · intro e' j hj
    simp only [upd] at hj ⊢
    split at hj
    · cases hj; simp
    · split
      · rfl
      · exact h.live e' j hj
  · intro e' j hj
    simp only [upd] at hj ⊢
    split at hj
    · cases hj; simp
    · split
      · rfl
      · exact h.vec e' j hj
  · intro a b j ha hb
    simp only [upd] at ha hb
    split at ha <;> split at hb
    · simp [*]
    · cases ha
      have := h.live b i hb
      simp [hf] at this
    · cases hb
      have := h.live a i ha
      simp [hf] at this
    · exact h.inj a b j ha hb

/-- A failed write under a free id leaves the records in order. -/
theorem inv_failed {s : State E V C} (h : Inv s) (i : Nat) {used : Nat → Bool} {vec : Nat → Option V}
    {code : Nat → Option C} {ext : Nat → Option E} (hf : s.used i = false)
    (hu : ∀ j, j ≠ i → used j = s.used j ∧ vec j = s.vec j ∧ ext j = s.ext j) :
    Inv ({ used := used, next := max s.next (i + 1), vec := vec, code := code, ext := ext,
           int := s.int, attr := s.attr } : State E V C) := by
  have hi0 : 0 ≠ i := by rintro rfl; simp [h.start] at hf
  have ne : ∀ e j, s.int e = some j → j ≠ i := by
    rintro e j hj rfl
    have := h.live e j hj
    simp [hf] at this
  constructor
  · exact ((hu 0 hi0).1).trans h.start
  · intro j hj
    show j < max s.next (i + 1)
    by_cases hji : j = i
    · subst hji; omega
    · have hj' : s.used j = true := ((hu j hji).1).symm.trans hj
      have := h.below j hj'; omega
  · exact h.pos
  · intro e j hj; exact ((hu j (ne e j hj)).1).trans (h.live e j hj)
  · intro e j hj
    have := h.vec e j hj
    show (vec j).isSome = true
    rw [(hu j (ne e j hj)).2.1]; exact this
  · exact h.inj

/-- Changing attributes keeps the records in order. -/
theorem inv_attr {s : State E V C} (h : Inv s) (attr : Nat → Option (List UInt8)) :
    Inv ({ s with attr := attr } : State E V C) :=
  ⟨h.start, h.below, h.pos, h.live, h.vec, h.inj⟩

theorem inv_next {s : State E V C} (h : Inv s) (n : Nat) (hn : ∀ i, s.used i = true → i < n) :
    Inv ({ s with next := n } : State E V C) :=
  ⟨h.start, hn, h.pos, h.live, h.vec, h.inj⟩

theorem inv_setAttributes {s : State E V C} (h : Inv s) (e : E) (a : List UInt8) (ok : Bool) :
    Inv (setAttributes s e a ok).1 := by
  unfold setAttributes
  split
  · exact h
  · split
    · exact inv_attr h _
    · exact h

theorem inv_insert {s : State E V C} (h : Inv s) (q : Option (V → Option C)) (e : E) (v : V)
    (attrs : List UInt8) (a : Alloc) (f : InsertFaults) (ha : Allowed s (.insert q e v attrs a f)) :
    Inv (insert q s e v attrs a f).1 := by
  cases a with
  | fails moved =>
    have : Inv (setElement q s e v (.fails moved) f).1 := by
      cases moved
      · exact h
      · exact inv_next h _ (fun i hi => Nat.lt_succ_of_lt (h.below i hi))
    simpa [insert, setElement] using this
  | gives i =>
    obtain ⟨hf, hle⟩ := ha
    rcases setElement_gives q s e v i f with ⟨code, heq, _⟩ | ⟨⟨u, ve, co, ex, heq, hu⟩, _⟩
    · have hp := inv_place h e v i code hf
      unfold insert
      rw [heq]
      simp only [Bool.not_true, Bool.false_eq_true, if_false]
      split
      · exact hp
      · exact inv_setAttributes hp _ _ _
    · have hp := inv_failed (code := co) h i hf hu
      unfold insert
      rw [heq]
      exact hp

/-- The state after a deletion that removes the mapping, field by field. -/
theorem delete_eq (s : State E V C) (e : E) (f : RemoveFaults) (i : Nat) (hi : s.int e = some i)
    (hn : i < s.next) :
    delete s e f =
      ({ used := if f.free then upd s.used i false else s.used, next := s.next,
         vec := if f.vec then upd s.vec i none else s.vec,
         code := if f.code then upd s.code i none else s.code,
         ext := if f.ext then upd s.ext i none else s.ext,
         int := if f.int then upd s.int e none else s.int,
         attr := if f.attr then upd s.attr i none else s.attr },
        f.free && ((f.ext && (s.ext i).isSome) && f.int && (f.vec && (s.vec i).isSome))) := by
  rcases f with ⟨fe, fi, fa, fv, fc, ff, fg⟩
  cases fe <;> cases fi <;> cases fa <;> cases fv <;> cases fc <;> cases ff <;>
    simp [delete, hi, hn, State.free]

theorem inv_remove {s : State E V C} (h : Inv s) (e : E) (f : RemoveFaults) (hint : f.int = true) :
    Inv (remove s e f).1 := by
  unfold remove
  split
  · exact h
  · rename_i hex
    rw [exists_iff h] at hex
    simp only [Bool.not_eq_true, Bool.not_eq_false', Bool.not_eq_eq_eq_not, Bool.not_true] at hex
    cases hi : s.int e with
    | none => simp [hi] at hex
    | some i =>
      have hl := h.live e i hi
      have hn := h.below i hl
      rw [delete_eq s e f i hi hn]
      have ne : ∀ e' j, upd s.int e none e' = some j → s.int e' = some j ∧ j ≠ i := by
        intro e' j hj
        simp only [upd] at hj
        split at hj
        · cases hj
        · rename_i hne
          refine ⟨hj, ?_⟩
          rintro rfl
          exact hne (h.inj _ _ _ hj hi)
      have hi0 := h.pos e i hi
      constructor
      · show (if f.free then upd s.used i false else s.used) 0 = true
        split
        · rw [upd_other _ _ (Ne.symm hi0)]; exact h.start
        · exact h.start
      · intro j hj
        refine h.below j ?_
        revert hj
        show (if f.free then upd s.used i false else s.used) j = true → _
        split
        · simp only [upd]; split
          · intro hc; cases hc
          · exact id
        · exact id
      · intro e' j hj
        simp only [hint, if_true] at hj
        exact h.pos e' j (ne e' j hj).1
      · intro e' j hj
        simp only [hint, if_true] at hj
        obtain ⟨h1, h2⟩ := ne e' j hj
        show (if f.free then upd s.used i false else s.used) j = true
        split
        · rw [upd_other _ _ h2]; exact h.live e' j h1
        · exact h.live e' j h1
      · intro e' j hj
        simp only [hint, if_true] at hj
        obtain ⟨h1, h2⟩ := ne e' j hj
        show ((if f.vec then upd s.vec i none else s.vec) j).isSome = true
        split
        · rw [upd_other _ _ h2]; exact h.vec e' j h1
        · exact h.vec e' j h1
      · intro a b j hja hjb
        simp only [hint, if_true] at hja hjb
        exact h.inj a b j (ne a j hja).1 (ne b j hjb).1

theorem inv_setAttribute {s : State E V C} (h : Inv s) (e : E) (a : List UInt8) (ok : Bool) :
    Inv (setAttribute s e a ok).1 := by
  unfold setAttribute
  split
  · exact h
  · split
    · exact inv_setAttributes h _ _ _
    · unfold deleteAttributes
      split
      · exact h
      · split
        · exact inv_attr h _
        · exact h

theorem inv_step {s : State E V C} (h : Inv s) (c : Call E V C) (ha : Allowed s c) (hc : ¬ LosesMapping c) :
    Inv (step s c).1 := by
  cases c with
  | insert q e v attrs a f => exact inv_insert h q e v attrs a f ha
  | remove e f => exact inv_remove h e f (by simpa [LosesMapping] using hc)
  | setAttribute e a ok => exact inv_setAttribute h e a ok
  | restart n => exact inv_next h n ha

/-- The view after an element was written under a free id. -/
theorem view_place {s : State E V C} (h : Inv s) (e : E) (v : V) (i : Nat) (code : Nat → Option C)
    (ext : Nat → Option E) (n : Nat) (attr : Nat → Option (List UInt8)) (hf : s.used i = false)
    (hattr : ∀ j, j ≠ i → attr j = s.attr j) :
    view ({ used := upd s.used i true, next := n, vec := upd s.vec i (some v), code := code,
            ext := ext, int := upd s.int e (some i), attr := attr } : State E V C) =
      upd (view s) e (some (v, (attr i).getD [])) := by
  funext e'
  by_cases he : e' = e
  · subst he; simp [view]
  · rw [upd_other _ _ he]
    simp only [view, upd_other s.int (some i) he]
    cases hi : s.int e' with
    | none => rfl
    | some j =>
      have hj : j ≠ i := by
        rintro rfl
        have := h.live e' j hi
        simp [hf] at this
      simp [upd, hj, hattr j hj]

/-- The view after a failed write. -/
theorem view_failed {s : State E V C} (h : Inv s) (i : Nat) {used : Nat → Bool} {vec : Nat → Option V}
    {code : Nat → Option C} {ext : Nat → Option E} (n : Nat) (hf : s.used i = false)
    (hu : ∀ j, j ≠ i → used j = s.used j ∧ vec j = s.vec j ∧ ext j = s.ext j) :
    view ({ used := used, next := n, vec := vec, code := code, ext := ext,
            int := s.int, attr := s.attr } : State E V C) = view s := by
  funext e'
  simp only [view]
  cases hi : s.int e' with
  | none => rfl
  | some j =>
    have hj : j ≠ i := by
      rintro rfl
      have := h.live e' j hi
      simp [hf] at this
    simp [(hu j hj).2.1]

/-- The view after the attributes of an element changed. -/
theorem view_attr {s : State E V C} (h : Inv s) (e : E) (i : Nat) (hi : s.int e = some i)
    (a : Option (List UInt8)) :
    view ({ s with attr := upd s.attr i a } : State E V C) =
      upd (view s) e ((view s e).map fun p => (p.1, a.getD [])) := by
  funext e'
  by_cases he : e' = e
  · subst he
    simp only [view, hi, upd_same, Option.bind_some]
    cases s.vec i <;> simp
  · rw [upd_other _ _ he]
    simp only [view]
    cases hj : s.int e' with
    | none => rfl
    | some j =>
      have hne : j ≠ i := by
        rintro rfl
        exact he (h.inj _ _ _ hj hi)
      simp [upd, hne]

theorem upd_eq_self {α β : Type} [DecidableEq α] (f : α → β) (k : α) : upd f k (f k) = f := by
  funext x; simp only [upd]; split
  · simp [*]
  · rfl

theorem outcome_insert {s : State E V C} (h : Inv s) (q : Option (V → Option C)) (e : E) (v : V)
    (attrs : List UInt8) (a : Alloc) (f : InsertFaults) (ha : Allowed s (.insert q e v attrs a f)) :
    Outcome (C := C) (view s) (.insert q e v attrs a f) (insert q s e v attrs a f).2
      (view (insert q s e v attrs a f).1) := by
  cases a with
  | fails moved =>
    have : view (setElement q s e v (.fails moved) f).1 = view s := by cases moved <;> rfl
    simp only [insert, setElement] at this ⊢
    simp only [Outcome, Bool.not_false, if_true, Bool.false_eq_true, if_false]
    exact Or.inl this
  | gives i =>
    obtain ⟨hf, hle⟩ := ha
    rcases setElement_gives q s e v i f with ⟨code, heq, _⟩ | ⟨⟨u, ve, co, ex, heq, hu⟩, _⟩
    · unfold insert
      rw [heq]
      simp only [Bool.not_true, Bool.false_eq_true, if_false]
      cases hg : f.graph with
      | false =>
        simp only [Bool.not_false, if_true, Outcome, Bool.false_eq_true, if_false]
        exact Or.inr ⟨_, view_place h e v i code _ _ s.attr hf (fun _ _ => rfl)⟩
      | true =>
        simp only [Bool.not_true, Bool.false_eq_true, if_false, setAttributes, upd_same]
        cases hat : f.attr with
        | false =>
          simp only [Bool.false_eq_true, if_false, Outcome]
          exact Or.inr ⟨_, view_place h e v i code _ _ s.attr hf (fun _ _ => rfl)⟩
        | true =>
          simp only [if_true, Outcome, View.after, State.putAttr]
          have := view_place h e v i code (upd s.ext i (some e)) (max s.next (i + 1))
            (upd s.attr i (some attrs)) hf (fun j hj => by simp [upd, hj])
          simpa using this
    · unfold insert
      rw [heq]
      simp only [Bool.not_false, if_true, Outcome, Bool.false_eq_true, if_false]
      exact Or.inl (view_failed h i _ hf hu)

theorem view_remove {s : State E V C} (h : Inv s) (e : E) (f : RemoveFaults) (hint : f.int = true) :
    (exists? s e = false ∧ remove s e f = (s, false)) ∨
    (exists? s e = true ∧ view (remove s e f).1 = upd (view s) e none) := by
  cases hex : exists? s e with
  | false => left; exact ⟨rfl, by simp [remove, hex]⟩
  | true =>
    right
    refine ⟨rfl, ?_⟩
    have hex' := hex
    rw [exists_iff h] at hex'
    obtain ⟨i, hi⟩ := Option.isSome_iff_exists.1 hex'
    have hl := h.live e i hi
    have hn := h.below i hl
    unfold remove
    rw [hex, delete_eq s e f i hi hn]
    simp only [Bool.not_true, Bool.false_eq_true, if_false, hint, if_true]
    funext e'
    by_cases he : e' = e
    · subst he; simp [view]
    · rw [upd_other _ _ he]
      simp only [view, upd_other s.int none he]
      cases hj : s.int e' with
      | none => rfl
      | some j =>
        have hne : j ≠ i := by
          rintro rfl
          exact he (h.inj _ _ _ hj hi)
        have hv : (if f.vec then upd s.vec i none else s.vec) j = s.vec j := by
          split
          · exact upd_other _ _ hne
          · rfl
        have hat : (if f.attr then upd s.attr i none else s.attr) j = s.attr j := by
          split
          · exact upd_other _ _ hne
          · rfl
        show (some j).bind _ = (some j).bind _
        simp only [Option.bind_some, hv, hat]

theorem outcome_remove {s : State E V C} (h : Inv s) (e : E) (f : RemoveFaults) (hint : f.int = true) :
    Outcome (C := C) (view s) (.remove e f) (remove s e f).2 (view (remove s e f).1) := by
  rcases view_remove h e f hint with ⟨_, h2⟩ | ⟨_, h2⟩
  · rw [h2]; simp [Outcome]
  · rw [h2]
    unfold Outcome
    split
    · rfl
    · right; rfl

theorem outcome_setAttribute {s : State E V C} (h : Inv s) (e : E) (a : List UInt8) (ok : Bool) :
    Outcome (C := C) (view s) (.setAttribute e a ok) (setAttribute s e a ok).2
      (view (setAttribute s e a ok).1) := by
  unfold setAttribute
  split
  · simp [Outcome]
  · rename_i hex
    rw [exists_iff h] at hex
    simp only [Bool.not_eq_true, Bool.not_eq_false', Bool.not_eq_eq_eq_not, Bool.not_true] at hex
    cases hi : s.int e with
    | none => simp [hi] at hex
    | some i =>
      cases ok with
      | false =>
        split <;> simp [setAttributes, deleteAttributes, hi, Outcome]
      | true =>
        split
        · simp only [setAttributes, hi, if_true, Outcome, View.after, State.putAttr]
          simpa using view_attr h e i hi (some a)
        · rename_i hne
          have ha : a = [] := by simpa using hne
          subst ha
          simp only [deleteAttributes, hi, if_true]
          have hv := view_attr h e i hi none
          cases hat : s.attr i with
          | some b =>
            simp only [Option.isSome_some, Outcome, if_true, View.after]
            simpa using hv
          | none =>
            simp only [Option.isSome_none, Outcome, Bool.false_eq_true, if_false]
            left
            rw [hv]
            have : (view s e).map (fun p => (p.1, (none : Option (List UInt8)).getD [])) = view s e := by
              simp only [view, hi, Option.bind_some, hat]
              cases s.vec i <;> simp
            rw [this, upd_eq_self]

theorem outcome_step {s : State E V C} (h : Inv s) (c : Call E V C) (ha : Allowed s c)
    (hc : ¬ LosesMapping c) : Outcome (view s) c (step s c).2 (view (step s c).1) := by
  cases c with
  | insert q e v attrs a f => exact outcome_insert h q e v attrs a f ha
  | remove e f => exact outcome_remove h e f (by simpa [LosesMapping] using hc)
  | setAttribute e a ok => exact outcome_setAttribute h e a ok
  | restart n => simp [step, Outcome, View.after]; rfl

theorem view_init (v : V) (c : Option C) : view (init v c : State E V C) = fun _ => none := rfl

/-- Maps that both show what the calls say are equal. -/
theorem shows_unique {s : State E V C} {m m' : View E V} (h : Shows s m) (h' : Shows s m') : m = m' := by
  funext e
  have a := h e
  have b := h' e
  cases hm : m e with
  | none =>
    cases hm' : m' e with
    | none => rfl
    | some p => rw [hm] at a; rw [hm'] at b; obtain ⟨v, w⟩ := p; simp [a] at b
  | some p =>
    obtain ⟨v, w⟩ := p
    cases hm' : m' e with
    | none => rw [hm] at a; rw [hm'] at b; simp [b] at a
    | some p' =>
      obtain ⟨v', w'⟩ := p'
      rw [hm] at a; rw [hm'] at b
      simp only at a b
      have : v = v' := by
        have := a.2.1.symm.trans b.2.1
        exact Option.some.inj this
      rw [this, ← a.2.2, ← b.2.2]

/-- In clean calls the answer is success where it should be, and the mappings stay inverse to each other. -/
theorem inverse_step {s : State E V C} (h : Inv s) (hv : Inverse s) (c : Call E V C) (ha : Allowed s c)
    (hc : Clean (view s) c) : Inverse (step s c).1 := by
  cases c with
  | insert q e v attrs a f =>
    obtain ⟨⟨i, rfl⟩, h1, h2, h3, h4, h5, h6, h7, h8⟩ := hc
    obtain ⟨hf, hle⟩ := ha
    have he : s.int e = none := by
      cases hi : s.int e with
      | none => rfl
      | some j =>
        obtain ⟨w, hw⟩ := Option.isSome_iff_exists.1 (h.vec e j hi)
        simp [view, hi, hw] at h7
    rcases setElement_gives q s e v i f with ⟨code, heq, _⟩ | ⟨_, hno⟩
    · have hp : Inverse ({ used := upd s.used i true, next := max s.next (i + 1), vec := upd s.vec i (some v),
                           code := code, ext := upd s.ext i (some e), int := upd s.int e (some i),
                           attr := s.attr } : State E V C) := by
        intro j e'
        simp only [upd]
        by_cases hj : j = i
        · subst hj
          by_cases hee : e' = e
          · subst hee; simp
          · simp only [if_true, if_neg hee]
            constructor
            · intro hc; exact absurd (Option.some.inj hc).symm hee
            · intro hc
              have := h.live e' j hc
              simp [hf] at this
        · by_cases hee : e' = e
          · subst hee
            simp only [if_neg hj, if_true]
            constructor
            · intro hc
              have := (hv j e').1 hc
              simp [he] at this
            · intro hc; exact absurd (Option.some.inj hc).symm hj
          · simp only [if_neg hj, if_neg hee]
            exact hv j e'
      show Inverse (insert q s e v attrs (.gives i) f).1
      unfold insert
      rw [heq]
      simp only [Bool.not_true, Bool.false_eq_true, if_false, h5, setAttributes, upd_same, h6, if_true]
      exact hp
    · exact absurd ⟨h1, h2, h3, h4, h8⟩ hno
  | remove e f =>
    obtain ⟨h1, h2, h3, h4, h5, h6, h7⟩ := hc
    show Inverse (remove s e f).1
    unfold remove
    split
    · exact hv
    · rename_i hex
      rw [exists_iff h] at hex
      simp only [Bool.not_eq_true, Bool.not_eq_false', Bool.not_eq_eq_eq_not, Bool.not_true] at hex
      cases hi : s.int e with
      | none => simp [hi] at hex
      | some i =>
        have hl := h.live e i hi
        have hn := h.below i hl
        rw [delete_eq s e f i hi hn]
        intro j e'
        simp only [h1, h2, if_true, upd]
        by_cases hj : j = i
        · subst hj
          by_cases hee : e' = e
          · subst hee; simp
          · simp only [if_true, if_neg hee]
            constructor
            · intro hc; cases hc
            · intro hc; exact absurd (h.inj _ _ _ hc hi) hee
        · by_cases hee : e' = e
          · subst hee
            simp only [if_neg hj, if_true]
            constructor
            · intro hc
              have := (hv j e').1 hc
              rw [hi] at this
              exact absurd (Option.some.inj this).symm hj
            · intro hc; cases hc
          · simp only [if_neg hj, if_neg hee]
            exact hv j e'
  | setAttribute e a ok =>
    show Inverse (setAttribute s e a ok).1
    unfold setAttribute setAttributes deleteAttributes
    repeat' split
    all_goals exact hv
  | restart n => exact hv

theorem reports_of_inverse {s : State E V C} (h : Inv s) (hv : Inverse s) : Reports s (view s) := by
  refine ⟨?_, ?_, ?_⟩
  · intro i e v hr
    simp only [reported] at hr
    split at hr
    · rename_i e' v' he hve
      cases hr
      have hi := (hv i e).1 he
      exact ⟨_, by simp only [view, hi, Option.bind_some, hve, Option.map_some]; rfl⟩
    · cases hr
  · intro e v a hm
    simp only [view] at hm
    cases hi : s.int e with
    | none => simp [hi] at hm
    | some i =>
      simp only [hi, Option.bind_some] at hm
      cases hve : s.vec i with
      | none => simp [hve] at hm
      | some w =>
        simp only [hve, Option.map_some, Option.some.injEq, Prod.mk.injEq] at hm
        exact ⟨i, by simp [reported, (hv i e).2 hi, hve, hm.1]⟩
  · intro i j e v w hi hj
    have aux : ∀ i e v, reported s i = some (e, v) → s.int e = some i := by
      intro i e v hr
      simp only [reported] at hr
      split at hr
      · rename_i he hve
        cases hr
        exact (hv i e).1 he
      · cases hr
    have a := aux i e v hi
    have b := aux j e w hj
    exact Option.some.inj (a.symm.trans b)

/-- A clean call does not lose mappings. -/
theorem clean_keeps {m : View E V} {c : Call E V C} (hc : Clean m c) : ¬ LosesMapping c := by
  cases c with
  | remove e f => obtain ⟨_, h2, _⟩ := hc; simp [LosesMapping, h2]
  | _ => simp [LosesMapping]

/-- A clean call changes the view as its answer says. -/
theorem clean_outcome {s : State E V C} (h : Inv s) (hv : Inverse s) (c : Call E V C) (ha : Allowed s c)
    (hc : Clean (view s) c) :
    view (step s c).1 = if (step s c).2 then (view s).after c else view s := by
  have ho := outcome_step h c ha (clean_keeps hc)
  unfold Outcome at ho
  split at ho
  · rename_i hok; rw [if_pos hok]; exact ho
  · rename_i hok
    rw [if_neg hok]
    rcases ho with ho | ho
    · exact ho
    · cases c with
      | insert q e v attrs a f =>
        exfalso
        apply hok
        obtain ⟨⟨i, rfl⟩, h1, h2, h3, h4, h5, h6, h7, h8⟩ := hc
        rcases setElement_gives q s e v i f with ⟨code, heq, _⟩ | ⟨_, hno⟩
        · show (insert q s e v attrs (.gives i) f).2 = true
          unfold insert
          rw [heq]
          simp [h5, h6, setAttributes]
        · exact absurd ⟨h1, h2, h3, h4, h8⟩ hno
      | remove e f =>
        obtain ⟨h1, h2, h3, h4, h5, h6, h7⟩ := hc
        rcases view_remove h e f h2 with ⟨hx, hr⟩ | ⟨hx, hr⟩
        · show view (remove s e f).1 = view s
          rw [hr]
        · exfalso
          apply hok
          rw [exists_iff h] at hx
          obtain ⟨i, hi⟩ := Option.isSome_iff_exists.1 hx
          have hl := h.live e i hi
          have hn := h.below i hl
          show (remove s e f).2 = true
          unfold remove
          rw [exists_iff h, hi, delete_eq s e f i hi hn]
          simp [h1, h2, h4, h6, h7, (hv i e).2 hi, h.vec e i hi]
      | setAttribute e a ok => exact ho.elim
      | restart n => exact ho.elim

end Verif.Garnet.Store
