/-
Lemmas for C117: the invariant of the striped locks and the two stores.
-/
import Verif.Bftree.VecSpec

namespace Verif.Bftree.Vecs
open Spec

variable {V C : Type}

/-- The id of the lock that a thread holds. -/
def Thread.holds : Thread V → Option Nat
  | .setLocked id _ => some id
  | .setFull id _ => some id
  | .delLocked id => some id
  | .delFull id => some id
  | _ => none

structure Inv (cfg : Cfg V C) (s : Sys V C) : Prop where
  own : ∀ t id, (s.th t).holds = some id → s.st.lock (cfg.stripe id) = some t
  setF : ∀ t id v, s.th t = .setFull id v → s.st.full id = some v
  delF : ∀ t id, s.th t = .delFull id → s.st.full id = none

theorem Inv.excl {cfg : Cfg V C} {s : Sys V C} (h : Inv cfg s) {t t' id : Nat} (h1 : (s.th t).holds = some id)
    (h2 : (s.th t').holds = some id) : t = t' := by
  have a := h.own t id h1
  have b := h.own t' id h2
  rw [a] at b
  exact Option.some.inj b

/-- The steps as a relation. -/
inductive Move (cfg : Cfg V C) (s : Sys V C) (t : Nat) : Choice V → Sys V C → Prop
  | startSet {id v} (h : s.th t = .idle) (hl : s.st.lock (cfg.stripe id) = none) :
      Move cfg s t (.startSet id v)
        ⟨{ s.st with lock := upd s.st.lock (cfg.stripe id) (some t) }, upd s.th t (.setLocked id v)⟩
  | startDel {id} (h : s.th t = .idle) (hl : s.st.lock (cfg.stripe id) = none) :
      Move cfg s t (.startDel id)
        ⟨{ s.st with lock := upd s.st.lock (cfg.stripe id) (some t) }, upd s.th t (.delLocked id)⟩
  | bad {id v c} (h : s.th t = .setLocked id v) (hc : Choice.starts c = none) :
      Move cfg s t c ⟨{ s.st with lock := upd s.st.lock (cfg.stripe id) none }, upd s.th t (.failed id)⟩
  | full {id v} (h : s.th t = .setLocked id v) (hd : cfg.len v = cfg.dim) (hi : id < cfg.total) :
      Move cfg s t .go ⟨{ s.st with full := upd s.st.full id (some v) }, upd s.th t (.setFull id v)⟩
  | noCode {id v c} (h : s.th t = .setFull id v) (hc : Choice.starts c = none)
      (hx : c = .refuse ∨ cfg.enc v = none) :
      Move cfg s t c ⟨{ s.st with lock := upd s.st.lock (cfg.stripe id) none }, upd s.th t (.failed id)⟩
  | code {id v code} (h : s.th t = .setFull id v) (he : cfg.enc v = some code) :
      Move cfg s t .go
        ⟨{ s.st with quant := upd s.st.quant id (some code), lock := upd s.st.lock (cfg.stripe id) none },
          upd s.th t (.stored id v)⟩
  | delFull {id} (h : s.th t = .delLocked id) :
      Move cfg s t .go ⟨{ s.st with full := upd s.st.full id none }, upd s.th t (.delFull id)⟩
  | delCode {id} (h : s.th t = .delFull id) :
      Move cfg s t .go
        ⟨{ s.st with quant := upd s.st.quant id none, lock := upd s.st.lock (cfg.stripe id) none },
          upd s.th t (.deleted id)⟩

theorem move_of_step {cfg : Cfg V C} {s s' : Sys V C} {t : Nat} {c : Choice V}
    (hs : s.step cfg t c = some s') : Move cfg s t c s' := by
  unfold Sys.step at hs
  cases hth : s.th t with
  | idle =>
    cases c with
    | startSet id v =>
      cases hl : s.st.lock (cfg.stripe id) with
      | none => simp [hth, Vecs.step, hl] at hs; subst hs; exact .startSet hth hl
      | some x => simp [hth, Vecs.step, hl] at hs
    | startDel id =>
      cases hl : s.st.lock (cfg.stripe id) with
      | none => simp [hth, Vecs.step, hl] at hs; subst hs; exact .startDel hth hl
      | some x => simp [hth, Vecs.step, hl] at hs
    | go => simp [hth, Vecs.step] at hs
    | refuse => simp [hth, Vecs.step] at hs
  | setLocked id v =>
    cases c with
    | startSet _ _ => simp [hth, Vecs.step] at hs
    | startDel _ => simp [hth, Vecs.step] at hs
    | go =>
      by_cases hb : cfg.len v ≠ cfg.dim ∨ cfg.total ≤ id
      · simp only [hth, Vecs.step, if_pos hb, Option.some.injEq] at hs
        subst hs
        exact .bad hth rfl
      · simp only [hth, Vecs.step, if_neg hb, Option.some.injEq] at hs
        subst hs
        exact .full hth (by omega) (by omega)
    | refuse => simp [hth, Vecs.step] at hs; subst hs; exact .bad hth rfl
  | setFull id v =>
    cases c with
    | startSet _ _ => simp [hth, Vecs.step] at hs
    | startDel _ => simp [hth, Vecs.step] at hs
    | go =>
      cases he : cfg.enc v with
      | none => simp [hth, Vecs.step, he] at hs; subst hs; exact .noCode hth rfl (.inr he)
      | some code => simp [hth, Vecs.step, he] at hs; subst hs; exact .code hth he
    | refuse => simp [hth, Vecs.step] at hs; subst hs; exact .noCode hth rfl (.inl rfl)
  | delLocked id =>
    cases c with
    | go => simp [hth, Vecs.step] at hs; subst hs; exact .delFull hth
    | startSet _ _ => simp [hth, Vecs.step] at hs
    | startDel _ => simp [hth, Vecs.step] at hs
    | refuse => simp [hth, Vecs.step] at hs
  | delFull id =>
    cases c with
    | go => simp [hth, Vecs.step] at hs; subst hs; exact .delCode hth
    | startSet _ _ => simp [hth, Vecs.step] at hs
    | startDel _ => simp [hth, Vecs.step] at hs
    | refuse => simp [hth, Vecs.step] at hs
  | stored id v => simp [hth, Vecs.step] at hs
  | failed id => simp [hth, Vecs.step] at hs
  | deleted id => simp [hth, Vecs.step] at hs

theorem Inv.step {cfg : Cfg V C} {s s' : Sys V C} {t : Nat} {c : Choice V} (h : Inv cfg s)
    (hs : s.step cfg t c = some s') : Inv cfg s' := by
  have excl := fun t t' id => h.excl (t := t) (t' := t') (id := id)
  obtain ⟨own, setF, delF⟩ := h
  have hm := move_of_step hs
  clear hs
  have hh : ∀ t id v, s.th t = .setFull id v → (s.th t).holds = some id := fun t id v h => by rw [h]; rfl
  have hh' : ∀ t id, s.th t = .delFull id → (s.th t).holds = some id := fun t id h => by rw [h]; rfl
  cases hm <;> constructor <;> grind [upd, Thread.holds]

theorem Inv.new (cfg : Cfg V C) (start : Nat → V) : Inv cfg (Sys.new cfg start) := by
  constructor <;> simp [Sys.new, Thread.holds]

/-- Induction over a run from its start. -/
theorem run_ind {cfg : Cfg V C} {P : Sys V C → Prop} {Q : Nat × Choice V → Prop}
    (hstep : ∀ s s' t c, P s → Q (t, c) → s.step cfg t c = some s' → P s') :
    ∀ (run : List (Nat × Choice V)) (s s' : Sys V C), P s → (∀ tc ∈ run, Q tc) → s.run cfg run = some s' → P s' := by
  intro run
  induction run with
  | nil => intro s s' h _ hr; simp [Sys.run] at hr; exact hr ▸ h
  | cons tc l ih =>
    intro s s' h hq hr
    unfold Sys.run at hr
    cases hs : s.step cfg tc.1 tc.2 with
    | none => simp [hs] at hr
    | some s₁ =>
      simp only [hs] at hr
      exact ih s₁ s' (hstep s s₁ tc.1 tc.2 h (hq tc (by simp)) hs) (fun x hx => hq x (by simp [hx])) hr

theorem Inv.run {cfg : Cfg V C} {s s' : Sys V C} {run : List (Nat × Choice V)} (h : Inv cfg s)
    (hr : s.run cfg run = some s') : Inv cfg s' :=
  run_ind (P := Inv cfg) (Q := fun _ => True) (fun _ _ _ _ h _ hs => h.step hs) run s s' h (fun _ _ => trivial) hr

theorem run_append {cfg : Cfg V C} (a b : List (Nat × Choice V)) :
    ∀ s : Sys V C, s.run cfg (a ++ b) = (s.run cfg a).bind fun s' => s'.run cfg b := by
  induction a with
  | nil => intro s; rfl
  | cons tc l ih =>
    intro s
    rw [List.cons_append, Sys.run, Sys.run]
    cases s.step cfg tc.1 tc.2 with
    | none => rfl
    | some s₁ => exact ih s₁

/-- A thread that works on nothing of `id` leaves the entries of `id` alone. -/
theorem quiet_step {cfg : Cfg V C} {s s' : Sys V C} {t id : Nat} {c : Choice V}
    (hq : ∀ t, (s.th t).holds ≠ some id) (hc : c.starts ≠ some id) (hs : s.step cfg t c = some s') :
    (∀ t, (s'.th t).holds ≠ some id) ∧ s'.st.full id = s.st.full id ∧ s'.st.quant id = s.st.quant id := by
  cases move_of_step hs <;> refine ⟨fun t' => ?_, ?_, ?_⟩ <;> grind [upd, Thread.holds, Choice.starts]

theorem quiet_run {cfg : Cfg V C} {s s' : Sys V C} {id : Nat} {run : List (Nat × Choice V)}
    (hq : ∀ t, (s.th t).holds ≠ some id) (hu : Untouched id run) (hr : s.run cfg run = some s') :
    (∀ t, (s'.th t).holds ≠ some id) ∧ s'.st.full id = s.st.full id ∧ s'.st.quant id = s.st.quant id :=
  run_ind (cfg := cfg)
    (P := fun x => (∀ t, (x.th t).holds ≠ some id) ∧ x.st.full id = s.st.full id ∧ x.st.quant id = s.st.quant id)
    (Q := fun tc => tc.2.starts ≠ some id)
    (fun a b t c h hc hs => by
      obtain ⟨h1, h2, h3⟩ := quiet_step h.1 hc hs
      exact ⟨h1, h2.trans h.2.1, h3.trans h.2.2⟩) run s s' ⟨hq, rfl, rfl⟩ hu hr

theorem quiet_iff (id : Nat) (th : Nat → Thread V) : Quiet id th ↔ ∀ t, (th t).holds ≠ some id := by
  constructor
  · intro h t ht
    cases hth : th t <;> simp [hth, Thread.holds] at ht <;> subst ht
    · exact ((h t).1 _).1 hth
    · exact ((h t).1 _).2 hth
    · exact (h t).2.1 hth
    · exact (h t).2.2 hth
  · intro h t
    exact ⟨fun v => ⟨fun hh => h t (by rw [hh]; rfl), fun hh => h t (by rw [hh]; rfl)⟩,
      fun hh => h t (by rw [hh]; rfl), fun hh => h t (by rw [hh]; rfl)⟩

end Verif.Bftree.Vecs
