import Mathlib.Data.Finset.Card
import Mathlib.Data.List.Nodup
import Verif.Runbook.Lemmas
import Verif.Runbook.ManagedSpec

/-! # The invariant of the tag to slot layer -/

namespace Verif.Runbook

open Spec

variable {V : Type}

/-- The invariant; `fly` are slots taken from the queue and not yet assigned. -/
structure Keeps (cap : Nat) (m : Manager) (c : Store V) (M : Nat → Option V) (A : Finset Nat) (fly : List Nat) : Prop where
  capEq : m.capacity = cap
  bij : ∀ t s, m.slot t = some s ↔ m.tag s = some t
  nd : (m.empty ++ fly).Nodup
  free : ∀ s, s ∈ m.empty ++ fly ↔ s < cap - 1 ∧ m.tag s = none
  bound : ∀ s t, m.tag s = some t → s < cap - 1
  dnd : m.deleted.Nodup
  dtag : ∀ s ∈ m.deleted, ∃ t, m.tag s = some t ∧ M t = none ∧ ∃ v, c s = some (v, true)
  live : ∀ s t, m.tag s = some t → s ∉ m.deleted → ∃ v, M t = some v ∧ c s = some (v, false)
  clear : ∀ s, m.tag s = none → c s = none
  dom : ∀ t, t ∈ A ↔ M t ≠ none
  gone : ∀ t, m.slot t = none → M t = none
  count : (m.empty ++ fly).length + m.deleted.length + A.card = cap - 1

theorem upd_same {α : Type} (f : Nat → α) (a : Nat) (b : α) : Function.update f a b a = b := Function.update_self ..

theorem upd_ne {α : Type} (f : Nat → α) {a x : Nat} (b : α) (h : x ≠ a) : Function.update f a b x = f x :=
  Function.update_of_ne h ..

/-- A live tag. -/
theorem Keeps.of_mem {cap m c M A fly} (h : Keeps (V := V) cap m c M A fly) {t : Nat} (ht : t ∈ A) :
    ∃ s v, m.slot t = some s ∧ m.tag s = some t ∧ s ∉ m.deleted ∧ M t = some v ∧ c s = some (v, false) := by
  have hM := (h.dom t).1 ht
  cases hs : m.slot t with
  | none => exact absurd (h.gone t hs) hM
  | some s =>
    have htag := (h.bij t s).1 hs
    have hd : s ∉ m.deleted := by
      intro hd
      obtain ⟨u, hu, hM', -⟩ := h.dtag s hd
      rw [htag] at hu
      cases hu
      exact hM hM'
    obtain ⟨v, h1, h2⟩ := h.live s t htag hd
    exact ⟨s, v, rfl, htag, hd, h1, h2⟩

theorem Keeps.perm_fly {cap m c M A fly fly'} (h : Keeps (V := V) cap m c M A fly) {e : List Nat}
    (hp : (m.empty ++ fly).Perm (e ++ fly')) : Keeps cap { m with empty := e } c M A fly' where
  capEq := h.capEq
  bij := h.bij
  nd := hp.nodup_iff.1 h.nd
  free s := by rw [← h.free s]; exact (hp.mem_iff).symm
  bound := h.bound
  dnd := h.dnd
  dtag := h.dtag
  live := h.live
  clear := h.clear
  dom := h.dom
  gone := h.gone
  count := by rw [← h.count, hp.length_eq]

theorem Keeps.assignOne {cap m c M A fly} {s t : Nat} {v : V} (h : Keeps cap m c M A (s :: fly)) (ht : m.slot t = none) :
    Keeps cap (m.assignOne (t, s)) (Store.put c (s, v)) (Function.update M t (some v)) (insert t A) fly := by
  have hs : s < cap - 1 ∧ m.tag s = none := (h.free s).1 (by simp)
  have hMt : M t = none := h.gone t ht
  have htA : t ∉ A := fun ha => (h.dom t).1 ha hMt
  have hnd : (s :: (m.empty ++ fly)).Nodup := (List.perm_middle.nodup_iff).1 h.nd
  have hsnot := (List.nodup_cons.1 hnd).1
  have hsd : s ∉ m.deleted := by
    intro hd
    obtain ⟨u, hu, -⟩ := h.dtag s hd
    rw [hs.2] at hu; cases hu
  have tagne : ∀ x u, m.tag x = some u → x ≠ s ∧ u ≠ t := by
    intro x u hx
    refine ⟨?_, ?_⟩
    · rintro rfl; rw [hs.2] at hx; cases hx
    · rintro rfl
      rw [(h.bij u x).2 hx] at ht; cases ht
  refine ⟨h.capEq, ?_, (List.nodup_cons.1 hnd).2, ?_, ?_, h.dnd, ?_, ?_, ?_, ?_, ?_, ?_⟩
  · intro u x
    show Function.update m.slot t (some s) u = some x ↔ Function.update m.tag s (some t) x = some u
    by_cases hu : u = t
    · subst hu
      rw [upd_same]
      by_cases hx : x = s
      · subst hx; rw [upd_same]; simp
      · rw [upd_ne _ _ hx]
        constructor
        · intro e; cases e; exact absurd rfl hx
        · intro e; exact absurd rfl (tagne x u e).2
    · rw [upd_ne _ _ hu]
      by_cases hx : x = s
      · subst hx
        rw [upd_same]
        constructor
        · intro e; rw [(h.bij u x).1 e] at hs; cases hs.2
        · intro e; cases e; exact absurd rfl hu
      · rw [upd_ne _ _ hx]; exact h.bij u x
  · intro x
    show x ∈ m.empty ++ fly ↔ x < cap - 1 ∧ Function.update m.tag s (some t) x = none
    by_cases hx : x = s
    · subst hx
      rw [upd_same]
      constructor
      · intro e; exact absurd e hsnot
      · intro e; cases e.2
    · rw [upd_ne _ _ hx, ← h.free x]
      simp [hx]
  · intro x u hx
    by_cases e : x = s
    · subst e; exact hs.1
    · exact h.bound x u (by rwa [← upd_ne m.tag (some t) e])
  · intro x hx
    obtain ⟨u, hu, h1, w, h2⟩ := h.dtag x hx
    obtain ⟨e1, e2⟩ := tagne x u hu
    refine ⟨u, ?_, ?_, w, ?_⟩
    · show Function.update m.tag s (some t) x = some u
      rw [upd_ne _ _ e1, hu]
    · rw [upd_ne _ _ e2, h1]
    · show Function.update c s _ x = _
      rw [upd_ne _ _ e1, h2]
  · intro x u hx hd
    by_cases e : x = s
    · subst e
      have : u = t := by
        have := upd_same m.tag x (some t)
        rw [show Function.update m.tag x (some t) x = some u from hx] at this
        cases this; rfl
      subst this
      exact ⟨v, upd_same .., upd_same ..⟩
    · have hx' : m.tag x = some u := by rw [← upd_ne m.tag (some t) e]; exact hx
      obtain ⟨w, h1, h2⟩ := h.live x u hx' hd
      obtain ⟨e1, e2⟩ := tagne x u hx'
      refine ⟨w, by rw [upd_ne _ _ e2, h1], ?_⟩
      show Function.update c s _ x = _
      rw [upd_ne _ _ e1, h2]
  · intro x hx
    have e : x ≠ s := by
      rintro rfl
      have := upd_same m.tag x (some t)
      rw [show Function.update m.tag x (some t) x = none from hx] at this
      cases this
    show Function.update c s _ x = _
    rw [upd_ne _ _ e]
    exact h.clear x (by rw [← upd_ne m.tag (some t) e]; exact hx)
  · intro u
    by_cases e : u = t
    · subst e; rw [upd_same]; simp
    · rw [upd_ne _ _ e, ← h.dom u]; simp [e]
  · intro u hu
    have e : u ≠ t := by
      rintro rfl
      have := upd_same m.slot u (some s)
      rw [show Function.update m.slot u (some s) u = none from hu] at this
      cases this
    rw [upd_ne _ _ e]
    exact h.gone u (by rw [← upd_ne m.slot (some s) e]; exact hu)
  · have := h.count
    rw [Finset.card_insert_of_notMem htA]
    show (m.empty ++ fly).length + m.deleted.length + _ = _
    simp only [List.length_append, List.length_cons] at this ⊢
    omega

theorem Keeps.put {cap m c M A fly} {s t : Nat} {v : V} (h : Keeps cap m c M A fly) (ht : t ∈ A) (hs : m.slot t = some s) :
    Keeps cap m (Store.put c (s, v)) (Function.update M t (some v)) A fly := by
  obtain ⟨s', w, e1, htag, hd, hM, hc⟩ := h.of_mem ht
  rw [hs] at e1; cases e1
  refine ⟨h.capEq, h.bij, h.nd, h.free, h.bound, h.dnd, ?_, ?_, ?_, ?_, ?_, h.count⟩
  · intro x hx
    obtain ⟨u, hu, h1, w', h2⟩ := h.dtag x hx
    have e : x ≠ s := by rintro rfl; exact hd hx
    have e2 : u ≠ t := by rintro rfl; rw [hM] at h1; cases h1
    refine ⟨u, hu, by rw [upd_ne _ _ e2, h1], w', ?_⟩
    show Function.update c s _ x = _
    rw [upd_ne _ _ e, h2]
  · intro x u hx hd'
    by_cases e : x = s
    · subst e
      rw [htag] at hx; cases hx
      exact ⟨v, upd_same .., upd_same ..⟩
    · have e2 : u ≠ t := by
        rintro rfl
        rw [(h.bij u x).2 hx] at hs; cases hs; exact e rfl
      obtain ⟨w', h1, h2⟩ := h.live x u hx hd'
      refine ⟨w', by rw [upd_ne _ _ e2, h1], ?_⟩
      show Function.update c s _ x = _
      rw [upd_ne _ _ e, h2]
  · intro x hx
    have e : x ≠ s := by rintro rfl; rw [htag] at hx; cases hx
    show Function.update c s _ x = _
    rw [upd_ne _ _ e]
    exact h.clear x hx
  · intro u
    by_cases e : u = t
    · subst e; rw [upd_same]; simp [ht]
    · rw [upd_ne _ _ e]; exact h.dom u
  · intro u hu
    have e : u ≠ t := by rintro rfl; rw [hs] at hu; cases hu
    rw [upd_ne _ _ e]; exact h.gone u hu

/-- Removing the mapping of a slot and returning it. -/
theorem Keeps.unmap {cap m c M A} {s t : Nat} {D : List Nat} (h : Keeps (V := V) cap m c M A []) (hs : m.slot t = some s)
    (hD : D.Nodup) (hmem : ∀ x, x ∈ D ↔ x ∈ m.deleted ∧ x ≠ s) {A' : Finset Nat} (hA : ∀ u, u ∈ A' ↔ u ∈ A ∧ u ≠ t)
    (hc : D.length + A'.card + 1 = m.deleted.length + A.card) :
    Keeps cap { m with slot := Function.update m.slot t none, tag := Function.update m.tag s none,
                       empty := m.empty ++ [s], deleted := D } (Store.drop c s) (Function.update M t none) A' [] := by
  have htag := (h.bij t s).1 hs
  have hnd : m.empty.Nodup := by simpa using h.nd
  have hfree : ∀ x, x ∈ m.empty ↔ x < cap - 1 ∧ m.tag x = none := by simpa using h.free
  have hsn : s ∉ m.empty := by rw [hfree]; rintro ⟨-, e⟩; rw [htag] at e; cases e
  have tne : ∀ x u, m.tag x = some u → x ≠ s → u ≠ t := by
    rintro x u hx hxs rfl
    rw [(h.bij u x).2 hx] at hs; cases hs; exact hxs rfl
  refine ⟨h.capEq, ?_, ?_, ?_, ?_, hD, ?_, ?_, ?_, ?_, ?_, ?_⟩
  · intro u x
    show Function.update m.slot t none u = some x ↔ Function.update m.tag s none x = some u
    by_cases hu : u = t
    · subst hu
      rw [upd_same]
      by_cases hx : x = s
      · subst hx; rw [upd_same]; simp
      · rw [upd_ne _ _ hx]
        constructor
        · intro e; cases e
        · intro e; exact absurd rfl (tne x u e hx)
    · rw [upd_ne _ _ hu]
      by_cases hx : x = s
      · subst hx
        rw [upd_same]
        constructor
        · intro e; rw [(h.bij u x).1 e] at htag; cases htag; exact absurd rfl hu
        · intro e; cases e
      · rw [upd_ne _ _ hx]; exact h.bij u x
  · show ((m.empty ++ [s]) ++ []).Nodup
    rw [List.append_nil, List.nodup_append]
    refine ⟨hnd, by simp, ?_⟩
    intro a ha b hb
    rw [List.mem_singleton.1 hb]
    rintro rfl
    exact hsn ha
  · intro x
    show x ∈ (m.empty ++ [s]) ++ [] ↔ x < cap - 1 ∧ Function.update m.tag s none x = none
    rw [List.append_nil, List.mem_append, List.mem_singleton, hfree x]
    by_cases hx : x = s
    · subst hx; rw [upd_same]; exact ⟨fun _ => ⟨h.bound x t htag, rfl⟩, fun _ => Or.inr rfl⟩
    · rw [upd_ne _ _ hx]; simp [hx]
  · intro x u hx
    have e : x ≠ s := by
      rintro rfl
      have := upd_same m.tag x none
      rw [show Function.update m.tag x none x = some u from hx] at this
      cases this
    exact h.bound x u (by rw [← upd_ne m.tag none e]; exact hx)
  · intro x hx
    obtain ⟨hx, e⟩ := (hmem x).1 hx
    obtain ⟨u, hu, h1, w, h2⟩ := h.dtag x hx
    refine ⟨u, ?_, ?_, w, ?_⟩
    · show Function.update m.tag s none x = some u
      rw [upd_ne _ _ e, hu]
    · rw [upd_ne _ _ (tne x u hu e), h1]
    · show Function.update c s none x = _
      rw [upd_ne _ _ e, h2]
  · intro x u hx hd
    have e : x ≠ s := by
      rintro rfl
      have := upd_same m.tag x none
      rw [show Function.update m.tag x none x = some u from hx] at this
      cases this
    have hx' : m.tag x = some u := by rw [← upd_ne m.tag none e]; exact hx
    obtain ⟨w, h1, h2⟩ := h.live x u hx' (fun hh => hd ((hmem x).2 ⟨hh, e⟩))
    refine ⟨w, by rw [upd_ne _ _ (tne x u hx' e), h1], ?_⟩
    show Function.update c s none x = _
    rw [upd_ne _ _ e, h2]
  · intro x hx
    show Function.update c s none x = _
    by_cases e : x = s
    · subst e; rw [upd_same]
    · rw [upd_ne _ _ e]
      exact h.clear x (by rw [← upd_ne m.tag none e]; exact hx)
  · intro u
    rw [hA]
    by_cases e : u = t
    · subst e; rw [upd_same]; simp
    · rw [upd_ne _ _ e, ← h.dom u]; simp [e]
  · intro u hu
    by_cases e : u = t
    · subst e; rw [upd_same]
    · rw [upd_ne _ _ e]
      exact h.gone u (by rw [← upd_ne m.slot none e]; exact hu)
  · have := h.count
    show ((m.empty ++ [s]) ++ []).length + D.length + A'.card = cap - 1
    simp only [List.length_append, List.length_cons, List.length_nil] at this ⊢
    omega

/-- Marking a tag. -/
theorem Keeps.flagOne {cap m c M A} {s t : Nat} (h : Keeps (V := V) cap m c M A []) (ht : t ∈ A) (hs : m.slot t = some s) :
    Keeps cap { m with deleted := setInsert s m.deleted } (Store.flag c s) (Function.update M t none) (A.erase t) [] := by
  obtain ⟨s', w, e1, htag, hd, hM, hc⟩ := h.of_mem ht
  rw [hs] at e1; cases e1
  have hset : setInsert s m.deleted = m.deleted ++ [s] := if_neg hd
  have hflag : Store.flag c s = Function.update c s (some (w, true)) := by unfold Store.flag; rw [hc]
  rw [hset, hflag]
  have tne : ∀ x u, m.tag x = some u → x ≠ s → u ≠ t := by
    rintro x u hx hxs rfl
    rw [(h.bij u x).2 hx] at hs; cases hs; exact hxs rfl
  refine ⟨h.capEq, h.bij, h.nd, h.free, h.bound, ?_, ?_, ?_, ?_, ?_, ?_, ?_⟩
  · show (m.deleted ++ [s]).Nodup
    rw [List.nodup_append]
    refine ⟨h.dnd, by simp, ?_⟩
    intro a ha b hb
    rw [List.mem_singleton.1 hb]
    rintro rfl
    exact hd ha
  · intro x hx
    rcases List.mem_append.1 (show x ∈ m.deleted ++ [s] from hx) with hy | hy
    · have e : x ≠ s := by rintro rfl; exact hd hy
      obtain ⟨u, hu, h1, w', h2⟩ := h.dtag x hy
      exact ⟨u, hu, by rw [upd_ne _ _ (tne x u hu e), h1], w', by rw [upd_ne _ _ e, h2]⟩
    · rw [List.mem_singleton.1 hy]
      exact ⟨t, htag, upd_same .., w, upd_same ..⟩
  · intro x u hx hx'
    have hx'' : x ∉ m.deleted ++ [s] := hx'
    have e : x ≠ s := by rintro rfl; exact hx'' (by simp)
    obtain ⟨w', h1, h2⟩ := h.live x u hx (fun hh => hx'' (by simp [hh]))
    exact ⟨w', by rw [upd_ne _ _ (tne x u hx e), h1], by rw [upd_ne _ _ e, h2]⟩
  · intro x hx
    have e : x ≠ s := by rintro rfl; rw [show m.tag x = none from hx] at htag; cases htag
    rw [upd_ne _ _ e]; exact h.clear x hx
  · intro u
    rw [Finset.mem_erase]
    by_cases e : u = t
    · subst e; rw [upd_same]; simp
    · rw [upd_ne _ _ e, ← h.dom u]; simp [e]
  · intro u hu
    by_cases e : u = t
    · subst e; rw [upd_same]
    · rw [upd_ne _ _ e]; exact h.gone u hu
  · have := h.count
    have h1 := Finset.card_erase_add_one ht
    show (m.empty ++ []).length + (m.deleted ++ [s]).length + _ = _
    simp only [List.length_append, List.length_cons, List.length_nil] at this ⊢
    omega

/-! ### Whole stages -/

/-- Writing vectors to tags, one after the other. -/
def setTags (M : Nat → Option V) (l : List (Nat × V)) : Nat → Option V :=
  l.foldl (fun M tv => Function.update M tv.1 (some tv.2)) M

theorem Keeps.assignAll {cap : Nat} : ∀ (ts ss : List Nat) (vs : List V) (m : Manager) (c : Store V) (M : Nat → Option V)
    (A : Finset Nat), Keeps cap m c M A ss → ts.length = ss.length → vs.length = ss.length → ts.Nodup →
    (∀ t ∈ ts, m.slot t = none) →
    Keeps cap ((ts.zip ss).foldl Manager.assignOne m) ((ss.zip vs).foldl Store.put c) (setTags M (ts.zip vs))
      (A ∪ ts.toFinset) [] := by
  intro ts
  induction ts with
  | nil =>
    intro ss vs m c M A h h1 h2 _ _
    have : ss = [] := List.length_eq_zero_iff.1 (by simpa using h1.symm)
    subst this
    simpa [setTags] using h
  | cons t ts ih =>
    intro ss vs m c M A h h1 h2 h3 h4
    cases ss with
    | nil => simp at h1
    | cons s ss =>
      cases vs with
      | nil => simp at h2
      | cons v vs =>
        have step := h.assignOne (v := v) (h4 t List.mem_cons_self)
        have := ih ss vs _ _ _ _ step (by simpa using h1) (by simpa using h2) (List.nodup_cons.1 h3).2 (by
          intro u hu
          have e : u ≠ t := by rintro rfl; exact (List.nodup_cons.1 h3).1 hu
          show Function.update m.slot t (some s) u = none
          rw [upd_ne _ _ e]; exact h4 u (List.mem_cons_of_mem _ hu))
        have hA : insert t A ∪ ts.toFinset = A ∪ (t :: ts).toFinset := by
          ext u; simp only [Finset.mem_union, Finset.mem_insert, List.toFinset_cons]; tauto
        rw [← hA]
        exact this

theorem Keeps.putAll {cap : Nat} {m : Manager} : ∀ (ts ss : List Nat) (vs : List V) (c : Store V) (M : Nat → Option V)
    (A : Finset Nat), Keeps cap m c M A [] → List.Forall₂ (fun t s => m.slot t = some s) ts ss → vs.length = ss.length →
    (∀ t ∈ ts, t ∈ A) → Keeps cap m ((ss.zip vs).foldl Store.put c) (setTags M (ts.zip vs)) A [] := by
  intro ts ss vs c M A h hf
  induction hf generalizing vs c M with
  | nil => intro _ _; simpa [setTags] using h
  | cons hd _ ih =>
    intro h2 h4
    cases vs with
    | nil => simp at h2
    | cons v vs =>
      have step := h.put (v := v) (h4 _ List.mem_cons_self) hd
      exact ih vs _ _ step (by simpa using h2) (fun u hu => h4 u (List.mem_cons_of_mem _ hu))

theorem forall₂_mem {α β : Type} {R S : α → β → Prop} {a : List α} {b : List β} (h : List.Forall₂ R a b)
    (hi : ∀ x y, x ∈ a → R x y → S x y) : List.Forall₂ S a b := by
  induction h with
  | nil => exact .nil
  | cons h _ ih => exact .cons (hi _ _ List.mem_cons_self h) (ih fun x y hx => hi x y (List.mem_cons_of_mem _ hx))

/-- Forgetting tags, one after the other. -/
def clearTags (M : Nat → Option V) (l : List Nat) : Nat → Option V := l.foldl (fun M t => Function.update M t none) M

theorem Keeps.recycleAll {cap : Nat} : ∀ (ts ss : List Nat) (m : Manager) (c : Store V) (M : Nat → Option V)
    (A : Finset Nat), Keeps cap m c M A [] → List.Forall₂ (fun t s => m.slot t = some s) ts ss → ts.Nodup →
    (∀ t ∈ ts, t ∈ A) → ∃ m', m.recycle ts = some m' ∧ m'.deleted = m.deleted ∧
      (∀ t, m.slot t = none → m'.slot t = none) ∧
      Keeps cap m' (ss.foldl Store.drop c) (clearTags M ts) (A \ ts.toFinset) [] := by
  intro ts
  induction ts with
  | nil =>
    intro ss m c M A h hf _ _
    cases hf
    exact ⟨m, rfl, rfl, fun _ h => h, by simpa [clearTags] using h⟩
  | cons t ts ih =>
    intro ss m c M A h hf h3 h4
    cases hf with
    | @cons _ s _ ss hd hf =>
      have ht := h4 t List.mem_cons_self
      obtain ⟨s', w, e1, htag, hdel, hM, hc⟩ := h.of_mem ht
      rw [hd] at e1; cases e1
      have step := h.unmap (D := m.deleted) (A' := A.erase t) hd h.dnd
        (fun x => ⟨fun hx => ⟨hx, by rintro rfl; exact hdel hx⟩, fun hx => hx.1⟩)
        (fun u => by rw [Finset.mem_erase]; tauto)
        (by have := Finset.card_erase_add_one ht; omega)
      obtain ⟨m', e1, e2, e3, e4⟩ := ih ss _ _ _ _ step (by
          refine forall₂_mem hf ?_
          intro u x hu hux
          have e : u ≠ t := by rintro rfl; exact (List.nodup_cons.1 h3).1 hu
          show Function.update m.slot t none u = some x
          rw [upd_ne _ _ e]; exact hux) (List.nodup_cons.1 h3).2 (by
          intro u hu
          rw [Finset.mem_erase]
          exact ⟨by rintro rfl; exact (List.nodup_cons.1 h3).1 hu, h4 u (List.mem_cons_of_mem _ hu)⟩)
      refine ⟨m', ?_, e2, ?_, ?_⟩
      · rw [Manager.recycle, hd]; exact e1
      · intro u hu
        refine e3 u ?_
        show Function.update m.slot t none u = none
        by_cases e : u = t
        · subst e; rw [upd_same]
        · rw [upd_ne _ _ e]; exact hu
      · have hA : A.erase t \ ts.toFinset = A \ (t :: ts).toFinset := by
          ext u; simp only [Finset.mem_sdiff, Finset.mem_erase, List.toFinset_cons, Finset.mem_insert]; tauto
        rw [← hA]; exact e4

theorem Keeps.markAll {cap : Nat} : ∀ (ts ss : List Nat) (m : Manager) (c : Store V) (M : Nat → Option V)
    (A : Finset Nat), Keeps cap m c M A [] → List.Forall₂ (fun t s => m.slot t = some s) ts ss → ts.Nodup →
    (∀ t ∈ ts, t ∈ A) → ∃ m', m.mark ts = some m' ∧ m'.slot = m.slot ∧
      Keeps cap m' (ss.foldl Store.flag c) (clearTags M ts) (A \ ts.toFinset) [] := by
  intro ts
  induction ts with
  | nil =>
    intro ss m c M A h hf _ _
    cases hf
    exact ⟨m, rfl, rfl, by simpa [clearTags] using h⟩
  | cons t ts ih =>
    intro ss m c M A h hf h3 h4
    cases hf with
    | @cons _ s _ ss hd hf =>
      have ht := h4 t List.mem_cons_self
      have step := h.flagOne ht hd
      obtain ⟨m', e1, e2, e4⟩ := ih ss _ _ _ _ step hf (List.nodup_cons.1 h3).2 (by
          intro u hu
          rw [Finset.mem_erase]
          exact ⟨by rintro rfl; exact (List.nodup_cons.1 h3).1 hu, h4 u (List.mem_cons_of_mem _ hu)⟩)
      refine ⟨m', ?_, e2, ?_⟩
      · rw [Manager.mark, hd]; exact e1
      · have hA : A.erase t \ ts.toFinset = A \ (t :: ts).toFinset := by
          ext u; simp only [Finset.mem_sdiff, Finset.mem_erase, List.toFinset_cons, Finset.mem_insert]; tauto
        rw [← hA]; exact e4

theorem Keeps.drainAll {cap : Nat} : ∀ (l : List Nat) (m : Manager) (c : Store V) (M : Nat → Option V) (A : Finset Nat),
    Keeps cap { m with deleted := l } c M A [] →
    Keeps cap { l.foldl Manager.consolidateOne m with deleted := [] } (l.foldl Store.drop c) M A [] ∧
    ∀ t, m.slot t = none → (l.foldl Manager.consolidateOne m).slot t = none := by
  intro l
  induction l with
  | nil => intro m c M A h; exact ⟨h, fun _ h => h⟩
  | cons s l ih =>
    intro m c M A h
    obtain ⟨t, htag, hM, w, hc⟩ := h.dtag s List.mem_cons_self
    have hslot : m.slot t = some s := (h.bij t s).2 htag
    have hnd := List.nodup_cons.1 h.dnd
    have hone : m.consolidateOne s = { m with tag := Function.update m.tag s none, slot := Function.update m.slot t none,
                                              empty := m.empty ++ [s] } := by
      unfold Manager.consolidateOne
      rw [show m.tag s = some t from htag]
    have htA : t ∉ A := fun ha => (h.dom t).1 ha hM
    have hMt : Function.update M t none = M := by
      funext u
      by_cases e : u = t
      · subst e; rw [upd_same, hM]
      · rw [upd_ne _ _ e]
    have step := h.unmap (D := l) (A' := A) hslot hnd.2
        (fun x => ⟨fun hx => ⟨List.mem_cons_of_mem _ hx, by rintro rfl; exact hnd.1 hx⟩, fun hx => by
          rcases List.mem_cons.1 hx.1 with e | e
          · exact absurd e hx.2
          · exact e⟩)
        (fun u => ⟨fun hu => ⟨hu, by rintro rfl; exact htA hu⟩, fun hu => hu.1⟩)
        (by show l.length + A.card + 1 = (s :: l).length + A.card
            rw [List.length_cons]; omega)
    rw [hMt] at step
    obtain ⟨e1, e2⟩ := ih (m.consolidateOne s) (Store.drop c s) M A (by rw [hone]; exact step)
    refine ⟨e1, fun u hu => e2 u ?_⟩
    rw [hone]
    show Function.update m.slot t none u = none
    by_cases e : u = t
    · subst e; rw [upd_same]
    · rw [upd_ne _ _ e]; exact hu

theorem drop_foldl (l : List Nat) (c : Store V) (s : Nat) :
    (l.foldl Store.drop c) s = if s ∈ l then none else c s := by
  induction l generalizing c with
  | nil => simp
  | cons x l ih =>
    rw [List.foldl_cons, ih]
    unfold Store.drop
    by_cases h : s ∈ l
    · rw [if_pos h, if_pos (List.mem_cons_of_mem _ h)]
    · rw [if_neg h]
      by_cases e : s = x
      · subst e; rw [upd_same, if_pos List.mem_cons_self]
      · rw [upd_ne _ _ e, if_neg (by simp [e, h])]

theorem consolidateOne_deleted (l : List Nat) (m : Manager) :
    (l.foldl Manager.consolidateOne m).deleted = m.deleted := by
  induction l generalizing m with
  | nil => rfl
  | cons x l ih =>
    rw [List.foldl_cons, ih]
    unfold Manager.consolidateOne
    split <;> rfl

theorem same_deleted {m : Manager} {l : List Nat} (h : m.deleted = l) : ({ m with deleted := l } : Manager) = m := by
  cases m; cases h; rfl

theorem Keeps.maintain {cap m c M A} (h : Keeps (V := V) cap m c M A []) (drain : List Nat → List Nat)
    (hd : ∀ l, (drain l).Perm l) :
    Keeps cap (m.consolidate drain) c.maintain M A [] ∧ (m.consolidate drain).deleted = [] ∧
    ∀ t, m.slot t = none → (m.consolidate drain).slot t = none := by
  have hp := hd m.deleted
  have h' : Keeps cap { ({ m with deleted := [] } : Manager) with deleted := drain m.deleted } c M A [] :=
    ⟨h.capEq, h.bij, h.nd, h.free, h.bound, hp.nodup_iff.2 h.dnd, fun s hs => h.dtag s (hp.mem_iff.1 hs),
      fun s t h1 h2 => h.live s t h1 (fun hh => h2 (hp.mem_iff.2 hh)), h.clear, h.dom, h.gone, by
        have := h.count
        show _ + (drain m.deleted).length + _ = _
        rw [hp.length_eq]; exact this⟩
  obtain ⟨e1, e2⟩ := Keeps.drainAll _ _ _ _ _ h'
  have hdel : (m.consolidate drain).deleted = [] := consolidateOne_deleted _ _
  refine ⟨?_, hdel, e2⟩
  have hc : (drain m.deleted).foldl Store.drop c = c.maintain := by
    funext s
    rw [drop_foldl]
    by_cases hs : s ∈ m.deleted
    · rw [if_pos (hp.mem_iff.2 hs)]
      obtain ⟨t, -, -, v, hv⟩ := h.dtag s hs
      unfold Store.maintain; rw [hv]
    · rw [if_neg (fun hh => hs (hp.mem_iff.1 hh))]
      unfold Store.maintain
      cases ht : m.tag s with
      | none => rw [h.clear s ht]
      | some t =>
        obtain ⟨v, -, hv⟩ := h.live s t ht hs
        rw [hv]
  rw [hc] at e1
  exact same_deleted (m := m.consolidate drain) hdel ▸ e1

end Verif.Runbook
