import Mathlib.Tactic.Linarith
import Mathlib.Algebra.BigOperators.Group.List.Basic
import Verif.Runbook.Spec

/-! # Lemmas about the validator -/

namespace Verif.Runbook

open Spec

/-- Sorted ranges, none empty; `le` says how neighbours are apart. -/
def Sep (le : Nat → Nat → Prop) (rs : List Rng) : Prop :=
  (∀ r ∈ rs, r.lo < r.hi) ∧ rs.Pairwise fun a b => le a.hi b.lo

/-- The tags of a list of ranges. -/
def cover (rs : List Rng) (t : Nat) : Prop := ∃ r ∈ rs, r.lo ≤ t ∧ t < r.hi

theorem cover_append (a b : List Rng) (t : Nat) : cover (a ++ b) t ↔ cover a t ∨ cover b t := by
  unfold cover
  constructor
  · rintro ⟨r, h, e⟩
    rcases List.mem_append.1 h with h | h
    · exact Or.inl ⟨r, h, e⟩
    · exact Or.inr ⟨r, h, e⟩
  · rintro (⟨r, h, e⟩ | ⟨r, h, e⟩)
    · exact ⟨r, List.mem_append_left _ h, e⟩
    · exact ⟨r, List.mem_append_right _ h, e⟩

theorem cover_cons (r : Rng) (rs : List Rng) (t : Nat) : cover (r :: rs) t ↔ (r.lo ≤ t ∧ t < r.hi) ∨ cover rs t := by
  unfold cover
  simp

theorem cover_nil (t : Nat) : ¬ cover [] t := by simp [cover]

theorem overlaps_iff {r s : Rng} (hr : r.lo < r.hi) (hs : s.lo < s.hi) : r.overlaps s = true ↔ r.lo < s.hi ∧ s.lo < r.hi := by
  unfold Rng.overlaps Rng.contains
  simp only [Bool.or_eq_true, decide_eq_true_eq]
  omega

/-- Where the search stops. -/
theorem find_spec (tags : Rng) (ht : tags.lo < tags.hi) (rs : List Rng) (hs : ∀ r ∈ rs, r.lo < r.hi) (k : Nat) :
    ∃ pre suf, rs = pre ++ suf ∧ (∀ r ∈ pre, r.hi ≤ tags.lo) ∧
      ((find tags rs k = .back ∧ suf = []) ∨
       (∃ r s, suf = r :: s ∧ find tags rs k = .before (k + pre.length) ∧ tags.hi ≤ r.lo) ∨
       (∃ r s, suf = r :: s ∧ find tags rs k = .inside (k + pre.length) ∧ tags.lo < r.hi ∧ r.lo < tags.hi)) := by
  induction rs generalizing k with
  | nil => exact ⟨[], [], rfl, by simp, Or.inl ⟨rfl, rfl⟩⟩
  | cons r rs ih =>
    have hr := hs r List.mem_cons_self
    by_cases ho : tags.overlaps r = true
    · refine ⟨[], r :: rs, rfl, by simp, Or.inr (Or.inr ⟨r, rs, rfl, ?_, ?_⟩)⟩
      · simp [find, ho]
      · have := (overlaps_iff ht hr).1 ho
        omega
    · have hno : ¬ (tags.lo < r.hi ∧ r.lo < tags.hi) := fun h => ho ((overlaps_iff ht hr).2 h)
      by_cases hb : r.lo ≥ tags.hi
      · refine ⟨[], r :: rs, rfl, by simp, Or.inr (Or.inl ⟨r, rs, rfl, ?_, hb⟩)⟩
        simp [find, ho, hb]
      · obtain ⟨pre, suf, e, h1, h2⟩ := ih (fun x hx => hs x (List.mem_cons_of_mem _ hx)) (k + 1)
        have hf : find tags (r :: rs) k = find tags rs (k + 1) := by
          simp only [find]
          rw [if_neg ho, if_neg hb]
        refine ⟨r :: pre, suf, by rw [e]; rfl, ?_, ?_⟩
        · intro x hx
          rcases List.mem_cons.1 hx with rfl | hx
          · omega
          · exact h1 x hx
        · rw [hf, List.length_cons, show k + (pre.length + 1) = k + 1 + pre.length by omega]
          exact h2

/-- Compaction keeps the tags and separates the ranges. -/
theorem compactGo_spec (rs : List Rng) : ∀ (done : List Rng) (cur : Rng), Sep (· < ·) (done ++ [cur]) →
    Sep (· ≤ ·) (cur :: rs) → ∃ out, compactGo done cur rs = some out ∧ Sep (· < ·) out ∧
      ∀ t, cover out t ↔ cover (done ++ cur :: rs) t := by
  induction rs with
  | nil =>
    intro done cur h _
    exact ⟨done ++ [cur], rfl, h, fun t => Iff.rfl⟩
  | cons r rs ih =>
    intro done cur h1 h2
    obtain ⟨h2a, h2b⟩ := h2
    have hcur := h2a cur List.mem_cons_self
    have hr := h2a r (List.mem_cons_of_mem _ List.mem_cons_self)
    have hle : cur.hi ≤ r.lo := (List.pairwise_cons.1 h2b).1 r List.mem_cons_self
    have hrest : ∀ x ∈ rs, r.hi ≤ x.lo := (List.pairwise_cons.1 (List.pairwise_cons.1 h2b).2).1
    have hpr := (List.pairwise_cons.1 (List.pairwise_cons.1 h2b).2).2
    simp only [compactGo]
    by_cases he : cur.hi = r.lo
    · rw [if_pos he]
      obtain ⟨out, e1, e2, e3⟩ := ih done ⟨cur.lo, r.hi⟩ (by
        refine ⟨?_, ?_⟩
        · intro x hx
          rcases List.mem_append.1 hx with hx | hx
          · exact h1.1 x (List.mem_append_left _ hx)
          · rw [List.mem_singleton.1 hx]; show cur.lo < r.hi; omega
        · have := List.pairwise_append.1 h1.2
          refine List.pairwise_append.2 ⟨this.1, List.pairwise_singleton _ _, ?_⟩
          intro a ha b hb
          rw [List.mem_singleton.1 hb]
          exact this.2.2 a ha cur (List.mem_singleton.2 rfl)) (by
        refine ⟨?_, List.pairwise_cons.2 ⟨hrest, hpr⟩⟩
        intro x hx
        rcases List.mem_cons.1 hx with rfl | hx
        · show cur.lo < r.hi; omega
        · exact h2a x (List.mem_cons_of_mem _ (List.mem_cons_of_mem _ hx)))
      refine ⟨out, e1, e2, fun t => ?_⟩
      rw [e3 t]
      simp only [cover_append, cover_cons]
      constructor
      · rintro (h | h | h)
        · exact Or.inl h
        · by_cases ht : t < cur.hi
          · exact Or.inr (Or.inl ⟨h.1, ht⟩)
          · exact Or.inr (Or.inr (Or.inl ⟨by omega, h.2⟩))
        · exact Or.inr (Or.inr (Or.inr h))
      · rintro (h | h | h | h)
        · exact Or.inl h
        · exact Or.inr (Or.inl ⟨h.1, by show t < r.hi; omega⟩)
        · exact Or.inr (Or.inl ⟨by show cur.lo ≤ t; omega, h.2⟩)
        · exact Or.inr (Or.inr h)
    · rw [if_neg he, if_pos (show r.lo > cur.hi by omega)]
      obtain ⟨out, e1, e2, e3⟩ := ih (done ++ [cur]) r (by
        refine ⟨?_, ?_⟩
        · intro x hx
          rcases List.mem_append.1 hx with hx | hx
          · exact h1.1 x hx
          · rw [List.mem_singleton.1 hx]; exact hr
        · refine List.pairwise_append.2 ⟨h1.2, List.pairwise_singleton _ _, ?_⟩
          intro a ha b hb
          rw [List.mem_singleton.1 hb]
          rcases List.mem_append.1 ha with ha | ha
          · have := (List.pairwise_append.1 h1.2).2.2 a ha cur (List.mem_singleton.2 rfl)
            omega
          · rw [List.mem_singleton.1 ha]; omega)
        ⟨fun x hx => h2a x (List.mem_cons_of_mem _ hx), (List.pairwise_cons.1 h2b).2⟩
      refine ⟨out, e1, e2, fun t => ?_⟩
      rw [e3 t, List.append_assoc]
      rfl

theorem compact_spec (rs : List Rng) (h : Sep (· ≤ ·) rs) :
    ∃ out, compact rs = some out ∧ Sep (· < ·) out ∧ ∀ t, cover out t ↔ cover rs t := by
  cases rs with
  | nil => exact ⟨[], rfl, ⟨by simp, List.Pairwise.nil⟩, fun t => Iff.rfl⟩
  | cons r rs =>
    exact compactGo_spec rs [] r
      ⟨fun x hx => by rw [List.mem_singleton.1 hx]; exact h.1 r List.mem_cons_self, List.pairwise_singleton _ _⟩ h

/-- The invariant of the validator: its ranges are apart and cover the active tags. -/
structure Inv (v : Validator) (A : Finset Nat) : Prop where
  sep : Sep (· < ·) v.active
  cov : ∀ t, cover v.active t ↔ t ∈ A
  cur : v.current = A.card

theorem mem_tags {r : Rng} {t : Nat} : t ∈ tags r ↔ r.lo ≤ t ∧ t < r.hi := Finset.mem_Ico

theorem card_tags (r : Rng) : (tags r).card = r.hi - r.lo := Nat.card_Ico _ _

theorem Sep.le {rs : List Rng} (h : Sep (· < ·) rs) : Sep (· ≤ ·) rs := ⟨h.1, h.2.imp fun h => Nat.le_of_lt h⟩

theorem Sep.split {pre suf : List Rng} {r : Rng} {le : Nat → Nat → Prop} (h : Sep le (pre ++ r :: suf)) :
    (∀ x ∈ pre, le x.hi r.lo) ∧ (∀ x ∈ suf, le r.hi x.lo) ∧ (∀ x ∈ pre, ∀ y ∈ suf, le x.hi y.lo) ∧ r.lo < r.hi ∧
      (∀ x ∈ pre, x.lo < x.hi) ∧ (∀ x ∈ suf, x.lo < x.hi) ∧ pre.Pairwise (fun a b => le a.hi b.lo) ∧
      suf.Pairwise (fun a b => le a.hi b.lo) := by
  obtain ⟨h1, h2⟩ := h
  obtain ⟨p1, p2, p3⟩ := List.pairwise_append.1 h2
  exact ⟨fun x hx => p3 x hx r List.mem_cons_self, (List.pairwise_cons.1 p2).1,
    fun x hx y hy => p3 x hx y (List.mem_cons_of_mem _ hy), h1 r (by simp), fun x hx => h1 x (by simp [hx]),
    fun x hx => h1 x (by simp [hx]), p1, (List.pairwise_cons.1 p2).2⟩

theorem Sep.join {pre suf : List Rng} {le : Nat → Nat → Prop} {mid : List Rng} (hm : ∀ x ∈ mid, x.lo < x.hi)
    (hpm : ∀ x ∈ pre, ∀ y ∈ mid, le x.hi y.lo) (hms : ∀ x ∈ mid, ∀ y ∈ suf, le x.hi y.lo)
    (hps : ∀ x ∈ pre, ∀ y ∈ suf, le x.hi y.lo) (h5 : ∀ x ∈ pre, x.lo < x.hi) (h6 : ∀ x ∈ suf, x.lo < x.hi)
    (h7 : pre.Pairwise fun a b => le a.hi b.lo) (h8 : suf.Pairwise fun a b => le a.hi b.lo)
    (h9 : mid.Pairwise fun a b => le a.hi b.lo) : Sep le (pre ++ mid ++ suf) := by
  refine ⟨?_, ?_⟩
  · intro x hx
    rcases List.mem_append.1 hx with hx | hx
    · rcases List.mem_append.1 hx with hx | hx
      · exact h5 x hx
      · exact hm x hx
    · exact h6 x hx
  · refine List.pairwise_append.2 ⟨List.pairwise_append.2 ⟨h7, h9, hpm⟩, h8, ?_⟩
    intro x hx y hy
    rcases List.mem_append.1 hx with hx | hx
    · exact hps x hx y hy
    · exact hms x hx y hy

theorem not_cover_of {pre suf : List Rng} {t : Nat} (h1 : ∀ x ∈ pre, x.hi ≤ t) (h2 : ∀ x ∈ suf, t < x.lo) :
    ¬ cover (pre ++ suf) t := by
  rintro ⟨x, hx, a, b⟩
  rcases List.mem_append.1 hx with hx | hx
  · have := h1 x hx; omega
  · have := h2 x hx; omega

theorem Rng.len_of {r : Rng} (h : r.lo < r.hi) : r.len = some (r.hi - r.lo) := if_pos (Nat.le_of_lt h)

/-- What the end of an insertion does. -/
theorem added_spec {v : Validator} {A : Finset Nat} (hi : Inv v A) {r : Rng} (hr : r.lo < r.hi) {pre suf : List Rng}
    (he : v.active = pre ++ suf) (h1 : ∀ x ∈ pre, x.hi ≤ r.lo) (h2 : ∀ x ∈ suf, r.hi ≤ x.lo) :
    Disjoint A (tags r) ∧ ∃ v', v.added r (pre ++ r :: suf) = .ok v' ∧ Inv v' (A ∪ tags r) ∧
      v'.maxActive = max v.maxActive (A ∪ tags r).card ∧ v'.maxTag = updateMax v.maxTag (r.hi - 1) := by
  have hs := hi.sep
  rw [he] at hs
  obtain ⟨s1, s2⟩ := hs
  obtain ⟨p1, p2, p3⟩ := List.pairwise_append.1 s2
  have hdis : Disjoint A (tags r) := by
    rw [Finset.disjoint_left]
    intro t ht htr
    rw [← hi.cov t, he] at ht
    rw [mem_tags] at htr
    obtain ⟨x, hx, a, b⟩ := ht
    rcases List.mem_append.1 hx with hx | hx
    · have := h1 x hx; omega
    · have := h2 x hx; omega
  have hsep : Sep (· ≤ ·) (pre ++ [r] ++ suf) := by
    refine Sep.join (fun x hx => by rw [List.mem_singleton.1 hx]; exact hr)
      (fun x hx y hy => by rw [List.mem_singleton.1 hy]; exact h1 x hx)
      (fun x hx y hy => by rw [List.mem_singleton.1 hx]; exact h2 y hy)
      (fun x hx y hy => Nat.le_of_lt (p3 x hx y hy)) (fun x hx => s1 x (by simp [hx])) (fun x hx => s1 x (by simp [hx]))
      (p1.imp fun h => Nat.le_of_lt h) (p2.imp fun h => Nat.le_of_lt h) (List.pairwise_singleton _ _)
  rw [List.append_assoc, List.singleton_append] at hsep
  obtain ⟨out, e1, e2, e3⟩ := compact_spec _ hsep
  have hcard : (A ∪ tags r).card = A.card + (r.hi - r.lo) := by
    rw [Finset.card_union_of_disjoint hdis, card_tags]
  refine ⟨hdis, _, by unfold Validator.added; rw [Rng.len_of hr]; dsimp only; rw [e1], ⟨e2, ?_, ?_⟩, ?_, ?_⟩
  · intro t
    rw [e3 t, Finset.mem_union, mem_tags, ← hi.cov t, he]
    simp only [cover_append, cover_cons]
    tauto
  · show v.current + (r.hi - r.lo) = _
    rw [hi.cur, hcard]
  · show max v.maxActive (v.current + (r.hi - r.lo)) = _
    rw [hi.cur, hcard]
  · show (if r.hi = 0 then v.maxTag else _) = _
    rw [if_neg (by omega)]

theorem insert_spec {v : Validator} {A : Finset Nat} (hi : Inv v A) (r : Rng) (hr : r.lo < r.hi) :
    (¬ Disjoint A (tags r) → v.insert r = .err) ∧
    (Disjoint A (tags r) → ∃ v', v.insert r = .ok v' ∧ Inv v' (A ∪ tags r) ∧
      v'.maxActive = max v.maxActive (A ∪ tags r).card ∧ v'.maxTag = updateMax v.maxTag (r.hi - 1)) := by
  obtain ⟨pre, suf, e, h1, h2⟩ := find_spec r hr v.active hi.sep.1 0
  rcases h2 with ⟨hf, hs⟩ | ⟨x, s, hs, hf, hx⟩ | ⟨x, s, hs, hf, hx1, hx2⟩
  · subst hs
    have ha := added_spec hi hr e h1 (by simp)
    rw [List.append_nil] at e
    subst e
    unfold Validator.insert
    rw [hf]
    exact ⟨fun h => absurd ha.1 h, fun _ => ha.2⟩
  · have hsuf : ∀ y ∈ suf, r.hi ≤ y.lo := by
      intro y hy
      rw [hs] at hy
      have hsep := hi.sep
      rw [e, hs] at hsep
      obtain ⟨q1, q2, q3, q4, q5, q6, q7, q8⟩ := hsep.split
      rcases List.mem_cons.1 hy with rfl | hy
      · exact hx
      · have := q2 y hy; have := q6 y hy; omega
    have ha := added_spec hi hr e h1 hsuf
    unfold Validator.insert
    rw [hf]
    dsimp only
    rw [Nat.zero_add, show v.active.take pre.length = pre by rw [e]; simp, show v.active.drop pre.length = suf by rw [e]; simp]
    exact ⟨fun h => absurd ha.1 h, fun _ => ha.2⟩
  · unfold Validator.insert
    rw [hf]
    refine ⟨fun _ => rfl, fun hd => ?_⟩
    exfalso
    have hx0 : x.lo < x.hi := hi.sep.1 x (by rw [e, hs]; simp)
    rw [Finset.disjoint_left] at hd
    refine hd (a := max r.lo x.lo) ((hi.cov _).1 ⟨x, by rw [e, hs]; simp, by omega, by omega⟩) (mem_tags.2 (by omega))

/-- Whether a range is active, and where. -/
theorem inside_spec {v : Validator} {A : Finset Nat} (hi : Inv v A) (r : Rng) (hr : r.lo < r.hi) :
    (tags r ⊆ A → ∃ pre x suf, v.active = pre ++ x :: suf ∧ find r v.active 0 = .inside pre.length ∧
      x.within r = true) ∧
    (¬ tags r ⊆ A → find r v.active 0 = .back ∨ (∃ i, find r v.active 0 = .before i) ∨
      ∃ pre x suf, v.active = pre ++ x :: suf ∧ find r v.active 0 = .inside pre.length ∧ x.within r = false) := by
  obtain ⟨pre, suf, e, h1, h2⟩ := find_spec r hr v.active hi.sep.1 0
  rcases h2 with ⟨hf, hs⟩ | ⟨x, s, hs, hf, hx⟩ | ⟨x, s, hs, hf, hx1, hx2⟩
  · refine ⟨fun h => ?_, fun _ => Or.inl hf⟩
    exfalso
    have := (hi.cov r.lo).2 (h (mem_tags.2 ⟨Nat.le_refl _, hr⟩))
    rw [e, hs] at this
    exact not_cover_of h1 (by simp) this
  · refine ⟨fun h => ?_, fun _ => Or.inr (Or.inl ⟨_, hf⟩)⟩
    exfalso
    have := (hi.cov r.lo).2 (h (mem_tags.2 ⟨Nat.le_refl _, hr⟩))
    have hsep := hi.sep
    rw [e, hs] at hsep
    obtain ⟨q1, q2, q3, q4, q5, q6, q7, q8⟩ := hsep.split
    rw [e, hs] at this
    refine not_cover_of h1 (fun y hy => ?_) this
    rcases List.mem_cons.1 hy with rfl | hy
    · omega
    · have := q2 y hy; omega
  · have hsep := hi.sep
    rw [e, hs] at hsep
    obtain ⟨q1, q2, q3, q4, q5, q6, q7, q8⟩ := hsep.split
    rw [Nat.zero_add] at hf
    by_cases hw : x.within r = true
    · refine ⟨fun _ => ⟨pre, x, s, by rw [e, hs], hf, hw⟩, fun h => ?_⟩
      exfalso
      apply h
      intro t ht
      rw [mem_tags] at ht
      unfold Rng.within at hw
      rw [decide_eq_true_eq] at hw
      exact (hi.cov t).1 ⟨x, by rw [e, hs]; simp, by omega, by omega⟩
    · refine ⟨fun h => ?_, fun _ => Or.inr (Or.inr ⟨pre, x, s, by rw [e, hs], hf, by simpa using hw⟩)⟩
      exfalso
      unfold Rng.within at hw
      rw [decide_eq_true_eq] at hw
      by_cases hl : r.lo < x.lo
      · have := (hi.cov r.lo).2 (h (mem_tags.2 ⟨Nat.le_refl _, hr⟩))
        rw [e, hs] at this
        refine not_cover_of h1 (fun y hy => ?_) this
        rcases List.mem_cons.1 hy with rfl | hy
        · exact hl
        · have := q2 y hy; omega
      · have := (hi.cov x.hi).2 (h (mem_tags.2 ⟨by omega, by omega⟩))
        rw [e, hs, ← List.singleton_append, ← List.append_assoc] at this
        refine not_cover_of (fun y hy => ?_) (fun y hy => q2 y hy) this
        rcases List.mem_append.1 hy with hy | hy
        · have := q1 y hy; omega
        · rw [List.mem_singleton.1 hy]

theorem replace_spec {v : Validator} {A : Finset Nat} (hi : Inv v A) (r : Rng) (hr : r.lo < r.hi) :
    (¬ tags r ⊆ A → v.replace r = .err) ∧ (tags r ⊆ A → v.replace r = .ok v) := by
  obtain ⟨a, b⟩ := inside_spec hi r hr
  unfold Validator.replace
  refine ⟨fun h => ?_, fun h => ?_⟩
  · rcases b h with hf | ⟨i, hf⟩ | ⟨pre, x, suf, e, hf, hw⟩
    · rw [hf]
    · rw [hf]
    · rw [hf]
      dsimp only
      rw [show v.active[pre.length]? = some x by rw [e]; simp]
      dsimp only
      rw [if_neg (by rw [hw]; simp)]
  · obtain ⟨pre, x, suf, e, hf, hw⟩ := a h
    rw [hf]
    dsimp only
    rw [show v.active[pre.length]? = some x by rw [e]; simp]
    dsimp only
    rw [if_pos hw]

/-- Removing a range from one that contains it. -/
theorem remove_spec {x r : Rng} (hr : r.lo < r.hi) (h1 : x.lo ≤ r.lo) (h2 : r.hi ≤ x.hi) :
    ∃ rest, x.remove r = some rest ∧ (∀ y ∈ rest, y.lo < y.hi ∧ x.lo ≤ y.lo ∧ y.hi ≤ x.hi) ∧
      rest.Pairwise (fun a b => a.hi < b.lo) ∧
      ∀ t, cover rest t ↔ (x.lo ≤ t ∧ t < x.hi) ∧ ¬ (r.lo ≤ t ∧ t < r.hi) := by
  have ho : x.overlaps r = true := (overlaps_iff (by omega) hr).2 ⟨by omega, by omega⟩
  unfold Rng.remove
  rw [Rng.len_of hr]
  obtain ⟨n, hn⟩ : ∃ n, r.hi - r.lo = n + 1 := ⟨r.hi - r.lo - 1, by omega⟩
  rw [hn]
  rw [if_neg (by rw [ho]; simp)]
  by_cases c1 : r.within x = true
  · rw [if_pos c1]
    unfold Rng.within at c1
    rw [decide_eq_true_eq] at c1
    refine ⟨[], rfl, by simp, List.Pairwise.nil, fun t => ?_⟩
    have := cover_nil t
    constructor
    · intro h; exact absurd h this
    · intro h; omega
  · rw [if_neg c1]
    unfold Rng.within at c1
    rw [decide_eq_true_eq] at c1
    by_cases c2 : r.lo ≤ x.lo
    · rw [if_pos c2]
      refine ⟨_, rfl, ?_, List.pairwise_singleton _ _, fun t => ?_⟩
      · intro y hy
        rw [List.mem_singleton.1 hy]
        simp only [Rng.new]
        omega
      · rw [cover_cons, or_iff_left (cover_nil t)]
        simp only [Rng.new]
        omega
    · rw [if_neg c2]
      by_cases c3 : r.hi ≥ x.hi
      · rw [if_pos c3]
        refine ⟨_, rfl, ?_, List.pairwise_singleton _ _, fun t => ?_⟩
        · intro y hy
          rw [List.mem_singleton.1 hy]
          simp only [Rng.new]
          omega
        · rw [cover_cons, or_iff_left (cover_nil t)]
          simp only [Rng.new]
          omega
      · rw [if_neg c3, if_pos (show x.within r = true by unfold Rng.within; rw [decide_eq_true_eq]; omega)]
        refine ⟨_, rfl, ?_, ?_, fun t => ?_⟩
        · intro y hy
          rcases List.mem_cons.1 hy with rfl | hy
          · simp only [Rng.new]; omega
          · rw [List.mem_singleton.1 hy]; simp only [Rng.new]; omega
        · refine List.pairwise_cons.2 ⟨?_, List.pairwise_singleton _ _⟩
          intro y hy
          rw [List.mem_singleton.1 hy]
          simp only [Rng.new]
          omega
        · rw [cover_cons, cover_cons, or_iff_left (cover_nil t)]
          simp only [Rng.new]
          omega

theorem delete_spec {v : Validator} {A : Finset Nat} (hi : Inv v A) (r : Rng) (hr : r.lo < r.hi) :
    (¬ tags r ⊆ A → v.delete r = .err) ∧
    (tags r ⊆ A → ∃ v', v.delete r = .ok v' ∧ Inv v' (A \ tags r) ∧ v'.maxActive = v.maxActive ∧
      v'.maxTag = v.maxTag) := by
  obtain ⟨a, b⟩ := inside_spec hi r hr
  unfold Validator.delete
  refine ⟨fun h => ?_, fun h => ?_⟩
  · rcases b h with hf | ⟨i, hf⟩ | ⟨pre, x, suf, e, hf, hw⟩
    · rw [hf]
    · rw [hf]
    · rw [hf]
      dsimp only
      rw [show v.active[pre.length]? = some x by rw [e]; simp]
      dsimp only
      rw [if_neg (by rw [hw]; simp)]
  · obtain ⟨pre, x, suf, e, hf, hw⟩ := a h
    rw [hf]
    dsimp only
    rw [show v.active[pre.length]? = some x by rw [e]; simp]
    dsimp only
    rw [if_pos hw]
    unfold Rng.within at hw
    rw [decide_eq_true_eq] at hw
    obtain ⟨rest, e1, e2, e3, e4⟩ := remove_spec hr hw.1 hw.2
    have hsep := hi.sep
    rw [e] at hsep
    obtain ⟨q1, q2, q3, q4, q5, q6, q7, q8⟩ := hsep.split
    have hcard : (tags r).card = r.hi - r.lo := card_tags r
    have hle := Finset.card_le_card h
    have hcs := Finset.card_sdiff_of_subset h
    unfold Validator.removed
    rw [e1, Rng.len_of hr]
    dsimp only
    rw [hi.cur, if_neg (by omega)]
    refine ⟨_, rfl, ⟨?_, ?_, ?_⟩, rfl, rfl⟩
    · show Sep _ (v.active.take pre.length ++ rest ++ v.active.drop (pre.length + 1))
      rw [show v.active.take pre.length = pre by rw [e]; simp, show v.active.drop (pre.length + 1) = suf by rw [e]; simp]
      exact Sep.join (fun y hy => (e2 y hy).1) (fun a ha y hy => by have := q1 a ha; have := e2 y hy; omega)
        (fun y hy a ha => by have := q2 a ha; have := e2 y hy; omega) q3 q5 q6 q7 q8 e3
    · intro t
      show cover (v.active.take pre.length ++ rest ++ v.active.drop (pre.length + 1)) t ↔ _
      rw [show v.active.take pre.length = pre by rw [e]; simp, show v.active.drop (pre.length + 1) = suf by rw [e]; simp,
        Finset.mem_sdiff, mem_tags, ← hi.cov t, e]
      simp only [cover_append, cover_cons]
      rw [e4 t]
      have hp : cover pre t → ¬ (r.lo ≤ t ∧ t < r.hi) := by
        rintro ⟨y, hy, y1, y2⟩
        have := q1 y hy
        omega
      have hq : cover suf t → ¬ (r.lo ≤ t ∧ t < r.hi) := by
        rintro ⟨y, hy, y1, y2⟩
        have := q2 y hy
        omega
      constructor
      · rintro ((h | h) | h)
        · exact ⟨Or.inl h, hp h⟩
        · exact ⟨Or.inr (Or.inl h.1), h.2⟩
        · exact ⟨Or.inr (Or.inr h), hq h⟩
      · rintro ⟨h | h | h, h'⟩
        · exact Or.inl (Or.inl h)
        · exact Or.inl (Or.inr ⟨h, h'⟩)
        · exact Or.inr h
    · show A.card - (r.hi - r.lo) = _
      rw [hcs, hcard]

end Verif.Runbook
