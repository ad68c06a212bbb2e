import Verif.Tools.BitmapSpec
import Verif.Label.IndexAgree
/-
Lemmas for the label bitmaps.
-/
namespace Verif.Tools

open Verif.Label

/-! ### Maps of attributes -/

theorem aget_mem {m : Attrs} (h : (m.map (·.1)).Nodup) (k : Bytes) (a : AttrVal) : aget m k = some a ↔ (k, a) ∈ m := by
  induction m with
  | nil => simp [aget]
  | cons p rest ih =>
    obtain ⟨l, w⟩ := p
    rw [List.map_cons, List.nodup_cons] at h
    have ih := ih h.2
    unfold aget at ih ⊢
    rw [List.find?_cons]
    by_cases e : l = k
    · subst e
      simp only [BEq.rfl, Option.map_some, Option.some.injEq, List.mem_cons, Prod.mk.injEq, true_and]
      constructor
      · rintro rfl; exact Or.inl rfl
      · rintro (rfl | hm)
        · rfl
        · exact absurd (List.mem_map.2 ⟨_, hm, rfl⟩) h.1
    · have : ((l, w).1 == k) = false := by simpa using e
      rw [this]
      simp only [List.mem_cons, Prod.mk.injEq]
      rw [ih]
      constructor
      · exact Or.inr
      · rintro (⟨rfl, _⟩ | hm)
        · exact absurd rfl e
        · exact hm

theorem aget_none {m : Attrs} {k : Bytes} (h : aget m k = none) : ∀ a, (k, a) ∉ m := by
  intro a hm
  unfold aget at h
  simp only [Option.map_eq_none_iff, List.find?_eq_none] at h
  exact h _ hm (by simp)

theorem aset_nodup {m : Attrs} (h : (m.map (·.1)).Nodup) (k : Bytes) (v : AttrVal) :
    ((aset m k v).map (·.1)).Nodup := by
  unfold aset
  rw [List.map_cons, List.nodup_cons]
  constructor
  · intro hm
    obtain ⟨q, hq, e⟩ := List.mem_map.1 hm
    have := (List.mem_filter.1 hq).2
    simp [e] at this
  · exact List.Nodup.sublist (List.Sublist.map _ (List.filter_sublist)) h

theorem mem_aset (m : Attrs) (k : Bytes) (v : AttrVal) (l : Bytes) (a : AttrVal) :
    (l, a) ∈ aset m k v ↔ (l = k ∧ a = v) ∨ ((l, a) ∈ m ∧ l ≠ k) := by
  unfold aset
  simp [List.mem_filter]

theorem docLoop_spec (as m m' : Attrs) (hm : (m.map (·.1)).Nodup) (h : docLoop m as = some m') :
    (m'.map (·.1)).Nodup ∧ ∀ k a, (k, a) ∈ m' ↔ (k, a) ∈ m ∨ (k, a) ∈ as := by
  induction as generalizing m with
  | nil =>
    simp only [docLoop, Option.some.injEq] at h
    subst h
    exact ⟨hm, by simp⟩
  | cons p rest ih =>
    obtain ⟨k, v⟩ := p
    rw [docLoop] at h
    cases hg : aget m k with
    | some e => rw [hg] at h; simp at h
    | none =>
      rw [hg] at h
      dsimp only at h
      obtain ⟨h1, h2⟩ := ih _ (aset_nodup hm k v) h
      refine ⟨h1, fun l a => ?_⟩
      rw [h2, mem_aset, List.mem_cons, Prod.mk.injEq]
      constructor
      · rintro ((h | ⟨h, _⟩) | h)
        · exact Or.inr (Or.inl h)
        · exact Or.inl h
        · exact Or.inr (Or.inr h)
      · rintro (hl | hl | hl)
        · refine Or.inl (Or.inr ⟨hl, fun e => ?_⟩)
          subst e
          exact aget_none hg _ hl
        · exact Or.inl (Or.inl hl)
        · exact Or.inr hl

/-! ### Kinds -/

theorem sameKind_refl (a : AttrVal) : sameKind a a = true := by cases a <;> rfl

theorem sameKind_trans {a b c : AttrVal} (h : sameKind a b = true) (h' : sameKind b c = true) :
    sameKind a c = true := by
  cases a <;> cases b <;> simp [sameKind] at h <;> cases c <;> simp_all [sameKind]

theorem sameKind_symm {a b : AttrVal} (h : sameKind a b = true) : sameKind b a = true := by
  cases a <;> cases b <;> simp_all [sameKind]

/-- The global labels after the attributes `seen`. -/
def GlobalOk (g : Attrs) (seen : Bytes → AttrVal → Prop) : Prop :=
  (g.map (·.1)).Nodup ∧ (∀ k, (∃ v, (k, v) ∈ g) ↔ ∃ a, seen k a) ∧
    ∀ k v a, (k, v) ∈ g → seen k a → sameKind v a = true

theorem globalDoc_spec (as g g' : Attrs) (seen : Bytes → AttrVal → Prop) (hg : GlobalOk g seen)
    (h : globalDoc g as = some g') : GlobalOk g' (fun k a => seen k a ∨ (k, a) ∈ as) := by
  induction as generalizing g seen with
  | nil =>
    simp only [globalDoc, Option.some.injEq] at h
    subst h
    simpa using hg
  | cons p rest ih =>
    obtain ⟨k, v⟩ := p
    obtain ⟨n, h1, h2⟩ := hg
    have step : (∀ e, (k, e) ∈ g → sameKind e v = true) → GlobalOk (aset g k v) (fun l a => seen l a ∨ (l = k ∧ a = v)) := by
      intro hk
      refine ⟨aset_nodup n k v, fun l => ?_, fun l w a hm hs => ?_⟩
      · simp only [mem_aset]
        constructor
        · rintro ⟨w, ⟨rfl, rfl⟩ | ⟨hm, _⟩⟩
          · exact ⟨w, Or.inr ⟨rfl, rfl⟩⟩
          · obtain ⟨a, ha⟩ := (h1 l).1 ⟨w, hm⟩
            exact ⟨a, Or.inl ha⟩
        · rintro ⟨a, ha | ⟨rfl, rfl⟩⟩
          · by_cases e : l = k
            · exact ⟨v, Or.inl ⟨e, rfl⟩⟩
            · obtain ⟨w, hw⟩ := (h1 l).2 ⟨a, ha⟩
              exact ⟨w, Or.inr ⟨hw, e⟩⟩
          · exact ⟨a, Or.inl ⟨rfl, rfl⟩⟩
      · rw [mem_aset] at hm
        rcases hm with ⟨rfl, rfl⟩ | ⟨hm, hne⟩
        · rcases hs with hs | ⟨_, rfl⟩
          · obtain ⟨e, he⟩ := (h1 l).2 ⟨a, hs⟩
            exact sameKind_trans (sameKind_symm (hk e he)) (h2 l e a he hs)
          · exact sameKind_refl _
        · rcases hs with hs | ⟨rfl, _⟩
          · exact h2 l w a hm hs
          · exact absurd rfl hne
    have fin : ∀ g2, GlobalOk g2 (fun l a => seen l a ∨ (l = k ∧ a = v)) → globalDoc g2 rest = some g' →
        GlobalOk g' (fun l a => seen l a ∨ (l, a) ∈ (k, v) :: rest) := by
      intro g2 hg2 e
      have := ih g2 _ hg2 e
      simpa only [List.mem_cons, Prod.mk.injEq, or_assoc] using this
    rw [globalDoc] at h
    cases hg : aget g k with
    | some e =>
      rw [hg] at h
      dsimp only at h
      split at h
      · rename_i hk
        refine fin _ (step fun e' he' => ?_) h
        have := (aget_mem n k e').2 he'
        rw [hg] at this
        simp only [Option.some.injEq] at this
        rw [← this]; exact hk
      · simp at h
    | none =>
      rw [hg] at h
      exact fin _ (step fun e' he' => absurd he' (aget_none hg _)) h

theorem globalLoop_spec (ms : List Attrs) (g g' : Attrs) (seen : Bytes → AttrVal → Prop) (hg : GlobalOk g seen)
    (h : globalLoop g ms = some g') : GlobalOk g' (fun k a => seen k a ∨ ∃ m ∈ ms, (k, a) ∈ m) := by
  induction ms generalizing g seen with
  | nil =>
    simp only [globalLoop, Option.some.injEq] at h
    subst h
    simpa using hg
  | cons m rest ih =>
    rw [globalLoop] at h
    cases hd : globalDoc g m with
    | none => rw [hd] at h; simp at h
    | some g2 =>
      rw [hd] at h
      have := ih g2 _ (globalDoc_spec m g g2 seen hg hd) h
      simpa [List.mem_cons, or_assoc] using this

/-! ### Accelerators -/

section push
variable {κ : Type} {eq : κ → κ → Bool}

/-- The entries of a map file exactly the given pairs, one entry per class of keys. -/
def Files (eq : κ → κ → Bool) (m : List (κ × List Nat)) (pairs : κ → Nat → Prop) : Prop :=
  m.Pairwise (fun p q => eq p.1 q.1 = false) ∧
    ∀ t : κ → Prop, (∀ x y, eq x y = true → (t x ↔ t y)) →
      ∀ id, (∃ p ∈ m, t p.1 ∧ id ∈ p.2) ↔ ∃ k, t k ∧ pairs k id

theorem push_mem {k : κ} {id : Nat} {m : List (κ × List Nat)} {p : κ × List Nat} (h : p ∈ push eq k id m) :
    p.1 = k ∨ ∃ q ∈ m, q.1 = p.1 := by
  induction m with
  | nil => simp only [push, List.mem_singleton] at h; subst h; exact Or.inl rfl
  | cons q rest ih =>
    obtain ⟨l, ids⟩ := q
    rw [push] at h
    split at h
    · rcases List.mem_cons.1 h with rfl | h
      · exact Or.inr ⟨_, List.mem_cons_self .., rfl⟩
      · exact Or.inr ⟨p, by simp [h], rfl⟩
    · rcases List.mem_cons.1 h with rfl | h
      · exact Or.inr ⟨_, List.mem_cons_self .., rfl⟩
      · rcases ih h with h | ⟨q, hq, e⟩
        · exact Or.inl h
        · exact Or.inr ⟨q, by simp [hq], e⟩

theorem push_files {m : List (κ × List Nat)} {pairs : κ → Nat → Prop} (h : Files eq m pairs) (k : κ) (id : Nat) :
    Files eq (push eq k id m) (fun l i => pairs l i ∨ (l = k ∧ i = id)) := by
  obtain ⟨h1, h2⟩ := h
  constructor
  · clear h2
    induction m with
    | nil => simp [push]
    | cons q rest ih =>
      obtain ⟨l, ids⟩ := q
      rw [List.pairwise_cons] at h1
      rw [push]
      split
      · rw [List.pairwise_cons]; exact h1
      · rename_i hne
        rw [List.pairwise_cons]
        refine ⟨fun p hp => ?_, ih h1.2⟩
        rcases push_mem hp with e | ⟨q, hq, e⟩
        · simpa [e] using hne
        · rw [← e]; exact h1.1 q hq
  · intro t ht i
    have : (∃ p ∈ push eq k id m, t p.1 ∧ i ∈ p.2) ↔ (∃ p ∈ m, t p.1 ∧ i ∈ p.2) ∨ (t k ∧ i = id) := by
      clear h1 h2
      induction m with
      | nil => simp [push]
      | cons q rest ih =>
        obtain ⟨l, ids⟩ := q
        rw [push]
        split
        · rename_i he
          simp only [List.mem_cons, exists_eq_or_imp, List.mem_append, List.not_mem_nil, or_false]
          have := ht l k he
          rw [this]
          generalize (∃ a, a ∈ rest ∧ t a.fst ∧ i ∈ a.snd) = R
          by_cases h1 : t k <;> by_cases h2 : i ∈ ids <;> by_cases h3 : i = id <;> simp [h1, h2, h3]
        · simp only [List.mem_cons, exists_eq_or_imp, ih, or_assoc]
    rw [this, h2 t ht]
    constructor
    · rintro (⟨x, hx, hp⟩ | ⟨hx, rfl⟩)
      · exact ⟨x, hx, Or.inl hp⟩
      · exact ⟨k, hx, Or.inr ⟨rfl, rfl⟩⟩
    · rintro ⟨x, hx, hp | ⟨rfl, rfl⟩⟩
      · exact Or.inl ⟨x, hx, hp⟩
      · exact Or.inr ⟨hx, rfl⟩

theorem idsWhere_mem {m : List (κ × List Nat)} {pairs : κ → Nat → Prop} (h : Files eq m pairs) (t : κ → Bool)
    (ht : ∀ x y, eq x y = true → (t x = true ↔ t y = true)) (id : Nat) :
    id ∈ idsWhere t m ↔ ∃ k, t k = true ∧ pairs k id := by
  rw [← h.2 (fun k => t k = true) ht id]
  unfold idsWhere
  simp only [List.mem_flatMap, List.mem_filter, and_assoc]

theorem idsOf_mem {m : List (κ × List Nat)} {pairs : κ → Nat → Prop} (h : Files eq m pairs) (k : κ)
    (refl : ∀ x y, eq x y = true → eq y x = true)
    (trans : ∀ x y z, eq x y = true → eq y z = true → eq x z = true) (id : Nat) :
    id ∈ idsOf eq k m ↔ ∃ l, eq l k = true ∧ pairs l id := by
  rw [← h.2 (fun l => eq l k = true)
    (fun x y e => ⟨fun hx => trans _ _ _ (refl _ _ e) hx, fun hy => trans _ _ _ e hy⟩) id]
  have hp := h.1
  clear h
  unfold idsOf
  induction m with
  | nil => simp
  | cons q rest ih =>
    rw [List.pairwise_cons] at hp
    rw [List.find?_cons]
    cases he : eq q.1 k with
    | true =>
      simp only [List.mem_cons, exists_eq_or_imp, he, true_and]
      constructor
      · exact Or.inl
      · rintro (h | ⟨p, hm, hk, _⟩)
        · exact h
        · have := hp.1 p hm
          rw [trans _ _ _ he (refl _ _ hk)] at this
          simp at this
    | false =>
      simp only [List.mem_cons, exists_eq_or_imp, he, Bool.false_eq_true, false_and, false_or]
      exact ih hp.2
end push

theorem files_nil {κ : Type} (eq : κ → κ → Bool) : Files eq [] (fun _ _ => False) := by
  simp [Files]

theorem invertedLoop_spec (key : Bytes) (docs : List (Nat × Attrs)) (m : List (AttrVal × List Nat))
    (pairs : AttrVal → Nat → Prop) (hd : ∀ d ∈ docs, (d.2.map (·.1)).Nodup)
    (h : Files (fun x y => decide (x = y)) m pairs) :
    Files (fun x y => decide (x = y)) (invertedLoop key m docs)
      (fun a id => pairs a id ∨ ∃ attrs, (id, attrs) ∈ docs ∧ (key, a) ∈ attrs) := by
  induction docs generalizing m pairs with
  | nil => simpa [invertedLoop] using h
  | cons d rest ih =>
    obtain ⟨id, doc⟩ := d
    have hdoc := hd (id, doc) (by simp)
    have hrest : ∀ d ∈ rest, (d.2.map (·.1)).Nodup := fun d hm => hd d (by simp [hm])
    rw [invertedLoop]
    cases hg : aget doc key with
    | some v =>
      have := ih _ _ hrest (push_files h v id)
      dsimp only
      convert this using 3
      rename_i a i
      simp only [List.mem_cons, Prod.mk.injEq, or_assoc]
      constructor
      · rintro (hp | ⟨attrs, ⟨rfl, rfl⟩ | hm, ha⟩)
        · exact Or.inl hp
        · have := (aget_mem hdoc key a).2 ha
          rw [hg] at this
          simp only [Option.some.injEq] at this
          exact Or.inr (Or.inl ⟨this.symm, rfl⟩)
        · exact Or.inr (Or.inr ⟨attrs, hm, ha⟩)
      · rintro (hp | ⟨rfl, rfl⟩ | ⟨attrs, hm, ha⟩)
        · exact Or.inl hp
        · exact Or.inr ⟨doc, Or.inl ⟨rfl, rfl⟩, (aget_mem hdoc key a).1 hg⟩
        · exact Or.inr ⟨attrs, Or.inr hm, ha⟩
    | none =>
      have := ih _ _ hrest h
      dsimp only
      convert this using 3
      rename_i a i
      simp only [List.mem_cons, Prod.mk.injEq]
      constructor
      · rintro (hp | ⟨attrs, ⟨rfl, rfl⟩ | hm, ha⟩)
        · exact Or.inl hp
        · exact absurd ha (aget_none hg _)
        · exact Or.inr ⟨attrs, hm, ha⟩
      · rintro (hp | ⟨attrs, hm, ha⟩)
        · exact Or.inl hp
        · exact Or.inr ⟨attrs, Or.inr hm, ha⟩

theorem btreeLoop_spec (key : Bytes) (docs : List (Nat × Attrs)) (m m' : List (Nat × List Nat))
    (pairs : Nat → Nat → Prop) (hd : ∀ d ∈ docs, (d.2.map (·.1)).Nodup) (h : Files ofEq m pairs)
    (he : btreeLoop key m docs = some m') :
    (∀ id attrs a, (id, attrs) ∈ docs → (key, a) ∈ attrs → ∃ f, btreeKey a = some f) ∧
    Files ofEq m' (fun f id => pairs f id ∨ ∃ attrs a, (id, attrs) ∈ docs ∧ (key, a) ∈ attrs ∧ btreeKey a = some f) := by
  induction docs generalizing m pairs with
  | nil =>
    simp only [btreeLoop, Option.some.injEq] at he
    subst he
    simpa using h
  | cons d rest ih =>
    obtain ⟨id, doc⟩ := d
    have hdoc := hd (id, doc) (by simp)
    have hrest : ∀ d ∈ rest, (d.2.map (·.1)).Nodup := fun d hm => hd d (by simp [hm])
    rw [btreeLoop] at he
    cases hg : aget doc key with
    | some v =>
      rw [hg] at he
      dsimp only at he
      cases hk : btreeKey v with
      | none => rw [hk] at he; simp at he
      | some f =>
        rw [hk] at he
        dsimp only at he
        have uniq : ∀ a, (key, a) ∈ doc → a = v := by
          intro a ha
          have := (aget_mem hdoc key a).2 ha
          rw [hg] at this
          simpa using this.symm
        obtain ⟨g1, g2⟩ := ih _ _ hrest (push_files h f id) he
        constructor
        · intro i attrs a hm ha
          rcases List.mem_cons.1 hm with e | hm
          · simp only [Prod.mk.injEq] at e
            obtain ⟨rfl, rfl⟩ := e
            rw [uniq a ha]
            exact ⟨f, hk⟩
          · exact g1 i attrs a hm ha
        · convert g2 using 3
          rename_i x i
          simp only [List.mem_cons, Prod.mk.injEq, or_assoc]
          constructor
          · rintro (hp | ⟨attrs, a, ⟨rfl, rfl⟩ | hm, ha, hb⟩)
            · exact Or.inl hp
            · rw [uniq a ha, hk] at hb
              simp only [Option.some.injEq] at hb
              exact Or.inr (Or.inl ⟨hb.symm, rfl⟩)
            · exact Or.inr (Or.inr ⟨attrs, a, hm, ha, hb⟩)
          · rintro (hp | ⟨rfl, rfl⟩ | ⟨attrs, a, hm, ha, hb⟩)
            · exact Or.inl hp
            · exact Or.inr ⟨doc, v, Or.inl ⟨rfl, rfl⟩, (aget_mem hdoc key v).1 hg, hk⟩
            · exact Or.inr ⟨attrs, a, Or.inr hm, ha, hb⟩
    | none =>
      rw [hg] at he
      obtain ⟨g1, g2⟩ := ih _ _ hrest h he
      constructor
      · intro i attrs a hm ha
        rcases List.mem_cons.1 hm with e | hm
        · simp only [Prod.mk.injEq] at e
          obtain ⟨rfl, rfl⟩ := e
          exact absurd ha (aget_none hg _)
        · exact g1 i attrs a hm ha
      · convert g2 using 3
        rename_i x i
        simp only [List.mem_cons, Prod.mk.injEq]
        constructor
        · rintro (hp | ⟨attrs, a, ⟨rfl, rfl⟩ | hm, ha, hb⟩)
          · exact Or.inl hp
          · exact absurd ha (aget_none hg _)
          · exact Or.inr ⟨attrs, a, hm, ha, hb⟩
        · rintro (hp | ⟨attrs, a, hm, ha, hb⟩)
          · exact Or.inl hp
          · exact Or.inr ⟨attrs, a, Or.inr hm, ha, hb⟩

theorem btreeKey_double {a : AttrVal} {f : Nat} (h : btreeKey a = some f) : asDouble a = some f := by
  have ofn : ∀ b, ofNew b = some f → b = f := by
    intro b hb
    unfold ofNew at hb
    split at hb <;> simp_all
  cases a with
  | int n =>
    simp only [btreeKey] at h
    split at h
    · simp at h
    · simp only [asDouble, ofn _ h]
  | real b => simp only [btreeKey] at h; simp only [asDouble, ofn _ h]
  | _ => simp [btreeKey] at h

/-- What an accelerator of a field knows. -/
def AccelOk (docs : List (Nat × Attrs)) (k : Bytes) (a : Accel) : Prop :=
  (∀ id, id ∈ a.universe ↔ ∃ attrs, (id, attrs) ∈ docs ∧ ∃ v, (k, v) ∈ attrs) ∧
  ∀ op res, a.eval op = some res →
    ∀ id, id ∈ res ↔ ∃ attrs, (id, attrs) ∈ docs ∧ ∃ v, (k, v) ∈ attrs ∧ OpHolds v op

theorem inverted_ok {docs : List (Nat × Attrs)} {k : Bytes} (hd : ∀ d ∈ docs, (d.2.map (·.1)).Nodup)
    (hk : ∀ id attrs v, (id, attrs) ∈ docs → (k, v) ∈ attrs → asDouble v = none) :
    AccelOk docs k (.inverted (invertedLoop k [] docs)) := by
  have hf := invertedLoop_spec k docs [] _ hd (files_nil _)
  simp only [false_or] at hf
  constructor
  · intro id
    rw [Accel.universe, idsWhere_mem hf _ (by simp)]
    simp only [true_and]
    constructor
    · rintro ⟨v, attrs, h1, h2⟩; exact ⟨attrs, h1, v, h2⟩
    · rintro ⟨attrs, h1, v, h2⟩; exact ⟨v, attrs, h1, h2⟩
  · intro op res h id
    have hs : ∀ attrs v c, (id, attrs) ∈ docs → (k, v) ∈ attrs → (Same v c ↔ tryFrom c = some v) := by
      intro attrs v c h1 h2
      unfold Same
      rw [hk id attrs v h1 h2]
    cases op with
    | eq c =>
      simp only [Accel.eval, evalInverted, Option.map_eq_some_iff] at h
      obtain ⟨a, ha, rfl⟩ := h
      rw [idsOf_mem hf a (by simp) (by simp) id]
      simp only [decide_eq_true_eq, exists_eq_left, OpHolds]
      constructor
      · rintro ⟨attrs, h1, h2⟩
        exact ⟨attrs, h1, a, h2, (hs attrs a c h1 h2).2 ha⟩
      · rintro ⟨attrs, h1, v, h2, h3⟩
        have := (hs attrs v c h1 h2).1 h3
        rw [ha] at this
        simp only [Option.some.injEq] at this
        subst this
        exact ⟨attrs, h1, h2⟩
    | ne c =>
      simp only [Accel.eval, evalInverted, Option.map_eq_some_iff] at h
      obtain ⟨a, ha, rfl⟩ := h
      rw [idsWhere_mem hf _ (by simp) id]
      simp only [decide_eq_true_eq, OpHolds]
      constructor
      · rintro ⟨v, hne, attrs, h1, h2⟩
        refine ⟨attrs, h1, v, h2, fun h3 => hne ?_⟩
        have := (hs attrs v c h1 h2).1 h3
        rw [ha] at this
        simpa using this.symm
      · rintro ⟨attrs, h1, v, h2, h3⟩
        refine ⟨v, fun e => h3 ((hs attrs v c h1 h2).2 ?_), attrs, h1, h2⟩
        rw [e]; exact ha
    | _ => simp [Accel.eval, evalInverted] at h

theorem ofNew_some {b f : Nat} (h : ofNew b = some f) : f = b := by
  unfold ofNew at h
  split at h <;> simp_all

theorem btree_ok {docs : List (Nat × Attrs)} {k : Bytes} {m : List (Nat × List Nat)}
    (hd : ∀ d ∈ docs, (d.2.map (·.1)).Nodup) (h : btreeLoop k [] docs = some m) : AccelOk docs k (.btree m) := by
  obtain ⟨hall, hf⟩ := btreeLoop_spec k docs [] m _ hd (files_nil _) h
  simp only [false_or] at hf
  have whr : ∀ (t : Nat → Bool) (P : AttrVal → Prop), (∀ x y, ofEq x y = true → (t x = true ↔ t y = true)) →
      (∀ a f, btreeKey a = some f → (t f = true ↔ P a)) →
      ∀ id, id ∈ idsWhere t m ↔ ∃ attrs, (id, attrs) ∈ docs ∧ ∃ v, (k, v) ∈ attrs ∧ P v := by
    intro t P ht hP id
    rw [idsWhere_mem hf t ht id]
    constructor
    · rintro ⟨f, h1, attrs, a, h2, h3, h4⟩
      exact ⟨attrs, h2, a, h3, (hP a f h4).1 h1⟩
    · rintro ⟨attrs, h1, v, h2, h3⟩
      obtain ⟨f, hb⟩ := hall id attrs v h1 h2
      exact ⟨f, (hP v f hb).2 h3, attrs, v, h1, h2, hb⟩
  have same : ∀ a f c x, btreeKey a = some f → c.asF64 = some x → (Same a c ↔ fVal f = fVal x) := by
    intro a f c x hb hc
    unfold Same
    rw [btreeKey_double hb]
    simp [hc]
  constructor
  · intro id
    rw [Accel.universe, whr _ (fun _ => True) (by simp) (by simp)]
    simp
  · intro op res hr id
    rw [Accel.eval] at hr
    cases op with
    | eq c =>
      simp only [evalBtree, Option.map_eq_some_iff, Option.bind_eq_some_iff] at hr
      obtain ⟨x, ⟨y, hy, hxy⟩, rfl⟩ := hr
      rw [ofNew_some hxy]
      rw [idsOf_mem hf y (by simp [ofEq]; intros; exact Eq.symm ‹_›)
        (by simp only [ofEq, decide_eq_true_eq]; intro x y z h1 h2; exact h1.trans h2) id]
      simp only [ofEq, decide_eq_true_eq, OpHolds]
      constructor
      · rintro ⟨f, h1, attrs, a, h2, h3, h4⟩
        exact ⟨attrs, h2, a, h3, (same a f c y h4 hy).2 h1⟩
      · rintro ⟨attrs, h1, v, h2, h3⟩
        obtain ⟨f, hb⟩ := hall id attrs v h1 h2
        exact ⟨f, (same v f c y hb hy).1 h3, attrs, v, h1, h2, hb⟩
    | ne c =>
      simp only [evalBtree, Option.map_eq_some_iff, Option.bind_eq_some_iff] at hr
      obtain ⟨x, ⟨y, hy, hxy⟩, rfl⟩ := hr
      rw [ofNew_some hxy]
      refine whr _ _ (by simp [ofEq]; intro a b e; rw [e]) (fun a f hb => ?_) id
      simp only [OpHolds, same a f c y hb hy, ofEq, Bool.not_eq_true', decide_eq_false_iff_not]
    | lt b | lte b | gt b | gte b =>
      simp only [evalBtree, Option.map_eq_some_iff] at hr
      obtain ⟨x, hx, rfl⟩ := hr
      rw [ofNew_some hx]
      refine whr _ _ (by simp [ofEq]; intro a b e; rw [e]) (fun a f hb => ?_) id
      simp only [OpHolds, btreeKey_double hb, Option.some.injEq, exists_eq_left', decide_eq_true_eq]

theorem makeAccel_ok {docs : List (Nat × Attrs)} {k : Bytes} {v : AttrVal} {a : Accel}
    (hd : ∀ d ∈ docs, (d.2.map (·.1)).Nodup)
    (hk : ∀ id attrs w, (id, attrs) ∈ docs → (k, w) ∈ attrs → sameKind v w = true)
    (h : makeAccel docs k v = some a) : AccelOk docs k a := by
  have plain : (∀ w, sameKind v w = true → asDouble w = none) → AccelOk docs k (.inverted (invertedLoop k [] docs)) :=
    fun hv => inverted_ok hd (fun id attrs w h1 h2 => hv w (hk id attrs w h1 h2))
  cases v with
  | str s =>
    simp only [makeAccel, Option.some.injEq] at h
    subst h
    exact plain (by intro w; cases w <;> simp [sameKind, asDouble])
  | bool b =>
    simp only [makeAccel, Option.some.injEq] at h
    subst h
    exact plain (by intro w; cases w <;> simp [sameKind, asDouble])
  | int n =>
    simp only [makeAccel, Option.map_eq_some_iff] at h
    obtain ⟨m, hm, rfl⟩ := h
    exact btree_ok hd hm
  | real b =>
    simp only [makeAccel, Option.map_eq_some_iff] at h
    obtain ⟨m, hm, rfl⟩ := h
    exact btree_ok hd hm
  | empty => simp [makeAccel] at h

theorem makeAccels_spec {docs : List (Nat × Attrs)} {g : Attrs} {accs : Accels} (h : makeAccels docs g = some accs)
    (hg : (g.map (·.1)).Nodup) (k : Bytes) :
    (∀ a, accelOf accs k = some a → ∃ v, (k, v) ∈ g ∧ makeAccel docs k v = some a) ∧
    (accelOf accs k = none → ∀ v, (k, v) ∉ g) := by
  induction g generalizing accs with
  | nil =>
    simp only [makeAccels, Option.some.injEq] at h
    subst h
    simp [accelOf]
  | cons p rest ih =>
    obtain ⟨l, w⟩ := p
    rw [List.map_cons, List.nodup_cons] at hg
    rw [makeAccels] at h
    cases h1 : makeAccel docs l w with
    | none => rw [h1] at h; simp at h
    | some a0 =>
      rw [h1] at h
      dsimp only at h
      cases h2 : makeAccels docs rest with
      | none => rw [h2] at h; simp at h
      | some as =>
        rw [h2] at h
        simp only [Option.some.injEq] at h
        subst h
        obtain ⟨i1, i2⟩ := ih h2 hg.2
        unfold accelOf at i1 i2 ⊢
        rw [List.find?_cons]
        by_cases e : l = k
        · subst e
          simp only [BEq.rfl, Option.map_some, Option.some.injEq, reduceCtorEq, false_imp_iff, and_true]
          rintro a rfl
          exact ⟨w, by simp, h1⟩
        · have : ((l, a0).1 == k) = false := by simpa using e
          rw [this]
          dsimp only
          constructor
          · intro a ha
            obtain ⟨v, hv, hm⟩ := i1 a ha
            exact ⟨v, by simp [hv], hm⟩
          · intro hn v hm
            rcases List.mem_cons.1 hm with e' | hm
            · simp only [Prod.mk.injEq] at e'
              exact e e'.1.symm
            · exact i2 hn v hm

/-- What the accelerators know about a collection. -/
def AccelsOk (docs : List (Nat × Attrs)) (accs : Accels) : Prop :=
  ∀ k, (∀ a, accelOf accs k = some a → AccelOk docs k a ∧ ∃ d ∈ docs, ∃ v, (k, v) ∈ d.2) ∧
    (accelOf accs k = none → ∀ d ∈ docs, ∀ v, (k, v) ∉ d.2)

theorem accels_ok {docs : List (Nat × Attrs)} {g : Attrs} {accs : Accels} (hd : ∀ d ∈ docs, (d.2.map (·.1)).Nodup)
    (hg : globalLoop [] (docs.map (·.2)) = some g) (h : makeAccels docs g = some accs) : AccelsOk docs accs := by
  have G := globalLoop_spec _ [] g (fun _ _ => False) (by simp [GlobalOk]) hg
  obtain ⟨n, h1, h2⟩ := G
  simp only [false_or, List.mem_map] at h1 h2
  intro k
  obtain ⟨m1, m2⟩ := makeAccels_spec h n k
  constructor
  · intro a ha
    obtain ⟨v, hv, hm⟩ := m1 a ha
    refine ⟨makeAccel_ok hd (fun id attrs w ha hw => h2 k v w hv ⟨attrs, ⟨(id, attrs), ha, rfl⟩, hw⟩) hm, ?_⟩
    obtain ⟨w, m, ⟨d, hd', rfl⟩, hw⟩ := (h1 k).1 ⟨v, hv⟩
    exact ⟨d, hd', w, hw⟩
  · intro hn d hd' v hv
    obtain ⟨w, hw⟩ := (h1 k).2 ⟨v, d.2, ⟨d, hd', rfl⟩, hv⟩
    exact m2 hn w hw

/-! ### Evaluation -/

theorem inj_of_nodup {α β : Type} {f : α → β} {l : List α} (h : (l.map f).Nodup) {a b : α} (ha : a ∈ l) (hb : b ∈ l)
    (e : f a = f b) : a = b := by
  induction l with
  | nil => simp at ha
  | cons x rest ih =>
    rw [List.map_cons, List.nodup_cons] at h
    rcases List.mem_cons.1 ha with ea | ha'
    · rcases List.mem_cons.1 hb with eb | hb'
      · rw [ea, eb]
      · exact absurd (List.mem_map.2 ⟨b, hb', by rw [← e, ea]⟩) h.1
    · rcases List.mem_cons.1 hb with eb | hb'
      · exact absurd (List.mem_map.2 ⟨a, ha', by rw [e, eb]⟩) h.1
      · exact ih h.2 ha' hb'

theorem mem_inter (a b : List Nat) (i : Nat) : i ∈ inter a b ↔ i ∈ a ∧ i ∈ b := by
  simp [inter, List.mem_filter]

theorem mem_diff (a b : List Nat) (i : Nat) : i ∈ diff a b ↔ i ∈ a ∧ i ∉ b := by
  simp [diff, List.mem_filter]

theorem mem_foldl_inter (bs : List (List Nat)) (b : List Nat) (i : Nat) :
    i ∈ bs.foldl inter b ↔ i ∈ b ∧ ∀ c ∈ bs, i ∈ c := by
  induction bs generalizing b with
  | nil => simp
  | cons c rest ih =>
    rw [List.foldl_cons, ih, mem_inter]
    simp [and_assoc]

theorem universeLoop_mem (accs : Accels) (u : List Nat) (ls : List Bytes) (i : Nat) :
    i ∈ universeLoop accs u ls ↔ i ∈ u ∧ ∀ l ∈ ls, ∀ a, accelOf accs l = some a → i ∈ a.universe := by
  induction ls generalizing u with
  | nil => simp [universeLoop]
  | cons l rest ih =>
    rw [universeLoop]
    cases h : accelOf accs l with
    | some a =>
      dsimp only
      rw [ih, mem_inter]
      simp [h, and_assoc]
    | none =>
      dsimp only
      rw [ih]
      simp [h]

section eval
variable {docs : List (Nat × Attrs)} {accs : Accels}

theorem universe_mem (ok : AccelsOk docs accs) (hn : (docs.map (·.1)).Nodup) (fs : List Bytes) (i : Nat) :
    i ∈ computeUniverse accs (fs.map prepend) ↔ ∃ attrs, (i, attrs) ∈ docs ∧ Eligible docs attrs fs := by
  have uniq : ∀ a b, (i, a) ∈ docs → (i, b) ∈ docs → a = b := by
    intro a b ha hb
    have := inj_of_nodup hn ha hb rfl
    simpa using this
  have has : ∀ k a, accelOf accs k = some a → (i ∈ a.universe ↔ ∃ attrs, (i, attrs) ∈ docs ∧ ∃ v, (k, v) ∈ attrs) :=
    fun k a h => ((ok k).1 a h).1.1 i
  cases fs with
  | nil => simp [computeUniverse, Eligible]
  | cons f rest =>
    rw [List.map_cons, computeUniverse, universeLoop_mem]
    cases hf : accelOf accs (prepend f) with
    | none =>
      dsimp only
      simp only [List.not_mem_nil, false_and, false_iff, Eligible, HasField, not_exists, not_and]
      intro attrs hm ⟨v, hv⟩
      exact absurd hv ((ok _).2 hf (i, attrs) hm v)
    | some a =>
      dsimp only
      rw [has _ a hf]
      constructor
      · rintro ⟨⟨attrs, hm, hv⟩, hr⟩
        refine ⟨attrs, hm, hv, fun g hg ⟨d, hd, v, hgv⟩ => ?_⟩
        cases hga : accelOf accs (prepend g) with
        | none => exact absurd hgv ((ok _).2 hga d hd v)
        | some b =>
          obtain ⟨attrs', hm', hv'⟩ := (has _ b hga).1 (hr _ (List.mem_map.2 ⟨g, hg, rfl⟩) b hga)
          rw [uniq attrs attrs' hm hm']
          exact hv'
      · rintro ⟨attrs, hm, hv, hr⟩
        refine ⟨⟨attrs, hm, hv⟩, fun l hl b hb => ?_⟩
        obtain ⟨g, hg, rfl⟩ := List.mem_map.1 hl
        exact (has _ b hb).2 ⟨attrs, hm, hr g hg ((ok _).1 b hb).2⟩

mutual
theorem evalAcc_spec (ok : AccelsOk docs accs) (hn : (docs.map (·.1)).Nodup) (e : Expr) (res : List Nat)
    (h : evalAcc accs e = some res) (i : Nat) : i ∈ res ↔ ∃ attrs, (i, attrs) ∈ docs ∧ Sat docs attrs e := by
  have uniq : ∀ a b, (i, a) ∈ docs → (i, b) ∈ docs → a = b := by
    intro a b ha hb
    have := inj_of_nodup hn ha hb rfl
    simpa using this
  match e with
  | .cmp f op =>
    rw [evalAcc] at h
    simp only [Sat]
    cases hf : accelOf accs (prepend f) with
    | none =>
      rw [hf] at h
      simp only [Option.some.injEq] at h
      subst h
      simp only [List.not_mem_nil, false_iff, not_exists, not_and]
      intro attrs hm v hv
      exact absurd hv ((ok _).2 hf (i, attrs) hm v)
    | some a =>
      rw [hf] at h
      exact ((ok _).1 a hf).1.2 op res h i
  | .not e =>
    rw [evalAcc] at h
    simp only [Option.map_eq_some_iff] at h
    obtain ⟨s, hs, rfl⟩ := h
    have ih := evalAcc_spec ok hn e s hs i
    rw [mem_diff, universe_mem ok hn, ih]
    simp only [Sat]
    constructor
    · rintro ⟨⟨attrs, hm, he⟩, hns⟩
      exact ⟨attrs, hm, he, fun hs => hns ⟨attrs, hm, hs⟩⟩
    · rintro ⟨attrs, hm, he, hns⟩
      refine ⟨⟨attrs, hm, he⟩, fun ⟨attrs', hm', hs⟩ => hns ?_⟩
      rw [uniq attrs attrs' hm hm']
      exact hs
  | .or es =>
    rw [evalAcc] at h
    simp only [Option.map_eq_some_iff] at h
    obtain ⟨bs, hs, rfl⟩ := h
    simp only [Sat]
    exact (evalAccs_spec ok hn es bs hs i).2
  | .and es =>
    rw [evalAcc] at h
    simp only [Option.map_eq_some_iff] at h
    obtain ⟨bs, hs, rfl⟩ := h
    simp only [Sat]
    have ih := (evalAccs_spec ok hn es bs hs i).1
    cases es with
    | nil =>
      simp only [evalAccs, Option.some.injEq] at hs
      subst hs
      simp [interAll]
    | cons e0 rest =>
      cases bs with
      | nil =>
        rw [evalAccs] at hs
        cases h1 : evalAcc accs e0 with
        | none => rw [h1] at hs; simp at hs
        | some b0 =>
          rw [h1] at hs
          dsimp only at hs
          cases h2 : evalAccs accs rest with
          | none => rw [h2] at hs; simp at hs
          | some b1 => rw [h2] at hs; simp at hs
      | cons b0 bs' =>
        rw [interAll, mem_foldl_inter]
        simp only [ne_eq, reduceCtorEq, not_false_eq_true, true_and]
        constructor
        · rintro ⟨h0, hr⟩
          have hall : ∀ c ∈ b0 :: bs', i ∈ c := by simpa using ⟨h0, hr⟩
          rcases ih.1 hall with hx | h'
          · simp at hx
          · exact h'
        · rintro hx
          have := ih.2 (Or.inr hx)
          simpa using this
theorem evalAccs_spec (ok : AccelsOk docs accs) (hn : (docs.map (·.1)).Nodup) (es : List Expr) (bs : List (List Nat))
    (h : evalAccs accs es = some bs) (i : Nat) :
    ((∀ c ∈ bs, i ∈ c) ↔ es = [] ∨ ∃ attrs, (i, attrs) ∈ docs ∧ SatAll docs attrs es) ∧
    (i ∈ bs.flatten ↔ ∃ attrs, (i, attrs) ∈ docs ∧ SatAny docs attrs es) := by
  have uniq : ∀ a b, (i, a) ∈ docs → (i, b) ∈ docs → a = b := by
    intro a b ha hb
    have := inj_of_nodup hn ha hb rfl
    simpa using this
  match es with
  | [] =>
    simp only [evalAccs, Option.some.injEq] at h
    subst h
    simp [SatAny]
  | e :: rest =>
    rw [evalAccs] at h
    cases h1 : evalAcc accs e with
    | none => rw [h1] at h; simp at h
    | some b =>
      rw [h1] at h
      dsimp only at h
      cases h2 : evalAccs accs rest with
      | none => rw [h2] at h; simp at h
      | some bs' =>
        rw [h2] at h
        simp only [Option.some.injEq] at h
        subst h
        have i1 := evalAcc_spec ok hn e b h1 i
        obtain ⟨i2, i3⟩ := evalAccs_spec ok hn rest bs' h2 i
        constructor
        · simp only [List.mem_cons, forall_eq_or_imp, i1, i2, reduceCtorEq, false_or, SatAll]
          constructor
          · rintro ⟨⟨attrs, hm, hs⟩, rfl | ⟨attrs', hm', hs'⟩⟩
            · exact ⟨attrs, hm, hs, by simp [SatAll]⟩
            · refine ⟨attrs, hm, hs, ?_⟩
              rw [uniq attrs attrs' hm hm']
              exact hs'
          · rintro ⟨attrs, hm, hs, hs'⟩
            exact ⟨⟨attrs, hm, hs⟩, Or.inr ⟨attrs, hm, hs'⟩⟩
        · simp only [List.flatten_cons, List.mem_append, i1, i3, SatAny]
          constructor
          · rintro (⟨attrs, hm, hs⟩ | ⟨attrs, hm, hs⟩)
            · exact ⟨attrs, hm, Or.inl hs⟩
            · exact ⟨attrs, hm, Or.inr hs⟩
          · rintro ⟨attrs, hm, hs | hs⟩
            · exact Or.inl ⟨attrs, hm, hs⟩
            · exact Or.inr ⟨attrs, hm, hs⟩
end

theorem evalAccs_get (es : List Expr) (bs : List (List Nat)) (h : evalAccs accs es = some bs) :
    bs.length = es.length ∧ ∀ (j : Nat) (b : List Nat), bs[j]? = some b → ∃ e, es[j]? = some e ∧ evalAcc accs e = some b := by
  induction es generalizing bs with
  | nil =>
    simp only [evalAccs, Option.some.injEq] at h
    subst h
    simp
  | cons e rest ih =>
    rw [evalAccs] at h
    cases h1 : evalAcc accs e with
    | none => rw [h1] at h; simp at h
    | some b =>
      rw [h1] at h
      dsimp only at h
      cases h2 : evalAccs accs rest with
      | none => rw [h2] at h; simp at h
      | some bs' =>
        rw [h2] at h
        simp only [Option.some.injEq] at h
        subst h
        obtain ⟨l, g⟩ := ih bs' h2
        refine ⟨by simp [l], fun j c hc => ?_⟩
        cases j with
        | zero => simp at hc; subst hc; exact ⟨e, by simp, h1⟩
        | succ j => simp at hc ⊢; exact g j c hc
end eval

theorem docMaps_spec (flat maps : List (Nat × Attrs)) (h : docMaps flat = some maps) :
    maps.map (·.1) = flat.map (·.1) ∧ (∀ d ∈ maps, (d.2.map (·.1)).Nodup) ∧
    (∀ d ∈ maps, ∃ as, (d.1, as) ∈ flat ∧ ∀ p, p ∈ d.2 ↔ p ∈ as) ∧
    (∀ d ∈ flat, ∃ m, (d.1, m) ∈ maps ∧ ∀ p, p ∈ m ↔ p ∈ d.2) := by
  induction flat generalizing maps with
  | nil =>
    simp only [docMaps, Option.some.injEq] at h
    subst h
    simp
  | cons d rest ih =>
    obtain ⟨id, as⟩ := d
    rw [docMaps] at h
    cases h1 : docLoop [] as with
    | none => rw [h1] at h; simp at h
    | some m =>
      rw [h1] at h
      dsimp only at h
      cases h2 : docMaps rest with
      | none => rw [h2] at h; simp at h
      | some r =>
        rw [h2] at h
        simp only [Option.some.injEq] at h
        subst h
        obtain ⟨i1, i2, i3, i4⟩ := ih r h2
        obtain ⟨n, mm⟩ := docLoop_spec as [] m (by simp) h1
        have mm' : ∀ p, p ∈ m ↔ p ∈ as := fun p => by have := mm p.1 p.2; simpa using this
        refine ⟨by simp [i1], ?_, ?_, ?_⟩
        · intro d hd
          rcases List.mem_cons.1 hd with rfl | hd
          · exact n
          · exact i2 d hd
        · intro d hd
          rcases List.mem_cons.1 hd with rfl | hd
          · exact ⟨as, by simp, mm'⟩
          · obtain ⟨as', ha, hp⟩ := i3 d hd
            exact ⟨as', by simp [ha], hp⟩
        · intro d hd
          rcases List.mem_cons.1 hd with rfl | hd
          · exact ⟨m, by simp, mm'⟩
          · obtain ⟨m', ha, hp⟩ := i4 d hd
            exact ⟨m', by simp [ha], hp⟩

theorem flattenAll_spec (docs : List (Nat × Json)) (flat : List (Nat × Attrs)) (h : flattenAll docs = some flat) :
    flat.map (·.1) = docs.map (·.1) ∧
    ∀ id as, (id, as) ∈ flat ↔ ∃ label, (id, label) ∈ docs ∧ flattenD [] label = some as := by
  induction docs generalizing flat with
  | nil =>
    simp only [flattenAll, Option.some.injEq] at h
    subst h
    simp
  | cons d rest ih =>
    obtain ⟨id, label⟩ := d
    rw [flattenAll] at h
    cases h1 : flattenD [] label with
    | none => rw [h1] at h; simp at h
    | some as =>
      rw [h1] at h
      dsimp only at h
      cases h2 : flattenAll rest with
      | none => rw [h2] at h; simp at h
      | some r =>
        rw [h2] at h
        simp only [Option.some.injEq] at h
        subst h
        obtain ⟨i1, i2⟩ := ih r h2
        refine ⟨by simp [i1], fun i a => ?_⟩
        simp only [List.mem_cons, Prod.mk.injEq, i2]
        constructor
        · rintro (⟨rfl, rfl⟩ | ⟨l, hl, hf⟩)
          · exact ⟨label, Or.inl ⟨rfl, rfl⟩, h1⟩
          · exact ⟨l, Or.inr hl, hf⟩
        · rintro ⟨l, ⟨rfl, rfl⟩ | hl, hf⟩
          · rw [h1] at hf
            simp only [Option.some.injEq] at hf
            exact Or.inl ⟨rfl, hf.symm⟩
          · exact Or.inr ⟨l, hl, hf⟩

/-! ### The meaning depends only on the attributes as sets -/

/-- Two collections with the same fields. -/
def SameFields (d1 d2 : List (Nat × Attrs)) : Prop :=
  ∀ f, (∃ d ∈ d1, HasField d.2 f) ↔ ∃ d ∈ d2, HasField d.2 f

mutual
theorem sat_congr {d1 d2 : List (Nat × Attrs)} (hd : SameFields d1 d2) {a b : Attrs} (hab : ∀ p, p ∈ a ↔ p ∈ b) (e : Expr) :
    Sat d1 a e ↔ Sat d2 b e := by
  match e with
  | .cmp f op => simp only [Sat, hab]
  | .not e =>
    simp only [Sat, sat_congr hd hab e]
    have hh : ∀ f, HasField a f ↔ HasField b f := fun f => by simp only [HasField, hab]
    have : Eligible d1 a (labelSet e) ↔ Eligible d2 b (labelSet e) := by
      cases labelSet e with
      | nil => simp [Eligible]
      | cons f fs =>
        simp only [Eligible, hh]
        refine and_congr_right fun _ => forall_congr' fun g => forall_congr' fun _ => ?_
        rw [hd g]
    rw [this]
  | .or es => simp only [Sat, satAny_congr hd hab es]
  | .and es => simp only [Sat, satAll_congr hd hab es]
theorem satAll_congr {d1 d2 : List (Nat × Attrs)} (hd : SameFields d1 d2) {a b : Attrs} (hab : ∀ p, p ∈ a ↔ p ∈ b)
    (es : List Expr) : SatAll d1 a es ↔ SatAll d2 b es := by
  match es with
  | [] => simp [SatAll]
  | e :: rest => simp only [SatAll, sat_congr hd hab e, satAll_congr hd hab rest]
theorem satAny_congr {d1 d2 : List (Nat × Attrs)} (hd : SameFields d1 d2) {a b : Attrs} (hab : ∀ p, p ∈ a ↔ p ∈ b)
    (es : List Expr) : SatAny d1 a es ↔ SatAny d2 b es := by
  match es with
  | [] => simp [SatAny]
  | e :: rest => simp only [SatAny, sat_congr hd hab e, satAny_congr hd hab rest]
end

/-! ### Paths with dots -/

/-- The path of a sequence of names. -/
def dotPath (segs : List Bytes) : Bytes := segs.flatMap (fun s => 46 :: s)

theorem split_dotPath (segs : List Bytes) (hs : ∀ s ∈ segs, 46 ∉ s) (s : Bytes) (h : 46 ∉ s) :
    splitByte 46 (s ++ dotPath segs) = s :: segs := by
  induction segs generalizing s with
  | nil => rw [dotPath, List.flatMap_nil, List.append_nil, splitByte_self h]
  | cons r rest ih =>
    have : s ++ dotPath (r :: rest) = s ++ 46 :: (r ++ dotPath rest) := by simp [dotPath]
    rw [this, splitByte_cut h, ih (fun x hx => hs x (by simp [hx])) r (hs r (by simp))]

theorem dotPath_inj {a b : List Bytes} (ha : ∀ s ∈ a, 46 ∉ s) (hb : ∀ s ∈ b, 46 ∉ s) (h : dotPath a = dotPath b) :
    a = b := by
  have h1 := split_dotPath a ha [] (by simp)
  have h2 := split_dotPath b hb [] (by simp)
  rw [List.nil_append] at h1 h2
  rw [h, h2] at h1
  simpa using h1.symm

theorem split_noSep (sep : Nat) (s : Bytes) : ∀ seg ∈ splitByte sep s, sep ∉ seg := by
  induction s with
  | nil => simp [splitByte]
  | cons d ds ih =>
    intro seg h
    rw [splitByte] at h
    split at h
    · rcases List.mem_cons.1 h with rfl | h
      · simp
      · exact ih seg h
    · rename_i hd
      split at h
      · rename_i he; exact absurd he (splitByte_ne_nil _ _)
      · rename_i x xs he
        rw [he] at ih
        rcases List.mem_cons.1 h with rfl | h
        · simp only [List.mem_cons, not_or]
          exact ⟨fun e => hd e.symm, ih x (by simp)⟩
        · exact ih seg (by simp [h])

theorem dotPath_split (f : Bytes) : 46 :: f = dotPath (splitByte 46 f) := by
  induction f with
  | nil => rfl
  | cons c cs ih =>
    rw [splitByte]
    by_cases hc : c = 46
    · rw [if_pos hc]
      have : dotPath ([] :: splitByte 46 cs) = 46 :: dotPath (splitByte 46 cs) := by simp [dotPath]
      rw [this, ← ih, hc]
    · rw [if_neg hc]
      split
      · rename_i he; exact absurd he (splitByte_ne_nil _ _)
      · rename_i x xs he
        rw [he] at ih
        simp only [dotPath, List.flatMap_cons, List.cons_append, List.cons.injEq, true_and] at ih ⊢
        exact ih

/-- The scalars of a value, by path. -/
def LeafD (v : Json) (pre path : Bytes) (a : AttrVal) : Prop :=
  ∃ segs w, (∀ s ∈ segs, 46 ∉ s) ∧ getPath v segs = some w ∧ tryFrom w = some a ∧ path = pre ++ dotPath segs

theorem leafD_scalar {v : Json} (hv : ∀ kvs, v ≠ .obj kvs) {b : AttrVal} (hb : tryFrom v = some b) (pre path : Bytes)
    (a : AttrVal) : LeafD v pre path a ↔ path = pre ∧ a = b := by
  constructor
  · rintro ⟨segs, w, _, hg, ht, hp⟩
    cases segs with
    | nil =>
      rw [getPath] at hg
      simp only [Option.some.injEq] at hg
      subst hg
      rw [hb] at ht
      simp only [Option.some.injEq] at ht
      exact ⟨by simpa [dotPath] using hp, ht.symm⟩
    | cons s ss =>
      cases v with
      | obj kvs => exact absurd rfl (hv kvs)
      | _ => simp [getPath] at hg
  · rintro ⟨rfl, rfl⟩
    exact ⟨[], v, by simp, by rw [getPath], hb, by simp [dotPath]⟩

theorem leafD_obj {kvs : List (Bytes × Json)} (h : LabelEntriesOk kvs) (pre path : Bytes) (a : AttrVal) :
    LeafD (.obj kvs) pre path a ↔ ∃ k v, (k, v) ∈ kvs ∧ LeafD v (pre ++ 46 :: k) path a := by
  constructor
  · rintro ⟨segs, w, hs, hg, ht, hp⟩
    cases segs with
    | nil =>
      rw [getPath] at hg
      simp only [Option.some.injEq] at hg
      subst hg
      simp [tryFrom] at ht
    | cons s ss =>
      rw [getPath] at hg
      cases ho : objGet kvs s with
      | none => simp [ho] at hg
      | some v =>
        simp only [ho] at hg
        exact ⟨s, v, (objGet_mem h s v).1 ho, ss, w, fun x hx => hs x (by simp [hx]), hg, ht, by
          rw [hp]; simp [dotPath]⟩
  · rintro ⟨k, v, hm, segs, w, hs, hg, ht, hp⟩
    refine ⟨k :: segs, w, ?_, ?_, ht, ?_⟩
    · intro x hx
      rcases List.mem_cons.1 hx with rfl | hx
      · exact (entryOk h hm).1.1
      · exact hs x hx
    · rw [getPath, (objGet_mem h k v).2 hm]
      exact hg
    · rw [hp]; simp [dotPath]

mutual
theorem flattenD_spec (v : Json) (h : LabelOk v) (pre : Bytes) :
    ∃ as, flattenD pre v = some as ∧ ∀ path a, (path, a) ∈ as ↔ LeafD v pre path a := by
  match v, h with
  | .null, h => exact absurd h (by rw [LabelOk]; simp)
  | .arr xs, h => exact absurd h (by rw [LabelOk]; simp)
  | .bool b, h =>
    refine ⟨[(pre, .bool b)], by rw [flattenD], fun path a => ?_⟩
    rw [leafD_scalar (by simp) (by rw [tryFrom]) pre path a]
    simp
  | .str s, h =>
    refine ⟨[(pre, .str s)], by rw [flattenD], fun path a => ?_⟩
    rw [leafD_scalar (by simp) (by rw [tryFrom]) pre path a]
    simp
  | .num n, h =>
    have : ∃ b, tryFrom (.num n) = some b := by
      cases n with
      | pos n =>
        rw [tryFrom]
        split
        · exact ⟨_, rfl⟩
        · exact ⟨_, rfl⟩
      | neg n => exact ⟨_, by rw [tryFrom]⟩
      | flt n => exact ⟨_, by rw [tryFrom]⟩
    obtain ⟨b, hb⟩ := this
    refine ⟨[(pre, b)], by rw [flattenD, hb]; rfl, fun path a => ?_⟩
    rw [leafD_scalar (by simp) hb pre path a]
    simp
  | .obj kvs, h =>
    rw [LabelOk] at h
    obtain ⟨as, h1, h2⟩ := flattenDEntries_spec kvs h pre
    exact ⟨as, by rw [flattenD, h1], fun path a => by rw [h2, leafD_obj h]⟩
theorem flattenDEntries_spec (kvs : List (Bytes × Json)) (h : LabelEntriesOk kvs) (pre : Bytes) :
    ∃ as, flattenDEntries pre kvs = some as ∧
      ∀ path a, (path, a) ∈ as ↔ ∃ k v, (k, v) ∈ kvs ∧ LeafD v (pre ++ 46 :: k) path a := by
  match kvs, h with
  | [], h => exact ⟨[], by rw [flattenDEntries], by simp⟩
  | (k, v) :: rest, h =>
    rw [LabelEntriesOk] at h
    obtain ⟨as, h1, h2⟩ := flattenD_spec v h.2.2.1 (pre ++ 46 :: k)
    obtain ⟨bs, h3, h4⟩ := flattenDEntries_spec rest h.2.2.2 pre
    refine ⟨as ++ bs, by rw [flattenDEntries, h1, h3], fun path a => ?_⟩
    rw [List.mem_append, h2, h4]
    constructor
    · rintro (hl | ⟨k', v', hm, hl⟩)
      · exact ⟨k, v, by simp, hl⟩
      · exact ⟨k', v', by simp [hm], hl⟩
    · rintro ⟨k', v', hm, hl⟩
      rcases List.mem_cons.1 hm with e | hm
      · simp only [Prod.mk.injEq] at e
        obtain ⟨rfl, rfl⟩ := e
        exact Or.inl hl
      · exact Or.inr ⟨k', v', hm, hl⟩
end

/-- The attributes of a label under the dotted name of a field are its scalar there. -/
theorem attrs_field {label : Json} (h : LabelOk label) {as : Attrs} (hf : flattenD [] label = some as) {f : Bytes}
    (h0 : f.head? ≠ some 46) (a : AttrVal) :
    (prepend f, a) ∈ as ↔ ∃ w, getByPath label f = some w ∧ tryFrom w = some a := by
  obtain ⟨as', h1, h2⟩ := flattenD_spec label h []
  rw [hf] at h1
  simp only [Option.some.injEq] at h1
  subst h1
  rw [h2, prepend, if_neg h0, dotPath_split, getByPath]
  constructor
  · rintro ⟨segs, w, hs, hg, ht, hp⟩
    rw [List.nil_append] at hp
    rw [dotPath_inj (split_noSep 46 f) hs hp]
    exact ⟨w, hg, ht⟩
  · rintro ⟨w, hg, ht⟩
    exact ⟨_, w, split_noSep 46 f, hg, ht, by simp⟩

/-! ### One comparison -/

theorem asF64_ok {m : JNum} (hm : NumOk m) {a : AttrVal} (ha : tryFrom (.num m) = some a) :
    asDouble a = some m.asF64 ∧ fNaNb m.asF64 = false := by
  cases m with
  | pos n =>
    have hm' := hm
    rw [NumOk] at hm'
    rw [tryFrom, if_pos hm'] at ha
    simp only [Option.some.injEq] at ha
    subst ha
    refine ⟨?_, (asF64_int hm rfl).1⟩
    simp only [asDouble, i64AsF64, JNum.asF64]
    rw [if_pos (by omega)]
    simp
  | neg n =>
    have hm' := hm
    rw [NumOk] at hm'
    simp only [tryFrom, Option.some.injEq] at ha
    subst ha
    refine ⟨?_, (asF64_int hm rfl).1⟩
    simp only [asDouble, i64AsF64, JNum.asF64]
    rw [if_neg (by omega)]
  | flt b =>
    have hm' := hm
    rw [NumOk] at hm'
    simp only [tryFrom, Option.some.injEq] at ha
    subst ha
    exact ⟨rfl, fNaNb_of_exp hm'.2.1⟩

theorem jeq_double {m k : JNum} (h : m.eq k = true) : fVal m.asF64 = fVal k.asF64 := by
  cases m <;> cases k <;> simp [JNum.eq, JNum.asF64] at h ⊢
  · rw [h]
  · rw [h]
  · exact h

/-- The bound of a range is a number, not `NaN`. -/
def BoundNum : CmpOp → Prop
  | .lt b => fNaNb b = false
  | .lte b => fNaNb b = false
  | .gt b => fNaNb b = false
  | .gte b => fNaNb b = false
  | _ => True

theorem opHolds_eval {v : Json} (hv : LabelOk v) {a : AttrVal} (ha : tryFrom v = some a) {op : CmpOp}
    (hb : BoundNum op)
    (mix : ∀ c, op = .eq c ∨ op = .ne c → ∀ m k, v = .num m → c = .num k → fVal m.asF64 = fVal k.asF64 → m.eq k = true) :
    OpHolds a op ↔ evalOp v op = true := by
  have same : ∀ c, (∀ m k, v = .num m → c = .num k → fVal m.asF64 = fVal k.asF64 → m.eq k = true) →
      (Same a c ↔ jeq v c = true) := by
    intro c hc
    cases v with
    | num m =>
      rw [LabelOk] at hv
      obtain ⟨hd, -⟩ := asF64_ok hv ha
      unfold Same
      rw [hd]
      dsimp only
      cases c with
      | num k =>
        simp only [Json.asF64, Option.some.injEq, exists_eq_left', jeq]
        exact ⟨hc m k rfl rfl, jeq_double⟩
      | _ => simp [Json.asF64, jeq]
    | bool b =>
      simp only [tryFrom, Option.some.injEq] at ha
      subst ha
      simp only [Same, asDouble]
      cases c with
      | num k =>
        cases k with
        | pos n => simp only [tryFrom, jeq]; split <;> simp
        | _ => simp [tryFrom, jeq]
      | bool b' => simp only [tryFrom, jeq, Option.some.injEq, AttrVal.bool.injEq, beq_iff_eq]; exact eq_comm
      | _ => simp [tryFrom, jeq]
    | str s =>
      simp only [tryFrom, Option.some.injEq] at ha
      subst ha
      simp only [Same, asDouble]
      cases c with
      | num k =>
        cases k with
        | pos n => simp only [tryFrom, jeq]; split <;> simp
        | _ => simp [tryFrom, jeq]
      | str s' => simp only [tryFrom, jeq, Option.some.injEq, AttrVal.str.injEq, beq_iff_eq]; exact eq_comm
      | _ => simp [tryFrom, jeq]
    | _ => simp [tryFrom] at ha
  have num : (∃ m, v = .num m ∧ asDouble a = some m.asF64 ∧ fNaNb m.asF64 = false) ∨
      (v.asF64 = none ∧ asDouble a = none) := by
    cases v with
    | num m =>
      rw [LabelOk] at hv
      obtain ⟨hd, hn⟩ := asF64_ok hv ha
      exact Or.inl ⟨m, rfl, hd, hn⟩
    | bool b =>
      simp only [tryFrom, Option.some.injEq] at ha
      subst ha
      exact Or.inr ⟨rfl, rfl⟩
    | str s =>
      simp only [tryFrom, Option.some.injEq] at ha
      subst ha
      exact Or.inr ⟨rfl, rfl⟩
    | _ => simp [tryFrom] at ha
  cases op with
  | eq c => exact same c (mix c (Or.inl rfl))
  | ne c =>
    have := same c (mix c (Or.inr rfl))
    simp only [OpHolds, evalOp, this, Bool.not_eq_true', Bool.not_eq_true]
  | lt b | lte b | gt b | gte b =>
    simp only [BoundNum] at hb
    rcases num with ⟨m, rfl, hd, hn⟩ | ⟨h1, h2⟩
    · simp [OpHolds, evalOp, hd, Json.asF64, fLt, fLe, hn, hb]
    · simp [OpHolds, evalOp, h1, h2]

end Verif.Tools
