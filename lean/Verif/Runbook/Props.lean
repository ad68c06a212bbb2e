import Mathlib.Order.Bounds.Basic
import Verif.Record.TextProps
import Verif.Runbook.Lemmas

/-! # C96: runbooks

A runbook that loads is consistent: its stages insert new tags and replace and delete active ones, and the number of points
it announces suffices. -/

namespace Verif.Runbook

open Spec

namespace Spec

/-- The greatest inserted tag, if there is one. -/
def GreatestTag (tag : Option Nat) (S : Set Nat) : Prop :=
  match tag with
  | none => S = ∅
  | some t => IsGreatest S t

/-- The tags inserted by some stage. -/
def allInserted (stages : List Stage) : Set Nat := {t | ∃ g ∈ stages, t ∈ inserted g}

end Spec

/-! ### Validation -/

theorem updateMax_spec {m : Option Nat} {S : Set Nat} (h : GreatestTag m S) {r : Rng} (hr : r.lo < r.hi) :
    GreatestTag (updateMax m (r.hi - 1)) (S ∪ {t | t ∈ tags r}) := by
  cases m with
  | none =>
    rw [show S = ∅ from h]
    refine ⟨Or.inr (mem_tags.2 ⟨by omega, by omega⟩), ?_⟩
    rintro t (ht | ht)
    · exact absurd ht (Set.notMem_empty t)
    · have := mem_tags.1 ht
      omega
  | some m =>
    obtain ⟨h1, h2⟩ : IsGreatest S m := h
    show IsGreatest _ (max m (r.hi - 1))
    refine ⟨?_, ?_⟩
    · rcases le_total m (r.hi - 1) with hm | hm
      · rw [max_eq_right hm]; exact Or.inr (mem_tags.2 ⟨by omega, by omega⟩)
      · rw [max_eq_left hm]; exact Or.inl h1
    · rintro t (ht | ht)
      · exact le_trans (h2 ht) (le_max_left _ _)
      · have := mem_tags.1 ht
        exact le_trans (by omega) (le_max_right m (r.hi - 1))

theorem peak_cons (B : Finset Nat) (As : List (Finset Nat)) : peak (B :: As) = max B.card (peak As) := rfl

theorem run_plain {σ ω : Type} (S : Stream σ ω) (s : σ) (g : Stage) (gs : List Stage) (hn : S.needs s = false) :
    S.run s (g :: gs) = S.perform [] s g fun s => S.run s gs := by
  simp only [Stream.run]
  rw [if_neg (by rw [hn]; simp)]

/-- What validation does with the stages from an active set on. -/
theorem validate_spec (stages : List Stage) : ∀ (v : Validator) (A : Finset Nat) (S : Set Nat), Inv v A →
    A.card ≤ v.maxActive → GreatestTag v.maxTag S → (∀ g ∈ stages, NonEmpty g) →
    (history A stages = none → (validate.run v stages).2 = .err) ∧
    (∀ As, history A stages = some As → ∃ v', (validate.run v stages).2 = .ok v' ∧
      v'.maxActive = max v.maxActive (peak As) ∧ GreatestTag v'.maxTag (S ∪ allInserted stages)) := by
  induction stages with
  | nil =>
    intro v A S _ _ hS _
    refine ⟨fun h => by simp [history] at h, fun As h => ?_⟩
    simp only [history, Option.some.injEq] at h
    subst h
    refine ⟨v, rfl, (Nat.max_zero _).symm, ?_⟩
    have : S ∪ allInserted [] = S := by
      unfold allInserted; simp
    rw [this]; exact hS
  | cons g gs ih =>
    intro v A S hi hm hS hne
    have hgs : ∀ g ∈ gs, NonEmpty g := fun x hx => hne x (List.mem_cons_of_mem _ hx)
    have hg := hne g List.mem_cons_self
    have hins : ∀ T : Set Nat, T = {t | t ∈ inserted g} → S ∪ allInserted (g :: gs) = (S ∪ T) ∪ allInserted gs := by
      intro T hT
      subst hT
      unfold allInserted
      ext t
      simp only [List.mem_cons, exists_eq_or_imp, Set.mem_union, Set.mem_setOf_eq]
      tauto
    rw [run_plain validate v g gs rfl]
    -- one stage, accepted
    have step : ∀ v' B, validate.stage v g = .ok (v', ()) → after A g = some B → Inv v' B → B.card ≤ v'.maxActive →
        v'.maxActive = max v.maxActive B.card → GreatestTag v'.maxTag (S ∪ {t | t ∈ inserted g}) →
        (history A (g :: gs) = none → (validate.perform [] v g fun s => validate.run s gs).2 = .err) ∧
        (∀ As, history A (g :: gs) = some As → ∃ w, (validate.perform [] v g fun s => validate.run s gs).2 = .ok w ∧
          w.maxActive = max v.maxActive (peak As) ∧ GreatestTag w.maxTag (S ∪ allInserted (g :: gs))) := by
      intro v' B e1 e2 e3 e4 e5 e6
      obtain ⟨i1, i2⟩ := ih v' B _ e3 e4 e6 hgs
      simp only [history, e2, Stream.perform, e1]
      refine ⟨fun h => i1 (by simpa using h), fun As h => ?_⟩
      simp only [Option.map_eq_some_iff] at h
      obtain ⟨Bs, hB, rfl⟩ := h
      obtain ⟨w, w1, w2, w3⟩ := i2 Bs hB
      refine ⟨w, w1, ?_, ?_⟩
      · rw [w2, e5, peak_cons, Nat.max_assoc]
      · rw [hins _ rfl]; exact w3
    -- refused
    have stop : validate.stage v g = .err → after A g = none →
        (history A (g :: gs) = none → (validate.perform [] v g fun s => validate.run s gs).2 = .err) ∧
        (∀ As, history A (g :: gs) = some As → ∃ w, (validate.perform [] v g fun s => validate.run s gs).2 = .ok w ∧
          w.maxActive = max v.maxActive (peak As) ∧ GreatestTag w.maxTag (S ∪ allInserted (g :: gs))) := by
      intro e1 e2
      simp only [history, e2, Stream.perform, e1]
      exact ⟨fun _ => trivial, fun As h => by cases h⟩
    have hS0 : GreatestTag v.maxTag (S ∪ {t | t ∈ (∅ : Finset Nat)}) := by
      have : S ∪ {t | t ∈ (∅ : Finset Nat)} = S := by simp
      rw [this]; exact hS
    cases g with
    | search p => exact step v A rfl rfl hi hm (by rw [Nat.max_eq_left hm]) hS0
    | insert r =>
      obtain ⟨a, b⟩ := insert_spec hi r hg
      by_cases hd : Disjoint A (tags r)
      · obtain ⟨v', e1, e2, e3, e4⟩ := b hd
        exact step v' (A ∪ tags r) (by show unitOut (v.insert r) = _; rw [e1]; rfl) (if_pos hd) e2
          (by rw [e3]; exact le_max_right _ _) e3 (by rw [e4]; exact updateMax_spec hS hg)
      · exact stop (by show unitOut (v.insert r) = _; rw [a hd]; rfl) (if_neg hd)
    | replace o r =>
      obtain ⟨a, b⟩ := replace_spec hi r hg.2
      by_cases hd : tags r ⊆ A
      · exact step v A (by show unitOut (v.replace r) = _; rw [b hd]; rfl) (if_pos hd) hi hm (by rw [Nat.max_eq_left hm]) hS0
      · exact stop (by show unitOut (v.replace r) = _; rw [a hd]; rfl) (if_neg hd)
    | delete r =>
      obtain ⟨a, b⟩ := delete_spec hi r hg
      by_cases hd : tags r ⊆ A
      · obtain ⟨v', e1, e2, e3, e4⟩ := b hd
        have hc : (A \ tags r).card ≤ v.maxActive := le_trans (Finset.card_le_card Finset.sdiff_subset) hm
        exact step v' (A \ tags r) (by show unitOut (v.delete r) = _; rw [e1]; rfl) (if_pos hd) e2
          (by rw [e3]; exact hc) (by rw [e3, Nat.max_eq_left hc]) (by rw [e4]; exact hS0)
      · exact stop (by show unitOut (v.delete r) = _; rw [a hd]; rfl) (if_neg hd)

/-- C96. A runbook is refused exactly when a stage inserts an active tag or replaces or deletes one that is not active.
Otherwise its number of points is the larger of the announced one and the most tags active at once, and its greatest tag is
the greatest inserted one. Validation does not panic. -/
theorem C96_validated (stages : List Stage) (announced : Nat) (hne : ∀ g ∈ stages, NonEmpty g) :
    (history ∅ stages = none → RunBook.new stages announced = .err) ∧
    (∀ As, history ∅ stages = some As → ∃ tag, RunBook.new stages announced = .ok ⟨stages, max announced (peak As), tag⟩ ∧
      GreatestTag tag (allInserted stages)) := by
  obtain ⟨a, b⟩ := validate_spec stages Validator.new ∅ ∅
    ⟨⟨by simp [Validator.new], List.Pairwise.nil⟩, fun t => by simp [Validator.new, cover], rfl⟩ (by simp)
    (show (∅ : Set Nat) = ∅ from rfl) hne
  unfold RunBook.new
  refine ⟨fun h => by rw [a h], fun As h => ?_⟩
  obtain ⟨v', e1, e2, e3⟩ := b As h
  rw [Set.empty_union] at e3
  refine ⟨v'.maxTag, ?_, e3⟩
  rw [e1]
  dsimp only
  rw [e2, show Validator.new.maxActive = 0 from rfl, Nat.zero_max]

/-! ### Loading -/

theorem getRange_lt {m : List (Yaml × Yaml)} {a b : String} {r : Rng} (h : getRange m a b = some r) : r.lo < r.hi := by
  unfold getRange at h
  split at h
  · split at h
    · cases h
    · cases h; dsimp only; omega
  · cases h

/-- The operations of a parsed file have no empty ranges. -/
def OpOk : Operation → Prop
  | .search => True
  | .insert r => r.lo < r.hi
  | .replace i t => i.lo < i.hi ∧ t.lo < t.hi
  | .delete r => r.lo < r.hi

theorem handleStage_ok {v : Yaml} {op : Operation} (h : handleStage v = some op) : OpOk op := by
  unfold handleStage at h
  obtain ⟨m, -, h⟩ := Option.bind_eq_some_iff.1 h
  obtain ⟨s, -, h⟩ := Option.bind_eq_some_iff.1 h
  unfold parseOp at h
  split at h
  · cases h; trivial
  · split at h
    · obtain ⟨r, hr, rfl⟩ := Option.map_eq_some_iff.1 h
      exact getRange_lt hr
    · split at h
      · unfold getReplace at h
        split at h
        · rename_i h1 h2
          cases h
          exact ⟨getRange_lt h1, getRange_lt h2⟩
        · cases h
      · split at h
        · obtain ⟨r, hr, rfl⟩ := Option.map_eq_some_iff.1 h
          exact getRange_lt hr
        · cases h

theorem parseEntries_ok (m : List (Yaml × Yaml)) : ∀ (raw out : Raw), (∀ x ∈ raw.stages, OpOk x.2) →
    parseEntries raw m = some out → ∀ x ∈ out.stages, OpOk x.2 := by
  induction m with
  | nil =>
    intro raw out h e
    cases e
    exact h
  | cons kv rest ih =>
    intro raw out h e
    simp only [parseEntries] at e
    obtain ⟨mid, e1, e2⟩ := Option.bind_eq_some_iff.1 e
    refine ih mid out ?_ e2
    unfold parseEntry at e1
    split at e1
    · split at e1
      · obtain ⟨p, _, rfl⟩ := Option.map_eq_some_iff.1 e1
        exact h
      · split at e1
        · cases e1; exact h
        · cases e1
    · obtain ⟨op, hop, rfl⟩ := Option.map_eq_some_iff.1 e1
      intro x hx
      rcases List.mem_append.1 hx with hx | hx
      · exact h x hx
      · rw [List.mem_singleton.1 hx]
        exact handleStage_ok hop
    · cases e1

theorem collect_spec {α β : Type} (f : α → Option β) (as : List α) : ∀ bs, collect f as = some bs ↔
    List.Forall₂ (fun a b => f a = some b) as bs := by
  induction as with
  | nil =>
    intro bs
    simp only [collect, Option.some.injEq]
    constructor
    · rintro rfl; exact List.Forall₂.nil
    · intro h; cases h; rfl
  | cons a as ih =>
    intro bs
    simp only [collect]
    constructor
    · intro h
      split at h
      · rename_i b cs h1 h2
        cases h
        exact List.Forall₂.cons h1 ((ih _).1 h2)
      · cases h
    · intro h
      cases h with
      | cons h1 h2 =>
        rw [h1, (ih _).2 h2]

theorem toStage_ok {gt : Nat → Option (List Char)} {x : Nat × Operation} {g : Stage} (hx : OpOk x.2)
    (h : toStage gt x = some g) : NonEmpty g := by
  obtain ⟨i, op⟩ := x
  cases op with
  | search =>
    obtain ⟨p, _, rfl⟩ := Option.map_eq_some_iff.1 h
    trivial
  | insert r => cases h; exact hx
  | replace a b => cases h; exact hx
  | delete r => cases h; exact hx

theorem sortStages_perm (l : List (Nat × Operation)) : (sortStages l).Perm l := List.perm_insertionSort _ _

/-- The stages that come out of a file are not empty. -/
theorem load_eq {file : List (Yaml × Yaml)} {dataset : String} {gt : Nat → Option (List Char)} :
    load file dataset gt = .err ∨ ∃ stages p, load file dataset gt = RunBook.new stages p ∧ ∀ g ∈ stages, NonEmpty g := by
  unfold load
  split
  · exact Or.inl rfl
  · rename_i m _
    split
    · exact Or.inl rfl
    · rename_i raw hraw
      split
      · exact Or.inl rfl
      · rename_i p _
        split
        · exact Or.inl rfl
        · rename_i stages hst
          refine Or.inr ⟨stages, p, rfl, fun g hg => ?_⟩
          have hok := parseEntries_ok m ⟨none, []⟩ raw (by simp) hraw
          have hf := (collect_spec _ _ _).1 hst
          obtain ⟨x, hx, e⟩ : ∃ x ∈ sortStages raw.stages, toStage gt x = some g := by
            clear hst
            generalize sortStages raw.stages = l at hf
            induction hf with
            | nil => simp at hg
            | cons h1 h2 ih =>
              rcases List.mem_cons.1 hg with rfl | hg
              · exact ⟨_, List.mem_cons_self, h1⟩
              · obtain ⟨x, a, b⟩ := ih hg
                exact ⟨x, List.mem_cons_of_mem _ a, b⟩
          exact toStage_ok (hok x ((sortStages_perm _).mem_iff.1 hx)) e

/-- C96. Whatever the file, loading does not panic, and a runbook that loads is consistent: inserted tags are new, replaced
and deleted tags are active, no range is empty, the number of points is at least the most tags active at once, and the
greatest tag is right. -/
theorem C96_loaded (file : List (Yaml × Yaml)) (dataset : String) (gt : Nat → Option (List Char)) :
    load file dataset gt ≠ .panic ∧ ∀ rb, load file dataset gt = .ok rb → (∀ g ∈ rb.stages, NonEmpty g) ∧
      ∃ As, history ∅ rb.stages = some As ∧ peak As ≤ rb.maxPoints ∧ GreatestTag rb.maxTag (allInserted rb.stages) := by
  rcases load_eq (file := file) (dataset := dataset) (gt := gt) with h | ⟨stages, p, h, hne⟩
  · rw [h]
    exact ⟨by simp, fun rb e => by cases e⟩
  · obtain ⟨a, b⟩ := C96_validated stages p hne
    rw [h]
    cases hh : history ∅ stages with
    | none =>
      rw [a hh]
      exact ⟨by simp, fun rb e => by cases e⟩
    | some As =>
      obtain ⟨tag, e1, e2⟩ := b As hh
      rw [e1]
      refine ⟨by simp, fun rb e => ?_⟩
      cases e
      exact ⟨hne, As, hh, le_max_right _ _, e2⟩

namespace Spec

/-- A mapping has this value under this name and no second one. -/
def Has (m : List (Yaml × Yaml)) (k : String) (v : Yaml) : Prop :=
  ∃ pre post, m = pre ++ (.str k, v) :: post ∧ (∀ w, (Yaml.str k, w) ∉ pre) ∧ ∀ w, (Yaml.str k, w) ∉ post

/-- What a stage of the file says. -/
inductive Says : List (Yaml × Yaml) → Operation → Prop
  | search (m) : Has m "operation" (.str "search") → Says m .search
  | insert (m) (a b : Nat) : Has m "operation" (.str "insert") → Has m "start" (.num (some a)) → Has m "end" (.num (some b)) →
      a < b → b < 2 ^ 63 → Says m (.insert ⟨a, b⟩)
  | replace (m) (a b c d : Nat) : Has m "operation" (.str "replace") → Has m "ids_start" (.num (some a)) →
      Has m "ids_end" (.num (some b)) → Has m "tags_start" (.num (some c)) → Has m "tags_end" (.num (some d)) →
      a < b → c < d → b < 2 ^ 63 → d < 2 ^ 63 → Says m (.replace ⟨a, b⟩ ⟨c, d⟩)
  | delete (m) (a b : Nat) : Has m "operation" (.str "delete") → Has m "start" (.num (some a)) → Has m "end" (.num (some b)) →
      a < b → b < 2 ^ 63 → Says m (.delete ⟨a, b⟩)

/-- A line of the description of a dataset: a stage or something else. -/
inductive Line (p : Nat) : Yaml × Yaml → Option (Nat × Operation) → Prop
  | points : Line p (.str "max_pts", .num (some p)) none
  | url (v) : Line p (.str "gt_url", v) none
  | stage (i : Nat) (m) (op) : i < 2 ^ 63 → Says m op → Line p (.num (some i), .map m) (some (i, op))

/-- A numbered operation stands for a stage; a search for the ground truth of its number. -/
inductive Stands (gt : Nat → Option (List Char)) : Nat × Operation → Stage → Prop
  | search (i p) : gt i = some p → Stands gt (i, .search) (.search p)
  | insert (i r) : Stands gt (i, .insert r) (.insert r)
  | replace (i a b) : Stands gt (i, .replace a b) (.replace a b)
  | delete (i r) : Stands gt (i, .delete r) (.delete r)

end Spec

theorem lookup_has {m : List (Yaml × Yaml)} {k : String} {v : Yaml} (h : Has m k v) : lookup m k = some v := by
  obtain ⟨pre, post, rfl, h1, _⟩ := h
  unfold lookup
  rw [List.find?_append]
  have : pre.find? (fun kv => kv.1.isKey k) = none := by
    rw [List.find?_eq_none]
    rintro ⟨a, w⟩ hm hk
    unfold Yaml.isKey at hk
    dsimp only at hk
    split at hk
    · rw [beq_iff_eq] at hk
      subst hk
      exact h1 w hm
    · cases hk
  rw [this]
  simp [Yaml.isKey]

theorem wrap64_nat (n : Nat) (h : n < 2 ^ 63) : wrap64 (n : Int) = n := by
  unfold wrap64
  omega

theorem getUsize_has {m : List (Yaml × Yaml)} {k : String} {n : Nat} (h : Has m k (.num (some n))) (hn : n < 2 ^ 63) :
    getUsize m k = some n := by
  unfold getUsize
  rw [lookup_has h]
  show some (wrap64 n) = _
  rw [wrap64_nat n hn]

theorem getRange_has {m : List (Yaml × Yaml)} {ka kb : String} {a b : Nat} (ha : Has m ka (.num (some a)))
    (hb : Has m kb (.num (some b))) (h : a < b) (hn : b < 2 ^ 63) : getRange m ka kb = some ⟨a, b⟩ := by
  unfold getRange
  rw [getUsize_has ha (by omega), getUsize_has hb hn]
  dsimp only
  rw [if_neg (by omega)]

theorem getStr_has {m : List (Yaml × Yaml)} {k s : String} (h : Has m k (.str s)) : getStr m k = some s := by
  unfold getStr
  rw [lookup_has h]
  rfl

theorem handleStage_says {m : List (Yaml × Yaml)} {op : Operation} (h : Says m op) : handleStage (.map m) = some op := by
  unfold handleStage
  show (getStr m "operation").bind (parseOp m) = _
  cases h with
  | search h => rw [getStr_has h, Option.bind_some, parseOp, if_pos rfl]
  | insert a b h h1 h2 h3 h4 =>
    rw [getStr_has h, Option.bind_some, parseOp, if_neg (by decide), if_pos rfl, getRange_has h1 h2 h3 h4]; rfl
  | replace a b c d h h1 h2 h3 h4 h5 h6 h7 h8 =>
    rw [getStr_has h, Option.bind_some, parseOp, if_neg (by decide), if_neg (by decide), if_pos rfl, getReplace,
      getRange_has h1 h2 h5 h7, getRange_has h3 h4 h6 h8]
  | delete a b h h1 h2 h3 h4 =>
    rw [getStr_has h, Option.bind_some, parseOp, if_neg (by decide), if_neg (by decide), if_neg (by decide), if_pos rfl,
      getRange_has h1 h2 h3 h4]; rfl

theorem parseEntries_lines {p : Nat} (hp : p < 2 ^ 63) {m : List (Yaml × Yaml)} {items : List (Option (Nat × Operation))}
    (h : List.Forall₂ (Line p) m items) : ∀ raw : Raw, ∃ out, parseEntries raw m = some out ∧
      out.stages = raw.stages ++ items.reduceOption ∧
      (out.maxPoints = raw.maxPoints ∨ out.maxPoints = some p) ∧
      ((∃ v, (Yaml.str "max_pts", v) ∈ m) → out.maxPoints = some p) := by
  induction h with
  | nil =>
    intro raw
    exact ⟨raw, rfl, by simp [List.reduceOption], Or.inl rfl, by simp⟩
  | cons h1 h2 ih =>
    intro raw
    rename_i kv it m items
    cases h1 with
    | points =>
      obtain ⟨out, e1, e2, e3, e4⟩ := ih { raw with maxPoints := some p }
      refine ⟨out, ?_, by simpa [List.reduceOption] using e2, Or.inr (e3.elim id id), fun _ => e3.elim id id⟩
      simp only [parseEntries, parseEntry]
      rw [if_pos trivial]
      show (Option.map _ (some (wrap64 p))).bind _ = _
      rw [wrap64_nat p hp]
      exact e1
    | url v =>
      obtain ⟨out, e1, e2, e3, e4⟩ := ih raw
      refine ⟨out, ?_, by simpa [List.reduceOption] using e2, e3, fun ⟨w, hw⟩ => ?_⟩
      · simp only [parseEntries, parseEntry]
        rw [if_neg (by decide), if_pos trivial]
        exact e1
      · rcases List.mem_cons.1 hw with hw | hw
        · simp at hw
        · exact e4 ⟨w, hw⟩
    | stage i sm op hi hs =>
      obtain ⟨out, e1, e2, e3, e4⟩ := ih { raw with stages := raw.stages ++ [(i, op)] }
      refine ⟨out, ?_, by simpa [List.reduceOption] using e2, e3, fun ⟨w, hw⟩ => ?_⟩
      · simp only [parseEntries, parseEntry, handleStage_says hs, Option.map_some, Option.bind_some, wrap64_nat i hi]
        exact e1
      · rcases List.mem_cons.1 hw with hw | hw
        · simp at hw
        · exact e4 ⟨w, hw⟩

theorem stands_toStage {gt : Nat → Option (List Char)} {x : Nat × Operation} {g : Stage} (h : Stands gt x g) :
    toStage gt x = some g := by
  cases h with
  | search i p h => show (gt i).map _ = _; rw [h]; rfl
  | insert => rfl
  | replace => rfl
  | delete => rfl

/-- C96. A file that describes the dataset with a number of points and numbered stages, in any order, loads as the runbook
of these stages in the order of their numbers, provided it is consistent. -/
theorem C96_loads (file m : List (Yaml × Yaml)) (dataset : String) (gt : Nat → Option (List Char)) (p : Nat)
    (items : List (Option (Nat × Operation))) (hf : Has file dataset (.map m)) (hl : List.Forall₂ (Line p) m items)
    (hp : p < 2 ^ 63) (hmax : ∃ v, (Yaml.str "max_pts", v) ∈ m) :
    ∃ sorted, sorted.Perm items.reduceOption ∧ sorted.Pairwise (fun a b => a.1 ≤ b.1) ∧
      ∀ stages, List.Forall₂ (Stands gt) sorted stages → load file dataset gt = RunBook.new stages p := by
  obtain ⟨out, e1, e2, -, e4⟩ := parseEntries_lines hp hl ⟨none, []⟩
  rw [List.nil_append] at e2
  refine ⟨sortStages items.reduceOption, sortStages_perm _, ?_, fun stages hs => ?_⟩
  · haveI : Std.Total fun a b : Nat × Operation => a.1 ≤ b.1 := ⟨fun a b => le_total a.1 b.1⟩
    haveI : IsTrans (Nat × Operation) fun a b => a.1 ≤ b.1 := ⟨fun a b c => le_trans⟩
    exact List.pairwise_insertionSort _ _
  · unfold load
    rw [lookup_has hf]
    show (match parseEntries ⟨none, []⟩ m with | none => _ | some raw => _) = _
    rw [e1]
    dsimp only
    rw [e4 hmax]
    dsimp only
    rw [e2, (collect_spec _ _ stages).2 (hs.imp fun _ _ h => stands_toStage h)]

/-! ### Cases -/

def exStage (i : Int) (fields : List (String × Int)) (op : String) : Yaml × Yaml :=
  (.num (some i), .map ((.str "operation", .str op) :: fields.map fun f => (.str f.1, .num (some f.2))))

def exFile (p : Int) (stages : List (Yaml × Yaml)) : List (Yaml × Yaml) :=
  [(.str "other", .null), (.str "d", .map ((.str "gt_url", .str "u") :: (.str "max_pts", .num (some p)) :: stages))]

def exGt (i : Nat) : Option (List Char) := if i = 2 then some ['g'] else none

/-- Three stages out of order. -/
def exGood : List (Yaml × Yaml) := exFile 3 [exStage 2 [] "search", exStage 0 [("start", 0), ("end", 5)] "insert",
  exStage 3 [("ids_start", 7), ("ids_end", 8), ("tags_start", 4), ("tags_end", 5)] "replace",
  exStage 1 [("start", 1), ("end", 3)] "delete"]

example : load exGood "d" exGt = .ok ⟨[.insert ⟨0, 5⟩, .delete ⟨1, 3⟩, .search ['g'], .replace ⟨7, 8⟩ ⟨4, 5⟩], 5, some 4⟩ := by
  decide +kernel

example : history ∅ [.insert ⟨0, 5⟩, .delete ⟨1, 3⟩, .search ['g'], .replace ⟨7, 8⟩ ⟨4, 5⟩] =
    some [{0, 1, 2, 3, 4}, {0, 3, 4}, {0, 3, 4}, {0, 3, 4}] := by decide +kernel

/-- Replacing a deleted tag. -/
example : load (exFile 3 [exStage 0 [("start", 0), ("end", 5)] "insert", exStage 1 [("start", 1), ("end", 3)] "delete",
    exStage 3 [("ids_start", 0), ("ids_end", 3), ("tags_start", 2), ("tags_end", 5)] "replace"]) "d" exGt = .err := by
  decide +kernel

/-- The hypotheses of `C96_loads` on two stages in the wrong order. -/
example : ∃ sorted : List (Nat × Operation), sorted.Perm [(1, .delete ⟨1, 3⟩), (0, .insert ⟨0, 5⟩)] ∧
    sorted.Pairwise (fun a b => a.1 ≤ b.1) ∧ ∀ stages, List.Forall₂ (Stands exGt) sorted stages →
      load (exFile 3 [exStage 1 [("start", 1), ("end", 3)] "delete", exStage 0 [("start", 0), ("end", 5)] "insert"]) "d" exGt =
        RunBook.new stages 3 := by
  refine C96_loads _ _ "d" exGt 3 [none, none, some (1, .delete ⟨1, 3⟩), some (0, .insert ⟨0, 5⟩)]
    ⟨[(.str "other", .null)], [], rfl, by simp, by simp⟩ ?_ (by decide) ⟨_, List.mem_cons_of_mem _ List.mem_cons_self⟩
  refine .cons (.url _) (.cons .points (.cons (.stage 1 _ _ (by decide) (.delete _ 1 3 ?_ ?_ ?_ (by decide) (by decide)))
    (.cons (.stage 0 _ _ (by decide) (.insert _ 0 5 ?_ ?_ ?_ (by decide) (by decide))) .nil)))
  · exact ⟨[], _, rfl, by simp, by simp⟩
  · exact ⟨[(.str "operation", .str "delete")], [(.str "end", .num (some 3))], rfl, by simp, by simp⟩
  · exact ⟨[(.str "operation", .str "delete"), (.str "start", .num (some 1))], [], rfl, by simp, by simp⟩
  · exact ⟨[], _, rfl, by simp, by simp⟩
  · exact ⟨[(.str "operation", .str "insert")], [(.str "end", .num (some 5))], rfl, by simp, by simp⟩
  · exact ⟨[(.str "operation", .str "insert"), (.str "start", .num (some 0))], [], rfl, by simp, by simp⟩

/-! ### What is not checked -/

/-- C96, refutation. The documentation says that stages must be numbered from 0 without gaps. Stages 3 and 7 load. -/
theorem C96_gaps_accepted : load (exFile 3 [exStage 7 [("start", 0), ("end", 2)] "delete",
    exStage 3 [("start", 0), ("end", 2)] "insert"]) "d" exGt = .ok ⟨[.insert ⟨0, 2⟩, .delete ⟨0, 2⟩], 3, some 1⟩ := by
  decide +kernel

/-- C96, refutation. The documentation says that a wrong number of points is corrected. One that is too large is kept,
whatever it is. -/
theorem C96_too_many_points_kept (stages : List Stage) (announced : Nat) (hne : ∀ g ∈ stages, NonEmpty g)
    (As : List (Finset Nat)) (h : history ∅ stages = some As) (hlt : peak As < announced) :
    ∃ rb, RunBook.new stages announced = .ok rb ∧ rb.maxPoints = announced ∧ rb.maxPoints ≠ peak As := by
  obtain ⟨tag, e, -⟩ := (C96_validated stages announced hne).2 As h
  refine ⟨_, e, Nat.max_eq_left (by omega), ?_⟩
  show max announced (peak As) ≠ peak As
  omega

example : load (exFile 100 [exStage 0 [("start", 0), ("end", 2)] "insert"]) "d" exGt = .ok ⟨[.insert ⟨0, 2⟩], 100, some 1⟩ := by
  decide +kernel

/-- C96, refutation. Negative numbers are accepted as huge ones: inserting from -3 to -1, at most -1 points. -/
theorem C96_negative_accepted : load (exFile (-1) [exStage 0 [("start", -3), ("end", -1)] "insert"]) "d" exGt =
    .ok ⟨[.insert ⟨2 ^ 64 - 3, 2 ^ 64 - 1⟩], 2 ^ 64 - 1, some (2 ^ 64 - 2)⟩ := by decide +kernel

/-- C96, refutation. A replacement with more tags than vectors loads. -/
theorem C96_replacement_lengths : load (exFile 3 [exStage 0 [("start", 0), ("end", 2)] "insert",
    exStage 1 [("ids_start", 5), ("ids_end", 6), ("tags_start", 0), ("tags_end", 2)] "replace"]) "d" exGt =
    .ok ⟨[.insert ⟨0, 2⟩, .replace ⟨5, 6⟩ ⟨0, 2⟩], 3, some 1⟩ := by decide +kernel

/-! ### Ground truth files -/

namespace Spec

/-- The name of a ground truth file of a stage: `step<stage>.gt` and digits. -/
def IsTruthFile (stage : Nat) (f : List Char) : Prop :=
  ∃ ds : List Char, (∀ c ∈ ds, '0' ≤ c ∧ c ≤ '9') ∧
    f = ['s', 't', 'e', 'p'] ++ Verif.Record.dec stage ++ ['.', 'g', 't'] ++ ds

end Spec

open Verif.Record (dec)

theorem isDigit_iff (c : Char) : isDigit c = true ↔ '0' ≤ c ∧ c ≤ '9' := by
  unfold isDigit
  rw [decide_eq_true_eq, Char.le_def, Char.le_def, UInt32.le_iff_toNat_le, UInt32.le_iff_toNat_le]
  exact Iff.rfl

theorem matches_iff (stage : Nat) (f : List Char) : matchesStage stage f = true ↔ IsTruthFile stage f := by
  have hp : groundtruthName stage "gt".toList = ['s', 't', 'e', 'p'] ++ dec stage ++ ['.', 'g', 't'] := by
    unfold groundtruthName
    rfl
  unfold matchesStage
  rw [hp, Bool.and_eq_true, List.isPrefixOf_iff_prefix, List.all_eq_true]
  constructor
  · rintro ⟨⟨ds, rfl⟩, h⟩
    rw [List.drop_left] at h
    exact ⟨ds, fun c hc => (isDigit_iff c).1 (h c hc), rfl⟩
  · rintro ⟨ds, h, rfl⟩
    refine ⟨⟨ds, rfl⟩, ?_⟩
    rw [List.drop_left]
    exact fun c hc => (isDigit_iff c).2 (h c hc)

/-- C96. A search stage gets the only file of the directory that is named after it; none or several are an error. -/
theorem C96_groundtruth (files : List (List Char)) (stage : Nat) (f : List Char) :
    findGroundtruth files stage = some f ↔ ∃ pre post, files = pre ++ f :: post ∧ IsTruthFile stage f ∧
      (∀ g ∈ pre, ¬ IsTruthFile stage g) ∧ ∀ g ∈ post, ¬ IsTruthFile stage g := by
  have key : files.filter (matchesStage stage) = [f] ↔ ∃ pre post, files = pre ++ f :: post ∧ IsTruthFile stage f ∧
      (∀ g ∈ pre, ¬ IsTruthFile stage g) ∧ ∀ g ∈ post, ¬ IsTruthFile stage g := by
    constructor
    · intro h
      induction files with
      | nil => simp at h
      | cons x xs ih =>
        by_cases hx : matchesStage stage x = true
        · rw [List.filter_cons_of_pos hx] at h
          simp only [List.cons.injEq] at h
          obtain ⟨rfl, h⟩ := h
          refine ⟨[], xs, rfl, (matches_iff _ _).1 hx, by simp, fun g hg hb => ?_⟩
          exact (List.filter_eq_nil_iff.1 h) g hg ((matches_iff _ _).2 hb)
        · rw [List.filter_cons_of_neg hx] at h
          obtain ⟨pre, post, rfl, a, b, c⟩ := ih h
          refine ⟨x :: pre, post, rfl, a, fun g hg => ?_, c⟩
          rcases List.mem_cons.1 hg with rfl | hg
          · exact fun hb => hx ((matches_iff _ _).2 hb)
          · exact b g hg
    · rintro ⟨pre, post, rfl, a, b, c⟩
      rw [List.filter_append, List.filter_cons_of_pos ((matches_iff _ _).2 a),
        List.filter_eq_nil_iff.2 (fun g hg hm => b g hg ((matches_iff _ _).1 hm)),
        List.filter_eq_nil_iff.2 (fun g hg hm => c g hg ((matches_iff _ _).1 hm))]
      rfl
  rw [← key]
  unfold findGroundtruth
  constructor
  · intro h
    split at h
    · rename_i g hg
      cases h
      exact hg
    · cases h
  · intro h
    rw [h]

theorem dec_inj {a b : Nat} (h : dec a = dec b) : a = b := by
  rw [Verif.Record.dec_eq, Verif.Record.dec_eq] at h
  have := congrArg (Verif.Record.valueOf 0)
    (Verif.Record.map_digitChar_inj (Verif.Record.decDigits_lt a) (Verif.Record.decDigits_lt b) h)
  rwa [Verif.Record.valueOf_dec, Verif.Record.valueOf_dec] at this

theorem dot_not_dec (n : Nat) : '.' ∉ dec n := by
  rw [Verif.Record.dec_eq]
  intro h
  obtain ⟨d, hd, e⟩ := List.mem_map.1 h
  exact Verif.Record.digitChar_ne (Verif.Record.decDigits_lt n d hd) '.' (by decide) e

theorem dec_digits (n : Nat) : ∀ c ∈ dec n, '0' ≤ c ∧ c ≤ '9' := by
  rw [Verif.Record.dec_eq]
  intro c hc
  obtain ⟨d, hd, rfl⟩ := List.mem_map.1 hc
  have hd := Verif.Record.decDigits_lt n d hd
  rw [← isDigit_iff]
  unfold isDigit
  rw [decide_eq_true_eq, Verif.Record.toNat_digitChar hd]
  omega

theorem split_dot {a b : List Char} {x y : List Char} (ha : '.' ∉ a) (hb : '.' ∉ b) (h : a ++ '.' :: x = b ++ '.' :: y) :
    a = b ∧ x = y := by
  induction a generalizing b with
  | nil =>
    cases b with
    | nil => simpa using h
    | cons c b => simp only [List.nil_append, List.cons_append, List.cons.injEq] at h; exact absurd (by rw [← h.1]; simp) hb
  | cons c a ih =>
    cases b with
    | nil => simp only [List.nil_append, List.cons_append, List.cons.injEq] at h; exact absurd (by rw [h.1]; simp) ha
    | cons d b =>
      simp only [List.cons_append, List.cons.injEq] at h
      obtain ⟨e1, e2⟩ := ih (fun h => ha (List.mem_cons_of_mem _ h)) (fun h => hb (List.mem_cons_of_mem _ h)) h.2
      exact ⟨by rw [h.1, e1], e2⟩

/-- C96. A file belongs to one stage only. -/
theorem C96_groundtruth_stage (i j : Nat) (f : List Char) (hi : IsTruthFile i f) (hj : IsTruthFile j f) : i = j := by
  obtain ⟨a, -, rfl⟩ := hi
  obtain ⟨b, -, e⟩ := hj
  simp only [List.append_assoc, List.cons_append, List.nil_append, List.cons.injEq, true_and] at e
  exact dec_inj (split_dot (dot_not_dec i) (dot_not_dec j) e).1

/-- C96. The files that the ground truth tool writes for the search stages of a runbook are the ones that are found. -/
theorem C96_groundtruth_written (stages : List Nat) (hd : stages.Nodup) (k i : Nat) (hi : i ∈ stages) :
    findGroundtruth (stages.map fun s => groundtruthName s ("gt".toList ++ dec k)) i =
      some (groundtruthName i ("gt".toList ++ dec k)) := by
  have hname : ∀ s, IsTruthFile s (groundtruthName s ("gt".toList ++ dec k)) := by
    intro s
    refine ⟨dec k, dec_digits k, ?_⟩
    unfold groundtruthName
    simp
  rw [C96_groundtruth]
  obtain ⟨pre, post, rfl⟩ := List.append_of_mem hi
  have hnd := List.nodup_append.1 hd
  refine ⟨_, _, by rw [List.map_append, List.map_cons], hname i, ?_, ?_⟩
  · intro g hg hb
    obtain ⟨s, hs, rfl⟩ := List.mem_map.1 hg
    exact hnd.2.2 s hs i List.mem_cons_self (C96_groundtruth_stage s i _ (hname s) hb)
  · intro g hg hb
    obtain ⟨s, hs, rfl⟩ := List.mem_map.1 hg
    have := C96_groundtruth_stage s i _ (hname s) hb
    subst this
    exact (List.nodup_cons.1 hnd.2.1).1 hs

example : findGroundtruth ([1, 11].map fun s => groundtruthName s ("gt".toList ++ dec 10)) 1 =
    some (groundtruthName 1 ("gt".toList ++ dec 10)) := C96_groundtruth_written [1, 11] (by decide) 10 1 (by decide)

end Verif.Runbook
