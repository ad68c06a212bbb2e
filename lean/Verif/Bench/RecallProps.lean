import Verif.Bench.RecallModel
import Mathlib.Data.Finset.Card
import Mathlib.Data.Finset.Dedup
import Mathlib.Algebra.Order.Field.Rat
import Mathlib.Algebra.Order.Field.Basic
import Mathlib.Algebra.BigOperators.Group.List.Basic
import Mathlib.Tactic.Ring
import Mathlib.Tactic.FieldSimp
/-
C54: recall is the mean over the scored queries of the fraction of the top-k truth that was found.
-/
namespace Verif.Bench

section
variable {D : Type} (deq : D → D → Bool)

/-! ### Specification -/

/-- `g` belongs to the truth of a row: it is among the first `k`, or it follows them and every distance from position
`k` up to its own equals the distance at position `k - 1`. -/
def InTruth (k : Nat) (gt : List Nat) (ds : Option (List D)) (g : Nat) : Prop :=
  ∃ j : Nat, gt[j]? = some g ∧ (j < k ∨ ∃ l last, ds = some l ∧ l[k - 1]? = some last ∧
    ∀ i : Nat, k ≤ i → i ≤ j → ∃ d, l[i]? = some d ∧ deq d last = true)

open Classical in
/-- The recall of one query: the number of distinct truths among the first `n` results, at most `k`, over `k`. -/
noncomputable def rowRecall (k n : Nat) (row : List Nat × List Nat × Option (List D)) : Rat :=
  (min ((row.2.1.take n).toFinset.filter (fun g => InTruth deq k row.1 row.2.2 g)).card k : Nat) / (k : Rat)

/-- The queries that are scored: those with some truth. -/
def scored (kk : Nat) (rows : List (List Nat × List Nat × Option (List D))) :=
  rows.filter (fun r => decide (0 < min r.1.length kk))

/-! ### Lemmas -/

theorem mem_insert' {g a : Nat} {l : List Nat} : a ∈ l.insert g ↔ a = g ∨ a ∈ l := List.mem_insert_iff

theorem tieLoop_mem (last : D) (l : List (D × Nat)) (acc : List Nat) (g : Nat) :
    g ∈ tieLoop deq last l acc ↔ g ∈ acc ∨ ∃ (j : Nat) (d : D), l[j]? = some (d, g) ∧
      ∀ i : Nat, i ≤ j → ∃ p : D × Nat, l[i]? = some p ∧ deq p.1 last = true := by
  induction l generalizing acc with
  | nil => simp [tieLoop]
  | cons p rest ih =>
    obtain ⟨d0, g0⟩ := p
    rw [tieLoop]
    split
    · rename_i hd
      rw [ih, mem_insert']
      constructor
      · rintro ((rfl | h) | ⟨j, d, h1, h2⟩)
        · refine Or.inr ⟨0, d0, rfl, fun i hi => ⟨(d0, g), ?_, hd⟩⟩
          obtain rfl : i = 0 := by omega
          rfl
        · exact Or.inl h
        · refine Or.inr ⟨j + 1, d, by simpa using h1, fun i hi => ?_⟩
          cases i with
          | zero => exact ⟨(d0, g0), rfl, hd⟩
          | succ i => simpa using h2 i (by omega)
      · rintro (h | ⟨j, d, h1, h2⟩)
        · exact Or.inl (Or.inr h)
        · cases j with
          | zero =>
            simp only [List.getElem?_cons_zero, Option.some.injEq, Prod.mk.injEq] at h1
            exact Or.inl (Or.inl h1.2.symm)
          | succ j =>
            exact Or.inr ⟨j, d, by simpa using h1, fun i hi => by simpa using h2 (i + 1) (by omega)⟩
    · rename_i hd
      constructor
      · exact Or.inl
      · rintro (h | ⟨j, d, h1, h2⟩)
        · exact h
        · obtain ⟨p, hp, hq⟩ := h2 0 (by omega)
          simp only [List.getElem?_cons_zero, Option.some.injEq] at hp
          subst hp
          exact absurd hq hd

theorem tieLoop_nodup (last : D) (l : List (D × Nat)) (acc : List Nat) (h : acc.Nodup) : (tieLoop deq last l acc).Nodup := by
  induction l generalizing acc with
  | nil => exact h
  | cons p rest ih =>
    obtain ⟨d0, g0⟩ := p
    rw [tieLoop]
    split
    · exact ih _ h.insert
    · exact h

theorem rowTruth_spec {k : Nat} {gt : List Nat} {ds : Option (List D)} (hk : 0 < k) (hkl : k ≤ gt.length)
    (hds : ∀ l, ds = some l → l.length = gt.length) :
    ∃ t, rowTruth deq k gt ds = some t ∧ t.Nodup ∧ ∀ g, g ∈ t ↔ InTruth deq k gt ds g := by
  have htake : ∀ g, g ∈ (gt.take k).dedup ↔ ∃ j : Nat, gt[j]? = some g ∧ j < k := by
    intro g
    rw [List.mem_dedup, List.mem_iff_getElem?]
    constructor
    · rintro ⟨j, hj⟩
      have : j < k := by
        by_contra h
        rw [List.getElem?_eq_none (by rw [List.length_take]; omega)] at hj
        simp at hj
      rw [List.getElem?_take_of_lt this] at hj
      exact ⟨j, hj, this⟩
    · rintro ⟨j, hj, hlt⟩
      exact ⟨j, by rw [List.getElem?_take_of_lt hlt]; exact hj⟩
  cases ds with
  | none =>
    refine ⟨_, rfl, List.nodup_dedup _, fun g => ?_⟩
    rw [htake, InTruth]
    simp
  | some l =>
    have hl := hds l rfl
    have hlast : ∃ last, l[k - 1]? = some last := ⟨_, List.getElem?_eq_getElem (show k - 1 < l.length by omega)⟩
    obtain ⟨last, hlast⟩ := hlast
    refine ⟨tieLoop deq last ((l.zip gt).drop k) (gt.take k).dedup, by simp [rowTruth, hlast],
      tieLoop_nodup _ _ _ _ (List.nodup_dedup _), fun g => ?_⟩
    rw [tieLoop_mem, htake, InTruth]
    simp only [List.getElem?_drop]
    have hzip : ∀ (i : Nat) (p : D × Nat), (l.zip gt)[i]? = some p ↔ l[i]? = some p.1 ∧ gt[i]? = some p.2 := by
      intro i p
      rw [List.getElem?_zip_eq_some]
    constructor
    · rintro (⟨j, hj, hlt⟩ | ⟨j, d, h1, h2⟩)
      · exact ⟨j, hj, Or.inl hlt⟩
      · refine ⟨k + j, ((hzip _ _).1 h1).2, Or.inr ⟨l, last, rfl, hlast, ?_⟩⟩
        intro i hi1 hi2
        obtain ⟨p, hp, hq⟩ := h2 (i - k) (by omega)
        rw [show k + (i - k) = i by omega] at hp
        exact ⟨p.1, ((hzip _ _).1 hp).1, hq⟩
    · rintro ⟨j, hj, hlt | ⟨l', last', h1, h2, h3⟩⟩
      · exact Or.inl ⟨j, hj, hlt⟩
      · simp only [Option.some.injEq] at h1
        subst h1
        rw [hlast] at h2
        simp only [Option.some.injEq] at h2
        subst h2
        by_cases hjk : j < k
        · exact Or.inl ⟨j, hj, hjk⟩
        · right
          obtain ⟨d, hd, _⟩ := h3 j (by omega) (Nat.le_refl _)
          refine ⟨j - k, d, ?_, ?_⟩
          · rw [show k + (j - k) = j by omega]
            exact (hzip j (d, g)).2 ⟨hd, hj⟩
          · intro i hi
            obtain ⟨d', hd', hq⟩ := h3 (k + i) (by omega) (by omega)
            have hlt : k + i < gt.length := by
              have := (List.getElem?_eq_some_iff.1 hj).1
              omega
            exact ⟨(d', gt[k + i]), (hzip _ _).2 ⟨hd', List.getElem?_eq_getElem hlt⟩, hq⟩

open Classical in
theorem rowHits_spec {k n : Nat} {row : List Nat × List Nat × Option (List D)} {t : List Nat} (hn : t.Nodup)
    (ht : ∀ g, g ∈ t ↔ InTruth deq k row.1 row.2.2 g) :
    rowHits k n t row.2.1 =
      min ((row.2.1.take n).toFinset.filter (fun g => InTruth deq k row.1 row.2.2 g)).card k := by
  unfold rowHits
  congr 1
  rw [← List.toFinset_card_of_nodup (List.Nodup.filter _ hn)]
  congr 1
  ext g
  simp only [List.mem_toFinset, List.mem_filter, Finset.mem_filter, ht, List.contains_iff_mem]
  tauto

/-- Sum of `h / (k * c)`. -/
def total (c : Rat) (m : List (Nat × Nat)) : Rat := (m.map (fun p => (p.2 : Rat) / ((p.1 : Rat) * c))).sum

theorem total_addHits (c : Rat) (k r : Nat) (m : List (Nat × Nat)) :
    total c (addHits k r m) = total c m + (r : Rat) / ((k : Rat) * c) := by
  induction m with
  | nil => simp [addHits, total]
  | cons p rest ih =>
    obtain ⟨k', h⟩ := p
    rw [addHits]
    unfold total at ih ⊢
    split
    · rename_i e
      subst e
      simp only [List.map_cons, List.sum_cons, Nat.cast_add, add_div]
      ring
    · split
      · simp only [List.map_cons, List.sum_cons]
        ring
      · simp only [List.map_cons, List.sum_cons, ih]
        ring

theorem knnLoop_spec (kk n : Nat) (rows : List (List Nat × List Nat × Option (List D)))
    (hrows : ∀ r ∈ rows, ∀ l, r.2.2 = some l → l.length = r.1.length) (m : List (Nat × Nat)) (cnt : Nat) :
    ∃ m', knnLoop deq kk n rows m cnt = some (m', cnt + (scored kk rows).length) ∧
      ∀ c : Rat, total c m' = total c m +
        ((scored kk rows).map (fun r => rowRecall deq (min r.1.length kk) n r / c)).sum := by
  induction rows generalizing m cnt with
  | nil => exact ⟨m, rfl, fun c => by simp [scored]⟩
  | cons row rest ih =>
    obtain ⟨gt, result, ds⟩ := row
    have hrest := fun r hr => hrows r (List.mem_cons_of_mem _ hr)
    rw [knnLoop]
    by_cases h0 : min gt.length kk = 0
    · rw [if_pos h0]
      obtain ⟨m', h1, h2⟩ := ih hrest m cnt
      have : scored kk ((gt, result, ds) :: rest) = scored kk rest := by
        unfold scored
        rw [List.filter_cons, if_neg (by simp only [decide_eq_true_eq]; omega)]
      rw [this]
      exact ⟨m', h1, h2⟩
    · rw [if_neg h0]
      obtain ⟨t, ht1, ht2, ht3⟩ := rowTruth_spec deq (k := min gt.length kk) (gt := gt) (ds := ds) (by omega)
        (Nat.min_le_left _ _) (fun l hl => hrows (gt, result, ds) (by simp) l hl)
      simp only [ht1]
      obtain ⟨m', h1, h2⟩ := ih hrest (addHits (min gt.length kk) (rowHits (min gt.length kk) n t result) m) (cnt + 1)
      have : scored kk ((gt, result, ds) :: rest) = (gt, result, ds) :: scored kk rest := by
        unfold scored
        rw [List.filter_cons, if_pos (by simp only [decide_eq_true_eq]; omega)]
      refine ⟨m', ?_, ?_⟩
      · rw [h1, this, List.length_cons, show cnt + 1 + (scored kk rest).length = cnt + ((scored kk rest).length + 1) by omega]
      · intro c
        rw [h2 c, total_addHits, this, List.map_cons, List.sum_cons]
        have := rowHits_spec deq (k := min gt.length kk) (n := n) (row := (gt, result, ds)) ht2 ht3
        simp only at this
        rw [this]
        unfold rowRecall
        rw [div_div]
        ring

theorem pairRows_len {gs rs : List (List Nat)} {o : Option (List (List D))}
    (h3 : ∀ l, o = some l → ∀ (i : Nat) (d : List D) (g : List Nat), l[i]? = some d → gs[i]? = some g → d.length = g.length) :
    ∀ r ∈ pairRows gs rs o, ∀ l, r.2.2 = some l → l.length = r.1.length := by
  induction gs generalizing rs o with
  | nil => simp [pairRows]
  | cons g gs ih =>
    cases rs with
    | nil => simp [pairRows]
    | cons r rs =>
      cases o with
      | none =>
        intro x hx l hl
        rw [pairRows] at hx
        rcases List.mem_cons.1 hx with rfl | hx
        · simp at hl
        · exact ih (by simp) x hx l hl
      | some ds =>
        cases ds with
        | nil => simp [pairRows]
        | cons d ds =>
          intro x hx l hl
          rw [pairRows] at hx
          rcases List.mem_cons.1 hx with rfl | hx
          · simp only [Option.some.injEq] at hl
            subst hl
            exact h3 _ rfl 0 d g rfl rfl
          · refine ih ?_ x hx l hl
            intro l' hl' i d' g' h1 h2
            simp only [Option.some.injEq] at hl'
            subst hl'
            exact h3 _ rfl (i + 1) d' g' (by simpa using h1) (by simpa using h2)

theorem rowRecall_range (k n : Nat) (hk : 0 < k) (row : List Nat × List Nat × Option (List D)) :
    0 ≤ rowRecall deq k n row ∧ rowRecall deq k n row ≤ 1 := by
  have hk' : (0 : Rat) < k := by exact_mod_cast hk
  unfold rowRecall
  refine ⟨div_nonneg (Nat.cast_nonneg _) hk'.le, ?_⟩
  rw [div_le_one hk']
  exact_mod_cast Nat.min_le_right _ _

theorem sum_range {α : Type} (l : List α) (f : α → Rat) (h : ∀ x ∈ l, 0 ≤ f x ∧ f x ≤ 1) :
    0 ≤ (l.map f).sum ∧ (l.map f).sum ≤ (l.length : Rat) := by
  induction l with
  | nil => simp
  | cons x xs ih =>
    have h1 := ih (fun y hy => h y (List.mem_cons_of_mem _ hy))
    have h2 := h x (by simp)
    simp only [List.map_cons, List.sum_cons, List.length_cons, Nat.cast_add, Nat.cast_one]
    refine ⟨add_nonneg h2.1 h1.1, ?_⟩
    rw [add_comm]
    exact add_le_add h1.2 h2.2

theorem sum_div {α : Type} (l : List α) (f : α → Rat) (c : Rat) : (l.map (fun x => f x / c)).sum = (l.map f).sum / c := by
  induction l with
  | nil => simp
  | cons x xs ih => simp only [List.map_cons, List.sum_cons, ih, add_div]

/-! ### Properties -/

/-- **C54**.  For every ground truth, with or without distances, every result set, `k`, `n` and mode: the computation
does not panic, and when it reports an average, it is the mean over the queries that have some truth of their recall
(`rowRecall`; zero when there is no such query), and lies between 0 and 1. -/
theorem C54_recall (gt : List (List Nat)) (dists : Option (List (List D))) (results : List (List Nat)) (kk n : Nat)
    (mode : Mode) :
    ∃ out, knn deq gt dists results kk n mode = some out ∧
      ∀ avg, out = .ok avg →
        let rows := scored kk (pairRows gt results dists)
        avg * (rows.length : Rat) = (rows.map (fun r => rowRecall deq (min r.1.length kk) n r)).sum ∧
        (rows.length = 0 → avg = 0) ∧ 0 ≤ avg ∧ avg ≤ 1 := by
  unfold knn
  split
  · exact ⟨_, rfl, by simp⟩
  split
  · exact ⟨_, rfl, by simp⟩
  split
  · exact ⟨_, rfl, by simp⟩
  split
  · exact ⟨_, rfl, by simp⟩
  split
  · exact ⟨_, rfl, by simp⟩
  rename_i hk hr hm hd hl
  have hlen : ∀ l, dists = some l → ∀ (i : Nat) (d : List D) (g : List Nat), l[i]? = some d → gt[i]? = some g → d.length = g.length := by
    intro l hl' i d g h1 h2
    subst hl'
    simp only [Option.any_some, Bool.not_eq_true, List.any_eq_false] at hl
    have hz : (l.zip gt)[i]? = some (d, g) := by rw [List.getElem?_zip_eq_some]; exact ⟨h1, h2⟩
    have := hl (d, g) (List.mem_of_getElem? hz)
    simp only [bne_eq_false_iff_eq, bne_iff_ne, ne_eq, Decidable.not_not] at this
    exact this.symm
  obtain ⟨m', h1, h2⟩ := knnLoop_spec deq kk n (pairRows gt results dists) (pairRows_len hlen) [] 0
  rw [h1]
  refine ⟨_, rfl, ?_⟩
  rintro avg h
  simp only [Except.ok.injEq] at h
  dsimp only
  rw [Nat.zero_add] at h
  have hall : ∀ r ∈ scored kk (pairRows gt results dists),
      0 ≤ rowRecall deq (min r.1.length kk) n r ∧ rowRecall deq (min r.1.length kk) n r ≤ 1 := by
    intro r hr
    have := (List.mem_filter.1 hr).2
    simp only [decide_eq_true_eq] at this
    exact rowRecall_range deq _ n this r
  have hsum := sum_range _ _ hall
  by_cases h0 : (scored kk (pairRows gt results dists)).length = 0
  · rw [average, if_pos h0] at h
    subst h
    refine ⟨?_, fun _ => rfl, le_refl _, by decide⟩
    rw [List.length_eq_zero_iff.1 h0]
    simp
  · rw [average, if_neg h0] at h
    have hc : (0 : Rat) < ((scored kk (pairRows gt results dists)).length : Rat) := by exact_mod_cast Nat.pos_of_ne_zero h0
    have h3 := h2 ((scored kk (pairRows gt results dists)).length : Rat)
    rw [sum_div] at h3
    have : avg = ((scored kk (pairRows gt results dists)).map
        (fun r => rowRecall deq (min r.1.length kk) n r)).sum / ((scored kk (pairRows gt results dists)).length : Rat) := by
      rw [← h]
      show total _ m' = _
      rw [h3]
      simp [total]
    refine ⟨?_, fun h => absurd h h0, ?_, ?_⟩
    · rw [this, div_mul_cancel₀ _ (ne_of_gt hc)]
    · rw [this]; exact div_nonneg hsum.1 hc.le
    · rw [this, div_le_one hc]; exact hsum.2

/-- **C54**: the documented errors, and no others: an average is reported exactly when `k ≤ n`, the shapes agree, and
(in fixed mode) every query has `k` truths. -/
theorem C54_recall_reported (gt : List (List Nat)) (dists : Option (List (List D))) (results : List (List Nat))
    (kk n : Nat) (mode : Mode) :
    (∃ avg, knn deq gt dists results kk n mode = some (.ok avg)) ↔
      kk ≤ n ∧ results.length = gt.length ∧ (mode = .fixed → ∀ g ∈ gt, kk ≤ g.length) ∧
      (∀ ds, dists = some ds → ds.length = gt.length ∧
        ∀ (i : Nat) (d : List D) (g : List Nat), ds[i]? = some d → gt[i]? = some g → d.length = g.length) := by
  constructor
  · rintro ⟨avg, h⟩
    unfold knn at h
    split at h
    · simp at h
    split at h
    · simp at h
    split at h
    · simp at h
    split at h
    · simp at h
    split at h
    · simp at h
    rename_i hk hr hm hd hl
    refine ⟨by omega, by simpa using hr, ?_, ?_⟩
    · intro hf g hg
      simp only [hf, List.any_eq_true, decide_eq_true_eq, true_and, not_exists, not_and, not_lt] at hm
      exact hm g hg
    · rintro ds rfl
      simp only [Option.any_some, bne_iff_ne, ne_eq, Decidable.not_not] at hd
      refine ⟨by rw [hd]; simpa using hr, ?_⟩
      intro i d g h1 h2
      simp only [Option.any_some, Bool.not_eq_true, List.any_eq_false] at hl
      have hz : (ds.zip gt)[i]? = some (d, g) := by rw [List.getElem?_zip_eq_some]; exact ⟨h1, h2⟩
      have := hl (d, g) (List.mem_of_getElem? hz)
      simp only [bne_eq_false_iff_eq, bne_iff_ne, ne_eq, Decidable.not_not] at this
      exact this.symm
  · rintro ⟨h1, h2, h3, h4⟩
    obtain ⟨m', e1, _⟩ := knnLoop_spec deq kk n (pairRows gt results dists)
      (pairRows_len (fun l hl => (h4 l hl).2)) [] 0
    refine ⟨average m' (0 + (scored kk (pairRows gt results dists)).length), ?_⟩
    unfold knn
    rw [if_neg (by omega), if_neg (by omega), if_neg, if_neg, if_neg, e1]
    · cases dists with
      | none => simp
      | some ds =>
        simp only [Option.any_some, Bool.not_eq_true, List.any_eq_false]
        intro p hp
        obtain ⟨i, hi⟩ := List.mem_iff_getElem?.1 hp
        rw [List.getElem?_zip_eq_some] at hi
        simp only [bne_eq_false_iff_eq]
        exact ((h4 ds rfl).2 i p.1 p.2 hi.1 hi.2).symm
    · cases dists with
      | none => simp
      | some ds => simp [(h4 ds rfl).1, h2]
    · rintro ⟨hf, ha⟩
      obtain ⟨g, hg, hlt⟩ := List.any_eq_true.1 ha
      have := h3 hf g hg
      simp only [decide_eq_true_eq] at hlt
      omega

end

/-- Two queries, one with a tie at the end of the truth and one without truth: `(2 / 2 + 1 / 1) / 2`. -/
example : knn (fun a b : Nat => a == b) [[1, 2, 3], [], [4]] (some [[5, 6, 6], [], [7]]) [[3, 1], [9], [4, 5]] 2 2
    .flexible = some (.ok 1) := by decide +kernel

example : knn (fun a b : Nat => a == b) [[1, 2, 3], [], [4, 5]] none [[3, 1], [9], [4, 6]] 2 2 .flexible =
    some (.ok (1 / 2)) := by decide +kernel

/-! ### Average precision -/

theorem apLoop_eq (l : List (List Nat × List Nat)) (a b : Nat) :
    apLoop l a b = (a + (l.map (fun p => (p.2.filter (fun g => p.1.contains g)).length)).sum,
      b + (l.map (fun p => p.2.length)).sum) := by
  induction l generalizing a b with
  | nil => rfl
  | cons p rest ih =>
    obtain ⟨r, g⟩ := p
    rw [apLoop, ih]
    simp only [List.map_cons, List.sum_cons, Nat.add_assoc]

theorem sum_le_sum (l : List (List Nat × List Nat)) :
    (l.map (fun p => (p.2.filter (fun g => p.1.contains g)).length)).sum ≤ (l.map (fun p => p.2.length)).sum := by
  induction l with
  | nil => simp
  | cons p rest ih =>
    simp only [List.map_cons, List.sum_cons]
    exact Nat.add_le_add (List.length_filter_le _ _) ih

theorem sum_zero_iff {l : List Nat} : l.sum = 0 ↔ ∀ x ∈ l, x = 0 := by
  induction l with
  | nil => simp
  | cons x xs ih => simp [ih]

/-- **C54**, average precision: with as many result rows as truth rows the reported value times the total number of
truths is the number of truths found, and lies between 0 and 1; it is not a number exactly when there is no truth at
all. -/
theorem C54_average_precision (results gt : List (List Nat)) (h : results.length = gt.length) :
    ∃ v, averagePrecision results gt = .ok v ∧ (v = none ↔ ∀ g ∈ gt, g = []) ∧
      ∀ p, v = some p → 0 ≤ p ∧ p ≤ 1 ∧
        p * ((gt.map List.length).sum : Nat) =
          (((results.zip gt).map (fun q => (q.2.filter (fun g => decide (g ∈ q.1))).length)).sum : Nat) := by
  have htot : ((results.zip gt).map (fun p => p.2.length)).sum = (gt.map List.length).sum := by
    congr 1
    have : (results.zip gt).map (fun p => p.2.length) = ((results.zip gt).map Prod.snd).map List.length := by
      rw [List.map_map]; rfl
    rw [this, List.map_snd_zip (by omega)]
  unfold averagePrecision
  rw [if_neg (by omega)]
  refine ⟨_, rfl, ?_, ?_⟩
  · rw [apLoop_eq]
    simp only [Nat.zero_add, htot]
    constructor
    · intro hv g hg
      by_cases h0 : (gt.map List.length).sum = 0
      · rw [sum_zero_iff] at h0
        exact List.length_eq_zero_iff.1 (h0 _ (List.mem_map.2 ⟨g, hg, rfl⟩))
      · simp [h0] at hv
    · intro hall
      rw [if_pos]
      rw [sum_zero_iff]
      intro x hx
      obtain ⟨g, hg, rfl⟩ := List.mem_map.1 hx
      rw [hall g hg]; rfl
  · intro p hp
    rw [apLoop_eq] at hp
    simp only [Nat.zero_add, htot] at hp
    split at hp
    · simp at hp
    · rename_i h0
      simp only [Option.some.injEq] at hp
      have hc : (0 : Rat) < ((gt.map List.length).sum : Nat) := by exact_mod_cast Nat.pos_of_ne_zero h0
      subst hp
      refine ⟨div_nonneg (Nat.cast_nonneg _) hc.le, ?_, ?_⟩
      · rw [div_le_one hc]
        have := sum_le_sum (results.zip gt)
        rw [htot] at this
        exact_mod_cast this
      · rw [div_mul_cancel₀ _ (ne_of_gt hc)]
        congr 3
        funext q
        congr 2
        funext g
        simp

example : averagePrecision [[1, 2], [3]] [[2, 7], [3]] = .ok (some (2 / 3)) := by decide +kernel

/-- No truth at all: `0 / 0`. -/
example : averagePrecision [[1], []] [[], []] = .ok none := by decide +kernel

end Verif.Bench
