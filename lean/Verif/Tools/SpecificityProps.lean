import Verif.Tools.SpecificityModel
import Verif.Tools.BitmapProps
import Mathlib.Algebra.Order.BigOperators.Group.List
import Mathlib.Tactic.Linarith
import Mathlib.Tactic.FieldSimp
import Mathlib.Tactic.Positivity
import Mathlib.Algebra.Order.Field.Basic
import Mathlib.Algebra.Order.Ring.Rat

/-!
# C137: the specificities of filters
-/

namespace Verif.Tools

open Verif.Label

/-! ## Lemmas -/

theorem specificities_ok {docs : List (Nat × Json)} {queries : List (Nat × Expr)} {lines : List Rat} {st : Option SpecStats}
    (h : specificities docs queries = .ok lines st) : docs ≠ [] ∧ ∃ bms, computeBitmaps docs queries = .ok bms ∧
      lines = bms.map (specificity docs.length) ∧ st = specStats lines := by
  unfold specificities at h
  by_cases hd : docs.length = 0
  · rw [if_pos hd] at h
    cases h
  · rw [if_neg hd] at h
    cases hc : computeBitmaps docs queries with
    | err => rw [hc] at h; cases h
    | panic => rw [hc] at h; cases h
    | ok bms =>
      rw [hc] at h
      simp only [SpecOutcome.ok.injEq] at h
      refine ⟨fun e => hd (by simp [e]), bms, rfl, h.1.symm, ?_⟩
      rw [← h.2, ← h.1]

theorem size_eq (docs sel : List (Nat × Json)) (b : List Nat) (hn : (docs.map (·.1)).Nodup) (hs : sel.Sublist docs)
    (hb : ∀ id, id ∈ b ↔ id ∈ sel.map (·.1)) : b.dedup.length = sel.length := by
  have hp : b.dedup.Perm (sel.map (·.1)) :=
    (List.perm_ext_iff_of_nodup (List.nodup_dedup b) (hn.sublist (hs.map _))).2 (fun id => by rw [List.mem_dedup, hb])
  rw [hp.length_eq, List.length_map]

/-! ## The values -/

/-- C137: there is a value for each query, in order: the number of documents that satisfy its filter over the number of
documents. -/
theorem C137_values (docs : List (Nat × Json)) (queries : List (Nat × Expr)) (lines : List Rat) (st : Option SpecStats)
    (h : specificities docs queries = .ok lines st) (hn : (docs.map (·.1)).Nodup) :
    ∃ flat, flattenAll docs = some flat ∧ lines.length = queries.length ∧
      ∀ (j : Nat) (q : Nat × Expr) (r : Rat), queries[j]? = some q → lines[j]? = some r →
        ∃ sel : List (Nat × Json), sel.Sublist docs ∧
          (∀ d ∈ docs, d ∈ sel ↔ ∃ attrs, flattenD [] d.2 = some attrs ∧ Sat flat attrs q.2) ∧
          r = (sel.length : Rat) / (docs.length : Rat) ∧ 0 ≤ r ∧ r ≤ 1 := by
  obtain ⟨hd, bms, hc, hl, -⟩ := specificities_ok h
  obtain ⟨flat, hf, hlen, hb⟩ := C91_bitmaps docs queries bms hc hn
  refine ⟨flat, hf, by rw [hl, List.length_map, hlen], fun j q r hq hr => ?_⟩
  rw [hl, List.getElem?_map, Option.map_eq_some_iff] at hr
  obtain ⟨b, hbj, rfl⟩ := hr
  obtain ⟨P, hP⟩ : ∃ P : Nat × Json → Bool, ∀ d, P d = true ↔ ∃ attrs, flattenD [] d.2 = some attrs ∧ Sat flat attrs q.2 :=
    ⟨fun d => @decide _ (Classical.propDecidable (∃ attrs, flattenD [] d.2 = some attrs ∧ Sat flat attrs q.2)),
      fun d => @decide_eq_true_iff _ (Classical.propDecidable _)⟩
  refine ⟨docs.filter P, List.filter_sublist, ?_, ?_⟩
  · intro d hd
    rw [List.mem_filter, hP]
    simp [hd]
  · have hsub : (docs.filter P).length ≤ docs.length := List.length_filter_le _ _
    have hpos : (0 : Rat) < (docs.length : Rat) := by
      have : 0 < docs.length := List.length_pos_of_ne_nil hd
      exact_mod_cast this
    have he : specificity docs.length b = ((docs.filter P).length : Rat) / (docs.length : Rat) := by
      unfold specificity
      rw [size_eq docs _ b hn List.filter_sublist]
      intro id
      rw [hb j q b hq hbj id, List.mem_map]
      constructor
      · rintro ⟨label, attrs, hm, h1, h2⟩
        exact ⟨(id, label), List.mem_filter.2 ⟨hm, (hP _).2 ⟨attrs, h1, h2⟩⟩, rfl⟩
      · rintro ⟨⟨i, label⟩, hm, rfl⟩
        rw [List.mem_filter] at hm
        obtain ⟨attrs, h1, h2⟩ := (hP _).1 hm.2
        exact ⟨label, attrs, hm.1, h1, h2⟩
    refine ⟨he, ?_, ?_⟩
    · rw [he]
      positivity
    · rw [he, div_le_one hpos]
      exact_mod_cast hsub

/-- C137 (the part for filters that both evaluations of C91 read in one way): the value is the share of the documents on which
the filter is true. -/
theorem C137_share_partial (docs : List (Nat × Json)) (queries : List (Nat × Expr)) (lines : List Rat) (st : Option SpecStats)
    (h : specificities docs queries = .ok lines st) (hn : (docs.map (·.1)).Nodup) (hl : ∀ d ∈ docs, LabelOk d.2)
    (j : Nat) (q : Nat × Expr) (r : Rat) (hq : queries[j]? = some q) (hr : lines[j]? = some r)
    (hp : ∀ d ∈ docs, Plain d.2 q.2) :
    r = ((docs.filter (fun d => evalExpr d.2 q.2)).length : Rat) / (docs.length : Rat) := by
  obtain ⟨-, bms, hc, hlines, -⟩ := specificities_ok h
  rw [hlines, List.getElem?_map, Option.map_eq_some_iff] at hr
  obtain ⟨b, hbj, rfl⟩ := hr
  unfold specificity
  rw [size_eq docs _ b hn List.filter_sublist]
  intro id
  rw [C91_agrees_partial docs queries bms hc hn hl j q b hq hbj hp id, List.mem_map]
  constructor
  · rintro ⟨label, hm, he⟩
    exact ⟨(id, label), List.mem_filter.2 ⟨hm, he⟩, rfl⟩
  · rintro ⟨⟨i, label⟩, hm, rfl⟩
    rw [List.mem_filter] at hm
    exact ⟨label, hm.1, hm.2⟩

/-- C137: the program exits with an error exactly if there are no documents or the bitmaps fail. -/
theorem C137_errors (docs : List (Nat × Json)) (queries : List (Nat × Expr)) :
    specificities docs queries = .exit ↔ docs = [] ∨ computeBitmaps docs queries = .err := by
  unfold specificities
  by_cases hd : docs.length = 0
  · rw [if_pos hd]
    simp [List.length_eq_zero_iff.1 hd]
  · rw [if_neg hd]
    have hne : docs ≠ [] := fun e => hd (by simp [e])
    cases hc : computeBitmaps docs queries <;> simp [hne]

/-! ## The statistics -/

theorem getD_lt (s : List Rat) (k : Nat) (h : k < s.length) : s.getD k 0 = s[k] := by
  simp [List.getD, h]

theorem specSort_perm (values : List Rat) : (specSort values).Perm values := List.perm_insertionSort _ values

theorem specSort_sorted (values : List Rat) : (specSort values).Pairwise (· ≤ ·) := List.pairwise_insertionSort _ values

theorem sorted_counts (s : List Rat) (h : s.Pairwise (· ≤ ·)) (k : Nat) (hk : k < s.length) :
    k + 1 ≤ s.countP (fun v => v ≤ s[k]) ∧ s.length - k ≤ s.countP (fun v => s[k] ≤ v) := by
  rw [List.pairwise_iff_getElem] at h
  constructor
  · have h1 : (s.take (k + 1)).countP (fun v => v ≤ s[k]) = (s.take (k + 1)).length := by
      rw [List.countP_eq_length]
      intro v hv
      obtain ⟨i, hi, rfl⟩ := List.mem_iff_getElem.1 hv
      rw [List.length_take] at hi
      rw [List.getElem_take]
      simp only [decide_eq_true_eq]
      rcases Nat.lt_or_ge i k with hik | hik
      · exact h i k (by omega) hk hik
      · have : i = k := by omega
        subst this
        exact le_refl _
    have h2 := (List.take_sublist (k + 1) s).countP_le (p := fun v => decide (v ≤ s[k]))
    rw [h1, List.length_take] at h2
    omega
  · have h1 : (s.drop k).countP (fun v => s[k] ≤ v) = (s.drop k).length := by
      rw [List.countP_eq_length]
      intro v hv
      obtain ⟨i, hi, rfl⟩ := List.mem_iff_getElem.1 hv
      rw [List.length_drop] at hi
      rw [List.getElem_drop]
      simp only [decide_eq_true_eq]
      rcases Nat.eq_zero_or_pos i with rfl | hik
      · simp
      · exact h k (k + i) hk (by omega) (by omega)
    have h2 := (List.drop_sublist k s).countP_le (p := fun v => decide (s[k] ≤ v))
    rw [h1, List.length_drop] at h2
    omega

/-- C137: the smallest and the largest value are the ones printed, and the average is the sum over the number. -/
theorem C137_range (values : List Rat) (hne : values ≠ []) :
    ∃ st, specStats values = some st ∧ st.min ∈ values ∧ st.max ∈ values ∧ (∀ v ∈ values, st.min ≤ v ∧ v ≤ st.max) ∧
      st.average * (values.length : Rat) = values.sum := by
  have hp := specSort_perm values
  have hs := specSort_sorted values
  have hl : (specSort values).length = values.length := hp.length_eq
  have hpos : 0 < values.length := List.length_pos_of_ne_nil hne
  unfold specStats
  rw [if_neg (by simpa using hne)]
  refine ⟨_, rfl, ?_, ?_, ?_, ?_⟩
  · simp only
    rw [getD_lt _ _ (by omega)]
    exact hp.mem_iff.1 (List.getElem_mem _)
  · simp only
    rw [getD_lt _ _ (by omega)]
    exact hp.mem_iff.1 (List.getElem_mem _)
  · intro v hv
    simp only
    rw [getD_lt _ _ (by omega), getD_lt _ _ (by omega)]
    obtain ⟨i, hi, rfl⟩ := List.mem_iff_getElem.1 (hp.mem_iff.2 hv)
    rw [List.pairwise_iff_getElem] at hs
    constructor
    · rcases Nat.eq_zero_or_pos i with rfl | h
      · exact le_refl _
      · exact hs 0 i (by omega) hi h
    · rcases Nat.lt_or_ge i ((specSort values).length - 1) with h | h
      · exact hs i _ hi (by omega) h
      · have e : i = (specSort values).length - 1 := by omega
        subst e
        exact le_refl _
  · simp only
    rw [hl, hp.sum_eq]
    have : (values.length : Rat) ≠ 0 := by exact_mod_cast hpos.ne'
    field_simp

/-- C137: the median is the middle value, or of an even number the mean of the two in the middle. -/
theorem C137_median (values : List Rat) (hne : values ≠ []) :
    ∃ st, specStats values = some st ∧
      (values.length % 2 = 1 → st.median ∈ values ∧ values.length < 2 * values.countP (fun v => v ≤ st.median) ∧
        values.length < 2 * values.countP (fun v => st.median ≤ v)) ∧
      (values.length % 2 = 0 → ∃ a b, a ∈ values ∧ b ∈ values ∧ st.median = (a + b) / 2 ∧
        values.length ≤ 2 * values.countP (fun v => v ≤ a) ∧ values.length < 2 * values.countP (fun v => a ≤ v) ∧
        values.length < 2 * values.countP (fun v => v ≤ b) ∧ values.length ≤ 2 * values.countP (fun v => b ≤ v)) := by
  have hp := specSort_perm values
  have hs := specSort_sorted values
  have hl : (specSort values).length = values.length := hp.length_eq
  have hpos : 0 < values.length := List.length_pos_of_ne_nil hne
  unfold specStats
  rw [if_neg (by simpa using hne)]
  refine ⟨_, rfl, ?_, ?_⟩
  · intro hodd
    have hm : specMedian (specSort values) = (specSort values)[(specSort values).length / 2]'(by omega) := by
      unfold specMedian
      rw [if_neg (by omega), getD_lt _ _ (by omega)]
    change specMedian (specSort values) ∈ values ∧ values.length < 2 * values.countP (fun v => v ≤ specMedian (specSort values)) ∧
      values.length < 2 * values.countP (fun v => specMedian (specSort values) ≤ v)
    rw [hm]
    obtain ⟨c1, c2⟩ := sorted_counts (specSort values) hs ((specSort values).length / 2) (by omega)
    rw [hp.countP_eq] at c1 c2
    exact ⟨hp.mem_iff.1 (List.getElem_mem _), by omega, by omega⟩
  · intro heven
    simp only [specMedian]
    rw [if_pos (by omega), getD_lt _ _ (by omega), getD_lt _ _ (by omega)]
    obtain ⟨c1, c2⟩ := sorted_counts (specSort values) hs ((specSort values).length / 2 - 1) (by omega)
    obtain ⟨d1, d2⟩ := sorted_counts (specSort values) hs ((specSort values).length / 2) (by omega)
    rw [hp.countP_eq] at c1 c2 d1 d2
    exact ⟨_, _, hp.mem_iff.1 (List.getElem_mem _), hp.mem_iff.1 (List.getElem_mem _), rfl, by omega, by omega, by omega, by omega⟩

/-- C137: the statistics are those of the values written, and there are none without queries. -/
theorem C137_printed (docs : List (Nat × Json)) (queries : List (Nat × Expr)) (lines : List Rat) (st : Option SpecStats)
    (h : specificities docs queries = .ok lines st) : st = specStats lines ∧ (st = none ↔ queries = []) := by
  obtain ⟨-, bms, hc, hl, hst⟩ := specificities_ok h
  obtain ⟨flat, maps, g, accs, -, -, -, -, h5⟩ := computeBitmaps_ok hc
  obtain ⟨hlen, -⟩ := evalAccs_get _ _ h5
  refine ⟨hst, ?_⟩
  have hlen' : lines.length = queries.length := by
    rw [hl, List.length_map]
    simpa using hlen
  rw [hst]
  unfold specStats
  by_cases he : lines.isEmpty = true
  · rw [if_pos he]
    rw [List.isEmpty_iff] at he
    rw [he] at hlen'
    simp [List.length_eq_zero_iff.1 hlen'.symm]
  · rw [if_neg he]
    simp only [reduceCtorEq, false_iff]
    rintro rfl
    exact he (by rw [List.isEmpty_iff]; exact List.length_eq_zero_iff.1 hlen')

/-! ## Concrete cases -/

/-- Filters that match two, one and one of three documents. -/
example : specificities exDocs
    [(0, .or [.cmp (lit "a.b") (.gt two), .cmp (lit "c") (.eq (.str (lit "y")))]),
     (1, .and [.cmp (lit "a.b") (.lte two), .cmp (lit "c") (.ne (.str (lit "y")))]),
     (2, .not (.cmp (lit "a.b") (.eq (.num (.pos 1)))))] =
    .ok [2/3, 1/3, 1/3] (some ⟨4/9, 1/3, 1/3, 2/3⟩) := by
  decide +kernel

example : (exDocs.map (·.1)).Nodup := by decide +kernel

example : specStats [1/2, 0, 1, 1/4] = some ⟨7/16, 3/8, 0, 1⟩ := by decide +kernel

/-- C137 (refuted: the value is the share of the documents that match): two documents with one id count as one match and as two
documents. -/
theorem C137_duplicates_refuted : ∃ (docs : List (Nat × Json)) (e : Expr),
    (∀ d ∈ docs, evalExpr d.2 e = true) ∧ ∃ st, specificities docs [(0, e)] = .ok [1/2] st :=
  ⟨[(1, .obj [(lit "c", .str (lit "x"))]), (1, .obj [(lit "c", .str (lit "x"))])], .cmp (lit "c") (.eq (.str (lit "x"))),
    (by decide +kernel), some ⟨1/2, 1/2, 1/2, 1/2⟩, (by decide +kernel)⟩

end Verif.Tools
