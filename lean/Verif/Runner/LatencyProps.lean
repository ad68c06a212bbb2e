import Verif.Runner.LatencyModel
import Mathlib.Tactic.Common
import Mathlib.Tactic.Linarith
import Mathlib.Tactic.FieldSimp
import Mathlib.Tactic.NormNum
import Mathlib.Tactic.Ring
import Mathlib.Tactic.Positivity
/-
C124: latency summaries and the regression check of the SIMD benchmarks.
-/
namespace Verif.Runner.Latency

/-! Specification -/

/-- How many samples are at most `a`. -/
def atMost (x : List Nat) (a : Rat) : Nat := x.countP (fun b : Nat => decide ((b : Rat) ≤ a))

/-- How many samples are below `a`. -/
def below (x : List Nat) (a : Rat) : Nat := x.countP (fun b : Nat => decide ((b : Rat) < a))

/-- `a` is the sample with `num / den` of the samples before it: more than that share of the samples is at most
`a`, and no more than that share is below. -/
def IsPercentile (num den : Nat) (x : List Nat) (a : Nat) : Prop :=
  a ∈ x ∧ num * x.length < den * atMost x a ∧ den * below x a ≤ num * x.length

/-! Sorted lists -/

theorem sorted_perm (x : List Nat) : (sorted x).Perm x := List.perm_insertionSort _ x

theorem sorted_length (x : List Nat) : (sorted x).length = x.length := List.length_insertionSort _ x

theorem sorted_pairwise (x : List Nat) : (sorted x).Pairwise (· ≤ ·) := List.pairwise_insertionSort _ x

theorem sorted_le {s : List Nat} (hs : s.Pairwise (· ≤ ·)) {i j : Nat} (hij : i ≤ j) (hj : j < s.length) :
    s[i] ≤ s[j] := by
  rcases Nat.lt_or_ge i j with h | h
  · exact List.pairwise_iff_getElem.1 hs i j (by omega) hj h
  · have : i = j := by omega
    subst this; exact Nat.le_refl _

theorem at_ok {s : List Nat} {i : Nat} (h : i < s.length) : at' s i = .ok s[i] := by
  unfold at'
  rw [List.getElem?_eq_getElem h]

theorem countP_take_le {s : List Nat} {p : Nat → Bool} (k : Nat) (hk : k ≤ s.length)
    (h : ∀ i, (hi : i < s.length) → i < k → p s[i] = true) : k ≤ s.countP p := by
  have h1 : (s.take k).countP p = (s.take k).length := by
    rw [List.countP_eq_length]
    intro a ha
    obtain ⟨i, hi, rfl⟩ := List.getElem_of_mem ha
    rw [List.getElem_take]
    rw [List.length_take] at hi
    exact h i (by omega) (by omega)
  have h2 : (s.take k).countP p ≤ s.countP p := (List.take_sublist k s).countP_le
  rw [h1, List.length_take] at h2
  omega

theorem countP_drop_le {s : List Nat} {p : Nat → Bool} (k : Nat)
    (h : ∀ i, (hi : i < s.length) → k ≤ i → p s[i] = false) : s.countP p ≤ k := by
  have h0 : s.countP p = (s.take k).countP p + (s.drop k).countP p := by
    rw [← List.countP_append, List.take_append_drop]
  have h1 : (s.drop k).countP p = 0 := by
    rw [List.countP_eq_zero]
    intro a ha
    obtain ⟨i, hi, rfl⟩ := List.getElem_of_mem ha
    rw [List.getElem_drop]
    rw [List.length_drop] at hi
    simp [h (k + i) (by omega) (by omega)]
  have h2 := List.countP_le_length (l := s.take k) (p := p)
  rw [List.length_take] at h2
  omega

theorem atMost_sorted (x : List Nat) (a : Rat) : atMost x a = (sorted x).countP (fun b : Nat => decide ((b : Rat) ≤ a)) :=
  ((sorted_perm x).countP_eq _).symm

theorem below_sorted (x : List Nat) (a : Rat) : below x a = (sorted x).countP (fun b : Nat => decide ((b : Rat) < a)) :=
  ((sorted_perm x).countP_eq _).symm

theorem rank_le (x : List Nat) {i : Nat} (hi : i < (sorted x).length) {a : Rat}
    (ha : ((sorted x)[i] : Rat) ≤ a) : i + 1 ≤ atMost x a := by
  rw [atMost_sorted]
  apply countP_take_le (i + 1) (by omega)
  intro j hj hji
  have := sorted_le (sorted_pairwise x) (show j ≤ i by omega) hi
  have h : ((sorted x)[j] : Rat) ≤ ((sorted x)[i] : Rat) := by exact_mod_cast this
  simpa using le_trans h ha

theorem rank_below (x : List Nat) {i : Nat} (hi : i < (sorted x).length) {a : Rat}
    (ha : a ≤ ((sorted x)[i] : Rat)) : below x a ≤ i := by
  rw [below_sorted]
  apply countP_drop_le
  intro j hj hij
  have := sorted_le (sorted_pairwise x) hij hj
  have h : ((sorted x)[i] : Rat) ≤ ((sorted x)[j] : Rat) := by exact_mod_cast this
  simpa using le_trans ha h

theorem percentile_index {x : List Nat} {num den k : Nat} (hk : k < (sorted x).length) (hden : 0 < den)
    (h : k = num * x.length / den) : IsPercentile num den x (sorted x)[k] := by
  refine ⟨(sorted_perm x).mem_iff.1 (List.getElem_mem _), ?_, ?_⟩
  · have h1 := rank_le x hk (a := ((sorted x)[k] : Rat)) (le_refl _)
    have h2 : num * x.length < den * (k + 1) := by
      rw [h]; exact Nat.lt_mul_div_succ _ hden
    calc num * x.length < den * (k + 1) := h2
      _ ≤ _ := Nat.mul_le_mul_left _ h1
  · have h1 := rank_below x hk (a := ((sorted x)[k] : Rat)) (le_refl _)
    calc den * below x ((sorted x)[k] : Rat) ≤ den * k := Nat.mul_le_mul_left _ h1
      _ ≤ num * x.length := by rw [h]; exact Nat.mul_div_le _ _

/-- The two counts fix the value. -/
theorem percentile_unique {num den : Nat} {x : List Nat} {a b : Nat} (ha : IsPercentile num den x a)
    (hb : IsPercentile num den x b) : a = b := by
  have key : ∀ a b : Nat, IsPercentile num den x a → IsPercentile num den x b → ¬ a < b := by
    intro a b ha hb hlt
    have h1 : atMost x a ≤ below x b := by
      apply List.countP_mono_left
      intro c _ hc
      simp only [decide_eq_true_eq] at hc ⊢
      have : (a : Rat) < (b : Rat) := by exact_mod_cast hlt
      exact lt_of_le_of_lt hc this
    have h2 := Nat.mul_le_mul_left den h1
    have := ha.2.1
    have := hb.2.2
    omega
  rcases Nat.lt_trichotomy a b with h | h | h
  · exact absurd h (key a b ha hb)
  · exact h
  · exact absurd h (key b a hb ha)

/-! The computation -/

/-- The value, spelled out. -/
theorem compute_eq {x : List Nat} (hx : x ≠ []) :
    ∃ (h0 : 0 < (sorted x).length) (h9 : 9 * x.length / 10 < (sorted x).length)
      (h99 : 99 * x.length / 100 < (sorted x).length) (hh : x.length / 2 < (sorted x).length)
      (hl : (x.length - 1) / 2 < (sorted x).length),
      computePercentiles x = .ok ⟨(sorted x)[0], (sumU64 x : Rat) / (x.length : Rat),
        (((sorted x)[(x.length - 1) / 2] : Rat) + ((sorted x)[x.length / 2] : Rat)) / 2,
        (sorted x)[9 * x.length / 10], (sorted x)[99 * x.length / 100]⟩ := by
  have hpos : 0 < x.length := List.length_pos_iff.2 hx
  have hlen := sorted_length x
  have h0 : 0 < (sorted x).length := by omega
  have h9 : 9 * x.length / 10 < (sorted x).length := by omega
  have h99 : 99 * x.length / 100 < (sorted x).length := by omega
  have hh : x.length / 2 < (sorted x).length := by omega
  have hl : (x.length - 1) / 2 < (sorted x).length := by omega
  refine ⟨h0, h9, h99, hh, hl, ?_⟩
  have hmean : mean x = .ok ((sumU64 x : Rat) / (x.length : Rat)) := by
    unfold mean
    rw [if_neg]
    simpa using hx
  have hmed : median (sorted x) =
      .ok ((((sorted x)[(x.length - 1) / 2] : Rat) + ((sorted x)[x.length / 2] : Rat)) / 2) := by
    unfold median
    simp only [hlen]
    split
    · rename_i hodd
      rw [at_ok hh]
      have e : (x.length - 1) / 2 = x.length / 2 := by omega
      simp only [e]
      show Except.ok _ = _
      congr 1
      ring
    · rename_i heven
      have e : x.length / 2 - 1 = (x.length - 1) / 2 := by omega
      rw [e, at_ok hl, at_ok hh]
      rfl
  unfold computePercentiles
  simp only [hmean, hmed, hlen]
  rw [show min (9 * x.length / 10) (x.length - 1) = 9 * x.length / 10 by omega,
    show min (99 * x.length / 100) (x.length - 1) = 99 * x.length / 100 by omega,
    at_ok h9, at_ok h99, at_ok h0]
  rfl

/-- C124: there is a summary exactly when there is a sample; no index is ever out of bounds. -/
theorem C124_total (x : List Nat) :
    (x = [] ∧ computePercentiles x = .error .empty) ∨ (x ≠ [] ∧ ∃ p, computePercentiles x = .ok p) := by
  by_cases hx : x = []
  · subst hx; exact Or.inl ⟨rfl, rfl⟩
  · obtain ⟨_, _, _, _, _, h⟩ := compute_eq hx
    exact Or.inr ⟨hx, _, h⟩

theorem ne_nil_of_ok {x : List Nat} {p : Percentiles} (h : computePercentiles x = .ok p) : x ≠ [] := by
  rintro rfl
  have : computePercentiles [] = .error .empty := rfl
  rw [this] at h
  cases h

/-- C124: the minimum is the smallest sample. -/
theorem C124_minimum {x : List Nat} {p : Percentiles} (h : computePercentiles x = .ok p) :
    p.minimum ∈ x ∧ ∀ a ∈ x, p.minimum ≤ a := by
  obtain ⟨h0, _, _, _, _, he⟩ := compute_eq (ne_nil_of_ok h)
  rw [he] at h
  cases h
  refine ⟨(sorted_perm x).mem_iff.1 (List.getElem_mem _), ?_⟩
  intro a ha
  obtain ⟨i, hi, rfl⟩ := List.getElem_of_mem ((sorted_perm x).mem_iff.2 ha)
  exact sorted_le (sorted_pairwise x) (Nat.zero_le _) hi

/-- C124: the 90th percentile is a sample, more than nine tenths of the samples are at most it and at most nine
tenths are below it; likewise for the 99th.  (`percentile_unique`: no other value does that.) -/
theorem C124_percentiles {x : List Nat} {p : Percentiles} (h : computePercentiles x = .ok p) :
    IsPercentile 9 10 x p.p90 ∧ IsPercentile 99 100 x p.p99 := by
  obtain ⟨_, h9, h99, _, _, he⟩ := compute_eq (ne_nil_of_ok h)
  rw [he] at h
  cases h
  exact ⟨percentile_index h9 (by decide) rfl, percentile_index h99 (by decide) rfl⟩

/-- C124: at least half of the samples are at most the median and at least half are no less. -/
theorem C124_median {x : List Nat} {p : Percentiles} (h : computePercentiles x = .ok p) :
    x.length ≤ 2 * atMost x p.median ∧ 2 * below x p.median ≤ x.length := by
  obtain ⟨_, _, _, hh, hl, he⟩ := compute_eq (ne_nil_of_ok h)
  rw [he] at h
  cases h
  have hs : ((sorted x)[(x.length - 1) / 2] : Rat) ≤ ((sorted x)[x.length / 2] : Rat) := by
    exact_mod_cast sorted_le (sorted_pairwise x) (by omega) hh
  have h1 := rank_le x hl
    (a := (((sorted x)[(x.length - 1) / 2] : Rat) + ((sorted x)[x.length / 2] : Rat)) / 2) (by linarith)
  have h2 := rank_below x hh
    (a := (((sorted x)[(x.length - 1) / 2] : Rat) + ((sorted x)[x.length / 2] : Rat)) / 2) (by linarith)
  have hlen := sorted_length x
  constructor
  · simp only; omega
  · simp only; omega

/-- C124: the median of an odd number of samples is a sample, of an even number the middle of two samples with
no sample strictly between them. -/
theorem C124_median_middle {x : List Nat} {p : Percentiles} (h : computePercentiles x = .ok p) :
    ∃ a ∈ x, ∃ b ∈ x, a ≤ b ∧ p.median = ((a : Rat) + (b : Rat)) / 2 ∧ (∀ c ∈ x, c ≤ a ∨ b ≤ c) ∧
      (x.length % 2 = 1 → a = b) := by
  obtain ⟨_, _, _, hh, hl, he⟩ := compute_eq (ne_nil_of_ok h)
  rw [he] at h
  cases h
  refine ⟨_, (sorted_perm x).mem_iff.1 (List.getElem_mem hl), _, (sorted_perm x).mem_iff.1 (List.getElem_mem hh),
    sorted_le (sorted_pairwise x) (by omega) hh, rfl, ?_, ?_⟩
  · intro c hc
    obtain ⟨i, hi, rfl⟩ := List.getElem_of_mem ((sorted_perm x).mem_iff.2 hc)
    rcases Nat.lt_or_ge i (x.length / 2) with h | h
    · exact Or.inl (sorted_le (sorted_pairwise x) (by omega) hl)
    · exact Or.inr (sorted_le (sorted_pairwise x) h hi)
  · intro hodd
    have e : (x.length - 1) / 2 = x.length / 2 := by omega
    simp only [e]

/-- C124: minimum, median, 90th and 99th percentile are in this order. -/
theorem C124_ordered {x : List Nat} {p : Percentiles} (h : computePercentiles x = .ok p) :
    (p.minimum : Rat) ≤ p.median ∧ p.median ≤ (p.p90 : Rat) ∧ p.p90 ≤ p.p99 := by
  obtain ⟨h0, h9, h99, hh, hl, he⟩ := compute_eq (ne_nil_of_ok h)
  rw [he] at h
  cases h
  have s := sorted_pairwise x
  have hlen := sorted_length x
  have a1 : ((sorted x)[0] : Rat) ≤ ((sorted x)[(x.length - 1) / 2] : Rat) := by
    exact_mod_cast sorted_le s (Nat.zero_le _) hl
  have a2 : ((sorted x)[(x.length - 1) / 2] : Rat) ≤ ((sorted x)[x.length / 2] : Rat) := by
    exact_mod_cast sorted_le s (by omega) hh
  have a3 : ((sorted x)[x.length / 2] : Rat) ≤ ((sorted x)[9 * x.length / 10] : Rat) := by
    exact_mod_cast sorted_le s (by omega) h9
  refine ⟨?_, ?_, sorted_le s (by omega) h99⟩
  · simp only; linarith
  · simp only; linarith

theorem sum_perm_aux (s : Nat) (x : List Nat) (hs : s < 2 ^ 64) :
    x.foldl (fun s a => (s + a) % 2 ^ 64) s = (s + x.sum) % 2 ^ 64 := by
  induction x generalizing s with
  | nil => exact (Nat.mod_eq_of_lt hs).symm
  | cons a x ih =>
    rw [List.foldl_cons, ih _ (Nat.mod_lt _ (by decide)), List.sum_cons]
    rw [Nat.mod_add_mod]
    congr 1; omega

theorem sumU64_eq (x : List Nat) : sumU64 x = x.sum % 2 ^ 64 := by
  unfold sumU64
  rw [sum_perm_aux 0 x (by decide), Nat.zero_add]

/-- C124: the summary depends on the samples, not on their order. -/
theorem C124_order {x y : List Nat} (h : x.Perm y) : computePercentiles x = computePercentiles y := by
  have hs : sorted x = sorted y :=
    ((sorted_perm x).trans (h.trans (sorted_perm y).symm)).eq_of_pairwise
      (fun _ _ _ _ h1 h2 => Nat.le_antisymm h1 h2) (sorted_pairwise x) (sorted_pairwise y)
  have hm : mean x = mean y := by
    unfold mean
    rw [sumU64_eq, sumU64_eq, h.sum_eq, h.length_eq]
    congr 1
    cases x with
    | nil => rw [List.nil_perm.1 h]
    | cons a x =>
      cases y with
      | nil => exact absurd h.symm (by simp)
      | cons b y => rfl
  unfold computePercentiles
  rw [hm, hs]

theorem le_sum {x : List Nat} {a : Nat} (h : a ∈ x) : a ≤ x.sum := by
  induction x with
  | nil => simp at h
  | cons b x ih =>
    rw [List.sum_cons]
    rcases List.mem_cons.1 h with rfl | h
    · omega
    · have := ih h; omega

theorem sum_bounds {x : List Nat} {lo hi : Nat} (h1 : ∀ a ∈ x, lo ≤ a) (h2 : ∀ a ∈ x, a ≤ hi) :
    lo * x.length ≤ x.sum ∧ x.sum ≤ hi * x.length := by
  induction x with
  | nil => simp
  | cons a x ih =>
    have := ih (fun b hb => h1 b (by simp [hb])) (fun b hb => h2 b (by simp [hb]))
    have ha := h1 a (by simp)
    have hb := h2 a (by simp)
    simp only [List.sum_cons, List.length_cons, Nat.mul_add, Nat.mul_one]
    omega

/-- C124: the mean is the sum over the number of samples, and lies between the smallest and the largest sample.
Missing: samples whose sum does not fit in 64 bits, see `C124_mean_refuted`. -/
theorem C124_mean_partial {x : List Nat} {p : Percentiles} (h : computePercentiles x = .ok p)
    (hsum : x.sum < 2 ^ 64) : p.mean = (x.sum : Rat) / (x.length : Rat) ∧ (p.minimum : Rat) ≤ p.mean ∧
      ∀ hi, (∀ a ∈ x, a ≤ hi) → p.mean ≤ (hi : Rat) := by
  have hne := ne_nil_of_ok h
  have hmin := (C124_minimum h).2
  obtain ⟨_, _, _, _, _, he⟩ := compute_eq hne
  rw [he] at h
  cases h
  have hpos : (0 : Rat) < (x.length : Rat) := by exact_mod_cast List.length_pos_iff.2 hne
  simp only at hmin ⊢
  rw [sumU64_eq, Nat.mod_eq_of_lt hsum]
  refine ⟨rfl, ?_, ?_⟩
  · rw [le_div_iff₀ hpos]
    have := (sum_bounds hmin (hi := x.sum) (fun a ha => le_sum ha)).1
    exact_mod_cast this
  · intro hi hhi
    rw [div_le_iff₀ hpos]
    have := (sum_bounds (lo := 0) (fun a _ => Nat.zero_le a) hhi).2
    exact_mod_cast this

/-- C124: latencies whose sum does not fit in 64 bits have a mean below all of them. -/
theorem C124_mean_refuted : ∃ (x : List Nat) (p : Percentiles), (∀ a ∈ x, a < 2 ^ 64) ∧
    computePercentiles x = .ok p ∧ p.mean < (p.minimum : Rat) := by
  refine ⟨[2 ^ 63, 2 ^ 63], ⟨2 ^ 63, 0, 2 ^ 63, 2 ^ 63, 2 ^ 63⟩, by decide, ?_, by norm_num⟩
  decide +kernel

/-! Largest value -/

/-- `a` is at most `b`, as floating point numbers other than NaN. -/
def F64.Le : F64 → F64 → Prop
  | .nan, _ => False
  | _, .nan => False
  | .inf true, _ => True
  | _, .inf false => True
  | .inf false, _ => False
  | _, .inf true => False
  | .fin a, .fin b => a ≤ b

theorem le_refl_f {a : F64} (h : a ≠ .nan) : F64.Le a a := by
  match a, h with
  | .inf true, _ => trivial
  | .inf false, _ => trivial
  | .fin x, _ => exact le_refl x

theorem le_trans_f {a b c : F64} (h1 : F64.Le a b) (h2 : F64.Le b c) : F64.Le a c := by
  cases a with
  | nan => exact absurd h1 id
  | inf na =>
    cases c with
    | nan => cases b with
      | nan => exact absurd h2 id
      | inf nb => cases nb <;> exact absurd h2 id
      | fin y => exact absurd h2 id
    | inf nc => cases b with
      | nan => exact absurd h2 id
      | inf nb => cases na <;> cases nb <;> cases nc <;> simp_all [F64.Le]
      | fin y => cases na <;> cases nc <;> simp_all [F64.Le]
    | fin z => cases b with
      | nan => exact absurd h2 id
      | inf nb => cases na <;> cases nb <;> simp_all [F64.Le]
      | fin y => cases na <;> simp_all [F64.Le]
  | fin x =>
    cases c with
    | nan => cases b with
      | nan => exact absurd h2 id
      | inf nb => cases nb <;> exact absurd h2 id
      | fin y => exact absurd h2 id
    | inf nc => cases b with
      | nan => exact absurd h2 id
      | inf nb => cases nb <;> cases nc <;> simp_all [F64.Le]
      | fin y => cases nc <;> simp_all [F64.Le]
    | fin z => cases b with
      | nan => exact absurd h2 id
      | inf nb => cases nb <;> simp_all [F64.Le]
      | fin y => simp only [F64.Le] at *; exact _root_.le_trans h1 h2

theorem max_cases (a b : F64) : F64.max a b = a ∨ F64.max a b = b := by
  cases a with
  | nan => exact Or.inr rfl
  | inf na => cases b with
    | nan => cases na <;> exact Or.inl rfl
    | inf nb => cases na <;> cases nb <;> simp [F64.max]
    | fin y => cases na <;> simp [F64.max]
  | fin x => cases b with
    | nan => exact Or.inl rfl
    | inf nb => cases nb <;> simp [F64.max]
    | fin y => simp only [F64.max]; split <;> simp

theorem max_ge (a b : F64) : (a ≠ .nan → F64.Le a (F64.max a b)) ∧ (b ≠ .nan → F64.Le b (F64.max a b)) := by
  cases a with
  | nan => exact ⟨fun h => absurd rfl h, fun h => le_refl_f h⟩
  | inf na => cases b with
    | nan => cases na <;> simp [F64.max, F64.Le]
    | inf nb => cases na <;> cases nb <;> simp [F64.max, F64.Le]
    | fin y => cases na <;> simp [F64.max, F64.Le]
  | fin x => cases b with
    | nan => simp [F64.max, F64.Le]
    | inf nb => cases nb <;> simp [F64.max, F64.Le]
    | fin y =>
      simp only [F64.max]
      by_cases h : x < y
      · rw [if_pos h]; exact ⟨fun _ => _root_.le_of_lt h, fun _ => le_refl y⟩
      · rw [if_neg h]; exact ⟨fun _ => le_refl x, fun _ => not_lt.1 h⟩

/-- C124: the largest value is one of the values and no other is larger; NaN is ignored unless there is nothing
else. -/
theorem C124_max (x : List F64) :
    (x = [] ∧ maxF64 x = .error .empty) ∨ ∃ m, maxF64 x = .ok m ∧ m ∈ x ∧ ∀ a ∈ x, a ≠ .nan → F64.Le a m := by
  cases x with
  | nil => exact Or.inl ⟨rfl, rfl⟩
  | cons a rest =>
    refine Or.inr ⟨_, rfl, ?_⟩
    induction rest generalizing a with
    | nil =>
      refine ⟨by simp, ?_⟩
      intro b hb hn
      simp only [List.mem_singleton] at hb
      subst hb
      exact le_refl_f hn
    | cons b rest ih =>
      obtain ⟨h1, h2⟩ := ih (F64.max a b)
      rw [List.foldl_cons]
      constructor
      · rcases List.mem_cons.1 h1 with h | h
        · rw [h]
          rcases max_cases a b with e | e <;> rw [e] <;> simp
        · simp [h]
      · intro c hc hn
        have hm := max_ge a b
        have key : ∀ c, c ≠ F64.nan → F64.Le c (F64.max a b) → F64.Le c (rest.foldl F64.max (F64.max a b)) := by
          intro c hc hle
          refine le_trans_f hle (h2 _ (by simp) ?_)
          intro hnan
          rw [hnan] at hle
          cases c with
          | nan => exact hc rfl
          | inf nc => cases nc <;> exact hle
          | fin y => exact hle
        simp only [List.mem_cons] at hc
        rcases hc with rfl | rfl | hc
        · exact key _ hn (hm.1 hn)
        · exact key _ hn (hm.2 hn)
        · exact h2 c (by simp [hc]) hn

/-! Relative change and the check -/

/-- C124: a relative change is reported exactly for a positive number before and a non-negative one after whose
quotient does not overflow, and is their difference over the first. -/
theorem C124_change (M : Rat) (before after : F64) (c : Rat) :
    relativeChange M before after = .ok c ↔ ∃ b a : Rat, before = .fin b ∧ after = .fin a ∧ 0 < b ∧ 0 ≤ a ∧
      c = (a - b) / b ∧ -M ≤ c ∧ c ≤ M := by
  constructor
  · intro h
    cases before with
    | nan => simp [relativeChange] at h
    | inf n => simp [relativeChange] at h
    | fin b =>
      simp only [relativeChange] at h
      split at h
      · simp at h
      · rename_i hb
        cases after with
        | nan => simp [nonNegativeFinite] at h
        | inf n => simp [nonNegativeFinite] at h
        | fin a =>
          have hnn : 0 ≤ a ∧ nonNegativeFinite (.fin a) = .ok a := by
            by_cases ha : a < 0
            · simp [nonNegativeFinite, ha] at h
            · refine ⟨not_lt.1 ha, ?_⟩
              simp only [nonNegativeFinite, ha, if_false]
              split
              · rename_i h0; rw [h0]
              · rfl
          rw [hnn.2] at h
          simp only at h
          split at h
          · simp at h
          · rename_i hM
            simp only [Except.ok.injEq] at h
            subst h
            simp only [not_or, not_lt] at hM
            exact ⟨b, a, rfl, rfl, not_le.1 hb, hnn.1, rfl, hM.2, hM.1⟩
  · rintro ⟨b, a, rfl, rfl, hb, ha, rfl, h1, h2⟩
    have hnn : nonNegativeFinite (.fin a) = .ok a := by
      simp only [nonNegativeFinite, not_lt.2 ha, if_false]
      split
      · rename_i h0; rw [h0]
      · rfl
    simp only [relativeChange, not_le.2 hb, if_false, hnn]
    rw [if_neg]
    simp only [not_or, not_lt]
    exact ⟨h2, h1⟩

/-- C124: the change is negative exactly when the second number is smaller, and never below minus one. -/
theorem C124_change_sign (M : Rat) (b a c : Rat) (h : relativeChange M (.fin b) (.fin a) = .ok c) :
    (c < 0 ↔ a < b) ∧ (c = 0 ↔ a = b) ∧ -1 ≤ c := by
  obtain ⟨b', a', h1, h2, hb, ha, rfl, _, _⟩ := (C124_change M _ _ c).1 h
  cases h1
  cases h2
  refine ⟨?_, ?_, ?_⟩
  · rw [div_lt_iff₀ hb]
    constructor <;> intro h <;> linarith
  · rw [div_eq_iff (ne_of_gt hb)]
    constructor <;> intro h <;> linarith
  · rw [le_div_iff₀ hb]
    linarith

theorem foldl_pass (l : List (Result × Result)) (f : Result × Result → Bool) (s : Bool) :
    l.foldl (fun passed p => if f p then passed else false) s = (s && l.all f) := by
  induction l generalizing s with
  | nil => simp
  | cons p l ih =>
    rw [List.foldl_cons, ih, List.all_cons]
    cases f p <;> simp

/-- Passing runs: the later minimum is at most `1 + tol` times the earlier one, which is positive. -/
theorem runPasses_iff {M tol : Rat} (hM : 1000 * 2 ^ 64 ≤ M) (b a : Result) (ha : a.minimum < 2 ^ 64) :
    runPasses M tol b a = true ↔ b.perLatency ≠ 0 ∧ 0 < b.minimum ∧
      (a.minimum : Rat) ≤ (1 + tol) * (b.minimum : Rat) := by
  unfold runPasses
  simp only
  by_cases hp : b.perLatency = 0
  · rw [hp]
    have : nanos b.minimum 0 = .nan ∨ nanos b.minimum 0 = .inf false := by
      unfold nanos; simp only [if_true]; split <;> simp
    constructor
    · intro h
      rcases this with e | e <;> rw [e] at h <;> simp [relativeChange] at h
    · rintro ⟨h, _⟩; exact absurd rfl h
  · have hpos : (0 : Rat) < (b.perLatency : Rat) := by exact_mod_cast Nat.pos_of_ne_zero hp
    by_cases hb : b.minimum = 0
    · constructor
      · intro h
        simp [nanos, hp, hb, relativeChange] at h
      · rintro ⟨_, h, _⟩; omega
    · have hbpos : (0 : Rat) < (b.minimum : Rat) := by exact_mod_cast Nat.pos_of_ne_zero hb
      have hbone : (1 : Rat) ≤ (b.minimum : Rat) := by exact_mod_cast Nat.pos_of_ne_zero hb
      have hann : (0 : Rat) ≤ (a.minimum : Rat) := by exact_mod_cast Nat.zero_le _
      have hale : (a.minimum : Rat) ≤ 2 ^ 64 := by exact_mod_cast ha.le
      have hchange : relativeChange M (nanos b.minimum b.perLatency) (nanos a.minimum b.perLatency) =
          .ok (((a.minimum : Rat) - b.minimum) / b.minimum) := by
        rw [C124_change]
        refine ⟨(b.minimum : Rat) * 1000 / (b.perLatency : Rat), (a.minimum : Rat) * 1000 / (b.perLatency : Rat),
          by simp [nanos, hp], by simp [nanos, hp], by positivity, by positivity, ?_, ?_, ?_⟩
        · field_simp
        · rw [le_div_iff₀ hbpos]
          nlinarith
        · rw [div_le_iff₀ hbpos]
          nlinarith
      rw [hchange]
      simp only [Bool.not_eq_true', decide_eq_false_iff_not, not_lt]
      rw [div_le_iff₀ hbpos]
      constructor
      · intro h; exact ⟨hp, Nat.pos_of_ne_zero hb, by linarith⟩
      · rintro ⟨_, _, h⟩; linarith

theorem zip_all {p : Result × Result → Bool} {x y : List Result} (hl : x.length = y.length) :
    (x.zip y).all p = true ↔ ∀ i (hx : i < x.length) (hy : i < y.length), p (x[i], y[i]) = true := by
  rw [List.all_eq_true]
  constructor
  · intro h i hx hy
    apply h
    rw [← List.getElem_zip (h := by simp [List.length_zip]; omega)]
    exact List.getElem_mem _
  · intro h q hq
    obtain ⟨i, hi, rfl⟩ := List.getElem_of_mem hq
    rw [List.length_zip] at hi
    rw [List.getElem_zip]
    exact h i (by omega) (by omega)

/-- C124: the check is an error exactly when the two lists of runs do not describe the same runs. -/
theorem C124_check_error (M tol : Rat) (before after : List Result) :
    check M tol before after = none ↔ before.length ≠ after.length ∨
      ∃ i, ∃ (hx : i < before.length) (hy : i < after.length), ¬ (before[i].key = after[i].key ∧
        before[i].points = after[i].points ∧ before[i].loops = after[i].loops) := by
  unfold check
  by_cases hl : before.length = after.length
  · rw [if_neg (by simpa using hl)]
    by_cases hall : (before.zip after).all (fun p => p.1.sameRun p.2) = true
    · rw [if_pos hall]
      constructor
      · intro h; simp at h
      · rintro (h | ⟨i, hx, hy, h⟩)
        · exact absurd hl h
        · have := (zip_all hl).1 hall i hx hy
          simp only [Result.sameRun, Bool.and_eq_true, beq_iff_eq] at this
          exact absurd ⟨this.1.1, this.1.2, this.2⟩ h
    · rw [if_neg hall]
      refine ⟨fun _ => Or.inr ?_, fun _ => rfl⟩
      by_contra hno
      apply hall
      rw [zip_all hl]
      intro i hx hy
      by_contra hne
      apply hno
      refine ⟨i, hx, hy, ?_⟩
      rintro ⟨h1, h2, h3⟩
      apply hne
      simp [Result.sameRun, h1, h2, h3]
  · rw [if_pos hl]
    exact ⟨fun _ => Or.inl hl, fun _ => rfl⟩

/-- C124: the check passes exactly when the runs are the same and every run's smallest latency was positive and
grew by no more than the tolerance. -/
theorem C124_check (M tol : Rat) (hM : 1000 * 2 ^ 64 ≤ M) (before after : List Result)
    (ha : ∀ r ∈ after, r.minimum < 2 ^ 64) :
    check M tol before after = some true ↔ check M tol before after ≠ none ∧
      ∀ i (hx : i < before.length) (hy : i < after.length),
        (before[i].points * before[i].loops) % 2 ^ 64 ≠ 0 ∧ 0 < before[i].minimum ∧
        (after[i].minimum : Rat) ≤ (1 + tol) * (before[i].minimum : Rat) := by
  by_cases hc : check M tol before after = none
  · rw [hc]; simp
  · have hl : before.length = after.length := by
      by_contra h
      exact hc ((C124_check_error M tol before after).2 (Or.inl h))
    have hval : check M tol before after = some ((before.zip after).all (fun p => runPasses M tol p.1 p.2)) := by
      unfold check at hc ⊢
      rw [if_neg (by simpa using hl)] at hc ⊢
      split
      · rw [foldl_pass]; simp
      · rename_i h
        rw [if_neg h] at hc
        exact absurd rfl hc
    rw [hval]
    simp only [Option.some.injEq, ne_eq, reduceCtorEq, not_false_eq_true, true_and]
    rw [zip_all hl]
    constructor
    · intro h i hx hy
      exact (runPasses_iff hM _ _ (ha _ (List.getElem_mem hy))).1 (h i hx hy)
    · intro h i hx hy
      exact (runPasses_iff hM _ _ (ha _ (List.getElem_mem hy))).2 (h i hx hy)

/-- C124: results compared with themselves pass, whatever the tolerance.  Missing: runs faster than a
microsecond, see `C124_same_refuted`. -/
theorem C124_same_partial (M tol : Rat) (hM : 1000 * 2 ^ 64 ≤ M) (ht : 0 ≤ tol) (x : List Result)
    (hx : ∀ r ∈ x, 0 < r.minimum ∧ r.minimum < 2 ^ 64 ∧ 0 < r.points ∧ 0 < r.loops ∧ r.points * r.loops < 2 ^ 64) :
    check M tol x x = some true := by
  rw [C124_check M tol hM x x (fun r hr => (hx r hr).2.1)]
  constructor
  · rw [ne_eq, C124_check_error]
    simp
  · intro i hi _
    obtain ⟨h1, h2, h3, h4, h5⟩ := hx x[i] (List.getElem_mem hi)
    refine ⟨?_, h1, ?_⟩
    · rw [Nat.mod_eq_of_lt h5]
      have := Nat.mul_pos h3 h4
      omega
    · have : (0 : Rat) ≤ (x[i].minimum : Rat) := by exact_mod_cast Nat.zero_le _
      nlinarith

/-- C124: a run whose smallest latency rounds to zero microseconds fails against itself, whatever the
tolerance. -/
theorem C124_same_refuted (M tol : Rat) (r : Result) (h : r.minimum = 0) : check M tol [r] [r] = some false := by
  have hp : runPasses M tol r r = false := by
    unfold runPasses nanos
    rw [h]
    by_cases hp : r.perLatency = 0
    · simp [hp, relativeChange]
    · simp [hp, relativeChange]
  simp [check, Result.sameRun, hp]

/-! Examples -/

example : computePercentiles [5, 1, 4, 2] = .ok ⟨1, 3, 3, 5, 5⟩ := by decide +kernel

example : computePercentiles [7, 1, 2] = .ok ⟨1, 10 / 3, 2, 7, 7⟩ := by decide +kernel

/-- With ten samples the 90th percentile is the last one. -/
example : (computePercentiles [10, 9, 8, 7, 6, 5, 4, 3, 2, 1]).map (fun p => p.p90) = .ok 10 := by decide +kernel

example : maxF64 [.fin 1, .fin (-1), .nan, .inf true] = .ok (.fin 1) := by decide +kernel

example : relativeChange (2 ^ 1023) (.fin 4) (.fin 5) = .ok (1 / 4) := by decide +kernel

/-- A tenth slower passes with a tolerance of a tenth, and fails with less. -/
example : check (2 ^ 1023) (1 / 10) [⟨0, 1000, 100, 10⟩] [⟨0, 1000, 100, 11⟩] = some true ∧
    check (2 ^ 1023) (9 / 100) [⟨0, 1000, 100, 10⟩] [⟨0, 1000, 100, 11⟩] = some false ∧
    check (2 ^ 1023) (1 / 10) [⟨0, 1000, 100, 10⟩] [⟨1, 1000, 100, 11⟩] = none := by decide +kernel

end Verif.Runner.Latency
