import Verif.Tools.ContrastModel
import Verif.Disk.VectorFileProps
import Mathlib.Tactic.FieldSimp
import Mathlib.Tactic.Ring
import Mathlib.Algebra.Order.Ring.Rat

/-!
# Relative contrast, and subsampling a vector file: theorems
-/

namespace Verif.Tools.Contrast

open Verif.Disk

variable {K : Type} [Field K] [LinearOrder K] [IsStrictOrderedRing K]

/-! ## Specification -/

/-- The squared distance of two vectors. -/
def sqDist (x y : List K) : K := (List.zipWith (fun a b => (a - b) ^ 2) x y).sum

/-- The mean. -/
def mean (l : List K) : K := l.sum / (l.length : K)

/-- The mean squared distance to the sampled points over that to the first `k` true neighbours. -/
def ratio (base : List (List K)) (row : List Nat) (k samples : Nat) (pick : Nat → Nat) (q : List K) : K :=
  mean ((List.range samples).map (fun s => sqDist q (base.getD (pick s) []))) /
    mean ((row.take k).map (fun j => sqDist q (base.getD j [])))

/-! ## Lemmas -/

omit [LinearOrder K] [IsStrictOrderedRing K] in
theorem squaredDistance_eq (x y : List K) : squaredDistance x y = sqDist x y := by
  unfold squaredDistance sqDist
  congr 1
  rw [List.zipWith_eq_zipWith_take_min, ← List.map_uncurry_zip_eq_zipWith] <;>
  first
    | rfl
    | skip
  rw [← List.zip_eq_zip_take_min]
  apply List.map_congr_left
  intro p _
  simp [Function.uncurry, pow_two]

omit [LinearOrder K] [IsStrictOrderedRing K] in
theorem sampleSum_eq (q : List K) (base : List (List K)) (pick : Nat → Nat) (n : Nat)
    (hp : ∀ s, s < n → pick s < base.length) :
    sampleSum q base pick n = some ((List.range n).map (fun s => sqDist q (base.getD (pick s) []))).sum := by
  induction n with
  | zero => rfl
  | succ n ih =>
    have h := hp n (by omega)
    unfold sampleSum
    rw [ih (fun s hs => hp s (by omega)), List.range_succ]
    have h0 : ¬ base.length = 0 := by omega
    simp [h0, h, squaredDistance_eq, List.getD_eq_getElem?_getD]

omit [LinearOrder K] [IsStrictOrderedRing K] in
theorem truthSum_eq (q : List K) (base : List (List K)) (ids : List Nat) (hi : ∀ j ∈ ids, j < base.length) :
    truthSum q base ids = some (ids.map (fun j => sqDist q (base.getD j []))).sum := by
  induction ids with
  | nil => rfl
  | cons j ids ih =>
    have h := hi j (by simp)
    unfold truthSum
    rw [ih (fun j hj => hi j (by simp [hj]))]
    simp [h, squaredDistance_eq, List.getD_eq_getElem?_getD]

omit [LinearOrder K] [IsStrictOrderedRing K] in
theorem truthSum_none (q : List K) (base : List (List K)) (ids : List Nat) :
    truthSum q base ids = none ↔ ∃ j ∈ ids, base.length ≤ j := by
  induction ids with
  | nil => simp [truthSum]
  | cons j ids ih =>
    unfold truthSum
    by_cases hj : j < base.length
    · rw [List.getElem?_eq_getElem hj]
      cases ht : truthSum q base ids with
      | none =>
        have := ih.1 ht
        simp only [Option.bind_eq_bind, Option.bind_some, Option.bind_none, List.mem_cons, true_iff]
        obtain ⟨i, h1, h2⟩ := this
        exact ⟨i, .inr h1, h2⟩
      | some v =>
        simp only [Option.bind_eq_bind, Option.bind_some, reduceCtorEq, List.mem_cons, false_iff]
        rintro ⟨i, rfl | h1, h2⟩
        · omega
        · have := ih.2 ⟨i, h1, h2⟩
          rw [ht] at this
          exact absurd this (by simp)
    · rw [List.getElem?_eq_none (by omega)]
      simp only [Option.bind_eq_bind, Option.bind_none, List.mem_cons, true_iff]
      exact ⟨j, .inl rfl, by omega⟩

theorem contrastOf_eq (base : List (List K)) (gt : List (List Nat)) (k samples : Nat) (pick : Nat → Nat) (i : Nat) (q : List K)
    (row : List Nat) (hp : ∀ s, s < samples → pick s < base.length) (hr : gt[i]? = some row)
    (hi : ∀ j ∈ row.take k, j < base.length) (hs : 0 < samples) (hk : 0 < k)
    (hd : ((row.take k).map (fun j => sqDist q (base.getD j []))).sum ≠ 0) :
    contrastOf base gt k samples pick i q = some (.fin (
      mean ((List.range samples).map (fun s => sqDist q (base.getD (pick s) []))) /
        (((row.take k).map (fun j => sqDist q (base.getD j []))).sum / (k : K)))) := by
  have hk' : (k : K) ≠ 0 := Nat.cast_ne_zero.2 (by omega)
  have hs' : (samples : K) ≠ 0 := Nat.cast_ne_zero.2 (by omega)
  have hdk : ((row.take k).map (fun j => sqDist q (base.getD j []))).sum / (k : K) ≠ 0 := div_ne_zero hd hk'
  unfold contrastOf averageSquaredDistance
  rw [sampleSum_eq q base pick samples hp, hr]
  simp only [Option.bind_eq_bind, Option.bind_some]
  rw [truthSum_eq q base _ hi]
  simp only [Option.bind_some, div, hk', hs', ne_eq, not_false_eq_true, ↓reduceIte, Fl.div, hdk]
  unfold mean
  rw [List.length_map, List.length_range]

theorem contrastLoop_eq (base : List (List K)) (gt : List (List Nat)) (k samples : Nat) (pick : Nat → Nat → Nat) (nq : Nat)
    (hn : 0 < nq) (r : Nat → K) : ∀ (qs : List (List K)) (i : Nat) (m : K),
    (∀ j q, qs[j]? = some q → contrastOf base gt k samples (pick (i + j)) (i + j) q = some (.fin (r (i + j)))) →
    contrastLoop base gt k samples pick nq i qs (.fin m) =
      some (.fin (m + ((List.range qs.length).map (fun j => r (i + j))).sum / (nq : K))) := by
  have hn' : (nq : K) ≠ 0 := Nat.cast_ne_zero.2 (by omega)
  intro qs
  induction qs with
  | nil => intro i m _; simp [contrastLoop]
  | cons q qs ih =>
    intro i m h
    have h0 := h 0 q rfl
    rw [Nat.add_zero] at h0
    unfold contrastLoop
    rw [h0]
    simp only [Option.bind_eq_bind, Option.bind_some, Fl.div, div, hn', ne_eq, not_false_eq_true, ↓reduceIte, Fl.add]
    rw [ih (i + 1) _ (fun j q' hj => by
      have := h (j + 1) q' (by simpa using hj)
      rwa [show i + (j + 1) = i + 1 + j by omega] at this)]
    congr 2
    rw [List.length_cons, List.range_succ_eq_map, List.map_cons, List.map_map, List.sum_cons, Nat.add_zero, add_div, add_assoc]
    congr 3
    apply congrArg
    apply List.map_congr_left
    intro j _
    simp only [Function.comp_apply]
    rw [show i + (j + 1) = i + 1 + j by omega]

/-! ## Theorems on the relative contrast -/

/-- C130 (partial: rows at least as long as `recall_at`, no query equal to all its neighbours): the result is the mean over
the queries of the mean squared distance to the sampled points over that to the first `recall_at` neighbours. -/
theorem C130_value_partial (base queries : List (List K)) (gt : List (List Nat)) (k samples : Nat) (pick : Nat → Nat → Nat)
    (hs : 0 < samples) (hk : 0 < k) (hq : 0 < queries.length) (rows : Nat → List Nat)
    (hp : ∀ i s, pick i s < base.length)
    (hrow : ∀ i, i < queries.length → gt[i]? = some (rows i) ∧ k ≤ (rows i).length ∧
      ∀ j ∈ (rows i).take k, j < base.length)
    (hd : ∀ i q, queries[i]? = some q → (((rows i).take k).map (fun j => sqDist q (base.getD j []))).sum ≠ 0) :
    relativeContrast base queries gt k samples pick = some (.fin (mean
      ((List.range queries.length).map (fun i => ratio base (rows i) k samples (pick i) (queries.getD i []))))) := by
  unfold relativeContrast
  rw [contrastLoop_eq base gt k samples pick queries.length hq
    (fun i => ratio base (rows i) k samples (pick i) (queries.getD i [])) queries 0 0]
  · unfold mean
    simp
  · intro j q hj
    rw [Nat.zero_add]
    have hlt : j < queries.length := by
      by_contra hc
      rw [List.getElem?_eq_none (by omega)] at hj
      exact absurd hj (by simp)
    obtain ⟨h1, h2, h3⟩ := hrow j hlt
    rw [contrastOf_eq base gt k samples (pick j) j q (rows j) (fun s _ => hp j s) h1 h3 hs hk (hd j q hj)]
    have hg : queries.getD j [] = q := by
      rw [List.getD_eq_getElem?_getD, hj]
      rfl
    unfold ratio
    rw [hg]
    congr 3
    unfold mean
    rw [List.length_map, List.length_take, Nat.min_eq_left h2]

theorem averageSquaredDistance_none (q : List K) (base : List (List K)) (pick : Nat → Nat) (n : Nat)
    (hp : base ≠ [] → ∀ s, pick s < base.length) :
    averageSquaredDistance q base pick n = none ↔ 0 < n ∧ base = [] := by
  unfold averageSquaredDistance
  by_cases hb : base = []
  · subst hb
    cases n with
    | zero => simp [sampleSum]
    | succ n =>
      have : sampleSum q ([] : List (List K)) pick (n + 1) = none := by
        unfold sampleSum
        cases sampleSum q ([] : List (List K)) pick n <;> simp
      simp [this]
  · rw [sampleSum_eq q base pick n (fun s _ => hp hb s)]
    simp [hb]

/-- C130: the tool panics exactly when there is a query for which there is nothing to sample from, no row of the ground truth,
or a neighbour among the first `recall_at` that is no base point. -/
theorem C130_panics (base queries : List (List K)) (gt : List (List Nat)) (k samples : Nat) (pick : Nat → Nat → Nat)
    (hp : base ≠ [] → ∀ i s, pick i s < base.length) :
    relativeContrast base queries gt k samples pick = none ↔
      ∃ i, i < queries.length ∧ ((0 < samples ∧ base = []) ∨ gt[i]? = none ∨
        ∃ row, gt[i]? = some row ∧ ∃ j ∈ row.take k, base.length ≤ j) := by
  have hof : ∀ i q, contrastOf base gt k samples (pick i) i q = none ↔ ((0 < samples ∧ base = []) ∨ gt[i]? = none ∨
        ∃ row, gt[i]? = some row ∧ ∃ j ∈ row.take k, base.length ≤ j) := by
    intro i q
    unfold contrastOf
    cases ha : averageSquaredDistance q base (pick i) samples with
    | none =>
      have := (averageSquaredDistance_none q base (pick i) samples (fun h => hp h i)).1 ha
      simp [this]
    | some v =>
      have hna : ¬ (0 < samples ∧ base = []) := fun h => by
        rw [(averageSquaredDistance_none q base (pick i) samples (fun h => hp h i)).2 h] at ha
        exact absurd ha (by simp)
      cases hg : gt[i]? with
      | none => simp
      | some row =>
        simp only [Option.bind_eq_bind, Option.bind_some, hna, false_or, reduceCtorEq, Option.some.injEq, exists_eq_left']
        rw [← truthSum_none q base (row.take k)]
        cases truthSum q base (row.take k) <;> simp
  have hloop : ∀ (qs : List (List K)) (i : Nat) (m : Fl K) (nq : Nat),
      contrastLoop base gt k samples pick nq i qs m = none ↔
        ∃ j, j < qs.length ∧ ((0 < samples ∧ base = []) ∨ gt[i + j]? = none ∨
          ∃ row, gt[i + j]? = some row ∧ ∃ x ∈ row.take k, base.length ≤ x) := by
    intro qs
    induction qs with
    | nil => intro i m nq; simp [contrastLoop]
    | cons q qs ih =>
      intro i m nq
      unfold contrastLoop
      cases hc : contrastOf base gt k samples (pick i) i q with
      | none =>
        simp only [Option.bind_eq_bind, Option.bind_none, true_iff]
        exact ⟨0, by simp, by simpa using (hof i q).1 hc⟩
      | some v =>
        have hno : ¬ _ := fun h => by
          rw [(hof i q).2 h] at hc
          exact absurd hc (by simp)
        simp only [Option.bind_eq_bind, Option.bind_some]
        rw [ih]
        constructor
        · rintro ⟨j, h1, h2⟩
          refine ⟨j + 1, by simpa using h1, ?_⟩
          rwa [show i + (j + 1) = i + 1 + j by omega]
        · rintro ⟨j, h1, h2⟩
          cases j with
          | zero => exact absurd h2 hno
          | succ j =>
            refine ⟨j, by simpa using h1, ?_⟩
            rwa [show i + 1 + j = i + (j + 1) by omega]
  unfold relativeContrast
  rw [hloop]
  simp only [Nat.zero_add]

/-- C130 (refuted: the mean over the neighbours there are): with a row of `g` neighbours, fewer than `recall_at`, the result
is too large by the factor `recall_at / g`. -/
theorem C130_short_refuted (base : List (List K)) (q : List K) (row : List Nat) (k samples : Nat) (pick : Nat → Nat → Nat)
    (hs : 0 < samples) (hp : ∀ i s, pick i s < base.length) (hg : 0 < row.length) (hk : row.length < k)
    (hi : ∀ j ∈ row, j < base.length) (hd : (row.map (fun j => sqDist q (base.getD j []))).sum ≠ 0) :
    relativeContrast base [q] [row] k samples pick =
      some (.fin (ratio base row row.length samples (pick 0) q * ((k : K) / (row.length : K)))) := by
  have ht : row.take k = row := List.take_of_length_le (by omega)
  have ht' : row.take row.length = row := List.take_length
  have hg' : (row.length : K) ≠ 0 := Nat.cast_ne_zero.2 (by omega)
  have hk' : (k : K) ≠ 0 := Nat.cast_ne_zero.2 (by omega)
  unfold relativeContrast
  rw [contrastLoop_eq base [row] k samples pick [q].length (by simp)
    (fun _ => ratio base row row.length samples (pick 0) q * ((k : K) / (row.length : K))) [q] 0 0]
  · simp
  · intro j q' hj
    cases j with
    | succ j => simp at hj
    | zero =>
      simp only [List.getElem?_cons_zero, Option.some.injEq] at hj
      subst hj
      rw [Nat.add_zero, contrastOf_eq base [row] k samples (pick 0) 0 q row (fun s _ => hp 0 s) rfl
        (by rw [ht]; exact hi) hs (by omega) (by rw [ht]; exact hd), ht]
      unfold ratio
      rw [ht']
      generalize hn : mean ((List.range samples).map (fun s => sqDist q (base.getD (pick 0 s) []))) = num
      unfold mean
      rw [List.length_map]
      congr 2
      field_simp

/-- A float that is a number. -/
def Fl.Finite : Fl K → Prop
  | .fin _ => True
  | _ => False

omit [IsStrictOrderedRing K] in
theorem add_not_finite (x y : Fl K) (h : ¬ x.Finite) : ¬ (x.add y).Finite := by
  cases x <;> cases y <;> simp_all [Fl.Finite, Fl.add]

omit [IsStrictOrderedRing K] in
theorem loop_not_finite (base : List (List K)) (gt : List (List Nat)) (k samples : Nat) (pick : Nat → Nat → Nat) (nq : Nat) :
    ∀ (qs : List (List K)) (i : Nat) (m v : Fl K), ¬ m.Finite →
      contrastLoop base gt k samples pick nq i qs m = some v → ¬ v.Finite := by
  intro qs
  induction qs with
  | nil =>
    intro i m v hm h
    simp only [contrastLoop, Option.some.injEq] at h
    rwa [← h]
  | cons q qs ih =>
    intro i m v hm h
    unfold contrastLoop at h
    cases hc : contrastOf base gt k samples (pick i) i q with
    | none => simp [hc] at h
    | some r =>
      rw [hc] at h
      simp only [Option.bind_eq_bind, Option.bind_some] at h
      exact ih (i + 1) _ v (add_not_finite _ _ hm) h

/-- C130 (refuted: a contrast is a number): it is none for queries of which one is equal to all its neighbours, nor with no
samples, nor with `recall_at` zero. -/
theorem C130_finite_refuted (base queries : List (List K)) (gt : List (List Nat)) (k samples : Nat) (pick : Nat → Nat → Nat)
    (hp : ∀ i s, pick i s < base.length) (i : Nat) (q : List K) (hq : queries[i]? = some q) (row : List Nat)
    (hr : gt[i]? = some row) (hi : ∀ j ∈ row.take k, j < base.length)
    (hbad : samples = 0 ∨ k = 0 ∨ ((row.take k).map (fun j => sqDist q (base.getD j []))).sum = 0) :
    ∀ v, relativeContrast base queries gt k samples pick = some v → ¬ v.Finite := by
  have hof : ∃ r, contrastOf base gt k samples (pick i) i q = some r ∧ ¬ r.Finite := by
    unfold contrastOf averageSquaredDistance
    rw [sampleSum_eq q base (pick i) samples (fun s _ => hp i s), hr]
    simp only [Option.bind_eq_bind, Option.bind_some]
    rw [truthSum_eq q base _ hi]
    simp only [Option.bind_some, Option.some.injEq, exists_eq_left']
    rcases hbad with rfl | rfl | h
    · simp only [List.range_zero, List.map_nil, List.sum_nil, Nat.cast_zero, div, ne_eq, not_true_eq_false, ↓reduceIte]
      split_ifs <;> simp [Fl.div, Fl.Finite]
    · simp only [List.take_zero, List.map_nil, List.sum_nil, Nat.cast_zero, div, ne_eq, not_true_eq_false, ↓reduceIte]
      split_ifs <;> simp [Fl.div, Fl.Finite]
    · rw [h]
      simp only [div, zero_div]
      split_ifs <;> simp_all [Fl.div, Fl.Finite, div] <;> split_ifs <;> simp [Fl.Finite]
  have hgen : ∀ (qs : List (List K)) (j : Nat) (m v : Fl K) (n : Nat), qs[n]? = some q → j + n = i →
      contrastLoop base gt k samples pick queries.length j qs m = some v → ¬ v.Finite := by
    intro qs
    induction qs with
    | nil => intro j m v n h; simp at h
    | cons a qs ih =>
      intro j m v n h hj hl
      unfold contrastLoop at hl
      cases n with
      | zero =>
        simp only [List.getElem?_cons_zero, Option.some.injEq] at h
        subst h
        obtain rfl : j = i := by omega
        obtain ⟨r, h1, h2⟩ := hof
        rw [h1] at hl
        simp only [Option.bind_eq_bind, Option.bind_some] at hl
        refine loop_not_finite base gt k samples pick _ qs (j + 1) _ v ?_ hl
        cases r with
        | fin x => exact absurd trivial h2
        | inf => cases m <;> simp [Fl.div, Fl.add, Fl.Finite]
        | nan => cases m <;> simp [Fl.div, Fl.add, Fl.Finite]
      | succ n =>
        cases hc : contrastOf base gt k samples (pick j) j a with
        | none => simp [hc] at hl
        | some r =>
          rw [hc] at hl
          simp only [Option.bind_eq_bind, Option.bind_some] at hl
          exact ih (j + 1) _ v n (by simpa using h) (by omega) hl
  exact fun v h => hgen queries 0 (.fin 0) v i hq (by omega) h

omit [LinearOrder K] [IsStrictOrderedRing K] in
theorem squaredDistance_longer (x extra y : List K) (h : x.length = y.length) :
    squaredDistance (x ++ extra) y = squaredDistance x y := by
  unfold squaredDistance
  have : (x ++ extra).zip y = x.zip y := by
    conv_lhs => rw [← List.append_nil y]
    rw [List.zip_append h]
    simp
  rw [this]

/-- C130 (refuted: queries of another dimension are refused): coordinates beyond the dimension of the base are ignored. -/
theorem C130_dimension_refuted (base queries : List (List K)) (gt : List (List Nat)) (k samples : Nat) (pick : Nat → Nat → Nat)
    (d : Nat) (extra : List K) (hb : ∀ b ∈ base, b.length = d) (hq : ∀ q ∈ queries, q.length = d) :
    relativeContrast base (queries.map (· ++ extra)) gt k samples pick = relativeContrast base queries gt k samples pick := by
  have h1 : ∀ q : List K, q.length = d → ∀ p n, sampleSum (q ++ extra) base p n = sampleSum q base p n := by
    intro q hq p n
    induction n with
    | zero => rfl
    | succ n ih =>
      unfold sampleSum
      rw [ih]
      cases hx : base[p n]? with
      | none => rfl
      | some b => simp [squaredDistance_longer q extra b (by rw [hq, hb b (List.mem_of_getElem? hx)])]
  have h2 : ∀ q : List K, q.length = d → ∀ ids, truthSum (q ++ extra) base ids = truthSum q base ids := by
    intro q hq ids
    induction ids with
    | nil => rfl
    | cons j ids ih =>
      unfold truthSum
      rw [ih]
      cases hx : base[j]? with
      | none => rfl
      | some b => simp [squaredDistance_longer q extra b (by rw [hq, hb b (List.mem_of_getElem? hx)])]
  have h3 : ∀ q : List K, q.length = d → ∀ p i, contrastOf base gt k samples p i (q ++ extra) = contrastOf base gt k samples p i q := by
    intro q hq p i
    unfold contrastOf averageSquaredDistance
    simp only [h1 q hq, h2 q hq]
  unfold relativeContrast
  rw [List.length_map]
  generalize queries.length = nq
  generalize (Fl.fin (0 : K)) = m
  generalize 0 = i
  induction queries generalizing i m with
  | nil => rfl
  | cons q qs ih =>
    simp only [List.map_cons, contrastLoop]
    rw [h3 q (hq q (by simp))]
    cases contrastOf base gt k samples (pick i) i q with
    | none => rfl
    | some r =>
      simp only [Option.bind_eq_bind, Option.bind_some]
      exact ih (fun q hq' => hq q (by simp [hq'])) _ _

/-! ## Theorems on subsampling -/

/-- The rows whose draw is below the probability. -/
def kept (rows : List Row) (p : Nat → K) (pr : K) : List Row :=
  ((List.range rows.length).filter (fun i => decide (p i < pr))).filterMap (fun i => rows[i]?)

omit [Field K] [IsStrictOrderedRing K] in
theorem kept_mem (rows : List Row) (p : Nat → K) (pr : K) : ∀ r ∈ kept rows p pr, r ∈ rows := by
  intro r h
  unfold kept at h
  rw [List.mem_filterMap] at h
  obtain ⟨i, _, h⟩ := h
  exact List.mem_of_getElem? h

omit [Field K] [IsStrictOrderedRing K] in
theorem kept_length (rows : List Row) (p : Nat → K) (pr : K) : (kept rows p pr).length ≤ rows.length := by
  unfold kept
  refine le_trans (List.length_filterMap_le _ _) (le_trans (List.length_filter_le _ _) ?_)
  rw [List.length_range]

theorem write_rows (h1 h2 : List Byte) (rows : List Row) (hl : h1.length = h2.length) :
    (specWrites ([], 0) ((WOp.write h1 :: rows.map (fun r => WOp.write r)) ++ [.reset, .write h2])).1 = h2 ++ rows.flatten := by
  have hno : ∀ op ∈ (WOp.write h1 :: rows.map (fun r => WOp.write r)), op ≠ .reset := by
    intro op h
    rcases List.mem_cons.1 h with rfl | h
    · simp
    · obtain ⟨r, -, rfl⟩ := List.mem_map.1 h
      simp
  have hs := specWrites_append _ [] hno
  simp only [List.length_nil, List.nil_append, Nat.zero_add] at hs
  have hw : written (WOp.write h1 :: rows.map (fun r => WOp.write r)) = h1 ++ rows.flatten := by
    rw [written, written_rows]
  rw [specWrites_concat, hs, hw]
  simp only [specWrites, List.take_zero, List.nil_append, Nat.zero_add]
  rw [← hl, List.drop_append_of_le_length (le_refl _), List.drop_length, List.nil_append]

/-- C130: with a probability from 0 to 1, subsampling a vector file writes a vector file with exactly the rows drawn, in
order, and reports their number. -/
theorem C130_subsample (sz d : Nat) (rows : List Row) (file : List Byte) (h : VectorFile sz d rows file) (pr : K)
    (h0 : 0 ≤ pr) (h1 : pr ≤ 1) (p : Nat → K) :
    ∃ out, subsample sz file (some pr) p = .done out (kept rows p pr).length ∧ VectorFile sz d (kept rows p pr) out := by
  have hl := h.length
  have hnew : Sampler.new sz file = some ⟨file, rows.length, d * sz, 8, 0⟩ := by
    unfold Sampler.new
    rw [h.metadata]
    dsimp only
    rw [if_neg (by rw [hl, Nat.mul_assoc]; simp)]
  have hc : (kept rows p pr).length < 2 ^ 32 := lt_of_le_of_lt (kept_length rows p pr) h.count
  obtain ⟨i1, i2, _⟩ := samp_all (fun _ => true) (fun _ => rfl) rows
    ((List.range rows.length).filter (fun i => decide (p i < pr))) ⟨file, rows.length, d * sz, 8, 0⟩ []
    ⟨rfl, h.width, hl, h.drop8, by simp⟩
  have hall : ((List.range rows.length).filter (fun i => decide (p i < pr))).takeWhile (fun i => decide (i < rows.length)) =
      (List.range rows.length).filter (fun i => decide (p i < pr)) := by
    have tw : ∀ (l : List Nat), (∀ i ∈ l, i < rows.length) → l.takeWhile (fun i => decide (i < rows.length)) = l := by
      intro l hl
      induction l with
      | nil => rfl
      | cons a l ih =>
        rw [List.takeWhile_cons_of_pos (by simpa using hl a (by simp)), ih (fun i hi => hl i (by simp [hi]))]
    exact tw _ (fun i hi => List.mem_range.1 (List.mem_of_mem_filter hi))
  rw [hall] at i1 i2
  rw [List.nil_append] at i1
  simp only [decide_true] at i2
  change _ = kept rows p pr at i1
  refine ⟨leEncode 4 (kept rows p pr).length ++ leEncode 4 d ++ (kept rows p pr).flatten, ?_,
    ⟨fun r hr => h.width r (kept_mem rows p pr r hr), hc, h.dim, rfl⟩⟩
  unfold subsample
  simp only [h0, h1, and_self, ↓reduceIte, h.metadata, hnew]
  simp only [metadataBytes, h.count, h.dim, and_self, ↓reduceIte, i1, i2, hc]
  rw [write_rows _ _ _ (by simp [leEncode_length])]

theorem filterMap_range (l : List Row) : (List.range l.length).filterMap (fun i => l[i]?) = l := by
  induction l with
  | nil => rfl
  | cons a l ih =>
    rw [List.length_cons, List.range_succ_eq_map, List.filterMap_cons_some (by rfl), List.filterMap_map]
    simp only [Function.comp_def, List.getElem?_cons_succ]
    rw [ih]

/-- C130: probability 1 keeps the file as it is, probability 0 keeps no row, for draws from 0 to below 1. -/
theorem C130_extremes (sz d : Nat) (rows : List Row) (file : List Byte) (h : VectorFile sz d rows file) (p : Nat → K)
    (h0 : ∀ i, 0 ≤ p i) (h1 : ∀ i, p i < 1) :
    subsample sz file (some 1) p = .done file rows.length ∧
    ∃ out, subsample sz file (some 0) p = .done out 0 ∧ VectorFile sz d [] out := by
  constructor
  · obtain ⟨out, e, v⟩ := C130_subsample sz d rows file h 1 zero_le_one (le_refl _) p
    have hk : kept rows p 1 = rows := by
      unfold kept
      rw [List.filter_eq_self.2 (fun i _ => by simpa using h1 i)]
      exact filterMap_range rows
    rw [hk] at e v
    rw [e, v.bytes, ← h.bytes]
  · obtain ⟨out, e, v⟩ := C130_subsample sz d rows file h 0 (le_refl _) zero_le_one p
    have hk : kept rows p 0 = [] := by
      unfold kept
      rw [List.filter_eq_nil_iff.2 (fun i _ => by simpa using h0 i)]
      rfl
    rw [hk] at e v
    exact ⟨out, e, v⟩

/-- C130: any other probability, a NaN included, is refused before the output is created, and so is a file that lost its
end. -/
theorem C130_subsample_refused (sz d : Nat) (rows : List Row) (file : List Byte) (h : VectorFile sz d rows file) (p : Nat → K) :
    (∀ f, subsample sz f (none : Option K) p = .badProbability) ∧
    (∀ f (pr : K), pr < 0 ∨ 1 < pr → subsample sz f (some pr) p = .badProbability) ∧
    ∀ n, n < file.length → ∀ pr : K, 0 ≤ pr → pr ≤ 1 → subsample sz (file.take n) (some pr) p = .badInput := by
  refine ⟨fun _ => rfl, fun f pr hpr => ?_, fun n hn pr h0 h1 => ?_⟩
  · unfold subsample
    simp only
    rw [if_neg]
    rintro ⟨a, b⟩
    rcases hpr with hx | hx
    · exact absurd a (not_le.2 hx)
    · exact absurd b (not_le.2 hx)
  · unfold subsample
    simp only [h0, h1, and_self, ↓reduceIte]
    rw [(C70_truncated_refused sz d rows file n h hn).2]
    cases readMetadata (file.take n) <;> rfl

/-! ## Concrete cases -/

/-- Two base points, one query with its neighbour: `(1 + 9) / 2` over `1`. -/
example : relativeContrast (K := ℚ) [[1], [3]] [[0]] [[0]] 1 2 (fun _ s => s) = some (.fin 5) := by decide +kernel

/-- The same with `recall_at` two and one neighbour in the file: twice as much. -/
example : relativeContrast (K := ℚ) [[1], [3]] [[0]] [[0]] 2 2 (fun _ s => s) = some (.fin 10) := by decide +kernel

/-- A query among the base points. -/
example : relativeContrast (K := ℚ) [[1], [3]] [[1]] [[0]] 1 2 (fun _ s => s) = some .inf := by decide +kernel

/-- Every other row of three. -/
example : subsample (K := ℚ) 1 (saveToBin demoRows 2) (some (1 / 2)) (fun i => if i % 2 = 0 then 0 else 3 / 4) =
    .done (saveToBin [[1, 2], [5, 6]] 2) 2 := by decide +kernel

example : VectorFile 1 2 demoRows (saveToBin demoRows 2) :=
  C70_save_layout 1 2 demoRows (by decide) (by decide) (by decide)

end Verif.Tools.Contrast
