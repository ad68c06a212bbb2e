import Verif.Start.Model
import Verif.Start.Spec
import Verif.Disk.VectorFileProps
import Mathlib.Data.List.GetD
import Mathlib.Tactic.Linarith
import Mathlib.Tactic.FieldSimp
import Mathlib.Tactic.Ring
import Mathlib.Algebra.Order.BigOperators.Group.List

/-! # Lemmas for C100 -/

namespace Verif.Start

open Verif.Disk (Row Byte VIter Sampler readMetadata VectorFile)

/-! ### Sums and distances of finite vectors -/

theorem zipWith_fadd_some (a b : List Rat) :
    List.zipWith fadd (a.map some) (b.map some) = (List.zipWith (· + ·) a b).map some := by
  induction a generalizing b with
  | nil => simp
  | cons x a ih =>
    cases b with
    | nil => simp
    | cons y b => simp only [List.map_cons, List.zipWith_cons_cons, ih]; rfl

theorem foldl_sum_some (vs : List (List Rat)) (acc : List Rat) :
    (vs.map (·.map some)).foldl (fun s r => List.zipWith fadd s r) (acc.map some) =
      (vs.foldl (fun s r => List.zipWith (· + ·) s r) acc).map some := by
  induction vs generalizing acc with
  | nil => rfl
  | cons v vs ih => simp only [List.map_cons, List.foldl_cons, zipWith_fadd_some]; exact ih _

theorem foldl_sum_length (vs : List (List Rat)) (acc : List Rat) (d : Nat) (hv : ∀ v ∈ vs, v.length = d)
    (ha : acc.length = d) : (vs.foldl (fun s r => List.zipWith (· + ·) s r) acc).length = d := by
  induction vs generalizing acc with
  | nil => exact ha
  | cons v vs ih =>
    simp only [List.foldl_cons]
    exact ih _ (fun w hw => hv w (List.mem_cons_of_mem _ hw)) (by simp [ha, hv v List.mem_cons_self])

theorem foldl_sum_get (vs : List (List Rat)) (acc : List Rat) (d : Nat) (hv : ∀ v ∈ vs, v.length = d)
    (ha : acc.length = d) (j : Nat) (hj : j < d) :
    (vs.foldl (fun s r => List.zipWith (· + ·) s r) acc)[j]? =
      some (acc.getD j 0 + (vs.map fun v => v.getD j 0).sum) := by
  induction vs generalizing acc with
  | nil => simp [List.getD_eq_getElem?_getD, List.getElem?_eq_getElem (ha ▸ hj)]
  | cons v vs ih =>
    have hvl := hv v List.mem_cons_self
    simp only [List.foldl_cons]
    rw [ih _ (fun w hw => hv w (List.mem_cons_of_mem _ hw)) (by simp [ha, hvl])]
    have h1 : j < acc.length := by omega
    have h2 : j < v.length := by omega
    simp [List.getD_eq_getElem?_getD, List.getElem?_zipWith, List.getElem?_eq_getElem h1,
      List.getElem?_eq_getElem h2]
    ring

/-- The mean the code computes on finite vectors. -/
def meanOf (d : Nat) (vs : List (List Rat)) : List Rat :=
  (vs.foldl (fun s r => List.zipWith (· + ·) s r) (List.replicate d 0)).map (· / (vs.length : Rat))

theorem meanOf_isMean (d : Nat) (vs : List (List Rat)) (hv : ∀ v ∈ vs, v.length = d) : IsMean vs d (meanOf d vs) := by
  refine ⟨by simp [meanOf, foldl_sum_length vs _ d hv], fun j hj => ?_⟩
  rw [meanOf, List.getElem?_map, foldl_sum_get vs _ d hv (by simp) j hj]
  simp [List.getD_eq_getElem?_getD, hj]

theorem isMean_unique {vs : List (List Rat)} {d : Nat} {a b : List Rat} (ha : IsMean vs d a) (hb : IsMean vs d b) :
    a = b := by
  apply List.ext_getElem?
  intro j
  by_cases hj : j < d
  · rw [ha.coord j hj, hb.coord j hj]
  · rw [List.getElem?_eq_none (by rw [ha.len]; omega), List.getElem?_eq_none (by rw [hb.len]; omega)]

theorem divAll_some (n : Nat) (s : List Rat) : divAll n (s.map some) = (s.map (· / (n : Rat))).map some := by
  simp [divAll]

theorem mean_some (d : Nat) (vs : List (List Rat)) :
    divAll vs.length (colSums d (vs.map (·.map some))) = (meanOf d vs).map some := by
  have e : List.replicate d (some (0 : Rat)) = (List.replicate d (0 : Rat)).map some := by simp
  rw [colSums, e, foldl_sum_some, divAll_some, meanOf]

theorem foldl_fadd_some (l : List Rat) (a : Rat) : (l.map some).foldl fadd (some a) = some (a + l.sum) := by
  induction l generalizing a with
  | nil => simp
  | cons x l ih =>
    simp only [List.map_cons, List.foldl_cons, List.sum_cons]
    rw [show fadd (some a) (some x) = some (a + x) from rfl, ih, add_assoc]

theorem sqL2_some (a b : List Rat) : sqL2 (a.map some) (b.map some) = some (dist2 a b) := by
  have e : List.zipWith fsq (a.map some) (b.map some) = (List.zipWith (fun x y => (x - y) * (x - y)) a b).map some := by
    induction a generalizing b with
    | nil => simp
    | cons x a ih =>
      cases b with
      | nil => simp
      | cons y b => simp only [List.map_cons, List.zipWith_cons_cons, ih]; rfl
  rw [sqL2, e, foldl_fadd_some, zero_add, dist2]

/-! ### Values that are not finite -/

theorem foldl_fadd_none (l : List F) : l.foldl fadd none = none := by
  induction l with
  | nil => rfl
  | cons x l ih => simp only [List.foldl_cons]; exact ih

theorem foldl_fadd_mem (l : List F) (a : F) (h : none ∈ l) : l.foldl fadd a = none := by
  induction l generalizing a with
  | nil => simp at h
  | cons x l ih =>
    simp only [List.foldl_cons]
    rcases List.mem_cons.1 h with rfl | h
    · have : fadd a none = none := by cases a <;> rfl
      rw [this, foldl_fadd_none]
    · exact ih _ h

theorem sqL2_none (m r : List F) (j : Nat) (hm : m[j]? = some none) (hr : j < r.length) : sqL2 m r = none := by
  apply foldl_fadd_mem
  apply List.mem_iff_getElem?.2
  refine ⟨j, ?_⟩
  rw [List.getElem?_zipWith, hm, List.getElem?_eq_getElem hr]
  rfl

theorem foldl_sum_none (rows : List (List F)) (acc : List F) (d j : Nat) (hr : ∀ r ∈ rows, r.length = d)
    (ha : acc.length = d) (hj : j < d) (h : acc[j]? = some none ∨ ∃ r ∈ rows, r[j]? = some none) :
    (rows.foldl (fun s r => List.zipWith fadd s r) acc)[j]? = some none := by
  induction rows generalizing acc with
  | nil => simpa using h
  | cons r rows ih =>
    simp only [List.foldl_cons]
    have hrl := hr r List.mem_cons_self
    refine ih _ (fun w hw => hr w (List.mem_cons_of_mem _ hw)) (by simp [ha, hrl]) ?_
    have h1 : j < acc.length := by omega
    have h2 : j < r.length := by omega
    rcases h with h | ⟨w, hw, hn⟩
    · left
      rw [List.getElem?_zipWith, h, List.getElem?_eq_getElem h2]; rfl
    · rcases List.mem_cons.1 hw with rfl | hw
      · left
        rw [List.getElem?_zipWith, hn, List.getElem?_eq_getElem h1]
        cases acc[j] <;> rfl
      · exact Or.inr ⟨w, hw, hn⟩

/-! ### The closest row -/

theorem closest_spec {T : Type} (val : T → F) (m : List F) (min : Rat) (best : Option (List T)) (rows : List (List T)) :
    (closest val m min best rows = best ∧ ∀ r ∈ rows, ∀ d, sqL2 m (r.map val) = some d → min ≤ d) ∨
    ∃ (i : Nat) (r : List T) (d : Rat), rows[i]? = some r ∧ sqL2 m (r.map val) = some d ∧ d < min ∧
      closest val m min best rows = some r ∧
      ∀ (j : Nat) (r' : List T) (d' : Rat), rows[j]? = some r' → sqL2 m (r'.map val) = some d' →
        d ≤ d' ∧ (j < i → d < d') := by
  induction rows generalizing min best with
  | nil => left; simp [closest]
  | cons r rows ih =>
    cases hd : sqL2 m (r.map val) with
    | none =>
      have e : closest val m min best (r :: rows) = closest val m min best rows := by simp only [closest, hd]
      rw [e]
      rcases ih min best with ⟨h1, h2⟩ | ⟨i, r1, d1, h1, h2, h3, h4, h5⟩
      · left
        refine ⟨h1, fun w hw d hwd => ?_⟩
        rcases List.mem_cons.1 hw with rfl | hw
        · rw [hd] at hwd; cases hwd
        · exact h2 w hw d hwd
      · right
        refine ⟨i + 1, r1, d1, h1, h2, h3, h4, fun j r' d' hj hd' => ?_⟩
        cases j with
        | zero =>
          simp only [List.getElem?_cons_zero, Option.some.injEq] at hj
          rw [← hj, hd] at hd'; cases hd'
        | succ j => exact ⟨(h5 j r' d' hj hd').1, fun h => (h5 j r' d' hj hd').2 (by omega)⟩
    | some d0 =>
      by_cases hlt : d0 < min
      · have e : closest val m min best (r :: rows) = closest val m d0 (some r) rows := by
          simp only [closest, hd, if_pos hlt]
        rw [e]
        right
        rcases ih d0 (some r) with ⟨h1, h2⟩ | ⟨i, r1, d1, h1, h2, h3, h4, h5⟩
        · refine ⟨0, r, d0, rfl, hd, hlt, h1, fun j r' d' hj hd' => ⟨?_, fun h => absurd h (Nat.not_lt_zero _)⟩⟩
          cases j with
          | zero =>
            simp only [List.getElem?_cons_zero, Option.some.injEq] at hj
            rw [← hj, hd] at hd'; cases hd'; exact le_refl _
          | succ j => exact h2 r' (List.mem_of_getElem? hj) d' hd'
        · refine ⟨i + 1, r1, d1, h1, h2, lt_trans h3 hlt, h4, fun j r' d' hj hd' => ?_⟩
          cases j with
          | zero =>
            simp only [List.getElem?_cons_zero, Option.some.injEq] at hj
            rw [← hj, hd] at hd'; cases hd'; exact ⟨le_of_lt h3, fun _ => h3⟩
          | succ j => exact ⟨(h5 j r' d' hj hd').1, fun h => (h5 j r' d' hj hd').2 (by omega)⟩
      · have e : closest val m min best (r :: rows) = closest val m min best rows := by
          simp only [closest, hd, if_neg hlt]
        rw [e]
        rcases ih min best with ⟨h1, h2⟩ | ⟨i, r1, d1, h1, h2, h3, h4, h5⟩
        · left
          refine ⟨h1, fun w hw d hwd => ?_⟩
          rcases List.mem_cons.1 hw with rfl | hw
          · rw [hd] at hwd; cases hwd; exact not_lt.1 hlt
          · exact h2 w hw d hwd
        · right
          refine ⟨i + 1, r1, d1, h1, h2, h3, h4, fun j r' d' hj hd' => ?_⟩
          cases j with
          | zero =>
            simp only [List.getElem?_cons_zero, Option.some.injEq] at hj
            rw [← hj, hd] at hd'; cases hd'
            have := lt_of_lt_of_le h3 (not_lt.1 hlt)
            exact ⟨le_of_lt this, fun _ => this⟩
          | succ j => exact ⟨(h5 j r' d' hj hd').1, fun h => (h5 j r' d' hj hd').2 (by omega)⟩

/-- The file loop agrees with the matrix loop: same row, with its position. -/
theorem nearest_closest (R : Repr) (c : List F) (id : Nat) (min : Rat) (best : Option (Row × Nat)) (rows : List Row)
    (f : Row → List F) (hf : ∀ r ∈ rows, R.asF32 r = some (f r)) (hl : ∀ r ∈ rows, (f r).length = c.length) :
    ∃ res, nearestWithId R c id min best rows = .ok res ∧
      ((res = best ∧ ∀ r ∈ rows, ∀ d, sqL2 c (f r) = some d → min ≤ d) ∨
      ∃ (i : Nat) (r : Row) (d : Rat), rows[i]? = some r ∧ sqL2 c (f r) = some d ∧ d < min ∧ res = some (r, id + i) ∧
        ∀ (j : Nat) (r' : Row) (d' : Rat), rows[j]? = some r' → sqL2 c (f r') = some d' →
          d ≤ d' ∧ (j < i → d < d')) := by
  induction rows generalizing id min best with
  | nil => exact ⟨best, rfl, Or.inl ⟨rfl, by simp⟩⟩
  | cons r rows ih =>
    have hfr := hf r List.mem_cons_self
    have hlr := hl r List.mem_cons_self
    have hf' := fun w hw => hf w (List.mem_cons_of_mem r hw)
    have hl' := fun w hw => hl w (List.mem_cons_of_mem r hw)
    have hne : ¬ c.length ≠ (f r).length := by simp [hlr]
    cases hd : sqL2 c (f r) with
    | none =>
      have e : nearestWithId R c id min best (r :: rows) = nearestWithId R c (id + 1) min best rows := by
        simp only [nearestWithId, hfr, if_neg hne, hd]
      rw [e]
      obtain ⟨res, hres, h⟩ := ih (id + 1) min best hf' hl'
      refine ⟨res, hres, ?_⟩
      rcases h with ⟨h1, h2⟩ | ⟨i, r1, d1, h1, h2, h3, h4, h5⟩
      · left
        refine ⟨h1, fun w hw d hwd => ?_⟩
        rcases List.mem_cons.1 hw with rfl | hw
        · rw [hd] at hwd; cases hwd
        · exact h2 w hw d hwd
      · right
        refine ⟨i + 1, r1, d1, h1, h2, h3, by rw [h4, Nat.add_right_comm, Nat.add_assoc], fun j r' d' hj hd' => ?_⟩
        cases j with
        | zero =>
          simp only [List.getElem?_cons_zero, Option.some.injEq] at hj
          rw [← hj, hd] at hd'; cases hd'
        | succ j => exact ⟨(h5 j r' d' hj hd').1, fun h => (h5 j r' d' hj hd').2 (by omega)⟩
    | some d0 =>
      by_cases hlt : d0 < min
      · have e : nearestWithId R c id min best (r :: rows) = nearestWithId R c (id + 1) d0 (some (r, id)) rows := by
          simp only [nearestWithId, hfr, if_neg hne, hd, if_pos hlt]
        rw [e]
        obtain ⟨res, hres, h⟩ := ih (id + 1) d0 (some (r, id)) hf' hl'
        refine ⟨res, hres, Or.inr ?_⟩
        rcases h with ⟨h1, h2⟩ | ⟨i, r1, d1, h1, h2, h3, h4, h5⟩
        · refine ⟨0, r, d0, rfl, hd, hlt, h1, fun j r' d' hj hd' => ⟨?_, fun h => absurd h (Nat.not_lt_zero _)⟩⟩
          cases j with
          | zero =>
            simp only [List.getElem?_cons_zero, Option.some.injEq] at hj
            rw [← hj, hd] at hd'; cases hd'; exact le_refl _
          | succ j => exact h2 r' (List.mem_of_getElem? hj) d' hd'
        · refine ⟨i + 1, r1, d1, h1, h2, lt_trans h3 hlt, by rw [h4, Nat.add_right_comm, Nat.add_assoc],
            fun j r' d' hj hd' => ?_⟩
          cases j with
          | zero =>
            simp only [List.getElem?_cons_zero, Option.some.injEq] at hj
            rw [← hj, hd] at hd'; cases hd'; exact ⟨le_of_lt h3, fun _ => h3⟩
          | succ j => exact ⟨(h5 j r' d' hj hd').1, fun h => (h5 j r' d' hj hd').2 (by omega)⟩
      · have e : nearestWithId R c id min best (r :: rows) = nearestWithId R c (id + 1) min best rows := by
          simp only [nearestWithId, hfr, if_neg hne, hd, if_neg hlt]
        rw [e]
        obtain ⟨res, hres, h⟩ := ih (id + 1) min best hf' hl'
        refine ⟨res, hres, ?_⟩
        rcases h with ⟨h1, h2⟩ | ⟨i, r1, d1, h1, h2, h3, h4, h5⟩
        · left
          refine ⟨h1, fun w hw d hwd => ?_⟩
          rcases List.mem_cons.1 hw with rfl | hw
          · rw [hd] at hwd; cases hwd; exact not_lt.1 hlt
          · exact h2 w hw d hwd
        · right
          refine ⟨i + 1, r1, d1, h1, h2, h3, by rw [h4, Nat.add_right_comm, Nat.add_assoc], fun j r' d' hj hd' => ?_⟩
          cases j with
          | zero =>
            simp only [List.getElem?_cons_zero, Option.some.injEq] at hj
            rw [← hj, hd] at hd'; cases hd'
            have := lt_of_lt_of_le h3 (not_lt.1 hlt)
            exact ⟨le_of_lt this, fun _ => this⟩
          | succ j => exact ⟨(h5 j r' d' hj hd').1, fun h => (h5 j r' d' hj hd').2 (by omega)⟩

/-! ### Latin hypercube -/

theorem mapM_some_iff {α β : Type} (f : α → Option β) (l : List α) (g : List β) :
    l.mapM f = some g ↔ l.map f = g.map some := by
  induction l generalizing g with
  | nil => cases g <;> simp
  | cons x l ih =>
    rw [List.mapM_cons]
    cases hx : f x with
    | none => cases g <;> simp [hx]
    | some y =>
      cases hl : l.mapM f with
      | none =>
        cases g with
        | nil => simp
        | cons z g =>
          simp only [List.map_cons, hx, List.cons.injEq]
          constructor
          · intro h; simp at h
          · intro h
            have := (ih g).2 h.2
            rw [hl] at this; cases this
      | some ys =>
        have := (ih ys).1 hl
        cases g with
        | nil => simp
        | cons z g =>
          simp only [List.map_cons, hx, List.cons.injEq]
          constructor
          · intro h
            simp at h
            exact ⟨by rw [h.1], by rw [this, h.2]⟩
          · intro h
            have h2 := (ih g).2 h.2
            rw [hl] at h2
            simp only [Option.some.injEq] at h h2
            simp [h.1, h2]

/-- `n` rows of length `d`. -/
def Shape {T : Type} (m : List (List T)) (n d : Nat) : Prop := m.length = n ∧ ∀ r ∈ m, r.length = d

theorem Shape.cell {T : Type} {m : List (List T)} {n d : Nat} (h : Shape m n d) {s j : Nat} (hs : s < n) (hj : j < d) :
    ∃ x, cell m s j = some x := by
  have h1 : s < m.length := by rw [h.1]; exact hs
  have h2 : j < (m[s]).length := by rw [h.2 _ (List.getElem_mem h1)]; exact hj
  exact ⟨m[s][j], by simp [Verif.Start.cell, List.getElem?_eq_getElem h1, List.getElem?_eq_getElem h2]⟩

theorem latinCell_some {T : Type} (rows : List (List T)) (n d raw s j : Nat) (hr : ∀ r ∈ rows, r.length = d)
    (hn : n ≤ rows.length) (hs : s < n) (hj : j < d) :
    ∃ r x, s * (rows.length / n) ≤ r ∧ r < (s + 1) * (rows.length / n) ∧ cell rows r j = some x ∧
      latinCell rows n raw s j = some x := by
  have hstep : 0 < rows.length / n := Nat.div_pos hn (by omega)
  have hlt : s * (rows.length / n) < (s + 1) * (rows.length / n) := by rw [Nat.succ_mul]; omega
  have hmod : raw % ((s + 1) * (rows.length / n) - s * (rows.length / n)) <
      (s + 1) * (rows.length / n) - s * (rows.length / n) := Nat.mod_lt _ (by omega)
  obtain ⟨r, hrdef⟩ : ∃ r, r = s * (rows.length / n) +
    raw % ((s + 1) * (rows.length / n) - s * (rows.length / n)) := ⟨_, rfl⟩
  have hlast : (s + 1) * (rows.length / n) ≤ rows.length := by
    calc (s + 1) * (rows.length / n) ≤ n * (rows.length / n) := Nat.mul_le_mul_right _ hs
      _ ≤ rows.length := Nat.mul_div_le _ _
  have hrl : r < rows.length := by omega
  obtain ⟨x, hx⟩ := Shape.cell (m := rows) ⟨rfl, hr⟩ hrl hj
  refine ⟨r, x, by omega, by omega, hx, ?_⟩
  unfold latinCell drawRange
  dsimp only
  rw [if_pos hlt, Option.bind_some, ← hrdef]
  exact hx

theorem latinFill_some {T : Type} (rows : List (List T)) (n d : Nat) (raw : Nat → Nat → Nat)
    (hr : ∀ r ∈ rows, r.length = d) (hn : n ≤ rows.length) :
    ∃ m, latinFill rows n d raw = some m ∧ Shape m n d ∧
      ∀ s < n, ∀ j < d, ∃ r x, s * (rows.length / n) ≤ r ∧ r < (s + 1) * (rows.length / n) ∧
        cell rows r j = some x ∧ cell m s j = some x := by
  have hrow : ∀ s : Nat, ∃ g : List T, s < n → (List.range d).mapM (fun idx => latinCell rows n (raw s idx) s idx) = some g := by
    intro s
    by_cases hs : s < n
    · have : ∀ j : Nat, ∃ x : Option T, j < d → ∃ y, x = some y ∧ latinCell rows n (raw s j) s j = some y := by
        intro j
        by_cases hj : j < d
        · obtain ⟨r, x, -, -, -, h⟩ := latinCell_some rows n d (raw s j) s j hr hn hs hj
          exact ⟨some x, fun _ => ⟨x, rfl, h⟩⟩
        · exact ⟨none, fun h => absurd h hj⟩
      choose f hf using this
      refine ⟨(List.range d).filterMap f, fun _ => (mapM_some_iff _ _ _).2 ?_⟩
      apply List.ext_getElem?
      have hfm : ∀ k, k ≤ d → ((List.range k).filterMap f).map some =
          (List.range k).map fun idx => latinCell rows n (raw s idx) s idx := by
        intro k
        induction k with
        | zero => intro _; rfl
        | succ k ih =>
          intro hk
          obtain ⟨y, hy1, hy2⟩ := hf k (by omega)
          rw [List.range_succ, List.filterMap_append, List.map_append, List.map_append, ih (by omega)]
          simp [hy1, hy2]
      intro i
      rw [hfm d (Nat.le_refl d)]
    · exact ⟨[], fun h => absurd h hs⟩
  choose g hg using hrow
  refine ⟨(List.range n).map g, (mapM_some_iff _ _ _).2 ?_, ⟨by simp, ?_⟩, ?_⟩
  · rw [List.map_map]
    apply List.map_congr_left
    intro s hs
    exact hg s (List.mem_range.1 hs)
  · intro r hr'
    obtain ⟨s, hs, rfl⟩ := List.mem_map.1 hr'
    have := (mapM_some_iff _ _ _).1 (hg s (List.mem_range.1 hs))
    have := congrArg List.length this
    simpa using this.symm
  · intro s hs j hj
    obtain ⟨r, x, h1, h2, h3, h4⟩ := latinCell_some rows n d (raw s j) s j hr hn hs hj
    refine ⟨r, x, h1, h2, h3, ?_⟩
    have := (mapM_some_iff _ _ _).1 (hg s hs)
    have e := congrArg (fun l => l[j]?) this
    simp only [List.getElem?_map, List.getElem?_range hj, Option.map_some, h4] at e
    unfold cell
    simp only [List.getElem?_map, List.getElem?_range hs, Option.map_some, Option.bind_some]
    cases hx : (g s)[j]? with
    | none => rw [hx] at e; cases e
    | some y => rw [hx] at e; simp only [Option.map_some, Option.some.injEq] at e; rw [e]

/-- The row a swap takes its value from. -/
def swapIdx (a b s : Nat) : Nat := if s = a then b else if s = b then a else s

theorem swapCell_spec {T : Type} (m : List (List T)) (n d a b j : Nat) (h : Shape m n d) (ha : a < n) (hb : b < n)
    (hj : j < d) :
    Shape (swapCell m a b j) n d ∧ ∀ s j', cell (swapCell m a b j) s j' =
      if j' = j then cell m (swapIdx a b s) j else cell m s j' := by
  obtain ⟨x, hx⟩ := h.cell ha hj
  obtain ⟨y, hy⟩ := h.cell hb hj
  have e : swapCell m a b j = (m.modify a (·.set j y)).modify b (·.set j x) := by
    unfold swapCell
    unfold cell at hx hy
    rw [hx, hy]
  rw [e]
  have hshape : Shape ((m.modify a (·.set j y)).modify b (·.set j x)) n d := by
    refine ⟨by simp [h.1], fun r hr => ?_⟩
    obtain ⟨i, hi⟩ := List.mem_iff_getElem?.1 hr
    rw [List.getElem?_modify, List.getElem?_modify] at hi
    cases hm : m[i]? with
    | none => rw [hm] at hi; simp at hi
    | some w =>
      rw [hm] at hi
      have hw := h.2 w (List.mem_of_getElem? hm)
      rw [← Option.some.inj hi]
      dsimp only
      split <;> split <;> simp [hw]
  refine ⟨hshape, fun s j' => ?_⟩
  have hjl : ∀ (i : Nat) (w : List T), m[i]? = some w → j < w.length := fun i w hw => by
    rw [h.2 w (List.mem_of_getElem? hw)]; exact hj
  unfold cell
  rw [List.getElem?_modify, List.getElem?_modify]
  cases hm : m[s]? with
  | none =>
    have hs : ¬ s < n := by
      intro hs; rw [List.getElem?_eq_getElem (by rw [h.1]; exact hs)] at hm; cases hm
    have : swapIdx a b s = s := by unfold swapIdx; rw [if_neg (by omega), if_neg (by omega)]
    split <;> simp [this, hm]
  | some w =>
    have hw := hjl s w hm
    simp only [Option.map_some, Option.bind_some]
    by_cases hj' : j' = j
    · subst hj'
      rw [if_pos rfl]
      unfold swapIdx
      unfold cell at hx hy
      by_cases hsa : s = a
      · subst hsa
        rw [if_pos rfl]
        by_cases hsb : b = s
        · subst hsb
          simp [hw, hx]
        · simp [hsb, hw, hy]
      · rw [if_neg hsa]
        by_cases hsb : s = b
        · subst hsb
          simp [hw, Ne.symm hsa, hx]
        · simp [Ne.symm hsa, Ne.symm hsb, hsb, hm]
    · rw [if_neg hj']
      split <;> split <;> simp [List.getElem?_set, Ne.symm hj']

theorem swapIdx_lt {a b s n : Nat} (ha : a < n) (hb : b < n) (hs : s < n) : swapIdx a b s < n := by
  unfold swapIdx; split <;> [exact hb; (split <;> [exact ha; exact hs])]

theorem swapIdx_inj {a b s t : Nat} (h : swapIdx a b s = swapIdx a b t) : s = t := by
  unfold swapIdx at h
  split at h <;> split at h <;> (try split at h) <;> (try split at h) <;> omega

theorem swap_slices {T : Type} (rows m : List (List T)) (n d a b j : Nat) (h : Shape m n d) (ha : a < n) (hb : b < n)
    (hj : j < d) (hp : OnePerSlice rows m n d) : OnePerSlice rows (swapCell m a b j) n d := by
  obtain ⟨-, hc⟩ := swapCell_spec m n d a b j h ha hb hj
  intro j' hj'
  obtain ⟨sl, h1, h2, h3⟩ := hp j' hj'
  by_cases e : j' = j
  · subst e
    refine ⟨fun s => sl (swapIdx a b s), fun s hs => h1 _ (swapIdx_lt ha hb hs), fun s hs t ht est => ?_,
      fun s hs => ?_⟩
    · exact swapIdx_inj (h2 _ (swapIdx_lt ha hb hs) _ (swapIdx_lt ha hb ht) est)
    · obtain ⟨r, x, q1, q2, q3, q4⟩ := h3 _ (swapIdx_lt ha hb hs)
      exact ⟨r, x, q1, q2, q3, by rw [hc, if_pos rfl, q4]⟩
  · refine ⟨sl, h1, h2, fun s hs => ?_⟩
    obtain ⟨r, x, q1, q2, q3, q4⟩ := h3 s hs
    exact ⟨r, x, q1, q2, q3, by rw [hc, if_neg e, q4]⟩

theorem shuffle_spec {T : Type} (rows : List (List T)) (n d : Nat) (raw : Nat → Nat → Nat) (l : List (Nat × Nat))
    (hl : ∀ p ∈ l, p.1 < n ∧ p.2 < d) (m : List (List T)) (h : Shape m n d) (hp : OnePerSlice rows m n d) :
    Shape (shuffle n raw l m) n d ∧ OnePerSlice rows (shuffle n raw l m) n d := by
  induction l generalizing m with
  | nil => exact ⟨h, hp⟩
  | cons p l ih =>
    obtain ⟨s, j⟩ := p
    have hsj := hl (s, j) List.mem_cons_self
    have hb : raw s j % n < n := Nat.mod_lt _ (by omega)
    exact ih (fun q hq => hl q (List.mem_cons_of_mem _ hq)) _ (swapCell_spec m n d s _ j h hsj.1 hb hsj.2).1
      (swap_slices rows m n d s _ j h hsj.1 hb hsj.2 hp)

/-! ### Files -/

theorem all_rows {sz d : Nat} {rows : List Row} {file : List Byte} (h : VectorFile sz d rows file) (hpos : 0 < d * sz) :
    ∃ it, VIter.new sz file = some it ∧ it.num = rows.length ∧ it.all (it.num + 1) = rows := by
  refine ⟨⟨file, 8, d * sz, rows.length, 0⟩, ?_, rfl, ?_⟩
  · unfold VIter.new; rw [h.metadata]; rfl
  · have hl := h.length
    have hfl := Verif.Disk.flatten_length_rows _ _ h.width
    have := Verif.Disk.all_truncated (rows.length + 1) ⟨file, 8, d * sz, rows.length, 0⟩ rows rows.flatten.length hpos
      h.width (by simp) (by dsimp only; omega) (by rw [h.drop8, List.take_of_length_le (Nat.le_refl _)])
      (Nat.le_refl _) (by omega)
    rw [this, hfl]
    dsimp only
    rw [Nat.mul_div_cancel _ hpos, List.take_of_length_le (Nat.le_refl _)]

theorem sampled_rows {sz d : Nat} {rows : List Row} {file : List Byte} (h : VectorFile sz d rows file) (rate : Rat)
    (p : Nat → Rat) :
    ∃ s, Sampler.new sz file = some s ∧ s.npts = rows.length ∧
      (s.readVectors (fun _ => true) [] (drawn rate p s.npts)).1 =
        (drawn rate p rows.length).filterMap (fun i => rows[i]?) ∧
      (s.readVectors (fun _ => true) [] (drawn rate p s.npts)).2.1 = true := by
  have hl := h.length
  have hnew : Sampler.new sz file = some ⟨file, rows.length, d * sz, 8, 0⟩ := by
    unfold Sampler.new
    rw [h.metadata]
    dsimp only
    rw [if_neg (by rw [hl, Nat.mul_assoc]; simp)]
  refine ⟨_, hnew, rfl, ?_⟩
  have hs := Verif.Disk.C70_sampling_partial sz d rows file h [drawn rate p rows.length]
  rw [hnew, Option.map_some] at hs
  simp only [Verif.Disk.Sampler.calls, List.map_cons, List.map_nil, Option.some.injEq, List.cons.injEq, and_true,
    Prod.mk.injEq] at hs
  have hv : (drawn rate p rows.length).takeWhile (fun i => decide (i < rows.length)) = drawn rate p rows.length := by
    have : ∀ i ∈ drawn rate p rows.length, decide (i < rows.length) = true := fun i hi => by
      have := List.mem_range.1 (List.mem_of_mem_filter hi)
      simpa using this
    generalize drawn rate p rows.length = l at this
    induction l with
    | nil => rfl
    | cons i l ih =>
      rw [List.takeWhile_cons, if_pos (this i List.mem_cons_self), ih fun k hk => this k (List.mem_cons_of_mem _ hk)]
  rw [hv] at hs
  exact ⟨hs.1, by rw [hs.2]; simp⟩

theorem addInto_eq (acc x : List F) (h : acc.length = x.length) : addInto acc x = some (List.zipWith fadd acc x) := by
  unfold addInto
  rw [if_neg (by omega), List.take_of_length_le (by omega), List.drop_of_length_le (by omega), List.append_nil]

theorem sampleSum_some (R : Repr) (rows : List Row) (v : Row → List Rat) (d : Nat)
    (hv : ∀ r ∈ rows, R.asF32 r = some ((v r).map some)) (hl : ∀ r ∈ rows, (v r).length = d)
    (acc : List Rat) (ha : acc.length = d) (n : Nat) :
    sampleSum R (some (acc.map some)) n rows =
      .ok (some (((rows.map v).foldl (fun s r => List.zipWith (· + ·) s r) acc).map some), n + rows.length) := by
  induction rows generalizing acc n with
  | nil => rfl
  | cons r rows ih =>
    have h1 := hv r List.mem_cons_self
    have h2 := hl r List.mem_cons_self
    simp only [sampleSum, h1]
    rw [addInto_eq _ _ (by simp [ha, h2]), zipWith_fadd_some]
    dsimp only
    rw [ih (fun w hw => hv w (List.mem_cons_of_mem _ hw)) (fun w hw => hl w (List.mem_cons_of_mem _ hw)) _
      (by simp [ha, h2])]
    simp only [List.map_cons, List.foldl_cons, List.length_cons]
    rw [Nat.add_right_comm, Nat.add_assoc]

theorem sampleSum_first (R : Repr) (rows : List Row) (v : Row → List Rat) (d : Nat) (hne : rows ≠ [])
    (hv : ∀ r ∈ rows, R.asF32 r = some ((v r).map some)) (hl : ∀ r ∈ rows, (v r).length = d)
    (hd : ∀ r ∈ rows, R.fullDim r = some d) :
    sampleSum R none 0 rows =
      .ok (some (((rows.map v).foldl (fun s r => List.zipWith (· + ·) s r) (List.replicate d 0)).map some),
        rows.length) := by
  cases rows with
  | nil => exact absurd rfl hne
  | cons r rows =>
    have e : sampleSum R none 0 (r :: rows) = sampleSum R (some ((List.replicate d (0 : Rat)).map some)) 0 (r :: rows) := by
      simp only [sampleSum, hd r List.mem_cons_self, Option.map_some, List.map_replicate]
    rw [e, sampleSum_some R (r :: rows) v d hv hl _ (by simp), Nat.zero_add]

theorem centroidSum_some (R : Repr) (rows : List Row) (v : Row → List Rat) (d : Nat)
    (hv : ∀ r ∈ rows, R.asF32 r = some ((v r).map some)) (hl : ∀ r ∈ rows, (v r).length = d) (acc : List Rat) :
    centroidSum R d (acc.map some) rows =
      .ok (((rows.map v).foldl (fun s r => List.zipWith (· + ·) s r) acc).map some) := by
  induction rows generalizing acc with
  | nil => rfl
  | cons r rows ih =>
    have h1 := hv r List.mem_cons_self
    have h2 := hl r List.mem_cons_self
    simp only [centroidSum, h1]
    rw [if_neg (by simp [h2]), zipWith_fadd_some,
      ih (fun w hw => hv w (List.mem_cons_of_mem _ hw)) (fun w hw => hl w (List.mem_cons_of_mem _ hw))]
    rfl

end Verif.Start
