import Verif.Search.DiverseLemmas
import Verif.Search.DiverseGram
import Mathlib.LinearAlgebra.Matrix.DotProduct
import Mathlib.Tactic.Linarith
import Mathlib.Tactic.Ring
import Mathlib.Tactic.FieldSimp

/-! The selection loop with exact arithmetic: the rows held are the components of the scaled vectors
orthogonal to the selection. -/

namespace Verif.Diversity

open Matrix

variable {K : Type} [Field K] {d : Nat}

/-- A list as a vector. -/
def vec (d : Nat) (l : List K) : Fin d → K := fun i => l.getD i 0

theorem inner_eq : ∀ (d : Nat) (x y : List K), x.length = d → y.length = d → inner x y = vec d x ⬝ᵥ vec d y
  | 0, x, y, hx, hy => by
    obtain rfl := List.length_eq_zero_iff.mp hx
    simp [inner, dotProduct]
  | d + 1, [], y, hx, hy => by simp at hx
  | d + 1, a :: x, [], hx, hy => by simp at hy
  | d + 1, a :: x, b :: y, hx, hy => by
    have ih := inner_eq d x y (by simpa using hx) (by simpa using hy)
    simp only [dotProduct] at ih ⊢
    rw [Fin.sum_univ_succ]
    simp only [inner, List.zipWith_cons_cons, List.sum_cons] at ih ⊢
    rw [ih]
    simp [vec]

theorem vec_zipWith (x y : List K) (p : K) (hx : x.length = d) (hy : y.length = d) :
    vec d (List.zipWith (fun v t => v - p * t) x y) = vec d x - p • vec d y := by
  funext i
  have h1 : i.val < x.length := by rw [hx]; exact i.2
  have h2 : i.val < y.length := by rw [hy]; exact i.2
  simp [vec, h1, h2]

variable [LinearOrder K] [IsStrictOrderedRing K]

theorem dot_self_nonneg (v : Fin d → K) : 0 ≤ v ⬝ᵥ v :=
  Finset.sum_nonneg fun i _ => mul_self_nonneg (v i)

omit [IsStrictOrderedRing K] in
theorem cmp_gt (pow : K → K → K) (sqrt : K → K) (ε lo hi a b : K) :
    ((exact pow sqrt ε lo hi).cmp a b).getD .eq = .gt ↔ b < a := by
  change (if a < b then Ordering.lt else if b < a then Ordering.gt else Ordering.eq) = .gt ↔ b < a
  by_cases h1 : b < a
  · simp [h1, not_lt.mpr h1.le]
  · by_cases h2 : a < b <;> simp [h1, h2]

/-- The pick of `max_by`: the last of the greatest. -/
theorem foldlM_later_max (pow : K → K → K) (sqrt : K → K) (ε lo hi : K) (norms : List K) (is : List Nat) (i : Nat)
    (hsorted : (i :: is).Pairwise (· < ·)) (h : ∀ j ∈ i :: is, j < norms.length) :
    ∃ p, is.foldlM (later (exact pow sqrt ε lo hi) norms) i = some p ∧ p ∈ i :: is ∧
      ∀ j ∈ i :: is, norms.getD j 0 ≤ norms.getD p 0 ∧ (norms.getD j 0 = norms.getD p 0 → j ≤ p) := by
  induction is generalizing i with
  | nil => exact ⟨i, rfl, by simp, by simp⟩
  | cons j js ih =>
    have hi' := h i (by simp)
    have hj' := h j (by simp)
    have hij : i < j := (List.pairwise_cons.mp hsorted).1 j (by simp)
    have hstep : later (exact pow sqrt ε lo hi) norms i j
        = some (if norms.getD j 0 < norms.getD i 0 then i else j) := by
      unfold later
      rw [List.getElem?_eq_getElem hi', List.getElem?_eq_getElem hj']
      simp only [List.getD_eq_getElem?_getD, List.getElem?_eq_getElem hi', List.getElem?_eq_getElem hj', Option.getD_some]
      by_cases h1 : norms[j] < norms[i]
      · rw [if_pos ((cmp_gt pow sqrt ε lo hi _ _).mpr h1), if_pos h1]
      · rw [if_neg (fun hc => h1 ((cmp_gt pow sqrt ε lo hi _ _).mp hc)), if_neg h1]
    set q := if norms.getD j 0 < norms.getD i 0 then i else j with hq
    have hqj : q ≤ j := by rw [hq]; split <;> omega
    have hqm : q = i ∨ q = j := by rw [hq]; split <;> simp
    have hs2 := (List.pairwise_cons.mp hsorted).2
    obtain ⟨p, h1, h2, h3⟩ := ih q (by
      refine List.pairwise_cons.mpr ⟨?_, (List.pairwise_cons.mp hs2).2⟩
      intro a ha
      have := (List.pairwise_cons.mp hs2).1 a ha
      omega) (by
      intro a ha
      rcases List.mem_cons.mp ha with rfl | ha
      · rcases hqm with h | h <;> rw [h] <;> assumption
      · exact h a (by simp [ha]))
    refine ⟨p, by rw [List.foldlM_cons, hstep]; exact h1, ?_, ?_⟩
    · rcases List.mem_cons.mp h2 with h2 | h2
      · rcases hqm with h | h <;> rw [h2, h] <;> simp
      · simp [h2]
    · have hqp := h3 q (by simp)
      have hpj : q < p ∨ p = q := by
        rcases List.mem_cons.mp h2 with h2 | h2
        · exact .inr h2
        · have := (List.pairwise_cons.mp hs2).1 p h2
          left; omega
      intro a ha
      rcases List.mem_cons.mp ha with rfl | ha
      · by_cases hlt : norms.getD j 0 < norms.getD a 0
        · rw [if_pos hlt] at hq; rw [hq] at hqp; exact hqp
        · rw [if_neg hlt] at hq
          rw [hq] at hqp hpj
          push Not at hlt
          exact ⟨hlt.trans hqp.1, fun _ => by omega⟩
      · rcases List.mem_cons.mp ha with rfl | ha
        · by_cases hlt : norms.getD a 0 < norms.getD i 0
          · rw [if_pos hlt] at hq
            rw [hq] at hqp
            exact ⟨hlt.le.trans hqp.1, fun he => absurd (hlt.trans_le hqp.1) (by rw [he]; exact lt_irrefl _)⟩
          · rw [if_neg hlt] at hq; rw [hq] at hqp; exact hqp
        · exact h3 a (by simp [ha])

theorem pivot_max (pow : K → K → K) (sqrt : K → K) (ε lo hi : K) {n : Nat} {s : St K} (hw : Wf n s) (p : Nat)
    (h : pivot (exact pow sqrt ε lo hi) s.norms s.available = some (some p)) (j : Nat) (hj : j < n) (hj' : j ∉ s.selected) :
    s.norms.getD j 0 ≤ s.norms.getD p 0 ∧ (s.norms.getD j 0 = s.norms.getD p 0 → j ≤ p) := by
  unfold pivot at h
  rw [avail_eq hw] at h
  have hmem : j ∈ (List.range n).filter fun i => decide (i ∉ s.selected) := by simp [hj, hj']
  have hs : ((List.range n).filter fun i => decide (i ∉ s.selected)).Pairwise (· < ·) :=
    List.pairwise_lt_range.filter _
  have hall : ∀ j ∈ (List.range n).filter (fun i => decide (i ∉ s.selected)), j < s.norms.length := by
    intro a ha
    rw [hw.norms]
    exact List.mem_range.mp (List.mem_filter.mp ha).1
  revert h hmem hs hall
  generalize (List.range n).filter (fun i => decide (i ∉ s.selected)) = l
  intro h hmem hs hall
  cases l with
  | nil => simp at hmem
  | cons a as =>
    obtain ⟨q, h1, h2, h3⟩ := foldlM_later_max pow sqrt ε lo hi s.norms as a hs hall
    dsimp only at h
    rw [h1] at h
    obtain rfl : q = p := by simpa using h
    exact h3 j hmem

omit [IsStrictOrderedRing K] [LinearOrder K] [Field K] in
/-- What the deflation loop does to each row. -/
theorem deflateRows_get (A : Arith K) {n : Nat} (star : List K) (best : K) (ps : List K) (hps : ps.length = n)
    (is : List Nat) (hn : is.Nodup) (h : ∀ i ∈ is, i < n) {s s' : St K} (hw : Wf n s)
    (hs : is.foldlM (deflateRow A star best ps) s = some s') (i : Nat) :
    (i ∈ is → s.available[i]? = some true → ∀ p row nm, ps[i]? = some p → s.rows[i]? = some row → s.norms[i]? = some nm →
      s'.rows[i]? = some (List.zipWith (fun v t => A.sub v (A.mul p t)) row star) ∧
      s'.norms[i]? = some (A.max (A.sub nm (A.mul (A.mul p p) best)) A.zero)) ∧
    ((i ∉ is ∨ s.available[i]? ≠ some true) → s'.rows[i]? = s.rows[i]? ∧ s'.norms[i]? = s.norms[i]?) := by
  induction is generalizing s with
  | nil =>
    rw [List.foldlM_nil] at hs
    obtain rfl := Option.some.inj hs
    simp
  | cons a as ih =>
    obtain ⟨s1, e1, e2, e3, e4⟩ := deflateRow_some A hw star best ps hps a (h a (by simp))
    rw [List.foldlM_cons, e1] at hs
    have hs' : as.foldlM (deflateRow A star best ps) s1 = some s' := hs
    have ih' := ih (List.nodup_cons.mp hn).2 (fun j hj => h j (by simp [hj])) e2 hs'
    have ha : a ∉ as := (List.nodup_cons.mp hn).1
    have hstep : (i ≠ a ∨ s.available[i]? ≠ some true) → s1.rows[i]? = s.rows[i]? ∧ s1.norms[i]? = s.norms[i]? := by
      intro hor
      unfold deflateRow at e1
      split at e1
      · cases e1
      · obtain rfl := Option.some.inj e1; exact ⟨rfl, rfl⟩
      · rename_i hav
        split at e1
        · obtain rfl := Option.some.inj e1
          have hia : a ≠ i := by
            rintro rfl
            rcases hor with h | h
            · exact h rfl
            · exact h hav
          exact ⟨List.getElem?_set_ne hia, List.getElem?_set_ne hia⟩
        · cases e1
    constructor
    · intro hi hav p row nm hp hrow hnm
      by_cases hia : i = a
      · subst hia
        have hfin := ih'.2 (.inl ha)
        unfold deflateRow at e1
        rw [hav, hp, hrow, hnm] at e1
        obtain rfl := Option.some.inj e1
        rw [hfin.1, hfin.2]
        have l1 : i < s.rows.length := by rw [hw.rows]; exact h i (by simp)
        have l2 : i < s.norms.length := by rw [hw.norms]; exact h i (by simp)
        exact ⟨List.getElem?_set_self l1, List.getElem?_set_self l2⟩
      · obtain ⟨g1, g2⟩ := hstep (.inl hia)
        exact ih'.1 ((List.mem_cons.mp hi).resolve_left hia) (by rw [e4]; exact hav) p row nm hp (by rw [g1]; exact hrow)
          (by rw [g2]; exact hnm)
    · intro hor
      have hor1 : i ≠ a ∨ s.available[i]? ≠ some true := by
        rcases hor with h | h
        · exact .inl fun he => h (by simp [he])
        · exact .inr h
      have hor2 : i ∉ as ∨ s1.available[i]? ≠ some true := by
        rcases hor with h | h
        · exact .inl fun he => h (by simp [he])
        · exact .inr (by rw [e4]; exact h)
      obtain ⟨g1, g2⟩ := hstep hor1
      obtain ⟨g3, g4⟩ := ih'.2 hor2
      exact ⟨g3.trans g1, g4.trans g2⟩

/-- `IsGreedy` for vectors given as functions. -/
def GreedyV (u : Nat → Fin d → K) (n : Nat) (sel : List Nat) : Prop :=
  ∀ t j, (ht : t < sel.length) → j < n → j ∉ sel.take t →
    (gramV u (sel.take t ++ [j])).det ≤ (gramV u (sel.take t ++ [sel[t]])).det ∧
    ((gramV u (sel.take t ++ [j])).det = (gramV u (sel.take t ++ [sel[t]])).det → j ≤ sel[t])

/-- The invariant of the loop. -/
structure Ex (u : Nat → Fin d → K) (n : Nat) (s : St K) : Prop where
  row : ∀ i, i < n → i ∉ s.selected → ∃ r, s.rows[i]? = some r ∧ r.length = d ∧ s.norms[i]? = some (inner r r) ∧
    u i - vec d r ∈ spanOf u s.selected ∧ ∀ t ∈ s.selected, u t ⬝ᵥ vec d r = 0
  pos : 0 ≤ (gramV u s.selected).det
  deg : (gramV u s.selected).det = 0 → ∀ i, i < n → i ∉ s.selected → s.norms[i]? = some 0
  greedy : GreedyV u n s.selected

theorem Ex.det {u : Nat → Fin d → K} {n : Nat} {s : St K} (hx : Ex u n s) (j : Nat) (hj : j < n) (hj' : j ∉ s.selected) :
    (gramV u (s.selected ++ [j])).det = (gramV u s.selected).det * s.norms.getD j 0 := by
  obtain ⟨r, h1, h2, h3, h4, h5⟩ := hx.row j hj hj'
  rw [det_gramV_append u s.selected j (vec d r) h4 h5, ← inner_eq d r r h2 h2]
  simp [List.getD_eq_getElem?_getD, h3]

theorem ex_pick (pow : K → K → K) (sqrt : K → K) (ε lo hi : K) {u : Nat → Fin d → K} {n : Nat} {s : St K} (hw : Wf n s)
    (hx : Ex u n s) (p : Nat) (h : pivot (exact pow sqrt ε lo hi) s.norms s.available = some (some p)) (hp : p < n)
    (hp' : p ∉ s.selected) : GreedyV u n (s.selected ++ [p]) := by
  intro t j ht hj hj'
  by_cases hlt : t < s.selected.length
  · rw [List.take_append_of_le_length hlt.le] at hj' ⊢
    rw [List.getElem_append_left hlt]
    exact hx.greedy t j hlt hj hj'
  · obtain rfl : t = s.selected.length := by simp at ht; omega
    have ht' : (s.selected ++ [p]).take s.selected.length = s.selected := by simp
    rw [ht'] at hj' ⊢
    have hp2 : (s.selected ++ [p])[s.selected.length] = p := by simp
    rw [hp2, hx.det j hj hj', hx.det p hp hp']
    obtain ⟨m1, m2⟩ := pivot_max pow sqrt ε lo hi hw p h j hj hj'
    refine ⟨mul_le_mul_of_nonneg_left m1 hx.pos, ?_⟩
    intro he
    by_cases h0 : (gramV u s.selected).det = 0
    · have a1 := hx.deg h0 j hj hj'
      have a2 := hx.deg h0 p hp hp'
      exact m2 (by simp [List.getD_eq_getElem?_getD, a1, a2])
    · exact m2 (mul_left_cancel₀ h0 he)

theorem ex_deflate (pow : K → K → K) (sqrt : K → K) (ε lo hi : K) {u : Nat → Fin d → K} {n : Nat} {s s' : St K}
    (hw : Wf n s) (hx : Ex u n s) (p : Nat) (h : pivot (exact pow sqrt ε lo hi) s.norms s.available = some (some p))
    (hp : p < n) (hp' : p ∉ s.selected) (hd : deflate (exact pow sqrt ε lo hi) (push s p) p = some s') : Ex u n s' := by
  have hg := ex_pick pow sqrt ε lo hi hw hx p h hp hp'
  have hmax := pivot_max pow sqrt ε lo hi hw p h
  have hw' := push_wf hw hp hp'
  obtain ⟨star, s1, s2, s3, s4, s5⟩ := hx.row p hp hp'
  have hdet := hx.det p hp hp'
  have hnorm : s.norms.getD p 0 = inner star star := by simp [List.getD_eq_getElem?_getD, s3]
  rw [hnorm] at hdet
  have hin := inner_eq d star star s2 s2
  have hnn : 0 ≤ inner star star := by rw [hin]; exact dot_self_nonneg _
  unfold deflate at hd
  have hd1 : (push s p).norms[p]? = some (inner star star) := s3
  have hd2 : (push s p).rows[p]? = some star := s1
  rw [hd1, hd2] at hd
  dsimp only at hd
  have hle : (exact pow sqrt ε lo hi).le (inner star star) (exact pow sqrt ε lo hi).zero = true ↔ inner star star ≤ 0 := by
    simp only [Arith.le, exact]
    by_cases h1 : inner star star < 0
    · simp [h1, h1.le]
    · by_cases h2 : 0 < inner star star
      · simp [h1, h2, not_le.mpr h2]
      · simp [h1, h2, not_lt.mp h2]
  by_cases hz : inner star star ≤ 0
  · rw [if_pos (hle.mpr hz)] at hd
    obtain rfl := Option.some.inj hd
    have h0 : inner star star = 0 := le_antisymm hz hnn
    have hstar : vec d star = 0 := by
      rw [hin] at h0
      exact dotProduct_self_eq_zero.mp h0
    rw [hstar, sub_zero] at s4
    have hdet0 : (gramV u (s.selected ++ [p])).det = 0 := by rw [hdet, h0, mul_zero]
    refine ⟨?_, ?_, ?_, hg⟩
    · intro i hi hi'
      simp only [push, List.mem_append, List.mem_singleton, not_or] at hi'
      obtain ⟨r, r1, r2, r3, r4, r5⟩ := hx.row i hi hi'.1
      refine ⟨r, r1, r2, r3, spanOf_mono (fun t ht => List.mem_append_left _ ht) r4, ?_⟩
      intro t ht
      simp only [push, List.mem_append, List.mem_singleton] at ht
      rcases ht with ht | rfl
      · exact r5 t ht
      · exact orth_spanOf r5 s4
    · exact hdet0.ge
    · intro _ i hi hi'
      simp only [push, List.mem_append, List.mem_singleton, not_or] at hi'
      obtain ⟨r, r1, r2, r3, r4, r5⟩ := hx.row i hi hi'.1
      have m1 := (hmax i hi hi'.1).1
      rw [hnorm, h0] at m1
      have : s.norms.getD i 0 = inner r r := by simp [List.getD_eq_getElem?_getD, r3]
      rw [this] at m1
      have : 0 ≤ inner r r := by rw [inner_eq d r r r2 r2]; exact dot_self_nonneg _
      change s.norms[i]? = _
      rw [r3, le_antisymm m1 this]
  · rw [if_neg (fun hc => hz (hle.mp hc))] at hd
    push Not at hz
    have hne : inner star star ≠ 0 := hz.ne'
    set A := exact pow sqrt ε lo hi with hA
    obtain ⟨ps, h1, h2, h3⟩ := mapM_some (projection A (push s p) star (A.div A.one (inner star star)))
      (List.range (push s p).rows.length)
      (fun i hi => projection_some A hw' _ _ i (by have := List.mem_range.mp hi; rw [hw'.rows] at this; exact this))
    rw [h1] at hd
    dsimp only at hd
    rw [List.length_range, hw'.rows] at h2
    rw [hw'.rows] at hd
    have hsel : s'.selected = s.selected ++ [p] := by
      obtain ⟨s'', e1, -, e3, -⟩ := deflateRows_some A star (inner star star) ps h2 (List.range n)
        (fun i hi => List.mem_range.mp hi) hw'
      rw [e1] at hd
      rw [← Option.some.inj hd, e3]
      rfl
    have hget := fun i => (deflateRows_get A star (inner star star) ps h2 (List.range n) List.nodup_range
      (fun i hi => List.mem_range.mp hi) hw' hd i).1
    have hdetpos : 0 < (gramV u (s.selected ++ [p])).det := by
      rw [hdet]
      refine mul_pos (lt_of_le_of_ne hx.pos ?_) hz
      intro h0
      have := hx.deg h0.symm p hp hp'
      rw [s3] at this
      exact hne (Option.some.inj this)
    refine ⟨?_, by rw [hsel]; exact hdetpos.le, fun hc => absurd hc (by rw [hsel]; exact hdetpos.ne'), by rw [hsel]; exact hg⟩
    intro i hi hi'
    rw [hsel] at hi' ⊢
    have hi2 := hi'
    simp only [List.mem_append, List.mem_singleton, not_or] at hi'
    obtain ⟨r, r1, r2, r3, r4, r5⟩ := hx.row i hi hi'.1
    have hav : (push s p).available[i]? = some true := (hw'.mem i hi).mpr hi2
    set π := inner r star * (1 / inner star star) with hπ
    have hps : ps[i]? = some π := by
      have := h3 i (by rw [List.length_range, hw'.rows]; exact hi)
      rw [List.getElem_range] at this
      rw [this]
      unfold projection
      rw [hav]
      dsimp only
      have : (push s p).rows[i]? = some r := r1
      rw [this]
      rfl
    obtain ⟨q1, q2⟩ := hget i (List.mem_range.mpr hi) hav π r (inner r r) hps r1 r3
    have q1' : s'.rows[i]? = some (List.zipWith (fun v t => v - π * t) r star) := q1
    have q2' : s'.norms[i]? = some (max (inner r r - π * π * inner star star) 0) := q2
    have hlen : (List.zipWith (fun v t => v - π * t) r star).length = d := by simp [r2, s2]
    have hvec := vec_zipWith (d := d) r star π r2 s2
    have hrs := inner_eq d r star r2 s2
    have hrr := inner_eq d r r r2 r2
    have hπb : π * inner star star = inner r star := by rw [hπ]; field_simp
    have hnew : inner (List.zipWith (fun v t => v - π * t) r star) (List.zipWith (fun v t => v - π * t) r star)
        = inner r r - π * π * inner star star := by
      rw [inner_eq d _ _ hlen hlen, hvec]
      simp only [sub_dotProduct, dotProduct_sub, smul_dotProduct, dotProduct_smul, smul_eq_mul]
      rw [dotProduct_comm (vec d star) (vec d r), ← hrs, ← hrr, ← hin, ← hπb]
      ring
    have hnn2 : 0 ≤ inner r r - π * π * inner star star := by
      rw [← hnew, inner_eq d _ _ hlen hlen]; exact dot_self_nonneg _
    have hwspan : u p - vec d star ∈ spanOf u s.selected := s4
    have hoT : ∀ t ∈ s.selected, u t ⬝ᵥ (vec d r - π • vec d star) = 0 := by
      intro t ht
      rw [dotProduct_sub, dotProduct_smul, r5 t ht, s5 t ht, smul_zero, sub_zero]
    refine ⟨_, q1', hlen, ?_, ?_, ?_⟩
    · rw [q2', hnew, max_eq_left hnn2]
    · rw [hvec]
      have e1 : u i - (vec d r - π • vec d star) = (u i - vec d r) + π • (u p - (u p - vec d star)) := by
        rw [sub_sub_cancel]; abel
      rw [e1]
      have hm : spanOf u s.selected ≤ spanOf u (s.selected ++ [p]) :=
        spanOf_mono fun t ht => List.mem_append_left _ ht
      exact Submodule.add_mem _ (hm r4) (Submodule.smul_mem _ _ (Submodule.sub_mem _ (mem_spanOf (by simp)) (hm hwspan)))
    · intro t ht
      rw [hvec]
      simp only [List.mem_append, List.mem_singleton] at ht
      rcases ht with ht | rfl
      · exact hoT t ht
      · have e1 : u t = (u t - vec d star) + vec d star := by abel
        rw [e1, add_dotProduct, orth_spanOf hoT hwspan, zero_add, dotProduct_sub, dotProduct_smul, smul_eq_mul, ← hin, hπb,
          hrs, dotProduct_comm, sub_self]

end Verif.Diversity
