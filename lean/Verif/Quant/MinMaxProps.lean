import Verif.Quant.MinMaxSpec
import Verif.Quant.ScalarProps

/-!
# C74 — MinMax quantization

Compression and recompression pick codes standing for closest representable values, store
precomputed values faithfully, and the distances computed from codes and precomputed values
are those of the vectors the codes stand for.
-/

namespace Verif.Quant.MinMax

open Verif.Quant.Affine
open Verif.Quant.Scalar (bitScale bitScale_cast bitScale_ne intKernel intKernel_eq roundAway clamp)

theorem codeOf_best {n : Nat} {a b v : Rat} (ha : 0 < a) :
    BestCode (2 ^ n - 1) (fun k => a * (k : Rat) + b) v (codeOf n a b v) := by
  refine best_scale (w := a) (t := (v - b) / a) ?_ (round_clamp_best (bitScale n) _)
  intro k
  field_simp
  ring

theorem codeOf_half {n : Nat} {a b v : Rat} (ha : 0 < a) (h0 : b ≤ v) (h1 : v ≤ b + a * bitScale n) :
    |a * (codeOf n a b v : Rat) + b - v| ≤ a / 2 := by
  have key := round_clamp_half (bitScale n) ((v - b) / a)
    (div_nonneg (by linarith) (le_of_lt ha))
    (by rw [div_le_iff₀ ha]; linarith)
  have e : a * (codeOf n a b v : Rat) + b - v = a * ((codeOf n a b v : Rat) - (v - b) / a) := by
    field_simp; ring
  rw [e, abs_mul, abs_of_pos ha]
  have : a / 2 = a * (1 / 2) := by ring
  rw [this]
  exact mul_le_mul_of_nonneg_left key (le_of_lt ha)

theorem encode_spec (n : Nat) (a b : Rat) (v : List Rat) :
    (encode n a b v).1 = v.map (codeOf n a b) ∧
    (encode n a b v).2.1 = sqNorm ((v.map (codeOf n a b)).map (fun c : Nat => a * (c : Rat) + b)) ∧
    (encode n a b v).2.2.1 = ((v.map (codeOf n a b)).map (fun c : Nat => (c : Rat))).sum ∧
    (encode n a b v).2.2.2 =
      sqDist ((v.map (codeOf n a b)).map (fun c : Nat => a * (c : Rat) + b)) v := by
  induction v with
  | nil => simp [encode, sqNorm, sqDist]
  | cons x xs ih =>
    obtain ⟨h1, h2, h3, h4⟩ := ih
    simp only [encode, h1, h2, h3, h4, List.map_cons, List.sum_cons, sqNorm, sqDist,
      List.zipWith_cons_cons, true_and]
    refine ⟨?_, ?_⟩ <;> ring

theorem sqDist_nonneg : ∀ (x y : List Rat), 0 ≤ sqDist x y
  | [], _ => by simp [sqDist]
  | _ :: _, [] => by simp [sqDist]
  | a :: x, b :: y => by
    have ih := sqDist_nonneg x y
    simp only [sqDist, List.zipWith_cons_cons, List.sum_cons] at ih ⊢
    have := mul_self_nonneg (a - b)
    linarith

theorem minWidth_pos : 0 < minWidth := by unfold minWidth; norm_num

/-- The parameters chosen for a vector. -/
theorem compress_eq (n : Nat) (q : Quantizer) (frm : List (Option Rat)) (v : List Rat)
    (hl : frm.length = q.dim) (hv : values (q.transform frm) = some v) :
    compress n q frm q.outDim =
      (let r := (getRange n q.gridScale v).getD (0, 0)
       let a := max (r.2 - r.1) minWidth / (bitScale n : Rat)
       .ok ({ codes := v.map (codeOf n a r.1), dim := q.outDim, b := r.1, a := a
              n := a * ((v.map (codeOf n a r.1)).map (fun c : Nat => (c : Rat))).sum
              normSq := sqNorm ((v.map (codeOf n a r.1)).map (fun c : Nat => a * (c : Rat) + r.1)) },
            sqDist ((v.map (codeOf n a r.1)).map (fun c : Nat => a * (c : Rat) + r.1)) v)) := by
  unfold compress
  rw [if_pos ⟨hl, rfl⟩, hv]
  dsimp only
  obtain ⟨h1, h2, h3, h4⟩ := encode_spec n
    (max (((getRange n q.gridScale v).getD (0, 0)).2 - ((getRange n q.gridScale v).getD (0, 0)).1)
      minWidth / (bitScale n : Rat)) ((getRange n q.gridScale v).getD (0, 0)).1 v
  rw [h1, h2, h3, h4]
  congr 2
  split
  · rfl
  · rename_i h
    have := sqDist_nonneg (List.map (fun c : Nat => (max (((getRange n q.gridScale v).getD (0, 0)).2 - ((getRange n q.gridScale v).getD (0, 0)).1)
      minWidth / (bitScale n : Rat)) * (c : Rat) + ((getRange n q.gridScale v).getD (0, 0)).1)
        (v.map (codeOf n (max (((getRange n q.gridScale v).getD (0, 0)).2 - ((getRange n q.gridScale v).getD (0, 0)).1)
      minWidth / (bitScale n : Rat)) ((getRange n q.gridScale v).getD (0, 0)).1))) v
    linarith

theorem values_length : ∀ {l : List (Option Rat)} {v : List Rat}, values l = some v → v.length = l.length
  | [], v, h => by simp [values] at h; simp [← h]
  | none :: _, v, h => by simp [values] at h
  | some x :: l, v, h => by
    simp only [values, Option.map_eq_some_iff] at h
    obtain ⟨w, hw, rfl⟩ := h
    simp [values_length hw]

theorem values_none : ∀ {l : List (Option Rat)}, values l = none ↔ none ∈ l
  | [] => by simp [values]
  | none :: _ => by simp [values]
  | some x :: l => by
    simp only [values, Option.map_eq_none_iff, values_none, List.mem_cons]
    simp

/-- **C74.** Compressing a vector of the quantizer's dimension succeeds exactly when its
transform has no NaN component.  The result stands for a vector in which every component is
a closest one, among the `2^n` evenly spaced values the result can represent, to the
component of the transformed input; the precomputed values are faithful; decompression
returns the vector the result stands for; and the reported loss is the squared distance
between it and the transformed input. -/
theorem C74_codes (n : Nat) (hn : 1 ≤ n) (q : Quantizer) (frm : List (Option Rat))
    (hl : frm.length = q.dim) (ht : (q.transform frm).length = q.outDim) :
    (none ∈ q.transform frm → compress n q frm q.outDim = .nan) ∧
    (none ∉ q.transform frm →
      ∃ v d loss, q.transform frm = v.map some ∧ compress n q frm q.outDim = .ok (d, loss) ∧
        Faithful n d ∧ 0 < d.a ∧ d.codes.length = v.length ∧
        (∀ (i : Nat) (x : Rat) (c : Nat), v[i]? = some x → d.codes[i]? = some c →
          BestCode (2 ^ n - 1) (fun k => d.a * (k : Rat) + d.b) x c) ∧
        decompress d q.outDim = some (recon d) ∧
        loss = sqDist (recon d) v) := by
  have hval : ∀ {l : List (Option Rat)} {v : List Rat}, values l = some v → l = v.map some := by
    intro l
    induction l with
    | nil => intro v h; simp [values] at h; simp [← h]
    | cons o l ih =>
      intro v h
      cases o with
      | none => simp [values] at h
      | some x =>
        simp only [values, Option.map_eq_some_iff] at h
        obtain ⟨w, hw, rfl⟩ := h
        simp [ih hw]
  constructor
  · intro h
    unfold compress
    rw [if_pos ⟨hl, rfl⟩, values_none.mpr h]
  · intro h
    cases hv : values (q.transform frm) with
    | none => exact absurd (values_none.mp hv) h
    | some v =>
      have hlen := values_length hv
      have hb : (1 : Rat) ≤ bitScale n := by exact_mod_cast bitScale_pos hn
      have ha : 0 < max (((getRange n q.gridScale v).getD (0, 0)).2 - ((getRange n q.gridScale v).getD (0, 0)).1)
          minWidth / (bitScale n : Rat) :=
        div_pos (lt_of_lt_of_le minWidth_pos (le_max_right _ _)) (by linarith)
      refine ⟨v, _, _, hval hv, compress_eq n q frm v hl hv, ?_, ha, by simp, ?_, ?_, rfl⟩
      · refine ⟨?_, by simp [hlen, ht], rfl, rfl⟩
        intro c hc
        obtain ⟨x, _, rfl⟩ := List.mem_map.mp hc
        exact (codeOf_best (n := n) (v := x) ha).1
      · intro i x c hx hc
        simp only [List.getElem?_map, hx, Option.map_some, Option.some.injEq] at hc
        rw [← hc]
        exact codeOf_best ha
      · unfold decompress
        rw [if_pos (by simp [hlen, ht])]
        simp only [recon, Option.some.injEq]
        apply List.map_congr_left
        intro c _
        ring

/-- Any other length of source or destination is rejected by an assertion. -/
theorem C74_lengths (n : Nat) (q : Quantizer) (frm : List (Option Rat)) (len : Nat) :
    (compress n q frm len = .panic ↔ ¬ (frm.length = q.dim ∧ q.outDim = len)) ∧
    (compressQuery q frm len = .panic ↔ ¬ (frm.length = q.dim ∧ q.outDim = len)) := by
  constructor
  · unfold compress
    split
    · cases values (q.transform frm) <;> simp_all
    · simp_all
  · unfold compressQuery
    split
    · cases values frm <;> cases values (q.transform frm) <;> simp_all
    · simp_all

theorem foldl_min (x : Rat) (xs : List Rat) :
    xs.foldl min x ∈ x :: xs ∧ ∀ y ∈ x :: xs, xs.foldl min x ≤ y := by
  induction xs generalizing x with
  | nil => simp
  | cons a xs ih =>
    obtain ⟨h1, h2⟩ := ih (min x a)
    rw [List.foldl_cons]
    refine ⟨?_, ?_⟩
    · rcases List.mem_cons.mp h1 with h | h
      · rw [h]; rcases min_choice x a with h' | h' <;> rw [h'] <;> simp
      · simp [h]
    · intro y hy
      have h3 := h2 (min x a) (by simp)
      rcases List.mem_cons.mp hy with h | h
      · rw [h]; exact le_trans h3 (min_le_left _ _)
      · rcases List.mem_cons.mp h with h | h
        · rw [h]; exact le_trans h3 (min_le_right _ _)
        · exact h2 y (by simp [h])

theorem foldl_max (x : Rat) (xs : List Rat) :
    xs.foldl max x ∈ x :: xs ∧ ∀ y ∈ x :: xs, y ≤ xs.foldl max x := by
  induction xs generalizing x with
  | nil => simp
  | cons a xs ih =>
    obtain ⟨h1, h2⟩ := ih (max x a)
    rw [List.foldl_cons]
    refine ⟨?_, ?_⟩
    · rcases List.mem_cons.mp h1 with h | h
      · rw [h]; rcases max_choice x a with h' | h' <;> rw [h'] <;> simp
      · simp [h]
    · intro y hy
      have h3 := h2 (max x a) (by simp)
      rcases List.mem_cons.mp hy with h | h
      · rw [h]; exact le_trans (le_max_left _ _) h3
      · rcases List.mem_cons.mp h with h | h
        · rw [h]; exact le_trans (le_max_right _ _) h3
        · exact h2 y (by simp [h])

/-- **C74.** With two or more bits the representable values span the interval from the
smallest to the largest component, widened or narrowed about its middle by the grid scale,
and at least `1e-8` wide.  With a grid scale of at least 1 every component is represented
with an error of at most half the spacing. -/
theorem C74_range (n : Nat) (hn : 2 ≤ n) (q : Quantizer) (hg : 0 < q.gridScale)
    (frm : List (Option Rat)) (hl : frm.length = q.dim) (v : List Rat) (hne : v ≠ [])
    (hv : q.transform frm = v.map some) :
    ∃ d loss lo hi, compress n q frm q.outDim = .ok (d, loss) ∧ Extremes v lo hi ∧
      d.b = (lo + hi) / 2 - q.gridScale * ((hi - lo) / 2) ∧
      d.a * ((2 : Rat) ^ n - 1) = max (q.gridScale * (hi - lo)) minWidth ∧
      (1 ≤ q.gridScale → ∀ (i : Nat) (x r : Rat), v[i]? = some x → (recon d)[i]? = some r →
        |r - x| ≤ d.a / 2) := by
  have hval : ∀ v : List Rat, values (v.map some) = some v := by
    intro v; induction v with
    | nil => rfl
    | cons x v ih => simp [values, ih]
  cases v with
  | nil => exact absurd rfl hne
  | cons x xs =>
    have hb : (1 : Rat) ≤ bitScale n := by exact_mod_cast bitScale_pos (show 1 ≤ n by omega)
    have hmin := foldl_min x xs
    have hmax := foldl_max x xs
    have hr : getRange n q.gridScale (x :: xs) = some
        (xs.foldl min x + (xs.foldl max x - xs.foldl min x) / 2 -
            (xs.foldl max x - xs.foldl min x) / 2 * q.gridScale,
         xs.foldl min x + (xs.foldl max x - xs.foldl min x) / 2 +
            (xs.foldl max x - xs.foldl min x) / 2 * q.gridScale) := by
      unfold getRange ends
      simp [show ¬ n = 1 by omega]
    have heq := compress_eq n q frm (x :: xs) hl (by rw [hv]; exact hval _)
    rw [hr] at heq
    simp only [Option.getD_some] at heq
    generalize hlo : xs.foldl min x = lo at *
    generalize hhi : xs.foldl max x = hi at *
    have hw : lo + (hi - lo) / 2 + (hi - lo) / 2 * q.gridScale -
        (lo + (hi - lo) / 2 - (hi - lo) / 2 * q.gridScale) = q.gridScale * (hi - lo) := by ring
    rw [hw] at heq
    have ha : 0 < max (q.gridScale * (hi - lo)) minWidth / (bitScale n : Rat) :=
      div_pos (lt_of_lt_of_le minWidth_pos (le_max_right _ _)) (by linarith)
    refine ⟨_, _, lo, hi, heq, ⟨hmin.1, hmax.1, fun y hy => ⟨hmin.2 y hy, hmax.2 y hy⟩⟩, ?_, ?_, ?_⟩
    · dsimp only; ring
    · dsimp only; rw [← bitScale_cast]; field_simp
    · intro hg1 i y r hy hr'
      simp only [recon, List.map_map, List.getElem?_map, hy, Option.map_some, Function.comp] at hr'
      injection hr' with hr'
      rw [← hr']
      have hym : y ∈ x :: xs := List.mem_of_getElem? hy
      have h1 := hmin.2 y hym
      have h2 := hmax.2 y hym
      have hd : 0 ≤ hi - lo := by linarith
      refine codeOf_half ha ?_ ?_
      · nlinarith
      · rw [div_mul_cancel₀ _ (by linarith : (bitScale n : Rat) ≠ 0)]
        have := le_max_left (q.gridScale * (hi - lo)) minWidth
        nlinarith

theorem sum_lt_of {l : List Rat} {m : Rat} (hne : l ≠ []) (h : ∀ x ∈ l, x < m) :
    l.sum < l.length * m := by
  induction l with
  | nil => exact absurd rfl hne
  | cons x l ih =>
    simp only [List.sum_cons, List.length_cons]
    push_cast
    have hx := h x (by simp)
    by_cases hl : l = []
    · subst hl; simp; linarith
    · have := ih hl (fun y hy => h y (by simp [hy])); linarith

theorem le_sum_of {l : List Rat} {m : Rat} (h : ∀ x ∈ l, m ≤ x) : l.length * m ≤ l.sum := by
  induction l with
  | nil => simp
  | cons x l ih =>
    simp only [List.sum_cons, List.length_cons]
    push_cast
    have hx := h x (by simp)
    have := ih (fun y hy => h y (by simp [hy])); linarith

/-- **C74.** With one bit, grid scale 1 and a vector that is not constant, the two
representable values are the mean of the components below the mean and the mean of the
others (when these are at least `1e-8` apart). -/
theorem C74_one_bit (q : Quantizer) (hg : q.gridScale = 1)
    (frm : List (Option Rat)) (hl : frm.length = q.dim) (v : List Rat)
    (hv : q.transform frm = v.map some)
    (hlo : v.filter (fun x => decide (x < mean v)) ≠ [])
    (hhi : v.filter (fun x => !decide (x < mean v)) ≠ [])
    (hw : minWidth ≤ mean (v.filter (fun x => !decide (x < mean v))) -
      mean (v.filter (fun x => decide (x < mean v)))) :
    ∃ d loss, compress 1 q frm q.outDim = .ok (d, loss) ∧
      d.a * (0 : Nat) + d.b = mean (v.filter (fun x => decide (x < mean v))) ∧
      d.a * (1 : Nat) + d.b = mean (v.filter (fun x => !decide (x < mean v))) := by
  have hval : ∀ v : List Rat, values (v.map some) = some v := by
    intro v; induction v with
    | nil => rfl
    | cons x v ih => simp [values, ih]
  have hne : v ≠ [] := by rintro rfl; simp at hlo
  have l1 : mean (v.filter (fun x => decide (x < mean v))) ≤ mean v := by
    have := sum_lt_of hlo (m := mean v) (fun x hx => by
      have := (List.mem_filter.mp hx).2; simpa using this)
    have hp : (0 : Rat) < (v.filter (fun x => decide (x < mean v))).length := by
      have := List.length_pos_of_ne_nil hlo; exact_mod_cast this
    have e : mean (v.filter (fun x => decide (x < mean v))) = _ / _ := rfl
    rw [e, div_le_iff₀ hp]; linarith
  have l2 : mean v ≤ mean (v.filter (fun x => !decide (x < mean v))) := by
    have := le_sum_of (l := v.filter (fun x => !decide (x < mean v))) (m := mean v) (fun x hx => by
      have := (List.mem_filter.mp hx).2; simpa using this)
    have hp : (0 : Rat) < (v.filter (fun x => !decide (x < mean v))).length := by
      have := List.length_pos_of_ne_nil hhi; exact_mod_cast this
    have e : mean (v.filter (fun x => !decide (x < mean v))) = _ / _ := rfl
    rw [e, le_div_iff₀ hp]; linarith
  have he : ends 1 v = some (mean (v.filter (fun x => decide (x < mean v))),
      mean (v.filter (fun x => !decide (x < mean v)))) := by
    cases v with
    | nil => exact absurd rfl hne
    | cons x xs =>
      unfold ends
      simp only [if_true]
      exact congrArg some (Prod.ext ((if_neg hlo).trans (min_eq_left l1))
        ((if_neg hhi).trans (max_eq_left l2)))
  have heq := compress_eq 1 q frm v hl (by rw [hv]; exact hval _)
  unfold getRange at heq
  rw [he, hg] at heq
  simp only [Option.map_some, Option.getD_some] at heq
  have hbs : ((bitScale 1 : Nat) : Rat) = 1 := by norm_num [bitScale]
  refine ⟨_, _, heq, ?_, ?_⟩
  · push_cast; ring
  · dsimp only
    rw [hbs]
    generalize mean (v.filter (fun x => decide (x < mean v))) = lo at *
    generalize mean (v.filter (fun x => !decide (x < mean v))) = hi at *
    have hm : max (lo + (hi - lo) / 2 + (hi - lo) / 2 * 1 - (lo + (hi - lo) / 2 - (hi - lo) / 2 * 1))
        minWidth = hi - lo := by
      rw [max_eq_left (by linarith)]; ring
    rw [hm]; push_cast; ring

/-- **C74.** A constant vector is reproduced exactly, with any number of bits. -/
theorem C74_constant (n : Nat) (hn : 1 ≤ n) (q : Quantizer)
    (frm : List (Option Rat)) (hl : frm.length = q.dim) (x : Rat) (k : Nat)
    (hv : q.transform frm = (List.replicate (k + 1) x).map some) :
    ∃ d, compress n q frm q.outDim = .ok (d, 0) ∧ recon d = List.replicate (k + 1) x := by
  have hval : ∀ v : List Rat, values (v.map some) = some v := by
    intro v; induction v with
    | nil => rfl
    | cons x v ih => simp [values, ih]
  have hb : (1 : Rat) ≤ bitScale n := by exact_mod_cast bitScale_pos hn
  have he : ends n (List.replicate (k + 1) x) = some (x, x) := by
    rw [List.replicate_succ]
    unfold ends
    dsimp only
    have hfmin : ∀ j, (List.replicate j x).foldl min x = x := by
      intro j; induction j with
      | zero => rfl
      | succ j ih => simpa [List.replicate_succ] using ih
    have hfmax : ∀ j, (List.replicate j x).foldl max x = x := by
      intro j; induction j with
      | zero => rfl
      | succ j ih => simpa [List.replicate_succ] using ih
    split
    · have hs : (x :: List.replicate k x).sum / ((x :: List.replicate k x).length : Rat) = x := by
        rw [← List.replicate_succ, List.sum_replicate, List.length_replicate]
        simp only [nsmul_eq_mul]
        have : ((k + 1 : Nat) : Rat) ≠ 0 := by positivity
        field_simp
      rw [hs]
      have f1 : (x :: List.replicate k x).filter (fun y => decide (y < x)) = [] := by
        rw [← List.replicate_succ]; simp
      have f2 : (x :: List.replicate k x).filter (fun y => !decide (y < x)) = x :: List.replicate k x := by
        rw [← List.replicate_succ]; simp
      rw [f1, f2, hs]
      simp
    · rw [hfmin, hfmax]
  have heq := compress_eq n q frm _ hl (by rw [hv]; exact hval _)
  unfold getRange at heq
  rw [he] at heq
  simp only [Option.map_some, Option.getD_some, sub_self, zero_div, zero_mul, add_zero, sub_zero] at heq
  have ha : 0 < max 0 minWidth / (bitScale n : Rat) :=
    div_pos (lt_of_lt_of_le minWidth_pos (le_max_right _ _)) (by linarith)
  generalize max 0 minWidth / (bitScale n : Rat) = a at heq ha
  have hc : codeOf n a x x = 0 := by
    unfold codeOf
    have h1 : clamp 0 (bitScale n : Rat) ((x - x) / a) = 0 := by
      rw [sub_self, zero_div]
      unfold clamp
      rw [if_neg (lt_irrefl _), if_neg (by linarith)]
    rw [h1]
    norm_num [roundAway]
  have hm : (List.replicate (k + 1) x).map (codeOf n a x) = List.replicate (k + 1) 0 := by
    rw [List.map_replicate, hc]
  have hm2 : (List.replicate (k + 1) (0 : Nat)).map (fun c : Nat => a * (c : Rat) + x) =
      List.replicate (k + 1) x := by
    rw [List.map_replicate]; simp
  rw [hm, hm2] at heq
  have hz : sqDist (List.replicate (k + 1) x) (List.replicate (k + 1) x) = 0 := by
    have : ∀ l : List Rat, sqDist l l = 0 := by
      intro l; induction l with
      | nil => rfl
      | cons y l ih => simp only [sqDist, List.zipWith_cons_cons, List.sum_cons] at ih ⊢; rw [ih]; ring
    exact this _
  rw [hz] at heq
  exact ⟨_, heq, hm2⟩

theorem dot_affine (a b a' b' : Rat) : ∀ (x y : List Nat), x.length = y.length →
    dot (x.map (fun c : Nat => a * (c : Rat) + b)) (y.map (fun c : Nat => a' * (c : Rat) + b')) =
      a * a' * ((List.zipWith (· * ·) x y).sum : Nat) +
      (a * (x.map (fun c : Nat => (c : Rat))).sum) * b' +
      (a' * (y.map (fun c : Nat => (c : Rat))).sum) * b + b * b' * (x.length : Rat)
  | [], [], _ => by simp [dot]
  | c :: x, c' :: y, h => by
    have ih := dot_affine a b a' b' x y (by simpa using h)
    simp only [dot] at ih ⊢
    simp only [List.map_cons, List.zipWith_cons_cons, List.sum_cons, List.length_cons] at ih ⊢
    rw [ih]
    push_cast
    ring

theorem sqDist_eq : ∀ (x y : List Rat), x.length = y.length →
    sqDist x y = -2 * dot x y + sqNorm x + sqNorm y
  | [], [], _ => by simp [sqDist, dot, sqNorm]
  | a :: x, b :: y, h => by
    have ih := sqDist_eq x y (by simpa using h)
    simp only [sqDist, dot, sqNorm, List.map_cons, List.zipWith_cons_cons, List.sum_cons] at ih ⊢
    rw [ih]; ring

/-- **C74.** The inner product score, the squared Euclidean distance and the cosine distances
computed on two compressed vectors of equal length, each faithful, of any two bit widths and
any ranges, are those of the vectors they stand for (up to `f32` rounding, which is not
modelled), as long as the integer accumulator does not overflow. -/
theorem C74_distances (n m : Nat) (x y : Data) (hx : Faithful n x) (hy : Faithful m y)
    (hl : x.codes.length = y.codes.length)
    (hdim : x.codes.length * ((2 ^ n - 1) * (2 ^ m - 1)) < 2 ^ 31) :
    ipDist x y = some (some (-dot (recon x) (recon y))) ∧
    sqL2 x y = some (some (sqDist (recon x) (recon y))) ∧
    cosNormalized x y = some (some (1 - dot (recon x) (recon y))) ∧
    ∀ sqrt : Rat → Rat, sqrt (sqNorm (recon x)) * sqrt (sqNorm (recon y)) ≠ 0 →
      cosine sqrt x y = some (some (1 - dot (recon x) (recon y) /
        (sqrt (sqNorm (recon x)) * sqrt (sqNorm (recon y))))) := by
  have k : intKernel (· * ·) x.codes y.codes =
      some (some (List.zipWith (· * ·) x.codes y.codes).sum) := by
    refine intKernel_eq _ ((2 ^ n - 1) * (2 ^ m - 1)) _ _ hl ?_ hdim
    intro a ha b hb
    exact Nat.mul_le_mul (hx.codes a ha) (hy.codes b hb)
  have e : ipValue x y = some (some (dot (recon x) (recon y))) := by
    unfold ipValue
    rw [k]
    simp only [Option.map_some, Option.some.injEq, recon]
    rw [dot_affine _ _ _ _ _ _ hl, hx.sum, hy.sum]
  refine ⟨by simp [ipDist, e], ?_, by simp [cosNormalized, e], ?_⟩
  · unfold sqL2
    rw [e, sqDist_eq _ _ (by simp [recon, hl]), hx.norm, hy.norm]
    rfl
  · intro sqrt h
    unfold cosine
    rw [e]
    simp only [Option.map_some, Option.bind_some, fdiv, hx.norm, hy.norm]
    rw [if_neg h]
    rfl

/-- Compressed vectors of different lengths are rejected with an error. -/
theorem C74_distance_lengths (x y : Data) (h : x.codes.length ≠ y.codes.length) (sqrt : Rat → Rat) :
    ipDist x y = none ∧ sqL2 x y = none ∧ cosNormalized x y = none ∧ cosine sqrt x y = none := by
  simp [ipDist, sqL2, cosNormalized, cosine, ipValue, intKernel, h]

theorem queryRaw_affine (a b : Rat) : ∀ (x : List Rat) (y : List Nat), x.length = y.length →
    dot x (y.map (fun c : Nat => a * (c : Rat) + b)) =
      (List.zipWith (fun u (c : Nat) => u * (c : Rat)) x y).sum * a + x.sum * b
  | [], [], _ => by simp [dot]
  | u :: x, c :: y, h => by
    have ih := queryRaw_affine a b x y (by simpa using h)
    simp only [dot] at ih ⊢
    simp only [List.map_cons, List.zipWith_cons_cons, List.sum_cons] at ih ⊢
    rw [ih]; ring

/-- **C74.** A query kept in full precision: preparing it succeeds exactly when it has no
NaN component; its inner product and squared Euclidean distance to a compressed vector of
the same length are those of the transformed query and the vector the compressed one stands
for. -/
theorem C74_query (q : Quantizer) (frm : List (Option Rat)) (hl : frm.length = q.dim) :
    (none ∈ frm → compressQuery q frm q.outDim = .nan) ∧
    ∀ v, none ∉ frm → q.transform frm = v.map some →
      ∃ x, compressQuery q frm q.outDim = .ok x ∧
        ∀ n y, Faithful n y → v.length = y.codes.length →
          queryIp x y = some (dot v (recon y)) ∧ queryL2 x y = some (sqDist v (recon y)) := by
  have hval : ∀ v : List Rat, values (v.map some) = some v := by
    intro v; induction v with
    | nil => rfl
    | cons x v ih => simp [values, ih]
  constructor
  · intro h
    unfold compressQuery
    rw [if_pos ⟨hl, rfl⟩, values_none.mpr h]
  · intro v hn hv
    refine ⟨{ vec := v, sum := v.sum, normSq := (v.map (fun x => x * x)).sum }, ?_, ?_⟩
    · unfold compressQuery
      rw [if_pos ⟨hl, rfl⟩]
      cases h : values frm with
      | none => exact absurd (values_none.mp h) hn
      | some w => simp only [hv, hval]
    · intro n y hy hlen
      have e := queryRaw_affine y.a y.b v y.codes hlen
      constructor
      · unfold queryIp queryRaw
        simp only [hlen, if_true, Option.map_some, recon, e]
      · unfold queryL2 queryRaw
        rw [sqDist_eq _ _ (by simp [recon, hlen])]
        simp only [hlen, if_true, Option.map_some, Option.some.injEq]
        have e' : dot v (recon y) = _ := e
        rw [hy.norm, e']
        simp only [sqNorm]
        ring

/-- **C74.** Recompressing a faithful vector of `n` bits to `m` bits gives a faithful vector
of the same length.  Its representable values span the source range scaled about its middle
by the grid scale, and every code is a best one for the value the source code stood for.  A
destination of another length is rejected. -/
theorem C74_recompress (n m : Nat) (hn : 1 ≤ n) (hm : 1 ≤ m) (g : Rat) (hg : 0 < g) (src : Data)
    (len : Nat) :
    (src.codes.length ≠ len → recompress n m g src len = none) ∧
    (src.codes.length = len → ∃ d, recompress n m g src len = some d ∧
      Faithful m d ∧ d.codes.length = len ∧
      (∃ mid w, src.b = mid - w ∧ src.b + src.a * ((2 : Rat) ^ n - 1) = mid + w ∧
        d.b = mid - g * w ∧ d.b + d.a * ((2 : Rat) ^ m - 1) = mid + g * w) ∧
      ∀ (i : Nat) (x : Rat) (c : Nat), (recon src)[i]? = some x → d.codes[i]? = some c →
        BestCode (2 ^ m - 1) (fun k => d.a * (k : Rat) + d.b) x c) := by
  have hbn : (1 : Rat) ≤ bitScale n := by exact_mod_cast bitScale_pos hn
  have hbm : (1 : Rat) ≤ bitScale m := by exact_mod_cast bitScale_pos hm
  have hbn0 : (bitScale n : Rat) ≠ 0 := by linarith
  have hbm0 : (bitScale m : Rat) ≠ 0 := by linarith
  have hg0 : g ≠ 0 := ne_of_gt hg
  constructor
  · intro h; simp [recompress, h]
  · intro h
    refine ⟨_, by unfold recompress; rw [if_pos h], ?_, by simp [h], ?_, ?_⟩
    · refine ⟨?_, by simp, rfl, ?_⟩
      · intro c hc
        obtain ⟨o, _, rfl⟩ := List.mem_map.mp hc
        exact (recode_best (bitScale m) _ _ (roundEven_near _)).1
      · dsimp only [recon, sqNorm]
        rw [List.map_map, List.map_map, List.map_map]
        congr 1
        apply List.map_congr_left
        intro o _
        simp only [Function.comp]
        ring
    · refine ⟨src.b + src.a * bitScale n / 2, src.a * bitScale n / 2, ?_, ?_, ?_, ?_⟩
      · ring
      · rw [← bitScale_cast]; ring
      · dsimp only; ring
      · dsimp only; rw [← bitScale_cast]; field_simp; ring
    · intro i x c hx hc
      simp only [recon, List.getElem?_map] at hx
      simp only [List.getElem?_map] at hc
      obtain ⟨o, ho, rfl⟩ := Option.map_eq_some_iff.mp hx
      rw [ho] at hc
      injection hc with hc
      rw [← hc]
      refine best_scale (w := src.a / (bitScale m / (bitScale n * g)))
        (t := ((o : Rat) - bitScale n * (1 - g) * (1 / 2)) * (bitScale m / (bitScale n * g))) ?_
        (recode_best (bitScale m) _ _ (roundEven_near _))
      intro k
      field_simp
      ring

/-- **C74 (disagreement).** The cosine distance involving a vector that stands for the zero
vector is not a finite number, whatever the other vector. -/
theorem C74_cosine_zero (sqrt : Rat → Rat) (h0 : sqrt 0 = 0) (x y : Data) (n : Nat)
    (hx : Faithful n x) (hz : ∀ r ∈ recon x, r = 0) :
    cosine sqrt x y = none ∨ cosine sqrt x y = some none := by
  have hn : x.normSq = 0 := by
    rw [hx.norm]
    unfold sqNorm
    have : ∀ l : List Rat, (∀ r ∈ l, r = 0) → (l.map (fun a => a * a)).sum = 0 := by
      intro l
      induction l with
      | nil => simp
      | cons a l ih =>
        intro h
        simp only [List.map_cons, List.sum_cons]
        rw [h a (by simp), ih (fun r hr => h r (by simp [hr]))]
        ring
    exact this _ hz
  unfold cosine
  rw [hn, h0]
  simp only [zero_mul, fdiv, if_true, Option.map_none]
  cases ipValue x y with
  | none => left; rfl
  | some r => right; cases r <;> rfl

/-- A quantizer without transform, of dimension `k`. -/
def plain (k : Nat) (g : Rat) : Quantizer := { dim := k, outDim := k, transform := id, gridScale := g }

/-- A concrete case: two bits, range `[0, 3]`. -/
example :
    compress 2 (plain 3 1) [some 0, some 3, some (7 / 5)] 3 =
      .ok ({ codes := [0, 3, 1], dim := 3, b := 0, n := 4, a := 1, normSq := 10 }, 4 / 25) ∧
    compress 1 (plain 3 1) [some 0, some 3, some 6] 3 =
      .ok ({ codes := [0, 1, 1], dim := 3, b := 0, n := 9, a := 9 / 2, normSq := 81 / 2 }, 9 / 2) ∧
    compress 2 (plain 2 1) [some 0, none] 2 = .nan ∧
    compress 2 (plain 2 1) [some 0] 2 = .panic ∧
    (compress 2 (plain 2 1) [some 5, some 5] 2 =
      .ok ({ codes := [0, 0], dim := 2, b := 5, n := 0, a := minWidth / 3, normSq := 50 }, 0)) ∧
    decompress { codes := [0, 3, 1], dim := 3, b := 0, n := 4, a := 1, normSq := 10 } 3 = some [0, 3, 1] := by
  decide +kernel

/-- A concrete recompression from 4 to 2 bits, and a distance across bit widths. -/
example :
    recompress 4 2 1 { codes := [0, 15, 7], dim := 3, b := 1, n := 22, a := 1, normSq := 321 } 3 =
      some { codes := [0, 3, 1], dim := 3, b := 1, n := 20, a := 5, normSq := 293 } ∧
    sqL2 { codes := [0, 15, 7], dim := 3, b := 1, n := 22, a := 1, normSq := 321 }
      { codes := [0, 3, 1], dim := 3, b := 1, n := 20, a := 5, normSq := 293 } = some (some 4) ∧
    3 * ((2 ^ 4 - 1) * (2 ^ 2 - 1)) < 2 ^ 31 := by
  decide +kernel

example : Faithful 4 { codes := [0, 15, 7], dim := 3, b := 1, n := 22, a := 1, normSq := 321 } :=
  ⟨by decide, by decide, by decide +kernel, by decide +kernel⟩

end Verif.Quant.MinMax
