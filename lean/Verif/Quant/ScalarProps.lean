import Verif.Quant.AffineLemmas

/-!
# C73 — scalar quantization

Compression picks, in every dimension, a code standing for a closest representable value;
the distances computed on codes are the distances of the reconstructions.
-/

namespace Verif.Quant.Scalar

open Verif.Quant.Affine

theorem bitScale_cast (n : Nat) : ((bitScale n : Nat) : Rat) = (2 : Rat) ^ n - 1 := by
  have : 1 ≤ 2 ^ n := Nat.one_le_two_pow
  unfold bitScale
  push_cast [this]
  rfl

theorem bitScale_ne {n : Nat} (h : 1 ≤ n) : ((bitScale n : Nat) : Rat) ≠ 0 := by
  have := bitScale_pos h
  have : (1 : Rat) ≤ bitScale n := by exact_mod_cast this
  linarith

theorem codeOf_some {n : Nat} {scale s f : Rat} (hs : scale ≠ 0) :
    codeOf n scale s (some f) =
      some (roundAway (clamp 0 (bitScale n) ((f - s) * (bitScale n / scale)))).toNat := by
  simp [codeOf, hs]

theorem codeOf_best {n : Nat} (hn : 1 ≤ n) {scale s f : Rat} (hs : scale ≠ 0) {c : Nat}
    (h : codeOf n scale s (some f) = some c) :
    BestCode (2 ^ n - 1) (scalarValue n scale s) f c := by
  rw [codeOf_some hs] at h
  injection h with h
  subst h
  have hb := bitScale_ne hn
  refine best_scale (w := scale / bitScale n) (t := (f - s) * (bitScale n / scale)) ?_
    (round_clamp_best (bitScale n) _)
  intro k
  unfold scalarValue
  rw [← bitScale_cast]
  field_simp
  ring

theorem codeOf_half {n : Nat} (hn : 1 ≤ n) {scale s f : Rat} (hs : 0 < scale) {c : Nat}
    (h : codeOf n scale s (some f) = some c) (h0 : s ≤ f) (h1 : f ≤ s + scale) :
    |scalarValue n scale s c - f| ≤ scale / ((2 : Rat) ^ n - 1) / 2 := by
  rw [codeOf_some (ne_of_gt hs)] at h
  injection h with h
  have hb1 : (1 : Rat) ≤ bitScale n := by exact_mod_cast bitScale_pos hn
  have hb : (0 : Rat) < bitScale n := by linarith
  have key := round_clamp_half (bitScale n) ((f - s) * (bitScale n / scale))
    (mul_nonneg (by linarith) (by positivity))
    (by rw [mul_div_assoc', div_le_iff₀ hs]
        have : f - s ≤ scale := by linarith
        nlinarith)
  rw [h] at key
  have e : scalarValue n scale s c - f =
      scale / bitScale n * ((c : Rat) - (f - s) * (bitScale n / scale)) := by
    unfold scalarValue; rw [← bitScale_cast]; field_simp; ring
  rw [e, abs_mul, ← bitScale_cast, abs_of_pos (by positivity)]
  have : scale / (bitScale n : Rat) / 2 = scale / bitScale n * (1 / 2) := by ring
  rw [this]
  exact mul_le_mul_of_nonneg_left key (by positivity)

theorem compress_inv {n : Nat} {q : Quantizer} {frm : List (Option Rat)} {len : Nat}
    {v : CVec} {e : Bool} (h : compress n q frm len = some (v, e)) :
    frm.length = q.shift.length ∧ len = q.shift.length ∧
    v.codes = (List.zipWith (fun f s => codeOf n q.scale s f) frm q.shift).map stored ∧
    v.comp = (codeDot (List.zipWith (fun f s => codeOf n q.scale s f) frm q.shift) q.shift).map
      (fun d => q.scale * (1 / (bitScale n : Rat)) * d) ∧
    e = frm.any (·.isNone) := by
  unfold compress at h
  split at h
  · rename_i hl
    simp only [Option.some.injEq, Prod.mk.injEq] at h
    obtain ⟨h1, h2⟩ := h
    subst h1
    exact ⟨hl.1, hl.2, rfl, rfl, h2.symm⟩
  · simp at h

/-- **C73.** Compressing a vector of the quantizer's dimension succeeds exactly when no
component is NaN.  Every component then gets a code of `n` bits standing for a closest
representable value, whatever the value; for a value inside the range the error is at most
half the distance of two neighbouring representable values. -/
theorem C73_codes (n : Nat) (hn : 1 ≤ n) (q : Quantizer) (hs : 0 < q.scale)
    (frm : List (Option Rat)) (hl : frm.length = q.shift.length) :
    ∃ v e, compress n q frm q.shift.length = some (v, e) ∧
      (e = true ↔ none ∈ frm) ∧
      v.codes.length = frm.length ∧
      ∀ (i : Nat) (f s : Rat) (c : Nat), frm[i]? = some (some f) → q.shift[i]? = some s → v.codes[i]? = some c →
        BestCode (2 ^ n - 1) (scalarValue n q.scale s) f c ∧
        (s ≤ f → f ≤ s + q.scale →
          |scalarValue n q.scale s c - f| ≤ q.scale / ((2 : Rat) ^ n - 1) / 2) := by
  refine ⟨_, _, by unfold compress; rw [if_pos ⟨hl, rfl⟩], ?_, ?_, ?_⟩
  · simp
  · simp [hl]
  · intro i f s c hf hs' hc
    simp only [List.getElem?_map, List.getElem?_zipWith, hf, hs', Option.map_some,
      Option.some.injEq] at hc
    have h2 : codeOf n q.scale s (some f) = some c := by
      rw [codeOf_some (ne_of_gt hs)] at hc ⊢
      simpa [stored] using hc
    exact ⟨codeOf_best hn (ne_of_gt hs) h2, codeOf_half hn hs h2⟩

/-- Any other length of source or destination is rejected by an assertion. -/
theorem C73_lengths (n : Nat) (q : Quantizer) (frm : List (Option Rat)) (len : Nat) :
    compress n q frm len = none ↔ ¬ (frm.length = q.shift.length ∧ len = q.shift.length) := by
  unfold compress
  split <;> simp_all

theorem sum_le_of (f : Nat → Nat → Nat) (B : Nat) :
    ∀ (x y : List Nat), (∀ a ∈ x, ∀ b ∈ y, f a b ≤ B) →
      (List.zipWith f x y).sum ≤ x.length * B
  | [], _, _ => by simp
  | _ :: _, [], _ => by simp
  | a :: x, b :: y, h => by
    have ih := sum_le_of f B x y (fun a ha b hb => h a (by simp [ha]) b (by simp [hb]))
    have h1 := h a (by simp) b (by simp)
    simp only [List.zipWith_cons_cons, List.sum_cons, List.length_cons]
    rw [Nat.add_mul]; omega

theorem intKernel_eq (f : Nat → Nat → Nat) (M : Nat) (x y : List Nat)
    (hl : x.length = y.length) (hx : ∀ a ∈ x, ∀ b ∈ y, f a b ≤ M)
    (hb : x.length * M < 2 ^ 31) :
    intKernel f x y = some (some (List.zipWith f x y).sum) := by
  have := sum_le_of f M x y hx
  unfold intKernel
  rw [if_pos hl]
  dsimp only
  rw [if_pos (by omega)]

theorem sqDist_recon (n : Nat) (scale : Rat) :
    ∀ (shift : List Rat) (x y : List Nat), x.length = shift.length → y.length = shift.length →
      sqDist (scalarRecon n scale shift x) (scalarRecon n scale shift y) =
        (scale / ((2 : Rat) ^ n - 1)) * (scale / ((2 : Rat) ^ n - 1)) *
          ((List.zipWith (fun a b => (if a ≤ b then b - a else a - b) ^ 2) x y).sum : Nat)
  | [], [], [], _, _ => by simp [sqDist, scalarRecon]
  | s :: shift, a :: x, b :: y, hx, hy => by
    have ih := sqDist_recon n scale shift x y (by simpa using hx) (by simpa using hy)
    simp only [sqDist, scalarRecon] at ih ⊢
    simp only [List.zipWith_cons_cons, List.sum_cons] at ih ⊢
    rw [ih]
    have : (((if a ≤ b then b - a else a - b) ^ 2 : Nat) : Rat) = ((a : Rat) - b) * ((a : Rat) - b) := by
      split
      · rename_i h; push_cast [h]; ring
      · rename_i h; push_cast [show b ≤ a by omega]; ring
    rw [Nat.cast_add, this]
    unfold scalarValue
    ring

theorem dot_recon (n : Nat) (scale : Rat) :
    ∀ (shift : List Rat) (x y : List Nat), x.length = shift.length → y.length = shift.length →
      dot (scalarRecon n scale shift x) (scalarRecon n scale shift y) =
        (scale / ((2 : Rat) ^ n - 1)) * (scale / ((2 : Rat) ^ n - 1)) *
          ((List.zipWith (· * ·) x y).sum : Nat) + sqNorm shift +
          (scale / ((2 : Rat) ^ n - 1)) * ((List.zipWith (fun (c : Nat) s => (c : Rat) * s) x shift).sum +
            (List.zipWith (fun (c : Nat) s => (c : Rat) * s) y shift).sum)
  | [], [], [], _, _ => by simp [dot, scalarRecon, sqNorm]
  | s :: shift, a :: x, b :: y, hx, hy => by
    have ih := dot_recon n scale shift x y (by simpa using hx) (by simpa using hy)
    simp only [dot, scalarRecon, sqNorm] at ih ⊢
    simp only [List.zipWith_cons_cons, List.sum_cons, List.map_cons] at ih ⊢
    rw [ih]
    push_cast
    unfold scalarValue
    ring

theorem codeDot_some :
    ∀ (cs : List (Option Nat)) (shift : List Rat), cs.length = shift.length →
      (∀ c ∈ cs, c.isSome) →
      codeDot cs shift = some (List.zipWith (fun (c : Nat) s => (c : Rat) * s) (cs.map stored) shift).sum
  | [], [], _, _ => by simp [codeDot]
  | some c :: cs, s :: shift, hl, h => by
    have ih := codeDot_some cs shift (by simpa using hl) (fun c hc => h c (by simp [hc]))
    simp [codeDot, ih, stored]
  | none :: cs, s :: shift, _, h => by simpa using h none (by simp)

/-- What a successful compression leaves behind. -/
theorem compress_ok {n : Nat} {q : Quantizer} (hs : q.scale ≠ 0) {frm : List (Option Rat)}
    {len : Nat} {v : CVec} (h : compress n q frm len = some (v, false)) :
    v.codes.length = q.shift.length ∧ (∀ c ∈ v.codes, c ≤ bitScale n) ∧
    v.comp = some (q.scale * (1 / (bitScale n : Rat)) *
      (List.zipWith (fun (c : Nat) s => (c : Rat) * s) v.codes q.shift).sum) := by
  obtain ⟨h1, _, h3, h4, h5⟩ := compress_inv h
  have hall : ∀ f ∈ frm, f.isSome := by
    intro f hf
    have := h5
    simp only [Bool.false_eq, List.any_eq_false] at this
    have := this f hf
    cases f <;> simp_all
  have hsome : ∀ c ∈ List.zipWith (fun f s => codeOf n q.scale s f) frm q.shift, c.isSome := by
    intro c hc
    rw [List.zipWith_eq_zipWith_take_min] at hc
    obtain ⟨i, hi, rfl⟩ := List.getElem_of_mem hc
    simp only [List.getElem_zipWith, List.getElem_take]
    have hif : i < frm.length := by simp at hi; omega
    have := hall frm[i] (List.getElem_mem hif)
    obtain ⟨f, hf⟩ := Option.isSome_iff_exists.mp this
    rw [hf, codeOf_some hs]; rfl
  refine ⟨by rw [h3]; simp [h1], ?_, ?_⟩
  · intro c hc
    rw [h3] at hc
    obtain ⟨o, ho, rfl⟩ := List.mem_map.mp hc
    rw [List.zipWith_eq_zipWith_take_min] at ho
    obtain ⟨i, hi, rfl⟩ := List.getElem_of_mem ho
    simp only [List.getElem_zipWith, List.getElem_take]
    have hif : i < frm.length := by simp at hi; omega
    obtain ⟨f, hf⟩ := Option.isSome_iff_exists.mp (hall frm[i] (List.getElem_mem hif))
    rw [hf, codeOf_some hs]
    exact (round_clamp_best (bitScale n) _).1
  · rw [h4, codeDot_some _ _ (by simp [h1]) hsome, ← h3]
    rfl

/-- **C73.** On two vectors compressed by the same quantizer, the squared Euclidean
distance, the inner product score and the normalized cosine distance are those of the
reconstructions (up to `f32` rounding, which is not modelled), as long as the integer
accumulator does not overflow. -/
theorem C73_distances_partial (n : Nat) (hn : 1 ≤ n) (scale : Rat) (hs : scale ≠ 0) (shift : List Rat)
    (hdim : shift.length * (2 ^ n - 1) ^ 2 < 2 ^ 31)
    (fx fy : List (Option Rat)) (x y : CVec)
    (hx : compress n (Quantizer.new scale shift) fx shift.length = some (x, false))
    (hy : compress n (Quantizer.new scale shift) fy shift.length = some (y, false)) :
    sqL2 n (Quantizer.new scale shift) x y =
        some (some (sqDist (scalarRecon n scale shift x.codes) (scalarRecon n scale shift y.codes))) ∧
    ipDist n (Quantizer.new scale shift) x y =
        some (some (-dot (scalarRecon n scale shift x.codes) (scalarRecon n scale shift y.codes))) ∧
    cosDist n (Quantizer.new scale shift) x y =
        some (some (sqDist (scalarRecon n scale shift x.codes)
          (scalarRecon n scale shift y.codes) / 2)) := by
  obtain ⟨lx, mx, cx⟩ := compress_ok (by exact hs) hx
  obtain ⟨ly, my, cy⟩ := compress_ok (by exact hs) hy
  replace lx : x.codes.length = shift.length := lx
  replace ly : y.codes.length = shift.length := ly
  have hl : x.codes.length = y.codes.length := by rw [lx, ly]
  have hB : x.codes.length * (bitScale n) ^ 2 < 2 ^ 31 := by rw [lx]; exact hdim
  have k1 : intKernel (fun a b => (if a ≤ b then b - a else a - b) ^ 2) x.codes y.codes =
      some (some (List.zipWith (fun a b => (if a ≤ b then b - a else a - b) ^ 2) x.codes y.codes).sum) := by
    refine intKernel_eq _ ((bitScale n) ^ 2) _ _ hl ?_ hB
    intro a ha b hb
    have := mx a ha; have := my b hb
    apply Nat.pow_le_pow_left
    split <;> omega
  have k2 : intKernel (· * ·) x.codes y.codes =
      some (some (List.zipWith (· * ·) x.codes y.codes).sum) := by
    refine intKernel_eq _ ((bitScale n) ^ 2) _ _ hl ?_ hB
    intro a ha b hb
    rw [pow_two]
    exact Nat.mul_le_mul (mx a ha) (my b hb)
  have e1 : sqL2 n (Quantizer.new scale shift) x y =
        some (some (sqDist (scalarRecon n scale shift x.codes) (scalarRecon n scale shift y.codes))) := by
    unfold sqL2
    rw [k1, sqDist_recon n scale shift _ _ lx ly, ← bitScale_cast]
    simp only [Option.map_some, Option.some.injEq, Quantizer.new]
    ring
  refine ⟨e1, ?_, ?_⟩
  · unfold ipDist ipValue
    rw [k2, cx, cy, dot_recon n scale shift _ _ lx ly, ← bitScale_cast]
    simp only [Option.map_some, Option.some.injEq, Quantizer.new, sqNorm]
    ring
  · unfold cosDist
    rw [e1]
    simp only [Option.map_some, Option.some.injEq]
    ring

/-- Vectors of different lengths are rejected with an error by every distance. -/
theorem C73_distance_lengths (n : Nat) (q : Quantizer) (x y : CVec)
    (h : x.codes.length ≠ y.codes.length) :
    sqL2 n q x y = none ∧ ipDist n q x y = none ∧ cosDist n q x y = none := by
  simp [sqL2, ipDist, ipValue, cosDist, intKernel, h]

/-- **C73.** Training: the range of dimension `j` is the mean of that dimension plus and
minus the requested number of standard deviations, the largest over all dimensions. -/
theorem C73_train (sqrt : Rat → Rat) (rows : List (List Rat)) (hr : rows ≠ []) (ncols : Nat)
    (k : Rat) :
    ∃ q, train sqrt rows ncols k = some q ∧ q.shift.length = ncols ∧
      ∃ var, (∀ j < ncols, colVar rows j ≤ var) ∧ (var = 0 ∨ ∃ j < ncols, colVar rows j = var) ∧
        ∀ (j : Nat) (s : Rat), q.shift[j]? = some s →
          s = colMean rows j - k * sqrt var ∧ s + q.scale = colMean rows j + k * sqrt var := by
  refine ⟨_, by unfold train; rw [if_neg hr], by simp [Quantizer.new],
    ((List.range ncols).map (colVar rows)).foldl max 0, ?_, ?_, ?_⟩
  · intro j hj
    have hm : colVar rows j ∈ (List.range ncols).map (colVar rows) :=
      List.mem_map_of_mem (List.mem_range.mpr hj)
    have gen : ∀ (l : List Rat) (i x : Rat), (x ∈ l ∨ x ≤ i) → x ≤ l.foldl max i := by
      intro l
      induction l with
      | nil => intro i x h; simpa using h
      | cons a l ih =>
        intro i x h
        refine ih _ _ ?_
        rcases h with h | h
        · rcases List.mem_cons.mp h with h | h
          · right; rw [h]; exact le_max_right _ _
          · left; exact h
        · right; exact le_trans h (le_max_left _ _)
    exact gen _ _ _ (Or.inl hm)
  · have gen : ∀ (l : List Rat) (i : Rat), l.foldl max i = i ∨ l.foldl max i ∈ l := by
      intro l
      induction l with
      | nil => intro i; simp
      | cons a l ih =>
        intro i
        rcases ih (max i a) with h | h
        · rcases max_choice i a with h' | h'
          · left; rw [List.foldl_cons, h, h']
          · right; rw [List.foldl_cons, h, h']; simp
        · right; rw [List.foldl_cons]; exact List.mem_cons_of_mem _ h
    rcases gen ((List.range ncols).map (colVar rows)) 0 with h | h
    · left; exact h
    · right
      obtain ⟨j, hj, he⟩ := List.mem_map.mp h
      exact ⟨j, List.mem_range.mp hj, he⟩
  · intro j s hj
    simp only [Quantizer.new, List.getElem?_map] at hj
    obtain ⟨j', hj', rfl⟩ := Option.map_eq_some_iff.mp hj
    have : j' = j := by
      have := List.getElem?_eq_some_iff.mp hj'
      obtain ⟨_, h⟩ := this
      simpa using h.symm
    subst this
    simp only [Quantizer.new]
    constructor <;> ring

theorem ipDist_nan (n : Nat) (q : Quantizer) (x y : CVec) (hl : x.codes.length = y.codes.length)
    (h : x.comp = none ∨ y.comp = none) : ipDist n q x y = some none := by
  unfold ipDist ipValue intKernel
  rw [if_pos hl]
  simp only [Option.map_some]
  rcases h with h | h <;> rw [h] <;> simp

/-- **C73 (disagreement).** A training set whose rows are all equal (for instance a single
row) gives a quantizer of scale 0.  It compresses that row without reporting an error, but
the stored compensation is NaN, so every inner product with it is NaN; and the Euclidean
distance of any two vectors it compresses is 0. -/
theorem C73_constant_training (sqrt : Rat → Rat) (h0 : sqrt 0 = 0) (n : Nat) (r : List Rat)
    (hr : r ≠ []) (m : Nat) (k : Rat) :
    ∃ q v, train sqrt (List.replicate (m + 1) r) r.length k = some q ∧
      compress n q (r.map some) r.length = some (v, false) ∧
      v.comp = none ∧
      (∀ y : CVec, y.codes.length = r.length →
        ipDist n q v y = some none ∧ ipDist n q y v = some none) ∧
      (∀ x y : CVec, sqL2 n q x y = some (some 0) ∨ sqL2 n q x y = some none ∨
        sqL2 n q x y = none) := by
  have hcol : ∀ j, column (List.replicate (m + 1) r) j = List.replicate (m + 1) (r.getD j 0) := by
    intro j; simp [column]
  have hm1 : ((m : Rat) + 1) ≠ 0 := by positivity
  have hmean : ∀ j, colMean (List.replicate (m + 1) r) j = r.getD j 0 := by
    intro j
    unfold colMean
    rw [hcol, List.sum_replicate, List.length_replicate]
    simp only [nsmul_eq_mul]
    push_cast
    field_simp
  have hvar : ∀ j, colVar (List.replicate (m + 1) r) j = 0 := by
    intro j
    unfold colVar
    rw [hcol, hmean]
    simp
  have hmax : ((List.range r.length).map (colVar (List.replicate (m + 1) r))).foldl max 0 = 0 := by
    have : (List.range r.length).map (colVar (List.replicate (m + 1) r)) =
        List.replicate r.length 0 := by
      rw [List.eq_replicate_iff]; simp [hvar]
    rw [this]
    generalize r.length = l
    induction l with
    | zero => rfl
    | succ l ih => simpa [List.replicate_succ] using ih
  have hshift : (List.range r.length).map (fun j => colMean (List.replicate (m + 1) r) j - 0) = r := by
    apply List.ext_getElem
    · simp
    · intro i h1 h2
      simp [hmean, List.getD_eq_getElem?_getD, h2]
  obtain ⟨v, hv⟩ : ∃ v, compress n (Quantizer.new 0 r) (r.map some) r.length = some (v, false) := by
    have hany : (r.map some).any (·.isNone) = false := by simp
    unfold compress
    rw [if_pos ⟨by simp [Quantizer.new], by simp [Quantizer.new]⟩, hany]
    exact ⟨_, rfl⟩
  obtain ⟨_, _, h3, h4, _⟩ := compress_inv hv
  have hcomp : v.comp = none := by
    rw [h4]
    cases r with
    | nil => exact absurd rfl hr
    | cons a r => simp [codeDot, codeOf, Quantizer.new]
  have hlen : v.codes.length = r.length := by rw [h3]; simp [Quantizer.new]
  refine ⟨Quantizer.new 0 r, v, ?_, hv, hcomp, ?_, ?_⟩
  · unfold train
    rw [if_neg (by simp [List.replicate_succ])]
    simp only [hmax, h0, zero_mul, mul_zero, hshift]
  · intro y hy
    exact ⟨ipDist_nan n _ v y (by omega) (Or.inl hcomp), ipDist_nan n _ y v (by omega) (Or.inr hcomp)⟩
  · intro x y
    unfold sqL2 intKernel
    split
    · by_cases h : (List.zipWith (fun a b => (if a ≤ b then b - a else a - b) ^ 2) x.codes y.codes).sum < 2 ^ 31
      · left; dsimp only; rw [if_pos h]; simp [Quantizer.new]
      · right; left; dsimp only; rw [if_neg h]; rfl
    · right; right; rfl

/-- A concrete case: 2 bits, two dimensions, ranges `[0, 3]` and `[-1, 2]`; one component
out of range on either side. -/
example :
    compress 2 (Quantizer.new 3 [0, -1]) [some (7 / 5), some 5] 2 =
      some ({ codes := [1, 3], comp := some (-3) }, false) ∧
    compress 2 (Quantizer.new 3 [0, -1]) [some (-4), some (1 / 2)] 2 =
      some ({ codes := [0, 2], comp := some (-2) }, false) ∧
    sqL2 2 (Quantizer.new 3 [0, -1]) ⟨[1, 3], some (-3)⟩ ⟨[0, 2], some (-2)⟩ = some (some 2) ∧
    ipDist 2 (Quantizer.new 3 [0, -1]) ⟨[1, 3], some (-3)⟩ ⟨[0, 2], some (-2)⟩ = some (some (-2)) ∧
    scalarRecon 2 3 [0, -1] [1, 3] = [1, 2] ∧ scalarRecon 2 3 [0, -1] [0, 2] = [0, 1] ∧
    (compress 2 (Quantizer.new 3 [0, -1]) [some 1, none] 2).map (·.2) = some true ∧
    2 * (2 ^ 2 - 1) ^ 2 < 2 ^ 31 := by
  decide +kernel

/-- A concrete training set; its largest variance is 4, in the first dimension. -/
example :
    (train (fun v => if v = 4 then 2 else 0) [[1, 0], [5, 1]] 2 2).map (fun q => (q.scale, q.shift)) =
      some (8, [-1, 1 / 2 - 4]) ∧
    colVar [[1, 0], [5, 1]] 0 = 4 ∧ colVar [[1, 0], [5, 1]] 1 = 1 / 4 := by
  decide +kernel

end Verif.Quant.Scalar
