import Verif.Spherical.OptLemmas

/-! # Lemmas: the results of the compressions -/

namespace Verif.Spherical

open Verif.Rotate (inner distSq)

variable {K : Type} [Field K] [LinearOrder K] [IsStrictOrderedRing K]

theorem finite_map {α : Type} (x : List α) : finite (x.map some) = some x := by
  induction x with
  | nil => rfl
  | cons a x ih => simp [finite, ih]

theorem recon_lattice (b : Nat) (d : Data K) : recon b d = (lattice b d.codes).map (fun z => d.info.correction * z) := by
  unfold recon lattice
  rw [List.map_map]; rfl

theorem signBit_term (r : K) : ((signBit r : Nat) : K) - (2 ^ 1 - 1) / 2 = if 0 < r then 1 / 2 else -(1 / 2) := by
  unfold signBit
  split <;> norm_num

theorem inner_sign (t : List K) : inner t (lattice 1 (t.map signBit)) = (t.map (fun r => |r|)).sum / 2 := by
  induction t with
  | nil => simp [inner, lattice]
  | cons r t ih =>
    have e : lattice (K := K) 1 ((r :: t).map signBit) =
        (((signBit r : Nat) : K) - (2 ^ 1 - 1) / 2) :: lattice 1 (t.map signBit) := rfl
    rw [e, inner_cons, ih, signBit_term, List.map_cons, List.sum_cons]
    split
    · rename_i h; rw [abs_of_pos h]; ring
    · rename_i h; rw [abs_of_nonpos (not_lt.mp h)]; ring

theorem meta_ok {f16 : K → Option K} {c : Option K} {ms : K} {bs : Nat} {codes : List Nat} {d : Data K}
    (h : withMeta codes (Meta.new f16 c ms bs) = .ok d) :
    ∃ c', c = some c' ∧ d.codes = codes ∧ f16 c' = some d.info.correction ∧ f16 ms = some d.info.metricSpecific ∧
      d.info.bitSum = bs ∧ bs < 65536 := by
  unfold Meta.new at h
  cases c with
  | none => simp [withMeta] at h
  | some c' =>
    cases hc : f16 c' with
    | none => simp [withMeta, hc] at h
    | some c2 =>
      cases hm : f16 ms with
      | none => simp [withMeta, hc, hm] at h
      | some m2 =>
        by_cases hb : bs < 65536
        · simp only [Option.bind_some, hc, hm, hb, if_true, withMeta, Except.ok.injEq] at h
          subst h
          exact ⟨c', rfl, rfl, hc, rfl, rfl, hb⟩
        · simp [withMeta, hc, hm, hb] at h

theorem quot_some {a b c : K} (h : quot a b = some c) : b ≠ 0 ∧ c = a / b := by
  unfold quot at h
  split at h
  · simp at h
  · rename_i hb
    simp only [Option.some.injEq] at h
    exact ⟨hb, h.symm⟩

section
variable [FloorRing K]

theorem selfProduct_eq (b : Nat) (s : K) (t : List K) : selfProduct b s t = inner t (lattice b (t.map (codeAt b s))) := by
  induction t with
  | nil => simp [selfProduct, inner, lattice]
  | cons r t ih =>
    have e : lattice (K := K) b ((r :: t).map (codeAt b s)) =
        (((codeAt b s r : Nat) : K) - (2 ^ b - 1) / 2) :: lattice b (t.map (codeAt b s)) := rfl
    rw [e, inner_cons, ← ih]
    simp only [selfProduct, List.map_cons, List.sum_cons, offsetTerm]
    ring

/-- What a successful end of a compression leaves. -/
structure Coded (f16 : K → Option K) (b : Nat) (snorm ms : K) (t : List K) (tnorm : K) (d : Data K) : Prop where
  length : d.codes.length = t.length
  lt : ∀ c ∈ d.codes, c < 2 ^ b
  sum : d.info.bitSum = d.codes.sum
  small : d.codes.sum < 65536
  ne : inner t (lattice b d.codes) ≠ 0
  correction : f16 (tnorm * snorm / inner t (lattice b d.codes)) = some d.info.correction
  term : f16 ms = some d.info.metricSpecific

theorem finish_coded {f16 : K → Option K} {b : Nat} {pick : Nat → List (Crit K) → Nat} {snorm ms : K} {t : List K}
    {tnorm : K} {d : Data K} (h : finish f16 b pick snorm ms t tnorm = some (.ok d)) :
    Coded f16 b snorm ms t tnorm d := by
  unfold finish at h
  split at h
  · rename_i hb
    subst hb
    simp only [Option.some.injEq] at h
    obtain ⟨c, h1, h2, h3, h4, h5, h6⟩ := meta_ok h
    obtain ⟨g1, g2⟩ := quot_some h1
    have hin : inner t (lattice 1 d.codes) = (t.map (fun r => |r|)).sum / 2 := by rw [h2]; exact inner_sign t
    refine ⟨by rw [h2]; simp, ?_, by rw [h5, h2], by rw [h2]; exact h6, ?_, ?_, h4⟩
    · intro c hc
      rw [h2] at hc
      obtain ⟨r, _, rfl⟩ := List.mem_map.mp hc
      unfold signBit; split <;> omega
    · rw [hin]; exact div_ne_zero g1 (by norm_num)
    · rw [hin, ← h3, g2]
      congr 1
      field_simp
  · unfold finishMany at h
    cases hs : optimalScale epsilon b pick t with
    | none => rw [hs] at h; simp at h
    | some s =>
      rw [hs] at h
      simp only [Option.map_some, Option.some.injEq] at h
      cases s with
      | none => simp [finishAt] at h
      | some s =>
        obtain ⟨c, h1, h2, h3, h4, h5, h6⟩ := meta_ok h
        obtain ⟨g1, g2⟩ := quot_some h1
        rw [selfProduct_eq, ← h2] at g1 g2
        refine ⟨by rw [h2]; simp, ?_, by rw [h5, h2], by rw [h2]; exact h6, g1, by rw [← g2]; exact h3, h4⟩
        intro c hc
        rw [h2] at hc
        obtain ⟨r, _, rfl⟩ := List.mem_map.mp hc
        exact codeAt_lt _ _

/-- The result of a successful compression. -/
theorem compress_ok {norm : List K → K} {f16 : K → Option K} {pick : Nat → List (Crit K) → Nat} {q : Quantizer K} {b : Nat}
    {x : List K} {old : List Nat} {d : Data K} (h : compress norm f16 pick q b (x.map some) old = some (.ok d)) :
    x.length = q.shift.length ∧ old.length = q.outDim ∧
      ((norm (shifted norm q x) = 0 ∧ d = ⟨old, Meta.zero⟩) ∨
        (norm (shifted norm q x) ≠ 0 ∧
          finish f16 b pick (norm (shifted norm q x)) (metricSpecific norm q x) (transformed norm q x)
            (transformedNorm norm q x) = some (.ok d))) := by
  unfold compress checkDims at h
  rw [List.length_map] at h
  by_cases h1 : x.length = q.shift.length
  · by_cases h2 : old.length = q.outDim
    · rw [if_neg (by simpa using h1), if_neg (by simpa using h2)] at h
      dsimp only at h
      rw [finite_map] at h
      dsimp only at h
      refine ⟨h1, h2, ?_⟩
      unfold compressFinite at h
      by_cases h3 : norm (shifted norm q x) = 0
      · rw [if_pos h3] at h
        simp only [Option.some.injEq, Except.ok.injEq] at h
        exact Or.inl ⟨h3, h.symm⟩
      · rw [if_neg h3] at h
        exact Or.inr ⟨h3, h⟩
    · rw [if_neg (by simpa using h1), if_pos h2] at h
      simp at h
  · rw [if_pos h1] at h
    simp at h

theorem shifted_length (norm : List K → K) (q : Quantizer K) {x : List K} (h : x.length = q.shift.length) :
    (shifted norm q x).length = q.shift.length := by
  simp [shifted, h]

theorem transformed_length {norm : List K → K} {q : Quantizer K} (hq : Sized q) {x : List K}
    (h : x.length = q.shift.length) : (transformed norm q x).length = q.outDim :=
  hq _ (by simp [unitOf, shifted_length norm q h])

theorem compress_wf {norm : List K → K} {f16 : K → Option K} {pick : Nat → List (Crit K) → Nat} {q : Quantizer K} {b : Nat}
    (hq : Sized q) {x : List K} {old : List Nat} {d : Data K}
    (h : compress norm f16 pick q b (x.map some) old = some (.ok d)) : WF q.outDim d := by
  obtain ⟨h1, h2, ⟨_, rfl⟩ | ⟨_, h3⟩⟩ := compress_ok h
  · exact ⟨h2, Or.inl rfl⟩
  · have hc := finish_coded h3
    exact ⟨by rw [hc.length, transformed_length hq h1], Or.inr hc.sum⟩

/-! ## Centered vectors -/

theorem norm_zero {norm : List K → K} {u : List K} (hn : IsNorm norm u) (h : norm u = 0) : ∀ z ∈ u, z = 0 := by
  apply inner_self_eq_zero
  rw [← hn.2, h, mul_zero]

theorem inner_zero_left {u : List K} (h : ∀ z ∈ u, z = 0) (v : List K) : inner u v = 0 := by
  induction u generalizing v with
  | nil => exact inner_nil v
  | cons a u ih => cases v with
    | nil => simp [inner]
    | cons b v =>
      rw [inner_cons, h a (by simp), ih (fun z hz => h z (by simp [hz])), zero_mul, zero_add]

theorem inner_zero_right {u : List K} (h : ∀ z ∈ u, z = 0) (v : List K) : inner v u = 0 := by
  rw [inner_comm]; exact inner_zero_left h v

theorem inner_smul_left (a : K) (u v : List K) : inner (u.map (fun z => a * z)) v = a * inner u v := by
  have h := inner_map (fun z => a * z) (fun z => 1 * z) a 1 (fun _ => rfl) (fun _ => rfl) u v
  rw [mul_one] at h
  rw [← h]
  congr 1
  simp

theorem inner_smul_right (a : K) (u v : List K) : inner u (v.map (fun z => a * z)) = a * inner u v := by
  rw [inner_comm, inner_smul_left, inner_comm]

/-- The metric specific term is the one of the documentation. -/
theorem metricSpecific_l2 {norm : List K → K} {q : Quantizer K} {x : List K} (hm : q.metric = .squaredL2)
    (hn : IsNorm norm (shifted norm q x)) : metricSpecific norm q x = inner (shifted norm q x) (shifted norm q x) := by
  unfold metricSpecific; rw [hm]; exact hn.2

theorem metricSpecific_ip {norm : List K → K} {q : Quantizer K} {x : List K} (hm : q.metric ≠ .squaredL2) :
    metricSpecific norm q x = inner (shifted norm q x) q.shift := by
  unfold metricSpecific
  cases h : q.metric with
  | squaredL2 => exact absurd h hm
  | innerProduct => rfl
  | cosine => rfl

/-- With the true inner product the estimate is the true distance. -/
theorem estimate_true {norm : List K → K} {q : Quantizer K} {x y : List K} (hx : x.length = q.shift.length)
    (hy : y.length = q.shift.length)
    (hn : ∀ u ∈ [x, y, shifted norm q x, shifted norm q y], IsNorm norm u) :
    estimate q.metric (inner q.shift q.shift) (metricSpecific norm q x) (metricSpecific norm q y)
      (inner (shifted norm q x) (shifted norm q y)) = trueDistance norm q.metric q.preScale x y := by
  have e1 := inner_shift (factor norm q x) (factor norm q y) x y q.shift hx hy
  have e2 := inner_shift_center (factor norm q x) x q.shift hx
  have e3 := inner_shift_center (factor norm q y) y q.shift hy
  have e4 := inner_shift (factor norm q x) (factor norm q x) x x q.shift hx hx
  have e5 := inner_shift (factor norm q y) (factor norm q y) y y q.shift hy hy
  cases hm : q.metric with
  | squaredL2 =>
    rw [metricSpecific_l2 hm (hn _ (by simp)), metricSpecific_l2 hm (hn _ (by simp))]
    simp only [estimate, trueDistance]
    unfold shifted
    rw [e1, e4, e5, distSq_eq x y (by rw [hx, hy])]
    have f1 : factor norm q x = q.preScale := by unfold factor; rw [hm]
    have f2 : factor norm q y = q.preScale := by unfold factor; rw [hm]
    rw [f1, f2]
    ring
  | innerProduct =>
    rw [metricSpecific_ip (by rw [hm]; simp), metricSpecific_ip (by rw [hm]; simp)]
    simp only [estimate, trueDistance]
    unfold shifted
    rw [e1, e2, e3]
    have f1 : factor norm q x = q.preScale := by unfold factor; rw [hm]
    have f2 : factor norm q y = q.preScale := by unfold factor; rw [hm]
    rw [f1, f2]
    ring
  | cosine =>
    rw [metricSpecific_ip (by rw [hm]; simp), metricSpecific_ip (by rw [hm]; simp)]
    simp only [estimate, trueDistance]
    unfold shifted
    rw [e1, e2, e3]
    have f : ∀ z, factor norm q z = if norm z = 0 then 1 else 1 / norm z := by intro z; unfold factor; rw [hm]
    by_cases h1 : norm x = 0
    · rw [inner_zero_left (norm_zero (hn x (by simp)) h1) y, inner_zero_left (norm_zero (hn x (by simp)) h1) q.shift]
      ring
    · by_cases h2 : norm y = 0
      · rw [inner_zero_right (norm_zero (hn y (by simp)) h2) x, inner_zero_left (norm_zero (hn y (by simp)) h2) q.shift]
        ring
      · rw [f x, f y, if_neg h1, if_neg h2]
        field_simp
        ring

/-! ## Images -/

theorem image_smul {norm : List K → K} {q : Quantizer K} {x : List K} :
    image norm q x = (transformed norm q x).map (fun t => norm (shifted norm q x) * t) := rfl

theorem sized_of_isometric {q : Quantizer K} (hq : Isometric q) : Sized q := fun u hu => (hq u u hu hu).1

/-- Images have the inner products of the centered vectors. -/
theorem inner_image {norm : List K → K} {q : Quantizer K} (hq : Isometric q) {x y : List K} (hx : x.length = q.shift.length)
    (hy : y.length = q.shift.length) (nx : IsNorm norm (shifted norm q x)) (ny : IsNorm norm (shifted norm q y)) :
    inner (image norm q x) (image norm q y) = inner (shifted norm q x) (shifted norm q y) := by
  unfold image
  rw [inner_smul_left, inner_smul_right]
  unfold transformed
  rw [(hq _ _ (by simp [unitOf, shifted_length norm q hx]) (by simp [unitOf, shifted_length norm q hy])).2]
  by_cases h1 : norm (shifted norm q x) = 0
  · rw [h1, zero_mul, inner_zero_left (norm_zero nx h1)]
  · by_cases h2 : norm (shifted norm q y) = 0
    · rw [h2, zero_mul, mul_zero, inner_zero_right (norm_zero ny h2)]
    · unfold unitOf
      rw [inner_map (fun v => v / norm (shifted norm q x)) (fun v => v / norm (shifted norm q y))
        (1 / norm (shifted norm q x)) (1 / norm (shifted norm q y)) (fun z => by ring) (fun z => by ring)]
      field_simp

/-- The projection of what codes stand for onto the image of the vector. -/
theorem recon_image {norm : List K → K} {f16 : K → Option K} (hf : Exact f16) {pick : Nat → List (Crit K) → Nat}
    {q : Quantizer K} {b : Nat} {x : List K} {old : List Nat} {d : Data K}
    (h : compress norm f16 pick q b (x.map some) old = some (.ok d)) :
    inner (recon b d) (image norm q x) =
      transformedNorm norm q x * (norm (shifted norm q x) * norm (shifted norm q x)) := by
  obtain ⟨h1, h2, ⟨h0, rfl⟩ | ⟨h0, h3⟩⟩ := compress_ok h
  · unfold image
    rw [h0, inner_smul_right]; ring
  · have hc := finish_coded h3
    have e := hf _ _ hc.correction
    rw [recon_lattice, image, inner_smul_left, inner_smul_right, inner_comm (lattice b d.codes), e]
    have := hc.ne
    field_simp

/-- The stored metric specific term. -/
theorem stored_term {norm : List K → K} {f16 : K → Option K} (hf : Exact f16) {pick : Nat → List (Crit K) → Nat}
    {q : Quantizer K} {b : Nat} {x : List K} {old : List Nat} {d : Data K} (nx : IsNorm norm (shifted norm q x))
    (h : compress norm f16 pick q b (x.map some) old = some (.ok d)) :
    d.info.metricSpecific = metricSpecific norm q x := by
  obtain ⟨h1, h2, ⟨h0, rfl⟩ | ⟨h0, h3⟩⟩ := compress_ok h
  · by_cases hm : q.metric = .squaredL2
    · rw [metricSpecific_l2 hm nx, inner_zero_left (norm_zero nx h0)]; rfl
    · rw [metricSpecific_ip hm, inner_zero_left (norm_zero nx h0)]; rfl
  · exact hf _ _ (finish_coded h3).term

end

end Verif.Spherical
