import Verif.Spherical.QueryLemmas
import Verif.Spherical.Inst
import Mathlib.Data.Rat.Floor

/-!
# C92: spherical quantization

`compress`, `compressQuery` and `compressFull` are the three compressions; `distData`, `distQuery` and `distFull` the distance
functors of the quantizer's metric.  The specification (`Spec.lean`): `recon`, `reconQuery`, `reconFull` say which vector a
compressed vector stands for, `trueDistance` is the distance of the uncompressed vectors.
-/

namespace Verif.Spherical

open Verif.Rotate (inner distSq)

variable {K : Type} [Field K] [LinearOrder K] [IsStrictOrderedRing K] [FloorRing K]

/-! ## Errors -/

/-- Which errors a compression reports: a wrong source length, else a wrong destination length, else a component that is not
finite; a vector at the center always succeeds.  The compression of a vector that is not at the center never hangs. -/
theorem C92_errors (norm : List K → K) (f16 : K → Option K) {pick : Nat → List (Crit K) → Nat} (hp : PicksLeast pick)
    {q : Quantizer K} (hq : Sized q) {b : Nat} (hb : 1 ≤ b) (x : List (Option K)) (old : List Nat) :
    (x.length ≠ q.shift.length → compress norm f16 pick q b x old = some (.error (.source q.shift.length))) ∧
    (x.length = q.shift.length → old.length ≠ q.outDim →
      compress norm f16 pick q b x old = some (.error (.destination q.outDim))) ∧
    (x.length = q.shift.length → old.length = q.outDim → none ∈ x →
      compress norm f16 pick q b x old = some (.error .nan)) ∧
    (x.length = q.shift.length → old.length = q.outDim → 0 < q.outDim → none ∉ x →
      ∃ r, compress norm f16 pick q b x old = some r ∧ r ≠ .error .nan ∧ (∀ n, r ≠ .error (.source n)) ∧
        ∀ n, r ≠ .error (.destination n)) := by
  have hfin : ∀ {α : Type} (x : List (Option α)), none ∈ x → finite x = none := by
    intro α x
    induction x with
    | nil => simp
    | cons a x ih =>
      intro h
      cases a with
      | none => rfl
      | some a =>
        have h' : none ∈ x := by simpa using h
        simp [finite, ih h']
  have hfin2 : ∀ {α : Type} (x : List (Option α)), none ∉ x → ∃ y : List α, x = y.map some := by
    intro α x
    induction x with
    | nil => intro _; exact ⟨[], rfl⟩
    | cons a x ih =>
      intro h
      cases a with
      | none => simp at h
      | some a =>
        obtain ⟨y, rfl⟩ := ih (by simpa using h)
        exact ⟨a :: y, rfl⟩
  refine ⟨fun h => ?_, fun h1 h2 => ?_, fun h1 h2 h3 => ?_, fun h1 h2 h4 h3 => ?_⟩
  · unfold compress checkDims; rw [if_pos h]
  · unfold compress checkDims; rw [if_neg (by simpa using h1), if_pos h2]
  · unfold compress checkDims; rw [if_neg (by simpa using h1), if_neg (by simpa using h2)]
    dsimp only
    rw [hfin x h3]
  · obtain ⟨y, rfl⟩ := hfin2 x h3
    unfold compress checkDims; rw [if_neg (by simpa using h1), if_neg (by simpa using h2)]
    dsimp only
    rw [finite_map]
    dsimp only
    have hy : y.length = q.shift.length := by simpa using h1
    have hmeta : ∀ (codes : List Nat) (c : Option K) (ms : K) (bs : Nat),
        withMeta codes (Meta.new f16 c ms bs) ≠ .error .nan ∧
        (∀ n, withMeta codes (Meta.new f16 c ms bs) ≠ .error (.source n)) ∧
        ∀ n, withMeta codes (Meta.new f16 c ms bs) ≠ .error (.destination n) := by
      intro codes c ms bs
      unfold Meta.new
      cases c.bind f16 with
      | none => simp [withMeta]
      | some c =>
        cases f16 ms with
        | none => simp [withMeta]
        | some m =>
          dsimp only
          split <;> simp [withMeta]
    unfold compressFinite
    split
    · exact ⟨_, rfl, by simp, by simp, by simp⟩
    · unfold finish
      split
      · exact ⟨_, rfl, hmeta _ _ _ _⟩
      · rename_i hb1
        have hne : transformed norm q y ≠ [] := by
          intro h
          have := transformed_length (norm := norm) hq hy
          rw [h] at this
          simp at this; omega
        unfold finishMany optimalScale
        rw [if_neg hne]
        have hs2 : 2 ≤ 2 ^ (b - 1) := by
          calc 2 = 2 ^ 1 := rfl
            _ ≤ 2 ^ (b - 1) := Nat.pow_le_pow_right (by omega) (by omega)
        have hleft : left (2 ^ (b - 1)) (Walk.start epsilon (transformed norm q y)).rounded <
            (transformed norm q y).length * 2 ^ (b - 1) + 1 := by
          show left _ (ones _) < _
          have : left (2 ^ (b - 1)) (ones (transformed norm q y)) = (transformed norm q y).length * (2 ^ (b - 1) - 1) := by
            simp [left, ones]
          rw [this]
          have := Nat.mul_le_mul_left (transformed norm q y).length (Nat.sub_le (2 ^ (b - 1)) 1)
          omega
        obtain ⟨w, hw, _⟩ := loop_ends hp hne (fun _ => True) (fun _ _ _ _ _ _ _ _ _ _ _ _ _ => trivial) _ _
          (basic_start hs2 _) trivial hleft
        rw [hw]
        refine ⟨_, rfl, ?_⟩
        show finishAt _ _ _ _ _ _ w.scale ≠ _ ∧ (∀ n, finishAt _ _ _ _ _ _ w.scale ≠ _) ∧ ∀ n, finishAt _ _ _ _ _ _ w.scale ≠ _
        cases w.scale with
        | none => simp [finishAt]
        | some s => exact hmeta _ _ _ _

/-! ## Codes -/

/-- Away from the center, a compressed vector has one code of `b` bits for each component of the output and the sum of its codes
in its metadata; one bit codes are the signs. -/
theorem C92_codes {norm : List K → K} {f16 : K → Option K} {pick : Nat → List (Crit K) → Nat} {q : Quantizer K}
    (hq : Sized q) {b : Nat} {x : List K} {old : List Nat} {d : Data K} (h0 : norm (shifted norm q x) ≠ 0)
    (h : compress norm f16 pick q b (x.map some) old = some (.ok d)) :
    d.codes.length = q.outDim ∧ (∀ c ∈ d.codes, c < 2 ^ b) ∧ d.info.bitSum = d.codes.sum ∧ d.codes.sum < 65536 ∧
      (b = 1 → ∀ (i : Nat) (t : K), (transformed norm q x)[i]? = some t → d.codes[i]? = some (if 0 < t then 1 else 0)) := by
  obtain ⟨h1, h2, ⟨g, _⟩ | ⟨_, h3⟩⟩ := compress_ok h
  · exact absurd g h0
  · have hc := finish_coded h3
    refine ⟨by rw [hc.length, transformed_length hq h1], hc.lt, hc.sum, hc.small, fun hb i t ht => ?_⟩
    unfold finish at h3
    rw [if_pos hb] at h3
    simp only [Option.some.injEq] at h3
    obtain ⟨_, _, g2, _⟩ := meta_ok h3
    rw [g2, List.getElem?_map, ht]
    rfl

/-! ## Distances -/

/-- The distance of two compressed vectors is the one belonging to the stored terms and to the inner product of the vectors they
stand for. -/
theorem C92_data_distance {norm : List K → K} {f16 : K → Option K} {pick : Nat → List (Crit K) → Nat} {q : Quantizer K}
    (hq : Sized q) {b : Nat} {x y : List K} {ox oy : List Nat} {dx dy : Data K}
    (hx : compress norm f16 pick q b (x.map some) ox = some (.ok dx))
    (hy : compress norm f16 pick q b (y.map some) oy = some (.ok dy)) :
    distData q b dx dy = some (estimate q.metric (inner q.shift q.shift) dx.info.metricSpecific dy.info.metricSpecific
      (inner (recon b dx) (recon b dy))) := by
  have wx := compress_wf hq hx
  have wy := compress_wf hq hy
  have hl : dx.codes.length = dy.codes.length := by rw [wx.1, wy.1]
  rw [← kernel_eq wx wy]
  unfold distData l2Data ipData
  cases q.metric <;> simp [hl, estimate]

/-- The same for a full-precision query. -/
theorem C92_full_distance {norm : List K → K} {f16 : K → Option K} {pick : Nat → List (Crit K) → Nat} {q : Quantizer K}
    (hq : Sized q) {b : Nat} {x y : List K} {len : Nat} {ox : List Nat} {dx : Data K} {fy : Full K}
    (hx : compress norm f16 pick q b (x.map some) ox = some (.ok dx))
    (hy : compressFull norm q (y.map some) len = .ok fy) :
    distFull q b fy dx = some (estimate q.metric (inner q.shift q.shift) fy.metricSpecific dx.info.metricSpecific
      (inner (reconFull fy) (recon b dx))) := by
  have wx := compress_wf hq hx
  have hfy : fy = compressFullFinite norm q y ∧ y.length = q.shift.length := by
    unfold compressFull checkDims at hy
    rw [List.length_map] at hy
    by_cases h1 : y.length = q.shift.length
    · by_cases h2 : len = q.outDim
      · rw [if_neg (by simpa using h1), if_neg (by simpa using h2)] at hy
        dsimp only at hy
        rw [finite_map] at hy
        simp only [Except.ok.injEq] at hy
        exact ⟨hy.symm, h1⟩
      · rw [if_neg (by simpa using h1), if_pos h2] at hy; simp at hy
    · rw [if_pos h1] at hy; simp at hy
  obtain ⟨hfy, hyl⟩ := hfy
  have hlen : fy.data.length = dx.codes.length := by
    rw [wx.1, hfy]
    unfold compressFullFinite
    split
    · simp
    · exact transformed_length hq hyl
  have hsum : fy.sum = fy.data.sum := by
    rw [hfy]
    unfold compressFullFinite
    split
    · simp
    · rfl
  have hip : inner (reconFull fy) (recon b dx) =
      fy.shiftedNorm * dx.info.correction * (mixedDot fy.data dx.codes - fy.sum * offsetTerm b) := by
    rw [recon_eq, reconFull, inner_mixed _ _ _ _ _ hlen, hsum]
    ring
  unfold distFull l2Full ipFull
  rw [hip]
  cases q.metric with
  | squaredL2 => simp only [hlen, if_true, estimate]; congr 1; ring
  | innerProduct => simp only [hlen, if_true, estimate, Option.map_some]; congr 1; ring
  | cosine => simp only [hlen, if_true, estimate, Option.map_some]; congr 1; ring

/-- The same for a compressed query, as long as its offset is a number. -/
theorem C92_query_distance {norm : List K → K} {f16 : K → Option K} {pick : Nat → List (Crit K) → Nat} {top : K}
    {q : Quantizer K} (hq : Sized q) {b : Nat} {x y : List K} {ox oy : List Nat} {dx : Data K} {qy : Query K} {off : K}
    (hx : compress norm f16 pick q b (x.map some) ox = some (.ok dx))
    (hy : compressQuery norm top q b (y.map some) oy = .ok qy) (hoff : qy.offset = some off) :
    distQuery q b qy dx = some (some (estimate q.metric (inner q.shift q.shift) qy.metricSpecific dx.info.metricSpecific
      (inner (reconQuery qy off) (recon b dx)))) := by
  have wx := compress_wf hq hx
  obtain ⟨h1, h2, h3⟩ := compressQuery_ok hy
  have hlen : qy.codes.length = q.outDim := by
    rw [h3]; unfold compressQueryFinite finishQuery
    split
    · exact h2
    · dsimp only
      split
      · simp [transformed_length hq h1]
      · simp [transformed_length hq h1]
  have hbs : ∃ bs, qy.bitSum = some bs ∧ (qy.correction = 0 ∨ bs = ((qy.codes.sum : Nat) : K)) := by
    rw [h3] at hoff ⊢
    unfold compressQueryFinite finishQuery at hoff ⊢
    split
    · exact ⟨0, rfl, Or.inl rfl⟩
    · rename_i hn
      rw [if_neg hn] at hoff
      dsimp only at hoff ⊢
      split
      · rename_i hs; rw [if_pos hs] at hoff; simp at hoff
      · exact ⟨_, rfl, Or.inr rfl⟩
  obtain ⟨bs, hb1, hb2⟩ := hbs
  have hl : qy.codes.length = dx.codes.length := by rw [hlen, wx.1]
  have hk : queryKernel b (q.outDim : K) qy dx = some (inner (reconQuery qy off) (recon b dx)) := by
    unfold queryKernel
    rw [hb1, hoff]
    dsimp only
    congr 1
    rw [recon_eq, reconQuery, inner_affine _ _ _ _ _ _ hl, hlen]
    rcases hb2 with h | h
    · rw [h]; ring
    · rcases wx.2 with h' | h'
      · rw [h']; ring
      · rw [h, h']; ring
  unfold distQuery l2Query ipQuery
  rw [hk]
  cases q.metric with
  | squaredL2 => simp only [hl, if_true, estimate, Option.map_some]; congr 2; ring
  | innerProduct => simp only [hl, if_true, estimate, Option.map_some]; congr 2; ring
  | cosine => simp only [hl, if_true, estimate, Option.map_some]; congr 2; ring

/-! ## What the estimates are worth -/

/-- A compressed vector stands for a vector with the right projection onto the (transformed, centered) vector itself, and its
metric specific term is the squared norm or the inner product with the center. -/
theorem C92_projection {norm : List K → K} {f16 : K → Option K} (hf : Exact f16) {pick : Nat → List (Crit K) → Nat}
    {q : Quantizer K} (hp : q.preservesNorms = true) {b : Nat} {x : List K} {old : List Nat} {d : Data K}
    (hn : IsNorm norm (shifted norm q x)) (h : compress norm f16 pick q b (x.map some) old = some (.ok d)) :
    inner (recon b d) (image norm q x) = inner (shifted norm q x) (shifted norm q x) ∧
      d.info.metricSpecific =
        if q.metric = .squaredL2 then inner (shifted norm q x) (shifted norm q x) else inner (shifted norm q x) q.shift := by
  refine ⟨?_, ?_⟩
  · rw [recon_image hf h, hn.2]
    unfold transformedNorm
    rw [if_pos hp, one_mul]
  · rw [stored_term hf hn h]
    split
    · rename_i hm; exact metricSpecific_l2 hm hn
    · rename_i hm; exact metricSpecific_ip hm

/-- The error of the distance of a full-precision query: its square, times the squared norm `|X|²` of the centered vector, is at most
(for the squared distance: four times) the excess of the squared norm of the vector the codes stand for times
`|X|²|Y|² - <X, Y>²`. -/
theorem C92_full_error {norm : List K → K} {f16 : K → Option K} (hf : Exact f16) {pick : Nat → List (Crit K) → Nat}
    {q : Quantizer K} (hq : Isometric q) (hp : q.preservesNorms = true) {b : Nat} {x y : List K} {len : Nat} {ox : List Nat}
    {dx : Data K} {fy : Full K} (hn : ∀ u ∈ [x, y, shifted norm q x, shifted norm q y], IsNorm norm u)
    (hx : compress norm f16 pick q b (x.map some) ox = some (.ok dx))
    (hy : compressFull norm q (y.map some) len = .ok fy) :
    ∃ r, distFull q b fy dx = some r ∧
      (r - trueDistance norm q.metric q.preScale x y) * (r - trueDistance norm q.metric q.preScale x y) *
          inner (shifted norm q x) (shifted norm q x) ≤
        weight q.metric * weight q.metric *
          ((inner (recon b dx) (recon b dx) - inner (shifted norm q x) (shifted norm q x)) *
            (inner (shifted norm q x) (shifted norm q x) * inner (shifted norm q y) (shifted norm q y) -
              inner (shifted norm q x) (shifted norm q y) * inner (shifted norm q x) (shifted norm q y))) := by
  have hs := sized_of_isometric hq
  refine ⟨_, C92_full_distance hs hx hy, ?_⟩
  have hxl := (compress_ok hx).1
  obtain ⟨hfy, hyl⟩ : fy = compressFullFinite norm q y ∧ y.length = q.shift.length := by
    unfold compressFull checkDims at hy
    rw [List.length_map] at hy
    by_cases h1 : y.length = q.shift.length
    · by_cases h2 : len = q.outDim
      · rw [if_neg (by simpa using h1), if_neg (by simpa using h2)] at hy
        dsimp only at hy
        rw [finite_map] at hy
        simp only [Except.ok.injEq] at hy
        exact ⟨hy.symm, h1⟩
      · rw [if_neg (by simpa using h1), if_pos h2] at hy; simp at hy
    · rw [if_pos h1] at hy; simp at hy
  have nx : IsNorm norm (shifted norm q x) := hn _ (by simp)
  have ny : IsNorm norm (shifted norm q y) := hn _ (by simp)
  obtain ⟨f1, f2⟩ := full_image hs hyl ny
  rw [hfy, f1, f2, stored_term hf nx hx]
  have ht := estimate_true hxl hyl hn
  have hproj := (C92_projection hf hp nx hx).1
  rw [← inner_image hq hxl hxl nx nx] at hproj
  have wx := compress_wf hs hx
  have hb := error_bound (x := image norm q x) (y := image norm q y) (z := recon b dx)
    (by simp [image, transformed_length hs hxl, transformed_length hs hyl])
    (by simp [image, recon, wx.1, transformed_length hs hyl]) hproj
  rw [inner_image hq hxl hxl nx nx, inner_image hq hxl hyl nx ny, inner_image hq hyl hyl ny ny] at hb
  rw [inner_comm (image norm q y)]
  set z := inner (recon b dx) (image norm q y)
  set X := inner (shifted norm q x) (shifted norm q x)
  set XY := inner (shifted norm q x) (shifted norm q y)
  have hd : (estimate q.metric (inner q.shift q.shift) (metricSpecific norm q y) (metricSpecific norm q x) z -
      trueDistance norm q.metric q.preScale x y) * (estimate q.metric (inner q.shift q.shift) (metricSpecific norm q y)
        (metricSpecific norm q x) z - trueDistance norm q.metric q.preScale x y) =
      weight q.metric * weight q.metric * ((z - XY) * (z - XY)) := by
    rw [← ht]
    cases q.metric <;> simp only [estimate, weight] <;> ring
  rw [hd]
  have hw : 0 ≤ weight (K := K) q.metric * weight q.metric := mul_self_nonneg _
  calc _ = weight q.metric * weight q.metric * ((z - XY) * (z - XY) * X) := by ring
    _ ≤ _ := mul_le_mul_of_nonneg_left hb hw

/-- A full-precision query gets its own vector at the exact distance. -/
theorem C92_own_distance {norm : List K → K} {f16 : K → Option K} (hf : Exact f16) {pick : Nat → List (Crit K) → Nat}
    {q : Quantizer K} (hq : Isometric q) (hp : q.preservesNorms = true) {b : Nat} {x : List K} {len : Nat} {ox : List Nat}
    {dx : Data K} {fx : Full K} (hn : ∀ u ∈ [x, shifted norm q x], IsNorm norm u)
    (hx : compress norm f16 pick q b (x.map some) ox = some (.ok dx))
    (hy : compressFull norm q (x.map some) len = .ok fx) :
    distFull q b fx dx = some (trueDistance norm q.metric q.preScale x x) := by
  have hs := sized_of_isometric hq
  have hxl := (compress_ok hx).1
  have nx : IsNorm norm (shifted norm q x) := hn _ (by simp)
  have hfx : fx = compressFullFinite norm q x := by
    unfold compressFull checkDims at hy
    rw [List.length_map, if_neg (by simpa using hxl)] at hy
    by_cases h2 : len = q.outDim
    · rw [if_neg (by simpa using h2)] at hy
      dsimp only at hy
      rw [finite_map] at hy
      simp only [Except.ok.injEq] at hy
      exact hy.symm
    · rw [if_pos h2] at hy; simp at hy
  rw [C92_full_distance hs hx hy]
  obtain ⟨f1, f2⟩ := full_image hs hxl nx
  rw [hfx, f1, f2, stored_term hf nx hx, inner_comm (image norm q x), (C92_projection hf hp nx hx).1]
  rw [estimate_true hxl hxl (by intro u hu; exact hn u (by simp at hu ⊢; tauto))]

/-- A vector at the center is at the exact distance from every compressed vector. -/
theorem C92_center_distance {norm : List K → K} {f16 : K → Option K} (hf : Exact f16) {pick : Nat → List (Crit K) → Nat}
    {q : Quantizer K} (hq : Sized q) {b : Nat} {x y : List K} {ox oy : List Nat} {dx dy : Data K}
    (hn : ∀ u ∈ [x, y, shifted norm q x, shifted norm q y], IsNorm norm u) (h0 : norm (shifted norm q x) = 0)
    (hx : compress norm f16 pick q b (x.map some) ox = some (.ok dx))
    (hy : compress norm f16 pick q b (y.map some) oy = some (.ok dy)) :
    distData q b dx dy = some (trueDistance norm q.metric q.preScale x y) := by
  rw [C92_data_distance hq hx hy]
  have hxl := (compress_ok hx).1
  have hyl := (compress_ok hy).1
  rw [stored_term hf (hn _ (by simp)) hx, stored_term hf (hn _ (by simp)) hy, ← estimate_true hxl hyl hn]
  have h1 : dx.info.correction = 0 := by
    rcases (compress_ok hx).2.2 with ⟨_, h⟩ | ⟨h, _⟩
    · rw [h]; rfl
    · exact absurd h0 h
  rw [inner_zero_left (norm_zero (hn _ (by simp)) h0), recon_lattice, inner_smul_left, h1, zero_mul]

/-- The squared distance of a compressed vector to itself is never positive; it is zero only if its codes stand for the vector
exactly. -/
theorem C92_self_distance {norm : List K → K} {f16 : K → Option K} (hf : Exact f16) {pick : Nat → List (Crit K) → Nat}
    {q : Quantizer K} (hq : Isometric q) (hp : q.preservesNorms = true) (hm : q.metric = .squaredL2) {b : Nat} {x : List K}
    {ox : List Nat} {d : Data K} (hn : IsNorm norm (shifted norm q x))
    (hx : compress norm f16 pick q b (x.map some) ox = some (.ok d)) :
    distData q b d d = some (2 * (inner (shifted norm q x) (shifted norm q x) - inner (recon b d) (recon b d))) ∧
      inner (shifted norm q x) (shifted norm q x) ≤ inner (recon b d) (recon b d) := by
  have hs := sized_of_isometric hq
  have hxl := (compress_ok hx).1
  have wx := compress_wf hs hx
  refine ⟨?_, ?_⟩
  · rw [C92_data_distance hs hx hx, stored_term hf hn hx, metricSpecific_l2 hm hn, hm]
    simp only [estimate]; congr 1; ring
  · have h1 := (C92_projection hf hp hn hx).1
    have h2 := cauchy_schwarz (recon b d) (image norm q x)
      (by simp [image, recon, wx.1, transformed_length hs hxl])
    rw [h1, inner_image hq hxl hxl hn hn] at h2
    by_cases h0 : inner (shifted norm q x) (shifted norm q x) = 0
    · rw [h0]; exact inner_self_nonneg _
    · exact le_of_mul_le_mul_right h2 (lt_of_le_of_ne (inner_self_nonneg _) (Ne.symm h0))

/-- With a transform that does not preserve norms the squared distance of a full-precision query to its own vector is not zero in
general: it is twice the squared norm times one minus the norm of the transformed unit vector. -/
theorem C92_own_distance_subsampled {norm : List K → K} {f16 : K → Option K} (hf : Exact f16)
    {pick : Nat → List (Crit K) → Nat} {q : Quantizer K} (hq : Sized q) (hp : q.preservesNorms = false)
    (hm : q.metric = .squaredL2) {b : Nat} {x : List K} {len : Nat} {ox : List Nat} {dx : Data K} {fx : Full K}
    (hn : IsNorm norm (shifted norm q x)) (hx : compress norm f16 pick q b (x.map some) ox = some (.ok dx))
    (hy : compressFull norm q (x.map some) len = .ok fx) :
    distFull q b fx dx = some (2 * inner (shifted norm q x) (shifted norm q x) * (1 - norm (transformed norm q x))) := by
  have hxl := (compress_ok hx).1
  have hfx : fx = compressFullFinite norm q x := by
    unfold compressFull checkDims at hy
    rw [List.length_map, if_neg (by simpa using hxl)] at hy
    by_cases h2 : len = q.outDim
    · rw [if_neg (by simpa using h2)] at hy
      dsimp only at hy
      rw [finite_map] at hy
      simp only [Except.ok.injEq] at hy
      exact hy.symm
    · rw [if_pos h2] at hy; simp at hy
  rw [C92_full_distance hq hx hy]
  obtain ⟨f1, f2⟩ := full_image hq hxl hn
  rw [hfx, f1, f2, stored_term hf hn hx, inner_comm (image norm q x), recon_image hf hx, hn.2, metricSpecific_l2 hm hn, hm]
  unfold transformedNorm
  rw [hp]
  simp only [estimate, Bool.false_eq_true, if_false]
  congr 1; ring

/-! ## Queries -/

/-- A query whose transformed vector is not constant stands, component by component, for the transformed vector up to half a step
of the grid between its least and greatest component. -/
theorem C92_query_error_partial {norm : List K → K} {top : K} {q : Quantizer K} (hq : Sized q) {b : Nat} (hb : 1 ≤ b) {x : List K}
    {old : List Nat} {d : Query K} (hn : IsNorm norm (shifted norm q x)) (h0 : norm (shifted norm q x) ≠ 0)
    (ht : ∀ v ∈ transformed norm q x, |v| ≤ top)
    (h : compressQuery norm top q b (x.map some) old = .ok d) {u v : K} (hu : u ∈ transformed norm q x)
    (hv : v ∈ transformed norm q x) (huv : u < v) :
    ∃ off lo hi, d.offset = some off ∧ lo ∈ transformed norm q x ∧ hi ∈ transformed norm q x ∧
      (∀ c ∈ d.codes, c < 2 ^ b) ∧ d.codes.length = q.outDim ∧
      ∀ (i : Nat) (z t : K), (reconQuery d off)[i]? = some z → (image norm q x)[i]? = some t →
        |z - t| ≤ norm (shifted norm q x) * ((hi - lo) / (2 ^ b - 1)) / 2 := by
  obtain ⟨h1, h2, h3⟩ := compressQuery_ok h
  obtain ⟨r1, r2, r3⟩ := rangeOf_spec top (transformed norm q x) (List.ne_nil_of_mem hu) ht
  set lo := (rangeOf top (transformed norm q x)).1
  set hi := (rangeOf top (transformed norm q x)).2
  have hlh : lo < hi := lt_of_le_of_lt (r3 u hu).1 (lt_of_lt_of_le huv (r3 v hv).2)
  have hpow : (2 : K) ≤ 2 ^ b := by
    calc (2 : K) = 2 ^ 1 := by norm_num
      _ ≤ 2 ^ b := pow_le_pow_right₀ (by norm_num) hb
  have hm : (0 : K) < 2 ^ b - 1 := by linarith
  set sc := (hi - lo) / (2 ^ b - 1) with hsc
  have hsc0 : 0 < sc := div_pos (by linarith) hm
  have hd : d = ⟨(transformed norm q x).map (queryCode b lo sc), norm (shifted norm q x) * sc,
      some ((((transformed norm q x).map (queryCode b lo sc)).sum : Nat) : K), some (lo / sc), metricSpecific norm q x⟩ := by
    rw [h3]; unfold compressQueryFinite
    rw [if_neg h0]
    unfold finishQuery
    exact if_neg hsc0.ne'
  -- the codes
  have hcode : ∀ t ∈ transformed norm q x, queryCode b lo sc t < 2 ^ b ∧
      |((queryCode b lo sc t : Nat) : K) - (t - lo) / sc| ≤ 1 / 2 := by
    intro t htm
    obtain ⟨g1, g2⟩ := r3 t htm
    have hy0 : 0 ≤ (t - lo) / sc := div_nonneg (by linarith) hsc0.le
    have hy1 : (t - lo) / sc ≤ 2 ^ b - 1 := by
      rw [div_le_iff₀ hsc0, hsc, mul_div_cancel₀ _ hm.ne']
      linarith
    obtain ⟨k1, k2⟩ := roundAway_near hy0
    have k3 := abs_le.mp k2
    have hle : roundAway ((t - lo) / sc) ≤ ((2 ^ b - 1 : Nat) : Int) := by
      have : (roundAway ((t - lo) / sc) : K) < ((2 ^ b - 1 : Nat) : K) + 1 := by
        rw [Nat.cast_sub (Nat.one_le_two_pow)]; push_cast; linarith [k3.2]
      have : roundAway ((t - lo) / sc) < ((2 ^ b - 1 : Nat) : Int) + 1 := by exact_mod_cast this
      omega
    have hcl : clampTo 0 (2 ^ b - 1) (roundAway ((t - lo) / sc) : K) = (roundAway ((t - lo) / sc) : K) := by
      unfold clampTo
      have g3 : (0 : K) ≤ (roundAway ((t - lo) / sc) : K) := by exact_mod_cast k1
      have g4 : (roundAway ((t - lo) / sc) : K) ≤ 2 ^ b - 1 := by
        have : (roundAway ((t - lo) / sc) : K) ≤ (((2 ^ b - 1 : Nat) : Int) : K) := by exact_mod_cast hle
        rw [Int.cast_natCast, Nat.cast_sub (Nat.one_le_two_pow)] at this
        push_cast at this; exact this
      rw [if_neg (not_lt.mpr g3), if_neg (not_lt.mpr g4)]
    have hq' : queryCode b lo sc t = (roundAway ((t - lo) / sc)).toNat := by
      unfold queryCode
      rw [hcl]
      simp
    have hcast : ((queryCode b lo sc t : Nat) : K) = (roundAway ((t - lo) / sc) : K) := by
      rw [hq']
      have : (((roundAway ((t - lo) / sc)).toNat : Nat) : Int) = roundAway ((t - lo) / sc) := Int.toNat_of_nonneg k1
      exact_mod_cast congrArg (Int.cast (R := K)) this
    refine ⟨?_, by rw [hcast]; exact k2⟩
    rw [hq']
    have : 0 < 2 ^ b := Nat.two_pow_pos b
    omega
  refine ⟨lo / sc, lo, hi, by rw [hd], r1, r2, ?_, ?_, ?_⟩
  · intro c hc
    rw [hd] at hc
    obtain ⟨t, ht', rfl⟩ := List.mem_map.mp hc
    exact (hcode t ht').1
  · rw [hd]; simp [transformed_length hq h1]
  · intro i z t' hz ht'
    rw [hd] at hz
    unfold reconQuery at hz
    unfold image at ht'
    simp only [List.getElem?_map] at hz ht'
    cases hti : (transformed norm q x)[i]? with
    | none => rw [hti] at hz; simp at hz
    | some t =>
      rw [hti] at hz ht'
      simp only [Option.map_some, Option.some.injEq] at hz ht'
      have hk := (hcode t (List.mem_of_getElem? hti)).2
      rw [← hz, ← ht']
      have e : norm (shifted norm q x) * sc * (((queryCode b lo sc t : Nat) : K) + lo / sc) - norm (shifted norm q x) * t =
          norm (shifted norm q x) * sc * (((queryCode b lo sc t : Nat) : K) - (t - lo) / sc) := by
        field_simp
        ring
      rw [e, abs_mul, abs_of_nonneg (mul_nonneg hn.1 hsc0.le)]
      have := mul_le_mul_of_nonneg_left hk (mul_nonneg hn.1 hsc0.le)
      linarith

/-- A query whose transformed vector is constant is accepted, but its distance to every compressed vector is a NaN. -/
theorem C92_query_nan {norm : List K → K} {f16 : K → Option K} {pick : Nat → List (Crit K) → Nat} {top : K} {q : Quantizer K}
    (hq : Sized q) (ho : 0 < q.outDim) {b : Nat} {x y : List K} {ox oy : List Nat} {dx : Data K}
    (hx : compress norm f16 pick q b (x.map some) ox = some (.ok dx)) (hy : y.length = q.shift.length)
    (hoy : oy.length = q.outDim) (h0 : norm (shifted norm q y) ≠ 0) {c : K} (hc : ∀ t ∈ transformed norm q y, t = c)
    (ht : |c| ≤ top) :
    ∃ qy, compressQuery norm top q b (y.map some) oy = .ok qy ∧ distQuery q b qy dx = some none := by
  have hlen := transformed_length (norm := norm) hq hy
  have hne : transformed norm q y ≠ [] := by
    intro h; rw [h] at hlen; simp at hlen; omega
  obtain ⟨r1, r2, _⟩ := rangeOf_spec top (transformed norm q y) hne (fun v hv => by rw [hc v hv]; exact ht)
  refine ⟨compressQueryFinite norm top q b y oy, ?_, ?_⟩
  · unfold compressQuery checkDims
    rw [List.length_map, if_neg (by simpa using hy), if_neg (by simpa using hoy)]
    dsimp only
    rw [finite_map]
  · have wx := compress_wf hq hx
    unfold compressQueryFinite finishQuery
    rw [if_neg h0, hc _ r1, hc _ r2]
    dsimp only
    rw [if_pos (by simp)]
    have hl : ((transformed norm q y).map (fun _ => (0 : Nat))).length = dx.codes.length := by
      rw [List.length_map, hlen, wx.1]
    unfold distQuery l2Query ipQuery queryKernel
    cases q.metric <;> simp [hlen, wx.1]

/-! ## Vectors that cannot be compressed -/

/-- At eight bits and an output dimension of 515 or more, of a vector and its mirror image about the center at least one is
rejected. -/
theorem C92_eight_bits {norm : List K → K} {f16 f16' : K → Option K} {pick : Nat → List (Crit K) → Nat} {q : Quantizer K}
    (hq : Sized q) (ho : 515 ≤ q.outDim) {x x' : List K} {ox ox' : List Nat}
    (hodd : transformed norm q x' = (transformed norm q x).map (fun t => -t))
    (h0 : norm (shifted norm q x) ≠ 0) (h0' : norm (shifted norm q x') ≠ 0) :
    ¬ ((∃ d, compress norm f16 pick q 8 (x.map some) ox = some (.ok d)) ∧
      ∃ d, compress norm f16' pick q 8 (x'.map some) ox' = some (.ok d)) := by
  rintro ⟨⟨d, h⟩, ⟨d', h'⟩⟩
  obtain ⟨h1, h2, ⟨g, _⟩ | ⟨_, h3⟩⟩ := compress_ok h
  · exact absurd g h0
  obtain ⟨h1', h2', ⟨g, _⟩ | ⟨_, h3'⟩⟩ := compress_ok h'
  · exact absurd g h0'
  have hlen := transformed_length (norm := norm) hq h1
  unfold finish at h3 h3'
  rw [if_neg (by decide)] at h3 h3'
  unfold finishMany at h3 h3'
  rw [hodd, optimalScale_neg] at h3'
  cases hs : optimalScale epsilon 8 pick (transformed norm q x) with
  | none => rw [hs] at h3; simp at h3
  | some s =>
    rw [hs] at h3 h3'
    simp only [Option.map_some, Option.some.injEq] at h3 h3'
    cases s with
    | none => simp [finishAt] at h3
    | some s =>
      obtain ⟨_, _, _, _, _, _, b1⟩ := meta_ok h3
      obtain ⟨_, _, _, _, _, _, b2⟩ := meta_ok h3'
      have hsum : ∀ t : List K, 255 * t.length ≤ (t.map (codeAt 8 s)).sum + ((t.map (fun z => -z)).map (codeAt 8 s)).sum := by
        intro t
        induction t with
        | nil => simp
        | cons a t ih =>
          simp only [List.map_cons, List.sum_cons, List.length_cons]
          have := code_mirror 8 s a
          have e : (2 : Nat) ^ 8 - 1 = 255 := by norm_num
          omega
      have := hsum (transformed norm q x)
      omega

/-! ## Training -/

omit [FloorRing K] in
/-- Training: the center is the mean of the (for the cosine: normalized) vectors times the pre-scale; data without columns, rows or
mass and a pre-scale that is not positive are errors. -/
theorem C92_train (norm : List K → K) (ncols : Nat) (rows : List (List K)) (hr : ∀ r ∈ rows, r.length = ncols) (outDim : Nat)
    (T : List K → List K) (pn : Bool) (m : Metric) (pre : PreScale K) :
    (ncols = 0 → train norm ncols rows outDim T pn m pre = .error .dimZero) ∧
    (0 < ncols → rows = [] →
      train norm ncols rows outDim T pn m pre = .error (if m = .cosine then .empty else .normNotFinite)) ∧
    ∀ q, train norm ncols rows outDim T pn m pre = .ok q →
      q.metric = m ∧ q.outDim = outDim ∧ q.preservesNorms = pn ∧ 0 < q.preScale ∧
      q.preScale = (match pre with | .none => 1 | .some v => v | .reciprocal => 1 / q.meanNorm) ∧
      q.meanNorm = (if m = .cosine then 1 else (rows.map norm).sum / (rows.length : K)) ∧ 0 < q.meanNorm ∧
      q.shift = (List.range ncols).map (fun j =>
        (rows.map (fun r => (if m = .cosine ∧ norm r ≠ 0 then 1 / norm r else 1) * r.getD j 0)).sum / (rows.length : K) *
          q.preScale) := by
  have hfold : ∀ (rows : List (List K)) (a : K), rows.foldl (fun acc r => acc + norm r) a = a + (rows.map norm).sum := by
    intro rows
    induction rows with
    | nil => intro a; simp
    | cons r rows ih => intro a; rw [List.foldl_cons, ih, List.map_cons, List.sum_cons, add_assoc]
  refine ⟨fun h => ?_, fun h1 h2 => ?_, fun q h => ?_⟩
  · unfold train; rw [if_pos h]
  · unfold train; rw [if_neg (by omega), h2]
    cases m <;> simp [centroidAndNorm, normalizedMeans, meansAndNorm]
  · unfold train at h
    by_cases hn : ncols = 0
    · rw [if_pos hn] at h; simp at h
    rw [if_neg hn] at h
    by_cases hrows : rows.length = 0
    · have h2 := List.length_eq_zero_iff.mp hrows
      rw [h2] at h
      cases m <;> simp [centroidAndNorm, normalizedMeans, meansAndNorm] at h
    have hgen : ∀ (c : List K) (n : K), generate c n outDim T pn m (some (preScaleOf n pre)) = .ok q →
        0 < preScaleOf n pre ∧ 0 < n ∧
          q = ⟨c.map (fun v => v * preScaleOf n pre), outDim, T, pn, m, n, preScaleOf n pre⟩ := by
      intro c n hg
      unfold generate at hg
      dsimp only [Option.getD_some] at hg
      by_cases g1 : 0 < preScaleOf n pre
      · rw [if_neg (not_not.mpr g1)] at hg
        by_cases g2 : c.length = 0
        · rw [if_pos g2] at hg; simp at hg
        · rw [if_neg g2] at hg
          by_cases g3 : 0 < n
          · rw [if_neg (not_not.mpr g3)] at hg
            simp only [Except.ok.injEq] at hg
            exact ⟨g1, g3, hg.symm⟩
          · rw [if_pos g3] at hg; simp at hg
      · rw [if_pos g1] at hg; simp at hg
    by_cases hm : m = .cosine
    · subst hm
      simp only [centroidAndNorm, normalizedMeans, if_neg hrows] at h
      obtain ⟨g1, g2, rfl⟩ := hgen _ _ h
      refine ⟨rfl, rfl, rfl, g1, ?_, by simp, g2, ?_⟩
      · dsimp only; unfold preScaleOf; rfl
      · dsimp only
        rw [columnSums_get ncols _ (by
          intro r hr'
          obtain ⟨r0, hr0, rfl⟩ := List.mem_map.mp hr'
          simp [hr r0 hr0])]
        rw [List.map_map, List.map_map]
        refine List.map_congr_left (fun j hj => ?_)
        simp only [Function.comp_def, List.map_map]
        congr 3
        refine List.map_congr_left (fun r hr' => ?_)
        have hj := List.mem_range.mp hj
        have : j < r.length := by rw [hr r hr']; exact hj
        simp only [List.getD_eq_getElem?_getD, List.getElem?_map, List.getElem?_eq_getElem this, Option.map_some,
          Option.getD_some, true_and]
        by_cases hz : norm r = 0
        · simp [hz]
        · simp [hz, mul_comm]
    · have h' : (match meansAndNorm norm ncols rows with
          | none => (.error .normNotFinite : Except TrainErr (List K × K))
          | some (c, n) => if n ≤ 0 then .error .normNotPositive else .ok (c, n)) = centroidAndNorm norm ncols rows m := by
        cases m with
        | cosine => exact absurd rfl hm
        | squaredL2 => rfl
        | innerProduct => rfl
      rw [← h'] at h
      simp only [meansAndNorm, if_neg hrows] at h
      by_cases hpos : (rows.foldl (fun acc r => acc + norm r) 0) / (rows.length : K) ≤ 0
      · rw [if_pos hpos] at h; simp at h
      · rw [if_neg hpos] at h
        dsimp only at h
        obtain ⟨g1, g2, rfl⟩ := hgen _ _ h
        refine ⟨rfl, rfl, rfl, g1, ?_, ?_, g2, ?_⟩
        · dsimp only; unfold preScaleOf; rfl
        · dsimp only; rw [if_neg hm, hfold, zero_add]
        · dsimp only
          rw [columnSums_get ncols _ hr, List.map_map, List.map_map]
          refine List.map_congr_left (fun j _ => ?_)
          simp only [Function.comp_def, hm, false_and, if_false, one_mul]

/-! ## The transforms of the library -/

/-- The transforms of C83 meet the hypotheses: outputs of the output dimension, and an isometry if the transform says that it preserves
norms. -/
theorem C92_transforms {sqrt : K → K} (hs : ∀ a : K, 0 ≤ a → Verif.Rotate.IsRoot (sqrt a) a) {d : Verif.Rotate.Draws K}
    (hd : d.Fair) {kind : Verif.Rotate.Kind} (hk : kind.Allowed) (q : Quantizer K) (h0 : 0 < q.shift.length)
    (h1 : q.shift.length ≤ 2 ^ 32) {t : Verif.Rotate.Transform K}
    (ht : Verif.Rotate.Transform.new sqrt kind q.shift.length (some d) = some (.ok t)) (hout : q.outDim = t.outputDim)
    (hpn : q.preservesNorms = t.preservesNorms) {arch : Verif.Rotate.Arch} {dst : List K} (hdst : dst.length = t.outputDim)
    (hT : ∀ u : List K, u.length = q.shift.length → t.transformInto sqrt arch dst u = some (.ok (q.transform u))) :
    Sized q ∧ (q.preservesNorms = true → Isometric q) := by
  obtain ⟨T, h2, h3⟩ := Verif.Rotate.C83_preserves hs hd hk h0 h1 ht
  have he : ∀ u : List K, u.length = q.shift.length → q.transform u = T u ∧ (T u).length = q.outDim := by
    intro u hu
    obtain ⟨g1, g2⟩ := h2 arch dst u hu hdst
    rw [hT u hu] at g1
    simp only [Option.some.injEq, Except.ok.injEq] at g1
    exact ⟨g1, by rw [hout]; exact g2⟩
  refine ⟨fun u hu => by rw [(he u hu).1]; exact (he u hu).2, fun hp u v hu hv => ?_⟩
  rw [(he u hu).1, (he v hv).1]
  exact ⟨(he u hu).2, (h3 (by rw [← hpn]; exact hp) u v hu hv).1⟩

/-! ## Examples -/

/-- Two components, one bit, no transform: the vector `(3, 4)`. -/
def three4 : Data Rat := ⟨[1, 1], ⟨50 / 7, 25, 2⟩⟩

theorem three4_compressed : compress ratNorm some firstLeast (plain 2 .squaredL2 1) 1 ([3, 4].map some) [0, 0] =
    some (.ok three4) := by decide +kernel

/-- Two bits: the codes stand for `(1/2, 3/2)` and `(-3/2, 1/2)` up to a factor. -/
example : compress ratNorm some firstLeast (plain 2 .squaredL2 1) 2 ([3, 4].map some) [0, 0] =
    some (.ok ⟨[3, 3], ⟨50 / 21, 25, 6⟩⟩) := by decide +kernel
example : compress ratNorm some firstLeast (plain 4 .squaredL2 1) 2 ([-4, 0, 0, 3].map some) [0, 0, 0, 0] =
    some (.ok ⟨[0, 2, 2, 3], ⟨50 / 21, 25, 7⟩⟩) := by decide +kernel
example : PicksLeast (K := Rat) firstLeast ∧ Sized (plain 2 .squaredL2 1) ∧ Isometric (plain 2 .squaredL2 1) ∧
    Exact (K := Rat) some := ⟨firstLeast_picks, plain_sized _ _ _, plain_isometric _ _ _, some_exact⟩
example : compress ratNorm some firstLeast (plain 2 .squaredL2 1) 2 [some 3, none] [0, 0] = some (.error .nan) := by
  decide +kernel
example : ∀ u ∈ [[3, 4], [0, 5], shifted ratNorm (plain 2 .squaredL2 1) [3, 4], shifted ratNorm (plain 2 .squaredL2 1) [0, 5]],
    IsNorm ratNorm u := by unfold IsNorm; decide +kernel
example : compressFull ratNorm (plain 2 .squaredL2 1) ([0, 5].map some) 2 = .ok ⟨[0, 1], 1, 5, 25⟩ := by decide +kernel
/-- The true squared distance of `(0, 5)` and `(3, 4)` is 10. -/
example : distFull (plain 2 .squaredL2 1) 1 ⟨[0, 1], 1, 5, 25⟩ three4 = some (100 / 7) := by decide +kernel
/-- The query's own vector. -/
example : compressFull ratNorm (plain 2 .squaredL2 1) ([3, 4].map some) 2 = .ok ⟨[3 / 5, 4 / 5], 7 / 5, 5, 25⟩ ∧
    distFull (plain 2 .squaredL2 1) 1 ⟨[3 / 5, 4 / 5], 7 / 5, 5, 25⟩ three4 = some 0 := by
  constructor <;> decide +kernel
/-- A query of two components with four bits. -/
example : compressQuery ratNorm 1000 (plain 2 .squaredL2 1) 4 ([3, 4].map some) [0, 0] =
    .ok ⟨[0, 15], 1 / 15, some 15, some 45, 25⟩ := by decide +kernel
/-- A vector at the center keeps the codes that were there. -/
example : compress ratNorm some firstLeast (plain 2 .squaredL2 1) 1 ([0, 0].map some) [0, 1] =
    some (.ok ⟨[0, 1], ⟨0, 0, 0⟩⟩) ∧ distData (plain 2 .squaredL2 1) 1 ⟨[0, 1], ⟨0, 0, 0⟩⟩ three4 = some 25 := by
  constructor <;> decide +kernel
/-- A transform that forgets the first component. -/
def forgetful : Quantizer Rat :=
  { shift := [0, 0], outDim := 1, transform := fun u => u.drop 1, preservesNorms := false, metric := .squaredL2, meanNorm := 1,
    preScale := 1 }
example : Sized forgetful := by
  intro u hu
  have h2 : u.length = 2 := hu
  simp [forgetful, h2]
def quarters (x : List Rat) : Rat := if x = [3, 4] then 5 else if x = [4 / 5] then 4 / 5 else 0
example : compress quarters some firstLeast forgetful 1 ([3, 4].map some) [0] = some (.ok ⟨[1], ⟨10, 25, 1⟩⟩) ∧
    compressFull quarters forgetful ([3, 4].map some) 1 = .ok ⟨[4 / 5], 4 / 5, 5, 25⟩ ∧
    distFull forgetful 1 ⟨[4 / 5], 4 / 5, 5, 25⟩ ⟨[1], ⟨10, 25, 1⟩⟩ = some 10 := by
  refine ⟨?_, ?_, ?_⟩ <;> decide +kernel
example : train ratNorm 2 [[3, 4], [0, 5]] 2 (fun x => x) true .squaredL2 .reciprocal =
    .ok (⟨[3 / 10, 9 / 10], 2, fun x => x, true, .squaredL2, 5, 1 / 5⟩ : Quantizer Rat) := by
  have e1 : centroidAndNorm ratNorm 2 [[3, 4], [0, 5]] .squaredL2 = .ok ([3 / 2, 9 / 2], 5) := by decide +kernel
  unfold train
  rw [if_neg (by decide), e1]
  dsimp only [preScaleOf]
  unfold generate
  norm_num

/-! ## Disagreements -/

/-- The squared distance of a compressed vector to itself can be negative. -/
theorem C92_negative_distance :
    compress ratNorm some firstLeast (plain 2 .squaredL2 1) 1 ([3, 4].map some) [0, 0] = some (.ok three4) ∧
      distData (plain 2 .squaredL2 1) 1 three4 three4 = some (-50 / 49) :=
  ⟨three4_compressed, by decide +kernel⟩

/-- The distances are documented to be compatible with full-precision distances.  With a pre-scale they are not: the distance of the
vector at the center to `(3, 4)`, which is 25, is 100 at a pre-scale of two (where the estimate is exact). -/
theorem C92_scaled_distance_false :
    ∃ (d : Data Rat) (f : Full Rat),
      compress ratNorm some firstLeast (plain 2 .squaredL2 2) 1 ([3, 4].map some) [0, 0] = some (.ok d) ∧
      compressFull ratNorm (plain 2 .squaredL2 2) ([0, 0].map some) 2 = .ok f ∧
      distFull (plain 2 .squaredL2 2) 1 f d = some 100 ∧ distSq [0, 0] [3, (4 : Rat)] = 25 :=
  ⟨⟨[1, 1], ⟨100 / 7, 100, 2⟩⟩, ⟨[0, 0], 0, 0, 0⟩, by decide +kernel, by decide +kernel, by decide +kernel, by decide +kernel⟩

/-- With the Hadamard transform of the code, a query that differs from the center in its first component only is accepted, and its
distance to a compressed vector is a NaN. -/
theorem C92_query_nan_example :
    ∃ (d : Data Rat) (qy : Query Rat),
      compress ratNorm some firstLeast hadamard4 4 ([1, 0, 3, 4].map some) [0, 0, 0, 0] = some (.ok d) ∧
      compressQuery ratNorm 1000 hadamard4 4 ([5, 0, 0, 0].map some) [0, 0, 0, 0] = .ok qy ∧
      distQuery hadamard4 4 qy d = some none := by
  refine ⟨⟨[7, 11, 8, 4], ⟨1, 0, 30⟩⟩, ⟨[0, 0, 0, 0], 0, none, none, 4⟩, ?_, ?_, ?_⟩ <;> decide +kernel

/-- One dimension, embedded into `n + 1`. -/
def wide (n : Nat) : Quantizer Rat :=
  { shift := [0], outDim := n + 1, transform := fun u => u ++ List.replicate n 0, preservesNorms := true, metric := .squaredL2,
    meanNorm := 1, preScale := 1 }

theorem wide_isometric (n : Nat) : Isometric (wide n) := by
  intro u v hu hv
  have hu1 : u.length = 1 := hu
  have hv1 : v.length = 1 := hv
  obtain ⟨a, rfl⟩ := List.length_eq_one_iff.mp hu1
  obtain ⟨b, rfl⟩ := List.length_eq_one_iff.mp hv1
  refine ⟨by simp [wide, Nat.add_comm], ?_⟩
  show inner (a :: List.replicate n 0) (b :: List.replicate n 0) = inner [a] [b]
  rw [inner_cons, inner_cons, inner_nil, inner_zero_left (fun z hz => List.eq_of_mem_replicate hz)]

/-- At eight bits, a vector and a norm-preserving transform to 515 dimensions such that the vector is rejected. -/
theorem C92_eight_bits_rejects :
    ∃ (q : Quantizer Rat) (x : List Rat), Isometric q ∧ q.outDim = 515 ∧ IsNorm ratNorm (shifted ratNorm q x) ∧
      ∀ (f16 : Rat → Option Rat) (old : List Nat) (d : Data Rat),
        compress ratNorm f16 firstLeast q 8 (x.map some) old ≠ some (.ok d) := by
  have hn : ∀ x ∈ [[1], [-1]], IsNorm ratNorm (shifted ratNorm (wide 514) x) ∧ ratNorm (shifted ratNorm (wide 514) x) ≠ 0 := by
    unfold IsNorm; decide +kernel
  have hodd : transformed ratNorm (wide 514) [-1] = (transformed ratNorm (wide 514) [1]).map (fun t => -t) := by decide +kernel
  by_cases h : ∀ (f16 : Rat → Option Rat) (old : List Nat) (d : Data Rat),
      compress ratNorm f16 firstLeast (wide 514) 8 ([1].map some) old ≠ some (.ok d)
  · exact ⟨wide 514, [1], wide_isometric 514, rfl, (hn [1] (by simp)).1, h⟩
  · refine ⟨wide 514, [-1], wide_isometric 514, rfl, (hn [-1] (by simp)).1, fun f16' old' d' h' => h fun f16 old d h1 => ?_⟩
    exact C92_eight_bits (sized_of_isometric (wide_isometric 514)) (Nat.le_refl 515) hodd (hn [1] (by simp)).2 (hn [-1] (by simp)).2
      ⟨⟨d, h1⟩, ⟨d', h'⟩⟩

end Verif.Spherical
