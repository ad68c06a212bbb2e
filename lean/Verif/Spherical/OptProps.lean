import Verif.Spherical.CompressLemmas
import Verif.Spherical.Inst
import Mathlib.Data.Rat.Floor

/-!
# C93: the codes are the best codes

The codes of a vector stand, up to a factor, for a vector of the lattice of all code vectors (`lattice`, `IsLattice`).  The theorems
compare its cosine similarity with the transformed vector with that of every vector of the lattice.
-/

namespace Verif.Spherical

open Verif.Rotate (inner)

variable {K : Type} [Field K] [LinearOrder K] [IsStrictOrderedRing K]

theorem lattice_levels {b stop : Nat} (hb : 2 ^ b = 2 * stop) (t y : List K) (hl : y.length = t.length)
    (hy : IsLattice b y) :
    ∃ qs, Levels (fun _ q => 1 ≤ q ∧ q ≤ stop) t qs ∧ inner y y = sqOf qs ∧ inner t y ≤ ipOf t qs := by
  have hbK : (2 : K) ^ b = 2 * stop := by exact_mod_cast congrArg (Nat.cast (R := K)) hb
  induction t generalizing y with
  | nil =>
    obtain rfl : y = [] := List.length_eq_zero_iff.mp hl
    exact ⟨[], ⟨rfl, by simp⟩, by simp [inner, sqOf], by simp [inner, ipOf]⟩
  | cons x t ih =>
    cases y with
    | nil => simp at hl
    | cons z y =>
      obtain ⟨qs, h1, h2, h3⟩ := ih y (by simpa using hl) (fun w hw => hy w (by simp [hw]))
      obtain ⟨c, hc, hz⟩ := hy z (by simp)
      rw [hb] at hc
      rw [hbK] at hz
      obtain ⟨q, q1, q2, q3, q4⟩ : ∃ q : Nat, 1 ≤ q ∧ q ≤ stop ∧ z * z = ((q : K) - 1 / 2) * ((q : K) - 1 / 2) ∧
          |z| = (q : K) - 1 / 2 := by
        by_cases hcs : c < stop
        · refine ⟨stop - c, by omega, by omega, ?_, ?_⟩
          · rw [hz, Nat.cast_sub hcs.le]; ring
          · have : (c : K) + 1 ≤ stop := by exact_mod_cast hcs
            rw [hz, Nat.cast_sub hcs.le, abs_of_nonpos (by linarith)]; ring
        · have hcs' : stop ≤ c := by omega
          refine ⟨c - stop + 1, by omega, by omega, ?_, ?_⟩
          · rw [hz]; push_cast [Nat.cast_sub hcs']; ring
          · have : (stop : K) ≤ c := by exact_mod_cast hcs'
            rw [hz, abs_of_nonneg (by linarith)]; push_cast [Nat.cast_sub hcs']; ring
      refine ⟨q :: qs, ⟨by simpa using h1.1, ?_⟩, ?_, ?_⟩
      · intro i w r hw hr
        cases i with
        | zero =>
          simp only [List.getElem?_cons_zero, Option.some.injEq] at hr
          rw [← hr]; exact ⟨q1, q2⟩
        | succ i => exact h1.2 i w r (by simpa using hw) (by simpa using hr)
      · rw [inner_cons, h2, q3]; rfl
      · rw [inner_cons]
        have e : ipOf (x :: t) (q :: qs) = |x| * ((q : K) - 1 / 2) + ipOf t qs := rfl
        rw [e, ← q4, ← abs_mul]
        linarith [le_abs_self (x * z)]

/-- At one bit the signs are the best codes: every vector of the lattice is as long, and none has a greater inner product. -/
theorem C93_one_bit [FloorRing K] {norm : List K → K} {f16 : K → Option K} {pick : Nat → List (Crit K) → Nat}
    {q : Quantizer K} (hq : Sized q) {x : List K} {old : List Nat} {d : Data K} (h0 : norm (shifted norm q x) ≠ 0)
    (h : compress norm f16 pick q 1 (x.map some) old = some (.ok d)) {y : List K} (hy : y.length = q.outDim)
    (hl : IsLattice 1 y) :
    inner y y = inner (lattice 1 d.codes : List K) (lattice 1 d.codes) ∧
      inner (transformed norm q x) y ≤ inner (transformed norm q x) (lattice 1 d.codes) := by
  obtain ⟨h1, h2, ⟨g, _⟩ | ⟨_, h3⟩⟩ := compress_ok h
  · exact absurd g h0
  have ht := transformed_length (norm := norm) hq h1
  have hc := finish_coded h3
  have hcl : IsLattice (K := K) 1 (lattice 1 d.codes) := by
    intro z hz
    obtain ⟨c, hc', rfl⟩ := List.mem_map.mp hz
    exact ⟨c, hc.lt c hc', rfl⟩
  have hone : ∀ y : List K, y.length = q.outDim → IsLattice 1 y → inner y y = (q.outDim : K) / 4 ∧
      inner (transformed norm q x) y ≤ ((transformed norm q x).map (fun r => |r|)).sum / 2 := by
    intro y hy hl
    obtain ⟨qs, g1, g2, g3⟩ := lattice_levels (b := 1) (stop := 1) (by norm_num) (transformed norm q x) y (by rw [hy, ht]) hl
    have hqs : qs = ones (transformed norm q x) := by
      refine List.ext_getElem (by simp [ones, g1.1]) (fun i a1 a2 => ?_)
      have hi : i < (transformed norm q x).length := by rw [← g1.1]; exact a1
      have b1 := g1.2 i _ _ (List.getElem?_eq_getElem hi) (List.getElem?_eq_getElem a1)
      have b2 : (ones (transformed norm q x))[i] = 1 := ones_get (List.getElem?_eq_getElem a2)
      omega
    have e1 : ∀ t : List K, sqOf (ones t) = (t.length : K) / 4 ∧ ipOf t (ones t) = (t.map (fun r => |r|)).sum / 2 := by
      intro t
      induction t with
      | nil => simp [sqOf, ones, ipOf]
      | cons a t ih =>
        have e : sqOf (K := K) (ones (a :: t)) = (((1 : Nat) : K) - 1 / 2) * (((1 : Nat) : K) - 1 / 2) + sqOf (ones t) := rfl
        have e' : ipOf (a :: t) (ones (a :: t)) = |a| * (((1 : Nat) : K) - 1 / 2) + ipOf t (ones t) := rfl
        rw [e, e', ih.1, ih.2, List.map_cons, List.sum_cons, List.length_cons]
        constructor <;> push_cast <;> ring
    rw [g2, hqs, (e1 _).1, ht]
    refine ⟨rfl, ?_⟩
    rw [hqs, (e1 _).2] at g3
    exact g3
  have hcodes : d.codes = (transformed norm q x).map signBit := by
    unfold finish at h3
    rw [if_pos rfl] at h3
    simp only [Option.some.injEq] at h3
    obtain ⟨_, _, g2, _⟩ := meta_ok h3
    exact g2
  have hcl' := hone (lattice 1 d.codes) (by simp [lattice, hc.length, ht]) hcl
  obtain ⟨a1, a2⟩ := hone y hy hl
  refine ⟨by rw [a1, hcl'.1], ?_⟩
  rw [hcodes, inner_sign]
  exact a2

variable [FloorRing K]

theorem codes_levels {eps : K} (he0 : 0 < eps) (he1 : eps < 1 / 2) {b stop : Nat} (hb : 2 ^ b = 2 * stop) {s : K}
    (hs : 0 < s) (t : List K) (rs : List Nat) (hr : Levels (Near eps stop s) t rs) :
    ∃ rs', Bumped stop s t rs rs' ∧ inner t (lattice b (t.map (codeAt b s))) = ipOf t rs' ∧
      inner (lattice b (t.map (codeAt b s)) : List K) (lattice b (t.map (codeAt b s))) = sqOf rs' := by
  induction t generalizing rs with
  | nil =>
    obtain rfl : rs = [] := List.length_eq_zero_iff.mp hr.1
    exact ⟨[], ⟨rfl, by simp⟩, by simp [inner, lattice, ipOf], by simp [inner, lattice, sqOf]⟩
  | cons x t ih =>
    cases rs with
    | nil => simp [Levels] at hr
    | cons r rs =>
      obtain ⟨rs', h1, h2, h3⟩ := ih rs
        ⟨by simpa using hr.1, fun i w p hw hp => hr.2 (i + 1) w p (by simpa using hw) (by simpa using hp)⟩
      obtain ⟨r', a1, a2, a3, a4⟩ := code_level he0 he1 hb hs (hr.2 0 x r (by simp) (by simp))
      have e : lattice (K := K) b ((x :: t).map (codeAt b s)) =
          (((codeAt b s x : Nat) : K) - (2 ^ b - 1) / 2) :: lattice b (t.map (codeAt b s)) := rfl
      have e1 : ipOf (x :: t) (r' :: rs') = |x| * ((r' : K) - 1 / 2) + ipOf t rs' := rfl
      have e2 : sqOf (K := K) (r' :: rs') = ((r' : K) - 1 / 2) * ((r' : K) - 1 / 2) + sqOf rs' := rfl
      refine ⟨r' :: rs', ⟨by simpa using h1.1, ?_⟩, ?_, ?_⟩
      · intro i w p p' hw hp hp'
        cases i with
        | zero =>
          simp only [List.getElem?_cons_zero, Option.some.injEq] at hw hp hp'
          rw [← hw, ← hp, ← hp']; exact a3
        | succ i => exact h1.2 i w p p' (by simpa using hw) (by simpa using hp) (by simpa using hp')
      · rw [e, inner_cons, h2, e1, a4]
        split
        · rename_i hx; rw [abs_of_nonneg hx]
        · rename_i hx; rw [abs_of_neg (not_le.mp hx)]; ring
      · rw [e, inner_cons, h3, e2, a4]
        split <;> ring

/-- At two bits and more the codes are the best ones up to one part in a thousand: the squared cosine similarity of the vector of
the lattice they stand for is at least `999/1000` of that of any vector of the lattice (which points to the same side). -/
theorem C93_near_best {norm : List K → K} {f16 : K → Option K} {pick : Nat → List (Crit K) → Nat} (hp : PicksLeast pick)
    {q : Quantizer K} (hq : Sized q) {b : Nat} (hb : 2 ≤ b) {x : List K} {old : List Nat} {d : Data K}
    (h0 : norm (shifted norm q x) ≠ 0) (h : compress norm f16 pick q b (x.map some) old = some (.ok d)) :
    0 < inner (transformed norm q x) (lattice b d.codes) ∧
    ∀ y : List K, y.length = q.outDim → IsLattice b y → 0 ≤ inner (transformed norm q x) y →
      999 / 1000 * (inner (transformed norm q x) y * inner (transformed norm q x) y) *
          inner (lattice b d.codes : List K) (lattice b d.codes) ≤
        inner (transformed norm q x) (lattice b d.codes) * inner (transformed norm q x) (lattice b d.codes) * inner y y := by
  obtain ⟨h1, h2, ⟨g, _⟩ | ⟨_, h3⟩⟩ := compress_ok h
  · exact absurd g h0
  have ht := transformed_length (norm := norm) hq h1
  have hcod := finish_coded h3
  set t := transformed norm q x
  have hne : ∃ z ∈ t, z ≠ 0 := by
    by_contra hcon
    simp only [not_exists, not_and, not_not] at hcon
    exact hcod.ne (inner_zero_left hcon _)
  have hstop : 2 ^ b = 2 * 2 ^ (b - 1) := by
    rw [← Nat.pow_succ']; congr 1; omega
  have hs2 : 2 ≤ 2 ^ (b - 1) := by
    calc 2 = 2 ^ 1 := rfl
      _ ≤ 2 ^ (b - 1) := Nat.pow_le_pow_right (by omega) (by omega)
  have he0 : (0 : K) < epsilon := by unfold epsilon; norm_num
  obtain ⟨w, hw, s, rs, g1, g2, g3, g4, g5⟩ := walk_result he0 hs2 hne hp
  unfold finish at h3
  rw [if_neg (by omega)] at h3
  unfold finishMany optimalScale at h3
  have htn : t ≠ [] := by rintro e; rw [e] at hne; simp at hne
  rw [if_neg htn, hw] at h3
  simp only [Option.map_some, Option.some.injEq, g1] at h3
  obtain ⟨_, _, hcodes, _⟩ := meta_ok h3
  obtain ⟨rs', k1, k2, k3⟩ := codes_levels he0 (by unfold epsilon; norm_num) hstop g2 t rs g3
  rw [← hcodes] at k2 k3
  obtain ⟨D, d1, d2, d3⟩ := bumped_sums g3.1 k1
  have hrs1 : ∀ (i r : Nat), rs[i]? = some r → 1 ≤ r := by
    intro i r hr
    have hi : i < t.length := by rw [← g3.1]; exact (List.getElem?_eq_some_iff.mp hr).1
    exact (g3.2 i _ r (List.getElem?_eq_getElem hi) hr).1
  have hA := ipOf_pos g3.1 hrs1 hne
  have hD0 : (0 : K) < (t.length : K) := by exact_mod_cast List.length_pos_of_ne_nil htn
  have hN := sqOf_ge (K := K) rs hrs1
  rw [g3.1] at hN
  have hN0 : 0 < sqOf (K := K) rs := by linarith
  have hsim := bumped_sim (K := K) he0.le (by unfold epsilon; norm_num) g2 hA hN0 d1 g4 d3
  rw [← d2] at hsim
  have hN' : 0 < sqOf (K := K) rs' := by rw [d2]; linarith
  have hA' : 0 < ipOf t rs' := by
    have : 0 < s * ipOf t rs' := lt_of_lt_of_le (by have := mul_pos g2 hA; linarith) d3
    exact (mul_pos_iff_of_pos_left g2).mp this
  rw [k2, k3]
  refine ⟨hA', fun y hy hl hyt => ?_⟩
  obtain ⟨qs, q1, q2, q3⟩ := lattice_levels hstop t y (by rw [hy, ht]) hl
  have hpg := path_global he0 (by unfold epsilon; norm_num) (by omega) hne (B := simOf t rs) (fun s' rs' a b => g5 s' rs' a b) q1
  have hq1 : ∀ (i r : Nat), qs[i]? = some r → 1 ≤ r := by
    intro i r hr
    have hi : i < t.length := by rw [← q1.1]; exact (List.getElem?_eq_some_iff.mp hr).1
    exact (q1.2 i _ r (List.getElem?_eq_getElem hi) hr).1
  have hQ := sqOf_ge (K := K) qs hq1
  rw [q1.1] at hQ
  have hQ0 : 0 < sqOf (K := K) qs := by linarith
  have hfin : 999 / 1000 * simOf t qs ≤ simOf t rs' := by
    have hs0 : 0 ≤ simOf t qs := div_nonneg (mul_self_nonneg _) hQ0.le
    have a1 : (1 - epsilon) * simOf t rs ≤ simOf t rs' := hsim
    have a2 := mul_le_mul_of_nonneg_left hpg (show (0 : K) ≤ 1 - epsilon by unfold epsilon; norm_num)
    have a3 : (999 / 1000 : K) ≤ (1 - epsilon) * ((1 - 4 * epsilon) * (1 - 4 * epsilon)) := by unfold epsilon; norm_num
    have a4 := mul_le_mul_of_nonneg_right a3 hs0
    linarith
  unfold simOf at hfin
  rw [← mul_div_assoc, div_le_div_iff₀ hQ0 hN'] at hfin
  rw [q2]
  have hsq : inner t y * inner t y ≤ ipOf t qs * ipOf t qs := mul_le_mul q3 q3 hyt (le_trans hyt q3)
  have := mul_le_mul_of_nonneg_right hsq (show (0 : K) ≤ 999 / 1000 * sqOf rs' by positivity)
  linarith

/-! ## Examples -/

/-- Five components at two bits: the codes stand for `(3/2, -1/2, 1/2, -1/2, 3/2)` up to a factor. -/
example : compress ratNorm some firstLeast (plain 5 .squaredL2 1) 2 ([3, -1, 1, -1, 2].map some) [0, 0, 0, 0, 0] =
    some (.ok ⟨[3, 1, 2, 1, 3], ⟨32 / 18, 16, 10⟩⟩) := by decide +kernel
example : PicksLeast (K := Rat) firstLeast ∧ Sized (plain 5 .squaredL2 1) ∧
    ratNorm (shifted ratNorm (plain 5 .squaredL2 1) [3, -1, 1, -1, 2]) ≠ 0 :=
  ⟨firstLeast_picks, plain_sized _ _ _, by decide +kernel⟩
example : IsLattice (K := Rat) 2 [3 / 2, -1 / 2, 1 / 2, -3 / 2, 3 / 2] := by
  intro z hz
  simp only [List.mem_cons, List.not_mem_nil, or_false] at hz
  rcases hz with rfl | rfl | rfl | rfl | rfl
  · exact ⟨3, by norm_num, by norm_num⟩
  · exact ⟨1, by norm_num, by norm_num⟩
  · exact ⟨2, by norm_num, by norm_num⟩
  · exact ⟨0, by norm_num, by norm_num⟩
  · exact ⟨3, by norm_num, by norm_num⟩
example : compress ratNorm some firstLeast (plain 2 .squaredL2 1) 1 ([3, -4].map some) [0, 0] =
    some (.ok ⟨[1, 0], ⟨50 / 7, 25, 1⟩⟩) := by decide +kernel
example : IsLattice (K := Rat) 1 [1 / 2, -1 / 2] := by
  intro z hz
  simp only [List.mem_cons, List.not_mem_nil, or_false] at hz
  rcases hz with rfl | rfl
  · exact ⟨1, by norm_num, by norm_num⟩
  · exact ⟨0, by norm_num, by norm_num⟩

end Verif.Spherical
