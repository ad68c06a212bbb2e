import Verif.Search.BetaModel
import Verif.Search.Props

/-!
# C120: beta-filtered search

Specification vocabulary: `Scaling mul` says what multiplying by a factor in (0, 1] does to a distance.
-/

namespace Verif.Search.Beta

open Verif.Queue

variable {I D : Type} [DecidableEq I] [LinearOrder D]

/-- Multiplication by a factor in (0, 1], possibly rounded: keeps the order, does not increase a non-negative distance
and keeps it non-negative. -/
structure Scaling [Zero D] (mul : D → D) : Prop where
  mono : ∀ a b, a ≤ b → mul a ≤ mul b
  shrink : ∀ d, 0 ≤ d → 0 ≤ mul d ∧ mul d ≤ d

/-- The exact product with a factor in (0, 1]. -/
theorem scaling_exact (beta : Rat) (h0 : 0 < beta) (h1 : beta ≤ 1) : Scaling (fun d : Rat => d * beta) where
  mono := fun a b h => mul_le_mul_of_nonneg_right h h0.le
  shrink := fun d h => ⟨mul_nonneg h h0.le, by nlinarith⟩

/-- The product rounded to the representable values by any monotone rounding that leaves them as they are. -/
theorem scaling_rounded (beta : Rat) (h0 : 0 < beta) (h1 : beta ≤ 1) (rnd : Rat → Rat)
    (hm : ∀ a b, a ≤ b → rnd a ≤ rnd b) (hi : ∀ a, rnd (rnd a) = rnd a) (hz : rnd 0 = 0) :
    letI : Zero {d : Rat // rnd d = d} := ⟨⟨0, hz⟩⟩
    Scaling (fun d : {d : Rat // rnd d = d} => ⟨rnd (d.1 * beta), hi _⟩) :=
  letI : Zero {d : Rat // rnd d = d} := ⟨⟨0, hz⟩⟩
  { mono := fun a b h => hm _ _ (mul_le_mul_of_nonneg_right h h0.le)
    shrink := fun d h => by
      have hd : (0 : Rat) ≤ d.1 := h
      constructor
      · have := hm 0 (d.1 * beta) (mul_nonneg hd h0.le)
        rw [hz] at this; exact this
      · have := hm (d.1 * beta) d.1 (by nlinarith)
        rw [d.2] at this; exact this }

/-- The distance a beta-filtered search is run with, for a vertex whose distance to the query is `d`. -/
def scaled (ok : I → Bool) (mul : D → D) (i : I) (d : D) : D := if ok i then mul d else d

omit [DecidableEq I] in
theorem wrap_dist (ok : I → Bool) (mul : D → D) (a : Accessor I D) (i : I) :
    (wrap ⟨ok, fun d => some (mul d)⟩ a).graph.dist i = (a.graph.dist i).map (scaled ok mul i) := by
  simp only [wrap, Filter.apply]
  cases a.graph.dist i <;> by_cases h : ok i <;> simp [h, scaled]

/-- **C120 (the search is an ordinary one).** Whatever the inner search, list size, beam and output buffer: if the inner
accessor never asks to stop, and the factor is 1, the beta-filtered search is the unfiltered one; likewise if no
vector matches, whatever the factor. -/
theorem C120_neutral (pad : D) (f : Filter I D) (a : Accessor I D) (l beam fuel : Nat) (b : Buf I D)
    (hstop : ∀ n, a.stop n = false) (h : (∀ d, f.mul d = some d) ∨ ∀ i, f.matches? i = false) :
    search pad (wrap f a) l beam fuel b = search pad a l beam fuel b := by
  have hg : (wrap f a).graph = a.graph := by
    have : (fun i => f.apply i (a.graph.dist i)) = a.graph.dist := by
      funext i
      unfold Filter.apply
      rcases h with h | h
      · split
        · cases a.graph.dist i <;> simp [h]
        · rfl
      · simp [h i]
    simp only [wrap, this]
  have hs : (wrap f a).stop = a.stop := by funext n; simp [wrap, hstop n]
  unfold search
  rw [hg, hs]; rfl

/-- **C120 (results).** Whatever the list size, beam and fuel beyond the number of vertices: the candidates of a
beta-filtered search are sorted by the adjusted distance, distinct and reachable; each carries `beta` times its
distance if it matches and its distance otherwise; and what was evaluated and left out is, by its adjusted
distance, at least as far as everything listed. -/
theorem C120_results (pad : D) (ok : I → Bool) (mul : D → D) (a : Accessor I D) (V : List I) (l beam : Nat)
    (hG : FiniteGraph V a.graph.adj a.starts) (hn : a.starts.Nodup) (hl : 1 ≤ l) (hb : 1 ≤ beam)
    (fuel : Nat) (hf : V.length < fuel) (b : Buf I D) :
    ∃ s n b', search pad (wrap ⟨ok, fun d => some (mul d)⟩ a) l beam fuel b = some (s, n, b') ∧
      s.best.iter.Pairwise (fun x y => x.2 ≤ y.2) ∧ (s.best.iter.map (·.1)).Nodup ∧
      (∀ x ∈ s.best.iter, Reach a.graph.adj a.starts x.1 ∧
        ∃ d, a.graph.dist x.1 = some d ∧ x.2 = if ok x.1 then mul d else d) ∧
      (∀ y d, y ∈ s.computed → a.graph.dist y = some d → y ∉ s.best.iter.map (·.1) →
        ∀ x ∈ s.best.iter, x.2 ≤ if ok y then mul d else d) := by
  obtain ⟨s, h1, h2, h3, h4, h5, h6⟩ := C15_results_sound pad (wrap ⟨ok, fun d => some (mul d)⟩ a).graph V a.starts l
    beam (fun _ => false) hG hn hl hb fuel hf
  refine ⟨s, (postProcess a.starts s.best.iter b).1, (postProcess a.starts s.best.iter b).2, ?_, h3, h4, ?_, ?_⟩
  · unfold search knnSearch
    have : knnTraverse pad (wrap ⟨ok, fun d => some (mul d)⟩ a).graph (wrap ⟨ok, fun d => some (mul d)⟩ a).starts l beam
      (wrap ⟨ok, fun d => some (mul d)⟩ a).stop fuel = some s := h1
    rw [this]; rfl
  · intro x hx
    obtain ⟨e1, e2, -⟩ := h5 x hx
    rw [wrap_dist, Option.map_eq_some_iff] at e1
    obtain ⟨d, hd, e⟩ := e1
    exact ⟨e2, d, hd, e.symm⟩
  · intro y d hy hd hnot x hx
    exact (h6 y _ hy (by rw [wrap_dist, hd]; rfl) hnot).2 x hx

/-- The setting of the exactness theorems: a finite graph without NaNs all of whose reachable vertices fit into the search list. -/
structure Exhaustive (a : Accessor I D) (V reachable : List I) (l beam fuel : Nat) : Prop where
  graph : FiniteGraph V a.graph.adj a.starts
  starts : a.starts.Nodup
  list : 1 ≤ l
  beam : 1 ≤ beam
  fuel : V.length < fuel
  reach : ∀ x, x ∈ reachable ↔ Reach a.graph.adj a.starts x
  nodup : reachable.Nodup
  dist : ∀ x ∈ reachable, a.graph.dist x ≠ none
  fits : reachable.length ≤ l

/-- The search of an `Exhaustive` setting returns the nearest by adjusted distance. -/
theorem exact_scaled (pad : D) (ok : I → Bool) (mul : D → D) (a : Accessor I D) (V reachable : List I)
    (l beam fuel : Nat) (h : Exhaustive a V reachable l beam fuel)
    (ids : List I) (distances : List D) (b : Buf I D) (hbuf : Buf.new ids distances = some b) :
    ∃ s n b', search pad (wrap ⟨ok, fun d => some (mul d)⟩ a) l beam fuel b = some (s, n, b') ∧
      n = min ids.length (reachable.filter fun x => decide (x ∉ a.starts)).length ∧
      b'.written.length = n ∧
      b'.written.Pairwise (fun x y => x.2 ≤ y.2) ∧ (b'.written.map (·.1)).Nodup ∧
      (∀ x ∈ b'.written, Reach a.graph.adj a.starts x.1 ∧ x.1 ∉ a.starts ∧
        ∃ d, a.graph.dist x.1 = some d ∧ x.2 = scaled ok mul x.1 d) ∧
      (∀ y d, Reach a.graph.adj a.starts y → y ∉ a.starts → a.graph.dist y = some d → y ∉ b'.written.map (·.1) →
        ∀ x ∈ b'.written, x.2 ≤ scaled ok mul y d) := by
  obtain ⟨s, n, b', h1, h2, h3, h4, h5, h6, h7⟩ := C14_true_k_nearest pad (wrap ⟨ok, fun d => some (mul d)⟩ a).graph V
    a.starts l beam h.graph h.starts h.list h.beam fuel h.fuel reachable h.reach h.nodup
    (fun x hx => by rw [wrap_dist]; simpa using h.dist x hx) h.fits ids distances b hbuf
  refine ⟨s, n, b', h1, h2, h3, h4, h5, ?_, ?_⟩
  · intro x hx
    obtain ⟨e1, e2, e3⟩ := h6 x hx
    rw [wrap_dist, Option.map_eq_some_iff] at e3
    obtain ⟨d, hd, e⟩ := e3
    exact ⟨e1, e2, d, hd, e.symm⟩
  · intro y d hy hys hd hnot x hx
    exact h7 y _ hy hys (by rw [wrap_dist, hd]; rfl) hnot x hx

/-- **C120 (matching vectors are preferred).** Non-negative distances, a factor in (0, 1], a list that holds everything
reachable: no vector is returned in place of a matching one that is at least as near, among the returned ones
a matching vector comes before every non-matching one that is farther, and vectors that are alike in matching come
in the order of their distances, none omitted for a farther one. -/
theorem C120_preferred_partial [Zero D] (pad : D) (ok : I → Bool) (mul : D → D) (hm : Scaling mul) (a : Accessor I D)
    (V reachable : List I) (l beam fuel : Nat) (h : Exhaustive a V reachable l beam fuel)
    (hpos : ∀ x d, a.graph.dist x = some d → 0 ≤ d)
    (ids : List I) (distances : List D) (b : Buf I D) (hbuf : Buf.new ids distances = some b) :
    ∃ s n b', search pad (wrap ⟨ok, fun d => some (mul d)⟩ a) l beam fuel b = some (s, n, b') ∧
      n = min ids.length (reachable.filter fun x => decide (x ∉ a.starts)).length ∧
      (b'.written.map (·.1)).length = n ∧ (b'.written.map (·.1)).Nodup ∧
      (∀ x ∈ b'.written.map (·.1), Reach a.graph.adj a.starts x ∧ x ∉ a.starts) ∧
      -- the order of the results
      (b'.written.map (·.1)).Pairwise (fun x y => ∀ dx dy, a.graph.dist x = some dx → a.graph.dist y = some dy →
        (ok x = false → ok y = true → dx ≤ dy) ∧ (ok x = ok y → dy < dx → ok x = true ∧ mul dx = mul dy)) ∧
      -- what is left out
      (∀ y dy, Reach a.graph.adj a.starts y → y ∉ a.starts → a.graph.dist y = some dy → y ∉ b'.written.map (·.1) →
        ∀ x ∈ b'.written.map (·.1), ∀ dx, a.graph.dist x = some dx →
          (ok x = false → ok y = true → dx ≤ dy) ∧ (ok x = ok y → dy < dx → ok x = true ∧ mul dx = mul dy)) := by
  obtain ⟨s, n, b', h1, h2, h3, h4, h5, h6, h7⟩ := exact_scaled pad ok mul a V reachable l beam fuel h ids distances b hbuf
  have key : ∀ x y dx dy, a.graph.dist x = some dx → a.graph.dist y = some dy →
      scaled ok mul x dx ≤ scaled ok mul y dy →
      (ok x = false → ok y = true → dx ≤ dy) ∧ (ok x = ok y → dy < dx → ok x = true ∧ mul dx = mul dy) := by
    intro x y dx dy ex ey hle
    unfold scaled at hle
    constructor
    · intro hx hy
      rw [hx, hy] at hle
      simp only [Bool.false_eq_true, if_false, if_true] at hle
      exact hle.trans (hm.shrink dy (hpos y dy ey)).2
    · intro hxy hlt
      cases hx : ok x
      · rw [← hxy, hx] at hle
        simp only [Bool.false_eq_true, if_false] at hle
        exact absurd hle (not_le.mpr hlt)
      · rw [← hxy, hx] at hle
        simp only [if_true] at hle
        exact ⟨rfl, le_antisymm hle (hm.mono _ _ hlt.le)⟩
  refine ⟨s, n, b', h1, h2, by simpa using h3, h5, ?_, ?_, ?_⟩
  · intro x hx
    obtain ⟨p, hp, rfl⟩ := List.mem_map.mp hx
    exact ⟨(h6 p hp).1, (h6 p hp).2.1⟩
  · rw [List.pairwise_map]
    refine h4.imp_of_mem ?_
    intro p q hp hq hle dx dy ex ey
    obtain ⟨-, -, d, hd, e⟩ := h6 p hp
    obtain ⟨-, -, d', hd', e'⟩ := h6 q hq
    rw [ex] at hd; rw [ey] at hd'
    cases hd; cases hd'
    exact key _ _ _ _ ex ey (by rw [← e, ← e']; exact hle)
  · intro y dy hy hys ey hnot x hx dx ex
    obtain ⟨p, hp, rfl⟩ := List.mem_map.mp hx
    obtain ⟨-, -, d, hd, e⟩ := h6 p hp
    rw [ex] at hd; cases hd
    exact key _ _ _ _ ex ey (by rw [← e]; exact h7 y dy hy hys ey hnot p hp)

/-- **C120 (a small factor filters).** A list that holds everything reachable, and a factor so small that every matching
vector is adjusted below every non-matching one: the results are the matching vectors first; a non-matching one is returned only if all reachable matching vectors are. -/
theorem C120_small_factor (pad : D) (ok : I → Bool) (mul : D → D) (a : Accessor I D)
    (V reachable : List I) (l beam fuel : Nat) (h : Exhaustive a V reachable l beam fuel)
    (hsmall : ∀ x y dx dy, ok x = true → ok y = false → a.graph.dist x = some dx → a.graph.dist y = some dy → mul dx < dy)
    (ids : List I) (distances : List D) (b : Buf I D) (hbuf : Buf.new ids distances = some b) :
    ∃ s n b', search pad (wrap ⟨ok, fun d => some (mul d)⟩ a) l beam fuel b = some (s, n, b') ∧
      (b'.written.map (·.1)).Pairwise (fun x y => ok y = true → ok x = true) ∧
      (∀ y, Reach a.graph.adj a.starts y → y ∉ a.starts → ok y = true → y ∉ b'.written.map (·.1) →
        ∀ x ∈ b'.written.map (·.1), ok x = true) := by
  obtain ⟨s, n, b', h1, h2, h3, h4, h5, h6, h7⟩ := exact_scaled pad ok mul a V reachable l beam fuel h ids distances b hbuf
  have key : ∀ x y dx dy, a.graph.dist x = some dx → a.graph.dist y = some dy →
      scaled ok mul x dx ≤ scaled ok mul y dy → ok y = true → ok x = true := by
    intro x y dx dy ex ey hle hy
    by_contra hx
    simp only [Bool.not_eq_true] at hx
    have := hsmall y x dy dx hy hx ey ex
    unfold scaled at hle
    rw [hx, hy] at hle
    simp only [Bool.false_eq_true, if_false, if_true] at hle
    exact absurd hle (not_le.mpr this)
  refine ⟨s, n, b', h1, ?_, ?_⟩
  · rw [List.pairwise_map]
    refine h4.imp_of_mem ?_
    intro p q hp hq hle hy
    obtain ⟨-, -, d, hd, e⟩ := h6 p hp
    obtain ⟨-, -, d', hd', e'⟩ := h6 q hq
    exact key _ _ _ _ hd hd' (by rw [← e, ← e']; exact hle) hy
  · intro y hy hys hok hnot x hx
    obtain ⟨p, hp, rfl⟩ := List.mem_map.mp hx
    obtain ⟨-, -, d, hd, e⟩ := h6 p hp
    obtain ⟨dy, hdy⟩ := Option.ne_none_iff_exists'.mp (h.dist y ((h.reach y).mpr hy))
    exact key _ _ _ _ hd hdy (by rw [← e]; exact h7 y dy hy hys hdy hnot p hp) hok

/-- **C120 (accepted factors).** The benchmark accepts exactly the factors in (0, 1], and a NaN. -/
theorem C120_accepted (beta : Option Rat) :
    validBeta beta = true ↔ beta = none ∨ ∃ b, beta = some b ∧ 0 < b ∧ b ≤ 1 := by
  cases beta with
  | none => simp [validBeta]
  | some b => simp [validBeta]

/-! ## What does not hold -/

/-- Start point 0, and two vectors at negative distances, as with the inner product metric. -/
def demoNeg : Accessor Nat Rat where
  starts := [0]
  graph := { adj := fun | 0 => [1, 2] | _ => [],
             dist := fun | 0 => some 0 | 1 => some (-4) | 2 => some (-3) | _ => none }
  stop := fun _ => false

/-- **C120 refuted: a filtered vector is preferred.** With negative distances, as the inner product metric gives them, the
factor 1/2 puts the matching vector 1, which is the nearest, behind the non-matching vector 2: a search for one
result without filter returns vector 1, the search that prefers vector 1 returns vector 2. -/
theorem C120_negative_refuted :
    validBeta (some (1/2)) = true ∧
    (search 0 demoNeg 3 1 9 ⟨[9], [9], 0⟩).map (fun r => r.2.2.ids) = some [1] ∧
    (search 0 (wrap ⟨fun i => decide (i = 1), times (some (1/2))⟩ demoNeg) 3 1 9 ⟨[9], [9], 0⟩).map
      (fun r => r.2.2.ids) = some [2] := by
  decide +kernel

/-- A start point, vertex 1 next to it, and vertex 2 behind vertex 1; the accessor asks to stop after one round. -/
def demoStop : Accessor Nat Rat where
  starts := [0]
  graph := { adj := fun | 0 => [1] | 1 => [2] | _ => [],
             dist := fun | 0 => some 9 | 1 => some 4 | 2 => some 1 | _ => none }
  stop := fun n => decide (1 ≤ n)

/-- **C120 refuted: the inner search keeps its say.** A search accessor that asks to stop after its first round is obeyed
without the filter and ignored with it, even when no vector matches. -/
theorem C120_stop_refuted :
    (search 0 demoStop 3 1 9 ⟨[9, 9], [9, 9], 0⟩).map (fun r => (r.1.hops, r.2.2.written)) = some (1, [(1, 4)]) ∧
    (search 0 (wrap ⟨fun _ => false, times (some 1)⟩ demoStop) 3 1 9 ⟨[9, 9], [9, 9], 0⟩).map
      (fun r => (r.1.hops, r.2.2.written)) = some (3, [(2, 1), (1, 4)]) := by
  decide +kernel

/-- **C120 refuted: a factor is checked.** The strategy takes any factor: with a factor above 1 matching vectors are put back, and with a
NaN, which the check of the benchmark would let pass too, they are never returned. -/
theorem C120_factor_refuted :
    validBeta none = true ∧
    (search 0 (wrap ⟨fun i => decide (i = 2), times none⟩ { demoStop with stop := fun _ => false }) 3 1 9
      ⟨[9, 9], [9, 9], 0⟩).map (fun r => r.2.2.written) = some [(1, 4)] ∧
    (search 0 (wrap ⟨fun i => decide (i = 2), times (some 5)⟩ { demoStop with stop := fun _ => false }) 3 1 9
      ⟨[9, 9], [9, 9], 0⟩).map (fun r => r.2.2.written) = some [(1, 4), (2, 5)] := by
  decide +kernel

/-! ## The theorems are not vacuous -/

/-- Start point 0 and three vectors; 2 and 3 match. -/
def demoBeta : Accessor Nat Rat where
  starts := [0]
  graph := { adj := fun | 0 => [1, 2] | 1 => [3] | 2 => [1] | _ => [],
             dist := fun | 0 => some 9 | 1 => some 4 | 2 => some 6 | 3 => some 20 | _ => none }
  stop := fun _ => false

theorem demoBeta_exhaustive : Exhaustive demoBeta [0, 1, 2, 3] [0, 1, 2, 3] 4 2 9 where
  graph := ⟨by simp [demoBeta], by decide⟩
  starts := by simp [demoBeta]
  list := by omega
  beam := by omega
  fuel := by simp
  reach := by
    intro x
    constructor
    · intro h
      have r0 : Reach demoBeta.graph.adj demoBeta.starts 0 := .start (by simp [demoBeta])
      have r1 : Reach demoBeta.graph.adj demoBeta.starts 1 := .step r0 (by decide)
      have r2 : Reach demoBeta.graph.adj demoBeta.starts 2 := .step r0 (by decide)
      have r3 : Reach demoBeta.graph.adj demoBeta.starts 3 := .step r1 (by decide)
      simp only [List.mem_cons, List.not_mem_nil, or_false] at h
      rcases h with rfl | rfl | rfl | rfl <;> assumption
    · intro h
      exact reach_mem (V := [0, 1, 2, 3]) ⟨by simp [demoBeta], by decide⟩ x h
  nodup := by decide
  dist := by decide +kernel
  fits := by simp

example := C120_neutral (0 : Rat) ⟨fun _ => true, times (some 1)⟩ demoBeta 4 2 9 ⟨[9, 9], [9, 9], 0⟩ (fun _ => rfl)
  (.inl (by intro d; simp [times]))
example := C120_results (0 : Rat) (fun i => decide (2 ≤ i)) (· * (1/2)) demoBeta [0, 1, 2, 3] 2 1
  demoBeta_exhaustive.graph demoBeta_exhaustive.starts (by omega) (by omega) 9 (by simp) ⟨[9, 9], [9, 9], 0⟩
example := C120_preferred_partial (0 : Rat) (fun i => decide (2 ≤ i)) (· * (1/2)) (scaling_exact _ (by norm_num) (by norm_num)) demoBeta
  [0, 1, 2, 3] [0, 1, 2, 3] 4 2 9 demoBeta_exhaustive
  (by
    intro x d h
    simp only [demoBeta] at h
    split at h <;> simp at h <;> subst h <;> norm_num)
  [9, 9] [9, 9] _ rfl
example := C120_small_factor (0 : Rat) (fun i => decide (2 ≤ i)) (· * (1/10)) demoBeta
  [0, 1, 2, 3] [0, 1, 2, 3] 4 2 9 demoBeta_exhaustive
  (by
    intro x y dx dy hx hy h h'
    simp only [demoBeta] at h h'
    split at h <;> simp at h hx <;> subst h <;> split at h' <;> simp at h' hy <;> subst h' <;> norm_num)
  [9, 9] [9, 9] _ rfl

/-- With factor 1/2 the matching vector 2, at distance 6, comes before the non-matching vector 1 at distance 4; vector 3,
at distance 20, does not. With factor 1/10 both do. -/
example : (search 0 (wrap ⟨fun i => decide (2 ≤ i), times (some (1/2))⟩ demoBeta) 4 2 9
    ⟨[9, 9, 9], [9, 9, 9], 0⟩).map (fun r => r.2.2.written) = some [(2, 3), (1, 4), (3, 10)] := by decide +kernel
example : (search 0 (wrap ⟨fun i => decide (2 ≤ i), times (some (1/10))⟩ demoBeta) 4 2 9
    ⟨[9, 9, 9], [9, 9, 9], 0⟩).map (fun r => r.2.2.ids) = some [2, 3, 1] := by decide +kernel

end Verif.Search.Beta
