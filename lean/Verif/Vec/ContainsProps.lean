/-
C119: the vectorized search of a value in a slice.
-/
import Verif.Vec.ContainsModel

namespace Verif.Vec.Contains

variable {w : Nat}

theorem movemask_cmpeq (hw : 0 < w) (t : BitVec w) : ∀ (l : List (BitVec w)),
    (movemask (cmpeq l (set1 l.length t)) != 0) = decide (t ∈ l) := by
  intro l
  induction l with
  | nil => rfl
  | cons x l ih =>
    have h1 : cmpeq (x :: l) (set1 (x :: l).length t) =
        (if x = t then BitVec.allOnes w else 0#w) :: cmpeq l (set1 l.length t) := rfl
    rw [h1, movemask]
    by_cases hx : x = t
    · subst hx
      have : (BitVec.allOnes w).msb = true := by simp [BitVec.msb_allOnes, hw]
      simp [this]
    · have hx' : ¬ t = x := fun h => hx h.symm
      simp only [if_neg hx, BitVec.msb_zero, Bool.toNat_false, Nat.zero_add, List.mem_cons, hx', false_or]
      rw [← ih]
      cases hm : movemask (cmpeq l (set1 l.length t)) with
      | zero => rfl
      | succ n => simp [Nat.mul_succ]

/-- A comparison of `n` elements from an offset on finds the value if and only if it is among them. -/
def Good (n : Nat) (t : BitVec w) (lane : List (BitVec w))
    (cmp : List (BitVec w) → Nat → List (BitVec w) → Option Bool) : Prop :=
  ∀ mem off, off + n ≤ mem.length → cmp mem off lane = some (decide (t ∈ (mem.drop off).take n))

theorem compareReg_good (hw : 0 < w) (n : Nat) (t : BitVec w) : Good n t (set1 n t) (compareReg n) := by
  intro mem off h
  have hl : ((mem.drop off).take n).length = n := by simp; omega
  simp only [compareReg, loadLanes, if_pos h, Option.map_some]
  have := movemask_cmpeq hw t ((mem.drop off).take n)
  rw [hl] at this
  rw [this]

theorem compareTwo_good {half : Nat} {t : BitVec w} {lane : List (BitVec w)}
    {cmp : List (BitVec w) → Nat → List (BitVec w) → Option Bool} (h : Good half t lane cmp) :
    Good (half + half) t lane (compareTwo half cmp) := by
  intro mem off hl
  have h1 := h mem off (by omega)
  have h2 := h mem (off + half) (by omega)
  have hs : (mem.drop off).take (half + half) = (mem.drop off).take half ++ (mem.drop (off + half)).take half := by
    rw [List.take_add, List.drop_drop]
  unfold compareTwo
  rw [h1, hs]
  by_cases hm : t ∈ (mem.drop off).take half
  · simp only [hm, decide_true, List.mem_append, true_or]
  · simp only [hm, decide_false, h2, List.mem_append, false_or]

/-- What is left decides whether the value is in the slice. -/
def Means (t : BitVec w) (v : List (BitVec w)) : Rest w → Prop
  | .found => t ∈ v
  | .more l => (t ∈ v ↔ t ∈ l)

theorem split_mem (n : Nat) (t : BitVec w) (l : List (BitVec w)) : t ∈ l ↔ t ∈ l.take n ∨ t ∈ l.drop n := by
  rw [← List.mem_append, List.take_append_drop]

theorem stage_means {n : Nat} {t : BitVec w} {lane : List (BitVec w)}
    {cmp : List (BitVec w) → Nat → List (BitVec w) → Option Bool} (h : Good n t lane cmp) {v : List (BitVec w)}
    {r : Rest w} (hr : Means t v r) : ∃ r', stage n cmp lane r = some r' ∧ Means t v r' := by
  cases r with
  | found => exact ⟨_, rfl, hr⟩
  | more l =>
    by_cases hn : n ≤ l.length
    · have hc := h l 0 (by omega)
      rw [List.drop_zero] at hc
      by_cases hm : t ∈ l.take n
      · refine ⟨.found, by simp [stage, hn, hc, hm], ?_⟩
        exact hr.2 (List.mem_of_mem_take hm)
      · refine ⟨.more (l.drop n), by simp [stage, hn, hc, hm, dropUnchecked], ?_⟩
        exact hr.trans ((split_mem n t l).trans (by simp [hm]))
    · exact ⟨.more l, by simp [stage, hn], hr⟩

theorem loop32_means {t : BitVec w} {lane : List (BitVec w)}
    {cmp : List (BitVec w) → Nat → List (BitVec w) → Option Bool} (h : Good 32 t lane cmp) {v : List (BitVec w)} :
    ∀ (fuel : Nat) (l : List (BitVec w)), l.length < fuel → (t ∈ v ↔ t ∈ l) →
      ∃ r, loop32 cmp lane fuel l = some r ∧ Means t v r := by
  intro fuel
  induction fuel with
  | zero => intro l hl; omega
  | succ fuel ih =>
    intro l hl hv
    by_cases hn : 32 ≤ l.length
    · have hc := h l 0 (by omega)
      rw [List.drop_zero] at hc
      by_cases hm : t ∈ l.take 32
      · exact ⟨.found, by simp [loop32, hn, hc, hm], hv.2 (List.mem_of_mem_take hm)⟩
      · obtain ⟨r, h1, h2⟩ := ih (l.drop 32) (by simp; omega) (hv.trans ((split_mem 32 t l).trans (by simp [hm])))
        exact ⟨r, by simp [loop32, hn, hc, hm, dropUnchecked, h1], h2⟩
    · exact ⟨.more l, by simp [loop32, hn], hv⟩

theorem finish_means {t : BitVec w} {v : List (BitVec w)} : ∀ {r : Rest w}, Means t v r → finish t r = decide (t ∈ v) := by
  intro r hr
  cases r with
  | found => exact (decide_eq_true (p := t ∈ v) hr).symm
  | more l =>
    have hl : ∀ l : List (BitVec w), finish t (.more l) = decide (t ∈ l) := by
      intro l
      induction l with
      | nil => rfl
      | cons x l ih =>
        by_cases hx : x = t
        · simp [finish, scan, hx]
        · have : ¬ t = x := fun h => hx h.symm
          simp only [finish] at ih
          simp [finish, scan, hx, ih, this]
    rw [hl]
    exact decide_eq_decide.2 (Iff.symm hr)

/-- **C119**: for 32-bit values, the search reads nothing outside the slice, ends, and answers whether the value is
in the slice, for every length and every value. -/
theorem C119_u32 (v : List (BitVec 32)) (t : BitVec 32) : containsU32 v t = some (decide (t ∈ v)) := by
  have g8 := compareReg_good (w := 32) (by decide) 8 t
  have g16 := compareTwo_good g8
  have g32 := compareTwo_good g16
  obtain ⟨r1, e1, m1⟩ := loop32_means g32 (v := v) (v.length + 1) v (by omega) Iff.rfl
  obtain ⟨r2, e2, m2⟩ := stage_means g16 m1
  obtain ⟨r3, e3, m3⟩ := stage_means g8 m2
  obtain ⟨r4, e4, m4⟩ := stage_means (compareReg_good (w := 32) (by decide) 4 t) m3
  simp only [containsU32, compare32u32, compare16u32]
  rw [e1]
  simp only [Option.bind_eq_bind, Option.bind_some]
  rw [e2]
  simp only [Option.bind_some]
  rw [e3]
  simp only [Option.bind_some]
  rw [e4]
  simp only [Option.bind_some, finish_means m4, Option.pure_def]

/-- **C119**: the same for 64-bit values. -/
theorem C119_u64 (v : List (BitVec 64)) (t : BitVec 64) : containsU64 v t = some (decide (t ∈ v)) := by
  have g4 := compareReg_good (w := 64) (by decide) 4 t
  have g8 := compareTwo_good g4
  have g16 := compareTwo_good g8
  have g32 := compareTwo_good g16
  obtain ⟨r1, e1, m1⟩ := loop32_means g32 (v := v) (v.length + 1) v (by omega) Iff.rfl
  obtain ⟨r2, e2, m2⟩ := stage_means g16 m1
  obtain ⟨r3, e3, m3⟩ := stage_means g8 m2
  obtain ⟨r4, e4, m4⟩ := stage_means g4 m3
  obtain ⟨r5, e5, m5⟩ := stage_means (compareReg_good (w := 64) (by decide) 2 t) m4
  simp only [containsU64, compare32u64, compare16u64, compare8u64]
  rw [e1]
  simp only [Option.bind_eq_bind, Option.bind_some]
  rw [e2]
  simp only [Option.bind_some]
  rw [e3]
  simp only [Option.bind_some]
  rw [e4]
  simp only [Option.bind_some]
  rw [e5]
  simp only [Option.bind_some, finish_means m5, Option.pure_def]

/-! ### Examples -/

/-- 63 elements go through every stage; the last one is found by the last loop. -/
example : containsU32 ((List.range 63).map (BitVec.ofNat 32)) 62#32 = some true := by decide +kernel
example : containsU32 ((List.range 63).map (BitVec.ofNat 32)) 63#32 = some false := by decide +kernel
example : containsU64 ((List.range 47).map (BitVec.ofNat 64)) 45#64 = some true := by decide +kernel
/-- A load past the end is noticed by the model. -/
example : compareReg 8 [1#32, 2#32] 0 (set1 8 1#32) = none := by decide

end Verif.Vec.Contains
