import Verif.Quant.HeapModel
import Mathlib.Tactic.Common
import Mathlib.Data.List.Perm.Basic
import Mathlib.Order.Nat
import Mathlib.Data.Nat.Basic

/-! # C48: `SliceHeap` is a heap -/

namespace Verif.Quant

variable {α : Type} [LinearOrder α]

/-- Parents from `lo` on dominate their children, except possibly `ex`. -/
def HeapFrom (xs : Array α) (lo : Nat) (ex : Option Nat) : Prop :=
  ∀ k c x y, lo ≤ k → some k ≠ ex → (c = 2 * k + 1 ∨ c = 2 * k + 2) → xs[k]? = some x → xs[c]? = some y → y ≤ x

/-- Children of `pos` are dominated by the parent of `pos`. -/
def GrandOk (xs : Array α) (lo pos : Nat) : Prop :=
  ∀ k c x y, lo ≤ k → (pos = 2 * k + 1 ∨ pos = 2 * k + 2) → (c = 2 * pos + 1 ∨ c = 2 * pos + 2) →
    xs[k]? = some x → xs[c]? = some y → y ≤ x

theorem swapChecked_spec {xs : Array α} {a b : Nat} (ha : a < xs.size) (hb : b < xs.size) (hab : a ≠ b) :
    ∃ ys, swapChecked xs a b = some ys ∧ ys.size = xs.size ∧ ys.Perm xs ∧ ys[a]? = xs[b]? ∧ ys[b]? = xs[a]? ∧
      ∀ k, k ≠ a → k ≠ b → ys[k]? = xs[k]? := by
  unfold swapChecked
  rw [dif_pos ⟨ha, hb, hab⟩]
  refine ⟨_, rfl, by simp, Array.swap_perm ha hb, ?_, ?_, ?_⟩
  · rw [Array.getElem?_swap]; grind
  · rw [Array.getElem?_swap]; grind
  · intro k h1 h2; rw [Array.getElem?_swap]; grind

theorem siftDown_spec (fuel : Nat) (xs : Array α) (lo pos : Nat) (hf : xs.size < fuel + pos) (hlo : lo ≤ pos)
    (hpos : pos < xs.size) (h : HeapFrom xs lo (some pos)) (hg : GrandOk xs lo pos) :
    ∃ ys, siftDown fuel xs pos = some ys ∧ ys.size = xs.size ∧ ys.Perm xs ∧ HeapFrom ys lo none := by
  induction fuel generalizing xs pos with
  | zero => omega
  | succ fuel ih =>
    unfold siftDown
    simp only
    split
    · rename_i hc
      have h1 : 2 * pos + 1 < xs.size := by omega
      have h2 : 2 * pos + 1 + 1 < xs.size := by omega
      rw [Array.getElem?_eq_getElem h1, Array.getElem?_eq_getElem h2]
      simp only
      obtain ⟨c, hcdef, hcc, hcmax⟩ : ∃ c, 2 * pos + 1 + (if xs[2 * pos + 1] ≤ xs[2 * pos + 1 + 1] then 1 else 0) = c ∧
          (c = 2 * pos + 1 ∨ c = 2 * pos + 2) ∧
          ∀ d x y, (d = 2 * pos + 1 ∨ d = 2 * pos + 2) → xs[d]? = some y → xs[c]? = some x → y ≤ x := by
        split
        · rename_i hle
          refine ⟨_, rfl, Or.inr (by omega), ?_⟩
          rintro d x y (rfl | rfl) hd hx
          · rw [Array.getElem?_eq_getElem h1] at hd; cases hd
            rw [Array.getElem?_eq_getElem h2] at hx; cases hx
            exact hle
          · rw [hd] at hx; cases hx; exact le_refl _
        · rename_i hle
          refine ⟨_, rfl, Or.inl (by omega), ?_⟩
          rintro d x y (rfl | rfl) hd hx
          · rw [Nat.add_zero] at hx
            rw [hd] at hx; cases hx; exact le_refl _
          · rw [Nat.add_zero, Array.getElem?_eq_getElem h1] at hx; cases hx
            rw [show 2 * pos + 2 = 2 * pos + 1 + 1 by omega, Array.getElem?_eq_getElem h2] at hd; cases hd
            exact le_of_lt (not_le.mp hle)
      rw [hcdef]
      have hclt : c < xs.size := by omega
      rw [Array.getElem?_eq_getElem hpos, Array.getElem?_eq_getElem hclt]
      simp only
      split
      · rename_i hge
        refine ⟨xs, rfl, rfl, Array.Perm.refl _, ?_⟩
        intro k d x y hk _ hd hx hy
        by_cases hkp : k = pos
        · subst hkp
          rw [Array.getElem?_eq_getElem hpos] at hx; cases hx
          exact le_trans (hcmax d _ y hd hy (Array.getElem?_eq_getElem hclt)) hge
        · exact h k d x y hk (by simpa using hkp) hd hx hy
      · rename_i hlt
        obtain ⟨ys, e1, e2, e3, e4, e5, e6⟩ := swapChecked_spec hpos hclt (by omega : pos ≠ c)
        rw [e1]
        simp only
        have hlt' : xs[pos] < xs[c] := not_le.mp hlt
        have hH : HeapFrom ys lo (some c) := by
          intro k d x y hk hne hd hx hy
          have hkc : k ≠ c := by intro hh; exact hne (by rw [hh])
          by_cases hkp : k = pos
          · subst hkp
            rw [e4] at hx
            by_cases hdc : d = c
            · subst hdc
              rw [e5, Array.getElem?_eq_getElem hpos] at hy; cases hy
              rw [Array.getElem?_eq_getElem hclt] at hx; cases hx
              exact le_of_lt hlt'
            · rw [e6 d (by omega) hdc] at hy
              exact hcmax d x y hd hy hx
          · rw [e6 k hkp hkc] at hx
            by_cases hdp : d = pos
            · subst hdp
              rw [e4] at hy
              exact hg k c x y hk hd hcc hx hy
            · have hdc : d ≠ c := by omega
              rw [e6 d hdp hdc] at hy
              exact h k d x y hk (by simpa using hkp) hd hx hy
        have hG : GrandOk ys lo c := by
          intro k d x y hk hkc hd hx hy
          have hkp : k = pos := by omega
          subst hkp
          rw [e4] at hx
          rw [e6 d (by omega) (by omega)] at hy
          exact h c d x y (by omega) (by simp; omega) hd hx hy
        obtain ⟨zs, f1, f2, f3, f4⟩ := ih ys c (by omega) (by omega) (by omega) hH hG
        exact ⟨zs, f1, by omega, f3.trans e3, f4⟩
    · rename_i hnc
      split
      · rename_i hce
        have hclt : 2 * pos + 1 < xs.size := by omega
        rw [Array.getElem?_eq_getElem hpos, Array.getElem?_eq_getElem hclt]
        simp only
        split
        · rename_i hlt
          obtain ⟨ys, e1, e2, e3, e4, e5, e6⟩ := swapChecked_spec hpos hclt (by omega : pos ≠ 2 * pos + 1)
          refine ⟨ys, e1, e2, e3, ?_⟩
          intro k d x y hk _ hd hx hy
          have hdlt : d < xs.size := by
            by_contra hh
            rw [Array.getElem?_eq_none (by omega)] at hy; simp at hy
          by_cases hkp : k = pos
          · subst hkp
            have hdc : d = 2 * k + 1 := by omega
            subst hdc
            rw [e5, Array.getElem?_eq_getElem hpos] at hy; cases hy
            rw [e4, Array.getElem?_eq_getElem hclt] at hx; cases hx
            exact le_of_lt hlt
          · have hkc : k ≠ 2 * pos + 1 := by omega
            rw [e6 k hkp hkc] at hx
            by_cases hdp : d = pos
            · subst hdp
              rw [e4] at hy
              exact hg k _ x y hk hd (Or.inl rfl) hx hy
            · rw [e6 d hdp (by omega)] at hy
              exact h k d x y hk (by simpa using hkp) hd hx hy
        · rename_i hge
          refine ⟨xs, rfl, rfl, Array.Perm.refl _, ?_⟩
          intro k d x y hk _ hd hx hy
          by_cases hkp : k = pos
          · subst hkp
            have hdlt : d < xs.size := by
              by_contra hh
              rw [Array.getElem?_eq_none (by omega)] at hy; simp at hy
            have hdc : d = 2 * k + 1 := by omega
            subst hdc
            rw [Array.getElem?_eq_getElem hclt] at hy; cases hy
            rw [Array.getElem?_eq_getElem hpos] at hx; cases hx
            exact not_lt.mp hge
          · exact h k d x y hk (by simpa using hkp) hd hx hy
      · rename_i hne
        refine ⟨xs, rfl, rfl, Array.Perm.refl _, ?_⟩
        intro k d x y hk _ hd hx hy
        by_cases hkp : k = pos
        · subst hkp
          have hdlt : d < xs.size := by
            by_contra hh
            rw [Array.getElem?_eq_none (by omega)] at hy; simp at hy
          omega
        · exact h k d x y hk (by simpa using hkp) hd hx hy

theorem heapifyFrom_spec (i : Nat) (xs : Array α) (hi : i < xs.size) (h : HeapFrom xs (i + 1) none) :
    ∃ ys, heapifyFrom xs i = some ys ∧ ys.size = xs.size ∧ ys.Perm xs ∧ HeapFrom ys 0 none := by
  have key : ∀ (xs : Array α) (i : Nat), i < xs.size → HeapFrom xs (i + 1) none →
      ∃ ys, siftDown (xs.size + 1) xs i = some ys ∧ ys.size = xs.size ∧ ys.Perm xs ∧ HeapFrom ys i none := by
    intro xs i hi h
    apply siftDown_spec (xs.size + 1) xs i i (by omega) (Nat.le_refl _) hi
    · intro k c x y hk hne hc hx hy
      have : k ≠ i := by intro hh; exact hne (by rw [hh])
      exact h k c x y (by omega) (by simp) hc hx hy
    · intro k c x y hk hkc; omega
  induction i generalizing xs with
  | zero =>
    unfold heapifyFrom
    exact key xs 0 hi h
  | succ i ih =>
    unfold heapifyFrom
    obtain ⟨ys, e1, e2, e3, e4⟩ := key xs (i + 1) hi h
    rw [e1]
    simp only
    obtain ⟨zs, f1, f2, f3, f4⟩ := ih ys (by omega) e4
    exact ⟨zs, f1, by omega, f3.trans e3, f4⟩

/-- Heap order over the whole slice: every element is at most its parent. -/
def IsHeap (xs : Array α) : Prop := ∀ (i : Nat) (h : i < xs.size), 0 < i → xs[i] ≤ xs[(i - 1) / 2]'(by omega)

theorem isHeap_iff (xs : Array α) : IsHeap xs ↔ HeapFrom xs 0 none := by
  constructor
  · intro h k c x y _ _ hc hx hy
    have hclt : c < xs.size := by
      by_contra hh
      rw [Array.getElem?_eq_none (by omega)] at hy; simp at hy
    have := h c hclt (by omega)
    rw [Array.getElem?_eq_getElem hclt] at hy; cases hy
    have hk : (c - 1) / 2 = k := by omega
    subst hk
    rw [Array.getElem?_eq_getElem (by omega)] at hx; cases hx
    exact this
  · intro h i hi h0
    exact h ((i - 1) / 2) i _ _ (Nat.zero_le _) (by simp) (by omega) (Array.getElem?_eq_getElem (by omega))
      (Array.getElem?_eq_getElem hi)

/-- The root of a heap is its maximum. -/
theorem isHeap_root_max {xs : Array α} (h : IsHeap xs) (i : Nat) (hi : i < xs.size) : xs[i] ≤ xs[0]'(by omega) := by
  induction i using Nat.strongRecOn with
  | _ i ih =>
    by_cases h0 : i = 0
    · subst h0; exact le_refl _
    · exact le_trans (h i hi (by omega)) (ih ((i - 1) / 2) (by omega) (by omega))

theorem mem_le_root {xs : Array α} (h : IsHeap xs) {x : α} (hx : x ∈ xs) : ∃ m, SliceHeap.peek xs = some m ∧ x ≤ m := by
  obtain ⟨i, hi, rfl⟩ := Array.mem_iff_getElem.mp hx
  refine ⟨xs[0]'(by omega), ?_, isHeap_root_max h i hi⟩
  unfold SliceHeap.peek
  exact Array.getElem?_eq_getElem (by omega)

/-- Building a heap from a non-empty slice stays in bounds, terminates, permutes the slice, and leaves it in heap
order with the maximum at the root; the empty slice is rejected. -/
theorem C48_new (xs : Array α) :
    (xs = #[] → SliceHeap.new xs = some none) ∧
    (xs ≠ #[] → ∃ ys, SliceHeap.new xs = some (some ys) ∧ ys.Perm xs ∧ IsHeap ys ∧
      ∃ m, SliceHeap.peek ys = some m ∧ m ∈ xs ∧ ∀ x ∈ xs, x ≤ m) := by
  refine ⟨by rintro rfl; rfl, ?_⟩
  intro hne
  have hsz : 0 < xs.size := Array.size_pos_iff.mpr hne
  have key : ∃ ys, heapify xs = some ys ∧ ys.size = xs.size ∧ ys.Perm xs ∧ HeapFrom ys 0 none := by
    unfold heapify
    split
    · refine ⟨xs, rfl, rfl, Array.Perm.refl _, ?_⟩
      intro k c x y _ _ hc hx hy
      rw [Array.getElem?_eq_none (by omega)] at hy; simp at hy
    · apply heapifyFrom_spec _ _ (by omega)
      intro k c x y hk _ hc hx hy
      rw [Array.getElem?_eq_none (by omega)] at hy; simp at hy
  obtain ⟨ys, e1, e2, e3, e4⟩ := key
  have hh := (isHeap_iff ys).mpr e4
  refine ⟨ys, ?_, e3, hh, ys[0]'(by omega), ?_, ?_, ?_⟩
  · unfold SliceHeap.new
    rw [if_neg (by simp [hne]), e1]; rfl
  · exact Array.getElem?_eq_getElem (by omega)
  · exact e3.mem_iff.mp (Array.getElem_mem _)
  · intro x hx
    obtain ⟨i, hi, rfl⟩ := Array.mem_iff_getElem.mp (e3.mem_iff.mpr hx)
    exact isHeap_root_max hh i hi

/-- Updating the root of a heap with any function stays in bounds, terminates, keeps exactly the other elements
together with the updated root, and restores heap order. -/
theorem C48_update_root (xs : Array α) (hne : xs ≠ #[]) (hh : IsHeap xs) (f : α → α) :
    ∃ ys m rest, SliceHeap.updateRoot xs f = some ys ∧ xs.toList = m :: rest ∧ ys.toList.Perm (f m :: rest) ∧ IsHeap ys ∧
      ∃ m', SliceHeap.peek ys = some m' ∧ ∀ y ∈ f m :: rest, y ≤ m' := by
  have hsz : 0 < xs.size := Array.size_pos_iff.mpr hne
  obtain ⟨m, rest, hl⟩ : ∃ m rest, xs.toList = m :: rest := by
    cases hx : xs.toList with
    | nil => exact absurd (Array.toList_eq_nil_iff.mp hx) hne
    | cons m rest => exact ⟨m, rest, rfl⟩
  have h0 : xs[0] = m := by
    rw [← Array.getElem_toList]; simp [hl]
  have hheap := (isHeap_iff xs).mp hh
  obtain ⟨ys, e1, e2, e3, e4⟩ := siftDown_spec (xs.size + 1) (xs.set 0 (f xs[0])) 0 0 (by simp) (Nat.le_refl _)
    (by simpa using hsz)
    (by
      intro k c x y hk hk0 hc hx hy
      have hk0' : k ≠ 0 := by intro h; exact hk0 (by rw [h])
      rw [Array.getElem?_set_ne _ (by omega)] at hx hy
      exact hheap k c x y (Nat.zero_le _) (by simp) hc hx hy)
    (by intro k c x y _ hk; omega)
  have hys := (isHeap_iff ys).mpr e4
  have hperm : ys.toList.Perm (f m :: rest) := by
    have := e3.toList
    rw [Array.toList_set, h0, hl] at this
    simpa using this
  refine ⟨ys, m, rest, ?_, hl, hperm, hys, ?_⟩
  · unfold SliceHeap.updateRoot
    rw [dif_pos hsz]; exact e1
  · have hys0 : 0 < ys.size := by rw [e2]; simpa using hsz
    refine ⟨ys[0], Array.getElem?_eq_getElem hys0, ?_⟩
    intro y hy
    have := hperm.mem_iff.mpr hy
    rw [Array.mem_toList_iff] at this
    obtain ⟨i, hi, rfl⟩ := Array.mem_iff_getElem.mp this
    exact isHeap_root_max hys i hi

/-- After building a heap and any sequence of root updates, the root is the maximum of what is stored; nothing is
ever out of bounds. -/
theorem C48_history (xs : Array α) (hne : xs ≠ #[]) (fs : List (α → α)) :
    ∃ ys zs m, SliceHeap.new xs = some (some ys) ∧ SliceHeap.updates ys fs = some zs ∧ zs.size = xs.size ∧
      SliceHeap.peek zs = some m ∧ m ∈ zs ∧ ∀ z ∈ zs, z ≤ m := by
  obtain ⟨ys, e1, e2, e3, -⟩ := (C48_new xs).2 hne
  have hsz : ys.size = xs.size := e2.size_eq
  have : ∀ (fs : List (α → α)) (ys : Array α), 0 < ys.size → IsHeap ys →
      ∃ zs, SliceHeap.updates ys fs = some zs ∧ zs.size = ys.size ∧ IsHeap zs := by
    intro fs
    induction fs with
    | nil => intro ys _ h; exact ⟨ys, rfl, rfl, h⟩
    | cons f fs ih =>
      intro ys h0 h
      obtain ⟨ws, m, rest, f1, f2, f3, f4, -⟩ := C48_update_root ys (Array.size_pos_iff.mp h0) h f
      have hw : ws.size = ys.size := by
        have a := f3.length_eq
        have b : ys.size = rest.length + 1 := by rw [← Array.length_toList, f2]; simp
        simp only [Array.length_toList, List.length_cons] at a
        omega
      obtain ⟨zs, g1, g2, g3⟩ := ih ws (by omega) f4
      refine ⟨zs, ?_, by omega, g3⟩
      unfold SliceHeap.updates
      rw [f1]; exact g1
  have h0 : 0 < ys.size := by rw [hsz]; exact Array.size_pos_iff.mpr hne
  obtain ⟨zs, g1, g2, g3⟩ := this fs ys h0 e3
  have hz0 : 0 < zs.size := by omega
  refine ⟨ys, zs, zs[0], e1, g1, by omega, Array.getElem?_eq_getElem hz0, Array.getElem_mem _, ?_⟩
  intro z hz
  obtain ⟨i, hi, rfl⟩ := Array.mem_iff_getElem.mp hz
  exact isHeap_root_max g3 i hi

/-- A non-trivial case, with ties and both exits of the sift loop. -/
example : SliceHeap.new #[3, 1, 4, 1, 5, 9, 2, 6] = some (some #[9, 6, 4, 1, 5, 3, 2, 1]) := by decide +kernel

example : (SliceHeap.updates #[9, 6, 4, 3, 5, 1, 2, 1] [fun _ => 0, fun x => x - 3]) = some #[5, 3, 4, 3, 0, 1, 2, 1] := by
  decide +kernel

end Verif.Quant
