import Verif.Queue.DiverseSpec
import Verif.Queue.History

namespace Verif.Queue

variable {I A D X : Type} [DecidableEq I] [DecidableEq A] [LinearOrder D] [DecidableEq X]

/-! ### Strictly sorted lists -/

abbrev ltd (a b : X × D) : Prop := a.2 < b.2
abbrev led (a b : X × D) : Prop := a.2 ≤ b.2

theorem ext_strict (l1 l2 : List (X × D)) (h1 : l1.Pairwise ltd) (h2 : l2.Pairwise ltd)
    (h : ∀ x, x ∈ l1 ↔ x ∈ l2) : l1 = l2 := by
  have n1 : l1.Nodup := h1.imp (fun hab => by rintro rfl; exact lt_irrefl _ hab)
  have n2 : l2.Nodup := h2.imp (fun hab => by rintro rfl; exact lt_irrefl _ hab)
  have hp : l1.Perm l2 := (List.perm_ext_iff_of_nodup n1 n2).2 h
  haveI : Std.Antisymm (ltd : X × D → X × D → Prop) := ⟨fun a b hab hba => absurd hab (lt_asymm hba)⟩
  exact hp.eq_of_pairwise (fun a b _ _ hab hba => absurd hab (lt_asymm hba)) h1 h2

theorem oi_strict (l : List (X × D)) (h : l.Pairwise ltd) (y : X × D) (hy : ∀ x ∈ l, x.2 ≠ y.2) :
    (l.orderedInsert led y).Pairwise ltd := by
  induction l with
  | nil => simp
  | cons a t ih =>
    rw [List.orderedInsert_cons]
    rw [List.pairwise_cons] at h
    have hya := hy a (by simp)
    split
    · rename_i hle
      have hlt : y.2 < a.2 := lt_of_le_of_ne hle (Ne.symm hya)
      refine List.pairwise_cons.2 ⟨?_, List.pairwise_cons.2 h⟩
      intro b hb
      rcases List.mem_cons.1 hb with rfl | hb
      · exact hlt
      · exact lt_trans (b := a.2) hlt (h.1 b hb)
    · rename_i hle
      refine List.pairwise_cons.2 ⟨?_, ih h.2 (fun x hx => hy x (by simp [hx]))⟩
      intro b hb
      rw [List.mem_orderedInsert] at hb
      rcases hb with rfl | hb
      · exact lt_of_not_ge hle
      · exact h.1 b hb

theorem oi_append (m : List (X × D)) (y z : X × D) (hy : y.2 ≤ z.2) :
    (m ++ [z]).orderedInsert led y = m.orderedInsert led y ++ [z] := by
  induction m with
  | nil => simp [List.orderedInsert, hy]
  | cons a t ih =>
    simp only [List.cons_append, List.orderedInsert_cons]
    split
    · rfl
    · rw [ih]; rfl

/-- The list with its member `w` taken out. -/
abbrev without (l : List (X × D)) (w : X × D) : List (X × D) := l.filter (fun x => decide (x ≠ w))

theorem without_last (m : List (X × D)) (z : X × D) (h : (m ++ [z]).Pairwise ltd) : without (m ++ [z]) z = m := by
  rw [List.pairwise_append] at h
  rw [without, List.filter_append]
  have h1 : m.filter (fun x => decide (x ≠ z)) = m := by
    rw [List.filter_eq_self]
    intro x hx
    have := h.2.2 x hx z (by simp)
    simp only [decide_eq_true_eq]
    rintro rfl
    exact lt_irrefl _ this
  rw [h1]; simp

/-- Inserting a closer candidate into a full list drops the last one. -/
theorem oi_full (l : List (X × D)) (h : l.Pairwise ltd) (n : Nat) (hn : l.length = n) (z y : X × D)
    (hz : l[n - 1]? = some z) (hy : y.2 ≤ z.2) :
    (l.orderedInsert led y).take n = (without l z).orderedInsert led y ∧ z ∈ l := by
  have hne : l ≠ [] := by rintro rfl; simp at hz
  obtain ⟨m, z', rfl⟩ : ∃ m z', l = m ++ [z'] := ⟨l.dropLast, l.getLast hne, (List.dropLast_append_getLast hne).symm⟩
  have hzz : z' = z := by
    simp only [List.length_append, List.length_cons, List.length_nil] at hn
    rw [show n - 1 = m.length by omega] at hz
    simpa using hz
  subst hzz
  refine ⟨?_, by simp⟩
  rw [without_last m z' h, oi_append m y z' hy]
  have : (m.orderedInsert led y).length = n := by
    rw [List.orderedInsert_length]; simpa using hn
  rw [← this, List.take_left]

theorem perm_without (l : List (X × D)) (h : l.Pairwise ltd) (w : X × D) (hw : w ∈ l) : l.Perm (w :: without l w) := by
  have n1 : l.Nodup := h.imp (fun hab => by rintro rfl; exact lt_irrefl _ hab)
  rw [List.perm_ext_iff_of_nodup n1]
  · intro x
    simp only [List.mem_cons, without, List.mem_filter, decide_eq_true_eq]
    constructor
    · intro hx
      by_cases hxw : x = w
      · exact Or.inl hxw
      · exact Or.inr ⟨hx, hxw⟩
    · rintro (rfl | ⟨hx, -⟩)
      · exact hw
      · exact hx
  · rw [List.nodup_cons]
    exact ⟨by simp [without], n1.sublist List.filter_sublist⟩

/-- `remove` of a member of a strictly sorted list takes out exactly that member. -/
theorem remove_strict (l : List (X × D)) (h : l.Pairwise ltd) (w : X × D) (hw : w ∈ l) :
    ∃ x, l[l.findIdx fun x => decide (w.2 ≤ x.2)]? = some x ∧ x.1 = w.1 ∧
      l.eraseIdx (l.findIdx fun x => decide (w.2 ≤ x.2)) = without l w := by
  induction l with
  | nil => cases hw
  | cons a t ih =>
    rw [List.pairwise_cons] at h
    by_cases ha : w.2 ≤ a.2
    · have hwa : w = a := by
        rcases List.mem_cons.1 hw with rfl | hwt
        · rfl
        · exact absurd (h.1 w hwt) (not_lt.2 ha)
      subst hwa
      have hf : (w :: t).findIdx (fun x => decide (w.2 ≤ x.2)) = 0 := by
        rw [List.findIdx_cons]; simp
      rw [hf]
      refine ⟨w, rfl, rfl, ?_⟩
      simp only [List.eraseIdx_zero, List.tail_cons, without, List.filter_cons]
      simp only [ne_eq, not_true_eq_false, decide_false, Bool.false_eq_true, if_false]
      symm
      rw [List.filter_eq_self]
      intro x hx
      have := h.1 x hx
      simp only [decide_eq_true_eq]
      rintro rfl
      exact lt_irrefl _ this
    · have hne : a ≠ w := by rintro rfl; exact ha (le_refl _)
      have hwt : w ∈ t := by
        rcases List.mem_cons.1 hw with rfl | hwt
        · exact absurd rfl hne
        · exact hwt
      obtain ⟨x, h1, h2, h3⟩ := ih h.2 hwt
      have hf : (a :: t).findIdx (fun x => decide (w.2 ≤ x.2)) = t.findIdx (fun x => decide (w.2 ≤ x.2)) + 1 := by
        rw [List.findIdx_cons]; simp [ha]
      rw [hf]
      refine ⟨x, by simpa using h1, h2, ?_⟩
      rw [List.eraseIdx_cons_succ, h3]
      simp [without, hne]

/-! ### Single queue operations -/

theorem insert_spec (pad : D) (q : Queue X D) (h : BInv q) (ha : q.auto = false) (id : X) (d : D) :
    ∃ q', q.insert pad id (some d) = some q' ∧ BInv q' ∧
      q'.contents = (q.contents.orderedInsert led (id, d)).take q.capacity ∧
      q'.capacity = q.capacity ∧ q'.auto = false ∧ q'.searchL = q.searchL := by
  obtain ⟨q', h1, h2, h3⟩ := fstep_view pad q h (.insert id (some d)) rfl
  obtain ⟨q'', h4, -, -, -, h5, -⟩ := insert_core pad q id d h.cap h.size_le h.sorted
  simp only [fstep] at h1
  rw [h1] at h4
  obtain rfl := Option.some.inj h4
  simp only [Queue.view, View.step, ha, Bool.false_and, Bool.false_eq_true, if_false, View.mk.injEq] at h3
  exact ⟨q', h1, h2, h3.1, h3.2.1, h3.2.2, h5⟩

theorem remove_searchL (pad : D) (q : Queue X D) (id : X) (d : D) : (q.remove pad id d).2.searchL = q.searchL := by
  unfold Queue.remove
  split
  · rfl
  · simp only
    split
    · split <;> rfl
    · rfl

theorem remove_bspec (pad : D) (q : Queue X D) (h : BInv q) (id : X) (d : D) :
    BInv (q.remove pad id d).2 ∧ (q.remove pad id d).2.capacity = q.capacity ∧
      (q.remove pad id d).2.auto = q.auto ∧ (q.remove pad id d).2.searchL = q.searchL := by
  obtain ⟨q', h1, h2, h3⟩ := fstep_view pad q h (.remove id d) rfl
  simp only [fstep, Option.some.injEq] at h1
  subst h1
  refine ⟨h2, ?_, ?_, remove_searchL pad q id d⟩
  · have := congrArg View.capacity h3
    simp only [Queue.view, View.step] at this
    rw [this]; split <;> (try split) <;> rfl
  · have := congrArg View.auto h3
    simp only [Queue.view, View.step] at this
    rw [this]; split <;> (try split) <;> rfl

theorem remove_contents (pad : D) (q : Queue X D) (h : BInv q) (hs : q.contents.Pairwise ltd) (w : X × D)
    (hw : w ∈ q.contents) : (q.remove pad w.1 w.2).2.contents = without q.contents w := by
  obtain ⟨q', h1, h2, h3⟩ := fstep_view pad q h (.remove w.1 w.2) rfl
  simp only [fstep, Option.some.injEq] at h1
  subst h1
  have := congrArg View.stored h3
  obtain ⟨x, hx1, hx2, hx3⟩ := remove_strict q.contents hs w hw
  simp only [Queue.view, View.step, hx1, hx2, if_true] at this
  rw [this, hx3]

/-- Taking out a candidate and then inserting a closer one keeps the search invariant. -/
theorem remove_insert_inv (pad : D) (q : Queue X D) (h : Inv q) (ha : q.auto = false) (w id : X) (dw d : D)
    (hd : d < dw) : ∃ q', (q.remove pad w dw).2.insert pad id (some d) = some q' ∧ Inv q' := by
  have hb : BInv q := ⟨h.sorted, h.cap, h.size_le, h.cursor_le⟩
  have hbr := (remove_bspec pad q hb w dw).1
  unfold Queue.remove at hbr ⊢
  split
  · exact insert_inv pad q h id (some d)
  · rename_i hne
    rw [if_neg hne] at hbr
    simp only at hbr ⊢
    cases he : q.entries[q.lowerBound pad dw]? with
    | none => exact insert_inv pad q h id (some d)
    | some e =>
      rw [he] at hbr
      simp only at hbr ⊢
      split
      · rename_i hid
        rw [if_pos hid] at hbr
        set r := q.lowerBound pad dw with hr
        have hlt : r < q.entries.length := by
          by_contra hc
          rw [List.getElem?_eq_none (by omega)] at he
          cases he
        have hrf : r = q.entries.findIdx (fun e => decide (dw ≤ e.dist)) := by rw [hr, lowerBound_eq]
        have hge : ∀ i (hi : i < q.entries.length), r ≤ i → dw ≤ q.entries[i].dist := by
          intro i hi hri
          have h0 : dw ≤ q.entries[r].dist := by
            have := List.findIdx_getElem (xs := q.entries) (p := fun e => decide (dw ≤ e.dist)) (w := hrf ▸ hlt)
            simpa [hrf] using this
          rcases Nat.eq_or_lt_of_le hri with rfl | hlt'
          · exact h0
          · exact le_trans h0 (List.pairwise_iff_getElem.1 h.sorted r i hlt hi hlt')
        have hel : (q.entries.eraseIdx r).length = q.size - 1 := List.length_eraseIdx_of_lt hlt
        have hes : q.entries.length = q.size := rfl
        by_cases hrc : q.cursor < r
        · rw [if_neg (by omega)] at hbr ⊢
          refine insert_inv pad _ ⟨hbr.sorted, hbr.cap, hbr.size_le, hbr.cursor_le, ?_, ?_⟩ id (some d)
          · intro i hi hic
            simp only at hi hic ⊢
            rw [List.getElem_eraseIdx_of_lt _ (by omega)]
            exact h.before i (by omega) hic
          · intro hi
            simp only at hi ⊢
            rw [List.getElem_eraseIdx_of_lt _ (by omega)]
            exact h.at_cursor (by omega)
        · set q1 : Queue X D := { q with
            entries := q.entries.eraseIdx r
            cursor := if r < q.cursor ∧ q.cursor > 0 then q.cursor - 1 else q.cursor } with hq1
          have hq1e : q1.entries = q.entries.eraseIdx r := rfl
          have hcur : r ≤ q1.cursor ∧ q1.cursor ≤ q.cursor ∧ (r < q.cursor → q1.cursor = q.cursor - 1) := by
            simp only [hq1]; split <;> omega
          obtain ⟨q', i1, i2, i3, i4, i5, i6⟩ := insert_core pad q1 id d hbr.cap hbr.size_le hbr.sorted
          refine ⟨q', i1, ?_⟩
          set k := q1.entries.findIdx (fun e => decide (d ≤ e.dist)) with hk
          have hq1l : q1.entries.length = q.size - 1 := hel
          have hkr : k ≤ r := by
            by_contra hc
            have hkl : k ≤ q1.entries.length := by rw [hk]; exact List.findIdx_le_length
            have hrl : r < q1.entries.length := by omega
            have := List.not_of_lt_findIdx (xs := q1.entries) (p := fun e => decide (d ≤ e.dist)) (i := r)
              (by rw [← hk]; omega)
            simp only [decide_eq_false_iff_not, Bool.not_eq_true] at this
            apply this
            show d ≤ ((q.entries.eraseIdx r)[r]'(by omega)).dist
            rw [List.getElem_eraseIdx_of_ge _ (Nat.le_refl _)]
            exact le_trans (le_of_lt hd) (hge (r + 1) (by omega) (by omega))
          have hgr : grown q1 = q.capacity := by
            unfold grown
            have : q1.auto = false := ha
            simp [this]
            rfl
          have hkl : k ≤ q1.entries.length := by rw [hk]; exact List.findIdx_le_length
          have hsz := h.size_le
          have hq'l : q'.entries.length = q.size := by
            rw [i2, List.length_take, List.orderedInsert_length, hgr, hq1l]; omega
          have hcur' : q'.cursor = k := by
            rcases i6 with ⟨i6, -⟩ | ⟨i6, -⟩
            · exfalso
              have := congrArg List.length i6
              omega
            · rw [i6]; omega
          have hget : ∀ c, c < q.capacity → q'.entries[c]? =
              if c < k then q1.entries[c]? else if c = k then some ⟨id, d, false⟩ else q1.entries[c-1]? := by
            intro c hc
            rw [i2, List.getElem?_take, hgr, if_pos hc, orderedInsert_getElem?]
          refine ⟨?_, ?_, ?_, ?_, ?_, ?_⟩
          · rw [i2]
            have : (q1.entries.orderedInsert le ⟨id, d, false⟩).Pairwise le := by
              haveI : Std.Total (le : Entry X D → Entry X D → Prop) := ⟨fun a b => le_total a.dist b.dist⟩
              haveI : IsTrans (Entry X D) le := ⟨fun a b c h1 h2 => le_trans (α := D) h1 h2⟩
              exact List.Pairwise.orderedInsert _ _ hbr.sorted
            exact this.sublist (List.take_sublist _ _)
          · right; rw [i3, hgr]
            rcases h.cap with hx | hx
            · rw [ha] at hx; cases hx
            · exact hx
          · show q'.entries.length ≤ _
            rw [hq'l, i3, hgr]; exact hsz
          · show _ ≤ q'.entries.length
            rw [hq'l, hcur']; omega
          · intro i hi hic
            rw [hcur'] at hic
            have hg := hget i (by omega)
            rw [if_pos hic, List.getElem?_eq_getElem hi, List.getElem?_eq_getElem (by omega)] at hg
            rw [Option.some.inj hg]
            have hi1 : i < q1.entries.length := by omega
            show ((q.entries.eraseIdx r)[i]'(by omega)).visited = true
            rw [List.getElem_eraseIdx_of_lt _ (by omega)]
            exact h.before i (by omega) (by omega)
          · intro hi
            have hg := hget q'.cursor (by omega)
            rw [if_neg (by omega), if_pos hcur', List.getElem?_eq_getElem hi] at hg
            rw [Option.some.inj hg]
      · exact insert_inv pad q h id (some d)

end Verif.Queue
