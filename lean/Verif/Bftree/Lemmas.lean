import Verif.Bftree.Spec
import Mathlib.Tactic.Ring

/-! # Lemmas for C55 -/

namespace Verif.Bftree

theorem leN_length (w n : Nat) : (leN w n).length = w := by
  induction w generalizing n with
  | zero => rfl
  | succ w ih => simp [leN, ih]

theorem ofLeN_leN (w n : Nat) (h : n < 256 ^ w) : ofLeN (leN w n) = n := by
  induction w generalizing n with
  | zero => simp at h; subst h; rfl
  | succ w ih =>
    have : n / 256 < 256 ^ w := by
      rw [pow_succ] at h; omega
    simp only [leN, ofLeN, ih _ this]
    omega

theorem leN_inj {w a b : Nat} (ha : a < 256 ^ w) (hb : b < 256 ^ w) (h : leN w a = leN w b) : a = b := by
  rw [← ofLeN_leN w a ha, ← ofLeN_leN w b hb, h]

theorem castBytes_length (w : Nat) (l : List Nat) : (castBytes w l).length = l.length * w := by
  induction l with
  | nil => simp [castBytes]
  | cons a l ih =>
    have e : castBytes w (a :: l) = leN w a ++ castBytes w l := by simp [castBytes]
    rw [e, List.length_append, ih, leN_length, List.length_cons]; ring

theorem castCells_length (w n : Nat) (b : Bytes) : (castCells w n b).length = n := by
  induction n generalizing b with
  | zero => rfl
  | succ n ih => simp [castCells, ih]

theorem castCells_castBytes_get (w : Nat) (l : List Nat) (r : Bytes) (n i : Nat) (hi : i < l.length)
    (hn : i < n) (hb : l[i] < 256 ^ w) : (castCells w n (castBytes w l ++ r))[i]? = some l[i] := by
  induction n generalizing l i with
  | zero => omega
  | succ n ih =>
    cases l with
    | nil => simp at hi
    | cons a l =>
      have e : castBytes w (a :: l) = leN w a ++ castBytes w l := by simp [castBytes]
      rw [e, castCells, List.append_assoc]
      cases i with
      | zero =>
        simp only [List.getElem?_cons_zero, List.getElem_cons_zero] at hb ⊢
        rw [List.take_append_of_le_length (by rw [leN_length]), List.take_of_length_le (by rw [leN_length]),
          ofLeN_leN _ _ hb]
      | succ i =>
        simp only [List.getElem?_cons_succ, List.getElem_cons_succ] at hb ⊢
        rw [List.drop_append_of_le_length (by rw [leN_length]), List.drop_of_length_le (by rw [leN_length]),
          List.nil_append]
        exact ih l i (by simpa using hi) (by omega) hb

/-! ### The append loop -/

theorem eraseDups_filter_ne (l : List Nat) (a : Nat) (p : Nat → Bool) :
    (l.filter p).filter (fun b => !b == a) = l.filter (fun b => p b && !(b == a)) := by
  rw [List.filter_filter]
  congr 1; funext b; exact Bool.and_comm _ _

theorem newIds_mem {D : Nat} {old : List Nat} {i : Nat} {is : List Nat} (h : i ∈ old) :
    newIds D old (i :: is) = newIds D old is := by
  unfold newIds
  simp [h]

theorem newIds_full {D : Nat} {old new : List Nat} (h : D ≤ old.length) : newIds D old new = [] := by
  unfold newIds
  rw [Nat.sub_eq_zero_of_le h]; rfl

theorem newIds_new {D : Nat} {old : List Nat} {i : Nat} {is : List Nat} (h : i ∉ old)
    (hl : old.length < D) : newIds D old (i :: is) = i :: newIds D (old ++ [i]) is := by
  unfold newIds
  have e : ((i :: is).filter (fun j => !old.contains j)) = i :: is.filter (fun j => !old.contains j) := by
    simp [h]
  rw [e, List.eraseDups_cons, show D - old.length = (D - (old ++ [i]).length) + 1 by simp; omega,
    List.take_succ_cons, List.filter_filter]
  congr 3
  apply List.filter_congr
  intro b _
  by_cases hb : b = i <;> by_cases hc : b ∈ old <;> simp [hb, hc]

theorem appendLoop_spec (D : Nat) (new : List Nat) (l : List Nat) (added : Bool) (hl : l.length ≤ D) :
    appendLoop (D + 1) l added new = (l ++ newIds D l new, added || !(newIds D l new).isEmpty) := by
  induction new generalizing l added with
  | nil => simp [appendLoop, newIds]
  | cons i is ih =>
    rw [appendLoop, Nat.add_sub_cancel]
    split
    · rename_i h
      rw [newIds_full (by omega)]; simp
    · rename_i h
      by_cases hi : i ∈ l
      · simp only [Graph.push, hi, if_true, Bool.or_false]
        rw [ih l added hl, newIds_mem hi]
      · simp only [Graph.push, hi, if_false, Bool.or_true]
        rw [ih _ _ (by simp; omega), newIds_new hi (by omega)]
        simp

theorem newIds_length {D : Nat} {old : List Nat} (new : List Nat) (h : old.length ≤ D) :
    (old ++ newIds D old new).length ≤ D := by
  unfold newIds
  simp only [List.length_append, List.length_take]
  omega

theorem mem_eraseDups' {l : List Nat} {a : Nat} (h : a ∈ l.eraseDups) : a ∈ l := by
  simpa using h

theorem nodup_eraseDups' (n : Nat) (l : List Nat) (h : l.length ≤ n) : l.eraseDups.Nodup := by
  induction n generalizing l with
  | zero => cases l with
    | nil => simp
    | cons a l => simp at h
  | succ n ih =>
    cases l with
    | nil => simp
    | cons a l =>
      rw [List.eraseDups_cons, List.nodup_cons]
      refine ⟨fun hm => ?_, ih _ (le_trans (List.length_filter_le _ _) (by simpa using h))⟩
      simpa using mem_eraseDups' hm

theorem newIds_sub {D : Nat} {old new : List Nat} {i : Nat} (h : i ∈ newIds D old new) : i ∈ new := by
  unfold newIds at h
  have := mem_eraseDups' (List.mem_of_mem_take h)
  exact (List.mem_filter.1 this).1

/-! ### Abstraction -/

/-- A slot holds what the map says: for a list, a full-length record that reads back as that list. -/
def SlotRel (w D : Nat) : Slot → Entry → Prop
  | .absent, .none => True
  | .tomb, .deleted => True
  | .val b, .list l => l.length ≤ D ∧ (∀ i ∈ l, i < 256 ^ w) ∧
      ∃ cells : List Nat, cells.length = D + 1 ∧ b = castBytes w cells ∧ cells.take l.length = l ∧
        cells[D]? = some l.length
  | _, _ => False

def Rel (w D : Nat) (t : Tree) (s : Store) : Prop :=
  ∀ id, id < 256 ^ w → SlotRel w D (t (leN w id)) (s id)

theorem Rel.put {w D : Nat} {t : Tree} {s : Store} (h : Rel w D t s) {id : Nat} (hid : id < 256 ^ w)
    {sl : Slot} {e : Entry} (hr : SlotRel w D sl e) : Rel w D (t.put (leN w id) sl) (s.put id e) := by
  intro j hj
  unfold Tree.put Store.put
  by_cases hji : j = id
  · subst hji; simpa using hr
  · rw [if_neg hji, if_neg (fun h' => hji (leN_inj hj hid h'))]
    exact h j hj

theorem resizeCells_length (l : List Nat) (n : Nat) : (resizeCells l n).length = n := by
  unfold resizeCells
  simp only [List.length_append, List.length_take, List.length_replicate]; omega

theorem getUnlocked_rel {w D : Nat} (hw : 4 ≤ w) (hD : D < 2 ^ 32) {t : Tree} {s : Store}
    (h : Rel w D t s) {id : Nat} (hid : id < 256 ^ w) (prior : List Nat) :
    getUnlocked w (D + 1) t id prior = (s id).read := by
  have hr := h id hid
  unfold getUnlocked
  cases ht : t (leN w id) with
  | absent =>
    rw [ht] at hr
    cases hs : s id with
    | none => rfl
    | deleted => simp [hs, SlotRel] at hr
    | list l => simp [hs, SlotRel] at hr
  | tomb =>
    rw [ht] at hr
    cases hs : s id with
    | none => simp [hs, SlotRel] at hr
    | deleted => rfl
    | list l => simp [hs, SlotRel] at hr
  | val b =>
    rw [ht] at hr
    cases hs : s id with
    | none => simp [hs, SlotRel] at hr
    | deleted => simp [hs, SlotRel] at hr
    | list l =>
      rw [hs] at hr
      obtain ⟨h1, h2, cells, h3, h4, h5, h6⟩ := hr
      have hbl : b.length = (D + 1) * w := by rw [h4, castBytes_length, h3]
      have hbuf : (castBytes w (resizeCells prior (D + 1))).length = (D + 1) * w := by
        rw [castBytes_length, resizeCells_length]
      dsimp only
      rw [if_neg (by omega)]
      have hw32 : (2 : Nat) ^ 32 ≤ 256 ^ w := by
        calc (2 : Nat) ^ 32 = 256 ^ 4 := by norm_num
          _ ≤ 256 ^ w := Nat.pow_le_pow_right (by omega) hw
      have hpos : 0 < (D + 1) * w := Nat.mul_pos (by omega) (by omega)
      unfold decodeRecord
      rw [if_neg (by omega), if_neg (by omega), Nat.add_sub_cancel]
      obtain ⟨hDl, hDv⟩ := List.getElem?_eq_some_iff.1 h6
      have hc : (castCells w (D + 1) (b ++ (castBytes w (resizeCells prior (D + 1))).drop b.length))[D]?
          = some l.length := by
        rw [h4, castCells_castBytes_get w cells _ (D + 1) D hDl (by omega) (by rw [hDv]; omega), hDv]
      rw [hc]
      dsimp only
      have hcl : cellToLen l.length = l.length := by unfold cellToLen; exact Nat.mod_eq_of_lt (by omega)
      rw [hcl, if_neg (by rw [Nat.mod_eq_of_lt hD]; omega)]
      unfold Entry.read Graph.resizeFinish
      congr 1
      apply List.ext_getElem?
      intro i
      by_cases hi : i < l.length
      · rw [List.getElem?_take_of_lt hi]
        have hil : i < cells.length := by omega
        have hv : cells[i] = l[i] := by
          have : (cells.take l.length)[i]? = l[i]? := by rw [h5]
          rw [List.getElem?_take_of_lt hi, List.getElem?_eq_getElem hil, List.getElem?_eq_getElem hi] at this
          exact Option.some.inj this
        rw [h4, castCells_castBytes_get w cells _ (D + 1) i hil (by omega)
          (by rw [hv]; exact h2 _ (List.getElem_mem hi)), hv, List.getElem?_eq_getElem hi]
      · rw [List.getElem?_eq_none (by omega : l.length ≤ i), List.getElem?_eq_none]
        rw [List.length_take]; omega

theorem setInternal_spec {w D : Nat} {t : Tree} {s : Store} (hD : D < 2 ^ 32)
    (h : Rel w D t s) {id : Nat} (hid : id < 256 ^ w) {l : List Nat} (hl : l.length ≤ D)
    (hlb : ∀ i ∈ l, i < 256 ^ w) (buf : List Nat) (ins : Bool) :
    (setInternal w (D + 1) t id l buf ins).2.2.length = buf.length ∧
    if D + 1 ≤ buf.length ∧ ins = true then
      (setInternal w (D + 1) t id l buf ins).1 = .ok () ∧
      Rel w D (setInternal w (D + 1) t id l buf ins).2.1 (s.put id (.list l))
    else
      (setInternal w (D + 1) t id l buf ins).1 = .err ∧
      (setInternal w (D + 1) t id l buf ins).2.1 = t := by
  unfold setInternal
  by_cases hb : buf.length < D + 1
  · rw [if_pos hb, if_neg (by omega)]
    exact ⟨rfl, rfl, rfl⟩
  · rw [if_neg hb, if_neg (by omega)]
    dsimp only
    refine ⟨by simp; omega, ?_⟩
    unfold bftreeInsert
    cases ins with
    | false =>
      rw [if_neg (by simp)]
      exact ⟨rfl, rfl⟩
    | true =>
      rw [if_pos (by simp; omega)]
      refine ⟨rfl, ?_⟩
      simp only [if_true]
      refine h.put hid ⟨hl, hlb, _, ?_, rfl, ?_, ?_⟩
      · simp; omega
      · rw [List.take_take, Nat.min_eq_left (by omega), Nat.add_sub_cancel, List.take_set_of_le (by omega)]
        simp
      · rw [List.getElem?_take_of_lt (by omega), Nat.add_sub_cancel, List.getElem?_set_self (by simp; omega)]
        simp only [lenToCell]
        rw [Nat.mod_eq_of_lt (by omega)]

theorem setNeighbors_spec {w D : Nat} {t : Tree} {s : Store} (hD : D < 2 ^ 32)
    (h : Rel w D t s) {id : Nat} (hid : id < 256 ^ w) {l : List Nat}
    (hlb : ∀ i ∈ l, i < 256 ^ w) (buf : List Nat) (ins : Bool) :
    (setNeighbors w (D + 1) t id l buf ins).2.2.length = buf.length ∧
    if l.length ≤ D ∧ D + 1 ≤ buf.length ∧ ins = true then
      (setNeighbors w (D + 1) t id l buf ins).1 = .ok () ∧
      Rel w D (setNeighbors w (D + 1) t id l buf ins).2.1 (s.put id (.list l))
    else
      (setNeighbors w (D + 1) t id l buf ins).1 = .err ∧
      (setNeighbors w (D + 1) t id l buf ins).2.1 = t := by
  unfold setNeighbors
  rw [Nat.add_sub_cancel]
  by_cases hl : l.length > D
  · rw [if_pos hl, if_neg (by omega)]
    exact ⟨rfl, rfl, rfl⟩
  · rw [if_neg hl]
    have := setInternal_spec hD h hid (by omega : l.length ≤ D) hlb buf ins
    simpa only [show l.length ≤ D by omega, true_and] using this

theorem appendWrite_spec {w D : Nat} {t : Tree} {s : Store} (hD : D < 2 ^ 32)
    (h : Rel w D t s) {id : Nat} (hid : id < 256 ^ w) {cur new : List Nat} (hl : cur.length ≤ D)
    (hcb : ∀ i ∈ cur, i < 256 ^ w) (hlb : ∀ i ∈ new, i < 256 ^ w) (buf : List Nat) (ins : Bool) :
    (appendWrite w (D + 1) t id cur new buf ins).2.2.length = buf.length ∧
    if newIds D cur new = [] then
      (appendWrite w (D + 1) t id cur new buf ins).1 = .ok () ∧
      (appendWrite w (D + 1) t id cur new buf ins).2.1 = t
    else if D + 1 ≤ buf.length ∧ ins = true then
      (appendWrite w (D + 1) t id cur new buf ins).1 = .ok () ∧
      Rel w D (appendWrite w (D + 1) t id cur new buf ins).2.1
        (s.put id (.list (cur ++ newIds D cur new)))
    else
      (appendWrite w (D + 1) t id cur new buf ins).1 = .err ∧
      (appendWrite w (D + 1) t id cur new buf ins).2.1 = t := by
  unfold appendWrite
  rw [appendLoop_spec D new cur false hl]
  dsimp only
  by_cases hn : newIds D cur new = []
  · rw [if_pos hn, if_neg (by simp [hn])]
    exact ⟨rfl, rfl, rfl⟩
  · rw [if_neg hn, if_pos (by simpa using hn)]
    exact setInternal_spec hD h hid (newIds_length new hl)
      (fun i hi => (List.mem_append.1 hi).elim (hcb i) (fun hi => hlb i (newIds_sub hi))) buf ins

/-- The lists of a related map obey the store's bounds. -/
theorem Rel.bounds {w D : Nat} {t : Tree} {s : Store} (h : Rel w D t s) {id : Nat} (hid : id < 256 ^ w)
    {l : List Nat} (hl : (s id).read = .ok l) : l.length ≤ D ∧ ∀ i ∈ l, i < 256 ^ w := by
  have hr := h id hid
  cases hs : s id with
  | none => rw [hs] at hl; cases hl; simp
  | deleted => rw [hs] at hl; cases hl
  | list l' =>
    rw [hs] at hl hr
    cases hl
    cases ht : t (leN w id) with
    | absent => simp [ht, SlotRel] at hr
    | tomb => simp [ht, SlotRel] at hr
    | val b => rw [ht] at hr; exact ⟨hr.1, hr.2.1⟩

theorem Op.run_rel {w D : Nat} (hw : 4 ≤ w) (hD : D < 2 ^ 32) {t : Tree} {s : Store} (h : Rel w D t s)
    (o : Op) (ho : o.fits w) :
    (o.run w (D + 1) t).1 = (o.spec D s).1 ∧ Rel w D (o.run w (D + 1) t).2 (o.spec D s).2 := by
  cases o with
  | set id nbrs buf ins =>
    have := (setNeighbors_spec hD h ho.1 ho.2 buf ins).2
    unfold Op.run Op.spec
    dsimp only
    split at this
    · rename_i hc; rw [if_pos hc]; exact this
    · rename_i hc; rw [if_neg hc]; exact ⟨this.1, by rw [this.2]; exact h⟩
  | append id new buf ins =>
    unfold Op.run Op.spec appendVector
    dsimp only
    rw [getUnlocked_rel hw hD h ho.1]
    cases hs : (s id).read with
    | err => exact ⟨rfl, h⟩
    | panic => cases he : s id <;> rw [he] at hs <;> cases hs
    | ok old =>
      obtain ⟨b1, b2⟩ := h.bounds ho.1 hs
      have := (appendWrite_spec hD h ho.1 b1 b2 ho.2 buf ins).2
      dsimp only
      split at this
      · rename_i hc; rw [if_pos hc]; exact ⟨this.1, by rw [this.2]; exact h⟩
      · rename_i hc
        rw [if_neg hc]
        split at this
        · rename_i hd; rw [if_pos hd]; exact this
        · rename_i hd; rw [if_neg hd]; exact ⟨this.1, by rw [this.2]; exact h⟩
  | delete id tomb =>
    refine ⟨rfl, ?_⟩
    unfold Op.run Op.spec deleteVector
    cases tomb
    · exact h.put ho (sl := .absent) (e := .none) trivial
    · exact h.put ho (sl := .tomb) (e := .deleted) trivial
  | compact id =>
    refine ⟨rfl, ?_⟩
    unfold Op.run Op.spec Bftree.compact
    have hr := h id ho
    dsimp only
    by_cases hs : s id = .deleted
    · rw [if_pos hs, if_pos]
      · exact h.put ho (sl := .absent) (e := .none) trivial
      · rw [hs] at hr
        cases ht : t (leN w id) <;> simp_all [SlotRel]
    · rw [if_neg hs, if_neg]
      · exact h
      · intro ht
        rw [ht] at hr
        cases he : s id <;> simp_all [SlotRel]

theorem runOps_rel {w D : Nat} (hw : 4 ≤ w) (hD : D < 2 ^ 32) (ops : List Op) {t : Tree} {s : Store}
    (h : Rel w D t s) (ho : ∀ o ∈ ops, o.fits w) :
    (runOps w (D + 1) t ops).1 = (specOps D s ops).1 ∧
    Rel w D (runOps w (D + 1) t ops).2 (specOps D s ops).2 := by
  induction ops generalizing t s with
  | nil => exact ⟨rfl, h⟩
  | cons o os ih =>
    have h1 := Op.run_rel hw hD h o (ho o (by simp))
    have h2 := ih h1.2 (fun o' h' => ho o' (by simp [h']))
    simp only [runOps, specOps]
    exact ⟨by rw [h1.1, h2.1], h2.2⟩

theorem rel_empty (w D : Nat) : Rel w D (fun _ => .absent) (fun _ => .none) := fun _ _ => trivial

end Verif.Bftree
