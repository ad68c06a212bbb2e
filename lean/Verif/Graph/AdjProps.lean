import Verif.Graph.AdjModel
import Mathlib.Data.List.Induction

/-! # C05, C06: adjacency lists and the back-edge buffer -/

namespace Verif.Graph

variable {I : Type} [DecidableEq I]

/-! ### Specification -/

/-- The distinct ids of a sequence in first-seen order, appended to `seen`. -/
def appendNew (seen : List I) : List I → List I
  | [] => seen
  | i :: is => appendNew (if i ∈ seen then seen else seen ++ [i]) is

/-- The public mutations of an adjacency list. -/
inductive AdjOp (I : Type) where
  | push (i : I)
  | extend (is : List I)
  | retain (f : I → Bool)
  | truncate (n : Nat)
  | clear
  | sort
  /-- replace by a list collected from an arbitrary id stream -/
  | fromStream (is : List I)
  /-- bulk overwrite through the resize guard; callers promise distinct ids -/
  | resizeFinish (vals : List I) (n : Nat)
  | resizeAbandon

/-- Meaning of the mutations (model functions). -/
def AdjOp.apply [LinearOrder I] (l : List I) : AdjOp I → List I
  | .push i => (Graph.push l i).1
  | .extend is => (extendFromSlice l is).1
  | .retain f => l.filter f
  | .truncate n => l.take n
  | .clear => []
  | .sort => l.insertionSort (· ≤ ·)
  | .fromStream is => fromIterUntrusted is
  | .resizeFinish vals n => Graph.resizeFinish vals n
  | .resizeAbandon => Graph.resizeAbandon

/-- The caller contract of the bulk overwrite. -/
def AdjOp.ok : AdjOp I → Prop
  | .resizeFinish vals n => (vals.take n).Nodup
  | _ => True

/-! ### Lemmas -/

theorem push_nodup {l : List I} (h : l.Nodup) (i : I) : (push l i).1.Nodup := by
  unfold push
  split
  · exact h
  · rename_i hi
    rw [List.nodup_append]
    refine ⟨h, by simp, ?_⟩
    intro a ha b hb hab
    simp only [List.mem_singleton] at hb
    subst hab; subst hb; exact hi ha

theorem extend_nodup (is : List I) : ∀ {l : List I}, l.Nodup → (extendFromSlice l is).1.Nodup := by
  induction is with
  | nil => intro l h; exact h
  | cons i is ih => intro l h; exact ih (push_nodup h i)

theorem extend_eq (is : List I) : ∀ l : List I, (extendFromSlice l is).1 = appendNew l is := by
  induction is with
  | nil => intro l; rfl
  | cons i is ih =>
    intro l
    simp only [extendFromSlice, appendNew, ih]
    congr 1
    unfold push; split <;> rfl

theorem appendNew_append (is js : List I) : ∀ l, appendNew l (is ++ js) = appendNew (appendNew l is) js := by
  induction is with
  | nil => intro l; rfl
  | cons i is ih => intro l; simp only [List.cons_append, appendNew, ih]

theorem extend_count (is : List I) : ∀ l : List I,
    (extendFromSlice l is).1.length = l.length + (extendFromSlice l is).2 := by
  induction is with
  | nil => intro l; rfl
  | cons i is ih =>
    intro l
    simp only [extendFromSlice, ih]
    unfold push
    split
    · simp
    · simp; omega

theorem extend_prefix (is : List I) : ∀ l : List I, l <+: (extendFromSlice l is).1 := by
  induction is with
  | nil => intro l; exact List.prefix_refl _
  | cons i is ih =>
    intro l
    refine List.IsPrefix.trans ?_ (ih _)
    unfold push
    split
    · exact List.prefix_refl _
    · exact List.prefix_append _ _

theorem mem_appendNew (is : List I) : ∀ (l : List I) (x : I), x ∈ appendNew l is ↔ x ∈ l ∨ x ∈ is := by
  induction is with
  | nil => simp [appendNew]
  | cons i is ih =>
    intro l x
    rw [appendNew, ih]
    split
    · rename_i hi
      simp only [List.mem_cons]
      constructor
      · tauto
      · rintro (h | rfl | h) <;> tauto
    · simp only [List.mem_append, List.mem_singleton, List.mem_cons]; tauto

theorem mem_dedupAdjacent (l : List I) (x : I) : x ∈ dedupAdjacent l ↔ x ∈ l := by
  fun_induction dedupAdjacent l with
  | case1 => rfl
  | case2 => rfl
  | case3 b rest ih => rw [ih]; simp
  | case4 a b rest h ih => simp only [List.mem_cons, ih]

theorem dedupAdjacent_sorted [LinearOrder I] (l : List I) (h : l.Pairwise (· ≤ ·)) :
    (dedupAdjacent l).Pairwise (· < ·) := by
  fun_induction dedupAdjacent l with
  | case1 => simp
  | case2 => simp
  | case3 b rest ih => exact ih (List.pairwise_cons.1 h).2
  | case4 a b rest hab ih =>
    rw [List.pairwise_cons] at h ⊢
    refine ⟨?_, ih h.2⟩
    intro x hx
    rw [mem_dedupAdjacent] at hx
    have hlt : a < b := lt_of_le_of_ne (h.1 b (by simp)) hab
    rcases List.mem_cons.1 hx with rfl | hx
    · exact hlt
    · exact lt_of_lt_of_le hlt ((List.pairwise_cons.1 h.2).1 x hx)

/-! ### C05 -/

/-- **C05.** After any history of public list operations from the empty list (bulk overwrites
supplying distinct ids), no id occurs twice. -/
theorem C05_adjacency_nodup [LinearOrder I] (ops : List (AdjOp I)) (hok : ∀ op ∈ ops, op.ok) :
    (ops.foldl AdjOp.apply []).Nodup := by
  suffices h : ∀ (ops : List (AdjOp I)) (l : List I), l.Nodup → (∀ op ∈ ops, op.ok) →
      (ops.foldl AdjOp.apply l).Nodup from h ops [] List.nodup_nil hok
  intro ops
  induction ops with
  | nil => intro l h _; exact h
  | cons op ops ih =>
    intro l h hok
    refine ih _ ?_ (fun o ho => hok o (by simp [ho]))
    have hop := hok op (by simp)
    cases op with
    | push i => exact push_nodup h i
    | extend is => exact extend_nodup is h
    | retain f => exact h.filter _
    | truncate n => exact h.sublist (List.take_sublist _ _)
    | clear => exact List.nodup_nil
    | sort => exact (List.perm_insertionSort _ _).nodup_iff.2 h
    | fromStream is =>
      exact (dedupAdjacent_sorted _ (List.pairwise_insertionSort _ _)).imp (fun h => ne_of_lt h)
    | resizeFinish vals n => exact hop
    | resizeAbandon => exact List.nodup_nil

/-- C05, reports: push says `true` exactly when the id was new, and then appends it; otherwise it
changes nothing. -/
theorem C05_push (l : List I) (i : I) :
    ((push l i).2 = true ↔ i ∉ l) ∧
    (i ∉ l → (push l i).1 = l ++ [i]) ∧ (i ∈ l → (push l i).1 = l) := by
  unfold push
  by_cases h : i ∈ l <;> simp [h]

/-- C05, bulk extension: the result is the old list followed by the new distinct ids in first-seen
order, and the reported number is exactly how many were appended — so `last(reported)` is precisely
the appended part. -/
theorem C05_extend (l is : List I) :
    (extendFromSlice l is).1 = appendNew l is ∧
    (∀ x, x ∈ (extendFromSlice l is).1 ↔ x ∈ l ∨ x ∈ is) ∧
    ∃ added, (extendFromSlice l is).1 = l ++ added ∧ added.length = (extendFromSlice l is).2 ∧
      last (extendFromSlice l is).1 (extendFromSlice l is).2 = some added ∧
      (∀ x ∈ added, x ∉ l ∧ x ∈ is) ∧ added.Nodup := by
  refine ⟨extend_eq is l, fun x => by rw [extend_eq]; exact mem_appendNew is l x, ?_⟩
  obtain ⟨added, hadd⟩ := extend_prefix is l
  have hc := extend_count is l
  have hlen : added.length = (extendFromSlice l is).2 := by
    rw [← hadd, List.length_append] at hc; omega
  refine ⟨added, hadd.symm, hlen, ?_, ?_⟩
  · rw [← hadd, ← hlen]
    unfold last
    rw [if_pos (by simp)]
    simp
  · -- generalise over the accumulator
    have key : ∀ (is : List I) (l : List I), ∃ added, (extendFromSlice l is).1 = l ++ added ∧
        (∀ x ∈ added, x ∉ l ∧ x ∈ is) ∧ added.Nodup := by
      intro is
      induction is with
      | nil => intro l; exact ⟨[], by simp [extendFromSlice], by simp, by simp⟩
      | cons i is ih =>
        intro l
        simp only [extendFromSlice]
        obtain ⟨ad, h1, h2, h3⟩ := ih (push l i).1
        unfold push at h1 h2 ⊢
        by_cases hi : i ∈ l
        · simp only [hi, if_true] at h1 h2 ⊢
          exact ⟨ad, h1, fun x hx => ⟨(h2 x hx).1, by simp [(h2 x hx).2]⟩, h3⟩
        · simp only [hi, if_false] at h1 h2 ⊢
          refine ⟨i :: ad, by rw [h1]; simp, ?_, ?_⟩
          · intro x hx
            rcases List.mem_cons.1 hx with rfl | hx
            · exact ⟨hi, by simp⟩
            · have := h2 x hx
              simp only [List.mem_append, List.mem_singleton, not_or] at this
              exact ⟨this.1.1, by simp [this.2]⟩
          · rw [List.nodup_cons]
            refine ⟨?_, h3⟩
            intro hin
            have := h2 i hin
            simp at this
    obtain ⟨ad, h1, h2, h3⟩ := key is l
    have : ad = added := by
      have : l ++ ad = l ++ added := by rw [← h1, hadd]
      exact List.append_cancel_left this
    subst this
    exact ⟨h2, h3⟩

/-- C05, construction from an arbitrary id stream keeps exactly the ids of the stream, in
increasing order. -/
theorem C05_from_stream [LinearOrder I] (is : List I) :
    (fromIterUntrusted is).Pairwise (· < ·) ∧ ∀ x, x ∈ fromIterUntrusted is ↔ x ∈ is := by
  refine ⟨dedupAdjacent_sorted _ (List.pairwise_insertionSort _ _), ?_⟩
  intro x
  unfold fromIterUntrusted
  rw [mem_dedupAdjacent, List.mem_insertionSort]

/-- C05, the self-check `all_unique` is exact. -/
theorem C05_all_unique (l : List I) : allUnique l = true ↔ l.Nodup := by
  unfold allUnique
  rw [beq_iff_eq]
  have hc := extend_count l []
  simp only [List.length_nil, Nat.zero_add] at hc
  rw [← hc]
  have key : ∀ (is seen : List I), seen.Nodup →
      ((extendFromSlice seen is).1.length = seen.length + is.length ↔ (seen ++ is).Nodup) := by
    intro is
    induction is with
    | nil => intro seen hs; simp [extendFromSlice, hs]
    | cons i is ih =>
      intro seen hs
      simp only [extendFromSlice]
      unfold push
      by_cases hi : i ∈ seen
      · simp only [hi, if_true]
        have hle : ∀ (is seen : List I), (extendFromSlice seen is).1.length ≤ seen.length + is.length := by
          intro is
          induction is with
          | nil => intro seen; simp [extendFromSlice]
          | cons j js ihj =>
            intro seen
            simp only [extendFromSlice]
            refine Nat.le_trans (ihj _) ?_
            unfold push; split <;> simp <;> omega
        have h1 := hle is seen
        constructor
        · intro h2; simp at h2; omega
        · intro h2
          exfalso
          rw [List.nodup_append] at h2
          exact h2.2.2 i hi i (by simp) rfl
      · simp only [hi, if_false]
        have hn : (seen ++ [i]).Nodup := by
          rw [List.nodup_append]
          refine ⟨hs, by simp, ?_⟩
          intro a ha b hb hab
          simp only [List.mem_singleton] at hb
          subst hab; subst hb; exact hi ha
        have := ih (seen ++ [i]) hn
        simp only [List.length_append, List.length_singleton, List.append_assoc, List.singleton_append] at this
        rw [← this]
        simp; omega
  have := key l [] List.nodup_nil
  simpa using this

example : [AdjOp.extend [3, 1, 3, 2], .push 1, .retain (· ≠ 3), .push 3, .sort].foldl AdjOp.apply ([] : List Nat)
    = [1, 2, 3] := by decide

/-! ### C06 -/

/-- well-formedness of the representation: stored ids are distinct -/
theorem backedge_push (b : Backedge I) (v : I) :
    (b.push v).1.toList = (push b.toList v).1 ∧ (b.push v).2 = (push b.toList v).2 := by
  cases b with
  | none => simp [Backedge.push, Backedge.toList, push]
  | one v0 =>
    by_cases h : v0 = v
    · simp [Backedge.push, Backedge.toList, push, h]
    · have h' : ¬ v = v0 := fun e => h e.symm
      simp [Backedge.push, Backedge.toList, push, h, h']
  | two v0 v1 =>
    simp only [Backedge.push, Backedge.toList, push, List.mem_cons, List.not_mem_nil, or_false]
    by_cases h0 : v = v0 <;> by_cases h1 : v = v1 <;>
      simp [h0, h1, eq_comm, Backedge.toList] <;> grind [Backedge.toList]
  | three v0 v1 v2 =>
    simp only [Backedge.push, Backedge.toList, push, List.mem_cons, List.not_mem_nil, or_false]
    grind [Backedge.toList]
  | four v0 v1 v2 v3 =>
    simp only [Backedge.push, Backedge.toList, push, List.mem_cons, List.not_mem_nil, or_false, resizeFinish]
    grind [Backedge.toList]
  | many l => exact ⟨rfl, rfl⟩

/-- Push a sequence into an empty buffer; returns the buffer and the reported flags. -/
def pushAll (b : Backedge I) : List I → Backedge I × List Bool
  | [] => (b, [])
  | v :: vs =>
    let r := b.push v
    let s := pushAll r.1 vs
    (s.1, r.2 :: s.2)

/-- **C06.** Pushing any sequence into an empty buffer yields exactly the distinct ids in
first-seen order, and the `k`-th push reports `true` exactly when the `k`-th id had not been seen
before — across the change of representation from inline to spilled. -/
theorem C06_backedge_buffer (vs : List I) :
    (pushAll Backedge.none vs).1.toList = appendNew [] vs ∧
    (pushAll Backedge.none vs).2.length = vs.length ∧
    ∀ pre v post, vs = pre ++ v :: post →
      (pushAll Backedge.none vs).2[pre.length]? = some (decide (v ∉ pre)) := by
  have key : ∀ (vs : List I) (b : Backedge I),
      (pushAll b vs).1.toList = appendNew b.toList vs ∧ (pushAll b vs).2.length = vs.length ∧
      ∀ pre v post, vs = pre ++ v :: post →
        (pushAll b vs).2[pre.length]? = some (decide (v ∉ b.toList ∧ v ∉ pre)) := by
    intro vs
    induction vs with
    | nil =>
      intro b
      refine ⟨rfl, rfl, ?_⟩
      intro pre v post h; simp at h
    | cons w ws ih =>
      intro b
      obtain ⟨h1, h2⟩ := backedge_push b w
      obtain ⟨i1, i2, i3⟩ := ih (b.push w).1
      refine ⟨?_, by simp [pushAll, i2], ?_⟩
      · simp only [pushAll, appendNew, i1, h1]
        congr 1
        unfold push; split <;> rfl
      · intro pre v post h
        cases pre with
        | nil =>
          simp only [List.nil_append, List.cons.injEq] at h
          obtain ⟨rfl, rfl⟩ := h
          simp only [pushAll, List.length_nil, List.getElem?_cons_zero, h2]
          unfold push
          by_cases hw : w ∈ b.toList <;> simp [hw]
        | cons p pre =>
          simp only [List.cons_append, List.cons.injEq] at h
          obtain ⟨rfl, rfl⟩ := h
          simp only [pushAll, List.length_cons, List.getElem?_cons_succ]
          rw [i3 pre v post rfl, h1]
          congr 1
          rw [decide_eq_decide]
          unfold push
          by_cases hw : w ∈ b.toList
          · simp only [hw, if_true, List.mem_cons, not_or]
            constructor
            · rintro ⟨ha, hb⟩
              exact ⟨ha, fun e => ha (e ▸ hw), hb⟩
            · rintro ⟨ha, -, hb⟩; exact ⟨ha, hb⟩
          · simp only [hw, if_false, List.mem_append, List.mem_cons, not_or, List.not_mem_nil, not_false_eq_true, and_true]
            tauto
  obtain ⟨k1, k2, k3⟩ := key vs Backedge.none
  refine ⟨k1, k2, ?_⟩
  intro pre v post h
  rw [k3 pre v post h]
  simp [Backedge.toList]

/-- `appendNew` from the empty list: same ids, no duplicates, in order of first occurrence. -/
theorem C06_first_seen_meaning (vs : List I) :
    (appendNew [] vs).Nodup ∧ (∀ x, x ∈ appendNew [] vs ↔ x ∈ vs) ∧ (appendNew [] vs).Sublist vs := by
  refine ⟨?_, ?_, ?_⟩
  · rw [← extend_eq]; exact extend_nodup vs List.nodup_nil
  · intro x; rw [mem_appendNew]; simp
  · have : ∀ (vs pre : List I), ∃ add, appendNew pre vs = pre ++ add ∧ add.Sublist vs := by
      intro vs
      induction vs with
      | nil => intro pre; exact ⟨[], by simp [appendNew], List.Sublist.refl _⟩
      | cons v vs ih =>
        intro pre
        rw [appendNew]
        split
        · obtain ⟨add, h1, h2⟩ := ih pre
          exact ⟨add, h1, h2.cons _⟩
        · obtain ⟨add, h1, h2⟩ := ih (pre ++ [v])
          exact ⟨v :: add, by rw [h1]; simp, h2.cons_cons _⟩
    obtain ⟨add, h1, h2⟩ := this vs []
    rw [h1]; simpa using h2

example : (pushAll Backedge.none [1, 2, 1, 3, 4, 5, 2, 6] : Backedge Nat × List Bool)
    = (.many [1, 2, 3, 4, 5, 6], [true, true, false, true, true, true, false, true]) := by decide

end Verif.Graph
