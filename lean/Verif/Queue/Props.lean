import Verif.Queue.Lemmas
import Mathlib.Data.List.Induction

/-!
# C01–C04: the search candidate list

`pad` is the value the SIMD tail load puts into unused lanes; it is universally quantified, so no
theorem depends on it.
-/

namespace Verif.Queue

variable {I D : Type} [DecidableEq I] [LinearOrder D]

/-! ## C01 -/

theorem feed_append (pad : D) (q : Queue I D) (xs : List (I × Option D)) (x : I × Option D) :
    feed pad q (xs ++ [x]) = (feed pad q xs).bind fun q => q.insert pad x.1 x.2 := by
  simp only [feed, List.foldlM_append, List.foldlM_cons, List.foldlM_nil]
  cases h : List.foldlM (fun q x => Queue.insert pad q x.1 x.2) q xs <;> simp [bind]
  
theorem comparable_append_some (xs : List (I × Option D)) (i : I) (d : D) :
    comparable (xs ++ [(i, some d)]) = comparable xs ++ [(i, d)] := by
  simp [comparable]

theorem comparable_append_none (xs : List (I × Option D)) (i : I) :
    comparable (xs ++ [(i, none)]) = comparable xs := by
  simp [comparable]

/-- **C01.** Feeding any sequence of candidates into an empty list of fixed capacity `l ≥ 1` never
panics and leaves it storing exactly `bestOf l xs`: the `l` best by distance, NaN ignored, newest
first among equal distances; and iterating over the list yields just that. -/
theorem C01_queue_best_l (pad : D) (l : Nat) (hl : 1 ≤ l) (xs : List (I × Option D)) :
    ∃ q, feed pad (Queue.new l) xs = some q ∧ q.contents = bestOf l xs ∧ q.iter = bestOf l xs := by
  have key : ∃ q, feed pad (Queue.new l) xs = some q ∧ q.contents = bestOf l xs ∧
      Inv q ∧ q.capacity = l ∧ q.auto = false ∧ q.searchL = l := by
    induction xs using List.reverseRecOn with
    | nil => exact ⟨_, rfl, by simp [Queue.contents, Queue.new, bestOf, comparable], new_inv l hl, rfl, rfl, rfl⟩
    | append_singleton xs x ih =>
      obtain ⟨q, h1, h2, h3, h4, h5, h6⟩ := ih
      obtain ⟨i, d⟩ := x
      rw [feed_append, h1]
      simp only [Option.bind_some]
      cases d with
      | none =>
        refine ⟨q, rfl, ?_, h3, h4, h5, h6⟩
        rw [h2]; simp only [bestOf, comparable_append_none]
      | some d =>
        obtain ⟨q', a1, a2, a3, a4, a5, -⟩ := insert_core pad q i d h3.cap h3.size_le h3.sorted
        obtain ⟨q'', b1, b2⟩ := insert_inv pad q h3 i (some d)
        rw [a1] at b1; cases b1
        have hg : grown q = l := by simp [grown, h5, h4]
        refine ⟨q', a1, ?_, b2, by rw [a3, hg], by rw [a4, h5], by rw [a5, h6]⟩
        unfold Queue.contents at h2 ⊢
        rw [a2, List.map_take, contents_orderedInsert, h2, hg]
        simp only [bestOf, comparable_append_some, List.reverse_append, List.reverse_cons,
          List.reverse_nil, List.nil_append, List.cons_append, List.insertionSort_cons]
        rw [take_orderedInsert']
  obtain ⟨q, h1, h2, h3, h4, h5, h6⟩ := key
  refine ⟨q, h1, h2, ?_⟩
  rw [← h2]
  unfold Queue.iter Queue.contents
  have := h3.size_le
  rw [List.take_of_length_le]
  have e : q.entries.length = q.size := rfl
  omega

/-- C01 for the growable list used by paged search: it keeps every comparable candidate, in order;
iterating yields the best `l`. -/
theorem C01_queue_growable (pad : D) (l : Nat) (xs : List (I × Option D)) :
    ∃ q, feed pad (Queue.newAuto l) xs = some q ∧
      q.contents = (comparable xs).reverse.insertionSort (fun a b => a.2 ≤ b.2) ∧
      q.iter = bestOf l xs := by
  have key : ∃ q, feed pad (Queue.newAuto l) xs = some q ∧
      q.contents = (comparable xs).reverse.insertionSort (fun a b => a.2 ≤ b.2) ∧
      Inv q ∧ q.auto = true ∧ q.searchL = l := by
    induction xs using List.reverseRecOn with
    | nil => exact ⟨_, rfl, by simp [Queue.contents, Queue.newAuto, comparable], newAuto_inv l, rfl, rfl⟩
    | append_singleton xs x ih =>
      obtain ⟨q, h1, h2, h3, h5, h6⟩ := ih
      obtain ⟨i, d⟩ := x
      rw [feed_append, h1]
      simp only [Option.bind_some]
      cases d with
      | none =>
        refine ⟨q, rfl, ?_, h3, h5, h6⟩
        rw [h2]; simp only [comparable_append_none]
      | some d =>
        obtain ⟨q', a1, a2, a3, a4, a5, -⟩ := insert_core pad q i d h3.cap h3.size_le h3.sorted
        obtain ⟨q'', b1, b2⟩ := insert_inv pad q h3 i (some d)
        rw [a1] at b1; cases b1
        refine ⟨q', a1, ?_, b2, by rw [a4, h5], by rw [a5, h6]⟩
        have hg : q.size < grown q := by
          have := h3.size_le
          unfold grown
          split
          · omega
          · rename_i hx; simp [h5] at hx; omega
        unfold Queue.contents at h2 ⊢
        rw [a2, List.take_of_length_le (by rw [List.orderedInsert_length]; exact hg),
          contents_orderedInsert, h2]
        simp only [comparable_append_some, List.reverse_append, List.reverse_cons,
          List.reverse_nil, List.nil_append, List.cons_append, List.insertionSort_cons]
  obtain ⟨q, h1, h2, h3, h5, h6⟩ := key
  refine ⟨q, h1, h2, ?_⟩
  unfold bestOf
  rw [← h2]
  unfold Queue.iter Queue.contents
  rw [h6, ← List.map_take]
  congr 1
  have e : q.entries.length = q.size := rfl
  rcases Nat.le_total l q.size with h | h
  · rw [Nat.min_eq_left h]
  · rw [Nat.min_eq_right h, List.take_of_length_le (by omega), List.take_of_length_le (by omega)]

/-- What `bestOf` means, without reference to sorting: the stored list is sorted, has
`min l (number fed)` elements, and together with some rejected candidates, each at least as far as
every stored one, it is a permutation of what was fed. -/
theorem C01_bestOf_meaning (l : Nat) (xs : List (I × Option D)) :
    (bestOf l xs).Pairwise (fun a b => a.2 ≤ b.2) ∧
    (bestOf l xs).length = min l (comparable xs).length ∧
    ∃ rejected, (bestOf l xs ++ rejected).Perm (comparable xs) ∧
      ∀ a ∈ bestOf l xs, ∀ b ∈ rejected, a.2 ≤ b.2 := by
  haveI : Std.Total (fun a b : I × D => a.2 ≤ b.2) := ⟨fun a b => le_total a.2 b.2⟩
  haveI : IsTrans (I × D) (fun a b => a.2 ≤ b.2) := ⟨fun a b c h1 h2 => le_trans (α := D) h1 h2⟩
  have hs := List.pairwise_insertionSort (fun a b : I × D => a.2 ≤ b.2) (comparable xs).reverse
  refine ⟨hs.sublist (List.take_sublist _ _), by simp [bestOf], ?_⟩
  refine ⟨((comparable xs).reverse.insertionSort (fun a b => a.2 ≤ b.2)).drop l, ?_, ?_⟩
  · unfold bestOf
    rw [List.take_append_drop]
    exact (List.perm_insertionSort _ _).trans (List.reverse_perm _)
  · unfold bestOf
    rw [← List.take_append_drop l ((comparable xs).reverse.insertionSort (fun a b => a.2 ≤ b.2)),
      List.pairwise_append] at hs
    exact hs.2.2

/-- Ties: if `new` was fed after `old` at no greater distance (and no candidate was fed twice), then
whenever `old` is stored, `new` is stored too, before it. -/
theorem C01_newest_wins_ties (l : Nat) (xs : List (I × Option D)) (hn : (comparable xs).Nodup)
    (old new : I × D) (h : [old, new].Sublist (comparable xs)) (hle : new.2 ≤ old.2)
    (hold : old ∈ bestOf l xs) : [new, old].Sublist (bestOf l xs) := by
  haveI : Std.Total (fun a b : I × D => a.2 ≤ b.2) := ⟨fun a b => le_total a.2 b.2⟩
  haveI : IsTrans (I × D) (fun a b => a.2 ≤ b.2) := ⟨fun a b c h1 h2 => le_trans (α := D) h1 h2⟩
  have h1 : [new, old].Sublist (comparable xs).reverse := by
    have := h.reverse; simpa using this
  have h2 := List.pair_sublist_insertionSort (r := fun a b : I × D => a.2 ≤ b.2) hle h1
  have hnd : ((comparable xs).reverse.insertionSort (fun a b => a.2 ≤ b.2)).Nodup :=
    (List.perm_insertionSort _ _).nodup_iff.2 (List.nodup_reverse.2 hn)
  unfold bestOf at hold ⊢
  generalize (comparable xs).reverse.insertionSort (fun a b => a.2 ≤ b.2) = s at *
  clear h1 h hn
  -- `old` occurs once in `s`, inside the prefix, and `new` precedes it
  rw [← List.take_append_drop l s] at h2 hnd
  have hnotin : old ∉ s.drop l := fun hd => (List.nodup_append.1 hnd).2.2 _ hold _ hd rfl
  rw [List.sublist_append_iff] at h2
  obtain ⟨a, b, hab, ha, hb⟩ := h2
  have hbnil : b = [] := by
    rcases List.eq_nil_or_concat b with hb0 | ⟨b', x, hb0⟩
    · exact hb0
    · exfalso
      subst hb0
      have : [new, old].getLast? = some x := by rw [hab]; simp
      simp at this
      subst this
      exact hnotin (hb.subset (by simp))
  subst hbnil
  simpa [hab] using ha

/-- Capacity zero is the excluded case: the first insertion panics. -/
theorem C01_zero_capacity_panics (pad : D) (i : I) (d : D) :
    feed pad (Queue.new 0) [(i, some d)] = none := by
  simp [feed, Queue.insert, Queue.new, Queue.size]

example : bestOf 2 ([(1, some 5), (2, none), (3, some 5), (4, some 1), (5, some 9)] : List (Nat × Option Nat))
    = [(4, 1), (3, 5)] := by decide

example : (feed 0 (Queue.new 2) ([(1, some 5), (2, none), (3, some 5), (4, some 1), (5, some 9)] :
    List (Nat × Option Nat))).map Queue.contents = some [(4, 1), (3, 5)] := by decide +kernel

/-! ## C02 -/

/-- The invariant is preserved by every allowed history. -/
theorem run_inv (pad : D) (ops : List (Op I D)) (hok : ∀ op ∈ ops, op.ok = true)
    (s : Queue I D × List I) (h : Inv s.1) : ∃ s', run pad s ops = some s' ∧ Inv s'.1 := by
  induction ops generalizing s with
  | nil => exact ⟨s, rfl, h⟩
  | cons op ops ih =>
    have hstep : ∃ s1, step pad s op = some s1 ∧ Inv s1.1 := by
      cases op with
      | insert id d =>
        obtain ⟨q', h1, h2⟩ := insert_inv pad s.1 h id d
        exact ⟨(q', s.2), by simp [step, h1], h2⟩
      | pop =>
        rcases pop_core s.1 h.toW with ⟨e, hc, hl, he, q', h1, h2, -⟩ | ⟨-, h1⟩
        · exact ⟨(q', s.2 ++ [e.id]), by simp [step, h1], h2⟩
        · exact ⟨(s.1, s.2), by simp [step, h1], h⟩
      | reconfigure l =>
        have := hok (.reconfigure l) (by simp)
        simp only [Op.ok, decide_eq_true_eq] at this
        exact ⟨_, rfl, reconfigure_inv s.1 h l this⟩
      | clear => exact ⟨_, rfl, clear_inv s.1 h⟩
    obtain ⟨s1, h1, h2⟩ := hstep
    obtain ⟨s', h3, h4⟩ := ih (fun o ho => hok o (by simp [ho])) s1 h2
    refine ⟨s', ?_, h4⟩
    rw [← h3]
    simp only [run, List.foldlM_cons, h1]
    rfl

/-- What "offers the best unexpanded candidate" means for one pop `q ↦ (r, q')`. -/
structure GoodPop (q : Queue I D) (r : Option (I × D)) (q' : Queue I D) : Prop where
  /-- nothing is offered exactly when the whole window (the first `searchL` entries) is expanded -/
  none_iff : r = none ↔ ∀ e ∈ q.entries.take q.searchL, e.visited = true
  /-- an offered candidate is stored, unexpanded, in the window, and no unexpanded one is closer;
  its entry (and nothing else) becomes expanded -/
  some_imp : ∀ id d, r = some (id, d) → ∃ i, i < q.searchL ∧ q.entries[i]? = some ⟨id, d, false⟩ ∧
    (∀ e ∈ q.entries, e.visited = false → d ≤ e.dist) ∧
    q'.entries = q.entries.set i ⟨id, d, true⟩
  /-- the stored candidates do not change -/
  same : q'.contents = q.contents

theorem goodPop_of_inv (q : Queue I D) (h : Inv q) : ∃ r q', q.pop = some (r, q') ∧ GoodPop q r q' := by
  have hes : q.entries.length = q.size := rfl
  rcases pop_core q h.toW with ⟨e, hc, hl, he, q', h1, h2, h3, -⟩ | ⟨h0, h1⟩
  · have hvis : e.visited = false := by rw [← he]; exact h.at_cursor hc
    have hee : (⟨e.id, e.dist, false⟩ : Entry I D) = e := by rw [← hvis]
    refine ⟨_, q', h1, ⟨?_, ?_, ?_⟩⟩
    · constructor
      · intro hx; cases hx
      · intro hall
        have := hall e (by
          rw [← he, List.mem_take_iff_getElem]
          exact ⟨q.cursor, by omega, rfl⟩)
        rw [hvis] at this; cases this
    · intro id d heq
      simp only [Option.some.injEq, Prod.mk.injEq] at heq
      obtain ⟨rfl, rfl⟩ := heq
      refine ⟨q.cursor, hl, ?_, ?_, ?_⟩
      · rw [List.getElem?_eq_getElem hc, he, hee]
      · intro x hx hxv
        obtain ⟨i, hi, rfl⟩ := List.getElem_of_mem hx
        rcases Nat.lt_trichotomy i q.cursor with hlt | heq | hgt
        · rw [h.before i hi hlt] at hxv; cases hxv
        · subst heq; rw [he]
        · have := List.pairwise_iff_getElem.1 h.sorted q.cursor i hc hi hgt
          rw [← he]; exact this
      · exact h3
    · unfold Queue.contents
      rw [h3]
      apply List.ext_getElem
      · simp
      · intro i hi1 hi2
        simp only [List.getElem_map, List.getElem_set]
        split
        · rename_i hh; subst hh; simp [he]
        · rfl
  · refine ⟨none, q, h1, ⟨?_, ?_, rfl⟩⟩
    · simp only [true_iff]
      intro e hx
      rw [List.mem_take_iff_getElem] at hx
      obtain ⟨i, hi, rfl⟩ := hx
      exact h.before i (by omega) (by omega)
    · intro id d hx; cases hx

/-- **C02** (partial: the code's `truncate`, `drain_best` and `remove` break it, see below). After
any history of inserts, pops, reconfigurations (to windows of at least one) and clears on a fixed
(`l ≥ 1`) or growable list, nothing has panicked and the next pop offers the closest unexpanded
candidate of the window, reporting none only if the whole window is expanded, marks exactly that
one expanded and does not change what is stored. -/
theorem C02_best_unexpanded_partial (pad : D) (auto : Bool) (l : Nat) (hl : auto = true ∨ 1 ≤ l)
    (ops : List (Op I D)) (hok : ∀ op ∈ ops, op.ok = true) :
    ∃ q popped, run pad (if auto then Queue.newAuto l else Queue.new l, []) ops = some (q, popped) ∧
      ∃ r q', q.pop = some (r, q') ∧ GoodPop q r q' := by
  have h0 : Inv (if auto then Queue.newAuto l else Queue.new l : Queue I D) := by
    cases auto with
    | true => exact newAuto_inv l
    | false => exact new_inv l (by simpa using hl)
  obtain ⟨⟨q, popped⟩, h1, h2⟩ := run_inv pad ops hok (_, []) h0
  exact ⟨q, popped, h1, goodPop_of_inv q h2⟩

/-- invariant for "offered once" -/
structure OnceInv (ops : List (Op I D)) (s : Queue I D × List I) : Prop where
  inv : Inv s.1
  nodup : s.2.Nodup
  ids_nodup : (s.1.entries.map (·.id)).Nodup
  ids_sub : ∀ e ∈ s.1.entries, e.id ∈ insertedIds ops
  popped_sub : ∀ i ∈ s.2, i ∈ insertedIds ops
  fresh : ∀ e ∈ s.1.entries, e.visited = false → e.id ∉ s.2

theorem insertedIds_append (ops : List (Op I D)) (op : Op I D) :
    insertedIds (ops ++ [op]) = match op with
    | .insert id (some _) => insertedIds ops ++ [id]
    | .clear => []
    | _ => insertedIds ops := by
  simp only [insertedIds, List.foldl_append, List.foldl_cons, List.foldl_nil]
  cases op with
  | insert id d => cases d <;> rfl
  | _ => rfl

/-- **C02**, "offered once" part (partial for the same reason). If no id is inserted twice between
clears (the documented caller contract), no candidate is offered twice between clears. -/
theorem C02_offered_once_partial (pad : D) (auto : Bool) (l : Nat) (hl : auto = true ∨ 1 ≤ l)
    (ops : List (Op I D)) (hok : ∀ op ∈ ops, op.ok = true)
    (huniq : ∀ pre, pre <+: ops → (insertedIds pre).Nodup) :
    ∃ q popped, run pad (if auto then Queue.newAuto l else Queue.new l, []) ops = some (q, popped) ∧
      popped.Nodup := by
  have h0 : Inv (if auto then Queue.newAuto l else Queue.new l : Queue I D) := by
    cases auto with
    | true => exact newAuto_inv l
    | false => exact new_inv l (by simpa using hl)
  have key : ∃ s, run pad (if auto then Queue.newAuto l else Queue.new l, []) ops = some s ∧ OnceInv ops s := by
    induction ops using List.reverseRecOn with
    | nil =>
      refine ⟨_, rfl, ⟨h0, by simp, ?_, ?_, by simp, by simp⟩⟩
      · cases auto <;> simp [Queue.new, Queue.newAuto]
      · cases auto <;> simp [Queue.new, Queue.newAuto]
    | append_singleton ops op ih =>
      obtain ⟨s, h1, h2⟩ := ih (fun o ho => hok o (by simp [ho]))
        (fun pre hp => huniq pre (hp.trans (List.prefix_append _ _)))
      have hu := huniq (ops ++ [op]) (List.prefix_refl _)
      rw [insertedIds_append] at hu
      have hrun : run pad (if auto then Queue.newAuto l else Queue.new l, []) (ops ++ [op]) = step pad s op := by
        simp only [run, List.foldlM_append] at h1 ⊢
        rw [h1]
        simp [bind]
      rw [hrun]
      cases op with
      | insert id d =>
        cases d with
        | none =>
          refine ⟨s, by simp [step, Queue.insert], ⟨h2.inv, h2.nodup, h2.ids_nodup, ?_, ?_, h2.fresh⟩⟩
          · simpa only [insertedIds_append] using h2.ids_sub
          · simpa only [insertedIds_append] using h2.popped_sub
        | some d =>
          obtain ⟨q', a1, a2, -⟩ := insert_core pad s.1 id d h2.inv.cap h2.inv.size_le h2.inv.sorted
          obtain ⟨q'', b1, b2⟩ := insert_inv pad s.1 h2.inv id (some d)
          rw [a1] at b1; cases b1
          have hidn : id ∉ insertedIds ops := by
            intro hin
            simp only at hu
            exact (List.nodup_append.1 hu).2.2 _ hin _ (by simp) rfl
          have hmem : ∀ e ∈ q'.entries, e = ⟨id, d, false⟩ ∨ e ∈ s.1.entries := by
            intro e he
            rw [a2] at he
            have := (List.take_sublist _ _).subset he
            rw [List.mem_orderedInsert] at this
            exact this
          refine ⟨(q', s.2), by simp [step, a1], ⟨b2, h2.nodup, ?_, ?_, ?_, ?_⟩⟩
          · have hp : ((s.1.entries.orderedInsert le ⟨id, d, false⟩).map (·.id)).Perm
                (id :: s.1.entries.map (·.id)) := by
              have := (List.perm_orderedInsert le (⟨id, d, false⟩ : Entry I D) s.1.entries).map (·.id)
              simpa using this
            have hnd : ((s.1.entries.orderedInsert le ⟨id, d, false⟩).map (·.id)).Nodup := by
              rw [hp.nodup_iff, List.nodup_cons]
              refine ⟨?_, h2.ids_nodup⟩
              intro hin
              rw [List.mem_map] at hin
              obtain ⟨e, he, rfl⟩ := hin
              exact hidn (h2.ids_sub e he)
            simp only [a2]
            exact hnd.sublist ((List.take_sublist _ _).map _)
          · intro e he
            rw [insertedIds_append]
            rcases hmem e he with rfl | he
            · simp
            · simp [h2.ids_sub e he]
          · intro i hi
            rw [insertedIds_append]
            simp [h2.popped_sub i hi]
          · intro e he hv
            rcases hmem e he with rfl | he
            · intro hin; exact hidn (h2.popped_sub _ hin)
            · exact h2.fresh e he hv
      | pop =>
        rcases pop_core s.1 h2.inv.toW with ⟨e, hc, hll, he, q', c1, c2, c3, -⟩ | ⟨-, c1⟩
        · have hvis : e.visited = false := by rw [← he]; exact h2.inv.at_cursor hc
          have hemem : e ∈ s.1.entries := by rw [← he]; exact List.getElem_mem hc
          have hids : q'.entries.map (·.id) = s.1.entries.map (·.id) := by
            rw [c3]
            apply List.ext_getElem
            · simp
            · intro i hi1 hi2
              simp only [List.getElem_map, List.getElem_set]
              split
              · rename_i hh; subst hh; simp [he]
              · rfl
          refine ⟨(q', s.2 ++ [e.id]), by simp [step, c1], ⟨c2, ?_, ?_, ?_, ?_, ?_⟩⟩
          · rw [List.nodup_append]
            refine ⟨h2.nodup, by simp, ?_⟩
            intro a ha b hb
            simp only [List.mem_singleton] at hb
            subst hb
            intro hab
            subst hab
            exact h2.fresh e hemem hvis ha
          · simp only [hids]; exact h2.ids_nodup
          · intro x hx
            rw [insertedIds_append]
            have : x.id ∈ s.1.entries.map (·.id) := by rw [← hids]; exact List.mem_map_of_mem hx
            rw [List.mem_map] at this
            obtain ⟨y, hy, hxy⟩ := this
            rw [← hxy]; exact h2.ids_sub y hy
          · intro i hi
            rw [insertedIds_append]
            simp only [List.mem_append, List.mem_singleton] at hi
            rcases hi with hi | rfl
            · exact h2.popped_sub i hi
            · exact h2.ids_sub e hemem
          · intro x hx hv
            simp only at hx
            rw [c3] at hx
            obtain ⟨i, hi, hxi⟩ := List.getElem_of_mem hx
            rw [List.getElem_set] at hxi
            split at hxi
            · subst hxi; simp at hv
            · rename_i hne
              simp only [List.length_set] at hi
              subst hxi
              simp only [List.mem_append, List.mem_singleton, not_or]
              refine ⟨h2.fresh _ (List.getElem_mem _) hv, ?_⟩
              intro hid
              apply hne
              have hid' : s.1.entries[i].id = s.1.entries[s.1.cursor].id := hid.trans (by rw [he])
              have := List.nodup_iff_injective_get.1 h2.ids_nodup
                (a₁ := ⟨i, by simpa using hi⟩) (a₂ := ⟨s.1.cursor, by simpa using hc⟩) (by simpa using hid')
              simp only [Fin.mk.injEq] at this
              exact this.symm
        · refine ⟨(s.1, s.2), by simp [step, c1], ⟨h2.inv, h2.nodup, h2.ids_nodup, ?_, ?_, h2.fresh⟩⟩
          · simpa only [insertedIds_append] using h2.ids_sub
          · simpa only [insertedIds_append] using h2.popped_sub
      | reconfigure lnew =>
        have hk := hok (.reconfigure lnew) (by simp)
        simp only [Op.ok, decide_eq_true_eq] at hk
        have hsub : (s.1.reconfigure lnew).entries.Sublist s.1.entries := by
          unfold Queue.reconfigure
          simp only
          split
          · exact List.take_sublist _ _
          · exact List.Sublist.refl _
        refine ⟨_, rfl, ⟨reconfigure_inv s.1 h2.inv lnew hk, h2.nodup, ?_, ?_, ?_, ?_⟩⟩
        · exact h2.ids_nodup.sublist (hsub.map _)
        · intro e he
          simpa only [insertedIds_append] using h2.ids_sub e (hsub.subset he)
        · simpa only [insertedIds_append] using h2.popped_sub
        · intro e he hv; exact h2.fresh e (hsub.subset he) hv
      | clear =>
        refine ⟨_, rfl, ⟨clear_inv s.1 h2.inv, by simp, ?_, ?_, by simp, ?_⟩⟩ <;> simp [Queue.clear]
  obtain ⟨⟨q, popped⟩, h1, h2⟩ := key
  exact ⟨q, popped, h1, h2.nodup⟩

/-- non-vacuity of the C02 hypotheses and a run where a later insert is closer than the popped one -/
example : (run 0 (Queue.new 3, [])
    ([.insert 7 (some 5), .insert 8 (some 9), .pop, .insert 9 (some 1), .pop, .pop, .pop] :
      List (Op Nat Nat))).map (·.2) = some [7, 9, 8] := by decide +kernel

/-- a two-entry list whose first entry was expanded -/
def sample : Queue Nat Nat :=
  { entries := [⟨1, 10, true⟩, ⟨2, 20, true⟩, ⟨3, 30, true⟩], capacity := 3, cursor := 3, auto := true, searchL := 3 }

/-- **C02 fails for `drain_best`** (queue.rs:174–180): it rewinds the cursor without clearing the
expanded flags, so the next pop offers a candidate that was already expanded. `sample` is reachable
(three inserts, three pops). -/
theorem C02_drain_best_reoffers_expanded :
    (∃ popped, run 0 (Queue.newAuto 3, [])
      ([.insert 1 (some 10), .insert 2 (some 20), .insert 3 (some 30), .pop, .pop, .pop] : List (Op Nat Nat))
        = some (sample, popped) ∧ popped = [1, 2, 3]) ∧
    (sample.drainBest 1).pop.map (·.1) = some (some (2, 20)) := by
  constructor
  · refine ⟨_, ?_, rfl⟩
    decide +kernel
  · decide

/-- **C02 fails for `truncate`** (queue.rs:466–474), for the same reason. -/
theorem C02_truncate_reoffers_expanded :
    (sample.truncate 2).pop.map (·.1) = some (some (1, 10)) := by decide

/-- **C02 fails for `retain`** (queue.rs:427–456) when nothing is removed: everything is marked
unexpanded but the cursor is not rewound, so nothing is offered (the doc comment promises that the
cursor is reset to 0). -/
theorem C02_retain_all_offers_nothing :
    (sample.retain fun _ _ => true).entries.map (·.visited) = [false, false, false] ∧
    (sample.retain fun _ _ => true).pop.map (·.1) = some none := by decide

/-! ## C03 -/

/-- **C03** (partial: fails on ties, see the next theorem). On a sorted list, removing a stored
candidate whose distance no *earlier* entry shares removes exactly that entry and reports success. -/
theorem C03_remove_partial (pad : D) (q : Queue I D) (hs : q.entries.Pairwise le) (i : Nat)
    (hi : i < q.entries.length)
    (hfirst : ∀ j (hj : j < q.entries.length), j < i → q.entries[j].dist ≠ q.entries[i].dist) :
    (q.remove pad q.entries[i].id q.entries[i].dist).1 = true ∧
    (q.remove pad q.entries[i].id q.entries[i].dist).2.entries = q.entries.eraseIdx i := by
  have hidx : q.lowerBound pad q.entries[i].dist = i := by
    rw [lowerBound_eq, List.findIdx_eq hi]
    refine ⟨by simp, ?_⟩
    intro j hji
    have h1 := List.pairwise_iff_getElem.1 hs j i (by omega) hi hji
    have h2 := hfirst j (by omega) hji
    simp only [decide_eq_false_iff_not, not_le]
    exact lt_of_le_of_ne h1 h2
  unfold Queue.remove
  rw [if_neg (by simp [Queue.size]; intro h; simp [h] at hi)]
  simp only [hidx, List.getElem?_eq_getElem hi, if_true]
  exact ⟨trivial, trivial⟩

/-- A removal never touches more than one entry, and only one with the given id; when it reports
failure it changes nothing. -/
theorem C03_remove_only (pad : D) (q : Queue I D) (id : I) (d : D) :
    ((q.remove pad id d).1 = false ∧ (q.remove pad id d).2 = q) ∨
    ((q.remove pad id d).1 = true ∧ ∃ i e, q.entries[i]? = some e ∧ e.id = id ∧
      (q.remove pad id d).2.entries = q.entries.eraseIdx i) := by
  unfold Queue.remove
  split
  · left; exact ⟨rfl, rfl⟩
  · simp only
    split
    · rename_i e he
      split
      · rename_i hid
        right; exact ⟨rfl, _, e, he, hid, rfl⟩
      · left; exact ⟨rfl, rfl⟩
    · left; exact ⟨rfl, rfl⟩

/-- **C03 is false of the code**: with two entries at the same distance, removing the second one
reports "not found" and leaves it stored. -/
theorem C03_remove_fails_on_tie :
    let q : Queue Nat Nat :=
      { entries := [⟨1, 5, false⟩, ⟨2, 5, false⟩], capacity := 2, cursor := 0, auto := false, searchL := 2 }
    (⟨2, 5, false⟩ : Entry Nat Nat) ∈ q.entries ∧ (q.remove 0 2 5).1 = false ∧ (q.remove 0 2 5).2 = q := by
  refine ⟨by simp, ?_, ?_⟩ <;>
  simp [Queue.remove, Queue.size, Queue.lowerBound, lowerBoundLoop,
      lowerBoundEight, lowerBoundTail, firstGE, List.findIdx?_cons]

example : ((⟨[⟨1, 5, false⟩, ⟨2, 6, true⟩, ⟨3, 9, false⟩], 3, 1, false, 3⟩ : Queue Nat Nat).remove 0 2 6).2.contents
    = [(1, 5), (3, 9)] := by
  simp [Queue.remove, Queue.size, Queue.lowerBound, lowerBoundLoop,
      lowerBoundEight, lowerBoundTail, firstGE, List.findIdx?_cons, Queue.contents]

/-! ## C04 -/

/-- Take pages of the given sizes off a list: each page is what `iter` would show first, then
`drain_best` consumes it. -/
def pages (q : Queue I D) : List Nat → List (List (I × D)) × Queue I D
  | [] => ([], q)
  | c :: cs =>
    let page := q.contents.take c
    let r := pages (q.drainBest c) cs
    (page :: r.1, r.2)

/-- **C04.** For any sequence of page sizes the pages followed by what is left are exactly the
stored candidates in order: nothing is lost, repeated or reordered; each page has the requested
size as long as enough candidates are left. -/
theorem C04_pages (q : Queue I D) (cs : List Nat) :
    (pages q cs).1.flatten ++ (pages q cs).2.contents = q.contents ∧
    (∀ c rest, cs = c :: rest → ∃ p ps, (pages q cs).1 = p :: ps ∧ p = q.contents.take c ∧
      p.length = min c q.contents.length) := by
  refine ⟨?_, ?_⟩
  · induction cs generalizing q with
    | nil => simp [pages]
    | cons c cs ih =>
      simp only [pages, List.flatten_cons, List.append_assoc, ih]
      have : (q.drainBest c).contents = q.contents.drop c := by
        unfold Queue.contents Queue.drainBest
        simp only [List.map_drop]
        have e : q.size = (q.entries.map fun e => (e.id, e.dist)).length := by simp [Queue.size]
        rw [e]
        rcases Nat.le_total c (q.entries.map fun e => (e.id, e.dist)).length with h | h
        · rw [Nat.min_eq_left h]
        · rw [Nat.min_eq_right h, List.drop_length, List.drop_eq_nil_of_le h]
      rw [this, List.take_append_drop]
  · rintro c rest rfl
    exact ⟨_, _, rfl, rfl, by simp⟩

/-- C04, ordering: on a sorted list, every candidate of a later page is at least as far as every
candidate of an earlier page, and everything left is at least as far as all pages. -/
theorem C04_pages_ordered (q : Queue I D) (hs : q.entries.Pairwise le) (cs : List Nat) :
    (pages q cs).1.flatten.Pairwise (fun a b => a.2 ≤ b.2) ∧
    (pages q cs).1.Pairwise (fun p p' => ∀ a ∈ p, ∀ b ∈ p', a.2 ≤ b.2) ∧
    (∀ a ∈ (pages q cs).1.flatten, ∀ b ∈ (pages q cs).2.contents, a.2 ≤ b.2) := by
  have hc : q.contents.Pairwise (fun a b => a.2 ≤ b.2) := by
    unfold Queue.contents
    rw [List.pairwise_map]
    exact hs
  rw [← (C04_pages q cs).1, List.pairwise_append] at hc
  refine ⟨hc.1, ?_, hc.2.2⟩
  have := hc.1
  rw [List.pairwise_flatten] at this
  exact this.2

example : (pages sample [2, 5]).1 = [[(1, 10), (2, 20)], [(3, 30)]] := by decide

end Verif.Queue
