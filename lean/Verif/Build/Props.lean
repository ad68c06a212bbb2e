import Verif.Build.Lemmas
import Verif.Graph.SaturateProps

/-!
# C101: the one-shot build of a disk index

`St.run rows (St.new V capacity n) sched` is any interleaving of the `n` tasks that insert the rows of the data file;
`PSt.run …` any interleaving of the tasks of the final prune. The specification is in `Spec.lean`: `numbered rows` are
the rows with their numbers, `Pruned` what the prune makes of a list.
-/

namespace Verif.Build

open Verif.Graph Verif.AsyncTools

theorem le_sum {l : List Nat} {x : Nat} (h : x ∈ l) : x ≤ l.sum := by
  induction l with
  | nil => simp at h
  | cons y l ih =>
    rw [List.sum_cons]
    rcases List.mem_cons.1 h with rfl | h
    · omega
    · have := ih h; omega

/-! ## Insertion -/

/-- When the build reports success, the first `capacity` rows of the data file have been inserted, each exactly once and
under its own number, whatever the schedule and the number of tasks. -/
theorem C101_inserted {V : Type} (rows : List V) (capacity n : Nat) (hn : 0 < n) (sched : List (Nat × Bool))
    (h : ((St.new V capacity n).run rows sched).success) :
    ((St.new V capacity n).run rows sched).inserted.Perm (numbered (rows.take capacity)) := by
  have inv := inv_run (inv_new rows capacity n hn) sched
  generalize (St.new V capacity n).run rows sched = s at *
  have hf : Task.failed ∉ s.tasks := fun hm => by cases h _ hm
  have h0 : (s.tasks.map Task.left).sum = 0 := by
    apply List.sum_eq_zero
    intro x hx
    obtain ⟨t, ht, rfl⟩ := List.mem_map.1 hx
    rw [h t ht]; rfl
  have h1 : s.tasks.filterMap Task.item = [] := by
    rw [List.filterMap_eq_nil_iff]
    intro t ht
    rw [h t ht]; rfl
  have h2 : s.failures = [] := by
    by_contra hne
    exact hf (inv.fail.1 hne)
  have h3 := inv.perm
  rw [h1, h2, List.append_nil, List.append_nil] at h3
  have h4 : rows.take s.next = rows.take capacity := by
    have b1 := inv.le
    have b2 := inv.bound
    rcases inv.all with e | e | e
    · rw [e, List.take_of_length_le (by omega), List.take_of_length_le (by omega)]
    · rw [show s.next = capacity by omega]
    · exact absurd e hf
  rw [← h4]
  exact h3.symm

example : ((St.new Nat 4 2).run [70, 80, 90, 95, 99]
      [(1, true), (0, true), (0, true), (0, true), (1, true), (0, true), (0, true), (1, true), (1, true), (1, true)]).success ∧
    ((St.new Nat 4 2).run [70, 80, 90, 95, 99]
      [(1, true), (0, true), (0, true), (0, true), (1, true), (0, true), (0, true), (1, true), (1, true), (1, true)]).inserted =
      [(1, 80), (0, 70), (2, 90), (3, 95)] := by
  unfold St.success; decide +kernel

/-- At every moment of every schedule, also when the build stops with an error: what has been inserted are rows of the
file under their own numbers, none twice, and rows that are not inserted were not reached, are being inserted by one of
the tasks or failed. -/
theorem C101_never_twice {V : Type} (rows : List V) (capacity n : Nat) (hn : 0 < n) (sched : List (Nat × Bool)) :
    (((St.new V capacity n).run rows sched).inserted.map (·.1)).Nodup ∧
    (∀ x ∈ ((St.new V capacity n).run rows sched).inserted, x.1 < capacity ∧ rows[x.1]? = some x.2) ∧
    ∃ k lost, (numbered (rows.take k)).Perm (((St.new V capacity n).run rows sched).inserted ++ lost) ∧
      lost.length ≤ n := by
  have inv := inv_run (inv_new rows capacity n hn) sched
  have hlen : ((St.new V capacity n).run rows sched).tasks.length = n := by
    have key : ∀ (sched : List (Nat × Bool)) (s : St V), (s.run rows sched).tasks.length = s.tasks.length := by
      intro sched
      induction sched with
      | nil => intro s; rfl
      | cons x xs ih =>
        intro s
        refine (ih (s.step rows x)).trans ?_
        unfold St.step
        cases s.tasks[x.1]? with
        | none => rfl
        | some t =>
          dsimp only
          unfold St.move
          split <;> (try split) <;> (try split) <;> simp
    rw [key]
    simp [St.new, partitionIter]
  have hfl : ∀ (sched : List (Nat × Bool)) (s : St V),
      s.failures.length = (s.tasks.filter fun t => t matches .failed).length →
      (s.run rows sched).failures.length = ((s.run rows sched).tasks.filter fun t => t matches .failed).length := by
    intro sched
    induction sched with
    | nil => intro s h; exact h
    | cons x xs ih =>
      intro s h
      refine ih (s.step rows x) ?_
      unfold St.step
      cases ht : s.tasks[x.1]? with
      | none => exact h
      | some t =>
        obtain ⟨a, b, hab, -, hset⟩ := split_at ht
        rw [hab] at h
        match t with
        | .done => simpa [St.move, hab] using h
        | .failed => simpa [St.move, hab] using h
        | .idle 0 => simp only [St.move, hset]; simpa using h
        | .idle (left + 1) =>
          simp only [St.move]
          cases rows[s.next]? with
          | none => dsimp only; rw [hset]; simpa using h
          | some v =>
            dsimp only
            split <;> simp only [hset] <;> simp at h ⊢ <;> omega
        | .busy i v left =>
          simp only [St.move]
          split <;> simp only [hset] <;> simp at h ⊢ <;> omega
  have hfl' := hfl sched (St.new V capacity n) (by
    simp [St.new, List.filter_map, Function.comp_def])
  generalize (St.new V capacity n).run rows sched = s at *
  have hnum : ((numbered (rows.take s.next)).map (·.1)) = List.range s.next := by
    unfold numbered
    rw [List.map_fst_zip (by simp)]
    congr 1
    have := inv.le
    simp; omega
  have hsub : ∀ x ∈ s.inserted, x ∈ numbered (rows.take s.next) := by
    intro x hx
    exact inv.perm.mem_iff.2 (by simp [hx])
  refine ⟨?_, ?_, s.next, s.failures ++ s.tasks.filterMap Task.item, ?_, ?_⟩
  · have h1 := (inv.perm.map (·.1)).nodup_iff.1 (by rw [hnum]; exact List.nodup_range)
    rw [List.map_append, List.map_append] at h1
    exact (List.nodup_append.1 (List.nodup_append.1 h1).1).1
  · intro x hx
    obtain ⟨i, v⟩ := x
    have hm := hsub _ hx
    unfold numbered at hm
    obtain ⟨k, hk, e⟩ := List.mem_iff_getElem.1 hm
    have e' : k = i ∧ (rows.take s.next)[k]'(by simp at hk ⊢; omega) = v := by
      simpa using e
    obtain ⟨rfl, e'⟩ := e'
    have hk' : k < s.next ∧ k < rows.length := by simp at hk; omega
    have hb := inv.bound
    refine ⟨by dsimp only; omega, ?_⟩
    rw [← e', List.getElem_take]
    exact List.getElem?_eq_getElem hk'.2
  · rw [← List.append_assoc]; exact inv.perm
  · rw [List.length_append, hfl', ← hlen]
    generalize s.tasks = l
    induction l with
    | nil => simp
    | cons t l ih =>
      cases t <;> simp [Task.item, List.filterMap_cons] at ih ⊢ <;> omega

example : ((St.new Nat 4 2).run [70, 80, 90, 95, 99] [(1, true), (0, true), (0, true), (0, true), (1, false)]).inserted =
    [(1, 80)] ∧ ((St.new Nat 4 2).run [70, 80, 90, 95, 99]
      [(1, true), (0, true), (0, true), (0, true), (1, false)]).error := by
  unfold St.error; decide +kernel

/-- The build ends: a task that gets two steps for each row of its partition and one more has ended, whatever the other
tasks do. If all of them have, the outcome is success or an error. -/
theorem C101_ends {V : Type} (rows : List V) (capacity n : Nat) (sched : List (Nat × Bool))
    (h : ∀ j < n, 2 * capacity + 1 ≤ picks (·.1) j sched) :
    ((St.new V capacity n).run rows sched).success ∨ ((St.new V capacity n).run rows sched).error := by
  by_cases he : ((St.new V capacity n).run rows sched).error
  · exact Or.inr he
  · left
    intro t ht
    obtain ⟨j, hj, rfl⟩ := List.mem_iff_getElem.1 ht
    have hf := fuel_run rows sched (St.new V capacity n) j
    rw [List.getElem?_eq_getElem hj] at hf
    have hle : (((St.new V capacity n).tasks[j]?).map Task.fuel).getD 0 ≤ 2 * capacity + 1 := by
      cases ht : (St.new V capacity n).tasks[j]? with
      | none => simp
      | some t =>
        have hm : t ∈ (St.new V capacity n).tasks := List.mem_of_getElem? ht
        simp only [St.new, List.mem_map] at hm
        obtain ⟨r, hr, rfl⟩ := hm
        have hn : 0 < n := by
          rcases Nat.eq_zero_or_pos n with rfl | h
          · simp [partitionIter] at hr
          · exact h
        have h1 := sum_partition capacity n hn
        have h2 : r.2 - r.1 ≤ ((partitionIter capacity n).map fun r => r.2 - r.1).sum :=
          le_sum (List.mem_map.2 ⟨r, hr, rfl⟩)
        simp [Task.fuel]; omega
    have h0 : Task.fuel ((St.new V capacity n).run rows sched).tasks[j] = 0 := by
      simp at hf
      by_cases hjn : j < n
      · have := h j hjn; omega
      · have : (St.new V capacity n).tasks[j]? = none := by
          simp [St.new, partitionIter]; omega
        rw [this] at hf; simpa using hf
    cases e : ((St.new V capacity n).run rows sched).tasks[j] with
    | idle l => rw [e] at h0; simp [Task.fuel] at h0
    | busy i v l => rw [e] at h0; simp [Task.fuel] at h0
    | done => rfl
    | failed => exact absurd (show Task.failed ∈ _ from e ▸ List.getElem_mem hj) he

example : ∀ j < 2, 2 * 1 + 1 ≤ picks (·.1) j [(0, true), (1, true), (1, false), (0, true), (1, true), (0, true)] := by
  decide +kernel

/-- Nothing fails by itself: if every insertion of the schedule succeeds and the row numbers fit 32 bits, there is no
error. -/
theorem C101_no_error {V : Type} (rows : List V) (capacity n : Nat) (hr : min capacity rows.length ≤ 2 ^ 32) (hn : 0 < n)
    (sched : List (Nat × Bool)) (h : ∀ x ∈ sched, x.2 = true) : ¬((St.new V capacity n).run rows sched).error := by
  have key : ∀ (sched : List (Nat × Bool)) (s : St V), Inv rows capacity s → (∀ x ∈ sched, x.2 = true) → ¬s.error →
      ¬(s.run rows sched).error := by
    intro sched
    induction sched with
    | nil => intro s _ _ h; exact h
    | cons x xs ih =>
      intro s hi hs he
      refine ih (s.step rows x) (inv_step hi x) (fun y hy => hs y (by simp [hy])) ?_
      have hx := hs x (by simp)
      unfold St.step
      cases ht : s.tasks[x.1]? with
      | none => exact he
      | some t =>
        obtain ⟨a, b, hab, -, hset⟩ := split_at ht
        have h2 := hi.bound
        have h1 := hi.le
        unfold St.error at he ⊢
        rw [hab] at he h2
        simp only [List.map_append, List.map_cons, List.sum_append, List.sum_cons] at h2
        match t with
        | .done => simpa [St.move, hab] using he
        | .failed => simp at he
        | .idle 0 => simp only [St.move, hset]; simpa using he
        | .idle (left + 1) =>
          simp only [St.move]
          cases hv : rows[s.next]? with
          | none => dsimp only; rw [hset]; simpa using he
          | some v =>
            have := (List.getElem?_eq_some_iff.1 hv).1
            simp only [Task.left] at h2
            dsimp only
            rw [if_pos (by omega)]
            simp only [hset]; simpa using he
        | .busy i v left =>
          simp only [St.move, hx, if_true, hset]
          simpa using he
  refine key sched _ (inv_new rows capacity n hn) h ?_
  unfold St.error St.new
  simp

example : min 4 [70, 80, 90, 95, 99].length ≤ 2 ^ 32 ∧ ∀ x ∈ [(0, true), (1, true), (0, true)], x.2 = true := by
  decide +kernel

/-- Every id handed out fits 32 bits. So a build of more than `2 ^ 32` rows never succeeds, whatever the schedule. -/
theorem C101_ids_fit {V : Type} (rows : List V) (capacity n : Nat) (hn : 0 < n) (sched : List (Nat × Bool)) :
    (∀ x ∈ ((St.new V capacity n).run rows sched).inserted, x.1 < 2 ^ 32) ∧
    (2 ^ 32 < min capacity rows.length → ¬((St.new V capacity n).run rows sched).success) := by
  have key : ∀ (sched : List (Nat × Bool)) (s : St V),
      ((∀ x ∈ s.inserted, x.1 < 2 ^ 32) ∧ ∀ t ∈ s.tasks, ∀ i v l, t = .busy i v l → i < 2 ^ 32) →
      ∀ x ∈ (s.run rows sched).inserted, x.1 < 2 ^ 32 := by
    intro sched
    induction sched with
    | nil => intro s h; exact h.1
    | cons x xs ih =>
      intro s h
      refine ih (s.step rows x) ?_
      unfold St.step
      cases ht : s.tasks[x.1]? with
      | none => exact h
      | some t =>
        have hset : ∀ t' : Task V, (∀ i v l, t' = .busy i v l → i < 2 ^ 32) →
            ∀ t ∈ s.tasks.set x.1 t', ∀ i v l, t = .busy i v l → i < 2 ^ 32 := by
          intro t' h' t ht
          rcases List.mem_or_eq_of_mem_set ht with hm | rfl
          · exact h.2 t hm
          · exact h'
        match t with
        | .done => exact h
        | .failed => exact h
        | .idle 0 => exact ⟨h.1, hset _ fun i v l e => by cases e⟩
        | .idle (left + 1) =>
          simp only [St.move]
          cases hv : rows[s.next]? with
          | none => exact ⟨h.1, hset _ fun i v l e => by cases e⟩
          | some v =>
            dsimp only
            split
            · rename_i hlt
              exact ⟨h.1, hset _ fun i v l e => by cases e; exact hlt⟩
            · exact ⟨h.1, hset _ fun i v l e => by cases e⟩
        | .busy i v left =>
          simp only [St.move]
          split
          · refine ⟨fun y hy => ?_, hset _ fun i v l e => by cases e⟩
            rcases List.mem_append.1 hy with hm | hm
            · exact h.1 y hm
            · rw [List.mem_singleton] at hm
              subst hm
              exact h.2 _ (List.mem_of_getElem? ht) i v left rfl
          · exact ⟨h.1, hset _ fun i v l e => by cases e⟩
  have h1 := key sched (St.new V capacity n) ⟨by simp [St.new], fun t ht i v l e => ?_⟩
  swap
  · obtain ⟨r, -, rfl⟩ := List.mem_map.1 ht
    cases e
  refine ⟨h1, fun hlt hs => ?_⟩
  have hp := C101_inserted rows capacity n hn sched hs
  have hm : (2 ^ 32, rows[2 ^ 32]'(by omega)) ∈ numbered (rows.take capacity) := by
    unfold numbered
    refine List.mem_iff_getElem.2 ⟨2 ^ 32, by simp only [List.length_zip, List.length_range, List.length_take]; omega, ?_⟩
    simp
  exact absurd (h1 _ (hp.mem_iff.2 hm)) (Nat.lt_irrefl _)

example : 2 ^ 32 < min (2 ^ 33) (List.replicate (2 ^ 33) ()).length := by
  rw [List.length_replicate, Nat.min_self]; decide

/-- So a build whose insertions all succeed reports success, also when the data file has fewer rows than the index
has points, and these are missing, or more, and the rest is left out: nothing compares the two numbers. -/
theorem C101_count_not_checked {V : Type} (rows : List V) (capacity n : Nat) (hr : min capacity rows.length ≤ 2 ^ 32)
    (hn : 0 < n) (sched : List (Nat × Bool)) (h : ∀ x ∈ sched, x.2 = true)
    (hs : ∀ j < n, 2 * capacity + 1 ≤ picks (·.1) j sched) :
    ((St.new V capacity n).run rows sched).success ∧
    ((St.new V capacity n).run rows sched).inserted.length = min capacity rows.length := by
  have h1 := (C101_ends rows capacity n sched hs).resolve_right (C101_no_error rows capacity n hr hn sched h)
  refine ⟨h1, ?_⟩
  rw [(C101_inserted rows capacity n hn sched h1).length_eq]
  simp [numbered]

/-- Two points are announced, the file has one. -/
example : ((St.new Nat 2 1).run [70] [(0, true), (0, true), (0, true), (0, true), (0, true)]).success ∧
    ((St.new Nat 2 1).run [70] [(0, true), (0, true), (0, true), (0, true), (0, true)]).inserted = [(0, 70)] ∧
    ∀ j < 1, 2 * 2 + 1 ≤ picks (·.1) j [(0, true), (0, true), (0, true), (0, true), (0, true)] := by
  unfold St.success; decide +kernel

/-! ## Final prune -/

/-- When the final prune reports success, every list of a point or start point has been pruned exactly as it was before
the final prune, once, and no other list has changed: the outcome does not depend on the schedule or the number of
tasks. -/
theorem C101_final_prune (deg : Nat) (prune : Nat → List Nat → Option (List Nat)) (g : Graph Nat) (total n : Nat)
    (hn : 0 < n) (sched : List Nat) (h : ((PSt.new g total n).run deg prune sched).success) :
    (∀ v < total, Pruned deg prune v (g v) (((PSt.new g total n).run deg prune sched).graph v)) ∧
    ∀ v, total ≤ v → ((PSt.new g total n).run deg prune sched).graph v = g v := by
  have inv := pinv_run (pinv_new (deg := deg) (prune := prune) g total n hn) sched
  generalize (PSt.new g total n).run deg prune sched = s at *
  have hf : PTask.failed ∉ s.tasks := fun hm => by cases h _ hm
  have h1 : s.tasks.flatMap PTask.pend = [] := by
    rw [List.flatMap_eq_nil_iff]
    intro t ht
    rw [h t ht]; rfl
  refine ⟨fun v hv => ?_, fun v hv => inv.out v (by simpa using hv)⟩
  rcases inv.fin v (by simpa using hv) (by simp [h1]) with e | e
  · exact absurd e hf
  · exact e

example : ((PSt.new (fun v => if v = 1 then [2, 4, 5, 6] else []) 3 2).run 2 (pruneOf demoConfig stdSorter demoEnv 9)
      [0, 1, 0, 1, 0, 0]).success ∧
    ((PSt.new (fun v => if v = 1 then [2, 4, 5, 6] else []) 3 2).run 2 (pruneOf demoConfig stdSorter demoEnv 9)
      [0, 1, 0, 1, 0, 0]).graph 1 = [2, 5] := by
  unfold PSt.success; decide +kernel

/-- At every moment, also when it stops with an error, each list is the old one or the pruned one. -/
theorem C101_prune_interrupted (deg : Nat) (prune : Nat → List Nat → Option (List Nat)) (g : Graph Nat) (total n : Nat)
    (hn : 0 < n) (sched : List Nat) (v : Nat) :
    ((PSt.new g total n).run deg prune sched).graph v = g v ∨
      Pruned deg prune v (g v) (((PSt.new g total n).run deg prune sched).graph v) :=
  (pinv_run (pinv_new (deg := deg) (prune := prune) g total n hn) sched).any v

example : ((PSt.new (fun v => if v ≤ 1 then [2, 4, 5, 6] else []) 3 2).run 2 (pruneOf demoConfig stdSorter demoEnv 9)
      [0, 0, 0]).graph 1 = [2, 4, 5, 6] := by decide +kernel

/-- The final prune ends. -/
theorem C101_prune_ends (deg : Nat) (prune : Nat → List Nat → Option (List Nat)) (g : Graph Nat) (total n : Nat)
    (sched : List Nat) (h : ∀ j < n, 2 * total + 1 ≤ picks id j sched) :
    ((PSt.new g total n).run deg prune sched).success ∨ .failed ∈ ((PSt.new g total n).run deg prune sched).tasks := by
  by_cases he : .failed ∈ ((PSt.new g total n).run deg prune sched).tasks
  · exact Or.inr he
  · left
    intro t ht
    obtain ⟨j, hj, rfl⟩ := List.mem_iff_getElem.1 ht
    have hf := pfuel_run (deg := deg) (prune := prune) sched (PSt.new g total n) j
    rw [List.getElem?_eq_getElem hj] at hf
    have hle : (((PSt.new g total n).tasks[j]?).map PTask.fuel).getD 0 ≤ 2 * total + 1 := by
      cases ht : (PSt.new g total n).tasks[j]? with
      | none => simp
      | some t =>
        have hm : t ∈ (PSt.new g total n).tasks := List.mem_of_getElem? ht
        simp only [PSt.new, List.mem_map] at hm
        obtain ⟨r, hr, rfl⟩ := hm
        have hn : 0 < n := by
          rcases Nat.eq_zero_or_pos n with rfl | h
          · simp [partitionIter] at hr
          · exact h
        have h1 := sum_partition total n hn
        have h2 : r.2 - r.1 ≤ ((partitionIter total n).map fun r => r.2 - r.1).sum :=
          le_sum (List.mem_map.2 ⟨r, hr, rfl⟩)
        unfold pruneTask
        split <;> simp [PTask.fuel] <;> omega
    have h0 : PTask.fuel ((PSt.new g total n).run deg prune sched).tasks[j] = 0 := by
      simp at hf
      by_cases hjn : j < n
      · have := h j hjn; omega
      · have : (PSt.new g total n).tasks[j]? = none := by
          simp [PSt.new, partitionIter]; omega
        rw [this] at hf; simpa using hf
    cases e : ((PSt.new g total n).run deg prune sched).tasks[j] with
    | idle l => rw [e] at h0; simp [PTask.fuel] at h0
    | writing v out l => rw [e] at h0; simp [PTask.fuel] at h0
    | done => rfl
    | failed => exact absurd (e ▸ List.getElem_mem hj) he

example : ∀ j < 2, 2 * 1 + 1 ≤ picks id j [0, 1, 1, 0, 1, 0] := by decide +kernel

/-- The final prune fails, after all the insertions, if the points and the start point are exactly as many as there are
numbers of 32 bits, although each of them has one; and if they are more. -/
theorem C101_prune_too_many (deg : Nat) (prune : Nat → List Nat → Option (List Nat)) (g : Graph Nat) (total n : Nat)
    (hn : 0 < n) (ht : 2 ^ 32 ≤ total) (sched : List Nat) :
    .failed ∈ ((PSt.new g total n).run deg prune sched).tasks := by
  have h0 : PTask.failed ∈ (PSt.new g total n).tasks := by
    have hm : total - 1 ∈ (partitionIter total n).flatMap fun r => List.range' r.1 (r.2 - r.1) := by
      rw [partition_ids total n hn, List.mem_range]; omega
    obtain ⟨r, hr, hx⟩ := List.mem_flatMap.1 hm
    rw [List.mem_range'_1] at hx
    refine List.mem_map.2 ⟨r, hr, ?_⟩
    unfold pruneTask
    rw [if_neg (by omega)]
  have key : ∀ (sched : List Nat) (s : PSt), .failed ∈ s.tasks → .failed ∈ (s.run deg prune sched).tasks := by
    intro sched
    induction sched with
    | nil => intro s h; exact h
    | cons x xs ih =>
      intro s h
      refine ih (s.step deg prune x) ?_
      unfold PSt.step
      cases ht : s.tasks[x]? with
      | none => exact h
      | some t =>
        obtain ⟨a, b, hab, -, hset⟩ := split_at ht
        rw [hab] at h
        have h' : t = .failed ∨ (PTask.failed ∈ a ∨ PTask.failed ∈ b) := by
          simp at h; rcases h with h | h | h
          · exact .inr (.inl h)
          · exact .inl h.symm
          · exact .inr (.inr h)
        match t with
        | .done => show PTask.failed ∈ s.tasks; rw [hab]; exact h
        | .failed => show PTask.failed ∈ s.tasks; rw [hab]; exact h
        | .idle [] => simp only [PSt.move, hset]; simpa using h'
        | .idle (v :: ids) =>
          simp only [PSt.move]
          split
          · simp only [hset]; simpa using h'
          · split <;> simp only [hset]
            · simpa using h'
            · simp
        | .writing v out ids => simp only [PSt.move, hset]; simpa using h'
  exact key sched _ h0

example (prune : Nat → List Nat → Option (List Nat)) (sched : List Nat) :
    .failed ∈ ((PSt.new (fun _ => []) (2 ^ 32) 4).run 64 prune sched).tasks :=
  C101_prune_too_many _ _ _ _ _ (by decide) (Nat.le_refl _) _

/-- Pruning with the index: a list that was pruned has at most the pruned degree, no duplicates and only old
neighbours. -/
theorem pruned_bound (c : Config) (srt : Sorter Nat) (env : Env Nat) (fuel : Nat) (v : Nat) (old new : List Nat)
    (hd : old.Nodup) (h : Pruned c.prunedDegree (pruneOf c srt env fuel) v old new) :
    new.length ≤ c.prunedDegree ∧ new.Nodup ∧ ∀ x ∈ new, x ∈ old := by
  rcases h with ⟨h1, rfl⟩ | ⟨h1, h2⟩
  · exact ⟨h1, hd, fun x hx => hx⟩
  · unfold pruneOf at h2
    split at h2
    · rename_i out hr
      simp only [Option.some.injEq] at h2
      subst h2
      have hview : env.view v = true := by
        unfold robustPruneList at hr
        rw [if_neg (by rintro rfl; simp at h1)] at hr
        by_contra hv
        rw [if_pos (by simpa using hv)] at hr
        simp at hr
      have hp : pruneVertex c srt env fuel (fun w => if w = v then old else []) v [] =
          some (setNeighbors (fun w => if w = v then old else []) v out, out) := by
        unfold pruneVertex
        simp only [if_true]
        rw [if_neg (by omega), hr]
        rfl
      have := C09_prune_reaches_target c srt env fuel (fun w => if w = v then old else []) v [] (by simpa using hd) _ _ hp
      simp only [setNeighbors, Function.update_self, if_true] at this
      exact ⟨this.1 hview, this.2.1, this.2.2.1⟩
    · simp at h2

/-- What is handed to the writer of the disk graph: one list for each point and one for the start point, in this order,
where the start point is replaced by the medoid and all else stays. -/
theorem C101_saved (g : Graph Nat) (capacity medoid v : Nat) :
    (savedLists g capacity medoid)[v]? =
      if v ≤ capacity then some ((g v).map fun w => if w = capacity then medoid else w) else none := by
  unfold savedLists Verif.Disk.diskLists Verif.Disk.providerSlots
  rw [List.length_map, List.length_range, ← List.map_take, List.take_range, List.map_map, List.getElem?_map]
  split
  · rw [List.getElem?_range (by omega)]; rfl
  · rw [List.getElem?_eq_none (by rw [List.length_range]; omega)]; rfl

/-- The saved graph: after a successful final prune over the points and the start point, every list that is handed to
the writer of the disk graph has at most the pruned degree, whatever the insertions left behind. -/
theorem C101_saved_degree (c : Config) (srt : Sorter Nat) (env : Env Nat) (fuel : Nat) (g : Graph Nat)
    (hg : ∀ v, (g v).Nodup) (capacity n medoid : Nat) (hn : 0 < n) (sched : List Nat)
    (h : ((PSt.new g (capacity + 1) n).run c.prunedDegree (pruneOf c srt env fuel) sched).success) :
    (savedLists ((PSt.new g (capacity + 1) n).run c.prunedDegree (pruneOf c srt env fuel) sched).graph capacity medoid).length
      = capacity + 1 ∧
    ∀ l ∈ savedLists ((PSt.new g (capacity + 1) n).run c.prunedDegree (pruneOf c srt env fuel) sched).graph capacity medoid,
      l.length ≤ c.prunedDegree := by
  have hp := (C101_final_prune c.prunedDegree (pruneOf c srt env fuel) g (capacity + 1) n hn sched h).1
  generalize (PSt.new g (capacity + 1) n).run c.prunedDegree (pruneOf c srt env fuel) sched = s at *
  unfold savedLists Verif.Disk.diskLists Verif.Disk.providerSlots
  refine ⟨by simp, fun l hl => ?_⟩
  obtain ⟨l', hl', rfl⟩ := List.mem_map.1 hl
  rw [List.length_map]
  rw [List.length_map, List.length_range, ← List.map_take, List.take_range] at hl'
  obtain ⟨v, hv, rfl⟩ := List.mem_map.1 hl'
  rw [List.mem_range] at hv
  exact (pruned_bound c srt env fuel v (g v) _ (hg v) (hp v (by omega))).1

example : (∀ v : Nat, ((fun v => if v = 1 then [2, 4, 5, 6] else []) v : List Nat).Nodup) ∧
    ((PSt.new (fun v => if v = 1 then [2, 4, 5, 6] else []) (2 + 1) 2).run demoConfig.prunedDegree
      (pruneOf demoConfig stdSorter demoEnv 9) [0, 1, 0, 1, 0, 0]).success ∧
    savedLists ((PSt.new (fun v => if v = 1 then [2, 4, 5, 6] else []) (2 + 1) 2).run demoConfig.prunedDegree
      (pruneOf demoConfig stdSorter demoEnv 9) [0, 1, 0, 1, 0, 0]).graph 2 0 = [[], [0, 5], []] := by
  refine ⟨fun v => ?_, ?_⟩
  · dsimp only; split <;> decide
  · unfold PSt.success; decide +kernel

end Verif.Build
