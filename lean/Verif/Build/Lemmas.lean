import Verif.Build.Model
import Verif.Build.Spec
import Verif.AsyncTools.Props
import Mathlib.Data.List.Perm.Basic
import Mathlib.Algebra.BigOperators.Group.List.Basic

/-! # Lemmas for C101 -/

namespace Verif.Build

open Verif.Graph Verif.AsyncTools

theorem split_at {α : Type} {l : List α} {j : Nat} {t : α} (h : l[j]? = some t) :
    ∃ a b, l = a ++ t :: b ∧ a.length = j ∧ ∀ t', l.set j t' = a ++ t' :: b := by
  obtain ⟨hj, rfl⟩ := List.getElem?_eq_some_iff.1 h
  refine ⟨l.take j, l.drop (j + 1), ?_, by simp; omega, fun t' => ?_⟩
  · simp
  · rw [List.set_eq_take_append_cons_drop, if_pos hj]

/-! ## Partitions -/

theorem partition_ids (n t : Nat) (ht : 0 < t) :
    (partitionIter n t).flatMap (fun r => List.range' r.1 (r.2 - r.1)) = List.range n := by
  obtain ⟨h1, -, h3, h4, h5, h6, -⟩ := C27_partition n t ht
  have hp : ∀ j, j < t → partition n t j = some (partitionImpl n t j) := by
    intro j hj; unfold partition; rw [if_neg (by omega)]
  have key : ∀ k, k + 1 ≤ t → ((List.range (k + 1)).map (partitionImpl n t)).flatMap
      (fun r => List.range' r.1 (r.2 - r.1)) = List.range (partitionImpl n t k).2 := by
    intro k
    induction k with
    | zero =>
      intro hk
      have e0 := h4 _ (hp 0 (by omega))
      simp [e0, List.range_eq_range']
    | succ k ih =>
      intro hk
      rw [List.range_succ, List.map_append, List.flatMap_append, ih (by omega)]
      have e1 := h6 k _ _ (hp k (by omega)) (hp (k + 1) (by omega))
      have e2 := (h3 (k + 1) _ (hp (k + 1) (by omega))).1
      simp only [List.map_cons, List.map_nil, List.flatMap_cons, List.flatMap_nil, List.append_nil]
      rw [List.range_eq_range', e1, ← e1, e1, List.range_eq_range']
      have := List.range'_append (s := 0) (m := (partitionImpl n t (k + 1)).1)
        (n := (partitionImpl n t (k + 1)).2 - (partitionImpl n t (k + 1)).1) (step := 1)
      simp only [one_mul, zero_add] at this
      rw [this]
      congr 1; omega
  obtain ⟨k, rfl⟩ : ∃ k, t = k + 1 := ⟨t - 1, by omega⟩
  unfold partitionIter
  rw [key k le_rfl]
  rw [h5 _ (by simpa using hp k (by omega))]

/-! ## Insertion -/

section Insert

variable {V : Type}

/-- Rounds left. -/
def Task.left : Task V → Nat
  | .idle l => l
  | .busy _ _ l => l
  | .done => 0
  | .failed => 0

/-- The vector being inserted. -/
def Task.item : Task V → Option (Nat × V)
  | .busy i v _ => some (i, v)
  | _ => none

structure Inv (rows : List V) (cap : Nat) (s : St V) : Prop where
  le : s.next ≤ rows.length
  bound : s.next + (s.tasks.map Task.left).sum ≤ cap
  all : s.next = rows.length ∨ s.next + (s.tasks.map Task.left).sum = cap ∨ .failed ∈ s.tasks
  perm : (numbered (rows.take s.next)).Perm (s.inserted ++ s.failures ++ s.tasks.filterMap Task.item)
  fail : s.failures ≠ [] ↔ .failed ∈ s.tasks

theorem sum_partition (n t : Nat) (ht : 0 < t) : ((partitionIter n t).map fun r => r.2 - r.1).sum = n := by
  have := congrArg List.length (partition_ids n t ht)
  rw [List.length_flatMap] at this
  simpa using this

theorem inv_new (rows : List V) (cap n : Nat) (hn : 0 < n) : Inv rows cap (St.new V cap n) := by
  have hs : ((St.new V cap n).tasks.map Task.left).sum = cap := by
    have := sum_partition cap n hn
    simpa [St.new, Function.comp_def, Task.left] using this
  refine ⟨Nat.zero_le _, ?_, Or.inr (Or.inl ?_), ?_, ?_⟩
  · rw [hs]; simp [St.new]
  · rw [hs]; simp [St.new]
  · simp [St.new, numbered, List.filterMap_map, Function.comp_def, Task.item]
  · simp [St.new]

theorem numbered_succ (rows : List V) (k : Nat) (v : V) (h : rows[k]? = some v) :
    numbered (rows.take (k + 1)) = numbered (rows.take k) ++ [(k, v)] := by
  obtain ⟨hk, rfl⟩ := List.getElem?_eq_some_iff.1 h
  have e : rows.take (k + 1) = rows.take k ++ [rows[k]] := (List.take_append_getElem hk).symm
  unfold numbered
  rw [e, List.length_append, List.length_singleton, List.range_succ, List.zip_append (by simp)]
  congr 1
  simp [List.length_take, Nat.min_eq_left hk.le]

theorem inv_step {rows : List V} {cap : Nat} {s : St V} (h : Inv rows cap s) (x : Nat × Bool) :
    Inv rows cap (s.step rows x) := by
  unfold St.step
  cases ht : s.tasks[x.1]? with
  | none => exact h
  | some t =>
    obtain ⟨a, b, hab, -, hset⟩ := split_at ht
    obtain ⟨next, tasks, ins, fails⟩ := s
    simp only at hab hset ht
    subst hab
    have h0 := h
    obtain ⟨h1, h2, h3, h4, h5⟩ := h
    simp only [List.map_append, List.map_cons, List.sum_append, List.sum_cons, List.filterMap_append,
      List.filterMap_cons, List.mem_append, List.mem_cons] at h1 h2 h3 h4 h5
    match t with
    | .done => exact h0
    | .failed => exact h0
    | .idle 0 =>
      simp only [St.move, hset]
      simp only [Task.left, Task.item] at *
      refine ⟨h1, ?_, ?_, ?_, ?_⟩ <;> simp_all [Task.left, Task.item, List.filterMap_cons]
    | .idle (left + 1) =>
      simp only [St.move]
      cases hr : rows[next]? with
      | none =>
        simp only [hset]
        have : rows.length ≤ next := List.getElem?_eq_none_iff.1 hr
        refine ⟨h1, ?_, Or.inl (by simp; omega), ?_, ?_⟩
        · simp [Task.left] at h2 ⊢; omega
        · simpa [Task.item, List.filterMap_cons] using h4
        · simpa using h5
      | some v =>
        have hlt : next < rows.length := (List.getElem?_eq_some_iff.1 hr).1
        dsimp only
        split
        · simp only [hset]
          refine ⟨hlt, ?_, ?_, ?_, ?_⟩
          · simp [Task.left] at h2 ⊢; omega
          · simp [Task.left] at h3 ⊢
            rcases h3 with h | h | h | h
            · omega
            · right; left; omega
            · simp [h]
            · simp [h]
          · simp only [numbered_succ rows next v hr]
            simp only [Task.item, List.filterMap_append, List.filterMap_cons] at h4 ⊢
            refine (h4.append_right _).trans ?_
            classical
            rw [List.perm_iff_count]
            intro y
            simp only [List.count_append, List.count_cons, List.count_nil]
            omega
          · simpa using h5
        · simp only [hset]
          refine ⟨hlt, ?_, Or.inr (Or.inr (by simp)), ?_, ?_⟩
          · simp [Task.left] at h2 ⊢; omega
          · simp only [numbered_succ rows next v hr]
            simp only [Task.item, List.filterMap_append, List.filterMap_cons] at h4 ⊢
            refine (h4.append_right _).trans ?_
            classical
            rw [List.perm_iff_count]
            intro y
            simp only [List.count_append, List.count_cons, List.count_nil]
            omega
          · simp
    | .busy i v left =>
      simp only [St.move]
      split
      · simp only [hset]
        refine ⟨h1, ?_, ?_, ?_, ?_⟩
        · simpa [Task.left] using h2
        · simpa [Task.left] using h3
        · simp only [Task.item, List.filterMap_append, List.filterMap_cons] at h4 ⊢
          refine h4.trans ?_
          classical
          rw [List.perm_iff_count]
          intro y
          simp only [List.count_append, List.count_cons, List.count_nil]
          omega
        · simpa using h5
      · simp only [hset]
        refine ⟨h1, ?_, Or.inr (Or.inr (by simp)), ?_, ?_⟩
        · simp [Task.left] at h2 ⊢; omega
        · simp only [Task.item, List.filterMap_append, List.filterMap_cons] at h4 ⊢
          refine h4.trans ?_
          classical
          rw [List.perm_iff_count]
          intro y
          simp only [List.count_append, List.count_cons, List.count_nil]
          omega
        · simp

theorem inv_run {rows : List V} {cap : Nat} {s : St V} (h : Inv rows cap s) (sched : List (Nat × Bool)) :
    Inv rows cap (s.run rows sched) := by
  induction sched generalizing s with
  | nil => exact h
  | cons x xs ih => exact ih (inv_step h x)

/-- Steps a task can still take. -/
def Task.fuel : Task V → Nat
  | .idle l => 2 * l + 1
  | .busy _ _ l => 2 * l + 2
  | .done => 0
  | .failed => 0

theorem fuel_step (rows : List V) (s : St V) (x : Nat × Bool) (j : Nat) :
    (((s.step rows x).tasks[j]?).map Task.fuel).getD 0 ≤
      ((s.tasks[j]?).map Task.fuel).getD 0 - (if x.1 = j then 1 else 0) := by
  unfold St.step
  cases ht : s.tasks[x.1]? with
  | none =>
    dsimp only
    split
    · rename_i e; subst e; rw [ht]; simp
    · simp
  | some t =>
    dsimp only
    have key : ∀ t', Task.fuel t' ≤ Task.fuel t - 1 →
        (((s.tasks.set x.1 t')[j]?).map Task.fuel).getD 0 ≤
          ((s.tasks[j]?).map Task.fuel).getD 0 - (if x.1 = j then 1 else 0) := by
      intro t' hle
      by_cases e : x.1 = j
      · subst e
        have hlt := (List.getElem?_eq_some_iff.1 ht).1
        rw [List.getElem?_set_self hlt, ht]
        simpa using hle
      · rw [List.getElem?_set_ne e]; simp [e]
    have fin : Task.fuel t = 0 → ((s.tasks[j]?).map Task.fuel).getD 0 ≤
          ((s.tasks[j]?).map Task.fuel).getD 0 - (if x.1 = j then 1 else 0) := by
      intro h0
      split
      · rename_i e; subst e; rw [ht]; simp [h0]
      · simp
    match t, key, fin with
    | .done, _, fin => exact fin rfl
    | .failed, _, fin => exact fin rfl
    | .idle 0, key, _ => exact key _ (by simp [Task.fuel])
    | .idle (left + 1), key, _ =>
      simp only [St.move]
      cases rows[s.next]? with
      | none => exact key _ (by simp [Task.fuel])
      | some v =>
        dsimp only
        split
        · exact key _ (by simp [Task.fuel]; omega)
        · exact key _ (by simp [Task.fuel])
    | .busy i v left, key, _ =>
      simp only [St.move]
      split
      · exact key _ (by simp [Task.fuel])
      · exact key _ (by simp [Task.fuel])

theorem fuel_run (rows : List V) (sched : List (Nat × Bool)) (s : St V) (j : Nat) :
    (((s.run rows sched).tasks[j]?).map Task.fuel).getD 0 ≤
      ((s.tasks[j]?).map Task.fuel).getD 0 - picks (·.1) j sched := by
  induction sched generalizing s with
  | nil => simp [St.run, picks]
  | cons x xs ih =>
    have h1 := ih (s.step rows x)
    have h2 := fuel_step rows s x j
    have h3 : picks (·.1) j (x :: xs) = picks (·.1) j xs + if x.1 = j then 1 else 0 := by
      simp [picks, List.count_cons]
    have h4 : s.run rows (x :: xs) = (s.step rows x).run rows xs := rfl
    rw [h4, h3]
    revert h2
    generalize (if x.1 = j then 1 else 0) = k
    intro h2
    omega

end Insert

/-! ## Final prune -/

section Prune

variable {deg : Nat} {prune : Nat → List Nat → Option (List Nat)} {g0 : Graph Nat} {R : List Nat}

/-- Ids not yet written. -/
def PTask.pend : PTask → List Nat
  | .idle ids => ids
  | .writing v _ ids => v :: ids
  | .done => []
  | .failed => []

structure PInv (deg : Nat) (prune : Nat → List Nat → Option (List Nat)) (g0 : Graph Nat) (R : List Nat) (s : PSt) : Prop where
  nodup : (s.tasks.flatMap PTask.pend).Nodup
  kept : ∀ v ∈ s.tasks.flatMap PTask.pend, s.graph v = g0 v
  wr : ∀ v out ids, .writing v out ids ∈ s.tasks → deg < (g0 v).length ∧ prune v (g0 v) = some out
  fin : ∀ v ∈ R, v ∉ s.tasks.flatMap PTask.pend → .failed ∈ s.tasks ∨ Pruned deg prune v (g0 v) (s.graph v)
  sub : ∀ v ∈ s.tasks.flatMap PTask.pend, v ∈ R
  out : ∀ v, v ∉ R → s.graph v = g0 v
  any : ∀ v, s.graph v = g0 v ∨ Pruned deg prune v (g0 v) (s.graph v)

theorem pinv_step {s : PSt} (h : PInv deg prune g0 R s) (j : Nat) : PInv deg prune g0 R (s.step deg prune j) := by
  unfold PSt.step
  cases ht : s.tasks[j]? with
  | none => exact h
  | some t =>
    obtain ⟨a, b, hab, -, hset⟩ := split_at ht
    obtain ⟨g, tasks⟩ := s
    simp only at hab hset ht
    subst hab
    obtain ⟨h1, h2, h3, h4, h5, h6, h7⟩ := h
    dsimp only at h1 h2 h3 h4 h5 h6 h7
    match t with
    | .done => exact ⟨h1, h2, h3, h4, h5, h6, h7⟩
    | .failed => exact ⟨h1, h2, h3, h4, h5, h6, h7⟩
    | .idle [] =>
      simp only [PSt.move, hset]
      constructor <;> simp only [List.flatMap_append, List.flatMap_cons, PTask.pend, List.nil_append] at *
      · exact h1
      · exact h2
      · intro v out ids hm
        apply h3 v out ids
        simp at hm ⊢; exact hm
      · intro v hv hn
        simpa using h4 v hv hn
      · exact h5
      · exact h6
      · exact h7
    | .idle (v :: ids) =>
      have hv2 : g v = g0 v := h2 v (by simp [PTask.pend])
      have hvR : v ∈ R := h5 v (by simp [PTask.pend])
      simp only [PSt.move]
      split
      · rename_i hle
        simp only [hset]
        constructor <;> simp only [List.flatMap_append, List.flatMap_cons, PTask.pend, List.cons_append] at *
        · rw [List.nodup_append] at h1 ⊢
          simp only [List.nodup_cons] at h1
          refine ⟨h1.1, h1.2.1.2, fun x hx y hy => h1.2.2 x hx y (List.mem_cons_of_mem _ hy)⟩
        · intro w hw; apply h2; simp at hw ⊢; rcases hw with h | h | h <;> simp [h]
        · intro w out ids' hm
          apply h3 w out ids'
          simp at hm ⊢; exact hm
        · intro w hw hn
          by_cases e : w = v
          · subst e; right; left; exact ⟨by rw [← hv2]; exact hle, hv2⟩
          · simpa using h4 w hw (by simp at hn ⊢; exact ⟨hn.1, e, hn.2⟩)
        · intro w hw; apply h5; simp at hw ⊢; rcases hw with h | h | h <;> simp [h]
        · exact h6
        · exact h7
      · rename_i hle
        cases hp : prune v (g v) with
        | some out =>
          simp only [hset]
          constructor <;> simp only [List.flatMap_append, List.flatMap_cons, PTask.pend] at *
          · exact h1
          · exact h2
          · intro w out' ids' hm
            simp only [List.mem_append, List.mem_cons, PTask.writing.injEq] at hm
            rcases hm with hm | ⟨rfl, rfl, rfl⟩ | hm
            · exact h3 w out' ids' (by simp [hm])
            · rw [← hv2]; exact ⟨by omega, hp⟩
            · exact h3 w out' ids' (by simp [hm])
          · intro w hw hn
            simpa using h4 w hw hn
          · exact h5
          · exact h6
          · exact h7
        | none =>
          simp only [hset]
          constructor <;> simp only [List.flatMap_append, List.flatMap_cons, PTask.pend, List.nil_append] at *
          · rw [List.nodup_append] at h1 ⊢
            rw [List.nodup_append] at h1
            refine ⟨h1.1, h1.2.1.2.1, fun x hx y hy => h1.2.2 x hx y (by simp [hy])⟩
          · intro w hw; apply h2; simp at hw ⊢; rcases hw with h | h <;> simp [h]
          · intro w out ids' hm
            apply h3 w out ids'
            simp at hm ⊢; exact hm
          · intro w hw hn; left; simp
          · intro w hw; apply h5; simp at hw ⊢; rcases hw with h | h <;> simp [h]
          · exact h6
          · exact h7
    | .writing v out ids =>
      have hw3 := h3 v out ids (by simp)
      have hv2 : g v = g0 v := h2 v (by simp [PTask.pend])
      have hvR : v ∈ R := h5 v (by simp [PTask.pend])
      have hnew : Pruned deg prune v (g0 v) out := Or.inr hw3
      have hnd : v ∉ a.flatMap PTask.pend ++ (ids ++ b.flatMap PTask.pend) := by
        simp only [List.flatMap_append, List.flatMap_cons, PTask.pend, List.cons_append] at h1
        rw [List.nodup_middle, List.nodup_cons] at h1
        exact h1.1
      simp only [PSt.move, hset]
      constructor <;> simp only [List.flatMap_append, List.flatMap_cons, PTask.pend, List.cons_append, setNeighbors] at *
      · rw [List.nodup_middle, List.nodup_cons] at h1
        exact h1.2
      · intro w hw
        have : w ≠ v := by rintro rfl; exact hnd hw
        rw [Function.update_of_ne this]
        apply h2; simp at hw ⊢; rcases hw with h | h | h <;> simp [h]
      · intro w out' ids' hm
        apply h3 w out' ids'
        simp at hm ⊢
        rcases hm with h | h <;> simp [h]
      · intro w hw hn
        by_cases e : w = v
        · subst e; right; rw [Function.update_self]; exact hnew
        · rw [Function.update_of_ne e]
          have := h4 w hw (by simp at hn ⊢; exact ⟨hn.1, e, hn.2⟩)
          simpa using this
      · intro w hw; apply h5; simp at hw ⊢; rcases hw with h | h | h <;> simp [h]
      · intro w hw
        have : w ≠ v := by rintro rfl; exact hw hvR
        rw [Function.update_of_ne this]; exact h6 w hw
      · intro w
        by_cases e : w = v
        · subst e; right; rw [Function.update_self]; exact hnew
        · rw [Function.update_of_ne e]; exact h7 w

theorem pinv_run {s : PSt} (h : PInv deg prune g0 R s) (sched : List Nat) :
    PInv deg prune g0 R (s.run deg prune sched) := by
  induction sched generalizing s with
  | nil => exact h
  | cons x xs ih => exact ih (pinv_step h x)

theorem pinv_new (g : Graph Nat) (total n : Nat) (hn : 0 < n) :
    PInv deg prune g (List.range total) (PSt.new g total n) := by
  have hsub : List.Sublist ((PSt.new g total n).tasks.flatMap PTask.pend) (List.range total) := by
    rw [← partition_ids total n hn]
    unfold PSt.new
    dsimp only
    rw [List.flatMap_map]
    generalize partitionIter total n = l
    induction l with
    | nil => simp
    | cons r l ih =>
      simp only [List.flatMap_cons]
      refine List.Sublist.append ?_ ih
      unfold pruneTask
      split
      · exact List.Sublist.refl _
      · simp [PTask.pend]
  have hfin : .failed ∈ (PSt.new g total n).tasks ∨
      (PSt.new g total n).tasks.flatMap PTask.pend = List.range total := by
    rw [← partition_ids total n hn]
    unfold PSt.new
    dsimp only
    rw [List.flatMap_map]
    generalize partitionIter total n = l
    induction l with
    | nil => simp
    | cons r l ih =>
      simp only [List.flatMap_cons, List.map_cons, List.mem_cons]
      by_cases hr : r.1 < 2 ^ 32 ∧ r.2 < 2 ^ 32
      · rcases ih with ih | ih
        · left; right; exact ih
        · right; rw [ih]; unfold pruneTask; rw [if_pos hr]; rfl
      · left; left; unfold pruneTask; rw [if_neg hr]
  refine ⟨hsub.nodup List.nodup_range, fun v _ => rfl, ?_, ?_, fun v hv => hsub.subset hv, fun _ _ => rfl, fun _ => Or.inl rfl⟩
  · intro v out ids hm
    exfalso
    simp only [PSt.new, List.mem_map, pruneTask] at hm
    obtain ⟨r, _, hr⟩ := hm
    split at hr <;> simp at hr
  · intro v hv hn'
    rcases hfin with h | h
    · exact Or.inl h
    · rw [h] at hn'; exact absurd hv hn'

/-- Steps a task can still take. -/
def PTask.fuel : PTask → Nat
  | .idle ids => 2 * ids.length + 1
  | .writing _ _ ids => 2 * ids.length + 2
  | .done => 0
  | .failed => 0

theorem pfuel_step (s : PSt) (i j : Nat) :
    (((s.step deg prune i).tasks[j]?).map PTask.fuel).getD 0 ≤
      ((s.tasks[j]?).map PTask.fuel).getD 0 - (if i = j then 1 else 0) := by
  unfold PSt.step
  cases ht : s.tasks[i]? with
  | none =>
    dsimp only
    split
    · rename_i e; subst e; rw [ht]; simp
    · simp
  | some t =>
    dsimp only
    have key : ∀ t', PTask.fuel t' ≤ PTask.fuel t - 1 →
        (((s.tasks.set i t')[j]?).map PTask.fuel).getD 0 ≤
          ((s.tasks[j]?).map PTask.fuel).getD 0 - (if i = j then 1 else 0) := by
      intro t' hle
      by_cases e : i = j
      · subst e
        have hlt := (List.getElem?_eq_some_iff.1 ht).1
        rw [List.getElem?_set_self hlt, ht]
        simpa using hle
      · rw [List.getElem?_set_ne e]; simp [e]
    have fin : PTask.fuel t = 0 → ((s.tasks[j]?).map PTask.fuel).getD 0 ≤
          ((s.tasks[j]?).map PTask.fuel).getD 0 - (if i = j then 1 else 0) := by
      intro h0
      split
      · rename_i e; subst e; rw [ht]; simp [h0]
      · simp
    match t, key, fin with
    | .done, _, fin => exact fin rfl
    | .failed, _, fin => exact fin rfl
    | .idle [], key, _ => exact key _ (by simp [PTask.fuel])
    | .idle (v :: ids), key, _ =>
      simp only [PSt.move]
      split
      · exact key _ (by simp [PTask.fuel]; omega)
      · cases prune v (s.graph v) with
        | some out => exact key _ (by simp [PTask.fuel]; omega)
        | none => exact key _ (by simp [PTask.fuel])
    | .writing v out ids, key, _ => exact key _ (by simp [PTask.fuel])

theorem pfuel_run (sched : List Nat) (s : PSt) (j : Nat) :
    (((s.run deg prune sched).tasks[j]?).map PTask.fuel).getD 0 ≤
      ((s.tasks[j]?).map PTask.fuel).getD 0 - picks id j sched := by
  induction sched generalizing s with
  | nil => simp [PSt.run, picks]
  | cons x xs ih =>
    have h1 := ih (s.step deg prune x)
    have h2 := pfuel_step (deg := deg) (prune := prune) s x j
    have h3 : picks id j (x :: xs) = picks id j xs + if x = j then 1 else 0 := by
      simp [picks, List.count_cons]
    have h4 : s.run deg prune (x :: xs) = (s.step deg prune x).run deg prune xs := rfl
    rw [h4, h3]
    revert h2
    generalize (if x = j then 1 else 0) = k
    intro h2
    omega

end Prune

end Verif.Build
