import Verif.Harness.Lemmas

/-! # C103: batched builds and searches of the benchmark library -/

namespace Verif.Harness

open Verif.AsyncTools

/-! ## Builds with dynamic balancing -/

section Dynamic

variable {O : Type}

/-- At every moment of every schedule the batches started so far, over all tasks, are the first ones of `0 .. max` cut by
the batch size, each once, and a task's batches go upwards. -/
theorem C103_dynamic_batches (max batch ntasks : Nat) (hb : 0 < batch) (hmax : max < 2 ^ 64)
    (sched : List (Nat × Option O)) :
    (∃ k, (((Dyn.new O ntasks).run max batch sched).workers.flatMap Worker.started).Perm ((cut max batch).take k)) ∧
    ∀ w ∈ ((Dyn.new O ntasks).run max batch sched).workers, w.started.Pairwise fun a b => a.2 ≤ b.1 := by
  obtain ⟨k, h⟩ := inv_run hb hmax sched (inv_new (O := O) max batch ntasks)
  refine ⟨⟨k, ?_⟩, fun w hw => (h.ws w hw).ord⟩
  rw [← firsts_take (le_ceil hb h.small)]
  exact h.perm

/-- A build that succeeds has built every point once: its results are the batches of `0 .. max`, in some order, and the
reported progress adds up to `max`. -/
theorem C103_dynamic_success (max batch ntasks : Nat) (hb : 0 < batch) (hn : 0 < ntasks) (hmax : max < 2 ^ 64)
    (sched : List (Nat × Option O)) (s : Dyn O) (hs : s = (Dyn.new O ntasks).run max batch sched) (h : s.success) :
    (((flatten (s.workers.map (·.results))).map (·.2.1)).Perm (cut max batch)) ∧
    ((points ((flatten (s.workers.map (·.results))).map (·.2.1))).Perm (List.range max)) ∧ s.progress = max := by
  subst hs
  generalize hs : (Dyn.new O ntasks).run max batch sched = s at h
  obtain ⟨k, hi⟩ := inv_run hb hmax sched (inv_new (O := O) max batch ntasks)
  rw [hs] at hi
  have hlen : s.workers.length = ntasks := by rw [← hs, workers_run]; simp [Dyn.new]
  have hhead : s.head = max := by
    obtain ⟨w, hw⟩ := List.exists_mem_of_length_pos (l := s.workers) (by omega)
    exact (hi.ws w hw).fin (h w hw)
  have hk : k = (max + batch - 1) / batch := by
    refine le_antisymm (le_ceil hb hi.small) (ceil_le hb ?_)
    have := hi.head; omega
  have hres : (flatten (s.workers.map (·.results))).map (·.2.1) = s.workers.flatMap Worker.started := by
    have e : (fun x : Nat × Rng × O => x.2.1) = (fun x : Rng × O => x.1) ∘ (fun x : Nat × Rng × O => x.2) := rfl
    rw [e, ← List.map_map, flatten_snd, List.map_flatten, List.map_map, List.flatMap_def]
    congr 1
    apply List.map_congr_left
    intro w hw
    simp [Worker.started, h w hw]
  have hperm := hi.perm
  rw [hk, ← cut_eq, ← hres] at hperm
  have hpts : points (cut max batch) = List.range max := by
    have := points_cutFrom hb max max 0 (by omega) (by omega)
    rw [cutFrom_zero] at this
    rw [this, List.range_eq_range']; rfl
  have hp2 : (points ((flatten (s.workers.map (·.results))).map (·.2.1))).Perm (List.range max) := by
    rw [← hpts]
    exact hperm.flatMap_right _
  refine ⟨hperm, hp2, ?_⟩
  rw [hi.prog]
  have := hp2.length_eq
  rw [List.length_range] at this
  rw [← this, hres]
  simp only [points, List.length_flatMap, List.length_range']
  have key : ∀ l : List (Worker O), (∀ w ∈ l, w.pc = .done) →
      (l.map Worker.len).sum = ((l.flatMap Worker.started).map fun r => r.2 - r.1).sum := by
    intro l
    induction l with
    | nil => intro _; rfl
    | cons w l ih =>
      intro hl
      rw [List.map_cons, List.sum_cons, List.flatMap_cons, List.map_append, List.sum_append,
        ih (fun v hv => hl v (by simp [hv]))]
      congr 1
      simp [Worker.started, hl w (by simp), Worker.len, Function.comp_def]
  exact key _ h

/-- With one task the batches are built in order. -/
theorem C103_dynamic_one_task (max batch : Nat) (hb : 0 < batch) (hmax : max < 2 ^ 64)
    (sched : List (Nat × Option O)) (s : Dyn O) (hs : s = (Dyn.new O 1).run max batch sched) (h : s.success) :
    (flatten (s.workers.map (·.results))).map (·.2.1) = cut max batch := by
  obtain ⟨hp, -, -⟩ := C103_dynamic_success max batch 1 hb one_pos hmax sched s hs h
  have hlen : s.workers.length = 1 := by rw [hs, workers_run]; simp [Dyn.new]
  obtain ⟨w, hw⟩ := List.length_eq_one_iff.1 hlen
  have hord := (C103_dynamic_batches max batch 1 hb hmax sched).2 w (by rw [← hs, hw]; simp)
  have hd := h w (by rw [hw]; simp)
  have e : (flatten (s.workers.map (·.results))).map (·.2.1) = w.started := by
    rw [hw]; simp [flatten, Worker.started, hd, List.map_flatMap, Function.comp_def]
  rw [e] at hp ⊢
  have hmem : ∀ r ∈ cut max batch, r.1 < r.2 := by
    intro r hr
    rw [← cutFrom_zero] at hr
    exact (cutFrom_mem hb hr).2.1
  refine List.Perm.eq_of_pairwise (le := fun a b : Rng => a.2 ≤ b.1) ?_ hord ?_ hp
  · intro a b ha hb' h1 h2
    have := hmem a (hp.mem_iff.1 ha)
    have := hmem b hb'
    omega
  · unfold cut
    rw [List.pairwise_map]
    refine List.pairwise_lt_range.imp ?_
    intro i j hij
    simp only
    have : (i + 1) * batch ≤ j * batch := Nat.mul_le_mul_right _ hij
    omega

/-- A build fails exactly when the building of a batch failed. -/
theorem C103_dynamic_error (max batch ntasks : Nat) (sched : List (Nat × Option O)) :
    ((Dyn.new O ntasks).run max batch sched).error ↔ ∃ p j q, sched = p ++ (j, none) :: q ∧
      ∃ w, ((Dyn.new O ntasks).run max batch p).workers[j]? = some w ∧ ∃ r, w.pc = .building r := by
  rw [error_run]
  have : ¬ (Dyn.new O ntasks).error := by
    rintro ⟨w, hw, r, hr⟩
    rw [List.eq_of_mem_replicate hw] at hr
    cases hr
  simp only [this, false_or]

/-- Builds end: however the tasks are scheduled, and however the compare-exchanges clash, the tasks take no more steps
than this. -/
theorem C103_dynamic_ends (max batch ntasks : Nat) (hb : 0 < batch) (hmax : max < 2 ^ 64)
    (sched : List (Nat × Option O)) (h : Effective max batch (Dyn.new O ntasks) sched) :
    sched.length ≤ max * (ntasks + 4) + 3 * ntasks := by
  have := effective_bound hb hmax sched (inv_new (O := O) max batch ntasks) h
  refine this.trans (le_of_eq ?_)
  simp [Dyn.left, Dyn.new, Worker.weight, Nat.mul_comm]

/-- Two tasks, batches of two of five points; the second task loses a race. -/
example : ((Dyn.new Nat 2).run 5 2 [(0, none), (1, none), (0, none), (1, none), (1, none), (1, some 7), (0, some 8),
    (0, none), (0, none), (0, some 9), (0, none), (0, none), (1, none), (1, none)]) =
    ⟨5, [⟨.done, [((0, 2), 8), ((4, 5), 9)]⟩, ⟨.done, [((2, 4), 7)]⟩], 5⟩ := by decide +kernel

example : cut 5 2 = [(0, 2), (2, 4), (4, 5)] := by decide +kernel

example : Effective 5 2 (Dyn.new Nat 2) [(0, none), (1, none), (0, none), (1, none), (1, none), (1, some 7)] := by
  simp [Effective, Dyn.new, Dyn.step, Dyn.move, Worker.busy, List.replicate]

/-- A batch size of one does not make a build sequential, as its documentation says: two batches are in work at once, and
the second one may end before the first one. -/
theorem C103_batch_one_parallel : ∃ sched : List (Nat × Option Nat),
    ((Dyn.new Nat 2).run 2 1 sched).workers = [⟨.building (0, 1), []⟩, ⟨.building (1, 2), []⟩] :=
  ⟨[(0, none), (0, none), (1, none), (1, none)], by decide +kernel⟩

end Dynamic

/-! ## Builds with fixed parts -/

section Fixed

variable {O : Type}

/-- With a batch size a fixed build cuts each task's part and builds the points `0 .. max` in order, in non-empty batches
of at most that size; it succeeds exactly when all of them do, and returns their outputs under the numbers of their
tasks. Missing: batch sizes near `2 ^ 64`, where it is false (`C103_fixed_overflow`). -/
theorem C103_fixed_partial (max ntasks batch : Nat) (hn : 0 < ntasks) (hb : 0 < batch) (hmax : max + batch ≤ 2 ^ 64)
    (out : Rng → Option O) :
    (buildFixed max ntasks (some batch) out = none ↔
      ∃ p ∈ partitionIter max ntasks, ∃ r ∈ cutFrom p.1 p.2 batch, out r = none) ∧
    ∀ res, buildFixed max ntasks (some batch) out = some res →
      points (res.map (·.2.1)) = List.range max ∧
      (∀ t r o, (t, r, o) ∈ res → out r = some o ∧ r.1 < r.2 ∧ r.2 - r.1 ≤ batch ∧
        ∃ p, (partitionIter max ntasks)[t]? = some p ∧ p.1 ≤ r.1 ∧ r.2 ≤ p.2) := by
  have hsub : ∀ p ∈ partitionIter max ntasks, p.1 ≤ p.2 ∧ p.2 ≤ max := by
    intro p hp
    obtain ⟨j, hj⟩ := List.mem_iff_getElem?.1 hp
    rw [(C27_partition_iter max ntasks).2 j] at hj
    exact (C27_partition max ntasks hn).2.2.1 j p hj
  have hf : ∀ p ∈ partitionIter max ntasks, (fixedBatches (some batch) p).bind (runBatches out)
      = (collect out (cutFrom p.1 p.2 batch)).map fun os => (cutFrom p.1 p.2 batch).zip os := by
    intro p hp
    have := hsub p hp
    simp only [fixedBatches]
    rw [chunks_eq hb (by omega) _ _ (by omega), Option.bind_some, runBatches_eq]
  obtain ⟨c1, c2⟩ := collect_eq (fun p => (fixedBatches (some batch) p).bind (runBatches out))
    (partitionIter max ntasks)
  constructor
  · unfold buildFixed
    rw [Option.map_eq_none_iff, c2]
    constructor
    · rintro ⟨p, hp, h⟩
      rw [hf p hp, Option.map_eq_none_iff, (collect_eq _ _).2] at h
      exact ⟨p, hp, h⟩
    · rintro ⟨p, hp, h⟩
      refine ⟨p, hp, ?_⟩
      rw [hf p hp, Option.map_eq_none_iff, (collect_eq _ _).2]
      exact h
  · intro res hres
    unfold buildFixed at hres
    rw [Option.map_eq_some_iff] at hres
    obtain ⟨ts, hts, rfl⟩ := hres
    rw [c1] at hts
    -- each task's results
    have hts' : List.Forall₂ (fun p l => p.1 ≤ p.2 ∧ ∃ os, List.Forall₂ (fun r o => out r = some o)
        (cutFrom p.1 p.2 batch) os ∧ (cutFrom p.1 p.2 batch).zip os = l) (partitionIter max ntasks) ts := by
      rw [List.forall₂_iff_get] at hts ⊢
      refine ⟨hts.1, fun i h1 h2 => ?_⟩
      have h3 := hts.2 i h1 h2
      have hm : (partitionIter max ntasks).get ⟨i, h1⟩ ∈ partitionIter max ntasks := List.get_mem _ _
      rw [hf _ hm, Option.map_eq_some_iff] at h3
      obtain ⟨os, h4, h5⟩ := h3
      exact ⟨(hsub _ hm).1, os, ((collect_eq _ _).1 os).1 h4, h5⟩
    constructor
    · have e : (fun x : Nat × Rng × O => x.2.1) = (fun x : Rng × O => x.1) ∘ (fun x : Nat × Rng × O => x.2) := rfl
      rw [e, ← List.map_map, flatten_snd, ← Build.partition_ids max ntasks hn]
      clear hts
      generalize partitionIter max ntasks = ps at hts'
      induction hts' with
      | nil => rfl
      | cons h _ ih =>
        obtain ⟨hle, os, h1, rfl⟩ := h
        rw [List.flatten_cons, List.map_append, List.map_fst_zip (by rw [h1.length_eq])]
        rw [points, List.flatMap_append, ← points, ← points, ih, List.flatMap_cons]
        rw [points_cutFrom hb _ _ _ le_rfl hle]
    · intro t r o hm
      rw [flatten_mem] at hm
      obtain ⟨l, hl, hx⟩ := hm
      obtain ⟨ht, rfl⟩ := List.getElem?_eq_some_iff.1 hl
      have hlen := hts'.length_eq
      have ht' : t < (partitionIter max ntasks).length := by omega
      obtain ⟨-, os, h1, h2⟩ := (List.forall₂_iff_get.1 hts').2 t ht' ht
      simp only [List.get_eq_getElem] at h1 h2
      rw [← h2] at hx
      obtain ⟨i, hi, e⟩ := List.mem_iff_getElem.1 hx
      simp only [List.getElem_zip, Prod.mk.injEq] at e
      simp only [List.length_zip] at hi
      have h3 := (List.forall₂_iff_get.1 h1).2 i (by omega) (by omega)
      simp only [List.get_eq_getElem, e.1, e.2] at h3
      have h4 : r ∈ cutFrom (partitionIter max ntasks)[t].1 (partitionIter max ntasks)[t].2 batch := by
        rw [← e.1]; exact List.getElem_mem _
      obtain ⟨a1, a2, a3, a4⟩ := cutFrom_mem hb h4
      exact ⟨h3, a2, a4, _, List.getElem?_eq_getElem ht', a1, a3⟩

/-- Without a batch size every task builds its part as one batch. -/
theorem C103_fixed_whole (max ntasks : Nat) (hn : 0 < ntasks) (out : Rng → Option O) :
    (buildFixed max ntasks none out = none ↔ ∃ p ∈ partitionIter max ntasks, out p = none) ∧
    ∀ res, buildFixed max ntasks none out = some res →
      res.map (·.2.1) = partitionIter max ntasks ∧ points (res.map (·.2.1)) = List.range max ∧
      res.map (·.1) = List.range ntasks ∧ ∀ x ∈ res, out x.2.1 = some x.2.2 := by
  have hf : (fun p => (fixedBatches none p).bind (runBatches out)) = fun p : Rng => (out p).map fun o => [(p, o)] := by
    funext p
    simp only [fixedBatches, Option.bind_some, runBatches]
    match out p with
    | none => rfl
    | some o => rfl
  obtain ⟨c1, c2⟩ := collect_eq (fun p : Rng => (out p).map fun o => [(p, o)]) (partitionIter max ntasks)
  unfold buildFixed
  rw [hf]
  constructor
  · rw [Option.map_eq_none_iff, c2]
    simp only [Option.map_eq_none_iff]
  · intro res hres
    rw [Option.map_eq_some_iff] at hres
    obtain ⟨ts, hts, rfl⟩ := hres
    rw [c1] at hts
    have e : (fun x : Nat × Rng × O => x.2.1) = (fun x : Rng × O => x.1) ∘ (fun x : Nat × Rng × O => x.2) := rfl
    have hr : (flatten ts).map (·.2.1) = partitionIter max ntasks := by
      rw [e, ← List.map_map, flatten_snd]
      generalize partitionIter max ntasks = ps at hts
      induction hts with
      | nil => rfl
      | cons h _ ih =>
        rw [Option.map_eq_some_iff] at h
        obtain ⟨o, -, rfl⟩ := h
        simp only [List.flatten_cons, List.map_append, ih]
        rfl
    refine ⟨hr, ?_, ?_, ?_⟩
    · rw [hr]; exact Build.partition_ids max ntasks hn
    · have hl : ts.length = ntasks := by
        rw [← hts.length_eq]; exact (C27_partition_iter max ntasks).1
      have h1 : ∀ l ∈ ts, l.length = 1 := by
        intro l hl
        obtain ⟨i, hi, rfl⟩ := List.mem_iff_getElem.1 hl
        have := (List.forall₂_iff_get.1 hts).2 i (by rw [hts.length_eq]; exact hi) hi
        rw [Option.map_eq_some_iff] at this
        obtain ⟨o, -, h⟩ := this
        simp only [List.get_eq_getElem] at h
        rw [← h]; rfl
      rw [← hl]
      unfold flatten
      rw [List.map_flatMap]
      have : ∀ x ∈ (List.range ts.length).zip ts,
          List.map (fun y : Nat × Rng × O => y.1) (List.map (fun r => (x.1, r)) x.2) = [x.1] := by
        intro x hx
        obtain ⟨a, ha⟩ := List.length_eq_one_iff.1 (h1 x.2 (List.of_mem_zip hx).2)
        rw [ha]; rfl
      rw [List.flatMap_congr this, ← List.map_eq_flatMap]
      exact List.map_fst_zip (by simp)
    · rintro ⟨t, r, o⟩ hx
      rw [flatten_mem] at hx
      obtain ⟨l, hl, hx⟩ := hx
      obtain ⟨i, rfl⟩ := List.getElem?_eq_some_iff.1 hl
      have := (List.forall₂_iff_get.1 hts).2 t (by rw [hts.length_eq]; exact i) i
      rw [Option.map_eq_some_iff] at this
      obtain ⟨o', h1, h2⟩ := this
      simp only [List.get_eq_getElem] at h1 h2
      rw [← h2] at hx
      simp only [List.mem_singleton, Prod.mk.injEq] at hx
      rw [hx.1, hx.2]; exact h1

example : buildFixed 7 2 (some 2) (fun r => some r.1) =
    some [(0, (0, 2), 0), (0, (2, 4), 2), (1, (4, 6), 4), (1, (6, 7), 6)] := by decide +kernel

/-- Builders may assume that their range is not empty, says the documentation. Without a batch size, and with more tasks
than points, a builder gets an empty range. -/
theorem C103_fixed_empty (max ntasks : Nat) (h : max < ntasks) (out : Rng → Option O) (res : List (Nat × Rng × O))
    (hres : buildFixed max ntasks none out = some res) : ∃ x ∈ res, x.2.1.1 = x.2.1.2 := by
  obtain ⟨hr, -, -, -⟩ := (C103_fixed_whole max ntasks (by omega) out).2 res hres
  by_contra hc
  push Not at hc
  have hpos : ∀ p ∈ partitionIter max ntasks, 1 ≤ p.2 - p.1 := by
    intro p hp
    have hle : p.1 ≤ p.2 := by
      obtain ⟨j, hj⟩ := List.mem_iff_getElem?.1 hp
      rw [(C27_partition_iter max ntasks).2 j] at hj
      exact ((C27_partition max ntasks (by omega)).2.2.1 j p hj).1
    rw [← hr] at hp
    obtain ⟨x, hx, rfl⟩ := List.mem_map.1 hp
    have := hc x hx
    omega
  have hsum := Build.sum_partition max ntasks (by omega)
  have : ∀ l : List Rng, (∀ p ∈ l, 1 ≤ p.2 - p.1) → l.length ≤ (l.map fun r => r.2 - r.1).sum := by
    intro l
    induction l with
    | nil => simp
    | cons a l ih =>
      intro hl
      have h1 := hl a (by simp)
      have h2 := ih (fun p hp => hl p (by simp [hp]))
      simp only [List.length_cons, List.map_cons, List.sum_cons]; omega
  have := this _ hpos
  rw [hsum, (C27_partition_iter max ntasks).1] at this
  omega

example : buildFixed 1 2 none (fun r => some r.1) = some [(0, (0, 1), 0), (1, (1, 1), 1)] := by decide +kernel

/-- A part that is not longer than a batch is one batch, and this exactly if the start of the part plus the size of the
batch fits 64 bits; otherwise the task panics. -/
theorem C103_fixed_large_batch (lo hi batch : Nat) (h : lo < hi) (hb : hi - lo ≤ batch) :
    fixedBatches (some batch) (lo, hi) = if lo + batch < 2 ^ 64 then some [(lo, hi)] else none := by
  obtain ⟨k, hk⟩ : ∃ k, hi - lo = k + 1 := ⟨hi - lo - 1, by omega⟩
  simp only [fixedBatches, hk]
  rw [chunks, if_neg (by omega)]
  split
  · rw [Nat.min_eq_right (by omega), chunks, if_pos le_rfl]; rfl
  · rfl

example : fixedBatches (some (2 ^ 64 - 4)) (3, 9) = some [(3, 9)] ∧ fixedBatches (some (2 ^ 64 - 3)) (3, 9) = none := by
  decide +kernel

/-- A batch size above everything means one batch for each task, with dynamic balancing. With fixed parts its addition
overflows in every task but the first, and the build fails although every batch could be built. -/
theorem C103_fixed_overflow : (∀ out : Rng → Option O, buildFixed 3 2 (some (2 ^ 64 - 1)) out = none) ∧
    ∃ sched : List (Nat × Option Nat), ((Dyn.new Nat 2).run 3 (2 ^ 64 - 1) sched).workers
      = [⟨.done, [((0, 3), 1)]⟩, ⟨.done, []⟩] := by
  refine ⟨fun out => ?_, ⟨[(0, none), (0, none), (0, some 1), (0, none), (0, none), (1, none), (1, none)],
    by decide +kernel⟩⟩
  have e : partitionIter 3 2 = [(0, 2), (2, 3)] := by decide +kernel
  have e1 : fixedBatches (some (2 ^ 64 - 1)) (2, 3) = none := by decide +kernel
  have : collect (fun r => (fixedBatches (some (2 ^ 64 - 1)) r).bind (runBatches out)) (partitionIter 3 2) = none := by
    rw [(collect_eq _ _).2, e]
    exact ⟨(2, 3), by simp, by rw [e1]; rfl⟩
  unfold buildFixed
  rw [this]; rfl

end Fixed

/-! ## Searches -/

section Search

variable {I O : Type}

/-- Aggregation concatenates the rows of its parts, whatever their kinds, and never panics; the result is a matrix if all
parts are matrices of the same width. -/
theorem C103_aggregate (dflt : I) (parts : List (Ids I)) (h : ∀ p ∈ parts, p.ok) :
    ∃ res, (parts.foldl Agg.push .empty).finish dflt = some res ∧ res.rows = parts.flatMap Ids.rows ∧
      (∀ c, parts ≠ [] → (∀ p ∈ parts, ∃ r l, p = .fixed c r l) → ∃ r l, res = .fixed c r l) := by
  have hh := holds_fold parts .empty [] rfl h
  rw [List.nil_append] at hh
  generalize parts.foldl Agg.push .empty = a at hh
  cases a with
  | empty =>
    simp only [Agg.holds] at hh
    subst hh
    exact ⟨_, rfl, rfl, by simp⟩
  | fixed ps len cols =>
    obtain ⟨h0, rfl, rfl⟩ := hh
    have hok : ∀ p ∈ ps, p.1.length = p.2.length ∧ ∀ r ∈ p.1, r.length = cols := by
      intro p hp
      exact h (.fixed cols p.1 p.2) (List.mem_map_of_mem hp)
    have hlen : (ps.flatMap (·.1)).length = (ps.flatMap (·.2)).length := by
      simp only [List.length_flatMap]
      congr 1
      apply List.map_congr_left
      intro p hp
      exact (hok p hp).1
    have hc : copyRows (List.replicate (ps.flatMap (·.1)).length (List.replicate cols dflt)) 0 (ps.flatMap (·.1))
        = some (ps.flatMap (·.1)) := by
      rw [copyRows_eq (c := cols) _ _ _ (by simp) (fun r hr => by rw [List.eq_of_mem_replicate hr]; simp)]
      · simp
      · intro r hr
        obtain ⟨p, hp, hr⟩ := List.mem_flatMap.1 hr
        exact (hok p hp).2 r hr
    refine ⟨.fixed cols (ps.flatMap (·.1)) (ps.flatMap (·.2)), ?_, ?_, ?_⟩
    · simp only [Agg.finish, hc]
      rw [if_pos hlen]
    · simp only [Ids.rows]
      rw [zipWith_flat ps (fun p hp => (hok p hp).1), List.flatMap_map]
      rfl
    · intro c _ hcc
      obtain ⟨p, ps', rfl⟩ := List.exists_cons_of_ne_nil h0
      obtain ⟨r, l, e⟩ := hcc (.fixed cols p.1 p.2) (by simp)
      cases e
      exact ⟨_, _, rfl⟩
  | dynamic ps =>
    obtain ⟨rfl, h0, h1⟩ := hh
    exact ⟨_, rfl, rfl, fun c _ hcc => absurd ⟨c, hcc⟩ h1⟩

/-- Mixed kinds. -/
example : ((([.fixed 2 [[1, 2], [3, 0]] [2, 1], .dynamic [[4, 5, 6]], .fixed 1 [[7]] [1]] : List (Ids Nat)).foldl
    Agg.push .empty).finish 0).map Ids.rows = some [[1, 2], [3], [4, 5, 6], [7]] := by decide +kernel

/-- A search gives row `i` to query `i`, with the ids that query wrote, as many as the caller asked for, and the output
of that query, for every number of tasks. -/
theorem C103_search (dflt : I) (nq ntasks : Nat) (hn : 0 < ntasks) (count : IdCount)
    (query : Nat → Option (List (Write I) × O)) (ws : Nat → List (Write I)) (o : Nat → O)
    (h : ∀ i < nq, query i = some (ws i, o i)) :
    ∃ ids, search dflt nq ntasks count query = some (ids, (List.range nq).map o) ∧
      ids.rows = (List.range nq).map (fun i => row count (ws i)) := by
  have hbatch : ∀ qs : List Nat, (∀ i ∈ qs, i < nq) → ∃ ids, searchBatch dflt count query qs = some (ids, qs.map o) ∧
      ids.ok ∧ ids.rows = qs.map fun i => row count (ws i) := by
    intro qs hqs
    have hc : collect query qs = some (qs.map fun i => (ws i, o i)) := by
      rw [(collect_eq _ _).1, List.forall₂_map_right_iff, List.forall₂_same]
      exact fun i hi => h i (hqs i hi)
    unfold searchBatch
    rw [hc]
    cases count with
    | fixed n =>
      have key := fun i => slice_writes n (ws i) ⟨List.replicate n dflt, 0⟩ (by simp) (Nat.zero_le _)
      refine ⟨.fixed n (qs.map fun i => ((ws i).foldl Slice.write ⟨List.replicate n dflt, 0⟩).slots)
        (qs.map fun i => ((ws i).foldl Slice.write ⟨List.replicate n dflt, 0⟩).written), ?_, ⟨by simp, ?_⟩, ?_⟩
      · simp [Function.comp_def]
      · intro r hr
        simp only [List.mem_map] at hr
        obtain ⟨i, -, rfl⟩ := hr
        exact (key i).1
      · simp only [Ids.rows]
        rw [List.zipWith_map, List.zipWith_self]
        apply List.map_congr_left
        intro i _
        have := (key i).2
        simpa [row] using this
    | dynamic =>
      refine ⟨.dynamic (qs.map fun i => (ws i).foldl vecWrite []), by simp [Function.comp_def], trivial, ?_⟩
      simp only [Ids.rows]
      apply List.map_congr_left
      intro i _
      simp [vec_writes, row]
  -- the tasks
  have htask : ∀ ps : List Rng, (∀ p ∈ ps, p.1 ≤ p.2 ∧ p.2 ≤ nq) → ∃ parts : List (Ids I × List O),
      collect (fun r => searchBatch dflt count query (List.range' r.1 (r.2 - r.1))) ps = some parts ∧
      (∀ p ∈ parts, p.1.ok) ∧
      parts.flatMap (·.2) = (points ps).map o ∧
      (parts.map (·.1)).flatMap Ids.rows = (points ps).map fun i => row count (ws i) := by
    intro ps
    induction ps with
    | nil => intro _; exact ⟨[], rfl, by simp, rfl, rfl⟩
    | cons p ps ih =>
      intro hp
      obtain ⟨parts, e1, e2, e3, e4⟩ := ih (fun q hq => hp q (by simp [hq]))
      have hpp := hp p (by simp)
      obtain ⟨ids, f1, f2, f3⟩ := hbatch (List.range' p.1 (p.2 - p.1)) (by
        intro i hi
        have := List.mem_range'_1.1 hi
        omega)
      refine ⟨(ids, (List.range' p.1 (p.2 - p.1)).map o) :: parts, ?_, ?_, ?_, ?_⟩
      · simp only [collect, f1, e1]; rfl
      · intro q hq
        rcases List.mem_cons.1 hq with rfl | hq
        · exact f2
        · exact e2 q hq
      · rw [List.flatMap_cons, e3]
        simp only [points, List.flatMap_cons, List.map_append]
      · rw [List.map_cons, List.flatMap_cons, e4, f3]
        simp only [points, List.flatMap_cons, List.map_append]
  have hsub : ∀ p ∈ partitionIter nq ntasks, p.1 ≤ p.2 ∧ p.2 ≤ nq := by
    intro p hp
    obtain ⟨j, hj⟩ := List.mem_iff_getElem?.1 hp
    rw [(C27_partition_iter nq ntasks).2 j] at hj
    exact (C27_partition nq ntasks hn).2.2.1 j p hj
  obtain ⟨parts, e1, e2, e3, e4⟩ := htask _ hsub
  have hpts : points (partitionIter nq ntasks) = List.range nq := Build.partition_ids nq ntasks hn
  rw [hpts] at e3 e4
  obtain ⟨res, g1, g2, -⟩ := C103_aggregate dflt (parts.map (·.1)) (by
    intro p hp
    obtain ⟨q, hq, rfl⟩ := List.mem_map.1 hp
    exact e2 q hq)
  refine ⟨res, ?_, by rw [g2, e4]⟩
  unfold search
  rw [e1]
  simp only [g1, Option.map_some, e3]

/-- If one query fails, the search fails. -/
theorem C103_search_error (dflt : I) (nq ntasks : Nat) (hn : 0 < ntasks) (count : IdCount)
    (query : Nat → Option (List (Write I) × O)) (i : Nat) (hi : i < nq) (h : query i = none) :
    search dflt nq ntasks count query = none := by
  have hm : i ∈ points (partitionIter nq ntasks) := by
    rw [points, Build.partition_ids nq ntasks hn]; exact List.mem_range.2 hi
  obtain ⟨p, hp, hip⟩ := List.mem_flatMap.1 hm
  have : collect (fun r => searchBatch dflt count query (List.range' r.1 (r.2 - r.1))) (partitionIter nq ntasks)
      = none := by
    rw [(collect_eq _ _).2]
    refine ⟨p, hp, ?_⟩
    simp only [searchBatch]
    rw [(collect_eq _ _).2.2 ⟨i, hip, h⟩]
  unfold search
  rw [this]

example : (search 0 3 2 (.fixed 2) (fun i => some ([.push i, .extend [10, 20]], i * i))).map (fun r => (r.1.rows, r.2))
    = some ([[0, 10], [1, 10], [2, 10]], [0, 1, 4]) := by decide +kernel

end Search

end Verif.Harness
