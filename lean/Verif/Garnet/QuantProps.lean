import Verif.Garnet.QuantLemmas
/-
C109: a Garnet vector set becomes quantized without losing a vector.
-/
namespace Verif.Garnet.Quant

variable {V C : Type}

/-- Whenever the set works with codes, every stored vector has its code, and the start point has its code at
hand: over all interleavings of the backfill tasks with each other, with insertions and with removals, over
reused ids and restarts.  Missing: failing storage calls, tasks that are started twice (see below). -/
theorem C109_covered_partial (k : V → C) (sp : V) {es : List (Event V)} {s : State V C}
    (h : CleanRun k (init sp) es s) (hall : s.all = true) : Covered k s := by
  have hi := inv_cleanRun (inv_init k sp) h
  obtain ⟨h1, _, h3⟩ := hi.all hall
  refine ⟨fun i v hv => (hi.reuse h1).2 i v hv, ?_⟩
  intro v hv
  rw [hi.start] at hv
  cases hv
  exact h3

/-- Ids are given to new vectors only when every stored vector has its code: until then no code is written that
belongs to the vector of another element. -/
theorem C109_reuse_after_partial (k : V → C) (sp : V) {es : List (Event V)} {s : State V C}
    (h : CleanRun k (init sp) es s) (hr : s.reuse = true) :
    (∀ i v, s.vec i = some v → s.code i = some (k v)) ∧
    ∀ t ∈ s.tasks, (∀ i stop, t.pc ≠ .read i stop) ∧ ∀ i stop c, t.pc ≠ .write i stop c := by
  have hi := inv_cleanRun (inv_init k sp) h
  refine ⟨fun i v hv => (hi.reuse hr).2 i v hv, ?_⟩
  intro t ht
  have hc := all_counted hi ht (hi.full hr t ht) t ht
  constructor
  · intro i stop hp; rw [hp] at hc; cases hc
  · intro i stop c hp; rw [hp] at hc; cases hc

/-- When the tasks are over, whatever their order, the set works with codes. -/
theorem C109_finishes_partial (k : V → C) (sp : V) {es : List (Event V)} {s : State V C}
    (h : CleanRun k (init sp) es s) {l count : Nat} (hl : s.limit = some l) (hpos : 1 ≤ count)
    (hstarted : ∀ idx, idx < min count (l + 1) → ∃ t ∈ s.tasks, t.idx = idx ∧ t.n = min count (l + 1))
    (hover : ∀ t ∈ s.tasks, ∃ b, t.pc = .done b) : s.all = true := by
  have hi := inv_cleanRun (inv_init k sp) h
  obtain ⟨t, ht, _, hn⟩ := hstarted 0 (by omega)
  have hlen : min count (l + 1) ≤ s.tasks.length := by
    have hsub : (List.range (min count (l + 1))).Subperm (s.tasks.map Task.idx) := by
      refine List.subperm_of_subset List.nodup_range ?_
      intro i hi'
      obtain ⟨u, hu, hidx, _⟩ := hstarted i (List.mem_range.1 hi')
      exact List.mem_map.2 ⟨u, hu, hidx⟩
    have := hsub.length_le
    simpa using this
  have hle := tasks_le hi ht
  have hcount : (s.tasks.countP fun t => counted t.pc) = s.tasks.length := by
    rw [List.countP_eq_length]
    intro u hu
    obtain ⟨b, hb⟩ := hover u hu
    rw [hb]
    rfl
  have hc := hi.count
  rcases hi.finish ⟨t, ht, by omega⟩ with h1 | ⟨u, hu, h1⟩
  · exact h1
  · obtain ⟨b, hb⟩ := hover u hu
    rw [hb] at h1
    rcases h1 with h1 | h1 | h1 <;> cases h1

theorem stays_step {k : V → C} {sp : V} {s : State V C} (h : Inv k sp s) (ha : s.all = true) (e : Event V) :
    (step k s e).1.all = true := by
  cases e with
  | insert i v => exact ha
  | delete i => exact ha
  | train d w =>
    have ht : s.trained = true := by
      cases ht : s.trained with
      | true => rfl
      | false =>
        have := (h.untrained ht).2.1
        rw [(h.all ha).2.1] at this
        cases this
    show (train s d w).1.all = true
    unfold train
    rw [if_pos ht]
    exact ha
  | start idx count =>
    show (match startTask s idx count with | none => _ | some t => _ : State V C × Option Bool).1.all = true
    cases startTask s idx count <;> exact ha
  | run t ok =>
    show (match s.tasks[t]? with | none => _ | some th => _ : State V C × Option Bool).1.all = true
    cases s.tasks[t]? with
    | none => exact ha
    | some th =>
      show (stepTask k s th ok).1.all = true
      unfold stepTask
      split
      · split
        · split
          · exact ha
          · split <;> exact ha
        · exact ha
      · split <;> exact ha
      · split
        · exact ha
        · dsimp only; split <;> exact ha
      · exact ha
      · split
        · rfl
        · exact ha
      · exact ha
  | restart n =>
    show (restart s n).1.all = true
    unfold restart
    dsimp only
    rw [(h.all ha).2.1]
    dsimp only
    split <;> rfl

/-- Once the set works with codes, it does for ever, over all further calls and restarts. -/
theorem C109_stays_partial (k : V → C) (sp : V) {es es' : List (Event V)} {s t : State V C}
    (h : CleanRun k (init sp) es s) (hall : s.all = true) (h' : CleanRun k s es' t) :
    t.all = true ∧ Covered k t ∧ ∀ n, (∀ i, (t.vec i).isSome → i < n) → (restart t n).2 = true := by
  have hi := inv_cleanRun (inv_init k sp) h
  have key : Inv k sp t ∧ t.all = true := by
    clear h
    induction h' with
    | nil s => exact ⟨hi, hall⟩
    | @cons s e es t ha hc _ ih => exact ih (stays_step hi hall e) (inv_step hi e ha hc)
  obtain ⟨ht, hta⟩ := key
  obtain ⟨h1, _, h3⟩ := ht.all hta
  refine ⟨hta, ⟨fun i v hv => (ht.reuse h1).2 i v hv, ?_⟩, fun n hn => (inv_restart ht hn).2⟩
  intro v hv
  rw [ht.start] at hv
  cases hv
  exact h3

/-- A task with an index that is too large answers false and changes nothing; so does every task before the
quantizer was trained. -/
theorem C109_extra_tasks (k : V → C) (s : State V C) (idx count : Nat)
    (h : s.limit = none ∨ ∃ l, s.limit = some l ∧ min count (l + 1) ≤ idx) :
    step k s (.start idx count) = (s, some false) := by
  have : startTask s idx count = none := by
    unfold startTask
    rcases h with h | ⟨l, h, h2⟩
    · rw [h]
    · rw [h]
      dsimp only
      rw [if_pos h2]
  show (match startTask s idx count with | none => _ | some t => _ : State V C × Option Bool) = _
  rw [this]

/-- Training succeeds at most once: after a success every further training answers false, restarts included. -/
theorem C109_trained_once (s : State V C) (d w : Bool) (h : s.trained = true) : train s d w = (s, false) := by
  unfold train
  rw [if_pos h]

/-- What training answers: true exactly if the quantizer was not trained before, training succeeds and its state is
written; then, and only then, new vectors get codes and the vectors up to the last one are to be backfilled. -/
theorem C109_train_answers (s : State V C) (d w : Bool) :
    ((train s d w).2 = true ↔ s.trained = false ∧ d = true ∧ w = true) ∧
    ((train s d w).2 = true → (train s d w).1 = { s with trained := true, disk := some false, quant := true, limit := some (s.next - 1) }) ∧
    ((train s d w).2 = false → (train s d w).1 = { s with trained := s.trained || d }) := by
  cases h : s.trained <;> cases d <;> cases w <;> simp [train, h] <;> (cases s; cases h; rfl)

/-- What a task answers at its end: the last one true exactly if the state on disk says that the set is complete, and
the set works with codes; the others true. -/
theorem C109_task_answers (k : V → C) (s : State V C) (t : Nat) (th : Task C) (ok : Bool) (ht : s.tasks[t]? = some th) :
    (th.pc = .rmw → (step k s (.run t ok)).2 = some ok ∧
      (ok = true → (step k s (.run t ok)).1.disk = some true ∧ (step k s (.run t ok)).1.all = true) ∧
      (ok = false → (step k s (.run t ok)).1.disk = s.disk ∧ (step k s (.run t ok)).1.all = s.all)) ∧
    ∀ i stop, th.pc = .read i stop → stop ≤ i →
      (step k s (.run t ok)).2 = if s.completed + 1 = th.n then none else some true := by
  constructor
  · intro hp
    cases ok <;> simp [step, ht, stepTask, hp]
  · intro i stop hp hi
    simp only [step, ht, stepTask, hp]
    rw [if_neg (by omega)]
    by_cases hc : s.completed + 1 = th.n <;> simp [hc]

/-- The shares of the tasks: together all ids up to the limit, and none twice. -/
theorem C109_shares (s : State V C) (l count i : Nat) (hl : s.limit = some l) (hpos : 1 ≤ count) (hi : i ≤ l) :
    ∃ idx, (∃ t a b, startTask s idx count = some t ∧ t.pc = .read a b ∧ a ≤ i ∧ i < b) ∧
      ∀ idx', (∃ t a b, startTask s idx' count = some t ∧ t.pc = .read a b ∧ a ≤ i ∧ i < b) → idx' = idx := by
  obtain ⟨s1, s2, s3⟩ := share (l := l) (n := min count (l + 1)) (i := i) (by omega) (by omega)
  refine ⟨i / work l (min count (l + 1)), ?_, ?_⟩
  · refine ⟨_, _, _, by unfold startTask; rw [hl]; dsimp only; rw [if_neg (by omega)], rfl, s2, s3⟩
  · rintro idx' ⟨t, a, b, ht, hp, h1, h2⟩
    unfold startTask at ht
    rw [hl] at ht
    dsimp only at ht
    split at ht
    · cases ht
    · cases ht
      cases hp
      have h1' : work l (min count (l + 1)) * idx' ≤ i := h1
      have h2' : i < work l (min count (l + 1)) * (idx' + 1) := by
        have : i < min (work l (min count (l + 1)) * (idx' + 1)) (l + 1) := h2
        omega
      have hpos : 0 < work l (min count (l + 1)) := by
        rcases Nat.eq_zero_or_pos (work l (min count (l + 1))) with h0 | h0
        · rw [h0] at h2'; simp at h2'
        · exact h0
      have h3 : i / work l (min count (l + 1)) = idx' := by
        rw [Nat.div_eq_iff hpos]
        rw [Nat.mul_comm] at h1'
        rw [Nat.mul_comm, Nat.add_mul] at h2'
        omega
      exact h3.symm

/-! ### Disagreements -/

/-- Trained, not complete, and without a limit for the backfill. -/
structure Stuck (s : State V C) : Prop where
  disk : s.disk = some false
  trained : s.trained = true
  limit : s.limit = none
  tasks : s.tasks = []
  all : s.all = false
  quant : s.quant = false
  reuse : s.reuse = false

theorem stuck_restart (s : State V C) (n : Nat) (h : s.disk = some false) :
    Stuck (restart s n).1 ∧ (restart s n).2 = true := by
  unfold restart
  dsimp only
  rw [h]
  dsimp only
  split <;> exact ⟨⟨rfl, rfl, rfl, rfl, rfl, rfl, rfl⟩, rfl⟩

theorem stuck_step (k : V → C) {s : State V C} (h : Stuck s) (e : Event V) : Stuck (step k s e).1 := by
  cases e with
  | insert i v => exact ⟨h.disk, h.trained, h.limit, h.tasks, h.all, h.quant, h.reuse⟩
  | delete i => exact ⟨h.disk, h.trained, h.limit, h.tasks, h.all, h.quant, h.reuse⟩
  | train d w =>
    show Stuck (train s d w).1
    rw [C109_trained_once s d w h.trained]
    exact h
  | start idx count =>
    rw [C109_extra_tasks k s idx count (.inl h.limit)]
    exact h
  | run t ok =>
    show Stuck (match s.tasks[t]? with | none => _ | some th => _ : State V C × Option Bool).1
    rw [h.tasks]
    exact h
  | restart n => exact (stuck_restart s n h.disk).1

/-- Refutation for restarts: if the set is restarted after training and before the end of the backfill, it never
works with codes, over all further calls and restarts: training and backfilling answer false for ever, vectors
that are inserted get no codes, and ids of removed vectors are never reused.  Every restart tells Garnet that
quantization is needed. -/
theorem C109_restart_refuted (k : V → C) (s : State V C) (n : Nat) (h : s.disk = some false) {es : List (Event V)}
    {t : State V C} (hr : Run k (restart s n).1 es t) :
    t.all = false ∧ t.quant = false ∧ t.reuse = false ∧ (∀ d w, (train t d w).2 = false) ∧
    (∀ idx count, step k t (.start idx count) = (t, some false)) ∧
    ∀ required, needed required t = decide (t.next - 1 > required) := by
  have h0 := (stuck_restart s n h).1
  generalize (restart s n).1 = s' at hr h0
  have key : Stuck t := by
    induction hr with
    | nil s => exact h0
    | cons _ _ ih => exact ih (stuck_step k h0 _)
  refine ⟨key.all, key.quant, key.reuse, fun d w => by rw [C109_trained_once t d w key.trained],
    fun idx count => C109_extra_tasks k t idx count (.inl key.limit), ?_⟩
  intro r
  simp [needed, key.all, key.trained]

/-- Refutation of trying again: if the state of a trained quantizer cannot be written, training answers false,
and so does every further training until the set is restarted, and every backfill. -/
theorem C109_retry_refuted (k : V → C) (s : State V C) (h : s.trained = false) (hl : s.limit = none) {es : List (Event V)}
    {t : State V C} (hno : ∀ n, Event.restart n ∉ es) (hr : Run k (train s true false).1 es t) :
    (train s true false).2 = false ∧ (∀ d w, (train t d w).2 = false) ∧
    ∀ idx count, step k t (.start idx count) = (t, some false) := by
  have h0 : (train s true false).1.trained = true ∧ (train s true false).1.limit = none := by
    unfold train
    rw [if_neg (by simp [h])]
    exact ⟨rfl, hl⟩
  have key : t.trained = true ∧ t.limit = none := by
    generalize (train s true false).1 = s' at hr h0
    induction hr with
    | nil s => exact h0
    | @cons s e es t ha _ ih =>
      refine ih (fun n hn => hno n (by simp [hn])) ?_
      cases e with
      | insert i v => exact h0
      | delete i => exact h0
      | train d w =>
        show (train s d w).1.trained = true ∧ _
        rw [show (step k s (.train d w)).1 = (train s d w).1 from rfl, C109_trained_once s d w h0.1]
        exact h0
      | start idx count => rw [C109_extra_tasks k s idx count (.inl h0.2)]; exact h0
      | run t ok =>
        show (match s.tasks[t]? with | none => _ | some th => _ : State V C × Option Bool).1.trained = true ∧
          (match s.tasks[t]? with | none => _ | some th => _ : State V C × Option Bool).1.limit = none
        cases s.tasks[t]? with
        | none => exact h0
        | some th =>
          show (stepTask k s th ok).1.trained = true ∧ (stepTask k s th ok).1.limit = none
          unfold stepTask
          split
          · split
            · split
              · exact h0
              · split <;> exact h0
            · exact h0
          · split <;> exact h0
          · split
            · exact h0
            · dsimp only; split <;> exact h0
          · exact h0
          · split <;> exact h0
          · exact h0
      | restart n => exact absurd (List.mem_cons_self ..) (hno n)
  refine ⟨?_, fun d w => by rw [C109_trained_once t d w key.1],
    fun idx count => C109_extra_tasks k t idx count (.inl key.2)⟩
  unfold train
  rw [if_neg (by simp [h])]
  rfl

/-- A run of events as a function. -/
def runs (k : V → C) (s : State V C) (es : List (Event V)) : State V C := es.foldl (fun s e => (step k s e).1) s

/-- The answers of the calls that end in a run. -/
def answers (k : V → C) : State V C → List (Event V) → List (Option Bool)
  | _, [] => []
  | s, e :: es => (step k s e).2 :: answers k (step k s e).1 es

/-- One vector, one task. -/
def oneTask (third fourth point : Bool) : List (Event Nat) :=
  [.insert 1 10, .train true true, .start 0 1, .run 0 true, .run 0 third, .run 0 true, .run 0 fourth, .run 0 true,
   .run 0 point, .run 0 true, .run 0 true]

example : (runs (· + 1) (init 7) (oneTask true true true)).all = true ∧
    (runs (· + 1) (init 7) (oneTask true true true)).code 1 = some 11 ∧
    (runs (· + 1) (init 7) (oneTask true true true)).startCode = some 8 := by decide

/-- The hypotheses of the theorems are met by this run. -/
example : CleanRun (· + 1) (init 7) (oneTask true true true) (runs (· + 1) (init 7) (oneTask true true true)) := by
  refine .cons ⟨by decide, .inl rfl⟩ trivial (.cons trivial trivial (.cons trivial ⟨?_, ?_⟩ ?_))
  · intro t ht; simp [step, insert, train, init] at ht
  · intro l _ t ht; simp [step, insert, train, init] at ht
  · repeat' first | exact .nil _ | refine .cons trivial rfl ?_

/-- Refutation for failing writes: a code that cannot be written is skipped, every call answers true, and the set
works with codes although a vector has none: searches cannot find it. -/
theorem C109_failed_write_refuted :
    (answers (· + 1) (init 7) (oneTask true false true)) =
      [some true, some true, none, none, none, none, none, none, none, none, some true] ∧
    (runs (· + 1) (init 7) (oneTask true false true)).all = true ∧
    (runs (· + 1) (init 7) (oneTask true false true)).vec 1 = some 10 ∧
    (runs (· + 1) (init 7) (oneTask true false true)).code 1 = none := by decide

/-- Refutation for the start point: if its code cannot be written the set works with codes, but cannot be opened
again after a restart. -/
theorem C109_start_point_refuted :
    (runs (· + 1) (init 7) (oneTask false true false)).all = true ∧
    ∀ n, (restart (runs (· + 1) (init 7) (oneTask false true false)) n).2 = false := by
  refine ⟨by decide, fun n => ?_⟩
  have h1 : (runs (· + 1) (init 7) (oneTask false true false)).disk = some true := by decide
  have h2 : (runs (· + 1) (init 7) (oneTask false true false)).code 0 = none := by decide
  unfold restart
  dsimp only
  rw [h1, h2]
  rfl

/-- The first of two tasks started twice, the second never. -/
def sameTask : List (Event Nat) :=
  [.insert 1 10, .train true true, .start 0 2, .start 0 2, .run 0 true, .run 0 true, .run 0 true, .run 1 true,
   .run 1 true, .run 1 true, .run 1 true, .run 1 true, .run 1 true]

/-- Refutation for tasks that are started again: what counts is the number of calls that are over, not which: the
set works with codes although the second task never ran. -/
theorem C109_same_task_refuted :
    (runs (· + 1) (init 7) sameTask).all = true ∧ (runs (· + 1) (init 7) sameTask).vec 1 = some 10 ∧
    (runs (· + 1) (init 7) sameTask).code 1 = none := by decide

/-- A restart between training and the end of the backfill is reachable. -/
example : (runs (· + 1) (init 7) ([.insert 1 10, .train true true, .start 0 1, .run 0 true] : List (Event Nat))).disk =
    some false := by decide

example : (init 7 : State Nat Nat).trained = false ∧ (init 7 : State Nat Nat).limit = none := ⟨rfl, rfl⟩

end Verif.Garnet.Quant
