import Verif.Inmem.IdsLemmas

/-! # C22, C23: the id map and all-or-nothing inserts and deletes

`PRun cap s es`: provider state `s` is reachable from an empty provider of capacity `cap` by any number of
concurrent `set_element` and `delete` calls, interleaved in any way (and with reclamation happening at any
time); `es` are the results returned so far. -/

namespace Verif.Inmem

theorem PRun.inv {cap : Nat} {s : PState} {es : List PEvent} (h : PRun cap s es) : PInv cap s := by
  induction h with
  | start => exact init_pinv cap
  | step a c _ hact ih => exact pact_pinv ih hact

variable {cap : Nat} {s s' : PState} {es : List PEvent}

/-! ## The map on its own -/

/-- C22: what the two lookup functions show of a map. -/
structure Agrees (m : Maps) (pairs : List (Nat × Nat)) : Prop where
  fwd : ∀ e i, m.toInternal e = some i ↔ (e, i) ∈ pairs
  bwd : ∀ i e, m.toExternal i = some (some e) ↔ (e, i) ∈ pairs
  total : ∀ i, m.toExternal i ≠ none
  bound : ∀ e i, (e, i) ∈ pairs → i < m.capacity

theorem agrees_nil (cap : Nat) : Agrees (Maps.new cap) [] := by
  constructor
  · simp [Maps.new, Maps.toInternal]
  · intro i e
    simp only [Maps.toExternal]
    split
    · simp
    · rename_i h; rw [back_eq _ (by omega)]; simp [Maps.B, Maps.new]
  · intro i
    simp only [Maps.toExternal]
    split
    · simp
    · rename_i h; rw [back_eq _ (by omega)]; simp
  · simp

theorem toExternal_eq (m : Maps) (i : Nat) :
    m.toExternal i = some (if i < m.capacity then m.B i else none) := by
  unfold Maps.toExternal
  by_cases h : i < m.capacity
  · rw [if_neg (by omega), if_pos h, back_eq m h]
  · rw [if_pos (by omega), if_neg h]

/-- C22: `insert` on a map that shows the pairs `pairs` never panics, and fails exactly when the internal id is
out of range, the external id is taken or the internal id is taken — in which case the map is the very same
object — and otherwise the map shows exactly one pair more. -/
theorem C22_insert {m : Maps} {pairs : List (Nat × Nat)} (h : Agrees m pairs) (e i : Nat) :
    ∃ m' r, m.insert e i = some (m', r) ∧
      ((m.capacity ≤ i ∧ r = .error .outOfBounds ∧ m' = m) ∨
       (i < m.capacity ∧ (∃ j, (e, j) ∈ pairs) ∧ r = .error .externalExists ∧ m' = m) ∨
       (i < m.capacity ∧ (¬ ∃ j, (e, j) ∈ pairs) ∧ (∃ x, (x, i) ∈ pairs) ∧ r = .error .internalExists ∧ m' = m) ∨
       (i < m.capacity ∧ (¬ ∃ j, (e, j) ∈ pairs) ∧ (¬ ∃ x, (x, i) ∈ pairs) ∧ r = .ok () ∧
          Agrees m' ((e, i) :: pairs))) := by
  by_cases hi : i < m.capacity
  · have hB : ∀ x, m.B i = some x ↔ (x, i) ∈ pairs := by
      intro x
      rw [← h.bwd, toExternal_eq, if_pos hi, Option.some.injEq]
    rcases insert_cases m (e := e) hi with ⟨h1, h2⟩ | ⟨h1, h2, h3⟩ | ⟨h1, h2, h3⟩
    · refine ⟨m, _, h2, Or.inr (Or.inl ⟨hi, ?_, rfl, rfl⟩)⟩
      obtain ⟨j, hj⟩ := Option.ne_none_iff_exists'.mp h1
      exact ⟨j, (h.fwd e j).mp hj⟩
    · refine ⟨m, _, h3, Or.inr (Or.inr (Or.inl ⟨hi, ?_, ?_, rfl, rfl⟩))⟩
      · rintro ⟨j, hj⟩
        have := (h.fwd e j).mpr hj
        rw [Maps.toInternal, h1] at this; cases this
      · obtain ⟨x, hx⟩ := Option.ne_none_iff_exists'.mp h2
        exact ⟨x, (hB x).mp hx⟩
    · have he : ¬ ∃ j, (e, j) ∈ pairs := by
        rintro ⟨j, hj⟩
        have := (h.fwd e j).mpr hj
        rw [Maps.toInternal, h1] at this; cases this
      have hx : ¬ ∃ x, (x, i) ∈ pairs := by
        rintro ⟨x, hx⟩
        rw [← hB, h2] at hx; cases hx
      refine ⟨_, _, h3, Or.inr (Or.inr (Or.inr ⟨hi, he, hx, rfl, ?_⟩))⟩
      have hB' : ∀ j, Maps.B { m.setBack i (some e) with forward := upd m.forward e (some i) } j =
          if j = i then some e else m.B j := fun j => B_setBack m i (some e) j
      constructor
      · intro x j
        simp only [Maps.toInternal, upd_apply, List.mem_cons, Prod.mk.injEq]
        by_cases hxe : x = e
        · subst hxe
          simp only [if_true, Option.some.injEq, true_and]
          constructor
          · rintro rfl; exact Or.inl rfl
          · rintro (rfl | hm)
            · rfl
            · exact absurd ⟨j, hm⟩ he
        · simp only [if_neg hxe, hxe, false_and, false_or]
          exact h.fwd x j
      · intro j x
        rw [toExternal_eq, hB']
        simp only [List.mem_cons, Prod.mk.injEq, Option.some.injEq]
        by_cases hji : j = i
        · subst hji
          rw [if_pos (show j < (m.setBack j (some e)).capacity from hi), if_pos rfl, Option.some.injEq]
          constructor
          · rintro rfl; exact Or.inl ⟨rfl, rfl⟩
          · rintro (⟨rfl, -⟩ | hm)
            · rfl
            · exact absurd ⟨x, hm⟩ hx
        · rw [if_neg hji]
          have := h.bwd j x
          rw [toExternal_eq, Option.some.injEq] at this
          constructor
          · intro h'; exact Or.inr (this.mp h')
          · rintro (⟨-, rfl⟩ | hm)
            · exact absurd rfl hji
            · exact this.mpr hm
      · intro j; rw [toExternal_eq]; simp
      · intro x j hxj
        rcases List.mem_cons.mp hxj with hxj | hxj
        · simp only [Prod.mk.injEq] at hxj; rw [hxj.2]; exact hi
        · exact h.bound x j hxj
  · refine ⟨m, .error .outOfBounds, ?_, Or.inl ⟨by omega, rfl, rfl⟩⟩
    unfold Maps.insert; rw [if_pos (by omega)]

/-- C22: looking up an entry for deletion never trips its assertion, and deleting it removes the pair in both
directions and nothing else. -/
theorem C22_delete {m : Maps} {pairs : List (Nat × Nat)} (h : Agrees m pairs) (e : Nat) :
    (m.occupiedEntry e = some none ∧ ∀ i, (e, i) ∉ pairs) ∨
    ∃ i, m.occupiedEntry e = some (some i) ∧ (e, i) ∈ pairs ∧
      Agrees (m.deleteEntry e i) (pairs.filter fun p => p ≠ (e, i)) := by
  unfold Maps.occupiedEntry
  cases hf : m.forward e with
  | none =>
    left
    refine ⟨rfl, fun i hi => ?_⟩
    have := (h.fwd e i).mpr hi
    rw [Maps.toInternal, hf] at this; cases this
  | some i =>
    right
    have hm : (e, i) ∈ pairs := (h.fwd e i).mp hf
    have hi := h.bound e i hm
    have hB : ∀ j x, j < m.capacity → (m.B j = some x ↔ (x, j) ∈ pairs) := by
      intro j x hj
      rw [← h.bwd, toExternal_eq, if_pos hj, Option.some.injEq]
    have hBi := (hB i e hi).mpr hm
    refine ⟨i, ?_, hm, ?_⟩
    · simp only [back_eq m hi, hBi]
    · have hB' : ∀ j, (m.deleteEntry e i).B j = if j = i then none else m.B j :=
        fun j => B_setBack (m.removeForward e) i none j
      have hcap : (m.deleteEntry e i).capacity = m.capacity := rfl
      constructor
      · intro x j
        show upd m.forward e none x = some j ↔ _
        simp only [upd_apply, List.mem_filter, decide_eq_true_eq, ne_eq, Prod.mk.injEq, not_and]
        by_cases hxe : x = e
        · subst hxe
          simp only [if_true, reduceCtorEq, false_iff, not_and, forall_const, not_not]
          intro hmj
          have := (h.fwd x j).mpr hmj
          rw [Maps.toInternal, hf] at this
          exact (Option.some.inj this).symm
        · simp only [if_neg hxe, hxe, false_implies, and_true]
          exact h.fwd x j
      · intro j x
        rw [toExternal_eq, hB', hcap]
        simp only [List.mem_filter, decide_eq_true_eq, ne_eq, Prod.mk.injEq, not_and, Option.some.injEq]
        by_cases hji : j = i
        · subst hji
          rw [if_pos hi, if_pos rfl]
          simp only [reduceCtorEq, not_true, imp_false, false_iff, not_and, not_not]
          intro hx
          have h1 := (hB j x hi).mpr hx
          rw [hBi] at h1
          exact (Option.some.inj h1).symm
        · rw [if_neg hji]
          simp only [hji, not_false_eq_true, implies_true, and_true]
          have := h.bwd j x
          rw [toExternal_eq, Option.some.injEq] at this
          exact this
      · intro j; rw [toExternal_eq]; simp
      · intro x j hx
        rw [hcap]
        exact h.bound x j (List.mem_filter.mp hx).1

/-- A sequential history of the map: `true, e, i` = insert, `false, e, _` = delete if present. -/
def Maps.history (m : Maps) : List (Bool × Nat × Nat) → Option Maps
  | [] => some m
  | (true, e, i) :: rest =>
    match m.insert e i with
    | none => none
    | some (m', _) => m'.history rest
  | (false, e, _) :: rest =>
    match m.occupiedEntry e with
    | none => none
    | some none => m.history rest
    | some (some i) => (m.deleteEntry e i).history rest

/-- C22: after any sequential history the two directions are mutually inverse and no operation panicked. -/
theorem C22_bijection (cap : Nat) (ops : List (Bool × Nat × Nat)) :
    ∃ m, (Maps.new cap).history ops = some m ∧
      ∀ e i, m.toInternal e = some i ↔ m.toExternal i = some (some e) := by
  suffices H : ∀ m pairs, Agrees m pairs → ∃ m' pairs', m.history ops = some m' ∧ Agrees m' pairs' by
    obtain ⟨m', pairs', h1, h2⟩ := H _ _ (agrees_nil cap)
    exact ⟨m', h1, fun e i => (h2.fwd e i).trans (h2.bwd i e).symm⟩
  induction ops with
  | nil => intro m pairs h; exact ⟨m, pairs, rfl, h⟩
  | cons op rest ih =>
    intro m pairs h
    obtain ⟨b, e, i⟩ := op
    cases b with
    | true =>
      obtain ⟨m', r, h1, h2⟩ := C22_insert h e i
      simp only [Maps.history, h1]
      rcases h2 with ⟨-, -, rfl⟩ | ⟨-, -, -, rfl⟩ | ⟨-, -, -, -, rfl⟩ | ⟨-, -, -, -, h3⟩
      · exact ih _ _ h
      · exact ih _ _ h
      · exact ih _ _ h
      · exact ih _ _ h3
    | false =>
      rcases C22_delete h e with ⟨h1, -⟩ | ⟨j, h1, -, h3⟩
      · simp only [Maps.history, h1]; exact ih _ _ h
      · simp only [Maps.history, h1]; exact ih _ _ h3

/-- Inserting across the 1024-entry shard boundary, colliding inserts, deleting, re-inserting. -/
example : ((Maps.new 2000).history
    [(true, 7, 1023), (true, 8, 1024), (true, 7, 5), (true, 9, 1024), (true, 1, 2000), (false, 7, 0), (true, 9, 1023)]).map
    (fun m => ([m.toInternal 7, m.toInternal 8, m.toInternal 9], [m.toExternal 1023, m.toExternal 1024])) =
    some ([none, some 1024, some 1023], [some (some 9), some (some 8)]) := by decide +kernel

/-! ## Concurrent use by the provider -/

/-- C22: at every moment of every concurrent history, a forward mapping is matched by the backward mapping, and
a backward mapping without forward mapping belongs to a delete that is between its two removals. -/
theorem C22_concurrent (h : PRun cap s es) (e i : Nat) :
    (s.maps.toInternal e = some i → i < cap ∧ s.maps.toExternal i = some (some e)) ∧
    (s.maps.toExternal i = some (some e) → s.maps.toInternal e = some i ∨ ∃ a, s.pcs a = .delForward e i) := by
  have hI := h.inv
  constructor
  · intro hf
    obtain ⟨h1, h2, -⟩ := hI.fb e i hf
    refine ⟨h1, ?_⟩
    rw [toExternal_eq, hI.capEq, if_pos h1, show s.maps.B i = some e from h2]
  · intro hb
    rw [toExternal_eq, hI.capEq] at hb
    split at hb
    · rename_i hi
      rcases hI.bf e i (Option.some.inj hb) with h1 | ⟨a, ha⟩
      · exact Or.inl h1
      · right
        refine ⟨a, ?_⟩
        cases hp : s.pcs a <;> rw [hp] at ha <;> simp_all [HalfDel]
    · cases hb

/-- C22/C23: the "removed improperly" assertion and the shard indexing never panic. -/
theorem C22_never_panics (h : PRun cap s es) (a : Nat) : s.pcs a ≠ .panicked := h.inv.noPanic a

/-- C23: whenever no call is running, the mapped ids are exactly the readable slots: an id is mapped to a slot
iff that slot is published and maps back to the id, and every other slot is free or awaiting reclamation. -/
theorem C23_quiescent (h : PRun cap s es) (hq : ∀ a, s.pcs a = .idle) :
    (∀ e i, s.maps.toInternal e = some i →
      s.tags i = PUBLISHED ∧ i < cap ∧ s.maps.toExternal i = some (some e)) ∧
    (∀ i, s.tags i = PUBLISHED → ∃ e, s.maps.toInternal e = some i) ∧
    (∀ i, s.tags i ≠ PUBLISHED → s.maps.toExternal i = some none ∧ (s.tags i = AVAILABLE ∨ s.tags i = RETIRING)) := by
  have hI := h.inv
  refine ⟨?_, ?_, ?_⟩
  · intro e i hf
    obtain ⟨h1, h2⟩ := (C22_concurrent h e i).1 hf
    refine ⟨?_, h1, h2⟩
    obtain ⟨-, hB, -⟩ := hI.fb e i hf
    rcases hI.bt e i hB with h3 | ⟨a, ha⟩ | ⟨a, ha⟩
    · exact h3
    · rw [hq a] at ha; exact ha.elim
    · rw [hq a] at ha; exact ha.elim
  · intro i hi
    exact (hI.pub i hi).1
  · intro i hi
    constructor
    · rw [toExternal_eq]
      split
      · cases hB : s.maps.B i with
        | none => rfl
        | some e =>
          exfalso
          rcases hI.bt e i hB with h3 | ⟨a, ha⟩ | ⟨a, ha⟩
          · exact hi h3
          · rw [hq a] at ha; exact ha
          · rw [hq a] at ha; exact ha
      · rfl
    · rcases hI.tagCases i with h1 | h1 | h1 | h1
      · exact Or.inl h1
      · obtain ⟨a, ha⟩ := hI.ownBack i h1
        rw [hq a] at ha; exact ha.elim
      · exact absurd h1 hi
      · exact Or.inr h1

/-- C23: a failing `set_element` leaves the id map exactly as it was, and the slot it had acquired (if it got
that far) is available again. -/
theorem C23_failed_set (hact : pact a c s = some (s', some (.setErr e))) :
    s'.maps = s.maps ∧ (∀ i, s.pcs a = .setOwned e i ∨ s.pcs a = .setEncoded e i → s'.tags i = AVAILABLE) := by
  unfold pact at hact
  simp only at hact
  split at hact <;> rename_i hpc
  all_goals try (repeat' split at hact) <;> simp at hact
  · obtain ⟨rfl, rfl⟩ := hact
    refine ⟨rfl, fun i hi => ?_⟩
    rw [hpc] at hi; simp at hi
  · obtain ⟨rfl, rfl⟩ := hact
    refine ⟨rfl, fun i hi => ?_⟩
    rw [hpc] at hi
    simp only [PPC.setOwned.injEq, true_and, reduceCtorEq, or_false] at hi
    subst hi; exact upd_self _ _ _
  · rename_i e' i' _ _ m err hins
    obtain ⟨rfl, rfl⟩ := hact
    have hm : m = s.maps := by
      unfold Maps.insert at hins
      repeat' split at hins
      all_goals simp_all
    refine ⟨hm, fun i hi => ?_⟩
    rw [hpc] at hi
    simp only [PPC.setEncoded.injEq, true_and, reduceCtorEq, false_or] at hi
    subst hi; exact upd_self _ _ _

/-- C23: the steps of `set_element` before its failure point do not touch the map either: the map changes only
when the mapping is inserted, and after that the call can only succeed. -/
theorem C23_set_point_of_no_return (hact : pact a c s = some (s', ev)) :
    (∀ e i, s.pcs a = .setOwned e i → s'.maps = s.maps) ∧
    (∀ e i, s.pcs a = .setEncoded e i → s'.maps = s.maps ∨ s'.pcs a = .setMapped e i) ∧
    (∀ e i, s.pcs a = .setMapped e i → ev = some (.setOk e i)) := by
  refine ⟨?_, ?_, ?_⟩
  · intro e i hpc
    cases c <;> simp only [pact, hpc, reduceCtorEq] at hact
    split at hact <;> · simp only [Option.some.injEq, Prod.mk.injEq] at hact; rw [← hact.1]
  · intro e i hpc
    cases c <;> simp only [pact, hpc, reduceCtorEq] at hact
    split at hact
    · split at hact
      · simp only [Option.some.injEq, Prod.mk.injEq] at hact; rw [← hact.1]; exact Or.inl rfl
      · rename_i m err hins
        simp only [Option.some.injEq, Prod.mk.injEq] at hact
        rw [← hact.1]
        left
        unfold Maps.insert at hins
        repeat' split at hins
        all_goals simp_all
      · simp only [Option.some.injEq, Prod.mk.injEq] at hact; rw [← hact.1]; exact Or.inr (upd_self _ _ _)
    · cases hact
  · intro e i hpc
    cases c <;> simp only [pact, hpc, reduceCtorEq] at hact
    simp only [Option.some.injEq, Prod.mk.injEq] at hact; exact hact.2.symm

/-- C23: when `set_element` succeeds, the id is mapped to the slot in both directions and the slot is
readable. -/
theorem C23_successful_set (h : PRun cap s es) (hact : pact a c s = some (s', some (.setOk e i))) :
    s'.maps.toInternal e = some i ∧ s'.maps.toExternal i = some (some e) ∧ s'.tags i = PUBLISHED := by
  have hrun : PRun cap s' _ := PRun.step a c h hact
  have hm : s.pcs a = .setMapped e i ∧ s'.maps = s.maps ∧ s'.tags i = PUBLISHED := by
    unfold pact at hact
    simp only at hact
    split at hact <;> rename_i hpc
    all_goals try (repeat' split at hact) <;> simp at hact
    obtain ⟨rfl, rfl, rfl⟩ := hact
    exact ⟨hpc, rfl, upd_self _ _ _⟩
  obtain ⟨h1, h2, h3⟩ := hm
  have hf := (h.inv.mapped a e i (by rw [h1]; exact ⟨rfl, rfl⟩)).1
  have hf' : s'.maps.toInternal e = some i := by rw [h2]; exact hf
  exact ⟨hf', ((C22_concurrent hrun e i).1 hf').2, h3⟩

/-- C23: the slot handed to an insert never still carries an old mapping: `InternalExists` cannot happen. -/
theorem C23_internal_never_exists (h : PRun cap s es) {a e i : Nat} (hpc : s.pcs a = .setEncoded e i)
    (hl : s.shardLock (shardOf i).1 = none) :
    s.maps.insert e i ≠ some (s.maps, .error .internalExists) := by
  have hI := h.inv
  obtain ⟨ht, hi⟩ := hI.own a i (by rw [hpc]; rfl)
  have hB : s.maps.B i = none := by
    cases hB : s.maps.B i with
    | none => rfl
    | some x =>
      exfalso
      rcases hI.bt x i hB with h3 | ⟨b, hb⟩ | ⟨b, hb⟩
      · rw [h3] at ht; exact absurd ht (by decide)
      · have := hI.ownUniq a b i (by rw [hpc]; rfl) (halfSet_owns hb)
        subst this
        rw [hpc] at hb; exact hb
      · exact not_rel hl b ((hI.shard b _).mp (dying_shard hb))
  rcases insert_cases s.maps (e := e) (hI.capEq ▸ hi) with ⟨h1, h2⟩ | ⟨h1, h2, h3⟩ | ⟨h1, h2, h3⟩
  · rw [h2]; simp
  · exact absurd hB h2
  · rw [h3]; simp

/-- C23: a failing `delete` leaves both the map and every slot untouched. -/
theorem C23_failed_delete (hact : pact a c s = some (s', some (.delErr e))) :
    s'.maps = s.maps ∧ s'.tags = s.tags := by
  unfold pact at hact
  simp only at hact
  split at hact <;> rename_i hpc
  all_goals try (repeat' split at hact) <;> simp at hact
  all_goals obtain ⟨rfl, rfl⟩ := hact; exact ⟨rfl, rfl⟩

/-- C23: looking up the entry, the first step of `delete`, changes neither map nor slots; and once the slot is
retired the call can only succeed. -/
theorem C23_delete_point_of_no_return (hact : pact a c s = some (s', ev)) :
    (∀ e, s.pcs a = .idle → c = .delete e → s'.maps = s.maps ∧ s'.tags = s.tags) ∧
    (∀ e i, s.pcs a = .delRetired e i → ev = none ∧ s'.pcs a = .delForward e i) ∧
    (∀ e i, s.pcs a = .delForward e i → ev = some (.delOk e i)) := by
  refine ⟨?_, ?_, ?_⟩
  · rintro e hpc rfl
    simp only [pact, hpc] at hact
    repeat' split at hact
    all_goals first
      | (simp only [Option.some.injEq, Prod.mk.injEq] at hact; rw [← hact.1]; exact ⟨rfl, rfl⟩)
      | cases hact
  · intro e i hpc
    cases c <;> simp only [pact, hpc, reduceCtorEq] at hact
    simp only [Option.some.injEq, Prod.mk.injEq] at hact; rw [← hact.1, ← hact.2]; exact ⟨rfl, upd_self _ _ _⟩
  · intro e i hpc
    cases c <;> simp only [pact, hpc, reduceCtorEq] at hact
    simp only [Option.some.injEq, Prod.mk.injEq] at hact; exact hact.2.symm

/-- C23: when `delete` succeeds, the slot is mapped to nothing, the id no longer maps to that slot, and the slot
is not readable. -/
theorem C23_successful_delete (h : PRun cap s es) (hact : pact a c s = some (s', some (.delOk e i))) :
    s'.maps.toExternal i = some none ∧ s'.maps.toInternal e ≠ some i ∧ s'.tags i ≠ PUBLISHED := by
  have hrun : PRun cap s' _ := PRun.step a c h hact
  have hm : s.pcs a = .delForward e i ∧ s'.maps = s.maps.setBack i none ∧ s'.tags = s.tags := by
    unfold pact at hact
    simp only at hact
    split at hact <;> rename_i hpc
    all_goals try (repeat' split at hact) <;> simp at hact
    obtain ⟨rfl, rfl, rfl⟩ := hact
    exact ⟨hpc, rfl, rfl⟩
  obtain ⟨h1, h2, h3⟩ := hm
  have hx : s'.maps.toExternal i = some none := by
    rw [toExternal_eq, h2, B_setBack, if_pos rfl]; simp
  refine ⟨hx, ?_, ?_⟩
  · intro hf
    have := ((C22_concurrent hrun e i).1 hf).2
    rw [hx] at this; simp at this
  · rw [h3]
    intro ht
    exact (h.inv.pub i ht).2 a (by rw [h1]; rfl)

/-- Two inserts of the same id race; one wins, the loser's slot is free again; then a delete runs while the id is
re-inserted elsewhere. -/
def exProvider : List (Nat × PChoice) :=
  [(0, .set 7 0), (1, .set 7 1), (1, .encode true), (0, .encode true), (0, .go), (1, .go), (0, .go),
   (2, .delete 7), (2, .retire true), (2, .go), (3, .set 7 1025), (3, .encode true), (3, .go), (2, .go), (3, .go)]

example : (prunSchedule (PState.init 2000) exProvider).map
    (fun r => (r.2, r.1.maps.toInternal 7, r.1.maps.toExternal 0, r.1.tags 0, r.1.tags 1, r.1.tags 1025)) =
    some ([.setErr 7, .setOk 7 0, .delOk 7 0, .setOk 7 1025], some 1025, some none, RETIRING, AVAILABLE, PUBLISHED) := by
  decide +kernel

theorem PRun.of_schedule (h : PRun cap s es) (l : List (Nat × PChoice)) {r : PState × List PEvent}
    (hr : prunSchedule s l = some r) : PRun cap r.1 (es ++ r.2) := by
  induction l generalizing s es r with
  | nil => simp only [prunSchedule, Option.some.injEq] at hr; subst hr; simpa using h
  | cons x xs ih =>
    obtain ⟨a, c⟩ := x
    simp only [prunSchedule] at hr
    split at hr
    · cases hr
    · rename_i s1 ev hact
      rw [Option.map_eq_some_iff] at hr
      obtain ⟨r1, h1, rfl⟩ := hr
      have := ih (PRun.step a c h hact) h1
      simpa [List.append_assoc] using this

/-- The execution above is a run, so the hypotheses of the theorems are met. -/
example : ∃ s es, PRun 2000 s es ∧ s.maps.toInternal 7 = some 1025 ∧ PEvent.delOk 7 0 ∈ es := by
  have h : (prunSchedule (PState.init 2000) exProvider).map (fun r => (r.1.maps.toInternal 7, r.2)) =
    some (some 1025, [.setErr 7, .setOk 7 0, .delOk 7 0, .setOk 7 1025]) := by decide +kernel
  rw [Option.map_eq_some_iff] at h
  obtain ⟨r, hr, h⟩ := h
  simp only [Prod.mk.injEq] at h
  exact ⟨_, _, PRun.of_schedule .start _ hr, h.1, by rw [h.2]; simp⟩

end Verif.Inmem
