import Verif.Bftree.Conc
import Mathlib.Tactic.Positivity

/-! # C55: neighbour records in the bf-tree store round-trip -/

namespace Verif.Bftree

/-- **C55.** After any history of replacing, appending and deleting (and of the tree forgetting
deletions), with any scratch buffers, the outcomes of the calls and every later read — into a list with
any earlier contents — are those of a plain map from ids to lists. In particular a failed call changes
nothing. -/
theorem C55_history (w D : Nat) (hw : 4 ≤ w) (hD : D < 2 ^ 32) (ops : List Op)
    (ho : ∀ o ∈ ops, o.fits w) :
    (runOps w (D + 1) (fun _ => .absent) ops).1 = (specOps D (fun _ => .none) ops).1 ∧
    ∀ id, id < 256 ^ w → ∀ prior,
      getNeighbors w (D + 1) (runOps w (D + 1) (fun _ => .absent) ops).2 id prior =
        ((specOps D (fun _ => .none) ops).2 id).read := by
  obtain ⟨h1, h2⟩ := runOps_rel hw hD ops (rel_empty w D) ho
  exact ⟨h1, fun id hid _ => getUnlocked_rel hw hD h2 hid []⟩

/-- **C55.** What an append adds: only ids that were asked for and not present, none twice, never
beyond the maximum degree, and every requested id unless the list is full. -/
theorem C55_append_adds (D : Nat) (old new : List Nat) (hl : old.length ≤ D) :
    (∀ i ∈ newIds D old new, i ∈ new ∧ i ∉ old) ∧
    (old.Nodup → (old ++ newIds D old new).Nodup) ∧
    (old ++ newIds D old new).length ≤ D ∧
    ((old ++ newIds D old new).length < D → ∀ i ∈ new, i ∈ old ++ newIds D old new) := by
  have hmem : ∀ i ∈ newIds D old new, i ∈ new ∧ i ∉ old := by
    intro i hi
    have h := List.mem_filter.1 (mem_eraseDups' (List.mem_of_mem_take hi))
    simpa using h
  refine ⟨hmem, ?_, newIds_length new hl, ?_⟩
  · intro hn
    rw [List.nodup_append]
    refine ⟨hn, ?_, ?_⟩
    · exact List.Nodup.sublist (List.take_sublist _ _) (nodup_eraseDups' _ _ le_rfl)
    · rintro a ha b hb rfl
      exact (hmem a hb).2 ha
  · intro hlt i hi
    by_cases ho : i ∈ old
    · exact List.mem_append_left _ ho
    · apply List.mem_append_right
      have hlen : (newIds D old new).length < D - old.length := by
        rw [List.length_append] at hlt; omega
      unfold newIds at hlen ⊢
      rw [List.length_take] at hlen
      rw [List.take_of_length_le (by omega)]
      simp [hi, ho]

/-- **C55.** Whatever bytes the tree holds, a successful read never yields more than the maximum
degree, and it yields a list only from a record of the store's exact size. -/
theorem C55_foreign_records (w D : Nat) (hD : D < 2 ^ 32) (t : Tree) (id : Nat) (prior l : List Nat)
    (h : getNeighbors w (D + 1) t id prior = .ok l) :
    l.length ≤ D ∧ (l ≠ [] → ∃ b, t (leN w id) = .val b ∧ b.length = (D + 1) * w) := by
  unfold getNeighbors getUnlocked at h
  cases ht : t (leN w id) with
  | absent => rw [ht] at h; cases h; exact ⟨Nat.zero_le _, fun h => absurd rfl h⟩
  | tomb => rw [ht] at h; cases h
  | val b =>
    rw [ht] at h
    dsimp only at h
    split at h
    · cases h
    · unfold decodeRecord at h
      split at h
      · cases h; exact ⟨Nat.zero_le _, fun h => absurd rfl h⟩
      · split at h
        · cases h
        · rename_i hsz
          split at h
          · cases h
          · split at h
            · cases h
            · rename_i hle
              cases h
              rw [Nat.add_sub_cancel, Nat.mod_eq_of_lt hD] at hle
              refine ⟨?_, fun _ => ⟨b, rfl, by omega⟩⟩
              unfold Graph.resizeFinish
              rw [List.length_take]; omega

/-- **C55.** Concurrent accessors, every schedule: reads see the map that results from applying the
threads' writes one after the other in some order (`log`), every thread's writes appear in that order
as it issued them, and none is lost: when a thread has finished, exactly its calls are in the log. The
store may hold anything an earlier history left. -/
theorem C55_concurrent (w D bits : Nat) (hw : 4 ≤ w) (hD : D < 2 ^ 32) (before : List Op)
    (hb : ∀ o ∈ before, o.fits w) (progs : Nat → List WOp)
    (hf : ∀ i, ∀ o ∈ progs i, (o.toOp 0 true).fits w) (sch : List (Nat × Bool)) :
    let s0 := (specOps D (fun _ => .none) before).2
    let S := (Sys.init (D + 1) (runOps w (D + 1) (fun _ => .absent) before).2 progs).run w (D + 1) bits sch
    (∀ id, id < 256 ^ w → ∀ prior,
      getNeighbors w (D + 1) S.tree id prior = (specLog D s0 S.log id).read) ∧
    (∀ i, (S.log.filter (fun e => e.1 == i)).map (fun e => e.2.1) <+: progs i) ∧
    (∀ i, (S.threads i).prog = [] →
      (S.log.filter (fun e => e.1 == i)).map (fun e => e.2.1) = progs i) := by
  intro s0 S
  have h : CInv w D bits s0 progs S :=
    CInv.run hw hD hf sch (CInv.init (runOps_rel hw hD before (rel_empty w D) hb).2)
  refine ⟨fun id hid _ => getUnlocked_rel hw hD h.rel hid [], fun i => ⟨_, h.todo i⟩, fun i hi => ?_⟩
  have ht := h.todo i
  have : (S.threads i).todo = [] := by unfold Thread.todo; rw [hi]; simp
  rw [this, List.append_nil] at ht
  exact ht

/-- **C55.** The striped locks never deadlock: while some thread has work left, some thread can move. -/
theorem C55_no_deadlock (w D bits : Nat) (hw : 4 ≤ w) (hD : D < 2 ^ 32) (before : List Op)
    (hb : ∀ o ∈ before, o.fits w) (progs : Nat → List WOp)
    (hf : ∀ i, ∀ o ∈ progs i, (o.toOp 0 true).fits w) (sch : List (Nat × Bool)) :
    let S := (Sys.init (D + 1) (runOps w (D + 1) (fun _ => .absent) before).2 progs).run w (D + 1) bits sch
    (∃ i, (S.threads i).prog ≠ []) → ∃ j, ∀ ins, (S.step w (D + 1) bits j ins).isSome := by
  intro S
  have h : CInv w D bits (specOps D (fun _ => .none) before).2 progs S :=
    CInv.run hw hD hf sch (CInv.init (runOps_rel hw hD before (rel_empty w D) hb).2)
  have hmove : ∀ j, (S.threads j).phase ≠ .idle → ∀ ins, (S.step w (D + 1) bits j ins).isSome := by
    intro j hj ins
    obtain ⟨o, rest, hp, _⟩ := h.own j hj
    unfold Sys.step
    dsimp only
    rw [hp]
    dsimp only
    cases hph : (S.threads j).phase with
    | idle => exact absurd hph hj
    | locked =>
      cases o with
      | set id nbrs => rfl
      | append id new =>
        dsimp only
        cases getUnlocked w (D + 1) S.tree id [] <;> rfl
    | haveList c =>
      obtain ⟨id, new, r', e, _⟩ := h.cur j c hph
      rw [hp] at e; cases e
      rfl
    | done => rfl
  rintro ⟨i, hi⟩
  by_cases hph : (S.threads i).phase = .idle
  · cases hp : (S.threads i).prog with
    | nil => exact absurd hp hi
    | cons o rest =>
      cases ho : S.owner (stripeIndex bits o.id) with
      | none =>
        refine ⟨i, fun ins => ?_⟩
        unfold Sys.step
        dsimp only
        rw [hp]
        dsimp only
        rw [hph]
        dsimp only
        rw [if_pos ho]; rfl
      | some j => exact ⟨j, hmove j (h.own' _ _ ho).1⟩
  · exact ⟨i, hmove i hph⟩

/-- **C55.** Every id maps to an existing stripe, so locking never indexes out of range. -/
theorem C55_stripe_exists (bits id : Nat) (hb : bits ≤ 64) : stripeIndex bits id < 2 ^ bits := by
  unfold stripeIndex
  apply Nat.div_lt_of_lt_mul
  rw [← pow_add, Nat.sub_add_cancel hb]
  exact Nat.mod_lt _ (by positivity)

/-! ### Concrete cases -/

/-- A history with stale scratch, an over-long write, a full append, a delete and a refused insert. -/
def demoOps : List Op :=
  [.set 7 [1, 2] [9, 9, 9, 9, 9] true, .append 7 [2, 5, 5, 6] [8, 8, 8, 8] true,
   .set 7 [1, 2, 3, 4] [0, 0, 0, 0] true, .set 3 [4] [1, 2, 3] true, .append 4 [4] [7, 7, 7, 7] false,
   .delete 5 true, .append 5 [1] [0, 0, 0, 0] true]

example : (∀ o ∈ demoOps, o.fits 4) ∧ (4 : Nat) ≤ 4 ∧ 3 < 2 ^ 32 := by
  refine ⟨?_, le_refl _, by omega⟩
  intro o ho
  simp only [demoOps, List.mem_cons, List.not_mem_nil, or_false] at ho
  rcases ho with rfl | rfl | rfl | rfl | rfl | rfl | rfl <;> simp [Op.fits]

example : (runOps 4 4 (fun _ => .absent) demoOps).1 = [.ok (), .ok (), .err, .err, .err, .ok (), .err] ∧
    getNeighbors 4 4 (runOps 4 4 (fun _ => .absent) demoOps).2 7 [3, 3] = .ok [1, 2, 5] := by decide +kernel

/-- Two threads appending to one vertex and a third replacing another: all edges survive. -/
example :
    let S := (Sys.init 4 (fun _ => .absent)
      (fun i => if i = 0 then [.append 7 [1]] else if i = 1 then [.append 7 [2]] else [])).run 4 4 6
        [(0, true), (1, true), (0, true), (1, true), (0, true), (0, true), (1, true), (1, true), (1, true), (1, true)]
    getNeighbors 4 4 S.tree 7 [] = .ok [1, 2] ∧ S.log.length = 2 := by decide +kernel

example : newIds 4 [1, 2] [2, 5, 5, 6, 7] = [5, 6] := by decide

end Verif.Bftree
