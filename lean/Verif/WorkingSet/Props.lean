import Verif.WorkingSet.Lemmas
/-
C30: the working set keeps what the current step needs, within its capacity.
-/
namespace Verif.WorkingSet

variable {V : Type}

/-- **C30**, pinning.  After every history, preparing for a list of ids in any mode that keeps entries between fills
evicts none of the requested residents and changes no value; nothing that was not resident appears. -/
theorem C30_pinned (c : Cap) (overlay : Nat → Option V) (d : Nat) (ops : List (Op V)) (ho : ∀ o ∈ ops, OpPerm o)
    (sh : List (Ent V) → List (Ent V)) (hsh : ∀ l, (sh l).Perm l) (req : List Nat) (hc : c.resolve d ≠ some 0) :
    let m := run (build c overlay d) ops
    (∀ k ∈ req, ∀ v, m.get k = some v → (prepare sh m req).get k = some v) ∧
    (∀ k v, (prepare sh m req).get k = some v → m.get k = some v) ∧
    (∀ k, (m.overlay k).isSome → (prepare sh m req).view k = m.view k) := by
  have h := run_hinv ops (build_hinv c overlay d) ho
  have hcap := (run_capacity ops (build_hinv c overlay d) ho).1
  obtain ⟨kp, kpin⟩ := prepare_kept hsh (m := run (build c overlay d) ops) (req := req) h.nodup
  refine ⟨fun k hk v hv => kpin (by rw [hcap]; exact hc) k hk v hv, fun k v hv => kp.sub k v hv, ?_⟩
  intro k hk
  unfold WMap.view
  rw [kp.overlay]
  cases ho : (run (build c overlay d) ops).overlay k with
  | none => simp [ho] at hk
  | some v => rfl

/-- **C30**, filling.  After every history: when a fill succeeds, every requested id shows the value of the batch if
it has one, otherwise the value it had if it was resident (and the mode keeps entries), otherwise what the source
returned for it; so if the source has a value for every id, all requested ids are present.  A fill that fails does so
because the source failed on a requested id.  Ids that were not requested show their old value or nothing. -/
theorem C30_filled (c : Cap) (overlay : Nat → Option V) (d : Nat) (ops : List (Op V)) (ho : ∀ o ∈ ops, OpPerm o)
    (sh : List (Ent V) → List (Ent V)) (hsh : ∀ l, (sh l).Perm l) (f : Nat → Except Unit (Option V)) (req : List Nat) :
    let m := run (build c overlay d) ops
    ((fill sh f m req).2 = true → ∀ k ∈ req,
      (∃ v, overlay k = some v ∧ (fill sh f m req).1.view k = some v) ∨
      (overlay k = none ∧ ∃ v, m.get k = some v ∧ c.resolve d ≠ some 0 ∧ (fill sh f m req).1.view k = some v) ∨
      (overlay k = none ∧ (m.get k = none ∨ c.resolve d = some 0) ∧
        ∃ o, f k = .ok o ∧ (fill sh f m req).1.view k = o)) ∧
    ((fill sh f m req).2 = false → ∃ k ∈ req, ∃ e, f k = .error e) ∧
    (∀ k, k ∉ req → (fill sh f m req).1.view k = m.view k ∨ (fill sh f m req).1.view k = none) := by
  have h := run_hinv ops (build_hinv c overlay d) ho
  obtain ⟨hcap, hov⟩ := run_capacity ops (build_hinv c overlay d) ho
  dsimp only
  generalize run (build c overlay d) ops = m at *
  have hov : m.overlay = overlay := hov
  have hcap : m.capacity = c.resolve d := hcap
  obtain ⟨kp, kpin⟩ := prepare_kept hsh (m := m) (req := req) h.nodup
  obtain ⟨hN, hO, hC, hG, hK, hold, hnew, hreq, hL, herr, _⟩ := fillLoop_spec f (prepare sh m req) req kp.nodup
  have hO' : (fill sh f m req).1.overlay = overlay := by rw [fill, hO, kp.overlay, hov]
  have hview : ∀ k, overlay k = none → (fill sh f m req).1.view k = val? (fill sh f m req).1.entries k := by
    intro k hk
    rw [WMap.view, hO', hk]
    rfl
  refine ⟨?_, herr, ?_⟩
  · intro hok k hk
    cases hk0 : overlay k with
    | some v =>
      left
      exact ⟨v, rfl, by rw [WMap.view, hO', hk0]⟩
    | none =>
      right
      have hpo : (prepare sh m req).overlay k = none := by rw [kp.overlay, hov, hk0]
      rw [hview k hk0]
      cases hp : val? (prepare sh m req).entries k with
      | some v =>
        left
        refine ⟨rfl, v, kp.sub k v hp, ?_, hold k v hp⟩
        intro hz
        -- with capacity zero nothing is left after `prepare`
        rw [← hcap] at hz
        unfold prepare at hp
        split at hp
        · rename_i he
          simp [WMap.bump, he, val?] at hp
        · rw [hz] at hp
          simp [val?] at hp
      | none =>
        right
        refine ⟨rfl, ?_, hreq hok k hk hpo hp⟩
        by_cases hz : c.resolve d = some 0
        · exact Or.inr hz
        · left
          cases hm : m.get k with
          | none => rfl
          | some v =>
            have := kpin (by rw [hcap]; exact hz) k hk v hm
            rw [hp] at this
            simp at this
  · intro k hk
    cases hk0 : overlay k with
    | some v =>
      left
      rw [WMap.view, WMap.view, hO', hov, hk0]
    | none =>
      rw [hview k hk0, WMap.view, hov, hk0]
      cases hv : val? (fill sh f m req).1.entries k with
      | none => exact Or.inr rfl
      | some v =>
        left
        have hkk : k ∈ keys (prepare sh m req).entries := by
          rcases hK k (mem_keys_of_val hv) with h1 | h1
          · exact h1
          · exact absurd h1.1 hk
        cases hp : val? (prepare sh m req).entries k with
        | none => exact absurd hkk ((val?_none k).1 hp)
        | some w =>
          have h1 := hold k w hp
          have h2 : some v = some w := hv.symm.trans h1
          rw [h2]
          exact (kp.sub k w hp).symm

/-- **C30**, size (partial).  After every history with fewer than `2^32 - 1` fills, a fill (successful or not) leaves
at most `max capacity (number of distinct requested ids)` residents.

Missing: histories of `2^32` fills or more, where the bound fails (`C30_generation_wrap`). -/
theorem C30_size_partial (c : Cap) (overlay : Nat → Option V) (d : Nat) (ops : List (Op V)) (ho : ∀ o ∈ ops, OpPerm o)
    (hops : bumps ops + 1 < 4294967296)
    (sh : List (Ent V) → List (Ent V)) (hsh : ∀ l, (sh l).Perm l) (f : Nat → Except Unit (Option V)) (req : List Nat)
    (cap : Nat) (hc : c.resolve d = some cap) :
    (fill sh f (run (build c overlay d) ops) req).1.entries.length ≤ max cap req.dedup.length := by
  have h := run_hinv ops (build_hinv c overlay d) ho
  have hcap := (run_capacity ops (build_hinv c overlay d) ho).1
  exact fill_bound hsh f h.nodup (fresh_of_hinv h (by omega)) (by rw [hcap]; exact hc)

/-- **C30**: residents never shadow, and are never shadowed by, the batch: after every history the two layers have no
key in common, and no key occurs twice. -/
theorem C30_layers_disjoint (c : Cap) (overlay : Nat → Option V) (d : Nat) (ops : List (Op V))
    (ho : ∀ o ∈ ops, OpPerm o) :
    ((run (build c overlay d) ops).entries.map (·.key)).Nodup ∧
    ∀ k, ((run (build c overlay d) ops).get k).isSome → overlay k = none := by
  have h := run_hinv ops (build_hinv c overlay d) ho
  refine ⟨h.nodup, fun k hk => ?_⟩
  have hov := (run_capacity ops (build_hinv c overlay d) ho).2
  have := h.disj k (by
    cases hv : (run (build c overlay d) ops).get k with
    | none => simp [hv] at hk
    | some v => exact mem_keys_of_val hv)
  rw [hov] at this
  exact this

/-! ### The generation counter wraps -/

theorem idle (v : V) (n g : Nat) (overlay : Nat → Option V) :
    run ⟨[⟨1, 0, v⟩], overlay, some 1, g % 4294967296⟩ (List.replicate n (.prepare id [])) =
      ⟨[⟨1, 0, v⟩], overlay, some 1, (g + n) % 4294967296⟩ := by
  induction n generalizing g with
  | zero => rfl
  | succ n ih =>
    rw [List.replicate_succ, run, List.foldl_cons]
    have : step (⟨[⟨1, 0, v⟩], overlay, some 1, g % 4294967296⟩ : WMap V) (.prepare id []) =
        ⟨[⟨1, 0, v⟩], overlay, some 1, (g + 1) % 4294967296⟩ := by
      have e : (g % 4294967296 + 1) % 4294967296 = (g + 1) % 4294967296 := by omega
      simp [step, prepare, trim, promote, evict, WMap.bump, e]
    rw [this]
    have := ih (g + 1)
    rw [run] at this
    rw [this, show g + 1 + n = g + (n + 1) by omega]

/-- A resident that is kept for `2^32` fills looks current again and is not evicted: two residents with capacity one
and one requested id. -/
theorem C30_generation_wrap :
    let ops : List (Op Nat) := .insert 1 10 :: List.replicate 4294967295 (.prepare id [])
    (∀ o ∈ ops, OpPerm o) ∧
    (fill id (fun k => .ok (some k)) (run (build (.some 1) (fun _ => none) 0) ops) [2]).1.entries.length = 2 ∧
    max 1 ([2].dedup.length) = 1 := by
  refine ⟨?_, ?_, by decide⟩
  · intro o ho
    rcases List.mem_cons.1 ho with rfl | ho
    · trivial
    · rw [List.mem_replicate] at ho
      rw [ho.2]
      exact fun l => List.Perm.refl _
  · rw [run, List.foldl_cons]
    have e : step (build (.some 1) (fun _ => none) 0 : WMap Nat) (.insert 1 10) =
        ⟨[⟨1, 0, 10⟩], fun _ => none, some 1, 0 % 4294967296⟩ := by
      simp [step, build, Cap.resolve, WMap.insert, put]
    rw [e]
    have := idle 10 4294967295 0 (fun _ => none)
    rw [run] at this
    rw [this]
    decide

/-! ### A history that meets the hypotheses -/

/-- Fill three, reuse one, evict the rest: batch key 9, capacity 3. -/
def exOps : List (Op Nat) :=
  [.fill List.reverse (fun k => .ok (some (k * 10))) [1, 2, 3], .update 2 (· + 1),
   .fill id (fun k => .ok (if k = 5 then none else some (k * 10))) [9, 2, 4, 5]]

example : (∀ o ∈ exOps, OpPerm o) ∧ bumps exOps + 1 < 4294967296 := by
  constructor
  · intro o ho
    simp only [exOps, List.mem_cons, List.not_mem_nil, or_false] at ho
    rcases ho with rfl | rfl | rfl
    · exact fun l => List.reverse_perm l
    · trivial
    · exact fun l => List.Perm.refl _
  · decide

example :
    let m := run (build (.some 3) (fun k => if k = 9 then some 99 else none) 0) exOps
    m.view 9 = some 99 ∧ m.view 2 = some 21 ∧ m.view 4 = some 40 ∧ m.view 5 = none ∧ m.entries.length = 2 := by
  decide

end Verif.WorkingSet
