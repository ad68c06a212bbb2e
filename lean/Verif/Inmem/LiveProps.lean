import Verif.Inmem.LiveLemmas

/-! # C121: searches of the in-memory provider while vectors are inserted and deleted -/

namespace Verif.Inmem.Live

open Verif.Inmem

variable {V D : Type}

/-- **C121 (outcome).** A search that has returned has gone through its candidates in the order of their rank and put out
exactly those that are elements of the index: a candidate is left out only if it is a start point or its element was deleted
during the search, or because the `k` places of the output were taken by better ones. -/
theorem C121_outcome {cap k : Nat} {data : Nat → V} {past : List (State V)} {s : State V} (h : Run cap k data past s)
    {t : Nat} {cands out : List (Nat × V)} {n : Nat} (hd : s.sr t = .done cands out n) :
    out.length ≤ k ∧ ∃ pre todo, cands = pre ++ todo ∧ Outcome past cap t pre out ∧ (out.length < k → todo = []) := by
  obtain ⟨-, h2, -, h4⟩ := (run_linv h).dn t cands out n hd
  exact ⟨h2, h4⟩

/-- **C121 (results are elements).** Every result is the id of an element that was in the index at some time while the
search collected its results, and the vector its distance was computed from is the one stored for this id at that time. -/
theorem C121_results {cap k : Nat} {data : Nat → V} {past : List (State V)} {s : State V} (h : Run cap k data past s)
    {t : Nat} {cands out : List (Nat × V)} {n : Nat} (hd : s.sr t = .done cands out n) :
    ∀ x ∈ out, ∃ s' ∈ past, Collecting s' t ∧ ∃ i, At s' x.1 i x.2 := by
  obtain ⟨-, pre, todo, -, ho, -⟩ := C121_outcome h hd
  clear hd
  induction ho with
  | nil => simp
  | found _ h1 h2 h3 ih =>
    intro x hx
    rcases List.mem_append.mp hx with hx | hx
    · exact ih x hx
    · simp only [List.mem_singleton] at hx
      subst hx
      exact ⟨_, h1, h2, _, h3⟩
  | start _ _ ih => exact ih
  | gone _ _ _ _ _ _ _ ih => exact ih

/-- **C121 (deleted elements).** An element that is not in the index as long as the search collects its results, because
it was deleted before or is only inserted later, is not in the output. -/
theorem C121_deleted {cap k : Nat} {data : Nat → V} {past : List (State V)} {s : State V} (h : Run cap k data past s)
    {t e : Nat} {cands out : List (Nat × V)} {n : Nat} (hd : s.sr t = .done cands out n)
    (hdel : ∀ s' ∈ past, Collecting s' t → s'.p.maps.toInternal e = none) : ∀ v, (e, v) ∉ out := by
  intro v hm
  obtain ⟨s', h1, h2, i, h3, -⟩ := C121_results h hd _ hm
  simp only [hdel s' h1 h2] at h3
  cases h3

/-- **C121 (no id twice).** The results of a search have different ids, whatever is deleted and inserted again
meanwhile. -/
theorem C121_distinct {cap k : Nat} {data : Nat → V} {past : List (State V)} {s : State V} (h : Run cap k data past s)
    {t : Nat} {cands out : List (Nat × V)} {n : Nat} (hd : s.sr t = .done cands out n) : (out.map (·.1)).Nodup :=
  ((run_linv h).dn t cands out n hd).1

/-- **C121 (count, partial).** The number of results the search reports is right as long as the output is not full.
Missing: a full output, `C121_count_refuted`. -/
theorem C121_count_partial {cap k : Nat} {data : Nat → V} {past : List (State V)} {s : State V} (h : Run cap k data past s)
    {t : Nat} {cands out : List (Nat × V)} {n : Nat} (hd : s.sr t = .done cands out n) (hk : out.length < k) :
    n = out.length := by
  have := ((run_linv h).dn t cands out n hd).2.2.1
  omega

/-- **C121 (count, refuted).** Every search that fills its output reports one result less than it has written: `push`
answers that the buffer is full after it has written the last place, and such a write is not counted. -/
theorem C121_count_refuted {cap k : Nat} {data : Nat → V} {past : List (State V)} {s : State V} (h : Run cap k data past s)
    {t : Nat} {cands out : List (Nat × V)} {n : Nat} (hd : s.sr t = .done cands out n) (hk : out.length = k) (h0 : 0 < k) :
    n + 1 = out.length := by
  have := ((run_linv h).dn t cands out n hd).2.2.1
  omega

/-- **C121 (progress).** A search that collects its results can go on, or waits for a deletion that itself can go on and
does not wait for anything. -/
theorem C121_progress {cap k : Nat} {data : Nat → V} {past : List (State V)} {s : State V} (h : Run cap k data past s)
    {t : Nat} (hc : Collecting s t) (v : V) :
    (∃ s', step k s (.translate t) = some s') ∨
    ∃ a c s', s.p.pcs a ≠ .idle ∧ Allowed s (.write a c v) ∧ step k s (.write a c v) = some s' := by
  obtain ⟨r, c, todo, out, n, hsr⟩ := hc
  have hi := run_linv h
  cases todo with
  | nil => left; simp [step, hsr]
  | cons x rest =>
    obtain ⟨i, w⟩ := x
    by_cases hl : i < s.p.maps.capacity ∧ s.p.shardLock (shardOf i).1 ≠ none
    · right
      obtain ⟨hic, hl⟩ := hl
      cases hsl : s.p.shardLock (shardOf i).1 with
      | none => exact absurd hsl hl
      | some a =>
        have hh := (hi.p.shard a _).mpr hsl
        cases hpc : s.p.pcs a with
        | delEntry e j =>
          obtain ⟨s', hs'⟩ : ∃ s', step k s (.write a (.retire false) v) = some s' := by simp [step, pact, hpc]
          exact ⟨a, .retire false, s', by simp [hpc], trivial, hs'⟩
        | delRetired e j =>
          obtain ⟨s', hs'⟩ : ∃ s', step k s (.write a .go v) = some s' := by simp [step, pact, hpc]
          exact ⟨a, .go, s', by simp [hpc], trivial, hs'⟩
        | delForward e j =>
          obtain ⟨s', hs'⟩ : ∃ s', step k s (.write a .go v) = some s' := by simp [step, pact, hpc]
          exact ⟨a, .go, s', by simp [hpc], trivial, hs'⟩
        | _ => rw [hpc] at hh; exact hh.elim
    · left
      simp only [step, hsr, if_neg hl]
      by_cases hic : i < s.p.maps.capacity
      · rw [toExternal_lt _ hic]
        cases s.p.maps.B i <;> simp
      · have : s.p.maps.toExternal i = some none := by unfold Maps.toExternal; rw [if_pos (by omega)]
        simp [this]

/-! ## Beam expansion -/

theorem expandLoop_some (read : Nat → Option V) (dist : V → Option D) (l ahead : List Nat) {found : List (Nat × D)}
    (h : (expandLoop read dist l ahead).1 = some found) :
    found = l.filterMap fun i => (read i).bind fun v => (dist v).map fun d => (i, d) := by
  induction l generalizing ahead found with
  | nil => simp only [expandLoop, Option.some.injEq] at h; subst h; rfl
  | cons i l ih =>
    simp only [expandLoop] at h
    cases hr : read i with
    | none =>
      rw [hr] at h
      simp only at h
      rw [List.filterMap_cons, hr]
      exact ih _ h
    | some v =>
      rw [hr] at h
      simp only at h
      cases hd : dist v with
      | none => rw [hd] at h; cases h
      | some d =>
        rw [hd] at h
        simp only [Option.map_eq_some_iff] at h
        obtain ⟨f, hf, rfl⟩ := h
        rw [List.filterMap_cons, hr]
        simp only [Option.bind_some, hd, Option.map_some]
        rw [ih _ hf]

theorem retainNew_spec (total : Nat) (visited l : List Nat) :
    ∃ fresh, (retainNew total visited l).2 = visited ++ fresh ∧ fresh.Nodup ∧
      (∀ x, x ∈ fresh ↔ x ∈ l ∧ x ∉ visited) ∧ fresh.Sublist l ∧
      (retainNew total visited l).1 = fresh.filter (· < total) := by
  induction l generalizing visited with
  | nil => exact ⟨[], by simp [retainNew], by simp, by simp, by simp, by simp [retainNew]⟩
  | cons i l ih =>
    by_cases hi : i ∈ visited
    · obtain ⟨f, h1, h2, h3, h4, h5⟩ := ih visited
      refine ⟨f, by simp only [retainNew, if_pos hi]; exact h1, h2, ?_, h4.cons _, by simp only [retainNew, if_pos hi]; exact h5⟩
      intro x
      rw [h3]
      constructor
      · rintro ⟨a, b⟩; exact ⟨List.mem_cons_of_mem _ a, b⟩
      · rintro ⟨a, b⟩
        rcases List.mem_cons.mp a with rfl | a
        · exact absurd hi b
        · exact ⟨a, b⟩
    · obtain ⟨f, h1, h2, h3, h4, h5⟩ := ih (visited ++ [i])
      refine ⟨i :: f, ?_, ?_, ?_, h4.cons_cons _, ?_⟩
      · simp only [retainNew, if_neg hi]; rw [h1]; simp
      · rw [List.nodup_cons]
        exact ⟨fun hm => ((h3 i).mp hm).2 (by simp), h2⟩
      · intro x
        rw [List.mem_cons, h3]
        constructor
        · rintro (rfl | ⟨a, b⟩)
          · exact ⟨List.mem_cons_self, hi⟩
          · exact ⟨List.mem_cons_of_mem _ a, fun hv => b (by simp [hv])⟩
        · rintro ⟨a, b⟩
          rcases List.mem_cons.mp a with rfl | a
          · exact Or.inl rfl
          · by_cases hx : x = i
            · exact Or.inl hx
            · exact Or.inr ⟨a, by simp [hx, b]⟩
      · simp only [retainNew, if_neg hi]
        rw [h5, List.filter_cons]
        by_cases hit : i < total <;> simp [hit]

/-- **C121 (expansion).** Expanding a beam reports each neighbour not visited before that is in bounds and can be read, once,
in the order of the lists, with its distance; and all neighbours are visited afterwards. -/
theorem C121_expand (total lookahead : Nat) (lists : Nat → List Nat) (read : Nat → Option V) (dist : V → Option D)
    (beam visited : List Nat) {found : List (Nat × D)} {visited' : List Nat}
    (h : expandBeam total lookahead lists read dist visited beam = some (found, visited')) :
    ∃ fresh, Fresh lists beam visited fresh ∧ visited' = visited ++ fresh ∧
      found = (fresh.filter (· < total)).filterMap fun i => (read i).bind fun v => (dist v).map fun d => (i, d) := by
  induction beam generalizing visited found visited' with
  | nil =>
    simp only [expandBeam, Option.some.injEq, Prod.mk.injEq] at h
    obtain ⟨rfl, rfl⟩ := h
    exact ⟨[], ⟨by simp, by simp, by simp⟩, by simp, rfl⟩
  | cons b beam ih =>
    simp only [expandBeam] at h
    split at h
    · obtain ⟨f1, g1, g2, g3, g4, g5⟩ := retainNew_spec total visited (lists b)
      split at h
      · cases h
      · rename_i found1 hf1
        split at h
        · cases h
        · rename_i rest hrest
          simp only [Option.some.injEq, Prod.mk.injEq] at h
          obtain ⟨rfl, rfl⟩ := h
          obtain ⟨f2, ⟨k1, k2, k3⟩, k4, k5⟩ := ih _ hrest
          rw [g1] at k2 k4
          refine ⟨f1 ++ f2, ⟨?_, ?_, ?_⟩, ?_, ?_⟩
          · rw [List.nodup_append]
            refine ⟨g2, k1, fun x hx y hy e => ?_⟩
            subst e
            exact ((k2 x).mp hy).2 (by simp [hx])
          · intro x
            rw [List.mem_append, g3, k2]
            constructor
            · rintro (⟨a, c⟩ | ⟨⟨b', hb, hx⟩, c⟩)
              · exact ⟨⟨b, List.mem_cons_self, a⟩, c⟩
              · exact ⟨⟨b', List.mem_cons_of_mem _ hb, hx⟩, fun hv => c (by simp [hv])⟩
            · rintro ⟨⟨b', hb, hx⟩, c⟩
              by_cases hxl : x ∈ lists b
              · exact Or.inl ⟨hxl, c⟩
              · rcases List.mem_cons.mp hb with rfl | hb
                · exact absurd hx hxl
                · refine Or.inr ⟨⟨b', hb, hx⟩, ?_⟩
                  simp only [List.mem_append, not_or]
                  exact ⟨c, fun hf => hxl ((g3 x).mp hf).1⟩
          · rw [List.flatMap_cons]
            exact g4.append k3
          · rw [k4, List.append_assoc]
          · have := expandLoop_some read dist _ _ (show (expandLoop read dist (retainNew total visited (lists b)).1 _).1 = some found1 from hf1)
            rw [this, g5, k5, List.filter_append, List.filterMap_append]
    · cases h

theorem expandLoop_none (read : Nat → Option V) (dist : V → Option D) (l ahead : List Nat) :
    (expandLoop read dist l ahead).1 = none ↔ ∃ i ∈ l, ∃ v, read i = some v ∧ dist v = none := by
  induction l generalizing ahead with
  | nil => simp [expandLoop]
  | cons x l ih =>
    unfold expandLoop
    simp only
    cases hr : read x with
    | none => simp [ih, hr]
    | some v =>
      cases hd : dist v with
      | none => simp [hr, hd]
      | some d => simp [ih, hr, hd]

/-- **C121 (failed expansions).** An expansion fails exactly if an id of the beam is out of bounds or the distance of a
neighbour not visited before that is in bounds and can be read fails; a neighbour that cannot be read is no error. -/
theorem C121_expand_error (total lookahead : Nat) (lists : Nat → List Nat) (read : Nat → Option V) (dist : V → Option D)
    (beam visited : List Nat) :
    expandBeam total lookahead lists read dist visited beam = none ↔
      (∃ b ∈ beam, total ≤ b) ∨
      (∃ b ∈ beam, ∃ i ∈ lists b, i ∉ visited ∧ i < total ∧ ∃ v, read i = some v ∧ dist v = none) := by
  induction beam generalizing visited with
  | nil => simp [expandBeam]
  | cons b beam ih =>
    simp only [expandBeam]
    by_cases hb : b < total
    · rw [if_pos hb]
      obtain ⟨f, g1, g2, g3, g4, g5⟩ := retainNew_spec total visited (lists b)
      have hin : (expandInner read dist lookahead (retainNew total visited (lists b)).1).1 = none ↔
          ∃ i ∈ lists b, i ∉ visited ∧ i < total ∧ ∃ v, read i = some v ∧ dist v = none := by
        unfold expandInner
        simp only [expandLoop_none, g5, List.mem_filter, g3, decide_eq_true_eq]
        constructor
        · rintro ⟨i, ⟨⟨h1, h2⟩, h3⟩, h4⟩; exact ⟨i, h1, h2, h3, h4⟩
        · rintro ⟨i, h1, h2, h3, h4⟩; exact ⟨i, ⟨⟨h1, h2⟩, h3⟩, h4⟩
      cases hf : (expandInner read dist lookahead (retainNew total visited (lists b)).1).1 with
      | none =>
        simp only [true_iff]
        obtain ⟨i, hi⟩ := hin.mp hf
        exact Or.inr ⟨b, List.mem_cons_self, i, hi⟩
      | some found =>
        have hnone : ¬ ∃ i ∈ lists b, i ∉ visited ∧ i < total ∧ ∃ v, read i = some v ∧ dist v = none := by
          rw [← hin, hf]; simp
        have hrec := ih (retainNew total visited (lists b)).2
        rw [g1] at hrec
        have hkey : expandBeam total lookahead lists read dist (retainNew total visited (lists b)).2 beam = none ↔
            (∃ b' ∈ b :: beam, total ≤ b') ∨
            (∃ b' ∈ b :: beam, ∃ i ∈ lists b', i ∉ visited ∧ i < total ∧ ∃ v, read i = some v ∧ dist v = none) := by
          rw [g1, hrec]
          constructor
          · rintro (⟨b', h1, h2⟩ | ⟨b', h1, i, h2, h3, h4⟩)
            · exact Or.inl ⟨b', List.mem_cons_of_mem _ h1, h2⟩
            · exact Or.inr ⟨b', List.mem_cons_of_mem _ h1, i, h2, fun hv => h3 (List.mem_append_left _ hv), h4⟩
          · rintro (⟨b', h1, h2⟩ | ⟨b', h1, i, h2, h3, h4⟩)
            · rcases List.mem_cons.mp h1 with rfl | h1
              · omega
              · exact Or.inl ⟨b', h1, h2⟩
            · have hil : i ∉ lists b := fun hl => hnone ⟨i, hl, h3, h4⟩
              rcases List.mem_cons.mp h1 with rfl | h1
              · exact absurd h2 hil
              · refine Or.inr ⟨b', h1, i, h2, ?_, h4⟩
                rw [List.mem_append, not_or]
                exact ⟨h3, fun hf => hil ((g3 i).mp hf).1⟩
        rw [← hkey]
        cases hr : expandBeam total lookahead lists read dist (retainNew total visited (lists b)).2 beam <;> simp
    · rw [if_neg hb]
      simp only [true_iff]
      exact Or.inl ⟨b, List.mem_cons_self, by omega⟩

/-- One neighbour cannot be read, which is no error; one has no distance, which is. -/
example : (expandBeam 5 2 (fun b => [b + 1, b + 2]) (fun i => if i = 1 then none else some i)
      (fun v => if v = 4 then none else some (10 * v)) [] [0]) = some ([(2, 20)], [1, 2]) ∧
    (expandBeam 5 2 (fun b => [b + 1, b + 2]) (fun i => if i = 1 then none else some i)
      (fun v => if v = 4 then none else some (10 * v)) [] [0, 2]) = none := by decide

theorem expandLoop_prefetch (read : Nat → Option V) (dist : V → Option D) (l P : List Nat) (n : Nat) (hn : 0 < n)
    (hP : ∀ x ∈ l.take n, x ∈ P) (a b : List Access) (i : Nat)
    (h : (expandLoop read dist l (l.drop n)).2 = a ++ .eval i :: b) : Access.prefetch i ∈ a ∨ i ∈ P := by
  induction l generalizing P a with
  | nil => simp [expandLoop] at h
  | cons x l ih =>
    obtain ⟨m, rfl⟩ : ∃ m, n = m + 1 := ⟨n - 1, by omega⟩
    have hx : x ∈ P := hP x (by simp)
    have htl : ((x :: l).drop (m + 1)).tail = l.drop (m + 1) := by
      rw [List.drop_succ_cons, List.tail_drop]
    -- the id prefetched now, if any
    obtain ⟨pre, hpre, hcov⟩ : ∃ pre : List Nat,
        nextPrefetch ((x :: l).drop (m + 1)) = pre.map Access.prefetch ∧
        ∀ y ∈ l.take (m + 1), y ∈ P ∨ y ∈ pre := by
      have htk : ∀ y ∈ l.take m, y ∈ P := fun y hy => hP y (by rw [List.take_succ_cons]; exact List.mem_cons_of_mem _ hy)
      rw [List.drop_succ_cons]
      cases hdr : l.drop m with
      | nil =>
        refine ⟨[], rfl, fun y hy => Or.inl (htk y ?_)⟩
        have : l.length ≤ m := List.drop_eq_nil_iff.mp hdr
        rw [List.take_of_length_le (by omega)] at hy ⊢
        exact hy
      | cons j rest =>
        refine ⟨[j], rfl, fun y hy => ?_⟩
        have hlt : m < l.length := by
          by_contra hge
          rw [List.drop_eq_nil_iff.mpr (by omega)] at hdr
          cases hdr
        rw [List.take_succ_eq_append_getElem hlt, List.mem_append] at hy
        rcases hy with hy | hy
        · exact Or.inl (htk y hy)
        · right
          rw [List.drop_eq_getElem_cons hlt] at hdr
          simp only [List.cons.injEq] at hdr
          rw [← hdr.1]
          exact hy
    have key : ∀ acc a', (expandLoop read dist l (l.drop (m + 1))).2 = a' ++ .eval i :: b →
        a = acc ++ a' → (∀ y ∈ pre, Access.prefetch y ∈ acc) → Access.prefetch i ∈ a ∨ i ∈ P := by
      intro acc a' h1 h2 h3
      rcases ih (P ++ pre) (fun y hy => List.mem_append.mpr (hcov y hy)) a' h1 with g | g
      · exact Or.inl (by rw [h2]; exact List.mem_append_right _ g)
      · rcases List.mem_append.mp g with g | g
        · exact Or.inr g
        · exact Or.inl (by rw [h2]; exact List.mem_append_left _ (h3 i g))
    have split : ∀ (xs ys : List Access) , (∀ y ∈ xs, ∃ j, y = Access.prefetch j) → xs ++ ys = a ++ .eval i :: b →
        ∃ a', a = xs ++ a' ∧ ys = a' ++ .eval i :: b := by
      intro xs ys hxs he
      rcases List.append_eq_append_iff.mp he with ⟨a', h1, h2⟩ | ⟨c', h1, h2⟩
      · exact ⟨a', h1, h2⟩
      · cases c' with
        | nil => exact ⟨[], by simpa using h1.symm, by simpa using h2.symm⟩
        | cons z c' =>
          simp only [List.cons_append, List.cons.injEq] at h2
          obtain ⟨j, hj⟩ := hxs z (by rw [h1]; simp)
          rw [hj] at h2
          exact absurd h2.1 (by simp)
    have hpf : ∀ y ∈ pre.map Access.prefetch, ∃ j, y = Access.prefetch j := by
      intro y hy
      obtain ⟨j, -, rfl⟩ := List.mem_map.mp hy
      exact ⟨j, rfl⟩
    have hin : ∀ y ∈ pre, Access.prefetch y ∈ pre.map Access.prefetch := fun y hy => List.mem_map.mpr ⟨y, hy, rfl⟩
    simp only [expandLoop] at h
    rw [htl, hpre] at h
    cases hr : read x with
    | none =>
      rw [hr] at h
      simp only at h
      obtain ⟨a', h1, h2⟩ := split _ _ hpf h
      exact key _ a' h2 h1 hin
    | some v =>
      rw [hr] at h
      simp only at h
      have first : ∀ a' ys, Access.eval x :: ys = a' ++ Access.eval i :: b → (a' = [] ∧ i = x) ∨
          ∃ a'', a' = .eval x :: a'' ∧ ys = a'' ++ .eval i :: b := by
        intro a' ys he
        cases a' with
        | nil => simp only [List.nil_append, List.cons.injEq, Access.eval.injEq] at he; exact Or.inl ⟨rfl, he.1.symm⟩
        | cons z a'' =>
          simp only [List.cons_append, List.cons.injEq] at he
          exact Or.inr ⟨a'', by rw [← he.1], he.2⟩
      cases hd : dist v with
      | none =>
        rw [hd] at h
        simp only at h
        obtain ⟨a', h1, h2⟩ := split _ _ hpf h
        rcases first a' _ h2 with ⟨-, rfl⟩ | ⟨a'', -, h4⟩
        · exact Or.inr hx
        · simp at h4
      | some d =>
        rw [hd] at h
        simp only at h
        obtain ⟨a', h1, h2⟩ := split _ _ hpf h
        rcases first a' _ h2 with ⟨-, rfl⟩ | ⟨a'', h3, h4⟩
        · exact Or.inr hx
        · refine key (pre.map Access.prefetch ++ [.eval x]) a'' h4 (by rw [h1, h3]; simp) ?_
          intro y hy
          exact List.mem_append_left _ (hin y hy)

/-- **C121 (prefetches).** With a positive lookahead the data of an id is prefetched before its distance is evaluated. -/
theorem C121_prefetch (read : Nat → Option V) (dist : V → Option D) (lookahead : Nat) (h0 : 0 < lookahead) (list : List Nat)
    (a b : List Access) (i : Nat) (h : (expandInner read dist lookahead list).2 = a ++ .eval i :: b) :
    Access.prefetch i ∈ a := by
  unfold expandInner at h
  simp only at h
  by_cases hl : list = []
  · subst hl; simp [expandLoop] at h
  have hlen : 0 < list.length := List.length_pos_iff.mpr hl
  have hm : 0 < min lookahead list.length := by omega
  rw [if_neg (by omega)] at h
  have hsplit : ∃ a', a = (list.take (min lookahead list.length)).map Access.prefetch ++ a' ∧
      (expandLoop read dist list (list.drop (min lookahead list.length))).2 = a' ++ .eval i :: b := by
    rcases List.append_eq_append_iff.mp h with ⟨a', h1, h2⟩ | ⟨c', h1, h2⟩
    · exact ⟨a', h1, h2⟩
    · cases c' with
      | nil => exact ⟨[], by simpa using h1.symm, by simpa using h2.symm⟩
      | cons z c' =>
        simp only [List.cons_append, List.cons.injEq] at h2
        have : z ∈ (list.take (min lookahead list.length)).map Access.prefetch := by rw [h1]; simp
        obtain ⟨j, -, hj⟩ := List.mem_map.mp this
        rw [← hj] at h2
        exact absurd h2.1 (by simp)
  obtain ⟨a', h1, h2⟩ := hsplit
  rcases expandLoop_prefetch read dist list _ _ hm (fun x hx => hx) a' b i h2 with g | g
  · rw [h1]; exact List.mem_append_right _ g
  · rw [h1]; exact List.mem_append_left _ (List.mem_map.mpr ⟨i, g, rfl⟩)

/-! ## Examples and refutations -/

/-- Every step of the list can be taken and is allowed (slots are not reclaimed). -/
def checked [DecidableEq V] (k : Nat) (s : State V) : List (Choice V) → Bool
  | [] => true
  | c :: cs =>
    (match c with
      | .write _ (.reclaim _) _ => false
      | .rank t cands => decide ((cands.map (·.1)).Nodup ∧ ∀ c ∈ cands, c ∈ (s.sr t).reads)
      | _ => true) &&
    match step k s c with | none => false | some s' => checked k s' cs

/-- The last state. -/
def last (k : Nat) (s : State V) : List (Choice V) → State V
  | [] => s
  | c :: cs => match step k s c with | none => s | some s' => last k s' cs

theorem checked_run [DecidableEq V] {cap k : Nat} {data : Nat → V} {past : List (State V)} {s : State V}
    (h : Run cap k data past s) (cs : List (Choice V)) (hc : checked k s cs = true) :
    ∃ past', Run cap k data past' (last k s cs) := by
  induction cs generalizing past s with
  | nil => exact ⟨past, h⟩
  | cons c cs ih =>
    simp only [checked, Bool.and_eq_true] at hc
    obtain ⟨hal, hc⟩ := hc
    cases hs : step k s c with
    | none => rw [hs] at hc; cases hc
    | some s1 =>
      rw [hs] at hc
      simp only [last, hs]
      refine ih (.step c h ?_ hs) hc
      cases c with
      | write a c v => cases c <;> first | exact trivial | cases hal
      | rank t cands => simpa [Allowed] using hal
      | _ => exact trivial

/-- An insertion of `v` under id `e` into slot `i` by call `a`. -/
def insertion (a e i : Nat) (v : V) : List (Choice V) :=
  [.write a (.set e i) v, .write a (.encode true) v, .write a .go v, .write a .go v]

/-- A deletion of id `e` by call `a`. -/
def deletion (a e : Nat) (v : V) : List (Choice V) :=
  [.write a (.delete e) v, .write a (.retire true) v, .write a .go v, .write a .go v]

/-- Two vectors; a search reads the start point (slot 2) and both; the first is deleted before the results are collected. -/
def demo : List (Choice Nat) :=
  insertion 0 7 0 70 ++ insertion 1 8 1 80 ++ [.begin 0, .read 0 2, .read 0 0, .read 0 1] ++ deletion 2 7 0 ++
    [.rank 0 [(2, 5), (0, 70), (1, 80)], .translate 0, .translate 0, .translate 0, .translate 0]

/-- The search of the demonstration, with room for two results and for one. -/
theorem demo_run : (∃ past s, Run 2 2 (fun _ => 5) past s ∧ s.sr 0 = .done [(2, 5), (0, 70), (1, 80)] [(8, 80)] 1) ∧
    ∃ past s, Run 2 1 (fun _ => 5) past s ∧ s.sr 0 = .done [(2, 5), (0, 70), (1, 80)] [(8, 80)] 0 := by
  constructor
  · obtain ⟨past, h⟩ := checked_run (Run.start (capacity := 2) (k := 2) (data := fun _ => 5)) demo (by decide +kernel)
    exact ⟨past, _, h, by decide +kernel⟩
  · obtain ⟨past, h⟩ := checked_run (Run.start (capacity := 2) (k := 1) (data := fun _ => 5)) (demo.take 20) (by decide +kernel)
    exact ⟨past, _, h, by decide +kernel⟩

-- the deleted candidate and the start point are left out, the other one is found
example : ∃ past, Outcome past 2 0 [(2, 5), (0, 70), (1, 80)] [(8, 80)] := by
  obtain ⟨past, s, h, hd⟩ := demo_run.1
  obtain ⟨-, pre, todo, h1, h2, h3⟩ := C121_outcome h hd
  rw [h3 (by decide), List.append_nil] at h1
  exact ⟨past, h1 ▸ h2⟩

example : ∃ past s, Run 2 2 (fun _ => 5) past s ∧ ∃ s' ∈ past, Collecting s' 0 ∧ ∃ i, At s' 8 i 80 := by
  obtain ⟨past, s, h, hd⟩ := demo_run.1
  exact ⟨past, s, h, C121_results h hd (8, 80) List.mem_cons_self⟩

-- a full output: one result written, none reported
example : ∃ past s, Run 2 1 (fun _ => 5) past s ∧ ∃ cands out n, s.sr 0 = .done cands out n ∧ out.length = 1 ∧ n = 0 := by
  obtain ⟨past, s, h, hd⟩ := demo_run.2
  exact ⟨past, s, h, _, _, _, hd, rfl, rfl⟩

-- a search waits for a deletion between its steps, and the deletion can go on
example : ∃ past s, Run 2 2 (fun _ => 5) past s ∧ Collecting s 0 ∧ step 2 s (.translate 0) = none := by
  obtain ⟨past, h⟩ := checked_run (Run.start (capacity := 2) (k := 2) (data := fun _ => 5))
    (insertion 0 7 0 70 ++ [.begin 0, .read 0 0, .write 2 (.delete 7) 0, .rank 0 [(0, 70)]]) (by decide +kernel)
  refine ⟨past, _, h, ⟨[(0, 70)], [(0, 70)], [(0, 70)], [], 0, by decide +kernel⟩, ?_⟩
  rw [← Option.isNone_iff_eq_none]
  decide +kernel

-- an element deleted and inserted again during the search: two candidates of one id, one result
example : ∃ past s, Run 2 2 (fun _ => 5) past s ∧ s.sr 0 = .done [(0, 70), (1, 71)] [(7, 71)] 1 := by
  obtain ⟨past, h⟩ := checked_run (Run.start (capacity := 2) (k := 2) (data := fun _ => 5))
    (insertion 0 7 0 70 ++ [.begin 0, .read 0 0] ++ deletion 2 7 0 ++ insertion 1 7 1 71 ++
      [.read 0 1, .rank 0 [(0, 70), (1, 71)], .translate 0, .translate 0, .translate 0]) (by decide +kernel)
  exact ⟨past, _, h, by decide +kernel⟩

/-- Insertion of 7 with its edges; deletion of 7, whose graph update is still to come. -/
def before : List (Choice Nat) := insertion 0 7 0 70 ++ [.finish 0 [2]] ++ deletion 1 7 0

/-- Insertion of 8 into the same slot with its edges, then the graph update of the deletion of 7. -/
def after : List (Choice Nat) := insertion 2 8 0 80 ++ [.finish 2 [2], .finish 1 []]

/-- **C121 (reused slots, refuted).** A deletion drops the edges of its slot after the slot has been given back. If an
insertion takes the slot in between, the new element loses its edges: it is in the index, its insertion and the deletion have
returned, nothing else happened, and its list is empty. -/
theorem C121_reuse_refuted : ∃ (past : List (State Nat)) (s : State Nat), Run 2 1 (fun _ => 5) past s ∧
    (∀ a, s.p.pcs a = .idle ∧ s.tail a = .none) ∧ At s 8 0 80 ∧ s.lists 0 = [] ∧
    ∃ s' ∈ past, At s' 8 0 80 ∧ s'.lists 0 = [2] := by
  obtain ⟨past, h⟩ := checked_run (Run.start (capacity := 2) (k := 1) (data := fun _ => 5)) before (by decide +kernel)
  have h1 := Run.step (.write 3 (.reclaim 0) 0) h (fun t v hm => by cases hm) rfl
  obtain ⟨past2, h2⟩ := checked_run h1 (after.take 5) (by decide +kernel)
  have h3 := Run.step (.finish 1 []) h2 trivial rfl
  refine ⟨_, _, h3, ?_, ?_, ?_, _, List.mem_cons_self, ?_, ?_⟩
  · intro a
    rcases a with _ | _ | _ | _ | a <;> exact ⟨rfl, rfl⟩
  · exact ⟨rfl, by decide, rfl⟩
  · rfl
  · exact ⟨rfl, by decide, rfl⟩
  · rfl

end Verif.Inmem.Live
