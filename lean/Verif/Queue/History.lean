import Verif.Queue.Props

/-! # C01, C02: every public operation of the candidate list

`FOp` has all the operations that change a candidate list, including `drain_best`, `truncate`, `retain` and
`remove`. `View` is the abstract state: what is stored (best first), the capacity, and whether the list grows. -/

namespace Verif.Queue

variable {I D : Type} [DecidableEq I] [LinearOrder D]

/-- The operations of a candidate list. -/
inductive FOp (I D : Type) where
  | insert (id : I) (d : Option D)
  | pop
  | reconfigure (l : Nat)
  | clear
  | drain (n : Nat)
  | truncate (n : Nat)
  | retain (f : I → D → Bool)
  | remove (id : I) (d : D)

/-- Specification state. -/
structure View (I D : Type) where
  stored : List (I × D)
  capacity : Nat
  auto : Bool
deriving DecidableEq

/-- What each operation should do to what is stored. Insertion goes before the first stored candidate that is not
closer and drops what no longer fits; a growable list makes room first. Removal looks at the first stored candidate
that is not closer than the given distance. -/
def View.step (v : View I D) : FOp I D → View I D
  | .insert _ none => v
  | .insert id (some d) =>
    let cap := if v.auto && v.stored.length == v.capacity then v.capacity + max 1 (v.capacity / 2) else v.capacity
    { v with stored := (v.stored.orderedInsert (fun a b => a.2 ≤ b.2) (id, d)).take cap, capacity := cap }
  | .pop => v
  | .reconfigure l => { v with stored := v.stored.take l, capacity := l }
  | .clear => { v with stored := [] }
  | .drain n => { v with stored := v.stored.drop n }
  | .truncate n => { v with stored := v.stored.take n }
  | .retain f => { v with stored := v.stored.filter fun x => f x.1 x.2 }
  | .remove id d =>
    let i := v.stored.findIdx fun x => decide (d ≤ x.2)
    match v.stored[i]? with
    | some x => if x.1 = id then { v with stored := v.stored.eraseIdx i } else v
    | none => v

/-- Running an operation of the model; `none` is a panic. -/
def fstep (pad : D) (q : Queue I D) : FOp I D → Option (Queue I D)
  | .insert id d => q.insert pad id d
  | .pop => q.pop.map (·.2)
  | .reconfigure l => some (q.reconfigure l)
  | .clear => some q.clear
  | .drain n => some (q.drainBest n)
  | .truncate n => some (q.truncate n)
  | .retain f => some (q.retain f)
  | .remove id d => some (q.remove pad id d).2

def frun (pad : D) (q : Queue I D) (ops : List (FOp I D)) : Option (Queue I D) := ops.foldlM (fstep pad) q

def FOp.ok : FOp I D → Bool
  | .reconfigure l => decide (1 ≤ l)
  | _ => true

def Queue.view (q : Queue I D) : View I D := ⟨q.contents, q.capacity, q.auto⟩

/-- What survives every operation. -/
structure BInv (q : Queue I D) : Prop where
  sorted : q.entries.Pairwise le
  cap : q.auto = true ∨ 1 ≤ q.capacity
  size_le : q.size ≤ q.capacity
  cursor_le : q.cursor ≤ q.size

theorem contents_length (q : Queue I D) : q.contents.length = q.size := by simp [Queue.contents, Queue.size]

theorem contents_sorted (q : Queue I D) (h : q.entries.Pairwise le) :
    q.contents.Pairwise (fun a b => a.2 ≤ b.2) := by
  unfold Queue.contents
  rw [List.pairwise_map]
  exact h

theorem drain_contents (q : Queue I D) (n : Nat) : (q.drainBest n).contents = q.contents.drop n := by
  unfold Queue.contents Queue.drainBest
  simp only [List.map_drop]
  have e : q.size = (q.entries.map fun e => (e.id, e.dist)).length := by simp [Queue.size]
  rw [e]
  rcases Nat.le_total n (q.entries.map fun e => (e.id, e.dist)).length with h | h
  · rw [Nat.min_eq_left h]
  · rw [Nat.min_eq_right h, List.drop_length, List.drop_eq_nil_of_le h]

theorem truncate_entries (q : Queue I D) (n : Nat) : (q.truncate n).entries = q.entries.take n := by
  unfold Queue.truncate
  split
  · rfl
  · rename_i h
    rw [List.take_of_length_le]
    unfold Queue.size at h
    omega

theorem retain_entries (q : Queue I D) (f : I → D → Bool) :
    (q.retain f).entries = (q.entries.filter fun e => f e.id e.dist).map fun e => { e with visited := false } := by
  unfold Queue.retain
  split
  · rename_i h
    have : q.entries = [] := List.eq_nil_of_length_eq_zero h
    simp [this]
  · simp only [truncate_entries]
    rw [List.take_append_of_le_length (Nat.le_refl _), List.take_length]

theorem retain_contents (q : Queue I D) (f : I → D → Bool) :
    (q.retain f).contents = q.contents.filter fun x => f x.1 x.2 := by
  unfold Queue.contents
  rw [retain_entries, List.map_map, List.filter_map]
  rfl

/-- One step: no panic, the invariant is kept and the view moves as specified. -/
theorem fstep_view (pad : D) (q : Queue I D) (h : BInv q) (op : FOp I D) (hok : op.ok = true) :
    ∃ q', fstep pad q op = some q' ∧ BInv q' ∧ q'.view = q.view.step op := by
  have hlen := contents_length q
  have hes : q.entries.length = q.size := rfl
  have hcl := h.cursor_le
  have hsl := h.size_le
  cases op with
  | insert id d =>
    cases d with
    | none => exact ⟨q, rfl, h, rfl⟩
    | some d =>
      obtain ⟨q', h1, h2, h3, h4, h5, h6⟩ := insert_core pad q id d h.cap h.size_le h.sorted
      have hgrow : q.capacity ≤ grown q := by unfold grown; split <;> omega
      have hgrow1 : 1 ≤ grown q := by
        have := h.cap
        unfold grown; split
        · omega
        · rename_i hx
          rcases h.cap with hc | hc
          · simp [hc] at hx; omega
          · exact hc
      have hsize : q'.size = min (grown q) (q.size + 1) := by
        unfold Queue.size; rw [h2, List.length_take, List.orderedInsert_length]
      refine ⟨q', h1, ⟨?_, ?_, ?_, ?_⟩, ?_⟩
      · rw [h2]
        have : (q.entries.orderedInsert le ⟨id, d, false⟩).Pairwise le := by
          haveI : Std.Total (le : Entry I D → Entry I D → Prop) := ⟨fun a b => le_total a.dist b.dist⟩
          haveI : IsTrans (Entry I D) le := ⟨fun a b c h1 h2 => le_trans (α := D) h1 h2⟩
          exact List.Pairwise.orderedInsert _ _ h.sorted
        exact this.sublist (List.take_sublist _ _)
      · rw [h3]; right; exact hgrow1
      · rw [hsize, h3]; omega
      · rw [hsize]
        rcases h6 with ⟨h6, h7⟩ | ⟨h6, h7⟩
        · have : q'.size = q.size := by unfold Queue.size; rw [h6]
          rw [h7]; omega
        · rw [h6]; omega
      · have hg : (if (q.view.auto && q.view.stored.length == q.view.capacity) = true then
            q.view.capacity + max 1 (q.view.capacity / 2) else q.view.capacity) = grown q := by
          simp only [Queue.view, hlen, grown]
        simp only [View.step, hg]
        simp only [Queue.view, h3, h4]
        unfold Queue.contents
        rw [h2, List.map_take, contents_orderedInsert]
  | pop =>
    unfold fstep Queue.pop Queue.hasNotVisited
    by_cases hc : q.cursor < min q.searchL q.size
    · have hlt : q.cursor < q.entries.length := by omega
      simp only [hc, decide_true, Bool.not_true, Bool.false_eq_true, if_false]
      rw [if_neg (by omega), List.getElem?_eq_getElem hlt]
      refine ⟨_, rfl, ⟨?_, h.cap, ?_, ?_⟩, ?_⟩
      · exact pairwise_set _ _ _ hlt rfl h.sorted
      · simp [Queue.size]; exact h.size_le
      · have := (advance_spec (q.entries.set q.cursor { q.entries[q.cursor] with visited := true }) (q.cursor + 1)
          (by simp; omega)).2.1
        exact this
      · simp only [View.step, Queue.view, Queue.contents]
        congr 1
        apply List.ext_getElem
        · simp
        · intro i hi1 hi2
          simp only [List.getElem_map, List.getElem_set]
          split
          · rename_i hh; subst hh; rfl
          · rfl
    · exact ⟨q, by simp [hc], h, rfl⟩
  | reconfigure l =>
    simp only [FOp.ok, decide_eq_true_eq] at hok
    refine ⟨_, rfl, ?_, ?_⟩
    · unfold Queue.reconfigure
      simp only
      split
      · exact ⟨h.sorted.sublist (List.take_sublist _ _), Or.inr hok, by simp [Queue.size],
          by simp [Queue.size]; omega⟩
      · rename_i hlt
        have hlt : ¬ l < q.size := hlt
        exact ⟨h.sorted, Or.inr hok, by show q.size ≤ l; omega, h.cursor_le⟩
    · unfold Queue.reconfigure View.step Queue.view Queue.contents
      simp only
      split
      · simp
      · rename_i hlt
        have hlt : ¬ l < q.size := hlt
        simp only [View.mk.injEq, and_true]
        rw [List.take_of_length_le]
        simp only [List.length_map]; omega
  | clear =>
    refine ⟨_, rfl, ⟨by simp [Queue.clear], h.cap, by simp [Queue.clear, Queue.size], by simp [Queue.clear]⟩, ?_⟩
    simp [Queue.clear, Queue.view, View.step, Queue.contents]
  | drain n =>
    refine ⟨_, rfl, ⟨?_, h.cap, ?_, by simp [Queue.drainBest]⟩, ?_⟩
    · exact h.sorted.sublist (List.drop_sublist _ _)
    · have : (q.drainBest n).size ≤ q.size := by simp [Queue.drainBest, Queue.size]
      exact Nat.le_trans this hsl
    · simp only [Queue.view, View.step, drain_contents]
      rfl
  | truncate n =>
    refine ⟨_, rfl, ?_, ?_⟩
    · unfold Queue.truncate
      split
      · rename_i hlt
        refine ⟨h.sorted.sublist (List.take_sublist _ _), h.cap, ?_, by simp⟩
        simp [Queue.size]; omega
      · exact h
    · have hc : (q.truncate n).contents = q.contents.take n := by
        simp [Queue.contents, truncate_entries]
      have h1 : (q.truncate n).capacity = q.capacity := by unfold Queue.truncate; split <;> rfl
      have h2 : (q.truncate n).auto = q.auto := by unfold Queue.truncate; split <;> rfl
      simp only [Queue.view, View.step, hc, h1, h2]
  | retain f =>
    have h1 : (q.retain f).capacity = q.capacity := by
      unfold Queue.retain Queue.truncate; split
      · rfl
      · dsimp only; split <;> rfl
    have h2 : (q.retain f).auto = q.auto := by
      unfold Queue.retain Queue.truncate; split
      · rfl
      · dsimp only; split <;> rfl
    have h3 : (q.retain f).size = (q.entries.filter fun e => f e.id e.dist).length := by
      unfold Queue.size; rw [retain_entries, List.length_map]
    have h4 : (q.entries.filter fun e => f e.id e.dist).length ≤ q.size := List.length_filter_le ..
    refine ⟨_, rfl, ⟨?_, ?_, ?_, ?_⟩, ?_⟩
    · rw [retain_entries, List.pairwise_map]
      exact (h.sorted.sublist List.filter_sublist).imp (fun hab => hab)
    · rw [h1, h2]; exact h.cap
    · rw [h3, h1]; omega
    · rw [h3]
      unfold Queue.retain
      split
      · rename_i h0
        have : q.entries = [] := List.eq_nil_of_length_eq_zero h0
        simp [this]; omega
      · dsimp only
        unfold Queue.truncate
        split
        · simp
        · rename_i hnlt
          simp only [Queue.size, List.length_append, List.length_map, List.length_drop] at hnlt ⊢
          omega
    · simp only [Queue.view, View.step, retain_contents, h1, h2]
  | remove id d =>
    have hfi : (q.contents.findIdx fun x => decide (d ≤ x.2)) = q.lowerBound pad d := by
      rw [lowerBound_eq, Queue.contents, List.findIdx_map]
      rfl
    refine ⟨_, rfl, ?_⟩
    have hget : ∀ i : Nat, q.contents[i]? = q.entries[i]?.map fun e : Entry I D => (e.id, e.dist) := by
      intro i; simp [Queue.contents]
    simp only [View.step]
    have hv : (Queue.view q).stored = q.contents := rfl
    rw [hv, hfi, hget]
    unfold Queue.remove
    split
    · rename_i h0
      have : q.entries = [] := List.eq_nil_of_length_eq_zero h0
      rw [this]
      exact ⟨h, by simp⟩
    · simp only
      cases he : q.entries[q.lowerBound pad d]? with
      | none => simp only [Option.map_none]; exact ⟨h, trivial⟩
      | some e =>
        simp only [Option.map_some]
        by_cases hid : e.id = id
        · rw [if_pos hid, if_pos hid]
          have hlt : q.lowerBound pad d < q.entries.length := by
            by_contra hc
            rw [List.getElem?_eq_none (by omega)] at he
            cases he
          have hl : (q.entries.eraseIdx (q.lowerBound pad d)).length = q.size - 1 := by
            rw [List.length_eraseIdx_of_lt hlt, hes]
          refine ⟨⟨h.sorted.sublist (List.eraseIdx_sublist ..), h.cap, ?_, ?_⟩, ?_⟩
          · simp only [Queue.size, hl]; omega
          · simp only [Queue.size, hl]
            split <;> omega
          · simp only [Queue.view, Queue.contents, List.eraseIdx_eq_take_drop_succ, List.map_append, List.map_take,
              List.map_drop]
        · rw [if_neg hid, if_neg hid]; exact ⟨h, rfl⟩

/-- **C01**, histories. For every sequence of insertions, pops, reconfigurations (to at least one), clears,
`drain_best`, `truncate`, `retain` and `remove` calls on a fixed (`l ≥ 1`) or growable candidate list: nothing panics,
what is stored and the capacity are exactly what the specification says, the stored candidates are sorted by distance
and never more than the capacity. -/
theorem C01_any_history (pad : D) (auto : Bool) (l : Nat) (hl : auto = true ∨ 1 ≤ l) (ops : List (FOp I D))
    (hok : ∀ op ∈ ops, op.ok = true) :
    ∃ q, frun pad (if auto then Queue.newAuto l else Queue.new l) ops = some q ∧
      q.view = ops.foldl View.step ⟨[], l, auto⟩ ∧
      q.contents.Pairwise (fun a b => a.2 ≤ b.2) ∧ q.contents.length ≤ q.capacity := by
  have h0 : BInv (if auto then Queue.newAuto l else Queue.new l : Queue I D) := by
    cases auto with
    | true => exact ⟨by simp [Queue.newAuto], Or.inl rfl, by simp [Queue.newAuto, Queue.size], by simp [Queue.newAuto]⟩
    | false =>
      exact ⟨by simp [Queue.new], Or.inr (by simpa [Queue.new] using hl), by simp [Queue.new, Queue.size], by simp [Queue.new]⟩
  have hv0 : (if auto then Queue.newAuto l else Queue.new l : Queue I D).view = ⟨[], l, auto⟩ := by
    cases auto <;> rfl
  generalize (if auto then Queue.newAuto l else Queue.new l : Queue I D) = q0 at h0 hv0
  rw [← hv0]
  clear hv0 hl
  induction ops generalizing q0 with
  | nil => exact ⟨q0, rfl, rfl, contents_sorted q0 h0.sorted, by rw [contents_length]; exact h0.size_le⟩
  | cons op ops ih =>
    obtain ⟨q1, h1, h2, h3⟩ := fstep_view pad q0 h0 op (hok op (by simp))
    obtain ⟨q, h4, h5, h6⟩ := ih (fun o ho => hok o (by simp [ho])) q1 h2
    refine ⟨q, ?_, ?_, h6⟩
    · simp only [frun, List.foldlM_cons, h1]
      exact h4
    · rw [h5, h3]; rfl

example : (frun 0 (Queue.new 3)
    ([.insert 1 (some 5), .insert 2 (some 3), .pop, .insert 3 (some 4), .insert 4 (some 1), .truncate 2,
      .retain (fun i _ => i != 4), .remove 2 3, .insert 5 (some 2)] : List (FOp Nat Nat))).map Queue.contents
    = some [(5, 2)] := by decide +kernel

/-- `n` pops in a row. -/
def pops : Nat → Queue I D → Option (List (Option (I × D)) × Queue I D)
  | 0, q => some ([], q)
  | n + 1, q =>
    match q.pop with
    | none => none
    | some (r, q') => (pops n q').map fun (rs, q'') => (r :: rs, q'')

/-- A list whose expanded candidates are exactly those before the cursor is popped in order. -/
theorem pops_prefix (n : Nat) (q : Queue I D) (h : BInv q)
    (hv : ∀ i (hi : i < q.entries.length), q.entries[i].visited = decide (i < q.cursor)) :
    ∃ q', pops n q =
      some ((List.range n).map fun i => (q.contents.take q.searchL)[q.cursor + i]?, q') := by
  induction n generalizing q with
  | zero => exact ⟨q, rfl⟩
  | succ n ih =>
    have hw : WInv q := ⟨h.sorted, h.cap, h.size_le, h.cursor_le, fun i hi hic => by
      rw [hv i hi]; simpa using hic⟩
    have hlen := contents_length q
    have hes : q.entries.length = q.size := rfl
    rcases pop_core q hw with ⟨e, hc, hsl, he, q', hp, hinv, hent, hcap, hauto, hL⟩ | ⟨hmin, hp⟩
    · have hcl : q'.entries.length = q.entries.length := by rw [hent]; simp
      have hcur : q'.cursor = q.cursor + 1 := by
        have hb := hinv.before
        have ha := hinv.at_cursor
        have hle : q'.cursor ≤ q'.entries.length := hinv.cursor_le
        rcases Nat.lt_trichotomy q'.cursor (q.cursor + 1) with h1 | h1 | h1
        · exfalso
          have hlt : q'.cursor < q'.entries.length := by omega
          have := ha hlt
          simp only [hent, List.getElem_set] at this
          split at this
          · simp at this
          · rename_i hne
            rw [hv _ (by omega)] at this
            simp at this; omega
        · exact h1
        · exfalso
          have := hb (q.cursor + 1) (by omega) h1
          simp only [hent, List.getElem_set] at this
          rw [if_neg (by omega), hv _ (by omega)] at this
          simp at this
          omega
      have hcont : q'.contents = q.contents := by
        unfold Queue.contents
        apply List.ext_getElem
        · simp [hent]
        · intro i hi1 hi2
          simp only [hent, List.getElem_map, List.getElem_set]
          split
          · rename_i hh; subst hh; simp [he]
          · rfl
      obtain ⟨q'', hq⟩ := ih q' ⟨hinv.sorted, hinv.cap, hinv.size_le, hinv.cursor_le⟩ (by
        intro i hi
        rw [hcur]
        simp only [hent, List.getElem_set]
        split
        · rename_i hh; simp [← hh]
        · rename_i hh
          rw [hv i (by omega)]
          simp only [decide_eq_decide]
          omega)
      refine ⟨q'', ?_⟩
      simp only [pops, hp, hq, Option.map_some]
      rw [List.range_succ_eq_map, List.map_cons, List.map_map, hcont, hL, hcur]
      have hhd : (q.contents.take q.searchL)[q.cursor + 0]? = some (e.id, e.dist) := by
        rw [Nat.add_zero, List.getElem?_take, if_pos hsl, Queue.contents, List.getElem?_map,
          List.getElem?_eq_getElem hc, he]; rfl
      rw [hhd]
      have : ∀ i, q.cursor + 1 + i = q.cursor + (i + 1) := by intro i; omega
      simp only [this]
      rfl
    · obtain ⟨q'', hq⟩ := ih q h hv
      refine ⟨q'', ?_⟩
      simp only [pops, hp, hq, Option.map_some]
      have hn : ∀ i, (q.contents.take q.searchL)[q.cursor + i]? = none := by
        intro i
        rw [List.getElem?_eq_none]
        rw [List.length_take, hlen]; omega
      simp only [hn]
      rw [List.range_succ_eq_map, List.map_cons, List.map_map]
      rfl

/-- **C02**, after `retain` (partial: only when something is removed, see `C02_retain_all_offers_nothing`). A `retain`
that removes at least one candidate makes every kept candidate offerable again: the pops that follow offer the kept
candidates, within the search window, best first and each once, and then report none. -/
theorem C02_retain_restarts_partial (q : Queue I D) (h : BInv q) (f : I → D → Bool)
    (hrem : ∃ x ∈ q.contents, f x.1 x.2 = false) (n : Nat) :
    ∃ q', pops n (q.retain f) =
      some ((List.range n).map fun i => ((q.contents.filter fun x => f x.1 x.2).take q.searchL)[i]?, q') := by
  obtain ⟨q1, h1, hb, -⟩ := fstep_view hrem.choose.2 q h (.retain f) rfl
  simp only [fstep, Option.some.injEq] at h1
  subst h1
  have hcur : (q.retain f).cursor = 0 := by
    unfold Queue.retain
    split
    · have := h.cursor_le; omega
    · dsimp only
      unfold Queue.truncate
      rw [if_pos]
      simp only [Queue.size, List.length_append, List.length_map, List.length_drop]
      have : (q.entries.filter fun e => f e.id e.dist).length < q.entries.length := by
        rw [List.length_filter_lt_length_iff_exists]
        obtain ⟨x, hx, hf⟩ := hrem
        simp only [Queue.contents, List.mem_map] at hx
        obtain ⟨e, he, rfl⟩ := hx
        exact ⟨e, he, by simp [hf]⟩
      omega
  have hL : (q.retain f).searchL = q.searchL := by
    unfold Queue.retain Queue.truncate; split
    · rfl
    · dsimp only; split <;> rfl
  have := pops_prefix n (q.retain f) hb (by
    intro i hi
    simp only [hcur, retain_entries, List.getElem_map]
    simp)
  simpa only [hcur, hL, retain_contents, Nat.zero_add] using this

/-- `BInv` is what every history of `FOp`s establishes. -/
theorem C02_binv_of_history (pad : D) (auto : Bool) (l : Nat) (hl : auto = true ∨ 1 ≤ l) (ops : List (FOp I D))
    (hok : ∀ op ∈ ops, op.ok = true) (q : Queue I D)
    (hq : frun pad (if auto then Queue.newAuto l else Queue.new l) ops = some q) : BInv q := by
  have h0 : BInv (if auto then Queue.newAuto l else Queue.new l : Queue I D) := by
    cases auto with
    | true => exact ⟨by simp [Queue.newAuto], Or.inl rfl, by simp [Queue.newAuto, Queue.size], by simp [Queue.newAuto]⟩
    | false =>
      exact ⟨by simp [Queue.new], Or.inr (by simpa [Queue.new] using hl), by simp [Queue.new, Queue.size],
        by simp [Queue.new]⟩
  generalize (if auto then Queue.newAuto l else Queue.new l : Queue I D) = q0 at h0 hq
  clear hl
  induction ops generalizing q0 with
  | nil => simp only [frun, List.foldlM_nil, pure, Option.some.injEq] at hq; exact hq ▸ h0
  | cons op ops ih =>
    obtain ⟨q1, h1, h2, -⟩ := fstep_view pad q0 h0 op (hok op (by simp))
    exact ih (fun o ho => hok o (by simp [ho])) q1 h2 (by
      simp only [frun, List.foldlM_cons, h1] at hq; exact hq)

example : (pops 3 (sample.retain fun i _ => i != 2)).map (·.1) = some [some (1, 10), some (3, 30), none] := by
  decide +kernel

theorem restart_pop (q : Queue I D) (h : BInv q) (hc : q.cursor = 0) (hl : 1 ≤ q.searchL) :
    ∃ q', q.pop = some (q.contents.head?, q') ∧ q'.contents = q.contents ∧
      ∃ r q'', q'.pop = some (r, q'') ∧ (q.contents ≠ [] → GoodPop q' r q'') := by
  have hw : WInv q := ⟨h.sorted, h.cap, h.size_le, h.cursor_le, by rw [hc]; intro i _ hi; omega⟩
  rcases pop_core _ hw with ⟨e, hlt, hsl, he, q', hp, hinv, hent, -⟩ | ⟨hmin, hp⟩
  · obtain ⟨r, q'', h1, h2⟩ := goodPop_of_inv q' hinv
    refine ⟨q', ?_, ?_, r, q'', h1, fun _ => h2⟩
    · rw [hp]
      simp only [Queue.contents, List.head?_map]
      simp only [hc] at he hlt
      have : q.entries.head? = some e := by rw [List.head?_eq_getElem?, List.getElem?_eq_getElem hlt, he]
      rw [this]; rfl
    · unfold Queue.contents
      apply List.ext_getElem
      · simp [hent]
      · intro i hi1 hi2
        simp only [hent, List.getElem_map, List.getElem_set]
        split
        · rename_i hh; subst hh; simp [he]
        · rfl
  · have h0 : q.contents = [] := by
      apply List.eq_nil_of_length_eq_zero
      rw [contents_length]
      omega
    refine ⟨q, ?_, rfl, none, q, hp, fun hx => absurd h0 hx⟩
    rw [hp, h0]; rfl

/-- **C02**, after `drain_best` and `truncate` (partial: the first pop may offer an expanded candidate again, see
`C02_drain_best_reoffers_expanded`). No candidate is lost: after `drain_best`, and after a `truncate` that removes
something, the next pop offers the best candidate left, the stored candidates stay, and the pop after it offers the best
unexpanded one. -/
theorem C02_drain_truncate_partial (q : Queue I D) (h : BInv q) (hl : 1 ≤ q.searchL) (n : Nat) :
    (∃ q', (q.drainBest n).pop = some ((q.contents.drop n).head?, q') ∧ q'.contents = q.contents.drop n ∧
      ∃ r q'', q'.pop = some (r, q'') ∧ (q.contents.drop n ≠ [] → GoodPop q' r q'')) ∧
    (n < q.contents.length →
      ∃ q', (q.truncate n).pop = some ((q.contents.take n).head?, q') ∧ q'.contents = q.contents.take n ∧
      ∃ r q'', q'.pop = some (r, q'') ∧ (q.contents.take n ≠ [] → GoodPop q' r q'')) := by
  have hcl := h.cursor_le
  have hsl := h.size_le
  constructor
  · have := restart_pop (q.drainBest n) ⟨h.sorted.sublist (List.drop_sublist _ _), h.cap, by
      have : (q.drainBest n).size ≤ q.size := by simp [Queue.drainBest, Queue.size]
      exact Nat.le_trans this hsl, by simp [Queue.drainBest]⟩ rfl hl
    rwa [drain_contents] at this
  · intro hn
    rw [contents_length] at hn
    have hc : (q.truncate n).contents = q.contents.take n := by simp [Queue.contents, truncate_entries]
    have hq : q.truncate n = { q with entries := q.entries.take n, cursor := 0 } := by
      unfold Queue.truncate; rw [if_pos hn]
    have := restart_pop (q.truncate n) (by
      rw [hq]
      exact ⟨h.sorted.sublist (List.take_sublist _ _), h.cap, by simp [Queue.size]; omega, by simp⟩)
      (by rw [hq]) (by rw [hq]; exact hl)
    rwa [hc] at this

example : (pops 3 (sample.drainBest 1)).map (·.1) = some [some (2, 20), none, none] := by decide +kernel

end Verif.Queue
