import Verif.Queue.History

/-!
# C02, C03: what `remove` does to the order in which candidates are offered
-/

namespace Verif.Queue

variable {I D : Type} [DecidableEq I] [LinearOrder D]

/-- Removal as an index: either nothing happened or one entry went, and the cursor moved with its entry. -/
theorem remove_cases (pad : D) (q : Queue I D) (id : I) (d : D) :
    (q.remove pad id d).2 = q ∨ ∃ i, ∃ h : i < q.entries.length, q.entries[i].id = id ∧
      (q.remove pad id d).2 = { q with entries := q.entries.eraseIdx i
                                       cursor := if i < q.cursor then q.cursor - 1 else q.cursor } := by
  unfold Queue.remove
  split
  · left; rfl
  · dsimp only
    split
    · rename_i e he
      split
      · rename_i hid
        right
        obtain ⟨h, he⟩ := List.getElem?_eq_some_iff.1 he
        refine ⟨_, h, by rw [he]; exact hid, ?_⟩
        have hcond : (List.findIdx (fun e => decide (d ≤ e.dist)) q.entries < q.cursor ∧ q.cursor > 0) ↔
            List.findIdx (fun e => decide (d ≤ e.dist)) q.entries < q.cursor := by omega
        simp only [lowerBound_eq, hcond]
      · left; rfl
    · left; rfl

theorem eraseIdx_winv (q : Queue I D) (h : Inv q) (i : Nat) (hi : i < q.entries.length) :
    WInv { q with entries := q.entries.eraseIdx i
                  cursor := if i < q.cursor then q.cursor - 1 else q.cursor } := by
  have hlen : (q.entries.eraseIdx i).length = q.entries.length - 1 := List.length_eraseIdx_of_lt hi
  have hs : q.entries.length = q.size := rfl
  have h1 := h.size_le
  have h2 := h.cursor_le
  refine ⟨h.sorted.sublist (List.eraseIdx_sublist _ _), h.cap, ?_, ?_, ?_⟩
  · simp only [Queue.size] at *; omega
  · show (if i < q.cursor then q.cursor - 1 else q.cursor) ≤ (q.entries.eraseIdx i).length
    rw [hlen]
    by_cases hc : i < q.cursor
    · rw [if_pos hc]; omega
    · rw [if_neg hc]
      have := hs; omega
  · intro j hj hjc
    dsimp only at hj hjc ⊢
    rw [List.getElem_eraseIdx]
    split
    · exact h.before j _ (by split at hjc <;> omega)
    · exact h.before (j + 1) _ (by split at hjc <;> omega)

theorem eraseIdx_inv (q : Queue I D) (h : Inv q) (i : Nat) (hi : i < q.entries.length) (hne : i ≠ q.cursor) :
    Inv { q with entries := q.entries.eraseIdx i
                 cursor := if i < q.cursor then q.cursor - 1 else q.cursor } := by
  have w := eraseIdx_winv q h i hi
  refine ⟨w.sorted, w.cap, w.size_le, w.cursor_le, w.before, ?_⟩
  intro hc
  dsimp only at hc ⊢
  have hlen : (q.entries.eraseIdx i).length = q.entries.length - 1 := List.length_eraseIdx_of_lt hi
  by_cases hlt : i < q.cursor
  · simp only [hlt, if_true] at hc ⊢
    rw [List.getElem_eraseIdx]
    rw [dif_neg (by omega)]
    have e : q.cursor - 1 + 1 = q.cursor := by omega
    simp only [e]
    exact h.at_cursor (by omega)
  · simp only [hlt, if_false] at hc ⊢
    rw [List.getElem_eraseIdx]
    rw [dif_pos (by omega)]
    exact h.at_cursor (by omega)

/-- **C02 for `remove`** (partial: see `C02_remove_reoffers_expanded`). After any history, removing a candidate never
makes the list skip one: the next pop offers something at least as close as every unexpanded stored candidate, and
reports none only if the whole window is expanded. If the removed candidate was not the one about to be offered, the
next pop is exactly the best unexpanded candidate. -/
theorem C02_remove_skips_nothing_partial (pad : D) (auto : Bool) (l : Nat) (hl : auto = true ∨ 1 ≤ l)
    (ops : List (Op I D)) (hok : ∀ op ∈ ops, op.ok = true) :
    ∃ q popped, run pad (if auto then Queue.newAuto l else Queue.new l, []) ops = some (q, popped) ∧
      ∀ id d, ∃ r q'', (q.remove pad id d).2.pop = some (r, q'') ∧
        (r = none → ∀ e ∈ (q.remove pad id d).2.entries.take q.searchL, e.visited = true) ∧
        (∀ x, r = some x → x ∈ (q.remove pad id d).2.contents ∧
          ∀ e ∈ (q.remove pad id d).2.entries, e.visited = false → x.2 ≤ e.dist) ∧
        ((∀ x q1, q.pop = some (some x, q1) → x.1 ≠ id) → GoodPop (q.remove pad id d).2 r q'') := by
  obtain ⟨⟨q, popped⟩, h1, hq⟩ := run_inv pad ops hok (if auto then Queue.newAuto l else Queue.new l, []) (by
    cases auto with
    | true => exact newAuto_inv l
    | false => exact new_inv l (by simpa using hl))
  refine ⟨q, popped, h1, fun id d => ?_⟩
  have good : ∀ (p : Queue I D), Inv p → p.searchL = q.searchL → ∃ r q'', p.pop = some (r, q'') ∧
      (r = none → ∀ e ∈ p.entries.take q.searchL, e.visited = true) ∧
      (∀ x, r = some x → x ∈ p.contents ∧ ∀ e ∈ p.entries, e.visited = false → x.2 ≤ e.dist) ∧ GoodPop p r q'' := by
    intro p hp hsl
    obtain ⟨r, q'', a, b⟩ := goodPop_of_inv p hp
    refine ⟨r, q'', a, fun hr => by rw [← hsl]; exact b.none_iff.1 hr, fun x hx => ?_, b⟩
    obtain ⟨i, -, e1, e2, -⟩ := b.some_imp x.1 x.2 hx
    refine ⟨?_, e2⟩
    have := List.mem_of_getElem? e1
    exact List.mem_map.2 ⟨_, this, rfl⟩
  rcases remove_cases pad q id d with h | ⟨i, hi, hid, h⟩
  · rw [h]
    obtain ⟨r, q'', a, b, c, g⟩ := good q hq rfl
    exact ⟨r, q'', a, b, c, fun _ => g⟩
  · by_cases hne : i = q.cursor
    · rw [h]
      have w := eraseIdx_winv q hq i hi
      have hnl : ¬ i < q.cursor := by omega
      simp only [hnl, if_false] at w ⊢
      rcases pop_core _ w with ⟨e, hc, hlt, he, q'', p1, p2, p3, -⟩ | ⟨h0, p1⟩
      · dsimp only at hc hlt he
        refine ⟨_, q'', p1, (by intro hx; cases hx), ?_, ?_⟩
        · intro x hx
          cases hx
          refine ⟨List.mem_map.2 ⟨e, by rw [← he]; exact List.getElem_mem hc, rfl⟩, ?_⟩
          intro y hy hyv
          obtain ⟨j, hj, rfl⟩ := List.getElem_of_mem hy
          rcases Nat.lt_trichotomy j q.cursor with hjl | hje | hjg
          · have := w.before j hj hjl
            rw [this] at hyv; cases hyv
          · subst hje; rw [he]
          · have := List.pairwise_iff_getElem.1 w.sorted q.cursor j hc hj hjg
            rw [← he]; exact this
        · intro hno
          exfalso
          rcases pop_core q hq.toW with ⟨e', hc', hl', he', q3, p4, -⟩ | ⟨h0, -⟩
          · refine hno _ _ p4 ?_
            rw [← he', ← hid]
            simp [hne]
          · have hs : q.entries.length = q.size := rfl
            simp only [hne ▸ hi] at *
            omega
      · have hall : ∀ e ∈ (q.entries.eraseIdx i).take q.searchL, e.visited = true := by
          intro e hx
          rw [List.mem_take_iff_getElem] at hx
          obtain ⟨j, hj, rfl⟩ := hx
          dsimp only [Queue.size] at h0
          exact w.before j (by dsimp only; omega) (by dsimp only; omega)
        refine ⟨none, _, p1, fun _ => hall, (by intro x hx; cases hx), fun _ => ⟨?_, ?_, rfl⟩⟩
        · simpa only [true_iff] using hall
        · intro id d hx; cases hx
    · have := eraseIdx_inv q hq i hi hne
      rw [← h] at this
      obtain ⟨r, q'', a, b, c, g⟩ := good _ this (by rw [h])
      exact ⟨r, q'', a, b, c, fun _ => g⟩

/-- **C02 fails for `remove`** (queue.rs:197–224): when the candidate about to be offered is removed the cursor stays
where it is, now on an entry that may already be expanded, and the next pop offers that one again. Candidate 2 is
inserted and expanded, a closer candidate 1 is inserted and removed, and candidate 2 is offered a second time. -/
theorem C02_remove_reoffers_expanded :
    ∃ q popped, run 0 (Queue.new 3, []) ([.insert 2 (some 20), .pop, .insert 1 (some 10)] : List (Op Nat Nat))
        = some (q, popped) ∧ popped = [2] ∧ (q.remove 0 1 10).1 = true ∧
      (q.remove 0 1 10).2.pop.map (·.1) = some (some (2, 20)) := by
  refine ⟨⟨[⟨1, 10, false⟩, ⟨2, 20, true⟩], 3, 0, false, 3⟩, [2], ?_, rfl, ?_, ?_⟩ <;> decide +kernel

/-- Non-vacuity of the exact case: candidate 5 is expanded, 6 is next, and 5 is removed. -/
example : ((⟨[⟨5, 1, true⟩, ⟨6, 2, false⟩, ⟨7, 3, false⟩], 3, 1, false, 3⟩ : Queue Nat Nat).remove 0 5 1).2.pop.map
    (·.1) = some (some (6, 2)) := by decide +kernel

end Verif.Queue
