/-
C117: the vectors of a bf-tree provider under overlapping calls, and what searches report from them.
-/
import Verif.Bftree.VecLemmas

namespace Verif.Bftree.Vecs
open Spec

variable {V C D : Type}

/-! ### Helpers -/

theorem run_split {cfg : Cfg V C} {s s' : Sys V C} {a b : List (Nat × Choice V)} (h : s.run cfg (a ++ b) = some s') :
    ∃ m, s.run cfg a = some m ∧ m.run cfg b = some s' := by
  rw [run_append] at h
  cases hm : s.run cfg a with
  | none => simp [hm] at h
  | some m => exact ⟨m, rfl, by simpa [hm] using h⟩

theorem alone {cfg : Cfg V C} {s : Sys V C} (h : Inv cfg s) {t id : Nat} (ht : (s.th t).holds = some id) {x : Thread V}
    (hx : x.holds = none) : ∀ t', (upd s.th t x t').holds ≠ some id := by
  intro t' hh
  unfold upd at hh
  split at hh
  · rw [hx] at hh; cases hh
  · rename_i hne
    exact hne (h.excl hh ht)

/-- An answered store: at that moment both stores hold it and no other thread is inside a call on it. -/
theorem stored_now {cfg : Cfg V C} {s s' : Sys V C} {t id : Nat} {v : V} {c : Choice V} (h : Inv cfg s)
    (hs : s.step cfg t c = some s') (ha : s'.th t = .stored id v) :
    Holds cfg s'.st id v ∧ ∀ t', (s'.th t').holds ≠ some id := by
  cases move_of_step hs with
  | startSet h1 hl => simp [upd] at ha
  | startDel h1 hl => simp [upd] at ha
  | bad h1 hc => simp [upd] at ha
  | full h1 hd hi => simp [upd] at ha
  | noCode h1 hc hx => simp [upd] at ha
  | delFull h1 => simp [upd] at ha
  | delCode h1 => simp [upd] at ha
  | code h1 he =>
    simp only [upd, if_pos, Thread.stored.injEq] at ha
    obtain ⟨rfl, rfl⟩ := ha
    exact ⟨⟨h.setF t _ _ h1, _, he, by simp [upd]⟩, alone h (by rw [h1]; rfl) rfl⟩

theorem deleted_now {cfg : Cfg V C} {s s' : Sys V C} {t id : Nat} {c : Choice V} (h : Inv cfg s)
    (hs : s.step cfg t c = some s') (ha : s'.th t = .deleted id) :
    Gone s'.st id ∧ ∀ t', (s'.th t').holds ≠ some id := by
  cases move_of_step hs with
  | startSet h1 hl => simp [upd] at ha
  | startDel h1 hl => simp [upd] at ha
  | bad h1 hc => simp [upd] at ha
  | full h1 hd hi => simp [upd] at ha
  | noCode h1 hc hx => simp [upd] at ha
  | delFull h1 => simp [upd] at ha
  | code h1 he => simp [upd] at ha
  | delCode h1 =>
    simp only [upd, if_pos, Thread.deleted.injEq] at ha
    subst ha
    exact ⟨⟨h.delF t _ h1, by simp [upd]⟩, alone h (by rw [h1]; rfl) rfl⟩

theorem run_one {cfg : Cfg V C} {s s' : Sys V C} {t : Nat} {c : Choice V} (h : s.run cfg [(t, c)] = some s') :
    s.step cfg t c = some s' := by
  unfold Sys.run at h
  cases hs : s.step cfg t c with
  | none => simp [hs] at h
  | some m => simp only [hs, Sys.run] at h; exact h

/-! ### Calls -/

/-- **C117**: when a store of a vector answers that it went well, both stores hold this vector, and they keep it until
another call on the id starts, whatever calls run on other ids, also ids under the same lock. -/
theorem C117_kept (cfg : Cfg V C) (start : Nat → V) (before after : List (Nat × Choice V)) (t : Nat) (c : Choice V)
    (id : Nat) (v : V) (now later : Sys V C)
    (hnow : (Sys.new cfg start).run cfg (before ++ [(t, c)]) = some now) (ha : now.th t = .stored id v)
    (hu : Untouched id after) (hlater : now.run cfg after = some later) : Holds cfg later.st id v := by
  obtain ⟨m, h1, h2⟩ := run_split hnow
  obtain ⟨⟨hf, code, he, hq⟩, hall⟩ := stored_now ((Inv.new cfg start).run h1) (run_one h2) ha
  obtain ⟨-, e1, e2⟩ := quiet_run hall hu hlater
  exact ⟨e1.trans hf, code, he, e2.trans hq⟩

/-- **C117**: when a deletion answers, neither store holds anything under the id until another call on it starts. -/
theorem C117_gone (cfg : Cfg V C) (start : Nat → V) (before after : List (Nat × Choice V)) (t : Nat) (c : Choice V)
    (id : Nat) (now later : Sys V C)
    (hnow : (Sys.new cfg start).run cfg (before ++ [(t, c)]) = some now) (ha : now.th t = .deleted id)
    (hu : Untouched id after) (hlater : now.run cfg after = some later) : Gone later.st id := by
  obtain ⟨m, h1, h2⟩ := run_split hnow
  obtain ⟨⟨hf, hq⟩, hall⟩ := deleted_now ((Inv.new cfg start).run h1) (run_one h2) ha
  obtain ⟨-, e1, e2⟩ := quiet_run hall hu hlater
  exact ⟨e1.trans hf, e2.trans hq⟩

/-- **C117**: whatever fails and however calls overlap, when no call on an id is under way a code is never there
without its full-precision vector. -/
theorem C117_no_ghost (cfg : Cfg V C) (start : Nat → V) (run : List (Nat × Choice V)) (s : Sys V C)
    (hr : (Sys.new cfg start).run cfg run = some s) (id : Nat) (hq : Quiet id s.th) (code : C)
    (hc : s.st.quant id = some code) : ∃ v, s.st.full id = some v := by
  have key : Inv cfg s ∧ ((∀ t, s.th t ≠ .delFull id) → s.st.full id = none → s.st.quant id = none) := by
    refine run_ind (cfg := cfg) (P := fun x => Inv cfg x ∧
      ((∀ t, x.th t ≠ .delFull id) → x.st.full id = none → x.st.quant id = none)) (Q := fun _ => True) ?_ run _ s ?_
      (fun _ _ => trivial) hr
    · rintro a b t c ⟨hI, h⟩ _ hs
      refine ⟨hI.step hs, fun hfree hf => ?_⟩
      have hm := move_of_step hs
      have hset := hI.setF
      clear hs
      cases hm with
      | startSet h1 hl => exact h (fun t' hx => by have := hfree t'; grind [upd]) hf
      | startDel h1 hl => exact h (fun t' hx => by have := hfree t'; grind [upd]) hf
      | bad h1 hc => exact h (fun t' hx => by have := hfree t'; grind [upd]) hf
      | @full i v h1 hd hi =>
        have hne : id ≠ i := fun e => by simp [upd, e] at hf
        exact h (fun t' hx => by have := hfree t'; grind [upd]) (by simpa [upd, hne] using hf)
      | noCode h1 hc hx => exact h (fun t' hx => by have := hfree t'; grind [upd]) hf
      | @code i v co h1 he =>
        have hne : id ≠ i := fun e => by
          have := hset t i v h1
          rw [e] at hf
          simp [this] at hf
        simpa [upd, hne] using h (fun t' hx => by have := hfree t'; grind [upd]) hf
      | @delFull i h1 =>
        have hne : id ≠ i := fun e => hfree t (by simp [upd, e])
        exact h (fun t' hx => by have := hfree t'; grind [upd]) (by simpa [upd, hne] using hf)
      | @delCode i h1 =>
        by_cases hne : id = i
        · simp [upd, hne]
        · simpa [upd, hne] using h (fun t' hx => by have := hfree t'; grind [upd]) hf
    · refine ⟨Inv.new cfg start, fun _ hf => ?_⟩
      simp only [Sys.new] at hf ⊢
      split at hf
      · cases hf
      · rename_i hn; rw [if_neg hn]
  cases hf : s.st.full id with
  | some v => exact ⟨v, rfl⟩
  | none => rw [key.2 (fun t => (hq t).2.2) hf] at hc; cases hc

/-- **C117**: if no write is refused and every vector stored under the id has a code, then whenever no call on the id
is under way the code is the code of the vector that is there, and there is none if there is no vector. -/
theorem C117_agree (cfg : Cfg V C) (start : Nat → V) (run : List (Nat × Choice V)) (s : Sys V C)
    (hr : (Sys.new cfg start).run cfg run = some s) (id : Nat) (hno : ∀ t, (t, Choice.refuse) ∉ run)
    (henc : ∀ t v, (t, Choice.startSet id v) ∈ run → cfg.enc v ≠ none) (hq : Quiet id s.th) :
    s.st.quant id = (s.st.full id).bind cfg.enc := by
  have key : Inv cfg s ∧ (∀ t v, s.th t = .setLocked id v ∨ s.th t = .setFull id v → cfg.enc v ≠ none) ∧
      ((∀ t, (∀ v, s.th t ≠ .setFull id v) ∧ s.th t ≠ .delFull id) → s.st.quant id = (s.st.full id).bind cfg.enc) := by
    refine run_ind (cfg := cfg) (P := fun x => Inv cfg x ∧
      (∀ t v, x.th t = .setLocked id v ∨ x.th t = .setFull id v → cfg.enc v ≠ none) ∧
      ((∀ t, (∀ v, x.th t ≠ .setFull id v) ∧ x.th t ≠ .delFull id) → x.st.quant id = (x.st.full id).bind cfg.enc))
      (Q := fun tc => tc.2 ≠ .refuse ∧ ∀ v, tc.2 = .startSet id v → cfg.enc v ≠ none) ?_ run _ s ?_ ?_ hr
    · rintro a b t c ⟨hI, hE, hA⟩ ⟨hc1, hc2⟩ hs
      refine ⟨hI.step hs, ?_, ?_⟩
      · have hm := move_of_step hs
        clear hs
        cases hm <;> grind [upd]
      · intro hfree
        have hset := hI.setF
        have hdel := hI.delF
        have hex := fun t t' id => hI.excl (t := t) (t' := t') (id := id)
        have hm := move_of_step hs
        have hh : ∀ t id v, a.th t = .setFull id v → (a.th t).holds = some id := fun t id v h => by rw [h]; rfl
        have hh' : ∀ t id, a.th t = .delFull id → (a.th t).holds = some id := fun t id h => by rw [h]; rfl
        clear hs
        cases hm with
        | startSet h1 hl =>
          refine hA fun t' => ⟨fun v' hx => ?_, fun hx => ?_⟩ <;> have := hfree t' <;> grind [upd]
        | startDel h1 hl =>
          refine hA fun t' => ⟨fun v' hx => ?_, fun hx => ?_⟩ <;> have := hfree t' <;> grind [upd]
        | bad h1 hc => refine hA fun t' => ⟨fun v' hx => ?_, fun hx => ?_⟩ <;> have := hfree t' <;> grind [upd]
        | @full i v h1 hd hi =>
          have hne : id ≠ i := fun e => (hfree t).1 v (by simp [upd, e])
          have : a.st.quant id = (a.st.full id).bind cfg.enc := by
            refine hA fun t' => ⟨fun v' hx => ?_, fun hx => ?_⟩ <;> have := hfree t' <;> grind [upd]
          simpa [upd, hne] using this
        | @noCode i v c h1 hc hx =>
          have hne : id ≠ i := by
            intro e
            subst e
            rcases hx with hx | hx
            · exact hc1 hx
            · exact hE t v (.inr h1) hx
          refine hA fun t' => ⟨fun v' hx => ?_, fun hx => ?_⟩ <;> have := hfree t' <;> grind [upd]
        | @code i v code h1 he =>
          by_cases hne : id = i
          · subst hne
            simp [upd, hset t _ _ h1, he]
          · have : a.st.quant id = (a.st.full id).bind cfg.enc := by
              refine hA fun t' => ⟨fun v' hx => ?_, fun hx => ?_⟩ <;> have := hfree t' <;> grind [upd]
            simpa [upd, hne] using this
        | @delFull i h1 =>
          have hne : id ≠ i := fun e => (hfree t).2 (by simp [upd, e])
          have : a.st.quant id = (a.st.full id).bind cfg.enc := by
            refine hA fun t' => ⟨fun v' hx => ?_, fun hx => ?_⟩ <;> have := hfree t' <;> grind [upd]
          simpa [upd, hne] using this
        | @delCode i h1 =>
          by_cases hne : id = i
          · subst hne
            simp [upd, hdel t _ h1]
          · have : a.st.quant id = (a.st.full id).bind cfg.enc := by
              refine hA fun t' => ⟨fun v' hx => ?_, fun hx => ?_⟩ <;> have := hfree t' <;> grind [upd]
            simpa [upd, hne] using this
    · refine ⟨Inv.new cfg start, by simp [Sys.new], fun _ => ?_⟩
      simp only [Sys.new]
      split <;> simp
    · intro tc htc
      exact ⟨fun h => hno tc.1 (by rw [← h]; exact htc), fun v h => henc tc.1 v (by rw [← h]; exact htc)⟩
  exact key.2.2 fun t => ⟨fun v => ((hq t).1 v).2, (hq t).2.2⟩

/-- **C117**: every vector that can be read was given to a store of that id, with the right length and an id in range,
or is the start point; every code that can be read is the code of such a vector.  Nothing is made up or moved to
another id. -/
theorem C117_given (cfg : Cfg V C) (start : Nat → V) (run : List (Nat × Choice V)) (s : Sys V C)
    (hr : (Sys.new cfg start).run cfg run = some s) (id : Nat) :
    (∀ v, s.st.full id = some v → ((∃ t, (t, Choice.startSet id v) ∈ run) ∧ cfg.len v = cfg.dim ∧ id < cfg.total) ∨
      (id ∈ startIds cfg ∧ v = start id)) ∧
    (∀ code, s.st.quant id = some code → ∃ v, cfg.enc v = some code ∧
      (((∃ t, (t, Choice.startSet id v) ∈ run) ∧ cfg.len v = cfg.dim ∧ id < cfg.total) ∨
        (id ∈ startIds cfg ∧ v = start id))) := by
  let G : V → Prop := fun v => ((∃ t, (t, Choice.startSet id v) ∈ run) ∧ cfg.len v = cfg.dim ∧ id < cfg.total) ∨
      (id ∈ startIds cfg ∧ v = start id)
  have key : (∀ t v, s.th t = .setLocked id v → ∃ t', (t', Choice.startSet id v) ∈ run) ∧
      (∀ t v, s.th t = .setFull id v → G v) ∧ (∀ v, s.st.full id = some v → G v) ∧
      (∀ code, s.st.quant id = some code → ∃ v, cfg.enc v = some code ∧ G v) := by
    refine run_ind (cfg := cfg) (P := fun x => (∀ t v, x.th t = .setLocked id v → ∃ t', (t', Choice.startSet id v) ∈ run) ∧
      (∀ t v, x.th t = .setFull id v → G v) ∧ (∀ v, x.st.full id = some v → G v) ∧
      (∀ code, x.st.quant id = some code → ∃ v, cfg.enc v = some code ∧ G v)) (Q := fun tc => tc ∈ run) ?_ run _ s ?_
      (fun _ h => h) hr
    · rintro a b t c ⟨h1, h2, h3, h4⟩ hc hs
      have hm := move_of_step hs
      clear hs
      cases hm with
      | @startSet i v hi hl =>
        refine ⟨fun t' v' hx => ?_, fun t' v' hx => ?_, h3, h4⟩
        · by_cases ht : t' = t
          · simp only [upd, ht, if_pos, Thread.setLocked.injEq] at hx
            obtain ⟨rfl, rfl⟩ := hx
            exact ⟨t, hc⟩
          · exact h1 t' v' (by simpa [upd, ht] using hx)
        · exact h2 t' v' (by grind [upd])
      | startDel hi hl => exact ⟨fun t' v' hx => h1 t' v' (by grind [upd]), fun t' v' hx => h2 t' v' (by grind [upd]), h3, h4⟩
      | bad hi hl => exact ⟨fun t' v' hx => h1 t' v' (by grind [upd]), fun t' v' hx => h2 t' v' (by grind [upd]), h3, h4⟩
      | @full i v hi hd hlt =>
        have hG : i = id → G v := by
          rintro rfl
          exact .inl ⟨h1 t v hi, hd, hlt⟩
        refine ⟨fun t' v' hx => h1 t' v' (by grind [upd]), fun t' v' hx => ?_, fun v' hx => ?_, h4⟩
        · by_cases ht : t' = t
          · simp only [upd, ht, if_pos, Thread.setFull.injEq] at hx
            obtain ⟨rfl, rfl⟩ := hx
            exact hG rfl
          · exact h2 t' v' (by simpa [upd, ht] using hx)
        · by_cases he : id = i
          · simp only [upd, he, if_pos, Option.some.injEq] at hx
            subst hx
            exact hG he.symm
          · exact h3 v' (by simpa [upd, he] using hx)
      | noCode hi hl hx => exact ⟨fun t' v' hx => h1 t' v' (by grind [upd]), fun t' v' hx => h2 t' v' (by grind [upd]), h3, h4⟩
      | @code i v co hi he =>
        refine ⟨fun t' v' hx => h1 t' v' (by grind [upd]), fun t' v' hx => h2 t' v' (by grind [upd]), h3, fun co' hx => ?_⟩
        by_cases hid : id = i
        · simp only [upd, hid, if_pos, Option.some.injEq] at hx
          subst hx
          exact ⟨v, he, h2 t v (hid ▸ hi)⟩
        · exact h4 co' (by simpa [upd, hid] using hx)
      | delFull hi =>
        exact ⟨fun t' v' hx => h1 t' v' (by grind [upd]), fun t' v' hx => h2 t' v' (by grind [upd]),
          fun v' hx => h3 v' (by grind [upd]), h4⟩
      | delCode hi =>
        exact ⟨fun t' v' hx => h1 t' v' (by grind [upd]), fun t' v' hx => h2 t' v' (by grind [upd]), h3,
          fun v' hx => h4 v' (by grind [upd])⟩
    · refine ⟨by simp [Sys.new], by simp [Sys.new], fun v hx => ?_, fun co hx => ?_⟩
      · simp only [Sys.new] at hx
        split at hx
        · rename_i hin
          exact .inr ⟨hin, (Option.some.inj hx).symm⟩
        · cases hx
      · simp only [Sys.new] at hx
        split at hx
        · rename_i hin
          exact ⟨start id, hx, .inr ⟨hin, rfl⟩⟩
        · cases hx
  exact ⟨key.2.2.1, key.2.2.2⟩

/-- **C117**: a call that has its lock is never stuck, and it ends: after at most two more steps of its own it has
answered. -/
theorem C117_progress (cfg : Cfg V C) (s : Sys V C) (t : Nat)
    (h : ∃ id v, s.th t = .setLocked id v ∨ s.th t = .setFull id v ∨ s.th t = .delLocked id ∨ s.th t = .delFull id) :
    ∃ run s' id v, run.length ≤ 2 ∧ (∀ tc ∈ run, tc.1 = t) ∧ s.run cfg run = some s' ∧
      (s'.th t = .stored id v ∨ s'.th t = .failed id ∨ s'.th t = .deleted id) := by
  obtain ⟨id, v, h | h | h | h⟩ := h
  · by_cases hb : cfg.len v ≠ cfg.dim ∨ cfg.total ≤ id
    · exact ⟨[(t, .go)], _, id, v, by simp, by simp, (by simp only [Sys.run, Sys.step, h, Vecs.step, if_pos hb]; rfl),
        .inr (.inl (by simp [upd]))⟩
    · cases he : cfg.enc v with
      | none =>
        exact ⟨[(t, .go), (t, .go)], _, id, v, by simp, by simp,
          (by simp only [Sys.run, Sys.step, h, Vecs.step, if_neg hb, upd, if_pos, he]; rfl), .inr (.inl (by simp [upd]))⟩
      | some co =>
        exact ⟨[(t, .go), (t, .go)], _, id, v, by simp, by simp,
          (by simp only [Sys.run, Sys.step, h, Vecs.step, if_neg hb, upd, if_pos, he]; rfl), .inl (by simp [upd])⟩
  · cases he : cfg.enc v with
    | none =>
      exact ⟨[(t, .go)], _, id, v, by simp, by simp, (by simp only [Sys.run, Sys.step, h, Vecs.step, he]; rfl),
        .inr (.inl (by simp [upd]))⟩
    | some co =>
      exact ⟨[(t, .go)], _, id, v, by simp, by simp, (by simp only [Sys.run, Sys.step, h, Vecs.step, he]; rfl),
        .inl (by simp [upd])⟩
  · exact ⟨[(t, .go), (t, .go)], _, id, v, by simp, by simp,
      (by simp only [Sys.run, Sys.step, h, Vecs.step, upd, if_pos]; rfl), .inr (.inr (by simp [upd]))⟩
  · exact ⟨[(t, .go)], _, id, v, by simp, by simp, (by simp only [Sys.run, Sys.step, h, Vecs.step]; rfl),
      .inr (.inr (by simp [upd]))⟩

/-! ### Searches -/

theorem visit_spec (dist : Nat → Nat → Read D) (ids rest : List Nat) : ∀ (k : Nat) (seen : List Nat),
    (visit dist k seen ids).1 = (((fresh seen ids).zipIdx k).takeWhile (fine dist)).filterMap (foundOf dist) ∧
    (visit dist k seen ids).2.2.2 = ((fresh seen ids).zipIdx k).all (fine dist) ∧
    ((visit dist k seen ids).2.2.2 = true →
      (visit dist k seen ids).2.1 = k + (fresh seen ids).length ∧
      fresh seen (ids ++ rest) = fresh seen ids ++ fresh (visit dist k seen ids).2.2.1 rest) := by
  induction ids with
  | nil => intro k seen; simp [visit, fresh]
  | cons id ids ih =>
    intro k seen
    by_cases hin : id ∈ seen
    · simpa [visit, fresh, hin] using ih k seen
    · obtain ⟨a, b, c⟩ := ih (k + 1) (id :: seen)
      cases hd : dist k id with
      | found d =>
        refine ⟨?_, ?_, ?_⟩
        · simp [visit, fresh, hin, hd, a, fine, foundOf]
        · simp [visit, fresh, hin, hd, b, fine]
        · intro hok
          simp only [visit, hin, if_false, hd] at hok ⊢
          obtain ⟨c1, c2⟩ := c hok
          refine ⟨by rw [c1]; simp [fresh, hin]; omega, by simp [fresh, hin, c2]⟩
      | missing =>
        refine ⟨?_, ?_, ?_⟩
        · simp [visit, fresh, hin, hd, a, fine, foundOf]
        · simp [visit, fresh, hin, hd, b, fine]
        · intro hok
          simp only [visit, hin, if_false, hd] at hok ⊢
          obtain ⟨c1, c2⟩ := c hok
          refine ⟨by rw [c1]; simp [fresh, hin]; omega, by simp [fresh, hin, c2]⟩
      | broken =>
        refine ⟨?_, ?_, ?_⟩
        · simp [visit, fresh, hin, hd, fine]
        · simp [visit, fresh, hin, hd, fine]
        · intro hok; simp [visit, hin, hd] at hok

theorem takeWhile_all {α : Type} (p : α → Bool) : ∀ l : List α, l.all p = true → l.takeWhile p = l := by
  intro l
  induction l with
  | nil => intro _; rfl
  | cons a l ih =>
    intro h
    simp only [List.all_cons, Bool.and_eq_true] at h
    simp [h.1, ih h.2]

theorem takeWhile_append_stop {α : Type} (p : α → Bool) (r : List α) :
    ∀ l : List α, l.all p = false → (l ++ r).takeWhile p = l.takeWhile p := by
  intro l
  induction l with
  | nil => intro h; simp at h
  | cons a l ih =>
    intro h
    cases ha : p a with
    | false => simp [ha]
    | true =>
      simp only [List.all_cons, ha, Bool.true_and] at h
      simp [ha, ih h]

theorem fresh_append (b : List Nat) : ∀ (a seen : List Nat), ∃ r, fresh seen (a ++ b) = fresh seen a ++ r := by
  intro a
  induction a with
  | nil => intro seen; exact ⟨fresh seen b, rfl⟩
  | cons x a ih =>
    intro seen
    by_cases hx : x ∈ seen
    · simpa [fresh, hx] using ih seen
    · obtain ⟨r, hr⟩ := ih (x :: seen)
      exact ⟨r, by simp [fresh, hx, hr]⟩

/-- **C117**: expanding a beam reports, in the order of the lists and for each id at most once, those neighbours not
seen before whose vector is there at the moment it is read, with the distance of what is read; missing vectors are
left out silently; it goes well unless a read is a hard error, and then what comes before is what was reported. -/
theorem C117_expand (dist : Nat → Nat → Read D) (lists : Nat → List Nat) (beam : List Nat) :
    ∀ (k : Nat) (seen : List Nat),
    (expand dist lists k seen beam).1 =
      (((fresh seen (beam.flatMap lists)).zipIdx k).takeWhile (fine dist)).filterMap (foundOf dist) ∧
    (expand dist lists k seen beam).2.2.2 = ((fresh seen (beam.flatMap lists)).zipIdx k).all (fine dist) := by
  induction beam with
  | nil => intro k seen; simp [expand, fresh]
  | cons n ns ih =>
    intro k seen
    obtain ⟨a, b, c⟩ := visit_spec dist (lists n) (ns.flatMap lists) k seen
    rcases hv : visit dist k seen (lists n) with ⟨out, k', seen', ok⟩
    rw [hv] at a b c
    simp only at a b c
    cases ok with
    | true =>
      obtain ⟨c1, c2⟩ := c rfl
      obtain ⟨i1, i2⟩ := ih k' seen'
      simp only [expand, hv, List.flatMap_cons, c2, List.zipIdx_append]
      subst c1
      rw [i1, i2, a, List.all_append, ← b, takeWhile_all _ _ b.symm,
        List.takeWhile_append_of_pos (by simpa [List.all_eq_true] using b.symm), List.filterMap_append]
      simp
    | false =>
      obtain ⟨r, hr⟩ := fresh_append (ns.flatMap lists) (lists n) seen
      simp only [expand, hv, List.flatMap_cons, hr, List.zipIdx_append]
      rw [takeWhile_append_stop _ _ _ b.symm, List.all_append, ← b]
      exact ⟨a, rfl⟩

theorem rerankLoop_spec (dist : Nat → Nat → Read D) (cands : List Nat) : ∀ k,
    rerankLoop dist k cands =
      if (cands.zipIdx k).all (fine dist) then some ((cands.zipIdx k).filterMap (foundOf dist)) else none := by
  induction cands with
  | nil => intro k; rfl
  | cons id ids ih =>
    intro k
    cases hd : dist k id with
    | found d =>
      simp only [rerankLoop, hd, ih, List.zipIdx_cons, List.all_cons, fine, Bool.true_and, foundOf, List.filterMap_cons]
      split <;> rfl
    | missing =>
      simp only [rerankLoop, hd, ih, List.zipIdx_cons, List.all_cons, fine, Bool.true_and, foundOf, List.filterMap_cons]
    | broken => simp [rerankLoop, hd, fine]

/-- **C117**: reranking fails exactly if a read is a hard error; otherwise it returns each candidate whose vector is
there when it is read, once for each time it is a candidate, with the distance of that vector, nearest first. -/
theorem C117_rerank (sort : List (Nat × D) → List (Nat × D)) (le : D → D → Prop)
    (hperm : ∀ l, (sort l).Perm l) (hsort : ∀ l, (sort l).Pairwise fun a b => le a.2 b.2)
    (dist : Nat → Nat → Read D) (cands : List Nat) :
    (rerank sort dist cands = none ↔ ∃ p ∈ cands.zipIdx, fine dist p = false) ∧
    ∀ out, rerank sort dist cands = some out →
      out.Perm (cands.zipIdx.filterMap (foundOf dist)) ∧ out.Pairwise fun a b => le a.2 b.2 := by
  unfold rerank
  rw [rerankLoop_spec]
  by_cases h : cands.zipIdx.all (fine dist) = true
  · rw [if_pos h]
    refine ⟨⟨fun hh => by simp at hh, fun ⟨p, hp, hf⟩ => ?_⟩, ?_⟩
    · have := List.all_eq_true.1 h p hp
      rw [hf] at this
      cases this
    · intro out ho
      simp only [Option.map_some, Option.some.injEq] at ho
      subst ho
      exact ⟨hperm _, hsort _⟩
  · rw [if_neg h]
    refine ⟨⟨fun _ => ?_, fun _ => rfl⟩, fun out ho => by simp at ho⟩
    simp only [Bool.not_eq_true] at h
    obtain ⟨p, hp, hf⟩ := List.all_eq_false.1 h
    exact ⟨p, hp, by simpa using hf⟩

/-- **C117**: after a deletion has answered, and as long as no new store of the id starts, no search reports the id,
neither while expanding over the vectors or the codes nor after reranking, whatever other calls run while it reads. -/
theorem C117_deleted_not_found (cfg : Cfg V C) (start : Nat → V) (before : List (Nat × Choice V)) (t : Nat)
    (c : Choice V) (id : Nat) (now : Sys V C) (hnow : (Sys.new cfg start).run cfg (before ++ [(t, c)]) = some now)
    (ha : now.th t = .deleted id) (moments : Nat → Store V C)
    (hm : ∀ k, ∃ after s, Untouched id after ∧ now.run cfg after = some s ∧ moments k = s.st)
    (f : V → D) (g : C → D) (lists : Nat → List Nat) (k : Nat) (seen beam cands : List Nat)
    (sort : List (Nat × D) → List (Nat × D)) (hperm : ∀ l, (sort l).Perm l) :
    (∀ d, (id, d) ∉ (expand (fullDist f moments) lists k seen beam).1) ∧
    (∀ d, (id, d) ∉ (expand (codeDist g moments) lists k seen beam).1) ∧
    ∀ out, rerank sort (fullDist f moments) cands = some out → ∀ d, (id, d) ∉ out := by
  have hgone : ∀ k, Gone (moments k) id := by
    intro k
    obtain ⟨after, s, hu, hr, he⟩ := hm k
    rw [he]
    exact C117_gone cfg start before after t c id now s hnow ha hu hr
  have h1 : ∀ p d, foundOf (fullDist f moments) p ≠ some (id, d) := by
    intro p d hp
    unfold foundOf fullDist at hp
    split at hp
    · rename_i hh
      simp only [Option.some.injEq, Prod.mk.injEq] at hp
      rw [hp.1, (hgone _).1] at hh
      cases hh
    · cases hp
  have h2 : ∀ p d, foundOf (codeDist g moments) p ≠ some (id, d) := by
    intro p d hp
    unfold foundOf codeDist at hp
    split at hp
    · rename_i hh
      simp only [Option.some.injEq, Prod.mk.injEq] at hp
      rw [hp.1, (hgone _).2] at hh
      cases hh
    · cases hp
  refine ⟨fun d hd => ?_, fun d hd => ?_, fun out ho d hd => ?_⟩
  · rw [(C117_expand _ lists beam k seen).1, List.mem_filterMap] at hd
    obtain ⟨p, -, hp⟩ := hd
    exact h1 p d hp
  · rw [(C117_expand _ lists beam k seen).1, List.mem_filterMap] at hd
    obtain ⟨p, -, hp⟩ := hd
    exact h2 p d hp
  · unfold rerank at ho
    rw [rerankLoop_spec] at ho
    split at ho
    · simp only [Option.map_some, Option.some.injEq] at ho
      rw [← ho, (hperm _).mem_iff, List.mem_filterMap] at hd
      obtain ⟨p, -, hp⟩ := hd
      exact h1 p d hp
    · cases ho

/-- **C117**: as long as no call on a start point starts, a search can begin: the distances of all start points are
there, those of the vectors set when the index was made. -/
theorem C117_start (cfg : Cfg V C) (start : Nat → V) (moments : Nat → Store V C)
    (hm : ∀ k, ∃ run s, (∀ id ∈ startIds cfg, Untouched id run) ∧ (Sys.new cfg start).run cfg run = some s ∧
      moments k = s.st) (f : V → D) (k : Nat) :
    startDistances (fullDist f moments) k (startIds cfg) = some ((startIds cfg).map fun id => (id, f (start id))) := by
  have hd : ∀ k, ∀ id ∈ startIds cfg, fullDist f moments k id = .found (f (start id)) := by
    intro k id hid
    obtain ⟨run, s, hu, hr, he⟩ := hm k
    have hq : ∀ t, (((Sys.new cfg start).th t).holds) ≠ some id := by intro t; simp [Sys.new, Thread.holds]
    obtain ⟨-, e, -⟩ := quiet_run hq (hu id hid) hr
    simp only [fullDist, he, e, Sys.new, if_pos hid]
  generalize startIds cfg = l at hd
  clear hm
  induction l generalizing k with
  | nil => rfl
  | cons a l ih =>
    simp only [startDistances, hd k a (by simp)]
    rw [ih _ fun k' id hid => hd k' id (by simp [hid])]
    rfl

/-! ### Refuted -/

/-- Vectors are lists of numbers, the code of a vector is its sum, and a vector with a zero has no code.  Two points
and one start point. -/
def demo : Cfg (List Nat) Nat where
  total := 3
  starts := 1
  dim := 2
  len := List.length
  enc := fun v => if 0 ∈ v then none else some v.sum
  stripe := fun i => i % 2

/-- A run of `demo`. -/
def demoRun (run : List (Nat × Choice (List Nat))) : Option (Sys (List Nat) Nat) :=
  (Sys.new demo fun _ => [9, 9]).run demo run

/-- **C117**, refuted: the comment of `set_element` says that a failed write of the code at worst leaves a vector that
is not yet in the codes.  Storing a vector anew for an id that has one leaves the code of the old vector with the new
vector; the call has answered with an error and nothing runs. -/
theorem C117_stale_refuted :
    ¬ ∀ (run : List (Nat × Choice (List Nat))) (s : Sys (List Nat) Nat), demoRun run = some s →
      ∀ id, Quiet id s.th → s.st.quant id = none ∨ s.st.quant id = (s.st.full id).bind demo.enc := by
  intro h
  have hr : ∃ s, demoRun [(0, .startSet 0 [1, 2]), (0, .go), (0, .go), (1, .startSet 0 [0, 5]), (1, .go), (1, .go)] =
      some s := ⟨_, rfl⟩
  obtain ⟨s, hs⟩ := hr
  have h2 : demoRun [(0, .startSet 0 [1, 2]), (0, .go), (0, .go), (1, .startSet 0 [0, 5]), (1, .go), (1, .go)] =
      some ⟨⟨upd (upd (Sys.new demo fun _ => [9, 9]).st.full 0 (some [1, 2])) 0 (some [0, 5]),
        upd (Sys.new demo fun _ => [9, 9]).st.quant 0 (some 3), s.st.lock⟩,
        upd (upd (upd (upd (upd (upd (fun _ => .idle) 0 (.setLocked 0 [1, 2])) 0 (.setFull 0 [1, 2])) 0
          (.stored 0 [1, 2])) 1 (.setLocked 0 [0, 5])) 1 (.setFull 0 [0, 5])) 1 (.failed 0)⟩ := by
    cases hs
    rfl
  have := h _ _ h2 0 (by
    intro t
    refine ⟨fun v => ⟨?_, ?_⟩, ?_, ?_⟩ <;>
      · simp only [upd]
        split <;> (try split) <;> simp_all)
  simp [upd, demo] at this

/-- **C117**, refuted: a deletion accepts the id of a start point, and after that no search can begin. -/
theorem C117_start_deleted_refuted :
    ¬ ∀ (run : List (Nat × Choice (List Nat))) (s : Sys (List Nat) Nat), demoRun run = some s →
      startDistances (fullDist List.sum fun _ => s.st) 0 (startIds demo) ≠ none := by
  intro h
  exact h [(0, .startDel 2), (0, .go), (0, .go)] _ rfl rfl

/-- **C117**, refuted: while a deletion is under way the code is there without its vector. -/
theorem C117_ghost_refuted :
    ¬ ∀ (run : List (Nat × Choice (List Nat))) (s : Sys (List Nat) Nat), demoRun run = some s →
      ∀ id, s.st.quant id ≠ none → s.st.full id ≠ none := by
  intro h
  exact h [(0, .startSet 0 [1, 2]), (0, .go), (0, .go), (1, .startDel 0), (1, .go)] _ rfl 0 (by decide) rfl

/-! ### Examples -/

/-- A store answers while another thread holds the other lock; a third stores under the same lock afterwards. -/
example : ∃ now later, (Sys.new demo fun _ => [9, 9]).run demo ([(1, .startSet 1 [4, 4]), (0, .startSet 0 [1, 2]),
      (0, .go)] ++ [(0, .go)]) = some now ∧ now.th 0 = .stored 0 [1, 2] ∧
    Untouched 0 [(1, .go), (2, Choice.startSet 2 [7, 7]), (2, .go), (1, .go)] ∧
    now.run demo [(1, .go), (2, .startSet 2 [7, 7]), (2, .go), (1, .go)] = some later ∧
    later.st.full 0 = some [1, 2] ∧ later.st.quant 0 = some 3 ∧ later.st.full 2 = some [7, 7] :=
  ⟨_, _, rfl, rfl, by intro tc htc; simp at htc; rcases htc with rfl | rfl | rfl | rfl <;> simp [Choice.starts],
    rfl, rfl, rfl, rfl⟩

/-- A second call under the same lock waits. -/
example : demoRun [(0, .startSet 0 [1, 2]), (1, .startSet 2 [7, 7])] = none := rfl

/-- A deletion that answers, and a search that reads afterwards. -/
example : ∃ now, (Sys.new demo fun _ => [9, 9]).run demo ([(0, .startSet 0 [1, 2]), (0, .go), (0, .go),
      (1, .startDel 0), (1, .go)] ++ [(1, .go)]) = some now ∧ now.th 1 = .deleted 0 ∧
    expand (fullDist List.sum fun _ => now.st) (fun _ => [0, 2, 0, 2]) 0 [] [2] = ([(2, 18)], 2, [2, 0], true) ∧
    rerank id (fullDist List.sum fun _ => now.st) [2, 0] = some [(2, 18)] :=
  ⟨_, rfl, rfl, by decide, by decide⟩

/-- A read that is a hard error ends the expansion. -/
example : expand (fun k _ => if k = 1 then Read.broken else .found k) (fun _ => [5, 6, 7]) 0 [] [0] =
    ([(5, 0)], 2, [6, 5], false) := by decide

/-- Start points are found while other ids change. -/
example : ∃ s, demoRun [(0, .startSet 0 [1, 2]), (0, .go)] = some s ∧
    startDistances (fullDist List.sum fun _ => s.st) 0 (startIds demo) = some [(2, 18)] := ⟨_, rfl, by decide⟩

end Verif.Bftree.Vecs
