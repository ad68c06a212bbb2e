import Verif.Garnet.StoreLemmas
import Mathlib.Data.Finset.Card
import Mathlib.Data.Finset.Range
import Mathlib.Data.Finset.Image
/-
C106: a Garnet vector set is a map from external ids to vectors and attributes.
-/
namespace Verif.Garnet.Store

variable {E V C : Type} [DecidableEq E]

theorem clean_run {s t : State E V C} {m m' : View E V} {cs : List (Call E V C)}
    (h : CleanRun s m cs t m') (hs : Inv s) (hv : Inverse s) (hm : m = view s) :
    Inv t ∧ Inverse t ∧ m' = view t := by
  induction h with
  | nil s m => exact ⟨hs, hv, hm⟩
  | @cons s m c cs t m' ha hc _ ih =>
    subst hm
    exact ih (inv_step hs c ha (clean_keeps hc)) (inverse_step hs hv c ha hc)
      (clean_outcome hs hv c ha hc).symm

/-- As long as storage calls succeed and no element is inserted twice, the set is the map of the successful
insertions, removals and changes of attributes, over restarts and reused ids: the calls show exactly its
elements with their vectors and attributes, and searches can report exactly its elements, each once, with its
vector.  Missing: failing storage calls, and elements inserted twice (see below). -/
theorem C106_clean_map_partial (v : V) (c : Option C) {cs : List (Call E V C)} {s : State E V C} {m : View E V}
    (h : CleanRun (init v c) (fun _ => none) cs s m) : Shows s m ∧ Reports s m := by
  obtain ⟨h1, h2, rfl⟩ := clean_run h (inv_init v c) (inverse_init v c) (view_init v c).symm
  exact ⟨shows_view h1, reports_of_inverse h1 h2⟩

/-- The answers of clean calls: an insertion succeeds, a removal succeeds exactly if the element exists, and so
does setting attributes that are not empty. -/
theorem C106_clean_answers (v : V) (c : Option C) {cs : List (Call E V C)} {s : State E V C} {m : View E V}
    (h : CleanRun (init v c) (fun _ => none) cs s m) (call : Call E V C) (ha : Allowed s call)
    (hc : Clean m call) :
    match call with
    | .insert .. => (step s call).2 = true
    | .remove e _ => (step s call).2 = (m e).isSome
    | .setAttribute e a _ => a ≠ [] → (step s call).2 = (m e).isSome
    | .restart _ => True := by
  obtain ⟨h1, h2, rfl⟩ := clean_run h (inv_init v c) (inverse_init v c) (view_init v c).symm
  have hsome : ∀ e, (view s e).isSome = (s.int e).isSome := by
    intro e
    cases hi : s.int e with
    | none => simp [view, hi]
    | some i =>
      obtain ⟨w, hw⟩ := Option.isSome_iff_exists.1 (h1.vec e i hi)
      simp [view, hi, hw]
  cases call with
  | insert q e w attrs a f =>
    obtain ⟨⟨i, rfl⟩, g1, g2, g3, g4, g5, g6, g7, g8⟩ := hc
    rcases setElement_gives q s e w i f with ⟨code, heq, _⟩ | ⟨_, hno⟩
    · show (insert q s e w attrs (.gives i) f).2 = true
      unfold insert
      rw [heq]
      simp [g5, g6, setAttributes]
    · exact absurd ⟨g1, g2, g3, g4, g8⟩ hno
  | remove e f =>
    obtain ⟨g1, g2, g3, g4, g5, g6, g7⟩ := hc
    show (remove s e f).2 = (view s e).isSome
    rw [hsome]
    unfold remove
    rw [exists_iff h1]
    cases hi : s.int e with
    | none => simp
    | some i =>
      have hn := h1.below i (h1.live e i hi)
      rw [delete_eq s e f i hi hn]
      simp [g1, g2, g4, g6, g7, (h2 i e).2 hi, h1.vec e i hi]
  | setAttribute e a ok =>
    intro hne
    have hok : ok = true := hc
    show (setAttribute s e a ok).2 = (view s e).isSome
    rw [hsome]
    unfold setAttribute
    rw [exists_iff h1]
    cases hi : s.int e with
    | none => simp
    | some i => simp [hne, setAttributes, hi, hok]
  | restart n => trivial

theorem run_faulty {s t : State E V C} {cs : List (Call E V C)} (h : Run s cs t)
    (hk : ∀ c ∈ cs, ¬ LosesMapping c) (hs : Inv s) : FaultyRun s (view s) cs t (view t) ∧ Inv t := by
  induction h with
  | nil s => exact ⟨.nil s _, hs⟩
  | @cons s c cs t ha _ ih =>
    have hc := hk c (by simp)
    obtain ⟨h1, h2⟩ := ih (fun d hd => hk d (by simp [hd])) (inv_step hs c ha hc)
    exact ⟨.cons ha hc (outcome_step hs c ha hc) h1, h2⟩

/-- Whatever storage calls fail and wherever calls are cut off by a crash, except that a removal fails to delete
the mapping to the internal id: what the calls show is a map that agrees with all answers.  A call that reports
success has done what it was asked for, one that reports a failure has done nothing, or, if it is an insertion
or a removal, has nevertheless inserted or removed that one element.  Missing: the excluded failure. -/
theorem C106_faulty_map_partial (v : V) (c : Option C) {cs : List (Call E V C)} {s : State E V C}
    (h : Run (init v c) cs s) (hk : ∀ c ∈ cs, ¬ LosesMapping c) :
    ∃ m, FaultyRun (init v c) (fun _ => none) cs s m ∧ Shows s m ∧ ∀ m', Shows s m' → m' = m := by
  obtain ⟨h1, h2⟩ := run_faulty h hk (inv_init v c)
  exact ⟨view s, h1, shows_view h2, fun m' hm' => shows_unique hm' (shows_view h2)⟩

/-- A call changes nothing about other elements, whatever fails in it (with the same exception). -/
theorem C106_others_partial (v : V) (c : Option C) {cs : List (Call E V C)} {s : State E V C}
    (h : Run (init v c) cs s) (hk : ∀ c ∈ cs, ¬ LosesMapping c) (call : Call E V C) (ha : Allowed s call)
    (hc : ¬ LosesMapping call) (e : E) (he : call.about ≠ some e) :
    exists? (step s call).1 e = exists? s e ∧ vectorOf (step s call).1 e = vectorOf s e ∧
      attrsOf (step s call).1 e = attrsOf s e := by
  obtain ⟨_, hs⟩ := run_faulty h hk (inv_init v c)
  have ht := inv_step hs call ha hc
  have hview : view (step s call).1 e = view s e := by
    have ho := outcome_step hs call ha hc
    unfold Outcome at ho
    split at ho
    · rw [ho]
      cases call with
      | restart n => rfl
      | _ => exact upd_other _ _ (fun hh => he (by simp [Call.about, hh]))
    · rcases ho with ho | ho
      · rw [ho]
      · cases call with
        | insert q e' w attrs a f =>
          obtain ⟨b, hb⟩ := ho
          rw [hb]; exact upd_other _ _ (fun hh => he (by simp [Call.about, hh]))
        | remove e' f =>
          simp only at ho
          rw [ho]; exact upd_other _ _ (fun hh => he (by simp [Call.about, hh]))
        | setAttribute => exact ho.elim
        | restart => exact ho.elim
  have a := shows_view hs e
  have b := shows_view ht e
  rw [hview] at b
  cases hm : view s e with
  | none =>
    rw [hm] at a b
    simp only at a b
    refine ⟨by rw [a, b], ?_⟩
    rw [exists_iff hs] at a
    rw [exists_iff ht] at b
    simp only [Option.isSome_eq_false_iff, Option.isNone_iff_eq_none] at a b
    simp [vectorOf, attrsOf, a, b]
  | some p =>
    rw [hm] at a b
    obtain ⟨w, at'⟩ := p
    simp only at a b
    exact ⟨by rw [a.1, b.1], by rw [a.2.1, b.2.1], by rw [a.2.2, b.2.2]⟩

/-- Two elements never share an internal id, ids of elements are marked used, and none has the id of the start
point; so the count that the set reports, its largest id, is at least the number of its elements. -/
theorem C106_count (v : V) (c : Option C) {cs : List (Call E V C)} {s : State E V C}
    (h : Run (init v c) cs s) (hk : ∀ c ∈ cs, ¬ LosesMapping c) (es : Finset E)
    (hes : ∀ e ∈ es, exists? s e = true) : es.card ≤ s.next - 1 := by
  obtain ⟨_, hs⟩ := run_faulty h hk (inv_init v c)
  have hint : ∀ e ∈ es, ∃ i, s.int e = some i := by
    intro e he
    have := hes e he
    rw [exists_iff hs] at this
    exact Option.isSome_iff_exists.1 this
  have hle : es.card ≤ (Finset.range (s.next - 1)).card := by
    apply Finset.card_le_card_of_injOn (fun e => (s.int e).getD 0 - 1)
    · intro e he
      obtain ⟨i, hi⟩ := hint e he
      have h1 := hs.pos e i hi
      have h2 := hs.below i (hs.live e i hi)
      simp only [hi, Option.getD_some, Finset.coe_range, Set.mem_Iio]
      omega
    · intro a ha b hb hab
      obtain ⟨i, hi⟩ := hint a ha
      obtain ⟨j, hj⟩ := hint b hb
      have h1 := hs.pos a i hi
      have h2 := hs.pos b j hj
      simp only [hi, hj, Option.getD_some] at hab
      have : i = j := by omega
      subst this
      exact hs.inj a b i hi hj
  simpa using hle

/-- An internal id that is in use but that no element maps to stays in use for ever, and searches go on
reporting its vector under its old name: no call, failing or not, and no restart removes it. -/
theorem C106_orphans_stay {s t : State E V C} {cs : List (Call E V C)} (h : Run s cs t) (i : Nat) (e : E) (v : V)
    (hu : s.used i = true) (hn : ∀ e', s.int e' ≠ some i) (hr : reported s i = some (e, v)) :
    t.used i = true ∧ (∀ e', t.int e' ≠ some i) ∧ reported t i = some (e, v) := by
  induction h with
  | nil s => exact ⟨hu, hn, hr⟩
  | @cons s call cs t ha _ ih =>
    have key : (step s call).1.used i = true ∧ (∀ e', (step s call).1.int e' ≠ some i) ∧
        (step s call).1.ext i = s.ext i ∧ (step s call).1.vec i = s.vec i := by
      have hattrs : ∀ (s' : State E V C) e a ok, (setAttributes s' e a ok).1.used = s'.used ∧
          (setAttributes s' e a ok).1.int = s'.int ∧ (setAttributes s' e a ok).1.ext = s'.ext ∧
          (setAttributes s' e a ok).1.vec = s'.vec := by
        intro s' e a ok
        unfold setAttributes
        split
        · simp
        · split <;> simp [State.putAttr]
      cases call with
      | insert q e' w attrs a f =>
        show (insert q s e' w attrs a f).1.used i = true ∧ (∀ x, (insert q s e' w attrs a f).1.int x ≠ some i) ∧
          (insert q s e' w attrs a f).1.ext i = s.ext i ∧ (insert q s e' w attrs a f).1.vec i = s.vec i
        cases a with
        | fails moved => cases moved <;> exact ⟨hu, hn, rfl, rfl⟩
        | gives j =>
          obtain ⟨hf, _⟩ := ha
          have hij : i ≠ j := by rintro rfl; simp [hu] at hf
          rcases setElement_gives q s e' w j f with ⟨code, heq, _⟩ | ⟨⟨u, ve, co, ex, heq, hh⟩, _⟩
          · have hbase : upd s.used j true i = true ∧ (∀ x, upd s.int e' (some j) x ≠ some i) ∧
                upd s.ext j (some e') i = s.ext i ∧ upd s.vec j (some w) i = s.vec i := by
              refine ⟨by simp [upd, hij, hu], ?_, by simp [upd, hij], by simp [upd, hij]⟩
              intro x
              simp only [upd]
              split
              · intro hc; exact hij (Option.some.inj hc).symm
              · exact hn x
            unfold insert
            rw [heq]
            simp only [Bool.not_true, Bool.false_eq_true, if_false]
            split
            · exact hbase
            · obtain ⟨a1, a2, a3, a4⟩ := hattrs
                ({ used := upd s.used j true, next := max s.next (j + 1), vec := upd s.vec j (some w),
                   code := code, ext := upd s.ext j (some e'), int := upd s.int e' (some j),
                   attr := s.attr } : State E V C) e' attrs f.attr
              rw [a1, a2, a3, a4]
              exact hbase
          · unfold insert
            rw [heq]
            simp only [Bool.not_false, if_true]
            obtain ⟨b1, b2, b3⟩ := hh i hij
            exact ⟨b1.trans hu, hn, b3, b2⟩
      | remove e' f =>
        show (remove s e' f).1.used i = true ∧ (∀ x, (remove s e' f).1.int x ≠ some i) ∧
          (remove s e' f).1.ext i = s.ext i ∧ (remove s e' f).1.vec i = s.vec i
        unfold remove
        split
        · exact ⟨hu, hn, rfl, rfl⟩
        · rename_i hex
          cases hj : s.int e' with
          | none => simp [exists?, hj] at hex
          | some j =>
            have hlt : j < s.next := by
              simp [exists?, hj] at hex; exact hex.1
            have hij : i ≠ j := by rintro rfl; exact hn e' hj
            rw [delete_eq s e' f j hj hlt]
            refine ⟨?_, ?_, ?_, ?_⟩
            · show (if f.free then upd s.used j false else s.used) i = true
              split
              · simp [upd, hij, hu]
              · exact hu
            · intro x
              show (if f.int then upd s.int e' none else s.int) x ≠ some i
              split
              · simp only [upd]; split
                · simp
                · exact hn x
              · exact hn x
            · show (if f.ext then upd s.ext j none else s.ext) i = s.ext i
              split
              · simp [upd, hij]
              · rfl
            · show (if f.vec then upd s.vec j none else s.vec) i = s.vec i
              split
              · simp [upd, hij]
              · rfl
      | setAttribute e' a ok =>
        show (setAttribute s e' a ok).1.used i = true ∧ (∀ x, (setAttribute s e' a ok).1.int x ≠ some i) ∧
          (setAttribute s e' a ok).1.ext i = s.ext i ∧ (setAttribute s e' a ok).1.vec i = s.vec i
        unfold setAttribute
        split
        · exact ⟨hu, hn, rfl, rfl⟩
        · split
          · obtain ⟨a1, a2, a3, a4⟩ := hattrs s e' a ok
            rw [a1, a2, a3, a4]
            exact ⟨hu, hn, rfl, rfl⟩
          · unfold deleteAttributes
            split
            · exact ⟨hu, hn, rfl, rfl⟩
            · split <;> exact ⟨hu, hn, rfl, rfl⟩
      | restart n => exact ⟨hu, hn, rfl, rfl⟩
    obtain ⟨k1, k2, k3, k4⟩ := key
    refine ih k1 k2 ?_
    unfold reported at hr ⊢
    rw [k3, k4]
    exact hr

/-! ### Concrete runs -/

/-- Every step of an insertion succeeds. -/
def good : InsertFaults := ⟨true, true, true, true, true, true, true⟩
/-- Every step of a removal succeeds. -/
def goodRemove : RemoveFaults := ⟨true, true, true, true, true, true, true⟩

/-- The state after some calls. -/
def after (s : State E V C) (cs : List (Call E V C)) : State E V C := cs.foldl (fun s c => (step s c).1) s

/-- The map after some calls, if it follows their answers. -/
def viewAfter (s : State E V C) (m : View E V) : List (Call E V C) → View E V
  | [] => m
  | c :: cs => viewAfter (step s c).1 (if (step s c).2 then m.after c else m) cs

theorem run_after {s : State E V C} : ∀ {cs : List (Call E V C)},
    (∀ k c, cs[k]? = some c → Allowed (after s (cs.take k)) c) → Run s cs (after s cs)
  | [], _ => .nil s
  | c :: cs, h => by
    refine .cons (h 0 c rfl) ?_
    refine run_after (s := (step s c).1) (cs := cs) ?_
    intro k d hd
    exact h (k + 1) d (by simpa using hd)

/-- The set with one start vector, elements and vectors being numbers. -/
abbrev start : State Nat Nat Nat := init 7 none

/-- Two elements, one removed, its id reused for a third. -/
def cleanCalls : List (Call Nat Nat Nat) :=
  [.insert none 1 10 [3] (.gives 1) good, .insert none 2 20 [] (.gives 2) good, .remove 1 goodRemove,
   .setAttribute 2 [9] true, .restart 3, .insert none 3 30 [] (.gives 1) good]

/-- The hypotheses of the theorems on clean runs are met by this run. -/
example : ∃ m, CleanRun start (fun _ => none) cleanCalls (after start cleanCalls) m ∧ m 1 = none ∧
    m 2 = some (20, [9]) ∧ m 3 = some (30, []) ∧ m 4 = none := by
  refine ⟨viewAfter start (fun _ => none) cleanCalls, ?_, ?_⟩
  · refine .cons ⟨by decide, by decide⟩ ⟨⟨1, rfl⟩, by simp [good]⟩ ?_
    refine .cons ⟨by decide, by decide⟩ ⟨⟨2, rfl⟩, by simp [good, View.after, step, start]; decide⟩ ?_
    refine .cons trivial (by simp [Clean, goodRemove]) ?_
    refine .cons trivial (by simp [Clean]) ?_
    refine .cons ?_ trivial ?_
    · intro i hi
      by_contra hge
      have h1 : i ≠ 0 := by omega
      have h2 : i ≠ 1 := by omega
      have h3 : i ≠ 2 := by omega
      revert hi
      simp [step, insert, setElement, writeRecords, State.take, State.putVec, State.putExt, State.putInt,
        setAttributes, State.putAttr, good, remove, exists?, delete, goodRemove, State.free, upd, h1, h2, h3,
        setAttribute, init]
    refine .cons ⟨by decide, by decide⟩ ⟨⟨1, rfl⟩, by simp [good]; decide⟩ ?_
    exact .nil _ _
  · decide

/-! ### What goes wrong -/

/-- A removal that fails to delete one mapping, and an insertion that reuses the id. -/
def lostCalls : List (Call Nat Nat Nat) :=
  [.insert none 1 10 [] (.gives 1) good, .remove 1 { goodRemove with int := false },
   .insert none 2 20 [] (.gives 1) good]

/-- Refutation of the map with all failures: a removal that fails to delete the mapping frees the id all the same.
When the id is given to another element, the removed element exists again, with the vector of the other one, and
removing it removes the other one: element 2 was inserted, never removed, and does not exist. -/
theorem C106_lost_mapping_refuted :
    Run start lostCalls (after start lostCalls) ∧
    exists? (after start (lostCalls.take 2)) 1 = false ∧
    exists? (after start lostCalls) 1 = true ∧ vectorOf (after start lostCalls) 1 = some 20 ∧
    exists? (after start lostCalls) 2 = true ∧
    (step (after start lostCalls) (.remove 1 goodRemove)).2 = true ∧
    exists? (step (after start lostCalls) (.remove 1 goodRemove)).1 2 = false := by
  refine ⟨run_after ?_, by decide, by decide, by decide, by decide, by decide, by decide⟩
  intro k c hc
  match k with
  | 0 => cases hc; exact ⟨by decide, by decide⟩
  | 1 => cases hc; trivial
  | 2 => cases hc; exact ⟨by decide, by decide⟩
  | k + 3 => simp [lostCalls] at hc

/-- Refutation for failed insertions: an insertion that reports a failure, because its attributes could not be
written, has added the element all the same. -/
theorem C106_failed_insert_refuted :
    (step start (.insert none 1 10 [3] (.gives 1) { good with attr := false })).2 = false ∧
    exists? (step start (.insert none 1 10 [3] (.gives 1) { good with attr := false })).1 1 = true ∧
    reported (step start (.insert none 1 10 [3] (.gives 1) { good with attr := false })).1 1 = some (1, 10) := by
  decide

/-- Refutation for failed insertions: one that fails on its last write leaves its vector and its name behind
under an id that is free: the element does not exist, but it can be reported. -/
theorem C106_failed_insert_reported_refuted :
    (step start (.insert none 1 10 [3] (.gives 1) { good with int := false })).2 = false ∧
    exists? (step start (.insert none 1 10 [3] (.gives 1) { good with int := false })).1 1 = false ∧
    idExists? (step start (.insert none 1 10 [3] (.gives 1) { good with int := false })).1 1 = false ∧
    reported (step start (.insert none 1 10 [3] (.gives 1) { good with int := false })).1 1 = some (1, 10) := by
  decide

/-- Refutation for failed removals: one that fails to delete the name and the vector reports a failure; the
element does not exist any more and cannot be removed again, but it can be reported. -/
theorem C106_failed_remove_reported_refuted :
    let s := after start ([.insert none 1 10 [] (.gives 1) good,
      .remove 1 { goodRemove with ext := false, vec := false }] : List (Call Nat Nat Nat))
    exists? s 1 = false ∧ (step s (.remove 1 goodRemove)).2 = false ∧ reported s 1 = some (1, 10) := by
  decide

/-- The same element inserted twice, with two vectors, and then removed. -/
def twiceCalls : List (Call Nat Nat Nat) :=
  [.insert none 1 10 [] (.gives 1) good, .insert none 1 20 [] (.gives 2) good, .remove 1 goodRemove]

/-- Refutation for elements inserted twice, without any failure: after the second insertion searches report
the element twice, with the old and the new vector; after its removal it does not exist, but it is still
reported with its old vector, after every further history of calls and restarts. -/
theorem C106_twice_refuted :
    Run start twiceCalls (after start twiceCalls) ∧
    reported (after start (twiceCalls.take 2)) 1 = some (1, 10) ∧
    reported (after start (twiceCalls.take 2)) 2 = some (1, 20) ∧
    (step (after start (twiceCalls.take 2)) (.remove 1 goodRemove)).2 = true ∧
    exists? (after start twiceCalls) 1 = false ∧
    ∀ cs t, Run (after start twiceCalls) cs t → reported t 1 = some (1, 10) ∧ idExists? t 1 = true := by
  have hnone : ∀ e', (after start twiceCalls).int e' ≠ some 1 := by
    intro e'
    by_cases h : e' = 1
    · subst h; decide
    · have : (after start twiceCalls).int e' = none := by
        simp [after, twiceCalls, step, insert, setElement, writeRecords, State.take, State.putVec, State.putExt,
          State.putInt, setAttributes, State.putAttr, good, remove, exists?, delete, goodRemove, State.free, upd,
          init, h]
      simp [this]
  have hinv : Run start twiceCalls (after start twiceCalls) := by
    refine run_after ?_
    intro k c hc
    match k with
    | 0 => cases hc; exact ⟨by decide, by decide⟩
    | 1 => cases hc; exact ⟨by decide, by decide⟩
    | 2 => cases hc; trivial
    | k + 3 => simp [twiceCalls] at hc
  have hclean : ∀ c ∈ twiceCalls, ¬ LosesMapping c := by
    intro c hc
    simp [twiceCalls] at hc
    rcases hc with rfl | rfl | rfl <;> simp [LosesMapping, goodRemove]
  refine ⟨hinv, by decide, by decide, by decide, by decide, ?_⟩
  intro cs t hrun
  obtain ⟨h1, h2, h3⟩ := C106_orphans_stay hrun 1 1 10 (by decide) hnone (by decide)
  refine ⟨h3, ?_⟩
  have key : ∀ {s t : State Nat Nat Nat} {cs}, Run s cs t → (∀ i, s.used i = true → i < s.next) →
      ∀ i, t.used i = true → i < t.next := by
    intro s t cs hr
    induction hr with
    | nil s => exact id
    | @cons s c cs t ha _ ih =>
      intro hb
      refine ih ?_
      cases c with
      | insert q e v attrs a f =>
        have hset : ∀ (s' : State Nat Nat Nat) e a ok, (setAttributes s' e a ok).1.used = s'.used ∧
            (setAttributes s' e a ok).1.next = s'.next := by
          intro s' e a ok
          unfold setAttributes
          split
          · simp
          · split <;> simp [State.putAttr]
        cases a with
        | fails moved =>
          cases moved
          · exact hb
          · intro i hi; exact Nat.lt_succ_of_lt (hb i hi)
        | gives j =>
          rcases setElement_gives q s e v j f with ⟨code, heq, _⟩ | ⟨⟨u, ve, co, ex, heq, hh⟩, _⟩
          · have base : ∀ i, upd s.used j true i = true → i < max s.next (j + 1) := by
              intro i hi
              simp only [upd] at hi
              split at hi
              · omega
              · have := hb i hi; omega
            show ∀ i, (insert q s e v attrs (.gives j) f).1.used i = true →
              i < (insert q s e v attrs (.gives j) f).1.next
            unfold insert
            rw [heq]
            simp only [Bool.not_true, Bool.false_eq_true, if_false]
            split
            · exact base
            · obtain ⟨a1, a2⟩ := hset
                ({ used := upd s.used j true, next := max s.next (j + 1), vec := upd s.vec j (some v),
                   code := code, ext := upd s.ext j (some e), int := upd s.int e (some j),
                   attr := s.attr } : State Nat Nat Nat) e attrs f.attr
              rw [a1, a2]
              exact base
          · show ∀ i, (insert q s e v attrs (.gives j) f).1.used i = true →
              i < (insert q s e v attrs (.gives j) f).1.next
            unfold insert
            rw [heq]
            simp only [Bool.not_false, if_true]
            intro i hi
            by_cases hij : i = j
            · omega
            · have := hb i ((hh i hij).1 ▸ hi); omega
      | remove e f =>
        show ∀ i, (remove s e f).1.used i = true → i < (remove s e f).1.next
        unfold remove
        split
        · exact hb
        · rename_i hex
          cases hj : s.int e with
          | none => simp [exists?, hj] at hex
          | some j =>
            have hlt : j < s.next := by simp [exists?, hj] at hex; exact hex.1
            rw [delete_eq s e f j hj hlt]
            intro i hi
            refine hb i ?_
            revert hi
            show (if f.free then upd s.used j false else s.used) i = true → _
            split
            · simp only [upd]; split
              · intro hc; cases hc
              · exact id
            · exact id
      | setAttribute e a ok =>
        show ∀ i, (setAttribute s e a ok).1.used i = true → i < (setAttribute s e a ok).1.next
        unfold setAttribute setAttributes deleteAttributes
        repeat' split
        all_goals exact hb
      | restart n => exact ha
  have := key hrun (run_faulty hinv hclean (inv_init 7 none)).2.below 1 h1
  simp [idExists?, h1, this]

/-- What a removal reports, whatever fails in it: it reports success only if the element existed, its name, its mapping
and its vector were deleted, its id was freed and the graph was repaired. -/
theorem C106_remove_reports (s : State E V C) (e : E) (f : RemoveFaults) (h : (remove s e f).2 = true) :
    exists? s e = true ∧ exists? (remove s e f).1 e = false ∧ f.graph = true ∧
    ∃ i, s.int e = some i ∧ reported (remove s e f).1 i = none ∧ idExists? (remove s e f).1 i = false := by
  unfold remove at h ⊢
  cases hex : exists? s e with
  | false => simp [hex] at h
  | true =>
    simp only [hex, Bool.not_true, Bool.false_eq_true, if_false] at h ⊢
    obtain ⟨i, hi⟩ : ∃ i, s.int e = some i := by
      cases hi : s.int e with
      | none => simp [exists?, hi] at hex
      | some i => exact ⟨i, rfl⟩
    obtain ⟨f1, f2, f3, f4, f5, f6, f7⟩ := f
    cases f1 <;> cases f2 <;> cases f3 <;> cases f4 <;> cases f5 <;> cases f6 <;> cases f7 <;>
      by_cases hn : i < s.next <;>
      simp [delete, hi, exists?, State.free, upd, idExists?, reported, hn] at h ⊢

/-- Refutation of an exact count: the count of a set whose only element was removed is one. -/
theorem C106_count_refuted :
    let s := after start ([.insert none 1 10 [] (.gives 1) good, .remove 1 goodRemove] : List (Call Nat Nat Nat))
    s.next - 1 = 1 ∧ ∀ e, exists? s e = false := by
  refine ⟨by decide, ?_⟩
  intro e
  by_cases h : e = 1
  · subst h; decide
  · simp [after, step, insert, setElement, writeRecords, State.take, State.putVec, State.putExt,
      State.putInt, setAttributes, State.putAttr, good, remove, exists?, delete, goodRemove, State.free, upd,
      init, h]

/-- A faulty run that meets the hypotheses of the theorems on failures: a failed insertion, an insertion whose
attributes fail, a removal that fails in part. -/
example : Run start
    [.insert none 1 10 [3] (.gives 1) { good with ext := false }, .insert none 2 20 [4] (.gives 1) { good with attr := false },
      .remove 2 { goodRemove with vec := false }]
    (after start [.insert none 1 10 [3] (.gives 1) { good with ext := false },
      .insert none 2 20 [4] (.gives 1) { good with attr := false }, .remove 2 { goodRemove with vec := false }]) := by
  refine run_after ?_
  intro k c hc
  match k with
  | 0 => cases hc; exact ⟨by decide, by decide⟩
  | 1 => cases hc; exact ⟨by decide, by decide⟩
  | 2 => cases hc; trivial
  | k + 3 => simp at hc

end Verif.Garnet.Store
