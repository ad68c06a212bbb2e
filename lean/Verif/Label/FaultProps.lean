import Verif.Label.FaultLemmas
/-
C116: the inverted label index over a store whose calls can fail.
-/
namespace Verif.Label.Fault

/-- **C116**, other documents.  After any attempts of insertions, deletions and updates, each of them stopped at any
store call (a failing call, a record that the store refuses, a crash), one more attempt on a document never panics,
and whatever it answers, every query finds each other document exactly as before. -/
theorem C116_others (fits : Bytes → Cell → Bool) (acts : List (Nat × IOp)) (ha : ∀ x ∈ acts, Allowed x.2) (n : Nat)
    (o : IOp) (ho : Allowed o) :
    (attempt fits n (tryAll fits [] acts) o).2 ≠ .panic ∧
      ∀ (norm : Bytes → Bytes) (e : Expr), ExprWf norm e → ∀ ids ids',
        evalIdx norm (tryAll fits [] acts) e = .ok ids →
        evalIdx norm (attempt fits n (tryAll fits [] acts) o).1 e = .ok ids' →
        ∀ i, i ≠ docOf o → (i ∈ ids' ↔ i ∈ ids) := by
  obtain ⟨S, R, h⟩ := tryAll_seen fits acts ha seen_empty
  obtain ⟨S', R', h1, h2, h3⟩ := attempt_seen fits n h ho
  refine ⟨h2, ?_⟩
  intro norm e he ids ids' hi hi' i hne
  rw [evalIdx_spec (h.1.toR h.2) e he hi, evalIdx_spec (h1.1.toR h1.2) e he hi', h3 i hne]

/-- **C116**, retrying.  If every operation of an allowed history is tried again, after any number of failing attempts,
until it succeeds, then the index answers exactly as if nothing had failed. -/
theorem C116_retry (fits : Bytes → Cell → Bool) (ops : List IOp) (st : Store) (h : Retried fits ops st)
    (ho : OpsOk (fun _ => none) ops) (norm : Bytes → Bytes) (e : Expr) (he : ExprWf norm e) (ids : List Nat)
    (hi : evalIdx norm st e = .ok ids) (i : Nat) :
    i ∈ ids ↔ ∃ attrs, docsAfter (fun _ => none) ops i = some attrs ∧ IdxSat norm attrs e :=
  evalIdx_spec (retried_inv h ho).toR e he hi i

/-- **C116**, between attempts.  While the last operation of a history is failing, queries find every other document
exactly, and the document of the operation only if its old attributes or its new ones satisfy the filter: never by a
mixture of the two. -/
theorem C116_between (fits : Bytes → Cell → Bool) (ops : List IOp) (o : IOp) (st st' : Store)
    (h : Retried fits ops st) (hf : Failing fits o st st') (ho : OpsOk (fun _ => none) (ops ++ [o]))
    (norm : Bytes → Bytes) (e : Expr) (he : ExprWf norm e) (ids : List Nat) (hi : evalIdx norm st' e = .ok ids) :
    (∀ i, i ≠ docOf o →
      (i ∈ ids ↔ ∃ attrs, docsAfter (fun _ => none) ops i = some attrs ∧ IdxSat norm attrs e)) ∧
    (docOf o ∈ ids → ∃ attrs, (docsAfter (fun _ => none) ops (docOf o) = some attrs ∨
      docsAfter (fun _ => none) (ops ++ [o]) (docOf o) = some attrs) ∧ IdxSat norm attrs e) := by
  rw [opsOk_append] at ho
  have hinv := retried_inv h ho.1
  obtain ⟨P, R, hm⟩ := failing_mid hinv ho.2.1 hf
  obtain ⟨S, hS, h1, h2⟩ := mid_seen hm hinv.toR.fine ho.2.1
  refine ⟨fun i hne => by rw [evalIdx_spec hS e he hi, h1 i hne], fun hd => ?_⟩
  obtain ⟨b, hb, hs⟩ := (evalIdx_spec hS e he hi _).1 hd
  obtain ⟨a, hor, hsub⟩ := h2 b hb
  refine ⟨a, hor.imp id ?_, idxSat_mono hsub e hs⟩
  intro hn
  rw [docsAfter, List.foldl_append]
  cases o <;> simpa [newOf, docsOp, docOf, setDoc] using hn

/-- **C116**, progress.  From any index left by a history in which failing operations were tried again, every allowed
operation succeeds with a store that refuses nothing, once enough of its calls work, however often it failed before. -/
theorem C116_progress (fits : Bytes → Cell → Bool) (ops : List IOp) (o : IOp) (st st' : Store)
    (h : Retried fits ops st) (hf : Failing fits o st st') (ho : OpsOk (fun _ => none) (ops ++ [o])) :
    ∃ c, ∀ m, ∃ st2 m', attempt (fun _ _ => true) (m + c) st' o = (st2, .ok m') := by
  rw [opsOk_append] at ho
  obtain ⟨P, R, hm⟩ := failing_mid (retried_inv h ho.1) ho.2.1 hf
  exact attempt_never_stuck hm ho.2.1

/-- **C116**, link to the index that never fails (C43): the same result, once enough calls work. -/
theorem C116_fault_free (st st' : Store) (o : IOp) (h : applyOp st o = .ok st') :
    ∃ c, ∀ m, attempt (fun _ _ => true) (m + c) st o = (st', .ok m) := attempt_enough h

/-- **C116**, full labels.  If the store refuses the posting list of one label of a document with the document in it,
then the insertion of the document fails, however many store calls work. -/
theorem C116_full_label (fits : Bytes → Cell → Bool) (n : Nat) (st : Store) (doc : Nat) (attrs : Attrs) (f : Bytes)
    (v : AttrVal) (hm : (f, v) ∈ attrs) (hn : (attrs.map fun p => encKey p.1 p.2).Nodup) (ids : List Nat)
    (hg : getOrEmpty st (encKey f v) = .ok ids) (hf : fits (encKey f v) (.pl (plInsert ids doc)) = false) :
    ∀ m, (insert fits n st doc attrs).2 ≠ .ok m := by
  intro m he
  have := insertLoop_full fits doc (encKey f v) hf _ hn (List.mem_map.2 ⟨(f, v), hm, rfl⟩) n st hg
  rw [insert] at he
  rcases e : insertLoop fits doc (attrs.map fun p => encKey p.1 p.2) n st with ⟨st', r⟩
  rw [e] at this he
  cases r with
  | ok m' => exact this m' rfl
  | err => cases he
  | panic => cases he

/-! ### Cases that meet the hypotheses -/

def anyFits : Bytes → Cell → Bool := fun _ _ => true

/-- At most one document in a posting list. -/
def oneFits : Bytes → Cell → Bool
  | _, .pl ids => decide (ids.length ≤ 1)
  | _, .rev _ => true

def red : Attrs := [([97], .bool true), ([98], .int 1)]
def blue : Attrs := [([97], .bool false), ([98], .int 2)]
def qRed : Expr := .cmp [97] (.eq (.bool true))
def qBlue : Expr := .cmp [97] (.eq (.bool false))
def qTwo : Expr := .cmp [98] (.eq (.num (.pos 2)))

theorem red_ok : AttrsOk red :=
  ⟨by decide, by decide +kernel, by decide, by intro p hp; simp [red] at hp; rcases hp with rfl | rfl <;> simp [AttrVal.valid],
    by decide⟩

theorem blue_ok : AttrsOk blue :=
  ⟨by decide, by decide +kernel, by decide, by intro p hp; simp [blue] at hp; rcases hp with rfl | rfl <;> simp [AttrVal.valid],
    by decide⟩

/-- Attempts of which several fail: document 1 is inserted, document 2 fails after its first label, document 1 is
updated, failing in the middle of the deletion, then in the middle of the insertion, then succeeding. -/
def story : List (Nat × IOp) :=
  [(9, .insert 1 red), (2, .insert 2 red), (3, .update 1 blue), (8, .update 1 blue), (20, .update 1 blue)]

example : (∀ x ∈ story, Allowed x.2) ∧ Allowed (.delete 2) := by
  refine ⟨?_, trivial⟩
  intro x hx
  simp only [story, List.mem_cons, List.not_mem_nil, or_false] at hx
  rcases hx with rfl | rfl | rfl | rfl | rfl <;> exact ⟨by decide, by first | exact red_ok | exact blue_ok⟩

/-- Which attempts of the story fail, and what is found after each of them. -/
example : (story.mapIdx fun j x => (match (attempt anyFits x.1 (tryAll anyFits [] (story.take j)) x.2).2 with
      | .ok _ => true | _ => false)) = [true, false, false, false, true] ∧
    ([1, 2, 3, 4, 5].map fun j => (evalIdx id (tryAll anyFits [] (story.take j)) qRed,
      evalIdx id (tryAll anyFits [] (story.take j)) qBlue)) =
      [(.ok [1], .ok []), (.ok [2, 1], .ok []), (.ok [2], .ok []), (.ok [2], .ok [1]), (.ok [2], .ok [1])] := by
  decide +kernel

/-- A history with failing attempts that are tried again. -/
example : Retried anyFits [.insert 1 red, .update 1 blue]
      (tryAll anyFits [] [(9, .insert 1 red), (3, .update 1 blue), (8, .update 1 blue), (20, .update 1 blue)]) ∧
    OpsOk (fun _ => none) [.insert 1 red, .update 1 blue] ∧ ExprWf id qBlue ∧
    evalIdx id (tryAll anyFits []
      [(9, .insert 1 red), (3, .update 1 blue), (8, .update 1 blue), (20, .update 1 blue)]) qBlue = .ok [1] := by
  refine ⟨?_, ⟨⟨by decide, red_ok, rfl⟩, ⟨by decide, blue_ok⟩, trivial⟩, ?_, by decide +kernel⟩
  · have h1 : attempt anyFits 9 [] (.insert 1 red) = ((attempt anyFits 9 [] (.insert 1 red)).1, .ok 4) := by
      decide +kernel
    refine Retried.done (ops := [.insert 1 red]) (o := .update 1 blue) (n := 20) (m := 14)
      (Retried.done (ops := []) .start .none h1)
      (.again (n := 8) (.again (n := 3) .none (st2 := tryAll anyFits [] [(9, .insert 1 red), (3, .update 1 blue)]) ?_)
        (st2 := tryAll anyFits [] [(9, .insert 1 red), (3, .update 1 blue), (8, .update 1 blue)]) ?_) ?_ <;>
      decide +kernel
  · simp [qBlue, ExprWf, OpWf, tryFrom, AttrVal.valid]

/-- A full label: the list of `a = true` holds document 1 and takes no other. -/
example : let st := (insert oneFits 9 [] 1 red).1
    ([97], AttrVal.bool true) ∈ red ∧ (red.map fun p => encKey p.1 p.2).Nodup ∧
    getOrEmpty st (encKey [97] (.bool true)) = .ok [1] ∧
    oneFits (encKey [97] (.bool true)) (.pl (plInsert [1] 2)) = false := by decide +kernel

/-! ### What goes wrong -/

/-- **C116** refuted, deleting what a failed insertion left.  The insertion of document 1 fails after its first label.
The deletion of the document answers `Ok`, with any number of working calls, and queries still find the document: no
deletion ever removes it. -/
theorem C116_orphan_refuted :
    (insert anyFits 3 [] 1 red).2 = .err ∧
    (∀ n, delete anyFits (n + 1) (insert anyFits 3 [] 1 red).1 1 = ((insert anyFits 3 [] 1 red).1, .ok n)) ∧
    evalIdx id (insert anyFits 3 [] 1 red).1 qRed = .ok [1] := by
  refine ⟨by decide +kernel, fun n => ?_, by decide +kernel⟩
  have h : sget (insert anyFits 3 [] 1 red).1 (revKey 1) = none := by decide +kernel
  rw [delete, h]
  rfl

/-- **C116** refuted, going on with other attributes.  After the failed insertion the document is updated to other
attributes; the update succeeds, and the document is found under the old label and the new one. -/
theorem C116_stale_refuted :
    let st := (insert anyFits 3 [] 1 red).1
    (update anyFits 9 st 1 blue).2 = .ok 3 ∧
    evalIdx id (update anyFits 9 st 1 blue).1 qRed = .ok [1] ∧
    evalIdx id (update anyFits 9 st 1 blue).1 qBlue = .ok [1] := by decide +kernel

/-- **C116** refuted, failed updates.  An update that fails between its two halves leaves the document under neither
its old labels nor its new ones. -/
theorem C116_lost_refuted :
    let st := (insert anyFits 9 [] 1 red).1
    evalIdx id st qRed = .ok [1] ∧ (update anyFits 6 st 1 blue).2 = .err ∧
    evalIdx id (update anyFits 6 st 1 blue).1 qRed = .ok [] ∧
    evalIdx id (update anyFits 6 st 1 blue).1 qBlue = .ok [] ∧
    evalIdx id (update anyFits 6 st 1 blue).1 qTwo = .ok [] := by decide +kernel

/-- **C116** refuted, full labels.  A document whose second label is full cannot be inserted with any number of
working calls; each try leaves it under its first label, from where a deletion does not remove it. -/
theorem C116_full_refuted :
    let two : Attrs := [([99], .int 7), ([97], .bool true)]
    let st := (insert oneFits 9 [] 1 red).1
    (insert oneFits 99 st 2 two).2 = .err ∧
    evalIdx id (insert oneFits 99 st 2 two).1 (.cmp [99] (.eq (.num (.pos 7)))) = .ok [2] ∧
    (delete oneFits 99 (insert oneFits 99 st 2 two).1 2).2 = .ok 98 ∧
    evalIdx id (delete oneFits 99 (insert oneFits 99 st 2 two).1 2).1 (.cmp [99] (.eq (.num (.pos 7)))) =
      .ok [2] := by decide +kernel

end Verif.Label.Fault
