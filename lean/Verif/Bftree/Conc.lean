import Verif.Bftree.Lemmas

/-! # C55: the invariant of concurrent accessors -/

namespace Verif.Bftree

/-- The calls thread `i` still has to have logged. -/
def Thread.todo (th : Thread) : List WOp := if th.phase = .done then th.prog.tail else th.prog

def WOp.fits (w : Nat) (o : WOp) : Prop := (o.toOp 0 true).fits w

structure CInv (w D bits : Nat) (s0 : Store) (progs : Nat → List WOp) (S : Sys) : Prop where
  rel : Rel w D S.tree (specLog D s0 S.log)
  buf : ∀ i, (S.threads i).buf.length = D + 1
  own : ∀ i, (S.threads i).phase ≠ .idle →
    ∃ o rest, (S.threads i).prog = o :: rest ∧ S.owner (stripeIndex bits o.id) = some i
  own' : ∀ k i, S.owner k = some i → (S.threads i).phase ≠ .idle ∧
    ∃ o rest, (S.threads i).prog = o :: rest ∧ stripeIndex bits o.id = k
  cur : ∀ i cur, (S.threads i).phase = .haveList cur → ∃ id new rest,
    (S.threads i).prog = .append id new :: rest ∧ (specLog D s0 S.log id).read = .ok cur
  todo : ∀ i, ((S.log.filter (fun e => e.1 == i)).map (fun e => e.2.1)) ++ (S.threads i).todo = progs i

theorem specOps_append (D : Nat) (s : Store) (a b : List Op) :
    (specOps D s (a ++ b)).2 = (specOps D (specOps D s a).2 b).2 := by
  induction a generalizing s with
  | nil => rfl
  | cons o os ih => simp only [List.cons_append, specOps]; exact ih _

theorem specLog_snoc (D : Nat) (s : Store) (log : List (Nat × WOp × Bool)) (i : Nat) (o : WOp) (ins : Bool) :
    specLog D s (log ++ [(i, o, ins)]) = ((o.toOp D ins).spec D (specLog D s log)).2 := by
  unfold specLog
  rw [List.map_append, specOps_append]; rfl

theorem spec_frame (D : Nat) (s : Store) (o : WOp) (ins : Bool) (j : Nat) (h : j ≠ o.id) :
    ((o.toOp D ins).spec D s).2 j = s j := by
  cases o with
  | set id nbrs =>
    simp only [WOp.toOp, Op.spec, WOp.id] at h ⊢
    split
    · simp [Store.put, h]
    · rfl
  | append id new =>
    simp only [WOp.toOp, Op.spec, WOp.id] at h ⊢
    split
    · split
      · rfl
      · split
        · simp [Store.put, h]
        · rfl
    · rfl

theorem toOp_fits {w D : Nat} {ins : Bool} {o : WOp} (h : o.fits w) : (o.toOp D ins).fits w := by
  cases o <;> exact h

variable {w D bits : Nat} {s0 : Store} {progs : Nat → List WOp}

/-- A commit by the thread that holds the lock keeps the invariant. -/
theorem CInv.commit {S : Sys} (h : CInv w D bits s0 progs S) {i : Nat} {o : WOp} {rest : List WOp}
    {ins : Bool} {t : Tree} {buf : List Nat} (hp : (S.threads i).prog = o :: rest)
    (hi : (S.threads i).phase ≠ .idle) (hd : (S.threads i).phase ≠ .done)
    (hbuf : buf.length = D + 1)
    (ht : Rel w D t ((o.toOp D ins).spec D (specLog D s0 S.log)).2) :
    CInv w D bits s0 progs
      (S.commit i o ins t { prog := o :: rest, phase := .done, buf := buf }) := by
  have hown : S.owner (stripeIndex bits o.id) = some i := by
    obtain ⟨o', rest', e1, e2⟩ := h.own i hi
    rw [hp] at e1; cases e1; exact e2
  unfold Sys.commit Sys.setThread
  constructor
  · dsimp only; rw [specLog_snoc]; exact ht
  · intro j; dsimp only; split
    · exact hbuf
    · exact h.buf j
  · intro j hj
    dsimp only at hj ⊢
    by_cases hji : j = i
    · subst hji; simp only [if_true]
      exact ⟨o, rest, rfl, hown⟩
    · rw [if_neg hji] at hj ⊢
      exact h.own j hj
  · intro k j hk
    dsimp only at hk ⊢
    obtain ⟨a, b⟩ := h.own' k j hk
    by_cases hji : j = i
    · subst hji; simp only [if_true]
      exact ⟨by simp, by rw [← hp]; exact b⟩
    · rw [if_neg hji]; exact ⟨a, b⟩
  · intro j c hj
    dsimp only at hj ⊢
    by_cases hji : j = i
    · subst hji; simp at hj
    · rw [if_neg hji] at hj ⊢
      obtain ⟨id, new, rest', e1, e2⟩ := h.cur j c hj
      refine ⟨id, new, rest', e1, ?_⟩
      rw [specLog_snoc, spec_frame]
      · exact e2
      · intro hid
        obtain ⟨o', rest'', e3, e4⟩ := h.own j (by rw [hj]; simp)
        rw [e1] at e3; cases e3
        simp only [WOp.id] at e4
        rw [hid, hown] at e4
        exact hji (Option.some.inj e4).symm
  · intro j
    dsimp only
    have ht := h.todo j
    rw [List.filter_append, List.map_append, List.append_assoc]
    by_cases hji : j = i
    · subst hji
      simp only [if_true, Thread.todo, hp, hd, if_false] at ht ⊢
      simpa using ht
    · rw [if_neg hji]
      have : (i == j) = false := by simpa using fun h' => hji h'.symm
      simpa [this] using ht

theorem CInv.step (hw : 4 ≤ w) (hD : D < 2 ^ 32) (hf : ∀ i, ∀ o ∈ progs i, WOp.fits w o)
    {S S' : Sys} (h : CInv w D bits s0 progs S) {i : Nat} {ins : Bool}
    (hs : S.step w (D + 1) bits i ins = some S') : CInv w D bits s0 progs S' := by
  unfold Sys.step at hs
  dsimp only at hs
  cases hp : (S.threads i).prog with
  | nil => rw [hp] at hs; cases hs
  | cons o rest =>
    rw [hp] at hs
    dsimp only at hs
    have hof : (S.threads i).phase ≠ .done → o.fits w := by
      intro hd
      apply hf i
      rw [← h.todo i]
      simp [Thread.todo, hd, hp]
    cases hph : (S.threads i).phase with
    | idle =>
      rw [hph] at hs
      dsimp only at hs
      split at hs
      · rename_i hfree
        cases hs
        unfold Sys.setOwner Sys.setThread
        constructor
        · exact h.rel
        · intro j; dsimp only; split
          · exact h.buf i
          · exact h.buf j
        · intro j hj
          dsimp only at hj ⊢
          by_cases hji : j = i
          · subst hji
            simp only [if_true]
            exact ⟨o, rest, rfl, by simp⟩
          · rw [if_neg hji] at hj ⊢
            obtain ⟨o', r', e1, e2⟩ := h.own j hj
            refine ⟨o', r', e1, ?_⟩
            rw [if_neg, e2]
            intro hk; rw [hk, hfree] at e2; cases e2
        · intro k j hk
          dsimp only at hk ⊢
          split at hk
          · rename_i hkk
            cases hk
            simp only [if_true]
            exact ⟨by simp, o, rest, rfl, hkk.symm⟩
          · obtain ⟨a, b⟩ := h.own' k j hk
            by_cases hji : j = i
            · subst hji; exact absurd hph a
            · rw [if_neg hji]; exact ⟨a, b⟩
        · intro j c hj
          dsimp only at hj ⊢
          by_cases hji : j = i
          · subst hji; simp at hj
          · rw [if_neg hji] at hj ⊢; exact h.cur j c hj
        · intro j
          dsimp only
          by_cases hji : j = i
          · subst hji
            have := h.todo j
            simp only [Thread.todo, hph, hp] at this
            simpa [Thread.todo] using this
          · rw [if_neg hji]; exact h.todo j
      · cases hs
    | locked =>
      rw [hph] at hs
      have hni : (S.threads i).phase ≠ .idle := by rw [hph]; simp
      have hnd : (S.threads i).phase ≠ .done := by rw [hph]; simp
      have hfit := hof hnd
      cases o with
      | set id nbrs =>
        dsimp only at hs
        cases hs
        obtain ⟨a, b⟩ := setNeighbors_spec hD h.rel hfit.1 hfit.2 (S.threads i).buf ins
        refine h.commit hp hni hnd (by rw [a, h.buf i]) ?_
        rw [h.buf i] at b
        simp only [WOp.toOp, Op.spec, List.length_replicate]
        split at b
        · rename_i hc; rw [if_pos hc]; exact b.2
        · rename_i hc; rw [if_neg hc, b.2]; exact h.rel
      | append id new =>
        have hg := getUnlocked_rel hw hD h.rel (id := id) hfit.1 []
        dsimp only at hs
        rw [hg] at hs
        cases hr : (specLog D s0 S.log id).read with
        | ok c =>
          rw [hr] at hs
          cases hs
          unfold Sys.setThread
          constructor
          · exact h.rel
          · intro j; dsimp only; split
            · exact h.buf i
            · exact h.buf j
          · intro j hj
            dsimp only at hj ⊢
            by_cases hji : j = i
            · subst hji; simp only [if_true]; rw [← hp]; exact h.own j hni
            · rw [if_neg hji] at hj ⊢; exact h.own j hj
          · intro k j hk
            dsimp only at hk ⊢
            obtain ⟨a, b⟩ := h.own' k j hk
            by_cases hji : j = i
            · subst hji; simp only [if_true]; exact ⟨by simp, by rw [← hp]; exact b⟩
            · rw [if_neg hji]; exact ⟨a, b⟩
          · intro j c' hj
            dsimp only at hj ⊢
            by_cases hji : j = i
            · subst hji
              simp only [if_true, Phase.haveList.injEq] at hj ⊢
              subst hj
              exact ⟨id, new, rest, rfl, hr⟩
            · rw [if_neg hji] at hj ⊢; exact h.cur j c' hj
          · intro j
            dsimp only
            by_cases hji : j = i
            · subst hji
              have := h.todo j
              simp only [Thread.todo, hph, hp] at this
              simpa [Thread.todo] using this
            · rw [if_neg hji]; exact h.todo j
        | err =>
          rw [hr] at hs
          cases hs
          refine h.commit hp hni hnd (h.buf i) ?_
          simp only [WOp.toOp, Op.spec, hr]
          exact h.rel
        | panic => cases he : specLog D s0 S.log id <;> rw [he] at hr <;> cases hr
    | haveList c =>
      rw [hph] at hs
      have hni : (S.threads i).phase ≠ .idle := by rw [hph]; simp
      have hnd : (S.threads i).phase ≠ .done := by rw [hph]; simp
      have hfit := hof hnd
      cases o with
      | set id nbrs => cases hs
      | append id new =>
        dsimp only at hs
        cases hs
        obtain ⟨id', new', rest', e1, e2⟩ := h.cur i c hph
        rw [hp] at e1; cases e1
        obtain ⟨b1, b2⟩ := h.rel.bounds hfit.1 e2
        obtain ⟨a, b⟩ := appendWrite_spec hD h.rel hfit.1 b1 b2 hfit.2 (S.threads i).buf ins
        refine h.commit hp hni hnd (by rw [a, h.buf i]) ?_
        rw [h.buf i] at b
        simp only [WOp.toOp, Op.spec, e2, List.length_replicate]
        split at b
        · rename_i hc; rw [if_pos hc, b.2]; exact h.rel
        · rename_i hc
          rw [if_neg hc]
          split at b
          · rename_i hd; rw [if_pos hd]; exact b.2
          · rename_i hd; rw [if_neg hd, b.2]; exact h.rel
    | done =>
      rw [hph] at hs
      dsimp only at hs
      cases hs
      have hown : S.owner (stripeIndex bits o.id) = some i := by
        obtain ⟨o', rest', e1, e2⟩ := h.own i (by rw [hph]; simp)
        rw [hp] at e1; cases e1; exact e2
      unfold Sys.setOwner Sys.setThread
      constructor
      · exact h.rel
      · intro j; dsimp only; split
        · exact h.buf i
        · exact h.buf j
      · intro j hj
        dsimp only at hj ⊢
        by_cases hji : j = i
        · subst hji; simp at hj
        · rw [if_neg hji] at hj ⊢
          obtain ⟨o', r', e1, e2⟩ := h.own j hj
          refine ⟨o', r', e1, ?_⟩
          rw [if_neg, e2]
          intro hk
          rw [hk, hown] at e2
          exact hji (Option.some.inj e2).symm
      · intro k j hk
        dsimp only at hk ⊢
        split at hk
        · cases hk
        · rename_i hkk
          obtain ⟨a, o', r', e1, e2⟩ := h.own' k j hk
          by_cases hji : j = i
          · subst hji
            rw [hp] at e1; cases e1
            exact absurd e2.symm hkk
          · rw [if_neg hji]; exact ⟨a, o', r', e1, e2⟩
      · intro j c hj
        dsimp only at hj ⊢
        by_cases hji : j = i
        · subst hji; simp at hj
        · rw [if_neg hji] at hj ⊢; exact h.cur j c hj
      · intro j
        dsimp only
        by_cases hji : j = i
        · subst hji
          have := h.todo j
          simp only [Thread.todo, hph, hp] at this
          simpa [Thread.todo] using this
        · rw [if_neg hji]; exact h.todo j

theorem CInv.run (hw : 4 ≤ w) (hD : D < 2 ^ 32) (hf : ∀ i, ∀ o ∈ progs i, WOp.fits w o)
    (sch : List (Nat × Bool)) {S : Sys} (h : CInv w D bits s0 progs S) :
    CInv w D bits s0 progs (S.run w (D + 1) bits sch) := by
  induction sch generalizing S with
  | nil => exact h
  | cons e sch ih =>
    obtain ⟨i, ins⟩ := e
    rw [Sys.run]
    apply ih
    cases hs : S.step w (D + 1) bits i ins with
    | none => exact h
    | some S' => exact h.step hw hD hf hs

theorem CInv.init {t : Tree} (h : Rel w D t s0) : CInv w D bits s0 progs (Sys.init (D + 1) t progs) := by
  constructor
  · exact h
  · intro i; simp [Sys.init]
  · intro i hi; simp [Sys.init] at hi
  · intro k i hk; simp [Sys.init] at hk
  · intro i c hc; simp [Sys.init] at hc
  · intro i; simp [Sys.init, Thread.todo]

end Verif.Bftree
