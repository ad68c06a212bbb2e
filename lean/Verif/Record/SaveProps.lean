import Verif.Record.SaveInv
/-
C39 (a save is atomic under crashes) and C40 (a failed save does not damage other saves).
-/
namespace Verif.Record

variable {enc : Nat → List Nat → List Nat} {d : Disk0}

/-- The bytes visible at a path. -/
def SaveSt.content (st : SaveSt) (p : Path) : Option (List Nat) := (st.dir p).map st.data

def Disk0.content (d : Disk0) (p : Path) : Option (List Nat) := (d.dir p).map d.data

/-- C39: stop at any moment of any history of saves (of any number of saves, crashed saves included, in
which no two saves to the same manifest path are in flight together).  At every manifest path one sees the
manifest of the last save that put its manifest in place, complete, and with every artifact it lists present
with exactly the bytes it had when its writer was finished; or, if there was no such save, the file that was
there before.  Every artifact file that existed before is still there, unchanged. -/
theorem C39_crash_atomic {st : SaveSt} (h : SReach enc true d st) (k : Nat) :
    (match st.last k with
      | some s => (st.sv s).key = k ∧ (st.sv s).pc = .committed ∧
          st.content (.man k) = some (enc s ((st.sv s).arts.map Art.name)) ∧
          ∀ a ∈ (st.sv s).arts, ∃ c, a.fin = some c ∧ st.content (.art a.name) = some c
      | none => st.content (.man k) = d.content (.man k)) ∧
    (∀ n c, d.content (.art n) = some c → st.content (.art n) = some c) := by
  have hi := sreach_inv h
  refine ⟨?_, ?_⟩
  · split
    · rename_i s hs
      obtain ⟨h1, h2, h3⟩ := hi.lastS k s hs
      obtain ⟨_, _, c3, c4⟩ := (hi.ok s).com h1
      refine ⟨h2, h1, ?_, ?_⟩
      · unfold SaveSt.content
        rw [h3 rfl, Option.map_some, c3]
      · intro a ha
        obtain ⟨c, hc⟩ := Option.isSome_iff_exists.1 (c4 a ha)
        refine ⟨c, hc, ?_⟩
        unfold SaveSt.content
        rw [(hi.ok s).live (by rw [h1]; rfl) a ha, Option.map_some, (hi.ok s).fin a ha c hc]
    · rename_i hn
      unfold SaveSt.content Disk0.content
      rw [hi.lastN k hn]
      cases hd : d.dir (.man k) with
      | none => rfl
      | some i => simp only [Option.map_some]; rw [(hi.old i (d.bound _ _ hd)).1]
  · intro n c hc
    unfold Disk0.content at hc
    unfold SaveSt.content
    cases hd : d.dir (.art n) with
    | none => rw [hd] at hc; simp at hc
    | some i =>
      rw [hd, Option.map_some] at hc
      rw [hi.pre n i hd, Option.map_some, (hi.old i (d.bound _ _ hd)).1]
      exact hc

/-- C39: the manifest visible at a path changes at no moment but the rename of a save to that path, and then
to that save's manifest: `last` in the previous theorem is the save that succeeded last. -/
theorem C39_last_is_last_commit {st st' : SaveSt} (a : Act) (hs : st.step enc a = some st') (k : Nat) :
    st'.last k = st.last k ∨
    (∃ s, a = .rename s ∧ (st.sv s).key = k ∧ st'.last k = some s ∧ (st'.sv s).pc = .committed) := by
  have fs : ∀ s x, (st.setSave s x).last k = st.last k := fun _ _ => rfl
  cases a with
  | start s j =>
    simp only [SaveSt.step, stepStart] at hs
    split at hs <;> simp at hs; subst hs; exact Or.inl rfl
  | create s n =>
    simp only [SaveSt.step, stepCreate] at hs
    split at hs
    · split at hs <;> simp at hs <;> subst hs <;> exact Or.inl rfl
    · simp at hs
  | write s a c =>
    simp only [SaveSt.step, stepWrite] at hs
    split at hs <;> simp at hs; subst hs; exact Or.inl rfl
  | finishArt s a =>
    simp only [SaveSt.step, stepFinishArt] at hs
    split at hs <;> simp at hs; subst hs; exact Or.inl rfl
  | begin s =>
    simp only [SaveSt.step, stepBegin] at hs
    split at hs
    · split at hs
      · split at hs <;> simp at hs <;> subst hs <;> exact Or.inl rfl
      · simp at hs; subst hs; exact Or.inl rfl
    · simp at hs
  | wtemp s m =>
    simp only [SaveSt.step, stepWtemp] at hs
    split at hs
    · split at hs <;> simp at hs; subst hs; exact Or.inl rfl
    · simp at hs
  | rename s =>
    simp only [SaveSt.step, stepRename] at hs
    split at hs
    · split at hs
      · simp at hs; subst hs; exact Or.inl rfl
      · simp only [Option.some.injEq] at hs; subst hs
        by_cases hk : k = (st.sv s).key
        · subst hk
          refine Or.inr ⟨s, rfl, rfl, fset_same _ _ _, ?_⟩
          show (fset st.sv s _ s).pc = _
          rw [fset_same]
        · exact Or.inl (fset_ne _ _ hk)
    · simp at hs
  | abort s =>
    simp only [SaveSt.step, stepAbort] at hs
    split at hs <;> simp at hs <;> subst hs <;> exact Or.inl rfl
  | drop s =>
    simp only [SaveSt.step, stepDrop] at hs
    split at hs <;> simp at hs <;> subst hs <;> exact Or.inl rfl
  | crash s =>
    simp only [SaveSt.step, stepCrash] at hs
    split at hs <;> simp at hs; subst hs; exact Or.inl rfl

/-- C39: a save that put its manifest in place reported every artifact finished, and one with an unfinished
artifact fails. -/
theorem C39_unfinished_artifact_fails (st : SaveSt) (s : Nat) (hp : (st.sv s).pc = .opn) (a : Art)
    (ha : a ∈ (st.sv s).arts) (hf : a.fin = none) :
    st.step enc (.begin s) = some (st.setPc s (.dropping ((st.sv s).arts.map Art.name))) := by
  simp only [SaveSt.step, stepBegin]
  rw [if_pos hp, if_neg]
  intro hall
  have := List.all_eq_true.1 hall a ha
  rw [hf] at this
  simp at this

/-- C40, in every history of interleaved saves, with no restriction: a path that stops naming a file in one
step is an artifact created by the acting save itself, or the temp or manifest path of the acting save.
Missing: the temp path, whose file the acting save need not have created (see
`C40_removes_foreign_temp`). -/
theorem C40_removes_only_own_partial {excl : Bool} {st st' : SaveSt} (h : SReach enc excl d st) (a : Act)
    (hs : st.step enc a = some st') (p : Path) (i : Nat) (hp : st.dir p = some i) (hp' : st'.dir p ≠ some i) :
    (∃ n, p = .art n ∧ st.own i = .art a.actor) ∨ p = .tmp (st.sv a.actor).key ∨
      (p = .man (st.sv a.actor).key ∧ a = .rename a.actor) := by
  have hi := sreach_inv h
  cases a with
  | start s j =>
    simp only [SaveSt.step, stepStart] at hs
    split at hs <;> simp at hs; subst hs; exact absurd hp hp'
  | create s n =>
    simp only [SaveSt.step, stepCreate] at hs
    split at hs
    · split at hs
      · simp at hs; subst hs; exact absurd hp hp'
      · rename_i hfree
        simp only [Option.some.injEq] at hs; subst hs
        have : p ≠ .art n := by rintro rfl; rw [hfree] at hp; simp at hp
        exact absurd ((fset_ne _ _ this).trans hp) hp'
    · simp at hs
  | write s a c =>
    simp only [SaveSt.step, stepWrite] at hs
    split at hs <;> simp at hs; subst hs; exact absurd hp hp'
  | finishArt s a =>
    simp only [SaveSt.step, stepFinishArt] at hs
    split at hs <;> simp at hs; subst hs; exact absurd hp hp'
  | begin s =>
    simp only [SaveSt.step, stepBegin] at hs
    split at hs
    · split at hs
      · split at hs
        · simp at hs; subst hs; exact absurd hp hp'
        · rename_i hfree
          simp only [Option.some.injEq] at hs; subst hs
          have : p ≠ .tmp (st.sv s).key := by rintro rfl; rw [hfree] at hp; simp at hp
          exact absurd ((fset_ne _ _ this).trans hp) hp'
      · simp at hs; subst hs; exact absurd hp hp'
    · simp at hs
  | wtemp s m =>
    simp only [SaveSt.step, stepWtemp] at hs
    split at hs
    · split at hs <;> simp at hs; subst hs; exact absurd hp hp'
    · simp at hs
  | rename s =>
    simp only [SaveSt.step, stepRename] at hs
    split at hs
    · split at hs
      · simp at hs; subst hs; exact absurd hp hp'
      · simp only [Option.some.injEq] at hs; subst hs
        simp only [fset] at hp'
        split at hp'
        · rename_i he; exact Or.inr (Or.inr ⟨he, rfl⟩)
        · split at hp'
          · rename_i he; exact Or.inr (Or.inl he)
          · exact absurd hp hp'
    · simp at hs
  | abort s =>
    simp only [SaveSt.step, stepAbort] at hs
    split at hs <;> simp at hs <;> subst hs <;> exact absurd hp hp'
  | drop s =>
    simp only [SaveSt.step, stepDrop] at hs
    split at hs
    · rename_i n rest hpc
      simp only [Option.some.injEq] at hs; subst hs
      simp only [fset] at hp'
      split at hp'
      · rename_i he
        obtain ⟨b, hb, _, hdb⟩ := ((hi.ok s).drop _ hpc).2 n (by simp)
        rw [he, hdb] at hp
        simp only [Option.some.injEq] at hp
        subst hp
        exact Or.inl ⟨n, he, ((hi.ok s).art b hb).2⟩
      · exact absurd hp hp'
    · simp only [Option.some.injEq] at hs; subst hs
      simp only [fset] at hp'
      split at hp'
      · rename_i he; exact Or.inr (Or.inl he)
      · exact absurd hp hp'
    · simp at hs
  | crash s =>
    simp only [SaveSt.step, stepCrash] at hs
    split at hs <;> simp at hs; subst hs; exact absurd hp hp'

/-- The bytes of a file change only by the save that created it. -/
theorem C40_writes_only_own {excl : Bool} {st st' : SaveSt} (h : SReach enc excl d st) (a : Act)
    (hs : st.step enc a = some st') (i : Nat) (hlt : i < st.next) (hd : st'.data i ≠ st.data i) :
    st.own i = .art a.actor ∨ st.own i = .tmp a.actor := by
  have hi := sreach_inv h
  cases a with
  | start s j =>
    simp only [SaveSt.step, stepStart] at hs
    split at hs <;> simp at hs; subst hs; exact absurd rfl hd
  | create s n =>
    simp only [SaveSt.step, stepCreate] at hs
    split at hs
    · split at hs
      · simp at hs; subst hs; exact absurd rfl hd
      · simp only [Option.some.injEq] at hs; subst hs
        exact absurd (fset_ne _ _ (by omega)) hd
    · simp at hs
  | write s a c =>
    simp only [SaveSt.step, stepWrite] at hs
    split at hs
    · rename_i hc
      simp only [Option.some.injEq] at hs; subst hs
      by_cases he : i = a.ino
      · subst he; exact Or.inl ((hi.ok s).art a hc.2.1).2
      · exact absurd (fset_ne _ _ he) hd
    · simp at hs
  | finishArt s a =>
    simp only [SaveSt.step, stepFinishArt] at hs
    split at hs <;> simp at hs; subst hs; exact absurd rfl hd
  | begin s =>
    simp only [SaveSt.step, stepBegin] at hs
    split at hs
    · split at hs
      · split at hs
        · simp at hs; subst hs; exact absurd rfl hd
        · simp only [Option.some.injEq] at hs; subst hs
          exact absurd (fset_ne _ _ (by omega)) hd
      · simp at hs; subst hs; exact absurd rfl hd
    · simp at hs
  | wtemp s m =>
    simp only [SaveSt.step, stepWtemp] at hs
    split at hs
    · rename_i j hpc
      split at hs
      · simp only [Option.some.injEq] at hs; subst hs
        by_cases he : i = (st.sv s).tino
        · subst he; exact Or.inr ((hi.ok s).tmp j hpc).2.1
        · exact absurd (fset_ne _ _ he) hd
      · simp at hs
    · simp at hs
  | rename s =>
    simp only [SaveSt.step, stepRename] at hs
    split at hs
    · split at hs <;> simp at hs <;> subst hs <;> exact absurd rfl hd
    · simp at hs
  | abort s =>
    simp only [SaveSt.step, stepAbort] at hs
    split at hs <;> simp at hs <;> subst hs <;> exact absurd rfl hd
  | drop s =>
    simp only [SaveSt.step, stepDrop] at hs
    split at hs <;> simp at hs <;> subst hs <;> exact absurd rfl hd
  | crash s =>
    simp only [SaveSt.step, stepCrash] at hs
    split at hs <;> simp at hs; subst hs; exact absurd rfl hd

/-! Concrete histories -/

/-- Run a list of actions. -/
def SaveSt.run (enc : Nat → List Nat → List Nat) (st : SaveSt) : List Act → Option SaveSt
  | [] => some st
  | a :: as => (st.step enc a).bind (fun st' => st'.run enc as)

theorem run_reach {st st' : SaveSt} (acts : List Act) (h : SReach enc false d st)
    (hr : st.run enc acts = some st') : SReach enc false d st' := by
  induction acts generalizing st with
  | nil => simp only [SaveSt.run, Option.some.injEq] at hr; subst hr; exact h
  | cons a as ih =>
    simp only [SaveSt.run] at hr
    cases hs : st.step enc a with
    | none => rw [hs] at hr; simp at hr
    | some st1 =>
      rw [hs] at hr
      exact ih (.step a h (fun _ _ he => by simp at he) hs) hr

/-- An empty directory. -/
def emptyDisk : Disk0 := ⟨fun _ => none, fun _ => [], 0, by simp⟩

/-- A manifest of three bytes that identifies its save. -/
def encDemo (s : Nat) (_ : List Nat) : List Nat := [s, s, s]

/-- C40 fails: save 0 has written its whole manifest to the temp file, save 1 to the same manifest path finds
the temp file, fails, and its cleanup deletes it; save 0, which did nothing wrong, then fails as well. -/
theorem C40_removes_foreign_temp : ∃ st st', SReach encDemo false emptyDisk st ∧
    (st.sv 0).pc = .writing 3 ∧ st.dir (.tmp 7) = some (st.sv 0).tino ∧ st.own (st.sv 0).tino = .tmp 0 ∧
    st.step encDemo (.drop 1) = some st' ∧ st'.dir (.tmp 7) = none ∧
    (∃ st'', st'.step encDemo (.rename 0) = some st'' ∧ (st''.sv 0).pc = .dropping [] ∧
      st''.dir (.man 7) = none) := by
  have hr : ((emptyDisk.init).run encDemo [.start 0 7, .start 1 7, .begin 0, .wtemp 0 3, .begin 1]).isSome = true :=
    by decide
  obtain ⟨st, hst⟩ := Option.isSome_iff_exists.1 hr
  have hreach := run_reach _ SReach.init hst
  have hst' := hst
  simp only [SaveSt.run] at hst'
  have e : st = (((emptyDisk.init).run encDemo
      [.start 0 7, .start 1 7, .begin 0, .wtemp 0 3, .begin 1]).getD emptyDisk.init) := by rw [hst]; rfl
  refine ⟨st, (st.step encDemo (.drop 1)).getD st, hreach, ?_, ?_, ?_, ?_, ?_,
    (((st.step encDemo (.drop 1)).getD st).step encDemo (.rename 0)).getD st, ?_, ?_, ?_⟩ <;>
    (subst e; rfl)

/-- C40 fails, and with it C39: with three saves to one manifest path in flight, a half-written manifest is put
in place and a save reports success for it.  Save 0 has written its temp file, save 1 fails and deletes it,
save 2 creates a new one and writes one byte, then save 0 renames that file. -/
theorem C40_torn_manifest : ∃ st, SReach encDemo false emptyDisk st ∧ st.last 7 = some 0 ∧
    (st.sv 0).pc = .committed ∧ st.content (.man 7) = some [2] ∧
    st.content (.man 7) ≠ some (encDemo 0 ((st.sv 0).arts.map Art.name)) := by
  have hr : ((emptyDisk.init).run encDemo [.start 0 7, .start 1 7, .start 2 7, .begin 0, .wtemp 0 3, .begin 1,
      .drop 1, .begin 2, .wtemp 2 1, .rename 0]).isSome = true := by decide
  obtain ⟨st, hst⟩ := Option.isSome_iff_exists.1 hr
  have hreach := run_reach _ SReach.init hst
  have e : st = (((emptyDisk.init).run encDemo [.start 0 7, .start 1 7, .start 2 7, .begin 0, .wtemp 0 3, .begin 1,
      .drop 1, .begin 2, .wtemp 2 1, .rename 0]).getD emptyDisk.init) := by rw [hst]; rfl
  refine ⟨st, hreach, ?_, ?_, ?_, ?_⟩
  · subst e; rfl
  · subst e; rfl
  · subst e; rfl
  · subst e; decide

/-- A complete save with one artifact of two bytes, after one that crashed with its temp file left behind and
one that failed because of that: the hypotheses of the theorems are met by a real history. -/
example : (((emptyDisk.init).run encDemo [.start 0 7, .begin 0, .wtemp 0 1, .crash 0,
    .start 1 7, .create 1 0, .finishArt 1 ⟨0, 1, none⟩, .begin 1, .drop 1, .drop 1,
    .start 2 7, .create 2 0, .write 2 ⟨0, 2, none⟩ [5, 6], .finishArt 2 ⟨0, 2, none⟩, .begin 2, .wtemp 2 2,
    .wtemp 2 3, .rename 2]).map (fun st => (st.last 7, st.content (.man 7), st.content (.art 0), st.dir (.tmp 7)))) =
    some (some 2, some [2, 2, 2], some [5, 6], none) := by decide

end Verif.Record
