import Verif.Runner.SaveModel

/-
C113: what a reader of the output file of the benchmark runner sees at any time, and what a killed run leaves behind.
-/
namespace Verif.Runner

variable {J : Type} {render : List (J × J) → List Nat} {calm clean : Bool}

/-! ### Specification -/

/-- The bytes are a whole document: the inputs of a run, in order, each with its own result, for the first of its
results, and at most one more value, the partial result of the job that ran. -/
def IsDoc (render : List (J × J) → List Nat) (run : List J × List J) (bs : List Nat) : Prop :=
  ∃ k e, e.length ≤ 1 ∧ (run.2.take k ++ e).length ≤ run.1.length ∧ bs = render (run.1.zip (run.2.take k ++ e))

/-- A run has been saved up to its result number `k`, which may be followed by a partial one. -/
def SavedUpTo (render : List (J × J) → List Nat) (inputs results : List J) (k : Nat) (bs : Option (List Nat)) : Prop :=
  ∃ e, e.length ≤ 1 ∧ bs = some (render (inputs.zip (results.take k ++ e)))

/-- All results of a run are in the output file, except, perhaps, the last one. -/
def Kept (render : List (J × J) → List Nat) (inputs results : List J) (bs : Option (List Nat)) : Prop :=
  ∃ k, k ≤ results.length ∧ results.length ≤ k + 1 ∧ (k = 0 ∨ SavedUpTo render inputs results k bs)

/-! ### Lemmas -/

theorem putFile_self (f : Nat → List Nat) (i : Nat) (bs : List Nat) : putFile f i bs i = bs := by simp [putFile]

theorem putFile_other {f : Nat → List Nat} {i j : Nat} (h : j ≠ i) (bs : List Nat) : putFile f i bs j = f j := by
  simp [putFile, h]

theorem writeAt_take (doc : List Nat) (off n : Nat) (h : off + n ≤ doc.length) :
    writeAt (doc.take off) off ((doc.drop off).take n) = doc.take (off + n) := by
  have h1 : (doc.take off).length = off := by simp; omega
  have h2 : ((doc.drop off).take n).length = n := by simp; omega
  unfold writeAt
  rw [h1, h2, Nat.sub_self, List.drop_eq_nil_of_le (by omega : (doc.take off).length ≤ off + n), List.take_add]
  simp [List.take_take]

theorem outBytes_put {fs : Fs} {i : Nat} {bs : List Nat} {nx : Nat} {t : Option Nat} (h : fs.out ≠ some i) :
    Fs.outBytes { fs with files := putFile fs.files i bs, next := nx, temp := t } = fs.outBytes := by
  unfold Fs.outBytes
  cases ho : fs.out with
  | none => rfl
  | some j =>
    have : j ≠ i := fun hj => h (by rw [ho, hj])
    simp [putFile_other this]

/-- The names are in order. -/
structure FsOk (fs : Fs) : Prop where
  out : ∀ i, fs.out = some i → i < fs.next
  temp : ∀ i, fs.temp = some i → i < fs.next
  apart : ∀ i, fs.out = some i → fs.temp ≠ some i

/-- A save that is on its way has written what it should have. -/
def PcOk (fs : Fs) (doc : List Nat) : Pc → Prop
  | .check d => d = doc
  | .create d => d = doc ∧ fs.temp = none
  | .write d i off => d = doc ∧ fs.temp = some i ∧ fs.files i = d.take off ∧ off ≤ d.length
  | .done ok => ok = true → fs.outBytes = some doc

theorem save_ok {fs fs' : Fs} {pc pc' : Pc} {doc : List Nat} (hs : SaveStep calm fs pc fs' pc') (hf : FsOk fs)
    (hp : PcOk fs doc pc) :
    FsOk fs' ∧ PcOk fs' doc pc' ∧ (fs'.outBytes = fs.outBytes ∨ (pc' = .done true ∧ fs'.outBytes = some doc)) := by
  cases hs with
  | «exists» h => exact ⟨hf, by simp [PcOk], .inl rfl⟩
  | absent h => exact ⟨hf, ⟨hp, h⟩, .inl rfl⟩
  | create =>
    obtain ⟨hd, ht⟩ := hp
    have hne : fs.out ≠ some fs.next := fun h => absurd (hf.out _ h) (Nat.lt_irrefl _)
    have e : createTemp fs =
        ({ fs with files := putFile fs.files fs.next [], next := fs.next + 1, temp := some fs.next }, fs.next) := by
      simp [createTemp, ht]
    rw [e]
    refine ⟨⟨?_, ?_, ?_⟩, ⟨hd, rfl, ?_, Nat.zero_le _⟩, .inl (outBytes_put hne)⟩
    · intro i h
      exact Nat.lt_succ_of_lt (hf.out i h)
    · intro i h
      have : fs.next = i := by simpa using h
      simp [← this]
    · intro i h h'
      have : fs.next = i := by simpa using h'
      exact hne (by rw [this]; exact h)
    · simp [putFile_self]
  | createFails h => exact ⟨hf, by simp [PcOk], .inl rfl⟩
  | @write d i off n hn hl =>
    obtain ⟨hd, ht, hc, ho⟩ := hp
    have hne : fs.out ≠ some i := fun h => hf.apart i h ht
    refine ⟨⟨hf.out, hf.temp, hf.apart⟩, ⟨hd, ht, ?_, hl⟩, .inl (outBytes_put hne)⟩
    show putFile _ _ _ _ = _
    rw [putFile_self, hc, writeAt_take _ _ _ hl]
  | writeFails h => exact ⟨hf, by simp [PcOk], .inl rfl⟩
  | @rename d i off j ho ht =>
    obtain ⟨hd, ht', hc, _⟩ := hp
    have hj : i = j := by rw [ht] at ht'; exact (Option.some.inj ht').symm
    have hb : Fs.outBytes { fs with out := some j, temp := none } = some doc := by
      show some (fs.files j) = some doc
      rw [← hj, hc, ho, List.take_length, hd]
    refine ⟨⟨?_, ?_, ?_⟩, fun _ => hb, .inr ⟨rfl, hb⟩⟩
    · intro k hk
      exact hf.temp k (by rw [ht]; exact hk)
    · intro k hk
      cases hk
    · intro k _ hk
      cases hk
  | renameFails h h' => exact ⟨hf, by simp [PcOk], .inl rfl⟩

/-- What a run knows about the output file. -/
def ProcOk (render : List (J × J) → List Nat) (fs : Fs) (p : Proc J) : Prop :=
  p.results.length ≤ p.inputs.length ∧
  match p.phase with
  | .job => p.results = [] ∨ SavedUpTo render p.inputs p.results p.results.length fs.outBytes
  | .save false pc => p.results.length < p.inputs.length ∧
      (p.results = [] ∨ SavedUpTo render p.inputs p.results p.results.length fs.outBytes) ∧
      ∃ e, e.length ≤ 1 ∧ PcOk fs (render (p.inputs.zip (p.results ++ e))) pc
  | .save true pc => Kept render p.inputs p.results fs.outBytes ∧ PcOk fs (render (p.inputs.zip p.results)) pc
  | .ended true => p.results.length = p.inputs.length ∧
      (p.results = [] ∨ fs.outBytes = some (render (p.inputs.zip p.results)))
  | .ended false => Kept render p.inputs p.results fs.outBytes

theorem savedUpTo_kept {inputs results : List J} {bs : Option (List Nat)}
    (h : results = [] ∨ SavedUpTo render inputs results results.length bs) : Kept render inputs results bs := by
  refine ⟨results.length, Nat.le_refl _, Nat.le_succ _, ?_⟩
  rcases h with h | h
  · exact .inl (by simp [h])
  · exact .inr h

theorem kept_push {inputs results : List J} {bs : Option (List Nat)} (v : J)
    (h : results = [] ∨ SavedUpTo render inputs results results.length bs) :
    Kept render inputs (results ++ [v]) bs := by
  refine ⟨results.length, by simp, by simp, ?_⟩
  rcases h with h | ⟨e, he, hb⟩
  · exact .inl (by simp [h])
  · refine .inr ⟨e, he, ?_⟩
    rw [hb]
    simp

theorem zip_long {l r e : List J} (h : l.length ≤ r.length) : l.zip (r ++ e) = l.zip r := by
  induction l generalizing r with
  | nil => rfl
  | cons a l ih =>
    cases r with
    | nil => simp at h
    | cons b r => simp [ih (by simpa using h)]

/-- The output file is the same, or a save just returned and it is the document of the run. -/
def OutStep (render : List (J × J) → List Nat) (fs fs' : Fs) (p' : Proc J) : Prop :=
  fs'.outBytes = fs.outBytes ∨ ∃ bs, fs'.outBytes = some bs ∧ IsDoc render (p'.inputs, p'.results) bs

theorem run_ok {fs fs' : Fs} {p p' : Proc J} (hs : RunStep render calm fs p fs' p') (hf : FsOk fs)
    (hp : ProcOk render fs p) :
    FsOk fs' ∧ ProcOk render fs' p' ∧ OutStep render fs fs' p' ∧ p'.inputs = p.inputs ∧ p.results <+: p'.results := by
  obtain ⟨hl, hp⟩ := hp
  cases hs with
  | checkpoint v h hlt =>
    rw [h] at hp
    exact ⟨hf, ⟨hl, hlt, hp, [v], by simp, rfl⟩, .inl rfl, rfl, List.prefix_rfl⟩
  | resave h hlt =>
    rw [h] at hp
    exact ⟨hf, ⟨hl, hlt, hp, [], by simp, by simp [PcOk]⟩, .inl rfl, rfl, List.prefix_rfl⟩
  | result v h hlt =>
    rw [h] at hp
    exact ⟨hf, ⟨by simpa using Nat.succ_le_of_lt hlt, kept_push v hp, rfl⟩, .inl rfl, rfl, List.prefix_append _ _⟩
  | fails h hlt =>
    rw [h] at hp
    exact ⟨hf, ⟨hl, savedUpTo_kept hp⟩, .inl rfl, rfl, List.prefix_rfl⟩
  | over h he =>
    rw [h] at hp
    refine ⟨hf, ⟨hl, he, ?_⟩, .inl rfl, rfl, List.prefix_rfl⟩
    rcases hp with hp | ⟨e, _, hb⟩
    · exact .inl hp
    · refine .inr ?_
      rw [hb, List.take_length, zip_long (by omega)]
  | @save final pc _ pc' h hs =>
    rw [h] at hp
    cases final with
    | false =>
      obtain ⟨hlt, hk, e, he, hpc⟩ := hp
      obtain ⟨hf', hpc', ho⟩ := save_ok hs hf hpc
      refine ⟨hf', ⟨hl, hlt, ?_, e, he, hpc'⟩, ?_, rfl, List.prefix_rfl⟩
      · rcases ho with ho | ⟨_, ho⟩
        · rw [ho]
          exact hk
        · exact .inr ⟨e, he, by rw [ho, List.take_length]⟩
      · rcases ho with ho | ⟨_, ho⟩
        · exact .inl ho
        · refine .inr ⟨_, ho, p.results.length, e, he, ?_, by simp⟩
          simp
          omega
    | true =>
      obtain ⟨hk, hpc⟩ := hp
      obtain ⟨hf', hpc', ho⟩ := save_ok hs hf hpc
      refine ⟨hf', ⟨hl, ?_, hpc'⟩, ?_, rfl, List.prefix_rfl⟩
      · rcases ho with ho | ⟨_, ho⟩
        · rw [ho]
          exact hk
        · refine ⟨p.results.length, Nat.le_refl _, Nat.le_succ _, .inr ⟨[], by simp, ?_⟩⟩
          rw [ho]
          simp
      · rcases ho with ho | ⟨_, ho⟩
        · exact .inl ho
        · exact .inr ⟨_, ho, p.results.length, [], by simp, by simpa using hl, by simp⟩
  | @saved final ok h =>
    rw [h] at hp
    refine ⟨hf, ⟨hl, ?_⟩, .inl rfl, rfl, List.prefix_rfl⟩
    cases final with
    | false => exact hp.2.1
    | true =>
      cases ok with
      | false => exact hp.1
      | true =>
        have := hp.2 rfl
        exact .inr ⟨[], by simp, by rw [this]; simp⟩

theorem isDoc_grow {inputs r r' : List J} {bs : List Nat} (h : r <+: r') (hd : IsDoc render (inputs, r) bs) :
    IsDoc render (inputs, r') bs := by
  obtain ⟨t, rfl⟩ := h
  obtain ⟨k, e, he, hl, hb⟩ := hd
  have : (r ++ t).take (min k r.length) = r.take k := by
    rw [List.take_append_of_le_length (Nat.min_le_right _ _)]
    rcases Nat.le_total k r.length with h | h
    · rw [Nat.min_eq_left h]
    · rw [Nat.min_eq_right h, List.take_length, List.take_of_length_le h]
  exact ⟨min k r.length, e, he, by rw [this]; exact hl, by rw [this]; exact hb⟩

/-- The state of the system. -/
structure Inv (render : List (J × J) → List Nat) (s₀ s : Sys J) : Prop where
  fs : FsOk s.fs
  proc : ∀ p, s.proc = some p → ProcOk render s.fs p ∧ s.runs.head? = some (p.inputs, p.results)
  out : s.fs.outBytes = s₀.fs.outBytes ∨
    ∃ run ∈ s.runs, ∃ bs, s.fs.outBytes = some bs ∧ IsDoc render run bs
  kept : ∀ r, s.runs.head? = some r → Kept render r.1 r.2 s.fs.outBytes

theorem procOk_kept {fs : Fs} {p : Proc J} (h : ProcOk render fs p) : Kept render p.inputs p.results fs.outBytes := by
  obtain ⟨inputs, results, phase⟩ := p
  obtain ⟨hl, h⟩ := h
  cases phase with
  | job => exact savedUpTo_kept h
  | save final pc =>
    cases final with
    | false => exact savedUpTo_kept h.2.1
    | true => exact h.1
  | ended ok =>
    cases ok with
    | false => exact h
    | true => exact savedUpTo_kept (h.2.imp_right fun h => ⟨[], by simp, by simpa using h⟩)

theorem inv {s₀ s : Sys J} (h₀ : Initial s₀) (h : Steps render calm clean s₀ s) : Inv render s₀ s := by
  induction h with
  | refl => exact ⟨⟨h₀.out, h₀.temp, h₀.apart⟩, fun p hp => (by rw [h₀.proc] at hp; cases hp), .inl rfl, fun r hr => (by rw [h₀.runs] at hr; cases hr)⟩
  | @tail t u _ hs ih =>
    cases hs with
    | start inputs hn =>
      refine ⟨ih.fs, ?_, ?_, ?_⟩
      · intro p hp
        cases hp
        exact ⟨⟨by simp, .inl rfl⟩, rfl⟩
      · rcases ih.out with h | ⟨run, hr, h⟩
        · exact .inl h
        · exact .inr ⟨run, List.mem_cons_of_mem _ hr, h⟩
      · intro r hr
        cases hr
        exact ⟨0, Nat.le_refl _, by simp, .inl rfl⟩
    | @act p fs' p' hp hr =>
      obtain ⟨hpo, hh⟩ := ih.proc p hp
      obtain ⟨hf', hp', ho, hi, hpre⟩ := run_ok hr ih.fs hpo
      refine ⟨hf', ?_, ?_, ?_⟩
      · intro q hq
        cases hq
        exact ⟨hp', rfl⟩
      · rcases ho with ho | ⟨bs, hb, hd⟩
        · show fs'.outBytes = _ ∨ _
          rcases ih.out with h | ⟨run, hrun, bs, hb, hd⟩
          · exact .inl (ho.trans h)
          · refine .inr ?_
            show ∃ run ∈ (p'.inputs, p'.results) :: t.runs.tail, _
            cases hR : t.runs with
            | nil => rw [hR] at hrun; cases hrun
            | cons r rs =>
              rw [hR] at hrun hh
              simp at hh
              rcases List.mem_cons.1 hrun with rfl | hm
              · refine ⟨_, List.mem_cons_self, bs, ho.trans hb, ?_⟩
                rw [hi]
                rw [hh] at hd
                exact isDoc_grow hpre hd
              · exact ⟨run, List.mem_cons_of_mem _ hm, bs, ho.trans hb, hd⟩
        · exact .inr ⟨_, List.mem_cons_self, bs, hb, hd⟩
      · intro r hr
        cases hr
        exact procOk_kept hp'
    | kill hp _ => exact ⟨ih.fs, fun p hp => (by cases hp), ih.out, ih.kept⟩
    | remove _ hn => exact ⟨⟨ih.fs.out, fun i h => (by cases h), fun i _ h => (by cases h)⟩, fun p hp => (by cases hp), ih.out, ih.kept⟩

/-- Nothing was written since a temporary file was left behind. -/
structure Stuck (out : Option (List Nat)) (i : Nat) (s : Sys J) : Prop where
  out : s.fs.outBytes = out
  temp : s.fs.temp = some i
  proc : ∀ p, s.proc = some p →
    match p.phase with
    | .job => p.results = []
    | .save final pc => (p.results.length = if final then 1 else 0) ∧ (pc = .done false ∨ ∃ d, pc = .check d)
    | .ended ok => p.results.length ≤ 1 ∧ (ok = true → p.inputs = [])

theorem stuck {s t : Sys J} {i : Nat} (hn : s.proc = none) (ht : s.fs.temp = some i)
    (h : Steps render calm false s t) : Stuck s.fs.outBytes i t := by
  induction h with
  | refl => exact ⟨rfl, ht, fun p hp => (by rw [hn] at hp; cases hp)⟩
  | tail _ hs ih =>
    cases hs with
    | start inputs hn =>
      refine ⟨ih.out, ih.temp, ?_⟩
      intro p hp
      cases hp
      rfl
    | @act p fs' p' hp hr =>
      have hk := ih.proc p hp
      cases hr with
      | checkpoint v h hlt =>
        rw [h] at hk
        exact ⟨ih.out, ih.temp, fun q hq => (by cases hq; exact ⟨by simp [hk], .inr ⟨_, rfl⟩⟩)⟩
      | resave h hlt =>
        rw [h] at hk
        exact ⟨ih.out, ih.temp, fun q hq => (by cases hq; exact ⟨by simp [hk], .inr ⟨_, rfl⟩⟩)⟩
      | result v h hlt =>
        rw [h] at hk
        exact ⟨ih.out, ih.temp, fun q hq => (by cases hq; exact ⟨by simp [hk], .inr ⟨_, rfl⟩⟩)⟩
      | fails h hlt =>
        rw [h] at hk
        exact ⟨ih.out, ih.temp, fun q hq => (by cases hq; exact ⟨by simp [hk], by simp⟩)⟩
      | over h he =>
        rw [h] at hk
        have hk' : p.results = [] := hk
        have hz : p.inputs = [] := List.length_eq_zero_iff.1 (by rw [← he, hk']; rfl)
        exact ⟨ih.out, ih.temp, fun q hq => (by cases hq; exact ⟨by simp [hk'], fun _ => hz⟩)⟩
      | @save final pc _ pc' h hs =>
        rw [h] at hk
        obtain ⟨hl, rfl | ⟨d, rfl⟩⟩ := hk
        · cases hs
        · cases hs with
          | «exists» _ => exact ⟨ih.out, ih.temp, fun q hq => (by cases hq; exact ⟨hl, .inl rfl⟩)⟩
          | absent hnone => rw [ih.temp] at hnone; cases hnone
      | @saved final ok h =>
        rw [h] at hk
        obtain ⟨hl, hd | ⟨d, hd⟩⟩ := hk
        · cases hd
          refine ⟨ih.out, ih.temp, fun q hq => ?_⟩
          cases hq
          cases final with
          | false => exact List.length_eq_zero_iff.1 (by simpa using hl)
          | true => exact ⟨Nat.le_of_eq (by simpa using hl), by simp⟩
        · cases hd
    | kill hp _ => exact ⟨ih.out, ih.temp, fun p hp => (by cases hp)⟩
    | remove hc _ => cases hc

/-- Where the temporary file is while nothing fails. -/
def CalmProc (fs : Fs) (p : Proc J) : Prop :=
  match p.phase with
  | .save _ (.write _ i _) => fs.temp = some i
  | .save _ (.done ok) => ok = true ∧ fs.temp = none
  | .ended false => p.results.length < p.inputs.length ∧ fs.temp = none
  | _ => fs.temp = none

theorem calm_save {fs fs' : Fs} {p : Proc J} {final : Bool} {pc pc' : Pc} (hs : SaveStep true fs pc fs' pc')
    (h : CalmProc fs { p with phase := .save final pc }) : CalmProc fs' { p with phase := .save final pc' } := by
  cases hs with
  | «exists» ht => rw [show fs.temp = none from h] at ht; cases ht
  | absent ht => exact ht
  | create =>
    have ht : fs.temp = none := h
    simp [createTemp, ht, CalmProc]
  | createFails hc => cases hc
  | write _ _ => exact h
  | writeFails hc => cases hc
  | rename _ _ => exact ⟨rfl, rfl⟩
  | renameFails _ hc =>
    rcases hc with hc | hc
    · rw [show fs.temp = some _ from h] at hc
      cases hc
    · cases hc

theorem calm_run {fs fs' : Fs} {p p' : Proc J} (hs : RunStep render true fs p fs' p') (h : CalmProc fs p) :
    CalmProc fs' p' := by
  cases hs with
  | checkpoint v hp _ => unfold CalmProc at h; rw [hp] at h; exact h
  | resave hp _ => unfold CalmProc at h; rw [hp] at h; exact h
  | result v hp _ => unfold CalmProc at h; rw [hp] at h; exact h
  | fails hp hlt => unfold CalmProc at h; rw [hp] at h; exact ⟨hlt, h⟩
  | over hp _ => unfold CalmProc at h; rw [hp] at h; exact h
  | @save final pc _ pc' hp hs =>
    obtain ⟨a, b, c⟩ := p
    cases hp
    exact calm_save hs h
  | @saved final ok hp =>
    unfold CalmProc at h
    rw [hp] at h
    obtain ⟨rfl, ht⟩ := h
    simpa [CalmProc] using ht

theorem calm_inv {s t : Sys J} (hn : s.proc = none) (ht : s.fs.temp = none) (h : Steps render true clean s t) :
    (t.proc = none → t.fs.temp = none) ∧ ∀ p, t.proc = some p → CalmProc t.fs p := by
  induction h with
  | refl => exact ⟨fun _ => ht, fun p hp => (by rw [hn] at hp; cases hp)⟩
  | tail _ hs ih =>
    cases hs with
    | start inputs hn => exact ⟨fun h => (by cases h), fun p hp => (by cases hp; exact ih.1 hn)⟩
    | act hp hr => exact ⟨fun h => (by cases h), fun q hq => (by cases hq; exact calm_run hr (ih.2 _ hp))⟩
    | @kill p hp hk =>
      refine ⟨fun _ => ?_, fun p hp => (by cases hp)⟩
      have h := ih.2 p hp
      have hk := hk rfl
      unfold CalmProc at h
      cases hph : p.phase with
      | job => rw [hph] at h; exact h
      | save final pc => exact absurd hph (hk final pc)
      | ended ok =>
        rw [hph] at h
        cases ok with
        | false => exact h.2
        | true => exact h
    | remove _ _ => exact ⟨fun _ => rfl, fun p hp => (by cases hp)⟩

/-! ### Theorems -/

/-- At any time, after any number of runs one after the other, each of which may be killed at any point, with any errors
of the file system: the output file is as it was before the first run, or it is one whole document of one of the runs,
in which the inputs come with their own results. -/
theorem C113_whole {s₀ s : Sys J} (h₀ : Initial s₀) (h : Steps render calm clean s₀ s) :
    s.fs.outBytes = s₀.fs.outBytes ∨ ∃ run ∈ s.runs, ∃ bs, s.fs.outBytes = some bs ∧ IsDoc render run bs :=
  (inv h₀ h).out

/-- At any time, of the results of the last run at most one, the last, is missing in the output file: also after the run
was killed or has failed. -/
theorem C113_kept {s₀ s : Sys J} (h₀ : Initial s₀) (h : Steps render calm clean s₀ s) (inputs results : List J)
    (hr : s.runs.head? = some (inputs, results)) : Kept render inputs results s.fs.outBytes :=
  (inv h₀ h).kept _ hr

/-- A benchmark starts only when all earlier results of the run are in the output file. -/
theorem C113_before_job {s₀ s : Sys J} (h₀ : Initial s₀) (h : Steps render calm clean s₀ s) (p : Proc J)
    (hp : s.proc = some p) (hj : p.phase = .job) :
    p.results = [] ∨ SavedUpTo render p.inputs p.results p.results.length s.fs.outBytes := by
  have := ((inv h₀ h).proc p hp).1.2
  rw [hj] at this
  exact this

/-- A run that ends without an error has a result for each input, and, unless it had no inputs, the output file is
exactly the document of them. -/
theorem C113_success {s₀ s : Sys J} (h₀ : Initial s₀) (h : Steps render calm clean s₀ s) (p : Proc J)
    (hp : s.proc = some p) (he : p.phase = .ended true) :
    p.results.length = p.inputs.length ∧
      (p.inputs = [] ∨ s.fs.outBytes = some (render (p.inputs.zip p.results))) := by
  have := ((inv h₀ h).proc p hp).1.2
  rw [he] at this
  refine ⟨this.1, this.2.imp_left fun h => ?_⟩
  exact List.length_eq_zero_iff.1 (by rw [← this.1, h]; rfl)

/-- If there is no temporary file at first, the file system reports no errors and no run is killed in a save, then no
save fails, a run fails only in a benchmark, and nothing is left behind.  Partial: the hypothesis on kills is needed, see
`C113_restart_refuted`. -/
theorem C113_no_errors_partial {s t : Sys J} (hn : s.proc = none) (ht : s.fs.temp = none)
    (h : Steps render true clean s t) :
    (t.proc = none → t.fs.temp = none) ∧
    ∀ p, t.proc = some p → (∀ final, p.phase ≠ .save final (.done false)) ∧
      (p.phase = .ended false → p.results.length < p.inputs.length) := by
  obtain ⟨h1, h2⟩ := calm_inv hn ht h
  refine ⟨h1, fun p hp => ⟨fun final he => ?_, fun he => ?_⟩⟩
  · have := h2 p hp
    unfold CalmProc at this
    rw [he] at this
    cases this.1
  · have := h2 p hp
    unfold CalmProc at this
    rw [he] at this
    exact this.1

/-- Once a temporary file is left behind, the output file never changes again until somebody removes it: every later run
with inputs executes at most its first job and then fails. -/
theorem C113_stuck {s t : Sys J} {i : Nat} (hn : s.proc = none) (ht : s.fs.temp = some i)
    (h : Steps render calm false s t) :
    t.fs.outBytes = s.fs.outBytes ∧
    ∀ p, t.proc = some p → p.results.length ≤ 1 ∧ (p.phase = .ended true → p.inputs = []) := by
  have k := stuck hn ht h
  refine ⟨k.out, fun p hp => ?_⟩
  have := k.proc p hp
  revert this
  cases p.phase with
  | job => intro h; exact ⟨by simp [show p.results = [] from h], by simp⟩
  | save final pc => intro h; exact ⟨by rw [h.1]; split <;> omega, by simp⟩
  | ended ok => intro h; exact ⟨h.1, fun e => h.2 (by cases e; rfl)⟩

/-- No files. -/
def noFiles : Fs := ⟨fun _ => [], 0, none, none⟩

/-- "Safe from interrupts" (the comment of `atomic_save`) does not mean that a run can be repeated after an interrupt: a
run that is killed in a save makes all later runs fail. -/
theorem C113_restart_refuted (x : J) (render : List (J × J) → List Nat) :
    ∃ s₀ s : Sys J, Initial s₀ ∧ s₀.fs.temp = none ∧ Steps render false false s₀ s ∧ s.proc = none ∧
      ∀ t, Steps render true false s t → ∀ p, t.proc = some p → p.phase = .ended true → p.inputs = [] := by
  let s₀ : Sys J := ⟨noFiles, none, []⟩
  have h₀ : Initial s₀ := ⟨rfl, rfl, fun _ h => (by cases h), fun _ h => (by cases h), fun _ h => (by cases h)⟩
  let d := render [(x, x)]
  let fs' := (createTemp noFiles).1
  have h1 : Steps render false false s₀ ⟨noFiles, some ⟨[x], [], .job⟩, [([x], [])]⟩ := .tail (.refl _) (.start [x] rfl)
  have h2 : Steps render false false s₀ ⟨noFiles, some ⟨[x], [x], .save true (.check d)⟩, [([x], [x])]⟩ :=
    .tail h1 (.act rfl (.result x rfl (by simp)))
  have h3 : Steps render false false s₀ ⟨noFiles, some ⟨[x], [x], .save true (.create d)⟩, [([x], [x])]⟩ :=
    .tail h2 (.act rfl (.save rfl (.absent rfl)))
  have h4 : Steps render false false s₀ ⟨fs', some ⟨[x], [x], .save true (.write d 0 0)⟩, [([x], [x])]⟩ :=
    .tail h3 (.act rfl (.save rfl .create))
  have h5 : Steps render false false s₀ ⟨fs', none, [([x], [x])]⟩ := .tail h4 (.kill rfl (by simp))
  exact ⟨s₀, _, h₀, rfl, h5, rfl, fun t ht p hp he => ((C113_stuck (i := 0) rfl rfl ht).2 p hp).2 he⟩

/-- Two saves at the same time, by two threads or two processes: both find no temporary file, and although the file
system reports no errors and one of the saves returns without an error, the output file is neither document. -/
theorem C113_two_writers_refuted :
    ∃ (a b : List Nat) (fs : Fs) (q : Pc), TwoSteps noFiles (.check a) (.check b) fs (.done true) q ∧
      fs.outBytes ≠ none ∧ fs.outBytes ≠ some a ∧ fs.outBytes ≠ some b := by
  let a := [1, 2]
  let b := [3]
  have h1 : TwoSteps noFiles (.check a) (.check b) noFiles (.create a) (.check b) := .left (.refl ..) (.absent rfl)
  have h2 := h1.right (.absent rfl)
  have h3 := h2.left .create
  have h4 := h3.right .create
  have h5 := h4.left (.write (n := 2) (by decide) (by decide))
  have h6 := h5.right (.write (n := 1) (by decide) (by decide))
  have h7 := h6.left (.rename (j := 0) rfl rfl)
  exact ⟨a, b, _, _, h7, by decide, by decide, by decide⟩

/-! ### The hypotheses can be met -/

/-- A run of one job on an empty disk writes its document. -/
example : ∃ s : Sys Nat, Steps (fun l => l.map Prod.snd) true false ⟨noFiles, none, []⟩ s ∧
    s.proc = some ⟨[7], [8], .ended true⟩ ∧ s.fs.outBytes = some [8] := by
  let render : List (Nat × Nat) → List Nat := fun l => l.map Prod.snd
  have h1 : Steps render true false ⟨noFiles, none, []⟩ ⟨noFiles, some ⟨[7], [], .job⟩, [([7], [])]⟩ :=
    .tail (.refl _) (.start [7] rfl)
  have h2 := h1.tail (.act rfl (.result 8 rfl (by decide)))
  have h3 := h2.tail (.act rfl (.save rfl (.absent rfl)))
  have h4 := h3.tail (.act rfl (.save rfl .create))
  have h5 := h4.tail (.act rfl (.save rfl (.write (n := 1) (by decide) (by decide))))
  have h6 := h5.tail (.act rfl (.save rfl (.rename (j := 0) rfl rfl)))
  have h7 := h6.tail (.act rfl (.saved rfl))
  have h8 := h7.tail (.act rfl (.over rfl rfl))
  exact ⟨_, h8, rfl, by decide⟩

/-- The start of it is a state before the first run. -/
example : Initial (⟨noFiles, none, []⟩ : Sys Nat) :=
  ⟨rfl, rfl, fun _ h => (by cases h), fun _ h => (by cases h), fun _ h => (by cases h)⟩

end Verif.Runner
