import Verif.Runner.CheckerModel
import Mathlib.Data.List.Basic

/-!
# Input and output paths of benchmark jobs: theorems
-/

namespace Verif.Runner.Checker

/-! ## Specification -/

/-- The directory that a save path stands for: the output directory if none is given; an absolute path that is a directory; a
relative one that is a directory in the output directory. -/
def Stands (fs : Fs) (output : Option Path) (save : Option Path) (q : Path) : Prop :=
  match save with
  | none => output = some q
  | some p => fs q = some .dir ∧ (isAbsolute p = true → q = p) ∧ (isAbsolute p = false → ∃ o, output = some o ∧ q = join o p)

/-- The components of the outputs among results. -/
def outputs (rs : List (Except Err Path)) : List (Bool × List Path) :=
  rs.filterMap (fun r => match r with
    | .ok q => some (components q)
    | .error _ => none)

/-- The parts of a path that are components wherever they are. -/
def parts (p : Path) : List Path := (segments p).filter isNormal

/-! ## Lemmas -/

theorem segments_ne (p : Path) : segments p ≠ [] := by
  cases p with
  | nil => simp [segments]
  | cons c cs =>
    unfold segments
    split
    · simp
    · split <;> simp

theorem segments_cons (c : Char) (cs : Path) : segments (c :: cs) =
    if c = '/' then [] :: segments cs
    else
      match segments cs with
      | [] => [[c]]
      | s :: ss => (c :: s) :: ss := rfl

theorem segments_append (a b : Path) : segments (a ++ '/' :: b) = segments a ++ segments b := by
  induction a with
  | nil => simp [segments]
  | cons c cs ih =>
    rw [List.cons_append, segments_cons, segments_cons]
    by_cases hc : c = '/'
    · rw [if_pos hc, if_pos hc, ih]
      rfl
    · rw [if_neg hc, if_neg hc, ih]
      cases h : segments cs with
      | nil => exact absurd h (segments_ne cs)
      | cons s ss => rfl

theorem relative_cons (s : Path) (rest : List Path) (h : s ≠ ['.']) : relative (s :: rest) = (s :: rest).filter isNormal := by
  unfold relative
  split
  · rename_i heq
    simp only [List.cons.injEq] at heq
    exact absurd heq.1 h
  · rfl

theorem stands_iff (fs : Fs) (c : Checker) (save : Option Path) (q : Path) :
    c.resolve fs save = .ok q ↔ Stands fs c.outputDir save q := by
  unfold Checker.resolve Stands
  cases save with
  | none => cases c.outputDir <;> simp
  | some p =>
    simp only
    by_cases ha : isAbsolute p = true
    · rw [if_pos ha]
      by_cases hd : fs p = some .dir
      · rw [if_neg (by simpa using hd)]
        simp only [Except.ok.injEq, ha]
        constructor
        · rintro rfl
          exact ⟨hd, fun _ => rfl, fun h => absurd h (by simp)⟩
        · rintro ⟨_, h, _⟩
          exact (h trivial).symm
      · rw [if_pos hd]
        simp only [reduceCtorEq, false_iff]
        rintro ⟨h1, h2, _⟩
        exact hd (by rw [← h2 ha]; exact h1)
    · rw [if_neg ha]
      have hf : isAbsolute p = false := by simpa using ha
      cases ho : c.outputDir with
      | none => simp [hf]
      | some o =>
        simp only
        by_cases hd : fs (join o p) = some .dir
        · rw [if_neg (by simpa using hd)]
          simp only [Except.ok.injEq]
          constructor
          · rintro rfl
            exact ⟨hd, fun h => absurd h ha, fun _ => ⟨o, rfl, rfl⟩⟩
          · rintro ⟨_, _, h⟩
            obtain ⟨o', h1, h2⟩ := h hf
            cases h1
            exact h2.symm
        · rw [if_pos hd]
          simp only [reduceCtorEq, false_iff]
          rintro ⟨h1, _, h⟩
          obtain ⟨o', h2, h3⟩ := h hf
          cases h2
          exact hd (by rw [← h3]; exact h1)

/-! ## Theorems -/

/-- C133: an absolute input path is returned as it is exactly if it is there and of the kind asked for; a relative one is the
first, in the order of the search directories, that is. -/
theorem C133_input (fs : Fs) (c : Checker) (kind : Kind) (p q : Path) :
    c.findInput fs kind p = .ok q ↔ fs q = some kind ∧
      ((isAbsolute p = true ∧ q = p) ∨ (isAbsolute p = false ∧ ∃ before d after, c.searchDirs = before ++ d :: after ∧
        q = join d p ∧ ∀ d' ∈ before, fs (join d' p) ≠ some kind)) := by
  have hs : ∀ ds : List Path, search fs kind p ds = .ok q ↔ fs q = some kind ∧ ∃ before d after, ds = before ++ d :: after ∧
      q = join d p ∧ ∀ d' ∈ before, fs (join d' p) ≠ some kind := by
    intro ds
    induction ds with
    | nil => simp [search]
    | cons d ds ih =>
      unfold search
      simp only
      by_cases h : fs (join d p) = some kind
      · rw [if_pos h]
        simp only [Except.ok.injEq]
        constructor
        · rintro rfl
          exact ⟨h, [], d, ds, rfl, rfl, by simp⟩
        · rintro ⟨_, before, d', after, h1, h2, h3⟩
          cases before with
          | nil =>
            simp only [List.nil_append, List.cons.injEq] at h1
            rw [h2, ← h1.1]
          | cons b bs =>
            simp only [List.cons_append, List.cons.injEq] at h1
            exact absurd h (by rw [h1.1]; exact h3 b (by simp))
      · rw [if_neg h, ih]
        refine and_congr_right (fun hq => ⟨?_, ?_⟩)
        · rintro ⟨before, d', after, h1, h2, h3⟩
          refine ⟨d :: before, d', after, by rw [h1]; rfl, h2, fun x hx => ?_⟩
          rcases List.mem_cons.1 hx with rfl | hx
          · exact h
          · exact h3 x hx
        · rintro ⟨before, d', after, h1, h2, h3⟩
          cases before with
          | nil =>
            simp only [List.nil_append, List.cons.injEq] at h1
            exact absurd (by rw [h1.1, ← h2]; exact hq) h
          | cons b bs =>
            simp only [List.cons_append, List.cons.injEq] at h1
            exact ⟨bs, d', after, h1.2, h2, fun x hx => h3 x (by simp [hx])⟩
  unfold Checker.findInput
  by_cases ha : isAbsolute p = true
  · rw [if_pos ha]
    by_cases h : fs p = some kind
    · rw [if_pos h]
      simp only [Except.ok.injEq, ha]
      constructor
      · rintro rfl
        exact ⟨h, Or.inl ⟨trivial, rfl⟩⟩
      · rintro ⟨_, h | h⟩
        · exact h.2.symm
        · exact absurd h.1 (by simp)
    · rw [if_neg h]
      simp only [reduceCtorEq, false_iff, ha]
      rintro ⟨h1, h2 | h2⟩
      · exact h (by rw [← h2.2]; exact h1)
      · exact absurd h2.1 (by simp)
  · rw [if_neg ha, hs]
    have hf : isAbsolute p = false := by simpa using ha
    simp [hf]

/-- C133: an input file keeps its path when it is not found, and else has the path found. -/
theorem C133_input_file (fs : Fs) (c : Checker) (p : Path) :
    (∀ q, c.findInput fs .file p = .ok q → resolveInput fs c p = (.ok (), q)) ∧
    (∀ e, c.findInput fs .file p = .error e → resolveInput fs c p = (.error e, p) ∧
      (e = .absoluteInput ↔ isAbsolute p = true)) := by
  refine ⟨fun q h => by unfold resolveInput; rw [h], fun e h => ⟨by unfold resolveInput; rw [h], ?_⟩⟩
  unfold Checker.findInput at h
  have hs : ∀ ds, search fs .file p ds = .error e → e = .notFound := by
    intro ds
    induction ds with
    | nil =>
      intro h
      simpa [search, eq_comm] using h
    | cons d ds ih =>
      unfold search
      simp only
      split
      · intro h; simp at h
      · exact ih
  by_cases ha : isAbsolute p = true
  · rw [if_pos ha] at h
    split at h
    · simp at h
    · simp only [Except.error.injEq] at h
      simp [← h, ha]
  · rw [if_neg ha] at h
    simp [hs _ h, ha]

/-- C133: the outputs of any jobs are all different; a job gets the directory its save path stands for exactly if no job before
it has that; a refused job changes nothing. -/
theorem C133_outputs (fs : Fs) (dirs : List Path) (output : Option Path) (jobs : List (Option Path)) :
    ((Checker.new dirs output).registerAll fs jobs).1.length = jobs.length ∧
    (outputs ((Checker.new dirs output).registerAll fs jobs).1).Nodup ∧
    ∀ i (h : i < jobs.length) q, ((Checker.new dirs output).registerAll fs jobs).1[i]? = some (.ok q) ↔
      Stands fs output jobs[i] q ∧
        components q ∉ outputs (((Checker.new dirs output).registerAll fs jobs).1.take i) := by
  have key : ∀ (jobs : List (Option Path)) (c : Checker), c.outputDir = output → c.current.Nodup →
      (c.registerAll fs jobs).1.length = jobs.length ∧
      (outputs (c.registerAll fs jobs).1 ++ c.current).Nodup ∧
      ∀ i (h : i < jobs.length) q, (c.registerAll fs jobs).1[i]? = some (.ok q) ↔
        Stands fs output jobs[i] q ∧ components q ∉ outputs ((c.registerAll fs jobs).1.take i) ∧ components q ∉ c.current := by
    intro jobs
    induction jobs with
    | nil => intro c _ hn; exact ⟨rfl, by simpa [Checker.registerAll, outputs] using hn, fun i h => absurd h (by simp)⟩
    | cons s jobs ih =>
      intro c ho hn
      unfold Checker.registerAll
      simp only
      cases hr : c.resolve fs s with
      | error e =>
        have hreg : c.register fs s = (.error e, c) := by
          unfold Checker.register
          rw [hr]
        rw [hreg]
        obtain ⟨h1, h2, h3⟩ := ih c ho hn
        refine ⟨by simp [h1], by simpa [outputs] using h2, fun i hi q => ?_⟩
        cases i with
        | zero =>
          simp only [List.getElem?_cons_zero, Option.some.injEq, reduceCtorEq, List.getElem_cons_zero, false_iff]
          rintro ⟨h, _⟩
          rw [← ho] at h
          rw [(stands_iff fs c s q).2 h] at hr
          simp at hr
        | succ i =>
          simp only [List.getElem?_cons_succ, List.getElem_cons_succ, List.take_succ_cons]
          rw [h3 i (by simpa using hi) q]
          simp [outputs]
      | ok q0 =>
        have hst := (stands_iff fs c s q0).1 hr
        rw [ho] at hst
        by_cases hm : components q0 ∈ c.current
        · have hreg : c.register fs s = (.error .inUse, c) := by
            unfold Checker.register
            rw [hr]
            simp only
            rw [if_pos hm]
          rw [hreg]
          obtain ⟨h1, h2, h3⟩ := ih c ho hn
          refine ⟨by simp [h1], by simpa [outputs] using h2, fun i hi q => ?_⟩
          cases i with
          | zero =>
            simp only [List.getElem?_cons_zero, Option.some.injEq, reduceCtorEq, List.getElem_cons_zero, false_iff]
            rintro ⟨h, _, hc⟩
            rw [← ho] at h
            have := (stands_iff fs c s q).2 h
            rw [hr] at this
            cases this
            exact hc hm
          | succ i =>
            simp only [List.getElem?_cons_succ, List.getElem_cons_succ, List.take_succ_cons]
            rw [h3 i (by simpa using hi) q]
            simp [outputs]
        · have hreg : c.register fs s = (.ok q0, { c with current := components q0 :: c.current }) := by
            unfold Checker.register
            rw [hr]
            simp only
            rw [if_neg hm]
          rw [hreg]
          obtain ⟨h1, h2, h3⟩ := ih { c with current := components q0 :: c.current } ho (List.nodup_cons.2 ⟨hm, hn⟩)
          refine ⟨by simp [h1], ?_, fun i hi q => ?_⟩
          · have hp : (outputs (Except.ok q0 :: (Checker.registerAll fs { c with current := components q0 :: c.current } jobs).1) ++
                c.current).Perm (outputs (Checker.registerAll fs { c with current := components q0 :: c.current } jobs).1 ++
                components q0 :: c.current) := by
              show (components q0 :: (outputs _ ++ c.current)).Perm _
              exact List.perm_middle.symm
            exact hp.nodup_iff.2 h2
          · cases i with
            | zero =>
              simp only [List.getElem?_cons_zero, Option.some.injEq, Except.ok.injEq, List.getElem_cons_zero, List.take_zero]
              constructor
              · rintro rfl
                exact ⟨hst, by simp [outputs], hm⟩
              · rintro ⟨h, _⟩
                rw [← ho] at h
                have := (stands_iff fs c s q).2 h
                rw [hr] at this
                exact Except.ok.inj this
            | succ i =>
              simp only [List.getElem?_cons_succ, List.getElem_cons_succ, List.take_succ_cons]
              rw [h3 i (by simpa using hi) q]
              simp only [outputs, List.filterMap_cons, List.mem_cons, not_or]
              constructor
              · rintro ⟨a, b, c, d⟩
                exact ⟨a, ⟨c, b⟩, d⟩
              · rintro ⟨a, ⟨c, b⟩, d⟩
                exact ⟨a, b, c, d⟩
  obtain ⟨h1, h2, h3⟩ := key jobs (Checker.new dirs output) rfl (by simp [Checker.new])
  refine ⟨h1, by simpa [Checker.new] using h2, fun i h q => ?_⟩
  rw [h3 i h q]
  simp [Checker.new]

/-- C133: the other joins: an absolute path replaces the directory, and an empty directory adds nothing. -/
theorem C133_join_ends (d p : Path) : (∀ q : Path, p = '/' :: q → join d p = p) ∧ join [] p = p := by
  constructor
  · rintro q rfl
    simp [join, isAbsolute]
  · simp [join]

/-- C133: a path with a root is never equal to one without. -/
theorem C133_root (p q : Path) : components ('/' :: p) ≠ components q ∨ ∃ q', q = '/' :: q' := by
  by_cases h : q.head? = some '/'
  · cases q with
    | nil => simp at h
    | cons c cs =>
      simp only [List.head?_cons, Option.some.injEq] at h
      exact Or.inr ⟨cs, by rw [h]⟩
  · left
    intro e
    have := congrArg Prod.fst e
    simp [components, isAbsolute, h] at this

example : join "data".toList "/a".toList = "/a".toList ∧ join [] "a".toList = "a".toList ∧
    components "/a".toList ≠ components "a".toList := by decide +kernel

/-- C133: the components of a joined path are those of the directory followed by the parts of the relative path: empty parts and
dots do not count. -/
theorem C133_join (d p : Path) (hd : d ≠ []) (hp : isAbsolute p = false) :
    components (join d p) = ((components d).1, (components d).2 ++ parts p) := by
  have habs : ∀ x : Path, isAbsolute (d ++ x) = isAbsolute d := by
    intro x
    cases d with
    | nil => exact absurd rfl hd
    | cons c cs => rfl
  have hj : ∃ x, join d p = d ++ x ∧ segments (join d p) = segments d ++ segments p ∨
      join d p = d ++ x ∧ ∃ d', d = d' ++ ['/'] ∧ segments (join d p) = segments d' ++ segments p := by
    by_cases hl : d.getLast? = some '/'
    · have hjoin : join d p = d ++ p := by simp [join, hp, hl]
      obtain ⟨d', hd'⟩ := List.getLast?_eq_some_iff.1 hl
      refine ⟨p, Or.inr ⟨hjoin, d', hd', ?_⟩⟩
      rw [hjoin, ← segments_append, hd', List.append_assoc]
      rfl
    · have hjoin : join d p = d ++ '/' :: p := by simp [join, hp, hl, hd]
      exact ⟨'/' :: p, Or.inl ⟨hjoin, by rw [hjoin, segments_append]⟩⟩
  obtain ⟨x, ⟨hx, hs⟩ | ⟨hx, d', hd', hs⟩⟩ := hj
  · unfold components
    rw [hs, hx, habs]
    by_cases ha : isAbsolute d = true
    · rw [if_pos ha, if_pos ha, List.filter_append]
      rfl
    · rw [if_neg ha, if_neg ha]
      cases h : segments d with
      | nil => exact absurd h (segments_ne d)
      | cons s ss =>
        by_cases hdot : s = ['.']
        · subst hdot
          simp [parts, relative]
        · rw [List.cons_append]
          rw [relative_cons _ _ hdot, relative_cons _ _ hdot, ← List.cons_append, List.filter_append]
          rfl
  · have hsd : segments d = segments d' ++ [[]] := by
      rw [hd', segments_append]
      rfl
    unfold components
    rw [hs, hx, habs, hsd]
    by_cases ha : isAbsolute d = true
    · rw [if_pos ha, if_pos ha, List.filter_append, List.filter_append]
      simp [parts, isNormal]
    · rw [if_neg ha, if_neg ha]
      cases h : segments d' with
      | nil => exact absurd h (segments_ne d')
      | cons s ss =>
        by_cases hdot : s = ['.']
        · subst hdot
          simp [parts, relative, isNormal]
        · rw [List.cons_append, List.cons_append, relative_cons _ _ hdot,
            relative_cons _ _ hdot, ← List.cons_append, ← List.cons_append, List.filter_append,
            List.filter_append]
          simp [parts, isNormal]

/-- C133: two relative save paths with the same parts, however spelled with dots and separators, are not both accepted. -/
theorem C133_spelling (fs : Fs) (dirs : List Path) (o p p' : Path) (ho : o ≠ []) (hp : isAbsolute p = false)
    (hp' : isAbsolute p' = false) (h : parts p = parts p') (before between : List (Option Path)) (q : Path)
    (hq : ((Checker.new dirs (some o)).registerAll fs (before ++ some p :: between ++ [some p'])).1[before.length]? =
      some (.ok q)) :
    ∃ e, ((Checker.new dirs (some o)).registerAll fs (before ++ some p :: between ++ [some p'])).1[before.length + between.length +
      1]? = some (.error e) := by
  obtain ⟨h1, _, h3⟩ := C133_outputs fs dirs (some o) (before ++ some p :: between ++ [some p'])
  generalize hjobs : before ++ some p :: between ++ [some p'] = jobs at *
  have hlen : jobs.length = before.length + between.length + 2 := by
    rw [← hjobs]
    simp
    omega
  have j1 : jobs[before.length]'(by omega) = some p := by
    subst hjobs
    simp
  have j2 : jobs[before.length + between.length + 1]'(by omega) = some p' := by
    subst hjobs
    rw [List.getElem_append_right (by simp; omega)]
    simp
  generalize hrs : ((Checker.new dirs (some o)).registerAll fs jobs).1 = rs at *
  have hlt : before.length + between.length + 1 < rs.length := by omega
  rw [List.getElem?_eq_getElem hlt]
  cases hr : rs[before.length + between.length + 1] with
  | error e => exact ⟨e, rfl⟩
  | ok q' =>
    exfalso
    have a := (h3 before.length (by omega) q).1 hq
    have b := (h3 (before.length + between.length + 1) (by omega) q').1 (by rw [List.getElem?_eq_getElem hlt, hr])
    rw [j1] at a
    rw [j2] at b
    obtain ⟨o1, e1, e2⟩ := a.1.2.2 hp
    obtain ⟨o2, f1, f2⟩ := b.1.2.2 hp'
    cases e1
    cases f1
    apply b.2
    rw [f2, C133_join o p' ho hp', ← h, ← C133_join o p ho hp, ← e2]
    unfold outputs
    rw [List.mem_filterMap]
    refine ⟨.ok q, ?_, rfl⟩
    have hm : (rs.take (before.length + between.length + 1))[before.length]? = some (.ok q) := by
      rw [List.getElem?_take_of_lt (by omega)]
      exact hq
    exact List.mem_of_getElem? hm

/-! ## Refutations and concrete cases -/

/-- A file system with the directories `/o`, `/o/a` and `r/a`, the file `/o/f` and, in the working directory, the file `f`; `..`
works. -/
def exFs : Fs := fun p =>
  if p ∈ ["/o".toList, "/o/a".toList, "/o/./a".toList, "/o/a/".toList, "/o/a/../a".toList, "r/a".toList] then some .dir
  else if p ∈ ["/o/f".toList, "f".toList] then some .file
  else none

example : ((Checker.new [] (some "/o".toList)).registerAll exFs
      [some "a".toList, some "./a".toList, none, some "a/".toList, some "/o/f".toList]).1.map Except.toOption =
    [some "/o/a".toList, none, some "/o".toList, none, none] := by decide +kernel

example : (Checker.new ["/p".toList, "/o".toList] none).findInput exFs .file "f".toList = .ok "/o/f".toList := by decide +kernel

/-- C133 (refuted: "each job uses a distinct output directory"): the same directory spelled with `..` is accepted again. -/
theorem C133_parent_refuted :
    ((Checker.new [] (some "/o".toList)).registerAll exFs [some "a".toList, some "a/../a".toList]).1 =
      [.ok "/o/a".toList, .ok "/o/a/../a".toList] := by decide +kernel

/-- C133 (refuted: an output is a directory): without a save path the output directory is taken without a look. -/
theorem C133_default_refuted :
    ((Checker.new [] (some "/none".toList)).register exFs none).1 = .ok "/none".toList ∧ exFs "/none".toList = none := by
  decide +kernel

/-- C133 (refuted: "resolve `save_path` to an absolute path"): a relative output directory gives a relative path. -/
theorem C133_absolute_refuted :
    ((Checker.new [] (some "r".toList)).register exFs (some "a".toList)).1 = .ok "r/a".toList ∧
      isAbsolute "r/a".toList = false := by decide +kernel

/-- C133 (refuted: an input file that "points to an existing file relative to the current working directory" is taken): it is
not found unless a search directory leads there. -/
theorem C133_working_refuted :
    exFs "f".toList = some .file ∧ resolveInput exFs (Checker.new ["/p".toList] none) "f".toList = (.error .notFound, "f".toList) := by
  decide +kernel

end Verif.Runner.Checker
