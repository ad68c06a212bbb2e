/-
Model of how the benchmark runner saves results while it runs.

Source: /repo/diskann-benchmark-runner/src/{result.rs, app.rs}.

The file system has two names, the output file and the temporary file next to it, and numbered files behind them, as
in POSIX: an open file stays writable whatever its name is, and a rename moves a name in one step.  A process may be
killed between any two steps; a loss of power, after which written bytes may be gone, is not modelled.  A JSON value is
an element of an arbitrary type, and a document is turned into bytes by an arbitrary function.
-/
namespace Verif.Runner

/-- Files by number, the next free number, and what the two names stand for. -/
structure Fs where
  files : Nat → List Nat
  next : Nat
  out : Option Nat
  temp : Option Nat

/-- What a reader of the output file gets: `none` is a missing file. -/
def Fs.outBytes (fs : Fs) : Option (List Nat) := fs.out.map fs.files

/-- Files with one of them changed. -/
def putFile (f : Nat → List Nat) (i : Nat) (bs : List Nat) : Nat → List Nat := fun j => if j = i then bs else f j

/-- Writing at an offset: a gap is filled with zeros. -/
def writeAt (bs : List Nat) (off : Nat) (chunk : List Nat) : List Nat :=
  bs.take off ++ List.replicate (off - bs.length) 0 ++ chunk ++ bs.drop (off + chunk.length)

/-- Where a call of `atomic_save` is (result.rs 98-113): before it looks for the temporary file, before it creates it,
while it writes the document into a file, or done. -/
inductive Pc
  | check (doc : List Nat)
  | create (doc : List Nat)
  | write (doc : List Nat) (file off : Nat)
  | done (ok : Bool)
deriving DecidableEq, Repr

/-- `File::create` (result.rs 110): a new file, or the existing one emptied. -/
def createTemp (fs : Fs) : Fs × Nat :=
  match fs.temp with
  | some i => ({ fs with files := putFile fs.files i [] }, i)
  | none => ({ fs with files := putFile fs.files fs.next [], next := fs.next + 1, temp := some fs.next }, fs.next)

/-- One step of `atomic_save` (result.rs 98-113).  If `calm`, the file system reports no errors.  A document that does
not serialize is a write that fails. -/
inductive SaveStep (calm : Bool) : Fs → Pc → Fs → Pc → Prop
  | exists {fs doc i} : fs.temp = some i → SaveStep calm fs (.check doc) fs (.done false)
  | absent {fs doc} : fs.temp = none → SaveStep calm fs (.check doc) fs (.create doc)
  | create {fs doc} : SaveStep calm fs (.create doc) (createTemp fs).1 (.write doc (createTemp fs).2 0)
  | createFails {fs doc} : calm = false → SaveStep calm fs (.create doc) fs (.done false)
  | write {fs doc i off n} : 0 < n → off + n ≤ doc.length → SaveStep calm fs (.write doc i off)
      { fs with files := putFile fs.files i (writeAt (fs.files i) off ((doc.drop off).take n)) } (.write doc i (off + n))
  | writeFails {fs doc i off} : calm = false → SaveStep calm fs (.write doc i off) fs (.done false)
  | rename {fs doc i off j} : off = doc.length → fs.temp = some j → SaveStep calm fs (.write doc i off)
      { fs with out := some j, temp := none } (.done true)
  | renameFails {fs doc i off} : off = doc.length → (fs.temp = none ∨ calm = false) →
      SaveStep calm fs (.write doc i off) fs (.done false)

/-- Where a run is: in the benchmark of the next job, in a save (`final`: the one after the job), or over. -/
inductive Phase
  | job
  | save (final : Bool) (pc : Pc)
  | ended (ok : Bool)
deriving DecidableEq, Repr

/-- The `run` command (app.rs 350-385): the inputs, the results so far.  The loop pushes one
result per job, so the number of the job is the number of results; the checks for a list of results that is longer than
the inputs, or as long (result.rs 37-42, 72-73), are the bounds in `RunStep`. -/
structure Proc (J : Type) where
  inputs : List J
  results : List J
  phase : Phase

variable {J : Type}

/-- One step of a run.  `render` is the serialization of pairs of an input and a result (result.rs 148-187). -/
inductive RunStep (render : List (J × J) → List Nat) (calm : Bool) : Fs → Proc J → Fs → Proc J → Prop
  /-- The benchmark calls `Checkpoint::checkpoint` (result.rs 70-85). -/
  | checkpoint {fs p} (v : J) : p.phase = .job → p.results.length < p.inputs.length →
      RunStep render calm fs p fs
        { p with phase := .save false (.check (render (p.inputs.zip (p.results ++ [v])))) }
  /-- The benchmark calls `Checkpoint::save` (result.rs 55-61). -/
  | resave {fs p} : p.phase = .job → p.results.length < p.inputs.length →
      RunStep render calm fs p fs { p with phase := .save false (.check (render (p.inputs.zip p.results))) }
  /-- The benchmark returns a result, which is saved (app.rs 377-384). -/
  | result {fs p} (v : J) : p.phase = .job → p.results.length < p.inputs.length →
      RunStep render calm fs p fs
        { p with results := p.results ++ [v]
                 phase := .save true (.check (render (p.inputs.zip (p.results ++ [v])))) }
  /-- The benchmark returns an error (app.rs 378). -/
  | fails {fs p} : p.phase = .job → p.results.length < p.inputs.length →
      RunStep render calm fs p fs { p with phase := .ended false }
  /-- There are no more jobs. -/
  | over {fs p} : p.phase = .job → p.results.length = p.inputs.length →
      RunStep render calm fs p fs { p with phase := .ended true }
  /-- A step of a save. -/
  | save {fs p final pc fs' pc'} : p.phase = .save final pc → SaveStep calm fs pc fs' pc' →
      RunStep render calm fs p fs' { p with phase := .save final pc' }
  /-- A save returns: after an error of the final one the run ends; the benchmark is free to ignore its own errors. -/
  | saved {fs p final ok} : p.phase = .save final (.done ok) →
      RunStep render calm fs p fs { p with phase := if final && !ok then .ended false else .job }

/-- The file system, the process if one is alive, and the history: the inputs and the results of every run. -/
structure Sys (J : Type) where
  fs : Fs
  proc : Option (Proc J)
  runs : List (List J × List J)

/-- One step: a run is started, makes a step or is killed, or somebody removes the temporary file while nothing runs.
If `calm`, nobody is killed in a save.  If not `clean`, nobody removes the file. -/
inductive Step (render : List (J × J) → List Nat) (calm clean : Bool) : Sys J → Sys J → Prop
  | start {s} (inputs : List J) : s.proc = none →
      Step render calm clean s ⟨s.fs, some ⟨inputs, [], .job⟩, (inputs, []) :: s.runs⟩
  | act {s p fs' p'} : s.proc = some p → RunStep render calm s.fs p fs' p' →
      Step render calm clean s ⟨fs', some p', (p'.inputs, p'.results) :: s.runs.tail⟩
  | kill {s p} : s.proc = some p → (calm = true → ∀ final pc, p.phase ≠ .save final pc) →
      Step render calm clean s ⟨s.fs, none, s.runs⟩
  | remove {s} : clean = true → s.proc = none → Step render calm clean s ⟨{ s.fs with temp := none }, none, s.runs⟩

/-- Any number of steps. -/
inductive Steps (render : List (J × J) → List Nat) (calm clean : Bool) : Sys J → Sys J → Prop
  | refl (s) : Steps render calm clean s s
  | tail {s t u} : Steps render calm clean s t → Step render calm clean t u → Steps render calm clean s u

/-- Before the first run: some files, some of which the two names may stand for. -/
structure Initial (s : Sys J) : Prop where
  proc : s.proc = none
  runs : s.runs = []
  out : ∀ i, s.fs.out = some i → i < s.fs.next
  temp : ∀ i, s.fs.temp = some i → i < s.fs.next
  apart : ∀ i, s.fs.out = some i → s.fs.temp ≠ some i

/-- Two saves at the same time, by threads of a benchmark or by two processes with the same output file. -/
inductive TwoSteps : Fs → Pc → Pc → Fs → Pc → Pc → Prop
  | refl (fs p q) : TwoSteps fs p q fs p q
  | left {fs p q fs' p' q' fs'' p''} : TwoSteps fs p q fs' p' q' → SaveStep true fs' p' fs'' p'' →
      TwoSteps fs p q fs'' p'' q'
  | right {fs p q fs' p' q' fs'' q''} : TwoSteps fs p q fs' p' q' → SaveStep true fs' q' fs'' q'' →
      TwoSteps fs p q fs'' p' q''

end Verif.Runner
