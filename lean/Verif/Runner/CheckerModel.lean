/-!
# Input and output paths of benchmark jobs

Source: /repo/diskann-benchmark-runner/src/checker.rs 11-205 (`Checker`, `Kind`) and
/repo/diskann-benchmark-runner/src/files.rs 41-56 (`InputFile::resolve`).

A path is its characters, as on Unix; `std::path` is modelled as far as it is used: `is_absolute`, `join`, and the equality of
paths, which compares components. The file system is a function of the characters, so it includes the working directory, and
does not change. The texts of errors are not modelled. -/

namespace Verif.Runner.Checker

abbrev Path := List Char

/-- What is at a path. -/
inductive Kind
  | file
  | dir
deriving DecidableEq, Repr

abbrev Fs := Path → Option Kind

/-- `Path::is_absolute`. -/
def isAbsolute (p : Path) : Bool := p.head? = some '/'

/-- `Path::join`: an absolute path replaces; else a separator is put between unless there is one or the first is empty. -/
def join (d p : Path) : Path :=
  if isAbsolute p then p
  else if d = [] ∨ d.getLast? = some '/' then d ++ p
  else d ++ '/' :: p

/-- The parts between separators. -/
def segments : Path → List Path
  | [] => [[]]
  | c :: cs =>
    if c = '/' then [] :: segments cs
    else
      match segments cs with
      | [] => [[c]]
      | s :: ss => (c :: s) :: ss

/-- Parts that are components wherever they are: not empty and not a dot. -/
def isNormal (s : Path) : Bool := s ≠ [] ∧ s ≠ ['.']

/-- The components of a relative path with these parts: a dot counts only at the start. -/
def relative : List Path → List Path
  | ['.'] :: rest => ['.'] :: rest.filter isNormal
  | segs => segs.filter isNormal

/-- `Path::components`, by which paths are compared: whether there is a root, and the parts; a dot counts only at the start of a
relative path. -/
def components (p : Path) : Bool × List Path :=
  if isAbsolute p then (true, (segments p).filter isNormal)
  else (false, relative (segments p))

/-- The errors, 63-65, 71-76, 83-93, 100-104, 159-165, 177-182. -/
inductive Err
  | noOutput
  | notDir
  | inUse
  | absoluteInput
  | notFound
deriving DecidableEq, Repr

/-- `Checker`, 11-30; `current` has the components of the outputs registered. -/
structure Checker where
  searchDirs : List Path
  outputDir : Option Path
  current : List (Bool × List Path)

/-- `Checker::new`, 34-40. -/
def Checker.new (searchDirs : List Path) (outputDir : Option Path) : Checker := ⟨searchDirs, outputDir, []⟩

/-- The directory a save path stands for, 57-97. -/
def Checker.resolve (fs : Fs) (c : Checker) (save : Option Path) : Except Err Path :=
  match save with
  | none =>
    match c.outputDir with
    | some o => .ok o
    | none => .error .noOutput
  | some p =>
    if isAbsolute p then
      if fs p ≠ some .dir then .error .notDir else .ok p
    else
      match c.outputDir with
      | some o =>
        let absolute := join o p
        if fs absolute ≠ some .dir then .error .notDir else .ok absolute
      | none => .error .noOutput

/-- `register_output`, 57-108: the result and the checker afterwards. -/
def Checker.register (fs : Fs) (c : Checker) (save : Option Path) : Except Err Path × Checker :=
  match c.resolve fs save with
  | .error e => (.error e, c)
  | .ok q =>
    if components q ∈ c.current then (.error .inUse, c)
    else (.ok q, { c with current := components q :: c.current })

/-- The loop over the search directories, 170-175. -/
def search (fs : Fs) (kind : Kind) (p : Path) : List Path → Except Err Path
  | [] => .error .notFound
  | d :: ds =>
    let absolute := join d p
    if fs absolute = some kind then .ok absolute else search fs kind p ds

/-- `check_input_path`, 149-183; `find_input_file`, 131-133, and `find_input_dir`, 145-147, for the two kinds. -/
def Checker.findInput (fs : Fs) (c : Checker) (kind : Kind) (p : Path) : Except Err Path :=
  if isAbsolute p then
    if fs p = some kind then .ok p else .error .absoluteInput
  else search fs kind p c.searchDirs

/-- `InputFile::resolve`, files.rs 46-55: the result and the path kept afterwards. -/
def resolveInput (fs : Fs) (c : Checker) (p : Path) : Except Err Unit × Path :=
  match c.findInput fs .file p with
  | .ok q => (.ok (), q)
  | .error e => (.error e, p)

/-- The outputs of several jobs, registered one after the other. -/
def Checker.registerAll (fs : Fs) (c : Checker) : List (Option Path) → List (Except Err Path) × Checker
  | [] => ([], c)
  | s :: rest =>
    let (r, c) := c.register fs s
    let (rs, c) := c.registerAll fs rest
    (r :: rs, c)

end Verif.Runner.Checker
