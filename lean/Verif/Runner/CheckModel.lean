/-
Model of the benchmark runner's registry, of the choice of a benchmark and of regression checks.

Source: /repo/diskann-benchmark-runner/src/{registry.rs, benchmark.rs, jobs.rs, internal/regression.rs, app.rs}.

A Rust type is a natural number.  Parsed inputs and tolerances (`Any`) are a type and a value of an abstract type `V`.
Deserialization, serialization and the user's `try_match` and `check` are functions; the `Checker` that resolves paths
while inputs are parsed is not modelled.  A JSON map is a list of keys and values.  An error is a constructor without
its message.
-/
namespace Verif.Runner

/-- `serde_json::Number`: the three variants are different even when the values agree; floats compare by value. -/
inductive Num
  | pos (n : Nat)
  | neg (n : Int)
  | flt (r : Rat)
deriving DecidableEq

/-- `serde_json::Value`. -/
inductive Json
  | null
  | bool (b : Bool)
  | num (n : Num)
  | str (s : String)
  | arr (l : List Json)
  | obj (l : List (String × Json))

/-- The loop over the entries of the needle's object (internal/regression.rs 426-431): `none` is the early `return
false`.  The head of the list is the top of the stack. -/
def pushFields (h : List (String × Json)) : List (String × Json) → List (Json × Json) → Option (List (Json × Json))
  | [], st => some st
  | (k, v) :: n, st =>
    match h.lookup k with
    | some w => pushFields h n ((w, v) :: st)
    | none => none

/-- The body of the loop of `is_subset` (internal/regression.rs 411-436): `none` is `return false`, `some` is the
stack afterwards. -/
def compareStep (h n : Json) (st : List (Json × Json)) : Option (List (Json × Json)) :=
  match h, n with
  | .null, .null => some st
  | .bool a, .bool b => if a != b then none else some st
  | .num a, .num b => if a ≠ b then none else some st
  | .str a, .str b => if a != b then none else some st
  | .arr a, .arr b => if a.length < b.length then none else some ((a.zip b).reverse ++ st)
  | .obj a, .obj b => pushFields a b st
  | _, _ => none

/-- `is_subset` (internal/regression.rs 396-446) for at most `fuel` iterations: `none` is a loop that has not ended. -/
def subsetLoop : Nat → Json → Json → List (Json × Json) → Option Bool
  | 0, _, _, _ => none
  | fuel + 1, h, n, st =>
    match compareStep h n st with
    | none => some false
    | some [] => some true
    | some ((h', n') :: st') => subsetLoop fuel h' n' st'

mutual
/-- A number of iterations that is always enough (`C112_subset`).  It is not part of the code. -/
def weight : Json → Nat
  | .arr l => weightList l + 1
  | .obj l => weightFields l + 1
  | _ => 1
/-- As above for the elements of an array. -/
def weightList : List Json → Nat
  | [] => 0
  | x :: l => weight x + weightList l
/-- As above for the entries of an object. -/
def weightFields : List (String × Json) → Nat
  | [] => 0
  | (_, x) :: l => weight x + weightFields l
end

/-- `is_subset(haystack, needle)` (internal/regression.rs 396-446). -/
def isSubset (h n : Json) : Bool := (subsetLoop (weight n) h n []).getD false

/-- The largest `u32`. -/
def u32Max : Nat := 4294967295

/-- `u32::saturating_add`. -/
def satAdd (a b : Nat) : Nat := min (a + b) u32Max

/-- `ScoreInner` (benchmark.rs 281-285) without the recorded reasons. -/
inductive Score
  | success (n : Nat)
  | failure (n : Nat)
deriving DecidableEq, Repr

/-- `Score::penalize` (benchmark.rs 201-206). -/
def Score.penalize : Score → Nat → Score
  | .success v, by' => .success (satAdd v by')
  | .failure v, _ => .failure v

/-- `Score::fail` (benchmark.rs 212-231). -/
def Score.fail : Score → Nat → Score
  | .success _, by' => .failure by'
  | .failure v, by' => .failure (satAdd v by')

/-- `Score::match_score` (benchmark.rs 250-255). -/
def Score.matchScore : Score → Option Nat
  | .success v => some v
  | .failure _ => none

/-- `Any` (input.rs 132-170): a value of a Rust type. -/
structure Any (V : Type) where
  ty : Nat
  val : V

/-- What the application supplies: the tag of an input type, its deserialization and its serialization (`Input`,
input.rs 12-40). -/
structure Env (V : Type) where
  tagOf : Nat → String
  deser : Nat → Json → Option V
  ser : Any V → Option Json

/-- The result of `Job::run`: a pass, a failure or an error (internal/regression.rs 561-568). -/
inductive Outcome
  | pass
  | fail
  | error
deriving DecidableEq, Repr

/-- A `Regression` (benchmark.rs 67-94): the type of its tolerances and the check on deserialized arguments; `check`
includes the deserialization of the two outputs. -/
structure Regress (V : Type) where
  tolTy : Nat
  check : V → V → Json → Json → Outcome

/-- The kinds of benchmarks (benchmark.rs 494-508, 595-600, 655-659). -/
inductive Kind (V : Type)
  | real (inTy : Nat) (score : V → Score) (reg : Option (Regress V))
  | partlyGated (inTy : Nat) (features : List String)
  | fullyGated (tag : String) (features : List String)

/-- `RegisteredBenchmark` (registry.rs 395-398). -/
structure Bench (V : Type) where
  name : String
  kind : Kind V

/-- `AnnotatedMatch` (benchmark.rs 336-343). -/
inductive Match
  | user (s : Score)
  | wrongTag
  | gated
deriving DecidableEq

/-- `Benchmark::try_match` of the three kinds (benchmark.rs 515-521, 616-622, 675-677). -/
def Bench.tryMatch {V : Type} (b : Bench V) (a : Any V) : Match :=
  match b.kind with
  | .real ty score _ => if a.ty = ty then .user (score a.val) else .wrongTag
  | .partlyGated ty _ => if a.ty = ty then .gated else .wrongTag
  | .fullyGated _ _ => .wrongTag

/-- `AnnotatedMatch::try_into_score` followed by `match_score` (registry.rs 386-389). -/
def Match.score : Match → Option Nat
  | .user s => s.matchScore
  | _ => none

/-- `Iterator::min_by_key`: the first element with the smallest key. -/
def minByKey {α : Type} (key : α → Nat) : List α → Option α
  | [] => none
  | a :: l => some (l.foldl (fun m x => if key x < key m then x else m) a)

/-- `find_best_match` (registry.rs 376-393). -/
def findBest {α : Type} (score : α → Option Nat) (l : List α) : Option α :=
  (minByKey (·.2) (l.filterMap fun e => (score e).map fun s => (e, s))).map (·.1)

/-- A registered input (registry.rs 21): a type or a gated input. -/
inductive InKind
  | avail (ty : Nat)
  | gated (features : List String)
deriving DecidableEq

/-- `Registry` (registry.rs 18-23). -/
structure Registry (V : Type) where
  inputs : List (String × InKind) := []
  benches : List (Bench V) := []

/-- `Registry::register_input` (registry.rs 225-259): `none` is a `RegistryError`. -/
def Registry.registerInput {V : Type} (env : Env V) (r : Registry V) (ty : Nat) : Option (Registry V) :=
  match r.inputs.lookup (env.tagOf ty) with
  | none => some { r with inputs := (env.tagOf ty, .avail ty) :: r.inputs }
  | some (.avail t) => if t = ty then some r else none
  | some (.gated _) => none

/-- `Registry::register_gated_input` (registry.rs 261-295). -/
def Registry.registerGatedInput {V : Type} (r : Registry V) (tag : String) (features : List String) :
    Option (Registry V) :=
  match r.inputs.lookup tag with
  | none => some { r with inputs := (tag, .gated features) :: r.inputs }
  | some (.gated f) => if f ≠ features then none else some r
  | some (.avail _) => none

/-- `register`, `register_regression`, `register_partially_gated` and `register_gated` (registry.rs 56-74, 83-102,
113-131, 311-328). -/
def Registry.register {V : Type} (env : Env V) (r : Registry V) (b : Bench V) : Option (Registry V) :=
  let added := match b.kind with
    | .real ty _ _ => r.registerInput env ty
    | .partlyGated ty _ => r.registerInput env ty
    | .fullyGated tag f => r.registerGatedInput tag f
  added.map fun q => { q with benches := q.benches ++ [b] }

/-- The `Regression` of a benchmark (`as_regression`, benchmark.rs 545-547, 646-648, 699-701). -/
def Bench.reg {V : Type} (b : Bench V) : Option (Nat × Regress V) :=
  match b.kind with
  | .real ty _ (some g) => some (ty, g)
  | _ => none

/-- `RegressionBenchmark` (registry.rs 563-566): the benchmark, the type of its input and its regression. -/
structure RegBench (V : Type) where
  bench : Bench V
  inTy : Nat
  reg : Regress V

/-- `RegisteredTolerance` (registry.rs 595-602): the type that parses the tolerance and its benchmarks. -/
structure TolEntry (V : Type) where
  ty : Nat
  regs : List (RegBench V)

/-- One entry of the hash map in `Registry::tolerances` (registry.rs 347-355). -/
def addTolerance {V : Type} (tag : String) (b : RegBench V) :
    List (String × TolEntry V) → List (String × TolEntry V)
  | [] => [(tag, ⟨b.reg.tolTy, [b]⟩)]
  | (t, e) :: m => if t = tag then (t, ⟨e.ty, e.regs ++ [b]⟩) :: m else (t, e) :: addTolerance tag b m

/-- The body of the loop of `Registry::tolerances` (registry.rs 335-356). -/
def addBench {V : Type} (env : Env V) (m : List (String × TolEntry V)) (b : Bench V) : List (String × TolEntry V) :=
  match b.reg with
  | some (ty, g) => addTolerance (env.tagOf g.tolTy) ⟨b, ty, g⟩ m
  | none => m

/-- `Registry::tolerances` (registry.rs 333-360). -/
def Registry.tolerances {V : Type} (env : Env V) (r : Registry V) : List (String × TolEntry V) :=
  r.benches.foldl (addBench env) []

/-- `Unprocessed` (jobs.rs 95-100). -/
structure Unprocessed where
  tag : String
  content : Json

/-- `RawInner` (internal/regression.rs 272-275). -/
structure RawCheck where
  input : Unprocessed
  tolerance : Unprocessed

/-- `MatchProblem` (internal/regression.rs 449-457). -/
inductive Problem
  | orphaned (t : Nat)
  | uncovered (j : Nat)
  | ambiguous (j : Nat) (ts : List Nat)
deriving DecidableEq, Repr

/-- The errors of the whole command. -/
inductive Err
  | unknownInput
  | badInput
  | unknownTolerance
  | incompatible
  | badTolerance
  | matching (ps : List Problem)
  | noBenchmark
  | panic
  | beforeLength
  | afterLength
  | noOutput
  | checkErrors
  | checkFailures
deriving DecidableEq, Repr

/-- `collect::<Result<Vec<_>>>` over an iterator: the first error ends it. -/
def collect {α β : Type} (f : α → Except Err β) : List α → Except Err (List β)
  | [] => .ok []
  | a :: l =>
    match f a with
    | .error e => .error e
    | .ok b =>
      match collect f l with
      | .error e => .error e
      | .ok bs => .ok (b :: bs)

/-- One input of `Jobs::parse` (jobs.rs 58-76): a gated input never deserializes (input.rs). -/
def parseInput {V : Type} (env : Env V) (r : Registry V) (u : Unprocessed) : Except Err (Any V) :=
  match r.inputs.lookup u.tag with
  | none => .error .unknownInput
  | some (.gated _) => .error .badInput
  | some (.avail ty) =>
    match env.deser ty u.content with
    | none => .error .badInput
    | some v => .ok ⟨ty, v⟩

/-- `ParsedInner` (internal/regression.rs 377-381). -/
structure Parsed (V : Type) where
  entry : TolEntry V
  tolerance : Any V
  input : Unprocessed

/-- One entry of `Raw::parse` (internal/regression.rs 306-357). -/
def parseTolerance {V : Type} (env : Env V) (entries : List (String × TolEntry V)) (c : RawCheck) :
    Except Err (Parsed V) :=
  match entries.lookup c.tolerance.tag with
  | none => .error .unknownTolerance
  | some e =>
    if !(e.regs.any fun b => env.tagOf b.inTy == c.input.tag) then .error .incompatible
    else
      match env.deser e.ty c.tolerance.content with
      | none => .error .badTolerance
      | some v => .ok ⟨e, ⟨e.ty, v⟩, c.input⟩

/-- The condition of the double loop (internal/regression.rs 212). -/
def hits {V : Type} (ts : List (Parsed V)) (js : List Unprocessed) (i j : Nat) : Bool :=
  match ts[i]?, js[j]? with
  | some t, some raw => raw.tag == t.input.tag && isSubset raw.content t.input.content
  | _, _ => false

/-- `v[i].push(x)`. -/
def pushAt (v : List (List Nat)) (i x : Nat) : List (List Nat) := v.modify i (· ++ [x])

/-- The double loop (internal/regression.rs 207-218), for any condition. -/
def matchLoop (hit : Nat → Nat → Bool) (m n : Nat) : List (List Nat) × List (List Nat) :=
  (List.range m).foldl (fun s i =>
    (List.range n).foldl (fun s j => if hit i j then (pushAt s.1 i j, pushAt s.2 j i) else s) s)
    (List.replicate m [], List.replicate n [])

/-- The first loop of `check_matches` (internal/regression.rs 502-506), from index `i`. -/
def orphans : Nat → List (List Nat) → List Problem
  | _, [] => []
  | i, m :: l => if m.isEmpty then .orphaned i :: orphans (i + 1) l else orphans (i + 1) l

/-- The second loop of `check_matches` (internal/regression.rs 508-515), from index `i`: problems and results. -/
def classify : Nat → List (List Nat) → List Problem × List Nat
  | _, [] => ([], [])
  | i, m :: l =>
    let r := classify (i + 1) l
    match m with
    | [] => (.uncovered i :: r.1, r.2)
    | [t] => (r.1, t :: r.2)
    | t :: u :: w => (.ambiguous i (t :: u :: w) :: r.1, r.2)

/-- `check_matches` (internal/regression.rs 496-522). -/
def checkMatches (p2i i2p : List (List Nat)) : Except (List Problem) (List Nat) :=
  let ps := orphans 0 p2i ++ (classify 0 i2p).1
  if ps.isEmpty then .ok (classify 0 i2p).2 else .error ps

/-- `Check` (internal/regression.rs 115-119). -/
structure Check (V : Type) where
  regression : RegBench V
  tolerance : Any V
  input : Any V

/-- One input in the last part of `match_all` (internal/regression.rs 234-262). -/
def makeCheck {V : Type} (env : Env V) (ts : List (Parsed V)) (p : Any V × Nat) : Except Err (Check V) :=
  match ts[p.2]? with
  | none => .error .panic
  | some t =>
    if t.input.tag ≠ env.tagOf p.1.ty then .error .panic
    else
      match findBest (fun b => (b.bench.tryMatch p.1).score) t.entry.regs with
      | none => .error .noBenchmark
      | some b => .ok ⟨b, t.tolerance, p.1⟩

/-- `Checks::match_all` (internal/regression.rs 192-266). -/
def matchAll {V : Type} (env : Env V) (ts : List (Parsed V)) (js : List Unprocessed) (inputs : List (Any V)) :
    Except Err (List (Check V)) :=
  let s := matchLoop (hits ts js) ts.length inputs.length
  match checkMatches s.1 s.2 with
  | .error ps => .error (.matching ps)
  | .ok idx => collect (makeCheck env ts) (inputs.zip idx)

/-- `Checks::new` (internal/regression.rs 127-144) on the contents of the two files. -/
def newChecks {V : Type} (env : Env V) (r : Registry V) (tols : List RawCheck) (js : List Unprocessed) :
    Except Err (List (Check V)) :=
  match collect (parseInput env r) js with
  | .error e => .error e
  | .ok inputs =>
    match collect (parseTolerance env (r.tolerances env)) tols with
    | .error e => .error e
    | .ok ts => matchAll env ts js inputs

/-- `RawResult` (result.rs 114-118). -/
structure RawResult where
  input : Json
  results : Json

/-- `Job` (internal/regression.rs 530-549). -/
structure Job (V : Type) where
  check : Check V
  before : RawResult
  after : RawResult

/-- `Checks::jobs` (internal/regression.rs 146-190) on the contents of the two files. -/
def makeJobs {V : Type} (cs : List (Check V)) (before after : List RawResult) : Except Err (List (Job V)) :=
  if before.length ≠ cs.length then .error .beforeLength
  else if after.length ≠ cs.length then .error .afterLength
  else .ok ((cs.zip (before.zip after)).map fun p => ⟨p.1, p.2.1, p.2.2⟩)

/-- `Job::run` (internal/regression.rs 561-568) and the two casts of `Regression::check` (benchmark.rs 463-472). -/
def Job.run {V : Type} (j : Job V) : Outcome :=
  if j.check.tolerance.ty ≠ j.check.regression.reg.tolTy then .error
  else if j.check.input.ty ≠ j.check.regression.inTy then .error
  else j.check.regression.reg.check j.check.tolerance.val j.check.input.val j.before.results j.after.results

/-- What a run leaves behind: the statuses in the output file if it was written, the checks printed with their
numbers, and the result. -/
structure Report where
  file : Option (List Outcome)
  printed : List (Nat × Outcome)
  result : Except Err Unit

/-- The checks with outcome `o` and their positions, in order (internal/regression.rs 623-636, 646-670, 676-699). -/
def select (o : Outcome) : Nat → List Outcome → List (Nat × Outcome)
  | _, [] => []
  | i, x :: l => if x = o then (i, x) :: select o (i + 1) l else select o (i + 1) l

/-- `Jobs::run` (internal/regression.rs 593-702).  `file` says whether an output file was asked for; writing it
succeeds.  A tolerance that does not serialize ends the run (line 606) before the file is written. -/
def runJobs {V : Type} (env : Env V) (jobs : List (Job V)) (file : Bool) : Report :=
  let results := jobs.map Job.run
  if jobs.any fun j => (env.ser j.check.tolerance).isNone then ⟨none, [], .error .noOutput⟩
  else
    let written := if file then some results else none
    if results.any (· = .error) then ⟨written, select .error 0 results, .error .checkErrors⟩
    else if results.any (· = .fail) then ⟨written, select .fail 0 results, .error .checkFailures⟩
    else ⟨written, select .pass 0 results, .ok ()⟩

/-- `check run` (app.rs, `Check::Run`) on the contents of the four files. -/
def checkRun {V : Type} (env : Env V) (r : Registry V) (tols : List RawCheck) (js : List Unprocessed)
    (before after : List RawResult) (file : Bool) : Report :=
  match newChecks env r tols js with
  | .error e => ⟨none, [], .error e⟩
  | .ok cs =>
    match makeJobs cs before after with
    | .error e => ⟨none, [], .error e⟩
    | .ok jobs => runJobs env jobs file

/-- `Registry::call` (registry.rs 152-163): the benchmark that `run` executes for an input. -/
def Registry.callee {V : Type} (r : Registry V) (a : Any V) : Option (Bench V) :=
  findBest (fun b => (b.tryMatch a).score) r.benches

/-- Registration of a list of benchmarks, each of which may be refused: the application keeps the registry as it was
(an error does not change it). -/
def Registry.build {V : Type} (env : Env V) (bs : List (Bench V)) : Registry V :=
  bs.foldl (fun r b => (r.register env b).getD r) {}

end Verif.Runner
