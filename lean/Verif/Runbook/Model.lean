import Mathlib.Data.List.Sort
import Verif.Record.TextModel

/-! # Model of BigANN runbooks

`diskann-benchmark-core/src/streaming/executors/bigann`: reading the file, validation, execution, ground truth files.
`usize` is a natural number below 2^64. -/

namespace Verif.Runbook

/-- Outcome of an operation: a value, an error, a panic. -/
inductive Out (α : Type) where
  | ok (a : α)
  | err
  | panic
deriving DecidableEq, Repr

/-- `SimpleRange`, validate.rs 11-15. -/
structure Rng where
  lo : Nat
  hi : Nat
deriving DecidableEq, Repr

/-- `SimpleRange::new`, validate.rs 18-23. -/
def Rng.new (s e : Nat) : Rng := ⟨s, max e s⟩

/-- `SimpleRange::len`, validate.rs 25-27. `none`: the subtraction underflows and panics. -/
def Rng.len (r : Rng) : Option Nat := if r.lo ≤ r.hi then some (r.hi - r.lo) else none

/-- `SimpleRange::contains`, validate.rs 73-75. -/
def Rng.contains (r : Rng) (i : Nat) : Bool := decide (r.lo ≤ i ∧ i < r.hi)

/-- `SimpleRange::overlaps`, validate.rs 33-35. -/
def Rng.overlaps (r s : Rng) : Bool := r.contains s.lo || s.contains r.lo

/-- `SimpleRange::strictly_contains`, validate.rs 77-79. -/
def Rng.within (r s : Rng) : Bool := decide (s.lo ≥ r.lo ∧ s.hi ≤ r.hi)

/-- `SimpleRange::remove`, validate.rs 37-71; `Remaining` is the list of what remains. `none` is a panic. -/
def Rng.remove (r s : Rng) : Option (List Rng) :=
  match s.len with
  | none => none
  | some 0 =>
    match r.len with
    | none => none
    | some 0 => some []
    | some _ => some [r]
  | some _ =>
    if r.overlaps s = false then some [r]
    else if s.within r then some []
    else if s.lo ≤ r.lo then some [Rng.new s.hi r.hi]
    else if s.hi ≥ r.hi then some [Rng.new r.lo s.lo]
    else if r.within s then some [Rng.new r.lo s.lo, Rng.new s.hi r.hi]
    else none

/-- `Validate`, validate.rs 109-114. -/
structure Validator where
  active : List Rng
  maxActive : Nat
  current : Nat
  maxTag : Option Nat
deriving DecidableEq, Repr

/-- `Validate::new`, validate.rs 117-124. -/
def Validator.new : Validator := ⟨[], 0, 0, none⟩

/-- `Validate::update_max`, validate.rs 149-154. -/
def updateMax (m : Option Nat) (tag : Nat) : Option Nat :=
  match m with
  | some m => some (max m tag)
  | none => some tag

/-- The loop of `Validate::compact`, validate.rs 165-186. The entries before the write position are `done`, the one at it is
`cur`; the entries between the write and the read position are never read again. `none`: the assertion fails. -/
def compactGo (done : List Rng) (cur : Rng) : List Rng → Option (List Rng)
  | [] => some (done ++ [cur])
  | r :: rs =>
    if cur.hi = r.lo then compactGo done ⟨cur.lo, r.hi⟩ rs
    else if r.lo > cur.hi then compactGo (done ++ [cur]) r rs
    else none

/-- `Validate::compact`, validate.rs 160-190. -/
def compact : List Rng → Option (List Rng)
  | [] => some []
  | r :: rs => compactGo [] r rs

/-- `Slot`, validate.rs 275-286. -/
inductive Place where
  | back
  | before (i : Nat)
  | inside (i : Nat)
deriving DecidableEq, Repr

/-- `Validate::find`, validate.rs 192-202. -/
def find (tags : Rng) : List Rng → Nat → Place
  | [], _ => .back
  | r :: rs, i =>
    if tags.overlaps r then .inside i
    else if r.lo ≥ tags.hi then .before i
    else find tags rs (i + 1)

/-- The end of `Validate::insert`, validate.rs 211-219. -/
def Validator.added (v : Validator) (tags : Rng) (active : List Rng) : Out Validator :=
  match tags.len with
  | none => .panic
  | some n =>
    match compact active with
    | none => .panic
    | some active =>
      .ok { active := active, current := v.current + n, maxActive := max v.maxActive (v.current + n),
            maxTag := if tags.hi = 0 then v.maxTag else updateMax v.maxTag (tags.hi - 1) }

/-- `Validate::insert`, validate.rs 204-220. -/
def Validator.insert (v : Validator) (tags : Rng) : Out Validator :=
  match find tags v.active 0 with
  | .back => v.added tags (v.active ++ [tags])
  | .before i => v.added tags (v.active.take i ++ tags :: v.active.drop i)
  | .inside _ => .err

/-- `Validate::replace`, validate.rs 222-239. -/
def Validator.replace (v : Validator) (tags : Rng) : Out Validator :=
  match find tags v.active 0 with
  | .back => .err
  | .before _ => .err
  | .inside i =>
    match v.active[i]? with
    | none => .panic
    | some r => if r.within tags then .ok v else .err

/-- The end of `Validate::delete`, validate.rs 255-267: what remains of entry `i` replaces it. -/
def Validator.removed (v : Validator) (tags : Rng) (i : Nat) (r : Rng) : Out Validator :=
  match r.remove tags, tags.len with
  | some rest, some n =>
    if v.current < n then .panic
    else .ok { v with active := v.active.take i ++ rest ++ v.active.drop (i + 1), current := v.current - n }
  | _, _ => .panic

/-- `Validate::delete`, validate.rs 241-270. -/
def Validator.delete (v : Validator) (tags : Rng) : Out Validator :=
  match find tags v.active 0 with
  | .back => .err
  | .before _ => .err
  | .inside i =>
    match v.active[i]? with
    | none => .panic
    | some r => if r.within tags then v.removed tags i r else .err

/-- `Stage`, runbook.rs 246-272. A ground truth path is a string of characters. -/
inductive Stage where
  | search (gt : List Char)
  | insert (offsetsAndIds : Rng)
  | replace (offsets ids : Rng)
  | delete (ids : Rng)
deriving DecidableEq, Repr

/-- The operations of `streaming::Stream<Args>`, api.rs 30-57: `needs_maintenance`, `maintain`, and one operation per stage.
An operation that fails ends the run, so its effect on the stream is not modelled. -/
structure Stream (σ ω : Type) where
  needs : σ → Bool
  maintain : σ → Out (σ × ω)
  search : σ → List Char → Out (σ × ω)
  insert : σ → Rng → Rng → Out (σ × ω)
  replace : σ → Rng → Rng → Out (σ × ω)
  delete : σ → Rng → Out (σ × ω)

variable {σ ω : Type}

/-- One stage, runbook.rs 209-235. -/
def Stream.stage (S : Stream σ ω) (s : σ) : Stage → Out (σ × ω)
  | .search gt => S.search s gt
  | .insert r => S.insert s r r
  | .replace o i => S.replace s o i
  | .delete i => S.delete s i

/-- The state in which a run ended, if it did not fail. -/
abbrev RunEnd (σ ω : Type) := List ω × Out σ

/-- The stage after the maintenance, with the outputs of both, runbook.rs 209-238. -/
def Stream.perform (S : Stream σ ω) (outs : List ω) (s : σ) (g : Stage) (k : σ → RunEnd σ ω) : RunEnd σ ω :=
  match S.stage s g with
  | .ok (s, o) => let r := k s; (outs ++ o :: r.1, r.2)
  | .err => (outs, .err)
  | .panic => (outs, .panic)

/-- `run_with_internal`, runbook.rs 188-243: the outputs passed to `collect`, which does not fail. -/
def Stream.run (S : Stream σ ω) : σ → List Stage → RunEnd σ ω
  | s, [] => ([], .ok s)
  | s, g :: gs =>
    if S.needs s then
      match S.maintain s with
      | .ok (s, o) => S.perform [o] s g fun s => S.run s gs
      | .err => ([], .err)
      | .panic => ([], .panic)
    else S.perform [] s g fun s => S.run s gs

/-- Outputs of type unit. -/
def unitOut : Out Validator → Out (Validator × Unit)
  | .ok v => .ok (v, ())
  | .err => .err
  | .panic => .panic

/-- `impl Stream<Args> for Validate`, validate.rs 288-314. -/
def validate : Stream Validator Unit where
  needs _ := false
  maintain v := .ok (v, ())
  search v _ := .ok (v, ())
  insert v _ ids := unitOut (v.insert ids)
  replace v _ ids := unitOut (v.replace ids)
  delete v ids := unitOut (v.delete ids)

/-- `RunBook`, runbook.rs 22-30. -/
structure RunBook where
  stages : List Stage
  maxPoints : Nat
  maxTag : Option Nat
deriving DecidableEq, Repr

/-- `RunBook::new`, runbook.rs 142-156. -/
def RunBook.new (stages : List Stage) (maxPoints : Nat) : Out RunBook :=
  match (validate.run Validator.new stages).2 with
  | .ok v => .ok ⟨stages, max maxPoints v.maxActive, v.maxTag⟩
  | .err => .err
  | .panic => .panic

/-! ### The file -/

/-- `serde_yaml::Value`, as far as the parser looks at it. A number carries what `as_i64` returns. The keys of a mapping are
distinct; `serde_yaml` rejects duplicates. -/
inductive Yaml where
  | null
  | bool (b : Bool)
  | num (i : Option Int)
  | str (s : String)
  | seq
  | map (m : List (Yaml × Yaml))
  | tagged (v : Yaml)

/-- `Value::untag_ref`, used by the `as_…` methods of `serde_yaml`. -/
def Yaml.untag : Yaml → Yaml
  | .tagged v => v.untag
  | v => v

/-- `as usize` of an `i64`: two's complement. -/
def wrap64 (i : Int) : Nat := (i % 2 ^ 64).toNat

/-- `TryAs<usize>`, parsing.rs 227-231. -/
def Yaml.asUsize (v : Yaml) : Option Nat :=
  match v.untag with
  | .num (some i) => some (wrap64 i)
  | _ => none

/-- `TryAs<&str>`, parsing.rs 233-237. -/
def Yaml.asStr (v : Yaml) : Option String :=
  match v.untag with
  | .str s => some s
  | _ => none

/-- `TryAs<&Mapping>`, parsing.rs 239-243. -/
def Yaml.asMap (v : Yaml) : Option (List (Yaml × Yaml)) :=
  match v.untag with
  | .map m => some m
  | _ => none

/-- A key is this string. -/
def Yaml.isKey (k : Yaml) (s : String) : Bool :=
  match k with
  | .str t => t == s
  | _ => false

/-- `Mapping::get` with a string. -/
def lookup (m : List (Yaml × Yaml)) (s : String) : Option Yaml := (m.find? fun kv => kv.1.isKey s).map (·.2)

/-- `get_as::<usize>`, parsing.rs 251-268. -/
def getUsize (m : List (Yaml × Yaml)) (s : String) : Option Nat := (lookup m s).bind Yaml.asUsize

/-- `get_as::<&str>`, parsing.rs 251-268. -/
def getStr (m : List (Yaml × Yaml)) (s : String) : Option String := (lookup m s).bind Yaml.asStr

/-- The range between two fields, refused when it is empty, parsing.rs 303-323, 340-351, 368-379. -/
def getRange (m : List (Yaml × Yaml)) (a b : String) : Option Rng :=
  match getUsize m a, getUsize m b with
  | some a, some b => if a ≥ b then none else some ⟨a, b⟩
  | _, _ => none

/-- `Operation`, parsing.rs 163-168. -/
inductive Operation where
  | search
  | insert (r : Rng)
  | replace (ids tags : Rng)
  | delete (r : Rng)
deriving DecidableEq, Repr

/-- Both ranges of a replacement, parsing.rs 298-327. -/
def getReplace (m : List (Yaml × Yaml)) : Option Operation :=
  match getRange m "ids_start" "ids_end", getRange m "tags_start" "tags_end" with
  | some i, some t => some (.replace i t)
  | _, _ => none

/-- The operation of this name, parsing.rs 142-148, with `Kind::try_parse`, parsing.rs 278-288. -/
def parseOp (m : List (Yaml × Yaml)) (s : String) : Option Operation :=
  if s = "search" then some .search
  else if s = "insert" then (getRange m "start" "end").map .insert
  else if s = "replace" then getReplace m
  else if s = "delete" then (getRange m "start" "end").map .delete
  else none

/-- `handle_stage`, parsing.rs 137-151. -/
def handleStage (v : Yaml) : Option Operation := v.asMap.bind fun m => (getStr m "operation").bind (parseOp m)

/-- `Raw`, parsing.rs 153-161; the stages as index and operation. -/
structure Raw where
  maxPoints : Option Nat
  stages : List (Nat × Operation)
deriving DecidableEq, Repr

/-- One entry of the dataset's mapping, parsing.rs 103-127. -/
def parseEntry (raw : Raw) (kv : Yaml × Yaml) : Option Raw :=
  match kv.1 with
  | .str s =>
    if s = "max_pts" then kv.2.asUsize.map fun p => { raw with maxPoints := some p }
    else if s = "gt_url" then some raw
    else none
  | .num (some i) => (handleStage kv.2).map fun op => { raw with stages := raw.stages ++ [(wrap64 i, op)] }
  | _ => none

/-- The loop of `parse_stages`, parsing.rs 103-127. -/
def parseEntries : Raw → List (Yaml × Yaml) → Option Raw
  | raw, [] => some raw
  | raw, kv :: rest => (parseEntry raw kv).bind fun raw => parseEntries raw rest

/-- A stage of the runbook from a parsed one, parsing.rs 64-85. -/
def toStage (gt : Nat → Option (List Char)) : Nat × Operation → Option Stage
  | (i, .search) => (gt i).map .search
  | (_, .insert r) => some (.insert r)
  | (_, .replace i t) => some (.replace i t)
  | (_, .delete r) => some (.delete r)

/-- Collecting results. -/
def collect {α β : Type} (f : α → Option β) : List α → Option (List β)
  | [] => some []
  | a :: as =>
    match f a, collect f as with
    | some b, some bs => some (b :: bs)
    | _, _ => none

/-- `sort_by_key` of the stages by their index, parsing.rs 52: stable. -/
def sortStages (l : List (Nat × Operation)) : List (Nat × Operation) := l.insertionSort fun a b => a.1 ≤ b.1

/-- `load_mapping`, parsing.rs 21-91. The resolution of ground truth files is a function of the stage index. -/
def load (file : List (Yaml × Yaml)) (dataset : String) (gt : Nat → Option (List Char)) : Out RunBook :=
  match (lookup file dataset).bind Yaml.asMap with
  | none => .err
  | some m =>
    match parseEntries ⟨none, []⟩ m with
    | none => .err
    | some raw =>
      match raw.maxPoints with
      | none => .err
      | some p =>
        match collect (toStage gt) (sortStages raw.stages) with
        | none => .err
        | some stages => RunBook.new stages p

/-! ### Ground truth files -/

open Verif.Record (dec)

/-- `ScanDirectory::groundtruth_filename`, runbook.rs 400-402. -/
def groundtruthName (stage : Nat) (suffix : List Char) : List Char := "step".toList ++ dec stage ++ '.' :: suffix

/-- `char::is_ascii_digit`. -/
def isDigit (c : Char) : Bool := decide (48 ≤ c.toNat ∧ c.toNat ≤ 57)

/-- A file name starts with the prefix of the stage and goes on with digits, runbook.rs 442-446. -/
def matchesStage (stage : Nat) (file : List Char) : Bool :=
  (groundtruthName stage "gt".toList).isPrefixOf file &&
    (file.drop (groundtruthName stage "gt".toList).length).all isDigit

/-- `ScanDirectory::find_groundtruth`, runbook.rs 419-467, over the names of the files in the directory. -/
def findGroundtruth (files : List (List Char)) (stage : Nat) : Option (List Char) :=
  match files.filter (matchesStage stage) with
  | [f] => some f
  | _ => none

end Verif.Runbook
