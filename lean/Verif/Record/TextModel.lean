/-
Model of the textual parts of the record crate: decimal formatting, version stamps and artifact names.

Sources: /repo/diskann-record/src/version.rs, /repo/diskann-record/src/backend/disk.rs 110-153, 278-291,
/repo/diskann-record/src/backend/memory.rs 50-92.  Strings are lists of characters.  `Path::components` is
modelled for Unix separators.
-/
namespace Verif.Record

abbrev Str := List Char

/-- The character of a decimal digit. -/
def digitChar (d : Nat) : Char := Char.ofNat (48 + d)

/-- The value of a decimal digit character. -/
def digitVal (c : Char) : Option Nat := if 48 ≤ c.toNat ∧ c.toNat ≤ 57 then some (c.toNat - 48) else none

/-- `{}` for an unsigned integer. -/
def dec (n : Nat) : Str := if h : n < 10 then [digitChar n] else dec (n / 10) ++ [digitChar (n % 10)]
termination_by n
decreasing_by omega

/-- `{:03}` for an unsigned integer. -/
def dec3 (n : Nat) : Str := List.replicate (3 - (dec n).length) '0' ++ dec n

/-- The digit loop of `u32::from_str_radix`: overflow and a non-digit are errors. -/
def parseDigits : Nat → Str → Option Nat
  | acc, [] => some acc
  | acc, c :: cs =>
    match digitVal c with
    | none => none
    | some d => if acc * 10 + d < 4294967296 then parseDigits (acc * 10 + d) cs else none

/-- `str::parse::<u32>` (version.rs 51, 52): an optional `+`, then at least one digit. -/
def parseU32 : Str → Option Nat
  | [] => none
  | c :: cs => if c = '+' then (if cs = [] then none else parseDigits 0 cs) else parseDigits 0 (c :: cs)

/-- `str::split` on one character; never empty. -/
def splitOn (sep : Char) : Str → List Str
  | [] => [[]]
  | c :: cs =>
    match splitOn sep cs with
    | [] => [[]]
    | x :: xs => if c = sep then [] :: x :: xs else (c :: x) :: xs

/-- `Version` (version.rs 28-31). -/
structure Version where
  major : Nat
  minor : Nat
deriving DecidableEq, Repr

/-- `Version::fmt` (version.rs 40-44). -/
def Version.display (v : Version) : Str := dec v.major ++ '.' :: dec v.minor

/-- `Version::from_str` (version.rs 49-57). -/
def Version.parse (s : Str) : Option Version :=
  match splitOn '.' s with
  | [a, b] =>
    match parseU32 a, parseU32 b with
    | some x, some y => some ⟨x, y⟩
    | _, _ => none
  | _ => none

/-- `std::path::Component` (Unix). -/
inductive Comp
  | root
  | cur
  | parent
  | normal (s : Str)
deriving DecidableEq, Repr

/-- One path segment as a component; empty segments and `.` vanish. -/
def segComp (s : Str) : Option Comp :=
  if s = [] then none
  else if s = ['.'] then none
  else if s = ['.', '.'] then some .parent
  else some (.normal s)

/-- `Path::components`: a leading `/` is the root, a leading `.` of a relative path is kept. -/
def components (p : Str) : List Comp :=
  match p, splitOn '/' p with
  | '/' :: _, segs => .root :: segs.filterMap segComp
  | _, ['.'] :: segs => .cur :: segs.filterMap segComp
  | _, segs => segs.filterMap segComp

/-- The single normal component of a path, if that is all it has (disk.rs 115-119, 279-282; memory.rs
55-59). -/
def single (p : Str) : Option Str :=
  match components p with
  | [.normal f] => some f
  | _ => none

/-- The artifact name for the `count`-th artifact (disk.rs 115-131, memory.rs 55-71): an unusable hint is
ignored. -/
def artName (count : Nat) (key : Option Str) : Str :=
  match key.filter (fun k => (single k).isSome) with
  | some k => dec3 count ++ '-' :: k
  | none => dec3 count

/-- One `SaveContext::write` (disk.rs 110-153, memory.rs 50-92): the name is refused if registered already;
`created` says whether the file creation succeeded (always, in memory).  The registered names are kept in
order of registration. -/
def writeName (files : List Str) (key : Option Str) (created : Bool) : Option (List Str) :=
  let name := artName files.length key
  if name ∈ files then none
  else some (if created then files ++ [name] else files)

/-- A sequence of writes; `none` if one is refused because of a name collision. -/
def writeNames : List Str → List (Option Str × Bool) → Option (List Str)
  | files, [] => some files
  | files, (key, created) :: rest =>
    match writeName files key created with
    | none => none
    | some files' => writeNames files' rest

end Verif.Record
