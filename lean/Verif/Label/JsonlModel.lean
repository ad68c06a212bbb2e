/-!
# Reading JSONL files of labels, queries and ground truth

Source: /repo/diskann-label-filter/src/utils/jsonl_reader.rs 63-199, and `BufRead::lines` of the standard library.

A file is its bytes. `serde_json::from_str` and `parse_query_filter` (see `Verif.Label.QueryModel`) are parameters, as is what
bytes are UTF-8; opening and reading the file succeed. The texts of errors are not modelled, only which line or query they
name. -/

namespace Verif.Label.Jsonl

/-- The errors, 70-80, 101-111, 133-162, 186-196: a line that is not UTF-8; a line that is not the JSON expected, with the number
in the message; for ground truth no line, or the first line; the filter of a query. -/
inductive Err (E F : Type)
  | io
  | line (number : Nat) (e : E)
  | empty
  | metadata (e : E)
  | result (number : Nat) (e : E)
  | filter (id : Nat) (e : F)
deriving DecidableEq, Repr

/-- The bytes up to and including each newline. -/
def rawLines : List Nat → List (List Nat)
  | [] => []
  | b :: bs =>
    if b = 10 then [10] :: rawLines bs
    else
      match rawLines bs with
      | [] => [[b]]
      | l :: ls => (b :: l) :: ls

/-- The end of a line is removed: a newline, and a carriage return before it. -/
def strip (l : List Nat) : List Nat :=
  if l.getLast? = some 10 then
    if l.dropLast.getLast? = some 13 then l.dropLast.dropLast else l.dropLast
  else l

/-- `BufRead::lines`, before the check of UTF-8. -/
def lines (file : List Nat) : List (List Nat) := (rawLines file).map strip

section

variable {α E F : Type} (utf8 : List Nat → Bool) (parse : List Nat → Except E α)

/-- The loop over the lines, 69-81, 100-112, 150-162; `err` makes the error of a line from its position and the parser's. -/
def readLoop (err : Nat → E → Err E F) : Nat → List (List Nat) → Except (Err E F) (List α)
  | _, [] => .ok []
  | k, l :: ls =>
    if utf8 l = false then .error .io
    else
      match parse l with
      | .error e => .error (err (k + 1) e)
      | .ok a =>
        match readLoop err (k + 1) ls with
        | .error e => .error e
        | .ok as => .ok (a :: as)

/-- `read_baselabels`, 63-84, and `read_queries`, 98-115. -/
def readAll (file : List Nat) : Except (Err E F) (List α) := readLoop utf8 parse .line 0 (lines file)

/-- `read_ground_truth`, 129-165. -/
def readGroundTruth {μ : Type} (parseMeta : List Nat → Except E μ) (file : List Nat) : Except (Err E F) (μ × List α) :=
  match lines file with
  | [] => .error .empty
  | first :: rest =>
    if utf8 first = false then .error .io
    else
      match parseMeta first with
      | .error e => .error (.metadata e)
      | .ok m =>
        match readLoop utf8 parse .result 0 rest with
        | .error e => .error e
        | .ok rs => .ok (m, rs)

/-- The loop over the queries, 185-197. -/
def parseLoop {φ ξ : Type} (parseFilter : φ → Except F ξ) : List (Nat × φ) → Except (Err E F) (List (Nat × ξ))
  | [] => .ok []
  | (id, f) :: rest =>
    match parseFilter f with
    | .error e => .error (.filter id e)
    | .ok x =>
      match parseLoop parseFilter rest with
      | .error e => .error e
      | .ok xs => .ok ((id, x) :: xs)

/-- `read_and_parse_queries`, 178-199. -/
def readAndParse {φ ξ : Type} (parse : List Nat → Except E (Nat × φ)) (parseFilter : φ → Except F ξ) (file : List Nat) :
    Except (Err E F) (List (Nat × ξ)) :=
  match readAll (F := F) utf8 parse file with
  | .error e => .error e
  | .ok queries => parseLoop parseFilter queries

end

end Verif.Label.Jsonl
