/-!
# The spans of a disk index benchmark as a tree

Source: /repo/diskann-benchmark/src/disk_index/json_spancollector.rs 20-95 (`JsonSpanCollector`).

Ids of spans are numbers; zero is the id of no span. Times are numbers in one unit. A value of JSON is of an arbitrary type `V`,
with `duration` for the number made of a duration; the conversion of attribute values is a parameter, so `attributes` has the
converted values. A metrics object is the list of its entries in the order of their first insertion. The recursion of
`build_span_tree` gets fuel: `none` is a recursion that has not ended. The collected spans are behind a lock, so the batches are
in the order of the calls of `export`. -/

namespace Verif.Bench.Span

/-- `SpanData`, as far as it is used. -/
structure Span (V : Type) where
  id : Nat
  parent : Nat
  name : String
  start : Nat
  stop : Nat
  attributes : List (String × V)
deriving DecidableEq, Repr

/-- The object of a span, 54-83: its name, its metrics and its children; without children the key is left out. -/
inductive Tree (V : Type)
  | node (name : String) (metrics : List (String × V)) (children : List (Tree V))

section

variable {V : Type}

/-- `serde_json::Map::insert`: the value of a key that is there is replaced. -/
def insert (key : String) (value : V) : List (String × V) → List (String × V)
  | [] => [(key, value)]
  | (k, v) :: rest => if k = key then (k, value) :: rest else (k, v) :: insert key value rest

/-- The loop over the attributes, 64-66. -/
def insertAll : List (String × V) → List (String × V) → List (String × V)
  | [], m => m
  | (k, v) :: rest, m => insertAll rest (insert k v m)

/-- The metrics of a span, 55-66; `duration_since` fails if the end is before the start, and then the duration is zero. -/
def metrics (duration : Nat → V) (s : Span V) : List (String × V) :=
  insertAll s.attributes (insert "duration_seconds" (duration (s.stop - s.start)) [])

/-- The entry of `children_map`, 34-40: the spans with this parent, in their order. -/
def childrenOf (spans : List (Span V)) (parent : Nat) : List (Span V) := spans.filter (fun s => s.parent = parent)

/-- The loops over children, 73-76, and over roots, 46-48. -/
def collect (build : Span V → Option (Tree V)) : List (Span V) → Option (List (Tree V))
  | [] => some []
  | s :: rest =>
    match build s with
    | none => none
    | some t =>
      match collect build rest with
      | none => none
      | some ts => some (t :: ts)

/-- `build_span_tree`, 54-83. -/
def build (duration : Nat → V) (spans : List (Span V)) : Nat → Span V → Option (Tree V)
  | 0, _ => none
  | fuel + 1, s =>
    match collect (build duration spans fuel) (childrenOf spans s.id) with
    | none => none
    | some cs => some (.node s.name (metrics duration s) cs)

/-- `to_hierarchical_json`, 31-51. -/
def toJson (duration : Nat → V) (fuel : Nat) (spans : List (Span V)) : Option (List (Tree V)) :=
  collect (build duration spans fuel) (childrenOf spans 0)

/-- `export`, 86-89: the spans collected afterwards. -/
def export' (spans batch : List (Span V)) : List (Span V) := spans ++ batch

/-- Several batches, one after the other, from an empty collector, 25-29. -/
def exportAll : List (List (Span V)) → List (Span V) → List (Span V)
  | [], spans => spans
  | b :: bs, spans => exportAll bs (export' spans b)

end

end Verif.Bench.Span
