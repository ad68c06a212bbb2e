import Verif.Label.QueryModel
/-
Model of the inverted label index: flattening of labels, insertion and deletion of documents, query evaluation.

Sources: /repo/diskann-label-filter/src/attribute.rs 167-189, utils/flatten_utils.rs 134-215,
kv_index/{generic_index,inverted_index_provider_impl,query_evaluator_impl,posting_list_accessor_impl}.rs,
traits/posting_list_trait.rs 207-259.

The key-value store is a finite map that never fails (`KvStore`, kv_store_traits.rs); a posting list is the set of
its ids (`RoaringBitmap` and its serialization are trusted).  A key list read as a posting list is an error.
-/
namespace Verif.Label

/-- `AttributeValue::try_from(&Value)` (attribute.rs 171-188). -/
def tryFrom : Json → Option AttrVal
  | .bool b => some (.bool b)
  | .num (.pos n) => if n < 9223372036854775808 then some (.int n) else some (.real (JNum.asF64 (.pos n)))
  | .num (.neg n) => some (.int n)
  | .num (.flt b) => some (.real b)
  | .str s => some (.str s)
  | _ => none

abbrev Attrs := List (Bytes × AttrVal)

mutual
/-- `flatten_recursive` (flatten_utils.rs 143-171) with the separator `/`; `pre` is the string on the stack.  `none`
is the panic on a value that is not an attribute (line 165). -/
def flattenJ (pre : Bytes) : Json → Option Attrs
  | .obj kvs => flattenEntries pre kvs
  | .arr xs => flattenItems pre 0 xs
  | .null => none
  | .bool b => some [(pre, .bool b)]
  | .num n => (tryFrom (.num n)).map (fun a => [(pre, a)])
  | .str s => some [(pre, .str s)]
def flattenEntries (pre : Bytes) : List (Bytes × Json) → Option Attrs
  | [] => some []
  | (k, v) :: rest =>
    match flattenJ (pre ++ 47 :: k) v with
    | none => none
    | some as =>
      match flattenEntries pre rest with
      | none => none
      | some bs => some (as ++ bs)
def flattenItems (pre : Bytes) (i : Nat) : List Json → Option Attrs
  | [] => some []
  | v :: rest =>
    match flattenJ (pre ++ 47 :: decBytes i) v with
    | none => none
    | some as =>
      match flattenItems pre (i + 1) rest with
      | none => none
      | some bs => some (as ++ bs)
end

/-- Collecting pairs into a `HashMap`: the last value of a key wins.  The iteration order of the map is not
modelled here; the index theorems hold for every order of the pairs. -/
def toMap : Attrs → Attrs
  | [] => []
  | (k, v) :: rest => if (rest.map (·.1)).contains k then toMap rest else (k, v) :: toMap rest

/-- `flatten_json_pointers_map` (flatten_utils.rs 211-215). -/
def flattenMap (label : Json) : Option Attrs := (flattenJ [] label).map toMap

/-- What the store keeps under a key: a posting list, or the serialized key list of a document. -/
inductive Cell
  | pl (ids : List Nat)
  | rev (bytes : Bytes)
deriving DecidableEq, Repr

abbrev Store := List (Bytes × Cell)

/-- `KvStore::get`. -/
def sget (st : Store) (k : Bytes) : Option Cell := (st.find? (fun p => p.1 == k)).map (·.2)

/-- `KvStore::set`. -/
def sset (st : Store) (k : Bytes) (c : Cell) : Store := (k, c) :: st.filter (fun p => p.1 != k)

/-- `KvStore::del`. -/
def sdel (st : Store) (k : Bytes) : Store := st.filter (fun p => p.1 != k)

/-- `RoaringPostingList::insert` (posting_list_trait.rs 231-235): the id is truncated to 32 bits. -/
def plInsert (ids : List Nat) (doc : Nat) : List Nat :=
  if ids.contains (doc % 4294967296) then ids else doc % 4294967296 :: ids

/-- `RoaringPostingList::remove` (posting_list_trait.rs 236-238). -/
def plRemove (ids : List Nat) (doc : Nat) : List Nat := ids.filter (fun i => i != doc % 4294967296)

/-- `RoaringPostingList::union`, `intersect` (posting_list_trait.rs 239-248). -/
def plUnion (a b : List Nat) : List Nat := a ++ b.filter (fun i => !a.contains i)
def plInter (a b : List Nat) : List Nat := a.filter (fun i => b.contains i)

/-- `PL::deserialize` of a stored cell. -/
def asPl : Cell → Res (List Nat)
  | .pl ids => .ok ids
  | .rev _ => .err

/-- `get_or_empty_posting_list` (generic_index.rs 190-201). -/
def getOrEmpty (st : Store) (k : Bytes) : Res (List Nat) :=
  match sget st k with
  | some c => asPl c
  | none => .ok []

/-- The loop of `insert` over the attributes (inverted_index_provider_impl.rs 33-48). -/
def insertLoop (doc : Nat) : Store → List Bytes → Res Store
  | st, [] => .ok st
  | st, k :: ks =>
    match getOrEmpty st k with
    | .ok ids => insertLoop doc (sset st k (.pl (plInsert ids doc))) ks
    | .err => .err
    | .panic => .panic

/-- `insert` (inverted_index_provider_impl.rs 28-58). -/
def insertDoc (st : Store) (doc : Nat) (attrs : Attrs) : Res Store :=
  let keys := attrs.map (fun p => encKey p.1 p.2)
  match insertLoop doc st keys with
  | .ok st' => .ok (sset st' (revKey doc) (.rev (serKeys keys)))
  | .err => .err
  | .panic => .panic

/-- The loop of `delete` (inverted_index_provider_impl.rs 74-98). -/
def deleteLoop (doc : Nat) : Store → List Bytes → Res Store
  | st, [] => .ok st
  | st, k :: ks =>
    match sget st k with
    | none => deleteLoop doc st ks
    | some c =>
      match asPl c with
      | .ok ids =>
        if (plRemove ids doc).isEmpty then deleteLoop doc (sdel st k) ks
        else deleteLoop doc (sset st k (.pl (plRemove ids doc))) ks
      | .err => .err
      | .panic => .panic

/-- The last step of `delete` (inverted_index_provider_impl.rs 100-103). -/
def dropRev (doc : Nat) : Res Store → Res Store
  | .ok st => .ok (sdel st (revKey doc))
  | .err => .err
  | .panic => .panic

/-- `delete` after the key list was decoded (inverted_index_provider_impl.rs 73-105). -/
def deleteKeys (st : Store) (doc : Nat) : Res (List Bytes) → Res Store
  | .ok keys => dropRev doc (deleteLoop doc st keys)
  | .err => .err
  | .panic => .panic

/-- `delete` after the reverse mapping was read (inverted_index_provider_impl.rs 68-71).  A posting list read as a
key list is an error. -/
def deleteCell (st : Store) (doc : Nat) : Option Cell → Res Store
  | none => .ok st
  | some (.pl _) => .err
  | some (.rev bytes) => deleteKeys st doc (deserKeys bytes)

/-- `delete` (inverted_index_provider_impl.rs 60-106). -/
def deleteDoc (st : Store) (doc : Nat) : Res Store := deleteCell st doc (sget st (revKey doc))

/-- `update` (inverted_index_provider_impl.rs 108-112). -/
def updateDoc (st : Store) (doc : Nat) (attrs : Attrs) : Res Store :=
  match deleteDoc st doc with
  | .ok st' => insertDoc st' doc attrs
  | .err => .err
  | .panic => .panic

/-- `value as i64`: truncation towards zero, saturation, `NaN` to zero. -/
def f64ToI64 (b : Nat) : Int :=
  if fNaNb b then 0
  else max (-9223372036854775808) (min 9223372036854775807 ((fVal b).tdiv (2 ^ 1074)))

/-- `val + 1` on `i64`: overflow panics (debug build; a release build wraps). -/
def addOne (n : Int) : Res Int := if n = 9223372036854775807 then .panic else .ok (n + 1)

/-- `Number::from_f64(value).is_some()`: the value is finite. -/
def fFinite (b : Nat) : Bool := fExp b != 2047

/-- `get_integer_range_bounds` (generic_index.rs 225-269) for a range operator. -/
def intBounds (field : Bytes) : CmpOp → Res (Bytes × Bytes)
  | .gte b => .ok (encKey field (.int (f64ToI64 b)), field ++ [0, 73, 244, 143, 191, 191])
  | .gt b =>
    match addOne (f64ToI64 b) with
    | .ok n => .ok (encKey field (.int n), field ++ [0, 73, 244, 143, 191, 191])
    | .err => .err
    | .panic => .panic
  | .lte b =>
    match addOne (f64ToI64 b) with
    | .ok n => .ok (field ++ [0, 73], encKey field (.int n))
    | .err => .err
    | .panic => .panic
  | .lt b => .ok (field ++ [0, 73], encKey field (.int (f64ToI64 b)))
  | _ => .ok ([], [])

/-- `get_float_range_bounds` (generic_index.rs 283-320) for a range operator. -/
def floatBounds (field : Bytes) : CmpOp → Bytes × Bytes
  | .gte b | .gt b =>
    if fFinite b then (encKey field (.real b), field ++ [0, 70, 244, 143, 191, 191]) else ([], [])
  | .lte b | .lt b => if fFinite b then (field ++ [0, 70], encKey field (.real b)) else ([], [])
  | _ => ([], [])

/-- One range scan (query_evaluator_impl.rs 113-138, 142-167): the union of the posting lists of the keys from `lo`
up to `hi`, nothing when `lo` is empty. -/
def scan (lo hi : Bytes) : Store → List Nat → Res (List Nat)
  | [], acc => .ok acc
  | (k, c) :: rest, acc =>
    if lo ≤ k ∧ k < hi then
      match asPl c with
      | .ok ids => scan lo hi rest (plUnion acc ids)
      | .err => .err
      | .panic => .panic
    else scan lo hi rest acc

def scanRange (st : Store) (r : Bytes × Bytes) (acc : List Nat) : Res (List Nat) :=
  if r.1.isEmpty then .ok acc else scan r.1 r.2 st acc

/-- A range comparison (query_evaluator_impl.rs 103-170). -/
def evalRange (st : Store) (field : Bytes) (op : CmpOp) : Res (List Nat) :=
  match intBounds field op with
  | .ok r =>
    match scanRange st r [] with
    | .ok acc => scanRange st (floatBounds field op) acc
    | .err => .err
    | .panic => .panic
  | .err => .err
  | .panic => .panic

/-- A comparison (query_evaluator_impl.rs 78-171); `norm` is the field normalizer. -/
def evalIdxCmp (norm : Bytes → Bytes) (st : Store) (field : Bytes) : CmpOp → Res (List Nat)
  | .eq v =>
    match tryFrom v with
    | none => .err
    | some a => getOrEmpty st (encKey (norm field) a)
  | .ne _ => .err
  | op => evalRange st (norm field) op

mutual
/-- `evaluate_query` (query_evaluator_impl.rs 46-173). -/
def evalIdx (norm : Bytes → Bytes) (st : Store) : Expr → Res (List Nat)
  | .and [] => .ok []
  | .and (e :: es) =>
    match evalIdx norm st e with
    | .ok acc => evalIdxAnd norm st acc es
    | .err => .err
    | .panic => .panic
  | .or es => evalIdxOr norm st [] es
  | .not _ => .err
  | .cmp f op => evalIdxCmp norm st f op
def evalIdxAnd (norm : Bytes → Bytes) (st : Store) (acc : List Nat) : List Expr → Res (List Nat)
  | [] => .ok acc
  | e :: es =>
    match evalIdx norm st e with
    | .ok r =>
      if (plInter acc r).isEmpty then .ok (plInter acc r)
      else evalIdxAnd norm st (plInter acc r) es
    | .err => .err
    | .panic => .panic
def evalIdxOr (norm : Bytes → Bytes) (st : Store) (acc : List Nat) : List Expr → Res (List Nat)
  | [] => .ok acc
  | e :: es =>
    match evalIdx norm st e with
    | .ok r => evalIdxOr norm st (plUnion acc r) es
    | .err => .err
    | .panic => .panic
end

/-- The field normalizer of generic_index.rs 81 and diskann-benchmark/src/filters/benchmark.rs 241:
`format!("/{}", field.replace(".", "/"))`. -/
def pointerNorm (field : Bytes) : Bytes := 47 :: field.map (fun c => if c = 46 then 47 else c)

end Verif.Label
