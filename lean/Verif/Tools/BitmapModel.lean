import Verif.Label.IndexModel
/-
Model of the label bitmaps of the ground truth tools: for each query filter, the set of the documents whose labels
satisfy it, computed from one accelerator per label.

Source: /repo/diskann-tools/src/utils/compute_bitmap.rs.  A `HashMap` is the list of its entries with distinct keys; a
`BitSet` is the list of its members, in any order and possibly with repetitions, so that only membership has a meaning.
`rayon` collects results in order and stops at an error; which of several errors is returned is not modelled.  The
messages of errors are left out.
-/
namespace Verif.Tools

open Verif.Label

mutual
/-- `flatten_recursive` (flatten_utils.rs 143-171) with the separator `.` of `FlattenConfig::dot_notation` (41-47);
`pre` is the string on the stack.  `none` is the panic on a value that is not an attribute (line 165). -/
def flattenD (pre : Bytes) : Json → Option Attrs
  | .obj kvs => flattenDEntries pre kvs
  | .arr xs => flattenDItems pre 0 xs
  | .null => none
  | .bool b => some [(pre, .bool b)]
  | .num n => (tryFrom (.num n)).map (fun a => [(pre, a)])
  | .str s => some [(pre, .str s)]
def flattenDEntries (pre : Bytes) : List (Bytes × Json) → Option Attrs
  | [] => some []
  | (k, v) :: rest =>
    match flattenD (pre ++ 46 :: k) v with
    | none => none
    | some as =>
      match flattenDEntries pre rest with
      | none => none
      | some bs => some (as ++ bs)
def flattenDItems (pre : Bytes) (i : Nat) : List Json → Option Attrs
  | [] => some []
  | v :: rest =>
    match flattenD (pre ++ 46 :: decBytes i) v with
    | none => none
    | some as =>
      match flattenDItems pre (i + 1) rest with
      | none => none
      | some bs => some (as ++ bs)
end

/-- `HashMap::get` on attributes. -/
def aget (m : Attrs) (k : Bytes) : Option AttrVal := (m.find? (fun p => p.1 == k)).map (·.2)

/-- `HashMap::insert` on attributes. -/
def aset (m : Attrs) (k : Bytes) (v : AttrVal) : Attrs := (k, v) :: m.filter (fun p => p.1 != k)

/-- The loop that makes the map of one document (compute_bitmap.rs 409-421): a repeated key is an error. -/
def docLoop : Attrs → Attrs → Option Attrs
  | m, [] => some m
  | m, (k, v) :: rest =>
    match aget m k with
    | some _ => none
    | none => docLoop (aset m k v) rest

/-- `discriminant(a) == discriminant(b)`. -/
def sameKind : AttrVal → AttrVal → Bool
  | .empty, .empty => true
  | .bool _, .bool _ => true
  | .int _, .int _ => true
  | .real _, .real _ => true
  | .str _, .str _ => true
  | _, _ => false

/-- The inner loop of `compute_global_label_set` (compute_bitmap.rs 355-362). -/
def globalDoc : Attrs → Attrs → Option Attrs
  | g, [] => some g
  | g, (k, v) :: rest =>
    match aget g k with
    | some e => if sameKind e v then globalDoc (aset g k v) rest else none
    | none => globalDoc (aset g k v) rest

/-- `compute_global_label_set` (compute_bitmap.rs 350-365). -/
def globalLoop : Attrs → List Attrs → Option Attrs
  | g, [] => some g
  | g, m :: rest =>
    match globalDoc g m with
    | none => none
    | some g' => globalLoop g' rest

/-- The two accelerators (compute_bitmap.rs 70-72, 114-116).  The keys of the second are doubles (their bits), equal
when their values are equal; its order is left out, because a range is collected into a set. -/
inductive Accel
  | inverted (m : List (AttrVal × List Nat))
  | btree (m : List (Nat × List Nat))

/-- `OrderedFloat` equality and comparisons (compute_bitmap.rs 34, 47-59), on doubles that are not `NaN`. -/
def ofEq (a b : Nat) : Bool := decide (fVal a = fVal b)

/-- `map.entry(k).or_default()` followed by `insert` or `push`. -/
def push {κ : Type} (eq : κ → κ → Bool) (k : κ) (id : Nat) : List (κ × List Nat) → List (κ × List Nat)
  | [] => [(k, [id])]
  | (l, ids) :: rest => if eq l k then (l, ids ++ [id]) :: rest else (l, ids) :: push eq k id rest

/-- `map.get(k)`, the empty set if there is none. -/
def idsOf {κ : Type} (eq : κ → κ → Bool) (k : κ) (m : List (κ × List Nat)) : List Nat :=
  match m.find? (fun p => eq p.1 k) with
  | some p => p.2
  | none => []

/-- The ids of the entries whose key passes a test. -/
def idsWhere {κ : Type} (t : κ → Bool) (m : List (κ × List Nat)) : List Nat :=
  (m.filter (fun p => t p.1)).flatMap (·.2)

/-- `universe` of both accelerators (compute_bitmap.rs 79-85, 123-129). -/
def Accel.universe : Accel → List Nat
  | .inverted m => idsWhere (fun _ => true) m
  | .btree m => idsWhere (fun _ => true) m

/-- `OrderedFloat::new` (compute_bitmap.rs 37-43). -/
def ofNew (b : Nat) : Option Nat := if fNaNb b then none else some b

/-- `InvertedIndexAccelerator::eval` (compute_bitmap.rs 87-111). -/
def evalInverted (m : List (AttrVal × List Nat)) : CmpOp → Option (List Nat)
  | .eq v => (tryFrom v).map (fun a => idsOf (fun x y => decide (x = y)) a m)
  | .ne v => (tryFrom v).map (fun a => idsWhere (fun x => decide (x ≠ a)) m)
  | _ => none

/-- `BTreeAccelerator::eval` (compute_bitmap.rs 131-190). -/
def evalBtree (m : List (Nat × List Nat)) : CmpOp → Option (List Nat)
  | .eq v => (v.asF64.bind ofNew).map (fun f => idsOf ofEq f m)
  | .ne v => (v.asF64.bind ofNew).map (fun f => idsWhere (fun x => !ofEq x f) m)
  | .lt b => (ofNew b).map (fun f => idsWhere (fun x => decide (fVal x < fVal f)) m)
  | .lte b => (ofNew b).map (fun f => idsWhere (fun x => decide (fVal x ≤ fVal f)) m)
  | .gt b => (ofNew b).map (fun f => idsWhere (fun x => decide (fVal f < fVal x)) m)
  | .gte b => (ofNew b).map (fun f => idsWhere (fun x => decide (fVal f ≤ fVal x)) m)

/-- `QueryAccelerator::eval`. -/
def Accel.eval : Accel → CmpOp → Option (List Nat)
  | .inverted m, op => evalInverted m op
  | .btree m, op => evalBtree m op

/-- `prepend_separator` (compute_bitmap.rs 194-201). -/
def prepend (field : Bytes) : Bytes := if field.head? = some 46 then field else 46 :: field

mutual
/-- `compute_label_set` (compute_bitmap.rs 204-211). -/
def labelSet : Expr → List Bytes
  | .not e => labelSet e
  | .and es => labelSets es
  | .or es => labelSets es
  | .cmp f _ => [f]
def labelSets : List Expr → List Bytes
  | [] => []
  | e :: es => labelSet e ++ labelSets es
end

abbrev Accels := List (Bytes × Accel)

/-- `query_accelerators.get(label)`. -/
def accelOf (accs : Accels) (k : Bytes) : Option Accel := (accs.find? (fun p => p.1 == k)).map (·.2)

/-- `BitSet::intersection`, `difference`; `union` is `++`. -/
def inter (a b : List Nat) : List Nat := a.filter (fun i => b.contains i)
def diff (a b : List Nat) : List Nat := a.filter (fun i => !b.contains i)

/-- The loop of `compute_universe` (compute_bitmap.rs 229-233): a label without an accelerator is skipped. -/
def universeLoop (accs : Accels) : List Nat → List Bytes → List Nat
  | u, [] => u
  | u, l :: ls =>
    match accelOf accs l with
    | some a => universeLoop accs (inter u a.universe) ls
    | none => universeLoop accs u ls

/-- `compute_universe` (compute_bitmap.rs 214-235). -/
def computeUniverse (accs : Accels) : List Bytes → List Nat
  | [] => []
  | l :: ls =>
    universeLoop accs (match accelOf accs l with | some a => a.universe | none => []) ls

/-- The accumulator of `And` (compute_bitmap.rs 249-257). -/
def interAll : List (List Nat) → List Nat
  | [] => []
  | b :: bs => bs.foldl inter b

mutual
/-- `eval_query_using_accelerators` (compute_bitmap.rs 243-298). -/
def evalAcc (accs : Accels) : Expr → Option (List Nat)
  | .and es => (evalAccs accs es).map interAll
  | .or es => (evalAccs accs es).map List.flatten
  | .not e =>
    (evalAcc accs e).map (fun s => diff (computeUniverse accs ((labelSet e).map prepend)) s)
  | .cmp f op =>
    match accelOf accs (prepend f) with
    | some a => a.eval op
    | none => some []
def evalAccs (accs : Accels) : List Expr → Option (List (List Nat))
  | [] => some []
  | e :: es =>
    match evalAcc accs e with
    | none => none
    | some b =>
      match evalAccs accs es with
      | none => none
      | some bs => some (b :: bs)
end

/-- The loop of `compute_inverted_index_accelerator` (compute_bitmap.rs 300-315) over the documents. -/
def invertedLoop (key : Bytes) : List (AttrVal × List Nat) → List (Nat × Attrs) → List (AttrVal × List Nat)
  | m, [] => m
  | m, (id, doc) :: rest =>
    match aget doc key with
    | some v => invertedLoop key (push (fun x y => decide (x = y)) v id m) rest
    | none => invertedLoop key m rest

/-- `n as f64` of an `i64`, as bits. -/
def i64AsF64 (n : Int) : Nat := if 0 ≤ n then f64OfNat n.toNat else 9223372036854775808 + f64OfNat n.natAbs

/-- The double an attribute is filed under (compute_bitmap.rs 327-344); `none` is an error. -/
def btreeKey : AttrVal → Option Nat
  | .real b => ofNew b
  | .int n => if f64ToI64 (i64AsF64 n) ≠ n then none else ofNew (i64AsF64 n)
  | _ => none

/-- The loop of `compute_btree_accelerator` (compute_bitmap.rs 317-348) over the documents. -/
def btreeLoop (key : Bytes) : List (Nat × List Nat) → List (Nat × Attrs) → Option (List (Nat × List Nat))
  | m, [] => some m
  | m, (id, doc) :: rest =>
    match aget doc key with
    | some v =>
      match btreeKey v with
      | some f => btreeLoop key (push ofEq f id m) rest
      | none => none
    | none => btreeLoop key m rest

/-- `compute_query_accelerator` (compute_bitmap.rs 367-384). -/
def makeAccel (docs : List (Nat × Attrs)) (key : Bytes) : AttrVal → Option Accel
  | .str _ => some (.inverted (invertedLoop key [] docs))
  | .bool _ => some (.inverted (invertedLoop key [] docs))
  | .int _ => (btreeLoop key [] docs).map .btree
  | .real _ => (btreeLoop key [] docs).map .btree
  | .empty => none

/-- All the accelerators (compute_bitmap.rs 433-439). -/
def makeAccels (docs : List (Nat × Attrs)) : Attrs → Option Accels
  | [] => some []
  | (k, v) :: rest =>
    match makeAccel docs k v with
    | none => none
    | some a =>
      match makeAccels docs rest with
      | none => none
      | some as => some ((k, a) :: as)

/-- Flattening all the documents (compute_bitmap.rs 396-401); `none` is a panic. -/
def flattenAll : List (Nat × Json) → Option (List (Nat × Attrs))
  | [] => some []
  | (id, label) :: rest =>
    match flattenD [] label with
    | none => none
    | some as =>
      match flattenAll rest with
      | none => none
      | some r => some ((id, as) :: r)

/-- The maps of all the documents (compute_bitmap.rs 403-424). -/
def docMaps : List (Nat × Attrs) → Option (List (Nat × Attrs))
  | [] => some []
  | (id, as) :: rest =>
    match docLoop [] as with
    | none => none
    | some m =>
      match docMaps rest with
      | none => none
      | some r => some ((id, m) :: r)

/-- `compute_query_bitmaps` (compute_bitmap.rs 386-452): documents are their id and label, queries their id and filter;
the ids of the queries are not used.  An error is `err`. -/
def computeBitmaps (docs : List (Nat × Json)) (queries : List (Nat × Expr)) : Res (List (List Nat)) :=
  match flattenAll docs with
  | none => .panic
  | some flat =>
    match docMaps flat with
    | none => .err
    | some maps =>
      match globalLoop [] (maps.map (·.2)) with
      | none => .err
      | some g =>
        match makeAccels maps g with
        | none => .err
        | some accs =>
          match evalAccs accs (queries.map (·.2)) with
          | none => .err
          | some bms => .ok bms

end Verif.Tools
