import Verif.Label.KeySpec
import Verif.Record.NumberModel
/-
Model of JSON labels, filter expressions, the filter parser and the direct evaluator.

Sources: /repo/diskann-label-filter/src/parser/{ast,query_parser,evaluator}.rs, and of `serde_json` the number
representation, `as_f64`, `==` and `Map` iteration (a map is the list of its entries in key order, the default of
`serde_json`; keys are distinct).
-/
namespace Verif.Label

/-- `serde_json::Number`: a non-negative integer below `2^64`, a negative `i64`, or a finite double (its bits). -/
inductive JNum
  | pos (n : Nat)
  | neg (n : Int)
  | flt (bits : Nat)
deriving DecidableEq, Repr

/-- `serde_json::Value`. -/
inductive Json
  | null
  | bool (b : Bool)
  | num (n : JNum)
  | str (s : Bytes)
  | arr (xs : List Json)
  | obj (kvs : List (Bytes × Json))

/-- `n as f64` as bits, for `n` below `2^64`: nearest, ties to even. -/
def f64OfNat (n : Nat) : Nat :=
  if n = 0 then 0
  else
    let r := Record.roundNat 53 n
    let e := r.log2
    (e + 1023) * 4503599627370496
      + ((if e ≤ 52 then r * 2 ^ (52 - e) else r / 2 ^ (e - 52)) - 4503599627370496)

/-- `Number::as_f64`, as bits. -/
def JNum.asF64 : JNum → Nat
  | .pos n => f64OfNat n
  | .neg n => 9223372036854775808 + f64OfNat n.natAbs
  | .flt b => b

/-- `Value::as_f64`, as bits. -/
def Json.asF64 : Json → Option Nat
  | .num n => some n.asF64
  | _ => none

/-- `f64` comparisons `a < b` and `a <= b` on bits. -/
def fNaNb (b : Nat) : Bool := fExp b == 2047 && fFrac b != 0
def fLt (a b : Nat) : Bool := !fNaNb a && !fNaNb b && decide (fVal a < fVal b)
def fLe (a b : Nat) : Bool := !fNaNb a && !fNaNb b && decide (fVal a ≤ fVal b)

/-- `==` on numbers: variants differ, doubles compare by value. -/
def JNum.eq : JNum → JNum → Bool
  | .pos a, .pos b => a == b
  | .neg a, .neg b => a == b
  | .flt a, .flt b => decide (fVal a = fVal b)
  | _, _ => false

mutual
/-- `==` on `serde_json::Value`. -/
def jeq : Json → Json → Bool
  | .null, .null => true
  | .bool a, .bool b => a == b
  | .num a, .num b => a.eq b
  | .str a, .str b => a == b
  | .arr xs, .arr ys => jeqList xs ys
  | .obj xs, .obj ys => jeqEntries xs ys
  | _, _ => false
def jeqList : List Json → List Json → Bool
  | [], [] => true
  | x :: xs, y :: ys => jeq x y && jeqList xs ys
  | _, _ => false
def jeqEntries : List (Bytes × Json) → List (Bytes × Json) → Bool
  | [], [] => true
  | (k, x) :: xs, (l, y) :: ys => k == l && jeq x y && jeqEntries xs ys
  | _, _ => false
end

/-- `CompareOp` (ast.rs 25-38); the bound of a range operator is a double (its bits). -/
inductive CmpOp
  | eq (v : Json)
  | ne (v : Json)
  | lt (b : Nat)
  | lte (b : Nat)
  | gt (b : Nat)
  | gte (b : Nat)

/-- `ASTExpr` (ast.rs 12-21). -/
inductive Expr
  | and (es : List Expr)
  | or (es : List Expr)
  | not (e : Expr)
  | cmp (field : Bytes) (op : CmpOp)

/-- `str::split` on one byte; never empty. -/
def splitByte (sep : Nat) : Bytes → List Bytes
  | [] => [[]]
  | c :: cs =>
    if c = sep then [] :: splitByte sep cs
    else
      match splitByte sep cs with
      | [] => [[c]]
      | x :: xs => (c :: x) :: xs

/-- `Map::get`. -/
def objGet (kvs : List (Bytes × Json)) (k : Bytes) : Option Json :=
  (kvs.find? (fun p => p.1 == k)).map (·.2)

/-- The loop of `get_value_by_path` (query_parser.rs 53-60). -/
def getPath : Json → List Bytes → Option Json
  | v, [] => some v
  | .obj kvs, k :: ks =>
    match objGet kvs k with
    | some v => getPath v ks
    | none => none
  | _, _ :: _ => none

/-- `get_value_by_path` (query_parser.rs 51-62): the path is split at `.`. -/
def getByPath (v : Json) (path : Bytes) : Option Json := getPath v (splitByte 46 path)

/-- The comparison of `eval_query_expr` on a field that was found (evaluator.rs 22-53). -/
def evalOp (v : Json) : CmpOp → Bool
  | .eq w => jeq v w
  | .ne w => !jeq v w
  | .lt n => match v.asF64 with | some f => fLt f n | none => false
  | .lte n => match v.asF64 with | some f => fLe f n | none => false
  | .gt n => match v.asF64 with | some f => fLt n f | none => false
  | .gte n => match v.asF64 with | some f => fLe n f | none => false

/-- The `Compare` arm of `eval_query_expr` (evaluator.rs 20-57): a missing field is `false` for every operator. -/
def evalCmp (label : Json) (field : Bytes) (op : CmpOp) : Bool :=
  match getByPath label field with
  | some v => evalOp v op
  | none => false

mutual
/-- `eval_query_expr` (evaluator.rs 15-59). -/
def evalExpr (label : Json) : Expr → Bool
  | .and es => evalAll label es
  | .or es => evalAny label es
  | .not e => !evalExpr label e
  | .cmp f op => evalCmp label f op
def evalAll (label : Json) : List Expr → Bool
  | [] => true
  | e :: es => evalExpr label e && evalAll label es
def evalAny (label : Json) : List Expr → Bool
  | [] => false
  | e :: es => evalExpr label e || evalAny label es
end

/-- `QueryFilterError` (query_parser.rs 15-26), without the messages. -/
inductive PErr
  | tooDeep
  | logicalOp
  | compareOp
  | valueType
  | failure
deriving DecidableEq, Repr

/-- A loop that applies a fallible function to every element, in order. -/
def mapRes {α β ε : Type} (f : α → Except ε β) : List α → Except ε (List β)
  | [] => .ok []
  | x :: xs =>
    match f x with
    | .error e => .error e
    | .ok y =>
      match mapRes f xs with
      | .error e => .error e
      | .ok ys => .ok (y :: ys)

/-- A range operator needs a number (query_parser.rs 132-171). -/
def numOp (c : Nat → CmpOp) (val : Json) : Except PErr CmpOp :=
  match val.asF64 with
  | some n => .ok (c n)
  | none => .error .valueType

/-- One `operator: value` pair (query_parser.rs 129-178). -/
def parseOp (op : Bytes) (val : Json) : Except PErr CmpOp :=
  if op = lit "$eq" then .ok (.eq val)
  else if op = lit "$ne" then .ok (.ne val)
  else if op = lit "$lt" then numOp .lt val
  else if op = lit "$lte" then numOp .lte val
  else if op = lit "$gt" then numOp .gt val
  else if op = lit "$gte" then numOp .gte val
  else .error .compareOp

/-- The conditions of one field (query_parser.rs 127-184); a condition that is not an object adds nothing. -/
def parseField (field : Bytes) : Json → Except PErr (List Expr)
  | .obj ops => mapRes (fun p => (parseOp p.1 p.2).map (Expr.cmp field)) ops
  | _ => .ok []

/-- `Value::as_array` of an optional value. -/
def asArr : Option Json → Option (List Json)
  | some (.arr xs) => some xs
  | _ => none

/-- The fields of an object read as an implicit conjunction (query_parser.rs 119-196). -/
def parseFields (kvs : List (Bytes × Json)) : Except PErr Expr :=
  if kvs.any (fun p => p.1.head? == some 36) then .error .logicalOp
  else
    match mapRes (fun p => parseField p.1 p.2) kvs with
    | .error e => .error e
    | .ok subs =>
      match subs.flatten with
      | [] => .error .failure
      | [e] => .ok e
      | es => .ok (.and es)

/-- A parsed `$and` or `$or` array (query_parser.rs 85-95, 99-109). -/
def combine (c : List Expr → Expr) : Except PErr (List Expr) → Except PErr Expr
  | .error e => .error e
  | .ok [] => .error .failure
  | .ok es => .ok (c es)

/-- `parse_query_filter_with_depth` (query_parser.rs 72-202); the argument is the number of levels left, `3 - depth`,
so that zero is `depth > ALLOWED_DEPTH_LIMIT`. -/
def parseD : Nat → Json → Except PErr Expr
  | 0, _ => .error .tooDeep
  | left + 1, .obj kvs =>
    match asArr (objGet kvs (lit "$and")) with
    | some xs => combine .and (mapRes (parseD left) xs)
    | none =>
      match asArr (objGet kvs (lit "$or")) with
      | some xs => combine .or (mapRes (parseD left) xs)
      | none =>
        match objGet kvs (lit "$not") with
        | some sub => (parseD left sub).map .not
        | none => parseFields kvs
  | _ + 1, _ => .error .failure

/-- `parse_query_filter` (query_parser.rs 67-69). -/
def parseFilter (filter : Json) : Except PErr Expr := parseD 3 filter

end Verif.Label
