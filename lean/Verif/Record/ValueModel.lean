import Verif.Record.NumberModel
import Verif.Record.TextModel
/-
Model of manifest values and their wire form.

Sources: /repo/diskann-record/src/value.rs, /repo/diskann-record/src/number.rs 31-106,
/repo/diskann-record/src/save/mod.rs 130-210, /repo/diskann-record/src/load/mod.rs 150-260.
The JSON text layer (`serde_json`) is not modelled: a value is mapped to a tree of JSON tokens and back.
Number tokens: an integer literal is handed to the visitor as `u64` when non-negative and as `i64` otherwise, a
float literal as `f64`.
-/
namespace Verif.Record

/-- `Value` (value.rs 45-53).  A record is a list of entries in some iteration order of the hash map. -/
inductive Value
  | null
  | bool (b : Bool)
  | num (n : Num)
  | str (s : Str)
  | arr (vs : List Value)
  | obj (fields : List (Str × Value)) (version : Version)
  | handle (name : Str)

/-- A JSON document. -/
inductive Json
  | null
  | bool (b : Bool)
  | int (n : Int)
  | flt (v : Flt)
  | str (s : Str)
  | arr (vs : List Json)
  | obj (fields : List (Str × Json))

def kNan : Str := ['n', 'a', 'n']
def kInf : Str := ['i', 'n', 'f']
def kNegInf : Str := ['n', 'e', 'g', '_', 'i', 'n', 'f']
def kVersion : Str := ['$', 'v', 'e', 'r', 's', 'i', 'o', 'n']
def kHandle : Str := ['$', 'h', 'a', 'n', 'd', 'l', 'e']

/-- `Number::sentinel` (number.rs 38-45). -/
def Num.sentinel : Num → Option Str
  | .f64 .nan => some kNan
  | .f64 (.inf false) => some kInf
  | .f64 (.inf true) => some kNegInf
  | _ => none

/-- `Number::from_sentinel` (number.rs 49-56). -/
def fromSentinel (s : Str) : Option Num :=
  if s = kNan then some (.f64 .nan)
  else if s = kInf then some (.f64 (.inf false))
  else if s = kNegInf then some (.f64 (.inf true))
  else none

/-- `Number::serialize` (number.rs 60-71). -/
def Num.toJson (n : Num) : Json :=
  match n.sentinel with
  | some s => .str s
  | none =>
    match n with
    | .u64 v => .int v
    | .i64 v => .int v
    | .f64 v => .flt v

mutual
/-- `Value::serialize` (value.rs 56-68, 342-349, 392-398). -/
def Value.toJson : Value → Json
  | .null => .null
  | .bool b => .bool b
  | .num n => n.toJson
  | .str s => .str s
  | .arr vs => .arr (toJsons vs)
  | .obj fields version => .obj (toJsonFields fields ++ [(kVersion, .str version.display)])
  | .handle name => .obj [(kHandle, .str name)]

def toJsons : List Value → List Json
  | [] => []
  | v :: vs => v.toJson :: toJsons vs

def toJsonFields : List (Str × Value) → List (Str × Json)
  | [] => []
  | (k, v) :: fs => (k, v.toJson) :: toJsonFields fs
end

/-- `HashMap::insert` on a list of entries: replaces an entry with the same key. -/
def insertField {α : Type} (fs : List (Str × α)) (k : Str) (v : α) : List (Str × α) :=
  match fs with
  | [] => [(k, v)]
  | (k', v') :: rest => if k' = k then (k, v) :: rest else (k', v') :: insertField rest k v

/-- What the map visitor has collected so far (value.rs 146-148). -/
structure Acc where
  version : Option Version := none
  handle : Option Str := none
  fields : List (Str × Value) := []

/-- The end of the map visitor (value.rs 165-181). -/
def Acc.finish (a : Acc) : Option Value :=
  match a.handle with
  | some name => if a.version.isSome || !a.fields.isEmpty then none else some (.handle name)
  | none =>
    match a.version with
    | some v => some (.obj a.fields v)
    | none => none

mutual
/-- `Value::deserialize` (value.rs 71-187); `none` is a deserialization error. -/
def Json.toValue : Json → Option Value
  | .null => some .null
  | .bool b => some (.bool b)
  | .int n => some (.num (if 0 ≤ n then .u64 n.toNat else .i64 n))
  | .flt v => some (.num (.f64 v))
  | .str s =>
    match fromSentinel s with
    | some n => some (.num n)
    | none => some (.str s)
  | .arr vs => (toValues vs).map .arr
  | .obj fs => (toAcc {} fs).bind Acc.finish

/-- `visit_seq` (value.rs 130-139). -/
def toValues : List Json → Option (List Value)
  | [] => some []
  | j :: js =>
    match j.toValue, toValues js with
    | some v, some vs => some (v :: vs)
    | _, _ => none

/-- The loop of `visit_map` (value.rs 150-163). -/
def toAcc (a : Acc) : List (Str × Json) → Option Acc
  | [] => some a
  | (k, j) :: fs =>
    if k = kVersion then
      match j with
      | .str s =>
        match Version.parse s with
        | some v => toAcc { a with version := some v } fs
        | none => none
      | _ => none
    else if k = kHandle then
      match j with
      | .str s => toAcc { a with handle := some s } fs
      | _ => none
    else
      match j.toValue with
      | some v => toAcc { a with fields := insertField a.fields k v } fs
      | none => none
end

mutual
/-- `Value::into_owned` (value.rs 203-215, 300-308, 364-369): the in-memory save path. -/
def Value.intoOwned : Value → Value
  | .null => .null
  | .bool b => .bool b
  | .num n => .num n
  | .str s => .str s
  | .arr vs => .arr (intoOwneds vs)
  | .obj fs v => .obj (intoOwnedFields fs) v
  | .handle h => .handle h

def intoOwneds : List Value → List Value
  | [] => []
  | v :: vs => v.intoOwned :: intoOwneds vs

def intoOwnedFields : List (Str × Value) → List (Str × Value)
  | [] => []
  | (k, v) :: fs => (k, v.intoOwned) :: intoOwnedFields fs
end

/-! Typed values -/

/-- The types with built-in `Saveable`/`Loadable` impls that need no user code, as a universe of codes:
numbers, `bool`, `String`, `Vec<T>`, `Option<T>` (save/mod.rs, load/mod.rs). -/
inductive Ty
  | bool
  | int (lo hi : Int)
  | f64
  | string
  | vec (t : Ty)
  | option (t : Ty)

/-- The Rust values of a type. -/
def Ty.Val : Ty → Type
  | .bool => Bool
  | .int _ _ => Int
  | .f64 => Flt
  | .string => Str
  | .vec t => List t.Val
  | .option t => Option t.Val

/-- `Saveable::save` (save/mod.rs 142-232): unsigned types are stored as `U64`, signed ones as `I64`. -/
def Ty.save : (t : Ty) → t.Val → Value
  | .bool, b => .bool b
  | .int lo _, n => .num (if 0 ≤ lo then .u64 (show Int from n).toNat else .i64 n)
  | .f64, v => .num (.f64 v)
  | .string, s => .str s
  | .vec t, vs => .arr (List.map (Ty.save t) vs)
  | .option t, o =>
    match (show Option t.Val from o) with
    | none => .null
    | some x => Ty.save t x

/-- All elements, or an error if one fails. -/
def allSome {α : Type} : List (Option α) → Option (List α)
  | [] => some []
  | none :: _ => none
  | some x :: xs => (allSome xs).map (x :: ·)

/-- The `as_*` accessors of a load context (load/context.rs). -/
def Value.asBool : Value → Option Bool
  | .bool b => some b
  | _ => none

def Value.asNumber : Value → Option Num
  | .num n => some n
  | _ => none

def Value.asStr : Value → Option Str
  | .str s => some s
  | _ => none

def Value.asArray : Value → Option (List Value)
  | .arr vs => some vs
  | _ => none

def Value.isNull : Value → Bool
  | .null => true
  | _ => false

/-- `Loadable::load` (load/mod.rs 174-249); `none` is an error. -/
def Ty.load : (t : Ty) → Value → Option t.Val
  | .bool, v => v.asBool
  | .int lo hi, v => v.asNumber.bind (fun n => n.asInt lo hi)
  | .f64, v => v.asNumber.bind Num.asF64
  | .string, v => v.asStr
  | .vec t, v => v.asArray.bind (fun vs => allSome (vs.map (Ty.load t)))
  | .option t, v => if v.isNull then some (none : Option t.Val) else (Ty.load t v).map some

end Verif.Record
