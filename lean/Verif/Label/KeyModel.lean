/-
Model of the attribute keys and key lists of the inverted label index.

Sources: /repo/diskann-label-filter/src/traits/key_codec.rs, /repo/diskann-label-filter/src/attribute.rs,
/repo/diskann-label-filter/src/kv_index/generic_index.rs 108-187.  A string is the list of its UTF-8 bytes.
-/
namespace Verif.Label

/-- A byte string; bytes are natural numbers. -/
abbrev Bytes := List Nat

/-- The bytes of an ASCII string literal. -/
def lit (s : String) : Bytes := s.toList.map Char.toNat

/-- `AttributeValue` (attribute.rs 29-35).  A `Real` is its 64 bits, an `Integer` is in the `i64` range. -/
inductive AttrVal
  | empty
  | bool (b : Bool)
  | int (n : Int)
  | real (bits : Nat)
  | str (s : Bytes)
deriving DecidableEq, Repr

/-- Values the Rust type can hold. -/
def AttrVal.valid : AttrVal → Prop
  | .int n => -9223372036854775808 ≤ n ∧ n < 9223372036854775808
  | .real b => b < 18446744073709551616
  | .str s => ∀ c ∈ s, c < 256
  | _ => True

/-- `encode_i64` (key_codec.rs 70-72): the two's complement bits with the sign bit flipped. -/
def encI64 (n : Int) : Nat := (n % 18446744073709551616).toNat ^^^ 9223372036854775808

/-- `encode_f64` (key_codec.rs 78-85); `!bits` on 64 bits is `2^64 - 1 - bits`. -/
def encF64 (bits : Nat) : Nat :=
  if bits >>> 63 = 0 then bits ^^^ 9223372036854775808 else 18446744073709551615 - bits

/-- One lowercase hexadecimal digit. -/
def hexDigit (d : Nat) : Nat := if d < 10 then 48 + d else 87 + d

/-- The last `k` hexadecimal digits of a number, most significant first: `{:0k x}` of a number below `16^k`. -/
def hexN : Nat → Nat → Bytes
  | 0, _ => []
  | k + 1, n => hexN k (n / 16) ++ [hexDigit (n % 16)]

/-- `FIELD_SEPARATOR` (key_codec.rs 49). -/
def sepByte : Nat := 0

/-- `TYPE_PREFIX_*` (key_codec.rs 43-46). -/
def prefI : Nat := 73
def prefF : Nat := 70
def prefS : Nat := 83
def prefB : Nat := 66

/-- `encode_field_value_key` (key_codec.rs 140-151) with the `format_*_value` helpers (90-130). -/
def encKey (field : Bytes) : AttrVal → Bytes
  | .int n => field ++ sepByte :: prefI :: hexN 16 (encI64 n)
  | .real b => field ++ sepByte :: prefF :: hexN 16 (encF64 b)
  | .str s => field ++ sepByte :: prefS :: s
  | .bool b => field ++ sepByte :: prefB :: [if b then 49 else 48]
  | .empty => field ++ sepByte :: prefS :: []

/-- Decimal digits of a number (`{}`), as bytes. -/
def decBytes (n : Nat) : Bytes := if n < 10 then [48 + n] else decBytes (n / 10) ++ [48 + n % 10]
termination_by n
decreasing_by omega

/-- `reverse_key` (generic_index.rs 111-113): `@R:{doc_id}`. -/
def revKey (doc : Nat) : Bytes := 64 :: 82 :: 58 :: decBytes doc

/-- `u32::to_le_bytes` of `n as u32`. -/
def le32 (n : Nat) : Bytes :=
  [n % 256, n / 256 % 256, n / 65536 % 256, n / 16777216 % 256]

/-- `u32::from_le_bytes`. -/
def ofLe32 : Bytes → Nat
  | [a, b, c, d] => a + b * 256 + c * 65536 + d * 16777216
  | _ => 0

/-- One entry of a serialized key list. -/
def serKey (k : Bytes) : Bytes := le32 k.length ++ k

/-- `serialize_key_list` (generic_index.rs 116-135).  The overflow check on the total size is left out: it
fails only for a total above the address space. -/
def serKeys (keys : List Bytes) : Bytes := le32 keys.length ++ (keys.map serKey).flatten

/-- Outcome of code that can fail or read out of bounds. -/
inductive Res (α : Type)
  | ok (a : α)
  | err
  | panic
deriving DecidableEq, Repr

/-- `&bytes[a..b]`: panics when out of bounds. -/
def slice (bytes : Bytes) (a b : Nat) : Res Bytes :=
  if a ≤ b ∧ b ≤ bytes.length then .ok ((bytes.drop a).take (b - a)) else .panic

/-- The loop of `deserialize_key_list` (generic_index.rs 154-185): `count` keys are still to be read at `pos`. -/
def deserLoop (bytes : Bytes) : Nat → Nat → List Bytes → Res (List Bytes)
  | 0, _, acc => .ok acc
  | count + 1, pos, acc =>
    if pos + 4 > bytes.length then .err
    else
      match slice bytes pos (pos + 4) with
      | .panic => .panic
      | .err => .err
      | .ok lb =>
        let len := ofLe32 lb
        if pos + 4 + len > bytes.length then .err
        else
          match slice bytes (pos + 4) (pos + 4 + len) with
          | .panic => .panic
          | .err => .err
          | .ok k => deserLoop bytes count (pos + 4 + len) (acc ++ [k])

/-- `deserialize_key_list` (generic_index.rs 138-187).  The allocation for `count` keys (line 152) is not
modelled. -/
def deserKeys (bytes : Bytes) : Res (List Bytes) :=
  if bytes.length < 4 then .err
  else
    match slice bytes 0 4 with
    | .panic => .panic
    | .err => .err
    | .ok cb => deserLoop bytes (ofLe32 cb) 4 []

end Verif.Label
