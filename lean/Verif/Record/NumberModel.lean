/-
Model of the manifest numbers of the record crate.

Source: /repo/diskann-record/src/number.rs
-/
namespace Verif.Record

/-- A floating point number.  A finite one is `± m * 2^e`; an `f64` has `m < 2^53`, an `f32` `m < 2^24`
(exponent limits are not modelled: no accessor depends on them for integers up to 64 bits). -/
inductive Flt
  | nan
  | inf (neg : Bool)
  | fin (neg : Bool) (m : Nat) (e : Int)
deriving DecidableEq, Repr

/-- Representable with `p` significant bits. -/
def Flt.prec (p : Nat) : Flt → Prop
  | .fin _ m _ => m < 2 ^ p
  | _ => True

/-- The signed significand. -/
def sig (neg : Bool) (m : Nat) : Int := if neg then -(m : Int) else m

/-- IEEE `==`. -/
def Flt.eq : Flt → Flt → Bool
  | .inf a, .inf b => a == b
  | .fin s m e, .fin s' m' e' =>
    sig s m * 2 ^ (e - min e e').toNat == sig s' m' * 2 ^ (e' - min e e').toNat
  | _, _ => false

/-- Number of binary digits. -/
def bitLen (n : Nat) : Nat := if n = 0 then 0 else n.log2 + 1

/-- Round a natural number to `p` significant bits, to nearest, ties to even (`as f64`, `as f32`). -/
def roundNat (p n : Nat) : Nat :=
  let k := bitLen n - p
  if k = 0 then n
  else
    let q := n / 2 ^ k
    let r := n % 2 ^ k
    let half := 2 ^ (k - 1)
    (if r > half ∨ (r = half ∧ q % 2 = 1) then q + 1 else q) * 2 ^ k

/-- `c as f64` / `c as f32` for an integer. -/
def intToFlt (p : Nat) (c : Int) : Flt := .fin (decide (c < 0)) (roundNat p c.natAbs) 0

/-- Truncation of `m * 2^e`. -/
def truncAbs (m : Nat) (e : Int) : Nat := if 0 ≤ e then m * 2 ^ e.toNat else m / 2 ^ (-e).toNat

/-- `v as T` for an integer type with range `lo..=hi`: truncating, saturating, `NaN` to zero. -/
def Flt.toInt (lo hi : Int) : Flt → Int
  | .nan => 0
  | .inf neg => if neg then lo else hi
  | .fin neg m e => max lo (min hi (sig neg (truncAbs m e)))

/-- `Number` (number.rs 25-29). -/
inductive Num
  | u64 (v : Nat)
  | i64 (v : Int)
  | f64 (v : Flt)
deriving DecidableEq, Repr

def u64Max : Int := 18446744073709551615
def i64Max : Int := 9223372036854775807
def i64Min : Int := -9223372036854775808

/-- The integer accessors `as_u8` ... `as_isize` (`int!` and `try_cast!`, number.rs 108-125) for a type with
range `lo..=hi`. -/
def Num.asInt (lo hi : Int) : Num → Option Int
  | .u64 v => if lo ≤ v ∧ (v : Int) ≤ hi then some v else none
  | .i64 v => if lo ≤ v ∧ v ≤ hi then some v else none
  | .f64 v =>
    let c := v.toInt lo hi
    if (intToFlt 53 c).eq v then some c else none

/-- The float accessors (`float!`, number.rs 127-140) for a type with `p` significant bits; `cast` is
`v as T` on floats. -/
def Num.asFlt (p : Nat) (cast : Flt → Flt) : Num → Option Flt
  | .u64 v =>
    let c := intToFlt p v
    if c.toInt 0 u64Max = v then some c else none
  | .i64 v =>
    let c := intToFlt p v
    if c.toInt i64Min i64Max = v then some c else none
  | .f64 .nan => some (cast .nan)
  | .f64 v =>
    let c := cast v
    if c.eq v then some c else none

/-- `as_f64`: the cast is the identity. -/
def Num.asF64 : Num → Option Flt := Num.asFlt 53 id

end Verif.Record
