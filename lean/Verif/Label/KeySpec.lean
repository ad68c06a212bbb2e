import Verif.Label.KeyModel
/-
Specification vocabulary for attribute keys: the numeric value of a double, byte order and the field/value pairs
the codec separates.
-/
namespace Verif.Label

/-- The exponent field of a double. -/
def fExp (b : Nat) : Nat := b / 4503599627370496 % 2048

/-- The fraction field of a double. -/
def fFrac (b : Nat) : Nat := b % 4503599627370496

/-- Neither a number nor an infinity. -/
def fNaN (b : Nat) : Prop := fExp b = 2047 ∧ fFrac b ≠ 0

/-- IEEE 754 magnitude of a double, times `2^1074`: an integer.  An infinity is `2^52 * 2^2046`, above every finite
double. -/
def fMag (b : Nat) : Nat :=
  if fExp b = 0 then fFrac b else (4503599627370496 + fFrac b) * 2 ^ (fExp b - 1)

/-- The value of a double that is not NaN, times `2^1074`. -/
def fVal (b : Nat) : Int := if b < 9223372036854775808 then (fMag b : Int) else -(fMag b : Int)

/-- The bits of `-0.0`. -/
def negZero : Nat := 9223372036854775808

/-- A range of keys, start included and end excluded, as scanned by the index. -/
def InRange (lo hi k : Bytes) : Prop := lo ≤ k ∧ k < hi

/-- The range of all integer keys of a field (generic_index.rs 245-263). -/
def intSpace (field k : Bytes) : Prop :=
  InRange (field ++ [0, 73]) (field ++ [0, 73, 244, 143, 191, 191]) k

/-- The range of all float keys of a field (generic_index.rs 298-312). -/
def floatSpace (field k : Bytes) : Prop :=
  InRange (field ++ [0, 70]) (field ++ [0, 70, 244, 143, 191, 191]) k

end Verif.Label
