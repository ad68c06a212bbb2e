import Verif.Quant.AffineSpec
import Verif.Quant.MinMaxModel

/-! # Specification for C74: what a MinMax compressed vector stands for -/

namespace Verif.Quant.MinMax

open Verif.Quant.Affine

/-- The values a compressed vector stands for: code `c` stands for `a * c + b`. -/
def recon (d : Data) : List Rat := d.codes.map (fun (c : Nat) => d.a * (c : Rat) + d.b)

/-- The precomputed values stored with a compressed vector are those of the vector it stands
for, and the codes have `n` bits. -/
structure Faithful (n : Nat) (d : Data) : Prop where
  codes : ∀ c ∈ d.codes, c ≤ 2 ^ n - 1
  dim : d.dim = d.codes.length
  sum : d.n = d.a * (d.codes.map (fun (c : Nat) => (c : Rat))).sum
  norm : d.normSq = sqNorm (recon d)

/-- The arithmetic mean. -/
def mean (v : List Rat) : Rat := v.sum / v.length

/-- `lo` and `hi` are the smallest and the largest component of `v`. -/
def Extremes (v : List Rat) (lo hi : Rat) : Prop :=
  lo ∈ v ∧ hi ∈ v ∧ ∀ x ∈ v, lo ≤ x ∧ x ≤ hi

end Verif.Quant.MinMax
