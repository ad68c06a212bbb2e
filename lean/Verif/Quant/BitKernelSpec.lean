import Verif.Quant.BitKernelModel

/-! # What a distance between two integer vectors is (specification for C75)

Vectors are plain lists of integers. -/

namespace Verif.Quant

/-- Squared Euclidean distance. -/
def sqDistZ (x y : List Int) : Int := ((x.zip y).map (fun (p : Int × Int) => (p.1 - p.2) * (p.1 - p.2))).sum

/-- Inner product. -/
def dotZ (x y : List Int) : Int := ((x.zip y).map (fun (p : Int × Int) => p.1 * p.2)).sum

/-- Hamming distance: the number of places where the vectors differ. -/
def hammingZ (x y : List Int) : Int := ((x.zip y).filter (fun (p : Int × Int) => p.1 ≠ p.2)).length

/-- Inner product of a float vector and an integer vector. -/
def dotQ (x : List Rat) (y : List Int) : Rat := ((x.zip y).map (fun (p : Rat × Int) => p.1 * (p.2 : Rat))).sum

/-- A 32-bit result carries the value `v`: it is `v` reduced to 32 bits (so it is `v` when `v` fits). -/
def Carries (r : Option (Except LenError (BitVec 32))) (v : Int) : Prop :=
  ∃ w, r = some (.ok w) ∧ (w.toNat : Int) = v % 2 ^ 32

end Verif.Quant
