import Verif.Spherical.Model

/-! # What spherical quantization is supposed to do -/

namespace Verif.Spherical

open Verif.Rotate (inner distSq)

section

variable {K : Type} [Field K]

/-- The vector that codes of `b` bits stand for: `correction * (code - (2 ^ b - 1) / 2)` in each component. -/
def recon (b : Nat) (d : Data K) : List K := d.codes.map (fun c : Nat => d.info.correction * ((c : K) - (2 ^ b - 1) / 2))

/-- The vector a query with scale `correction` and offset `off` stands for. -/
def reconQuery (x : Query K) (off : K) : List K := x.codes.map (fun c : Nat => x.correction * ((c : K) + off))

/-- The vector a full-precision query stands for. -/
def reconFull (x : Full K) : List K := x.data.map (fun a => x.shiftedNorm * a)

/-- The distance belonging to an inner product `ip` of centered vectors, metric specific terms `mx` and `my` and a center
of squared norm `cc`. -/
def estimate (m : Metric) (cc mx my ip : K) : K :=
  match m with
  | .squaredL2 => mx + my - 2 * ip
  | .innerProduct => -(mx + my + ip + cc)
  | .cosine => 1 - (mx + my + ip + cc)

/-- The distance between two vectors under a metric: squared Euclidean distance and inner product of the vectors times the
pre-scale `p`, and one minus the cosine. -/
def trueDistance (norm : List K → K) (m : Metric) (p : K) (x y : List K) : K :=
  match m with
  | .squaredL2 => p * p * distSq x y
  | .innerProduct => -(p * p * inner x y)
  | .cosine => 1 - inner x y / (norm x * norm y)

/-- How much an error of the inner product counts. -/
def weight : Metric → K
  | .squaredL2 => 2
  | _ => 1

/-- The transform is an isometry into vectors of the output dimension (C83). -/
def Isometric (q : Quantizer K) : Prop :=
  ∀ u v : List K, u.length = q.shift.length → v.length = q.shift.length →
    (q.transform u).length = q.outDim ∧ inner (q.transform u) (q.transform v) = inner u v

/-- The transform has outputs of its output dimension. -/
def Sized (q : Quantizer K) : Prop := ∀ u : List K, u.length = q.shift.length → (q.transform u).length = q.outDim

/-- A conversion that rounds nothing. -/
def Exact (f16 : K → Option K) : Prop := ∀ c y, f16 c = some y → y = c

/-- A vector of the lattice the codes of `b` bits stand for: each component is `c - (2 ^ b - 1) / 2` for a code `c`. -/
def IsLattice (b : Nat) (d : List K) : Prop := ∀ z ∈ d, ∃ c : Nat, c < 2 ^ b ∧ z = (c : K) - (2 ^ b - 1) / 2

/-- The vector of the lattice that codes stand for. -/
def lattice (b : Nat) (codes : List Nat) : List K := codes.map (fun c : Nat => (c : K) - (2 ^ b - 1) / 2)

variable [LinearOrder K]

/-- `norm` is the Euclidean norm at `x`. -/
def IsNorm (norm : List K → K) (x : List K) : Prop := 0 ≤ norm x ∧ norm x * norm x = inner x x

/-- The transformed centered vector, at its own length: what a compressed vector stands for. -/
def image (norm : List K → K) (q : Quantizer K) (x : List K) : List K :=
  (transformed norm q x).map (fun t => norm (shifted norm q x) * t)

/-- `pick` names a position of a least critical value, as the root of the heap does (C48). -/
def PicksLeast (pick : Nat → List (Crit K) → Nat) : Prop :=
  ∀ n l, l ≠ [] → ∃ c, l[pick n l]? = some c ∧ ∀ d ∈ l, c.le d = true

end

end Verif.Spherical
