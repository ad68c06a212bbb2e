import Verif.Garnet.ReportModel
/-
The format in which Garnet reads results, and what fits into its buffers.
-/
namespace Verif.Garnet.Report

/-- The number in four little endian bytes. -/
def readLe32 : List UInt8 → Nat
  | [a, b, c, d] => a.toNat + 256 * b.toNat + 65536 * c.toNat + 16777216 * d.toNat
  | _ => 0

/-- Read a number of ids, each preceded by its length in four bytes. -/
def decode : Nat → List UInt8 → Option (List (List UInt8))
  | 0, _ => some []
  | n + 1, l =>
    if l.length < 4 then none
    else
      let len := readLe32 (l.take 4)
      let rest := l.drop 4
      if rest.length < len then none
      else (decode n (rest.drop len)).map (rest.take len :: ·)

/-- The bytes that results take up. -/
def size {D : Type} : List (List UInt8 × D) → Nat
  | [] => 0
  | (id, _) :: rest => 4 + id.length + size rest

/-- Do results fit into buffers for `m` distances and `n` bytes of ids? -/
def Fits {D : Type} (m n : Nat) (rs : List (List UInt8 × D)) : Prop := rs.length ≤ m ∧ size rs ≤ n

/-- `out` holds exactly these results: the ids can be read back, and the distances are those of the results. -/
def Holds {D : Type} (b : Buf D) (rs : List (List UInt8 × D)) : Prop :=
  b.index = rs.length ∧ decode b.index b.ids = some (rs.map Prod.fst) ∧ b.dists.take b.index = rs.map Prod.snd

end Verif.Garnet.Report
