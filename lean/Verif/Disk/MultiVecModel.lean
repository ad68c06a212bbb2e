import Verif.Disk.VectorFileModel

/-!
# Files with several vectors for every point

Source: /repo/diskann-providers/src/utils/file_util.rs 30-101 (`load_multivec_bin`).

A vector is the list of its bytes; `sz` is the size of an element.  Memory is not modelled: allocation succeeds.  The sum of
the lengths does not wrap (fewer than 2^32 numbers below 2^32).
-/

namespace Verif.Disk.MultiVec

open Verif.Disk

/-- The errors, 50-66, 74, 80-87, 93. -/
inductive Err
  | eof
  | zeroLength
  | sum (got expected : Nat)
deriving DecidableEq, Repr

/-- `read_exact`: the bytes and the rest. -/
def readExact (k : Nat) (bs : List Byte) : Except Err (List Byte × List Byte) :=
  if k ≤ bs.length then .ok (bs.take k, bs.drop k) else .error .eof

/-- `u32::from_le_bytes` of the next four bytes, 50-59. -/
def readU32 (bs : List Byte) : Except Err (Nat × List Byte) :=
  match readExact 4 bs with
  | .error e => .error e
  | .ok (w, rest) => .ok (leDecode w, rest)

/-- The lengths in their bytes, 64-72. -/
def lengths (bs : List Byte) (n : Nat) : List Nat := (cutRows 4 n bs).map leDecode

/-- The loop over the points, 91-98. -/
def readPoints (w : Nat) : List Nat → List Byte → Except Err (List (List Row))
  | [], _ => .ok []
  | l :: ls, bs =>
    match readExact (l * w) bs with
    | .error e => .error e
    | .ok (block, rest) =>
      match readPoints w ls rest with
      | .error e => .error e
      | .ok ps => .ok (cutRows w l block :: ps)

/-- `load_multivec_bin`, 42-101: the points, their number, the dimension and the number of vectors. -/
def load (sz : Nat) (file : List Byte) : Except Err (List (List Row) × Nat × Nat × Nat) :=
  match readU32 file with
  | .error e => .error e
  | .ok (n, r1) =>
    match readU32 r1 with
    | .error e => .error e
    | .ok (dim, r2) =>
      match readU32 r2 with
      | .error e => .error e
      | .ok (total, r3) =>
        match readExact (n * 4) r3 with
        | .error e => .error e
        | .ok (lens, r4) =>
          let ls := lengths lens n
          if ls.any (· == 0) then .error .zeroLength
          else if ls.sum ≠ total then .error (.sum ls.sum total)
          else
            match readPoints (dim * sz) ls r4 with
            | .error e => .error e
            | .ok ps => .ok (ps, n, dim, total)

end Verif.Disk.MultiVec
