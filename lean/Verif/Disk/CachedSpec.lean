import Verif.Disk.CachedModel
/-
What an unbuffered client would see: reading from / writing to the file directly.
-/
namespace Verif.Disk

/-- Unbuffered reading: `at` is how many bytes the client has consumed.  A read of `n` bytes returns
the next `n` bytes of the file, or fails and consumes nothing if fewer than `n` are left. -/
def specReads (file : List Byte) : Nat → List Nat → List ReadRes
  | _, [] => []
  | p, n :: ns =>
    if p + n ≤ file.length then .ok ((file.drop p).take n) :: specReads file (p + n) ns
    else .err :: specReads file p ns

/-- Unbuffered writing: a file and a position; `write` overwrites from the position on (extending the
file when it runs past its end), `reset` seeks to the start, `flush` does nothing. -/
def specWrites : List Byte × Nat → List WOp → List Byte × Nat
  | s, [] => s
  | (f, p), .write bs :: ops =>
    specWrites (f.take p ++ bs ++ f.drop (p + bs.length), p + bs.length) ops
  | s, .flush :: ops => specWrites s ops
  | (f, _), .reset :: ops => specWrites (f, 0) ops

/-- All the bytes handed to `write`, in order. -/
def written : List WOp → List Byte
  | [] => []
  | .write bs :: ops => bs ++ written ops
  | _ :: ops => written ops

end Verif.Disk
