/-
Model of the vectorized search of a value in a slice.

Source: /repo/diskann-vector/src/contains/x86_64.rs

A register is the list of its lanes.  Reading past the end of the slice, or dropping more elements than there are with
`get_unchecked`, is `none`; so is a loop that does not end.
-/
namespace Verif.Vec.Contains

variable {w : Nat}

/-- `_mm256_loadu_si256`, `_mm_loadu_si128`: `n` lanes from element `off` on. -/
def loadLanes (mem : List (BitVec w)) (off n : Nat) : Option (List (BitVec w)) :=
  if off + n ≤ mem.length then some ((mem.drop off).take n) else none

/-- `_mm256_set1_epi32` and the like: the same value in every lane. -/
def set1 (n : Nat) (t : BitVec w) : List (BitVec w) := List.replicate n t

/-- `_mm256_cmpeq_epi32` and the like: all ones in the lanes that are equal, zero elsewhere. -/
def cmpeq (a b : List (BitVec w)) : List (BitVec w) :=
  List.zipWith (fun x y => if x = y then BitVec.allOnes w else 0#w) a b

/-- `_mm256_movemask_ps` and the like: the highest bits of the lanes, the first lane in the lowest bit. -/
def movemask : List (BitVec w) → Nat
  | [] => 0
  | x :: l => x.msb.toNat + 2 * movemask l

/-- `compare_8_items_u32` (87-97), `compare_4_items_u32` (100-108), `compare_4_items_u64` (193-202),
`compare_2_items_u64` (204-212): one register of `n` lanes. -/
def compareReg (n : Nat) (mem : List (BitVec w)) (off : Nat) (lane : List (BitVec w)) : Option Bool :=
  (loadLanes mem off n).map fun block => movemask (cmpeq block lane) != 0

/-- `compare_16_items_u32` (77-84), `compare_32_items_u32` (67-74) and the same for `u64` (166-191): the first half, and
if nothing was found the second half, `half` elements further. -/
def compareTwo (half : Nat) (cmp : List (BitVec w) → Nat → List (BitVec w) → Option Bool) (mem : List (BitVec w))
    (off : Nat) (lane : List (BitVec w)) : Option Bool :=
  match cmp mem off lane with
  | none => none
  | some true => some true
  | some false => cmp mem (off + half) lane

/-- What is left to do: found, or the rest of the slice. -/
inductive Rest (w : Nat)
  | found
  | more (l : List (BitVec w))

/-- `get_unchecked(n..)`. -/
def dropUnchecked (n : Nat) (l : List (BitVec w)) : Option (List (BitVec w)) :=
  if n ≤ l.length then some (l.drop n) else none

/-- One `if remaining.len() >= n` (27-54, 126-156): compare `n` elements and go on behind them. -/
def stage (n : Nat) (cmp : List (BitVec w) → Nat → List (BitVec w) → Option Bool) (lane : List (BitVec w)) :
    Rest w → Option (Rest w)
  | .found => some .found
  | .more l =>
    if n ≤ l.length then
      match cmp l 0 lane with
      | none => none
      | some true => some .found
      | some false => (dropUnchecked n l).map .more
    else some (.more l)

/-- `while remaining.len() >= 32` (16-24, 117-124), with a bound on the rounds. -/
def loop32 (cmp : List (BitVec w) → Nat → List (BitVec w) → Option Bool) (lane : List (BitVec w)) :
    Nat → List (BitVec w) → Option (Rest w)
  | 0, _ => none
  | fuel + 1, l =>
    if 32 ≤ l.length then
      match cmp l 0 lane with
      | none => none
      | some true => some .found
      | some false =>
        match dropUnchecked 32 l with
        | none => none
        | some rest => loop32 cmp lane fuel rest
    else some (.more l)

/-- The last loop (57-61, 158-162). -/
def scan (t : BitVec w) : List (BitVec w) → Bool
  | [] => false
  | x :: l => if x = t then true else scan t l

/-- The answer. -/
def finish (t : BitVec w) : Rest w → Bool
  | .found => true
  | .more l => scan t l

/-- `compare_16_items_u32` -/
def compare16u32 : List (BitVec 32) → Nat → List (BitVec 32) → Option Bool := compareTwo 8 (compareReg 8)
/-- `compare_32_items_u32` -/
def compare32u32 : List (BitVec 32) → Nat → List (BitVec 32) → Option Bool := compareTwo 16 compare16u32
/-- `compare_8_items_u64` -/
def compare8u64 : List (BitVec 64) → Nat → List (BitVec 64) → Option Bool := compareTwo 4 (compareReg 4)
/-- `compare_16_items_u64` -/
def compare16u64 : List (BitVec 64) → Nat → List (BitVec 64) → Option Bool := compareTwo 8 compare8u64
/-- `compare_32_items_u64` -/
def compare32u64 : List (BitVec 64) → Nat → List (BitVec 64) → Option Bool := compareTwo 16 compare16u64

/-- `contains_simd_u32` (10-64). -/
def containsU32 (v : List (BitVec 32)) (t : BitVec 32) : Option Bool := do
  let r ← loop32 compare32u32 (set1 8 t) (v.length + 1) v
  let r ← stage 16 compare16u32 (set1 8 t) r
  let r ← stage 8 (compareReg 8) (set1 8 t) r
  let r ← stage 4 (compareReg 4) (set1 4 t) r
  return finish t r

/-- `contains_simd_u64` (112-164). -/
def containsU64 (v : List (BitVec 64)) (t : BitVec 64) : Option Bool := do
  let r ← loop32 compare32u64 (set1 4 t) (v.length + 1) v
  let r ← stage 16 compare16u64 (set1 4 t) r
  let r ← stage 8 compare8u64 (set1 4 t) r
  let r ← stage 4 (compareReg 4) (set1 4 t) r
  let r ← stage 2 (compareReg 2) (set1 2 t) r
  return finish t r

end Verif.Vec.Contains
