import Mathlib.Data.List.Dedup
import Mathlib.Data.List.Nodup
import Mathlib.Data.List.Perm.Subperm
/-
Model of the default working set of a prune.

Source: /repo/diskann/src/graph/workingset/map.rs.

Keys are naturals.  Stored values and overlay elements are read through projections; both are modelled by one type
`V`, the element a view returns.  The hash map is the list of its entries; its iteration order is not specified, so
every operation that iterates (`retain`) gets an arbitrary reordering `sh`.  `usize` saturation in line 275 is not
modelled (lengths are naturals).
-/
namespace Verif.WorkingSet

variable {V : Type}

/-- An entry of the hash map: a key and `Generation<V>` (map.rs 415-419). -/
structure Ent (V : Type) where
  key : Nat
  gen : Nat
  val : V
deriving DecidableEq

/-- `Map` (map.rs 154-174). -/
structure WMap (V : Type) where
  entries : List (Ent V)
  overlay : Nat → Option V
  capacity : Option Nat
  gen : Nat

/-- `Capacity` (map.rs 855-864) and `resolve` (map.rs 869-876). -/
inductive Cap
  | none
  | default
  | some (n : Nat)
  | unbounded

def Cap.resolve (c : Cap) (dflt : Nat) : Option Nat :=
  match c with
  | .none => Option.some 0
  | .default => Option.some dflt
  | .some n => Option.some n
  | .unbounded => Option.none

/-- `Builder::build` (map.rs 831-839). -/
def build (c : Cap) (overlay : Nat → Option V) (dflt : Nat) : WMap V := ⟨[], overlay, c.resolve dflt, 0⟩

/-- `new_generation` (map.rs 177-179): `u32` wraps. -/
def WMap.bump (m : WMap V) : WMap V := { m with gen := (m.gen + 1) % 4294967296 }

/-- `HashMap::contains_key` on the entries. -/
def hasKey (es : List (Ent V)) (k : Nat) : Bool := es.any (fun e => e.key == k)

/-- Set the generation of the entry with key `k`, if any. -/
def touch (g k : Nat) (es : List (Ent V)) : List (Ent V) :=
  es.map (fun e => if e.key = k then { e with gen := g } else e)

/-- `promote` (map.rs 189-203): the entries and the number of promoted items. -/
def promote (g : Nat) : List Nat → List (Ent V) → List (Ent V) × Nat
  | [], es => (es, 0)
  | k :: ks, es =>
    if hasKey es k then ((promote g ks (touch g k es)).1, (promote g ks (touch g k es)).2 + 1)
    else promote g ks es

/-- `evict` (map.rs 208-231), on the entries in iteration order. -/
def evict (g : Nat) : Nat → List (Ent V) → List (Ent V)
  | 0, es => es
  | _ + 1, [] => []
  | n + 1, e :: es => if e.gen ≠ g then evict g n es else e :: evict g (n + 1) es

/-- The eviction step of `prepare` (map.rs 262-282) for a capacity that is not zero. -/
def trim (sh : List (Ent V) → List (Ent V)) (m : WMap V) (c : Nat) (req : List Nat) : WMap V :=
  let p := promote m.gen req m.entries
  let extra := req.length - p.2
  let final := p.1.length + extra
  if c ≤ final then { m with entries := evict m.gen (final - c) (sh p.1) } else { m with entries := p.1 }

/-- `prepare` (map.rs 240-284). -/
def prepare (sh : List (Ent V) → List (Ent V)) (m : WMap V) (req : List Nat) : WMap V :=
  if m.entries = [] then m.bump
  else
    match m.capacity with
    | none => m.bump
    | some 0 => { m.bump with entries := [] }
    | some (c + 1) => trim sh m.bump (c + 1) req

/-- `get` (map.rs 290-292). -/
def WMap.get (m : WMap V) (k : Nat) : Option V := (m.entries.find? (fun e => e.key == k)).map (·.val)

/-- `get_mut` followed by a write of `f` (map.rs 298-303). -/
def WMap.update (m : WMap V) (k : Nat) (f : V → V) : WMap V :=
  { m with entries := m.entries.map (fun e => if e.key = k then { e with gen := m.gen, val := f e.val } else e) }

/-- `clear` (map.rs 309-311). -/
def WMap.clear (m : WMap V) : WMap V := { m with entries := [] }

/-- `HashMap::insert`: replaces the entry of the key. -/
def put (es : List (Ent V)) (e : Ent V) : List (Ent V) := e :: es.filter (fun x => x.key != e.key)

/-- `insert` (map.rs 315-322): a no-op for a key of the overlay. -/
def WMap.insert (m : WMap V) (k : Nat) (v : V) : WMap V :=
  if (m.overlay k).isSome then m else { m with entries := put m.entries ⟨k, m.gen, v⟩ }

/-- `contains_key` (map.rs 325-327). -/
def WMap.containsKey (m : WMap V) (k : Nat) : Bool := (m.overlay k).isSome || hasKey m.entries k

/-- `View::get` (map.rs 903-910): the overlay first. -/
def WMap.view (m : WMap V) (k : Nat) : Option V :=
  match m.overlay k with
  | some v => some v
  | none => m.get k

/-- The loop of `fill` (map.rs 396-402) through `entry` (map.rs 334-347): keys of the overlay and resident keys are
skipped, a resident key is stamped with the current generation.  `f` is a function of the key; the flag says whether
the loop ended without an error. -/
def fillLoop (f : Nat → Except Unit (Option V)) : WMap V → List Nat → WMap V × Bool
  | m, [] => (m, true)
  | m, k :: ks =>
    if (m.overlay k).isSome then fillLoop f m ks
    else if hasKey m.entries k then fillLoop f { m with entries := touch m.gen k m.entries } ks
    else
      match f k with
      | .error _ => (m, false)
      | .ok none => fillLoop f m ks
      | .ok (some v) => fillLoop f { m with entries := ⟨k, m.gen, v⟩ :: m.entries } ks

/-- `fill` (map.rs 384-404). -/
def fill (sh : List (Ent V) → List (Ent V)) (f : Nat → Except Unit (Option V)) (m : WMap V) (req : List Nat) :
    WMap V × Bool := fillLoop f (prepare sh m req) req

/-- An operation of a client. -/
inductive Op (V : Type)
  | prepare (sh : List (Ent V) → List (Ent V)) (req : List Nat)
  | fill (sh : List (Ent V) → List (Ent V)) (f : Nat → Except Unit (Option V)) (req : List Nat)
  | insert (k : Nat) (v : V)
  | update (k : Nat) (f : V → V)
  | clear

def step (m : WMap V) : Op V → WMap V
  | .prepare sh req => prepare sh m req
  | .fill sh f req => (fill sh f m req).1
  | .insert k v => m.insert k v
  | .update k f => m.update k f
  | .clear => m.clear

def run (m : WMap V) (ops : List (Op V)) : WMap V := ops.foldl step m

end Verif.WorkingSet
