/-
Model of saving and loading a bf-tree provider.

Source: /repo/diskann-bftree/src/provider.rs 1608-2077, /repo/diskann-bftree/src/id.rs,
/repo/diskann-vector/src/distance/metric.rs

Simplifications: the contents of the trees and of the quantizer are values of any types; a JSON document is its value
(serde is not modelled), so are snapshots of trees (crate `bf_tree`, not in the repository) and serialized quantizers;
a file that was created and not finished is `torn` and no reader accepts it.  The sizes of the trees' buffers in the
parameters, which no loader uses, are left out.
-/
namespace Verif.Bftree.Save

/-- `Metric` (metric.rs 11-20). -/
inductive Metric
  | cosine
  | innerProduct
  | l2
  | cosineNormalized
deriving DecidableEq

/-- `Metric::as_str` (metric.rs 24-31). -/
def Metric.asStr : Metric → String
  | .cosine => "cosine"
  | .innerProduct => "innerproduct"
  | .l2 => "l2"
  | .cosineNormalized => "cosinenormalized"

/-- `Metric::from_str` (metric.rs 90-98), for strings in lower case. -/
def Metric.fromStr (s : String) : Option Metric :=
  if s = Metric.asStr .l2 then some .l2
  else if s = Metric.asStr .cosine then some .cosine
  else if s = Metric.asStr .innerProduct then some .innerProduct
  else if s = Metric.asStr .cosineNormalized then some .cosineNormalized
  else none

/-- `VectorDtype` (provider.rs 1673-1678). -/
inductive Dtype
  | f32
  | f16
  | u8
  | i8
deriving DecidableEq

/-- `GraphParams` (provider.rs 1705-1723): the element type and the rest. -/
structure Graph where
  dtype : Dtype
  other : Nat
deriving DecidableEq

/-- What a provider has besides its trees, with the two type parameters: the element type and the width of ids. -/
structure Info where
  maxPoints : Nat
  starts : Nat
  dim : Nat
  metric : Metric
  maxDegree : Nat
  graph : Option Graph
  snapshot : Bool
  idWidth : Nat
  elem : Dtype
deriving DecidableEq

/-- The contents of the stores: vectors, neighbours, and with quantization the codes and the quantizer. -/
structure Trees (A B K Z : Type) where
  vectors : A
  neighbors : B
  quant : Option (K × Z)
deriving DecidableEq

/-- `SavedParams` (provider.rs 1621-1642). -/
structure Params where
  maxPoints : Nat
  starts : Nat
  dim : Nat
  metric : String
  maxDegree : Nat
  pre : List Char
  quant : Bool
  graph : Option Graph
  snapshot : Bool
  idWidth : Nat

/-- What a file holds. -/
inductive Content (A B K Z : Type)
  | params (p : Params)
  | vectors (a : A)
  | neighbors (b : B)
  | codes (k : K)
  | quantizer (z : Z)
  | torn

/-! `BfTreePaths` (provider.rs 1726-1757). -/

/-- `params_json` -/
def paramsName (p : List Char) : List Char := p ++ ['_', 'p', 'a', 'r', 'a', 'm', 's', '.', 'j', 's', 'o', 'n']
/-- `vectors_bftree` -/
def vectorsName (p : List Char) : List Char :=
  p ++ ['_', 'v', 'e', 'c', 't', 'o', 'r', 's', '.', 'b', 'f', 't', 'r', 'e', 'e']
/-- `neighbors_bftree` -/
def neighborsName (p : List Char) : List Char :=
  p ++ ['_', 'n', 'e', 'i', 'g', 'h', 'b', 'o', 'r', 's', '.', 'b', 'f', 't', 'r', 'e', 'e']
/-- `quant_bftree` -/
def codesName (p : List Char) : List Char :=
  p ++ ['_', 'q', 'u', 'a', 'n', 't', '.', 'b', 'f', 't', 'r', 'e', 'e']
/-- `quant_data_bin` -/
def dataName (p : List Char) : List Char :=
  p ++ ['_', 'q', 'u', 'a', 'n', 't', '_', 'd', 'a', 't', 'a', '.', 'b', 'i', 'n']

/-- The files.  Storage 0 is the file system; others are storage providers with files of their own. -/
abbrev World (A B K Z : Type) := Nat → List Char → Option (Content A B K Z)

/-- One change of a file. -/
structure Write (A B K Z : Type) where
  storage : Nat
  name : List Char
  content : Content A B K Z

variable {A B K Z : Type}

/-- Make a change. -/
def World.put (w : World A B K Z) (x : Write A B K Z) : World A B K Z :=
  fun s n => if s = x.storage ∧ n = x.name then some x.content else w s n

/-- Make changes one after the other. -/
def World.apply (w : World A B K Z) (l : List (Write A B K Z)) : World A B K Z := l.foldl World.put w

/-- Creating a file and writing it. -/
def writeFile (s : Nat) (n : List Char) (c : Content A B K Z) : List (Write A B K Z) := [⟨s, n, .torn⟩, ⟨s, n, c⟩]

/-- The parameters that `save_with` writes (provider.rs 1804-1827, 1927-1955). -/
def paramsOf (i : Info) (quant : Bool) (pre : List Char) : Params where
  maxPoints := i.maxPoints
  starts := i.starts
  dim := i.dim
  metric := i.metric.asStr
  maxDegree := i.maxDegree
  pre := pre
  quant := quant
  graph := i.graph
  snapshot := i.snapshot
  idWidth := i.idWidth

/-- The last part of `save_with` with quantization (provider.rs 1988-2003); a provider is of one kind at all times. -/
def saveQuant (s : Nat) (pre : List Char) : Option (K × Z) → Option (K × Z) → List (Write A B K Z)
  | some c, some z => writeFile 0 (codesName pre) (.codes c.1) ++ writeFile s (dataName pre) (.quantizer z.2)
  | _, _ => []

/-- `save_with` (provider.rs 1800-1856, 1923-2006): the changes of files in order, and whether it answers `Ok`.
`moments k`: the stores when their `k`-th part is taken; no lock is held between them.  `save_bftree`
(provider.rs 1765-1777) refuses without `use_snapshot`, and writes to the file system whatever the storage is. -/
def save (i : Info) (moments : Nat → Trees A B K Z) (s : Nat) (pre : List Char) : List (Write A B K Z) × Bool :=
  if i.starts = 0 then ([], false)
  else
    let head := writeFile s (paramsName pre) (.params (paramsOf i (moments 0).quant.isSome pre))
    if i.snapshot = false then (head, false)
    else
      (head ++ writeFile 0 (vectorsName pre) (.vectors (moments 0).vectors) ++
        writeFile 0 (neighborsName pre) (.neighbors (moments 1).neighbors) ++
        saveQuant s pre (moments 2).quant (moments 3).quant, true)

/-- `validate_loaded_id_params` (provider.rs 1652-1667) and `validate_id_capacity` (id.rs 164-182): an id type of
`width` bytes, `usize` has eight. -/
def idsFit (p : Params) (width : Nat) : Bool :=
  p.idWidth = width ∧ p.maxPoints + p.starts < 2 ^ 64 ∧ p.maxPoints + p.starts ≤ 2 ^ (8 * width)

/-- Read the parameters (provider.rs 1870-1878). -/
def readParams (w : World A B K Z) (s : Nat) (pre : List Char) : Option Params :=
  match w s (paramsName pre) with
  | some (.params p) => some p
  | _ => none

/-- `load_bftree` of the vectors (provider.rs 1885-1888). -/
def readVectors (w : World A B K Z) (pre : List Char) : Option A :=
  match w 0 (vectorsName pre) with
  | some (.vectors a) => some a
  | _ => none

/-- `load_bftree` of the neighbours (provider.rs 1896-1899). -/
def readNeighbors (w : World A B K Z) (pre : List Char) : Option B :=
  match w 0 (neighborsName pre) with
  | some (.neighbors b) => some b
  | _ => none

/-- `load_bftree` of the codes (provider.rs 2062-2065). -/
def readCodes (w : World A B K Z) (pre : List Char) : Option K :=
  match w 0 (codesName pre) with
  | some (.codes k) => some k
  | _ => none

/-- Read the quantizer (provider.rs 2055-2060). -/
def readQuantizer (w : World A B K Z) (s : Nat) (pre : List Char) : Option Z :=
  match w s (dataName pre) with
  | some (.quantizer z) => some z
  | _ => none

/-- What a loader makes of the parameters; the element type is that of the caller. -/
def infoOf (p : Params) (m : Metric) (width : Nat) (elem : Dtype) : Info where
  maxPoints := p.maxPoints
  starts := p.starts
  dim := p.dim
  metric := m
  maxDegree := p.maxDegree
  graph := p.graph
  snapshot := p.snapshot
  idWidth := width
  elem := elem

/-- `load_with` without quantization (provider.rs 1866-1913) for element type `elem` and ids of `width` bytes.  The
trees are those of the prefix in the parameters. -/
def loadPlain (w : World A B K Z) (s : Nat) (pre : List Char) (width : Nat) (elem : Dtype) :
    Option (Info × Trees A B K Z) := do
  let p ← readParams w s pre
  if idsFit p width = false then none
  let m ← Metric.fromStr p.metric
  let a ← readVectors w p.pre
  let b ← readNeighbors w p.pre
  some (infoOf p m width elem, ⟨a, b, none⟩)

/-- `load_with` with quantization (provider.rs 2014-2078). -/
def loadQuant (w : World A B K Z) (s : Nat) (pre : List Char) (width : Nat) (elem : Dtype) :
    Option (Info × Trees A B K Z) := do
  let p ← readParams w s pre
  if idsFit p width = false then none
  if p.quant = false then none
  let m ← Metric.fromStr p.metric
  let a ← readVectors w p.pre
  let b ← readNeighbors w p.pre
  let z ← readQuantizer w s p.pre
  let k ← readCodes w p.pre
  some (infoOf p m width elem, ⟨a, b, some (k, z)⟩)

/-- The loader of the kind of a provider. -/
def load (quant : Bool) (w : World A B K Z) (s : Nat) (pre : List Char) (width : Nat) (elem : Dtype) :
    Option (Info × Trees A B K Z) :=
  if quant then loadQuant w s pre width elem else loadPlain w s pre width elem

end Verif.Bftree.Save
