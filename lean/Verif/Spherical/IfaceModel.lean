import Verif.Spherical.Model
import Verif.Quant.CanonModel

/-!
# The spherical quantizer behind an interface

Model of `diskann-quantization/src/spherical/iface.rs`: compressed vectors and queries are opaque byte buffers, the
number of bits and the form of the query are chosen at run time.

Simplifications: the compressions and distances are those of `Spherical/Model` (see there for floats); allocation
never fails; the choice of the instruction set does not change results (C75).  A buffer is its address, its length and
what a reader of each form finds in it; writing one form leaves the other readings arbitrary (`garbage`).  A
serialized quantizer is its identifier check, bit width and the packed quantizer (`flatbuffers` itself is not
modelled).
-/

namespace Verif.Spherical.Iface

open Verif.Spherical Verif.Quant Verif.Quant.Canon

/-- `QueryLayout`, iface.rs 479-496. -/
inductive Layout
  | sameAsData
  | fourBitTransposed
  | scalarQuantized
  | fullPrecision
deriving DecidableEq, Repr

/-- The types that read a buffer: `AsData<N>`, `AsQuery<4, BitTranspose>`, `AsQuery<N>`, `AsFull`, iface.rs 614-634. -/
inductive Kind
  | data (bits : Nat)
  | transposed
  | query (bits : Nat)
  | full
deriving DecidableEq, Repr

/-- `report_query_layout` of the readers, iface.rs 564-600, 646-689. -/
def Kind.report : Kind → Layout
  | .data _ => .sameAsData
  | .transposed => .fourBitTransposed
  | .query _ => .scalarQuantized
  | .full => .fullPrecision

/-- Sizes of `DataMeta`, `QueryMeta` and `FullQueryMeta`, vectors.rs 218-247, 381-399, 416-425. -/
def dataMeta : Nat := 6
def queryMeta : Nat := 16
def fullMeta : Ty := ⟨12, 4⟩
def f32Ty : Ty := ⟨4, 4⟩

/-- `BitTranspose::bytes`, bits/slice.rs 345-347. -/
def transposedBytes (dim : Nat) : Nat := 32 * divRoundUp dim 64 % usizeMod

/-- `canonical_bytes` and `canonical_align` of the readers. -/
def Kind.size (dim : Nat) : Kind → Nat
  | .data b => canonicalBytes b dataMeta dim
  | .transposed => (transposedBytes dim + queryMeta) % usizeMod
  | .query b => canonicalBytes b queryMeta dim
  | .full => sliceCanonicalBytes f32Ty fullMeta dim

def Kind.align : Kind → Nat
  | .data _ => 1
  | .transposed => 1
  | .query _ => 1
  | .full => canonicalAlign f32Ty fullMeta

/-- What is stored in a buffer. -/
inductive Stored (K : Type)
  | data (d : Data K)
  | query (u : Query K)
  | full (f : Full K)

/-- A buffer. -/
structure Buf (K : Type) where
  addr : Nat
  len : Nat
  reads : Kind → Stored K

/-- The parameters of `Spherical/Model`, and what other readers see after a write. -/
structure Env (K : Type) where
  norm : List K → K
  f16 : K → Option K
  pick : Nat → List (Crit K) → Nat
  top : K
  garbage : Kind → Stored K → Kind → Stored K

/-- `Impl<NBITS>`, iface.rs 993-1000. -/
structure Impl (K : Type) where
  q : Quantizer K
  bits : Nat

/-- Errors of the interface, iface.rs 345-402. -/
inductive QErr
  | unsupported (l : Layout)
  | notCanonical
  | compression (e : CErr)
deriving DecidableEq, Repr

/-- `DistanceError` and `QueryDistanceError`, iface.rs 786-795, 891-905. -/
inductive DErr
  | queryReify
  | xReify
  | unequal
deriving DecidableEq, Repr

section

variable {K : Type} [Field K] [LinearOrder K] [FloorRing K]

/-- `supports`, iface.rs 1059-1075. -/
def supports (bits : Nat) (l : Layout) : Bool :=
  if bits = 1 then [Layout.sameAsData, .fourBitTransposed, .fullPrecision].contains l
  else [Layout.sameAsData, .scalarQuantized, .fullPrecision].contains l

/-- `query_computer`, iface.rs 1603-1619 and 1786-1807: the reader of the query. -/
def queryComputer (m : Impl K) (l : Layout) : Except QErr Kind :=
  if m.bits = 1 then
    match l with
    | .sameAsData => .ok (.data 1)
    | .fourBitTransposed => .ok .transposed
    | .scalarQuantized => .error (.unsupported l)
    | .fullPrecision => .ok .full
  else
    match l with
    | .sameAsData => .ok (.data m.bits)
    | .fourBitTransposed => .error (.unsupported l)
    | .scalarQuantized => .ok (.query m.bits)
    | .fullPrecision => .ok .full

/-- `distance_computer` and `distance_computer_ref`, iface.rs 1017-1027, 1594-1601, 1774-1784. -/
def distanceComputer (m : Impl K) : Kind := .data m.bits

/-- `bytes`, iface.rs 1590-1592, 1770-1772. -/
def bytes (m : Impl K) : Nat := canonicalBytes m.bits dataMeta m.q.outDim

/-- `query_buffer_description`, iface.rs 1621-1645, 1809-1832: size and alignment. -/
def describe (m : Impl K) (l : Layout) : Except QErr (Nat × Nat) :=
  let dim := m.q.outDim
  if m.bits = 1 then
    match l with
    | .sameAsData => .ok (canonicalBytes 1 dataMeta dim, 1)
    | .fourBitTransposed => .ok ((transposedBytes dim + queryMeta) % usizeMod, 1)
    | .scalarQuantized => .error (.unsupported l)
    | .fullPrecision => .ok (sliceCanonicalBytes f32Ty fullMeta dim, canonicalAlign f32Ty fullMeta)
  else
    match l with
    | .sameAsData => .ok (canonicalBytes m.bits dataMeta dim, 1)
    | .fourBitTransposed => .error (.unsupported l)
    | .scalarQuantized => .ok (canonicalBytes m.bits queryMeta dim, 1)
    | .fullPrecision => .ok (sliceCanonicalBytes f32Ty fullMeta dim, canonicalAlign f32Ty fullMeta)

/-- `from_opaque` and the mutable constructors, iface.rs 636-680: the form of C125; `false` is `NotCanonical`. -/
def accepts (dim : Nat) (k : Kind) (b : Buf K) : Bool :=
  match k with
  | .full => (fromCanonical f32Ty fullMeta b.addr b.len dim).isOk
  | k => b.len == k.size dim

/-- `rescale`, quantizer.rs 327-331.  For a vector of norm zero the factor is infinite and every product with a zero
component a NaN. -/
def rescale (env : Env K) (q : Quantizer K) (x : List (Option K)) : List (Option K) :=
  match finite x with
  | none => x.map (fun _ => none)
  | some v => if env.norm v = 0 then v.map (fun _ => none) else v.map (fun a => some (q.meanNorm / env.norm v * a))

/-- The number of bits of the codes a reader of a query expects. -/
def Kind.codeBits : Kind → Nat
  | .data b => b
  | .transposed => 4
  | .query b => b
  | .full => 0

/-- `compress_into_with` on a view of the given form (quantizer.rs 725-861, 1128-1211); `old` is what the view showed. -/
def compressAs (env : Env K) (m : Impl K) (k : Kind) (x : List (Option K)) (old : List Nat) :
    Option (Except QErr (Stored K)) :=
  match k with
  | .data b =>
    match compress env.norm env.f16 env.pick m.q b x old with
    | none => none
    | some (.error e) => some (.error (.compression e))
    | some (.ok d) => some (.ok (.data d))
  | .full =>
    match compressFull env.norm m.q x m.q.outDim with
    | .error e => some (.error (.compression e))
    | .ok f => some (.ok (.full f))
  | k =>
    match compressQuery env.norm env.top m.q k.codeBits x old with
    | .error e => some (.error (.compression e))
    | .ok u => some (.ok (.query u))

/-- The codes a view shows. -/
def Stored.codes : Stored K → List Nat
  | .data d => d.codes
  | .query u => u.codes
  | .full _ => []

/-- Writing a stored value of a form into a buffer. -/
def Buf.write (env : Env K) (b : Buf K) (k : Kind) (s : Stored K) : Buf K :=
  { b with reads := fun k' => if k' = k then s else env.garbage k s k' }

/-- One arm of `compress_query`: view, then compress. -/
def compressArm (env : Env K) (m : Impl K) (k : Kind) (v : List (Option K)) (b : Buf K) : Option (Except QErr (Buf K)) :=
  if accepts m.q.outDim k b then
    match compressAs env m k v (b.reads k).codes with
    | none => none
    | some (.error e) => some (.error e)
    | some (.ok s) => some (.ok (b.write env k s))
  else some (.error .notCanonical)

/-- `finish` of `compress_query`, iface.rs 1656-1683, 1844-1877. -/
def compressFinish (env : Env K) (m : Impl K) (l : Layout) (v : List (Option K)) (b : Buf K) :
    Option (Except QErr (Buf K)) :=
  if m.bits = 1 then
    match l with
    | .sameAsData => compressArm env m (.data 1) v b
    | .fourBitTransposed => compressArm env m .transposed v b
    | .scalarQuantized => some (.error (.unsupported l))
    | .fullPrecision => compressArm env m .full v b
  else
    match l with
    | .sameAsData => compressArm env m (.data m.bits) v b
    | .fourBitTransposed => some (.error (.unsupported l))
    | .scalarQuantized => compressArm env m (.query m.bits) v b
    | .fullPrecision => compressArm env m .full v b

/-- `compress_query`, iface.rs 1647-1692, 1834-1886. -/
def compressQuery (env : Env K) (m : Impl K) (x : List (Option K)) (l : Layout) (allowRescale : Bool) (b : Buf K) :
    Option (Except QErr (Buf K)) :=
  if allowRescale && m.q.metric == .innerProduct then compressFinish env m l (rescale env m.q x) b
  else compressFinish env m l x b

/-- `QueryComputer`: the query with its form. -/
structure Fused (K : Type) where
  kind : Kind
  query : Stored K

/-- One arm of `fused_query_computer` (iface.rs 1110-1147): the storage is new, its codes are zero. -/
def fusedArm (env : Env K) (m : Impl K) (k : Kind) (v : List (Option K)) : Option (Except QErr (Fused K)) :=
  match compressAs env m k v (List.replicate m.q.outDim 0) with
  | none => none
  | some (.error e) => some (.error e)
  | some (.ok s) => some (.ok ⟨k, s⟩)

/-- `finish` of `fused_query_computer`, iface.rs 1703-1729, 1898-1930. -/
def fusedFinish (env : Env K) (m : Impl K) (l : Layout) (v : List (Option K)) : Option (Except QErr (Fused K)) :=
  if m.bits = 1 then
    match l with
    | .sameAsData => fusedArm env m (.data 1) v
    | .fourBitTransposed => fusedArm env m .transposed v
    | .scalarQuantized => some (.error (.unsupported l))
    | .fullPrecision => fusedArm env m .full v
  else
    match l with
    | .sameAsData => fusedArm env m (.data m.bits) v
    | .fourBitTransposed => some (.error (.unsupported l))
    | .scalarQuantized => fusedArm env m (.query m.bits) v
    | .fullPrecision => fusedArm env m .full v

/-- `fused_query_computer`, iface.rs 1694-1738, 1888-1941. -/
def fusedQueryComputer (env : Env K) (m : Impl K) (x : List (Option K)) (l : Layout) (allowRescale : Bool) :
    Option (Except QErr (Fused K)) :=
  if allowRescale && m.q.metric == .innerProduct then fusedFinish env m l (rescale env m.q x)
  else fusedFinish env m l x

/-- `compress`, iface.rs 1744-1756, 1947-1959. -/
def compressData (env : Env K) (m : Impl K) (x : List (Option K)) (b : Buf K) : Option (Except QErr (Buf K)) :=
  compressArm env m (.data m.bits) x b

/-- The distance functor of the metric (iface.rs 1268-1345) on a stored query and a data vector: `none` is the error
for unequal lengths, the inner `none` a NaN. -/
def dist (m : Impl K) (query : Stored K) (x : Stored K) : Option (Option K) :=
  match query, x with
  | .data a, .data y => (distData m.q m.bits a y).map some
  | .query u, .data y => distQuery m.q m.bits u y
  | .full f, .data y => (distFull m.q m.bits f y).map some
  | _, _ => none

/-- `DynDistanceComputer::evaluate`, iface.rs 745-772. -/
def evaluate (m : Impl K) (k : Kind) (query x : Buf K) : Except DErr (Option K) :=
  if accepts m.q.outDim k query then
    if accepts m.q.outDim (.data m.bits) x then
      match dist m (query.reads k) (x.reads (.data m.bits)) with
      | none => .error .unequal
      | some r => .ok r
    else .error .xReify
  else .error .queryReify

/-- `DynQueryComputer::evaluate`, iface.rs 716-738. -/
def Fused.evaluate (m : Impl K) (c : Fused K) (x : Buf K) : Except DErr (Option K) :=
  if accepts m.q.outDim (.data m.bits) x then
    match dist m c.query (x.reads (.data m.bits)) with
    | none => .error .unequal
    | some r => .ok r
  else .error .xReify

/-! ## Serialization -/

/-- A serialized quantizer: whether the identifier is there, and the root if the buffer is valid. -/
structure File (P : Type) where
  identifier : Bool
  root : Option (Nat × P)

/-- `DeserializationError`, iface.rs 1988-2006. -/
inductive FErr (E : Type)
  | invalidIdentifier
  | unsupportedBitWidth (n : Nat)
  | invalidQuantizer (e : E)
  | invalidFlatBuffer
deriving DecidableEq, Repr

/-- `serialize`, iface.rs 1193-1237. -/
def serialize {P : Type} (pack : Quantizer K → P) (m : Impl K) : File P := ⟨true, some (m.bits, pack m.q)⟩

/-- `try_deserialize_from`, iface.rs 1179-1190. -/
def unpackBits {P E : Type} (unpack : P → Except E (Quantizer K)) (bits : Nat) (p : P) : Except (FErr E) (Impl K) :=
  match unpack p with
  | .error e => .error (.invalidQuantizer e)
  | .ok q => .ok ⟨q, bits⟩

/-- `try_deserialize`, iface.rs 2018-2080: any supported width. -/
def tryDeserialize {P E : Type} (unpack : P → Except E (Quantizer K)) (f : File P) : Except (FErr E) (Impl K) :=
  if !f.identifier then .error .invalidIdentifier
  else
    match f.root with
    | none => .error .invalidFlatBuffer
    | some (1, p) => unpackBits unpack 1 p
    | some (2, p) => unpackBits unpack 2 p
    | some (4, p) => unpackBits unpack 4 p
    | some (8, p) => unpackBits unpack 8 p
    | some (n, _) => .error (.unsupportedBitWidth n)

/-- `Impl::<NBITS>::try_deserialize`, iface.rs 1149-1176: one width. -/
def tryDeserializeAs {P E : Type} (unpack : P → Except E (Quantizer K)) (bits : Nat) (f : File P) :
    Except (FErr E) (Impl K) :=
  if !f.identifier then .error .invalidIdentifier
  else
    match f.root with
    | none => .error .invalidFlatBuffer
    | some (n, p) => if n = bits then unpackBits unpack bits p else .error (.unsupportedBitWidth n)

end

end Verif.Spherical.Iface
