/-
Model of the readers of disk indexes: batches of reads through a ring of the kernel, and copies from memory.

Source: /repo/diskann-disk/src/search/provider/aligned_file_reader/
  (reader/linux.rs, reader/storage_provider.rs, aligned_read.rs), disk_sector_graph.rs

The kernel is part of the model as its documentation describes it (io_uring_enter(2)): a submitted read completes
at any later time, in any order; on completion the bytes are in the buffer and the result is in the completion
queue; waiting for `n` completions ends when the completion queue holds `n` entries, whichever requests they belong
to, and may end early when a signal arrives after requests were submitted.

Simplifications: bytes are elements of an arbitrary type; a buffer has a number instead of an address, two buffers do
not overlap; kernel steps between two pushes are put after the pushes (they touch different fields).  The completion
queue has room for all (it holds 256 entries, twice the batch).  The reader for Windows is not modelled.
-/
namespace Verif.Io

/-- A request (aligned_read.rs 49-53): a buffer, an offset in the file and the length of the buffer. -/
structure Req where
  buf : Nat
  off : Nat
  len : Nat
deriving DecidableEq, Repr

/-- The memory and the ring: requests that are pushed, requests the kernel works at, results of completed requests. -/
structure Ring (B : Type) where
  mem : Nat → List B
  sq : List Req
  flight : List Req
  cq : List Int

variable {B : Type}

/-- A memory changed in one buffer. -/
def upd (f : Nat → List B) (i : Nat) (x : List B) : Nat → List B := fun j => if j = i then x else f j

/-- What the environment may do: which results a request may have, whether a signal may end waiting early, whether
the kernel may refuse a submission. -/
structure Env where
  can : Req → Int → Prop
  early : Bool
  refuse : Bool

/-- One completion: `n` bytes were read, or an error; then the buffer may hold anything. -/
inductive Kernel (file : List B) (env : Env) : Ring B → Ring B → Prop
  | read (r : Ring B) (pre : List Req) (q : Req) (post : List Req) (n : Nat) : r.flight = pre ++ q :: post → n ≤ q.len →
      n ≤ file.length - q.off → env.can q n →
      Kernel file env r
        ⟨upd r.mem q.buf ((file.drop q.off).take n ++ (r.mem q.buf).drop n), r.sq, pre ++ post, r.cq ++ [(n : Int)]⟩
  | fail (r : Ring B) (pre : List Req) (q : Req) (post : List Req) (e : Nat) (data : List B) :
      r.flight = pre ++ q :: post → 0 < e → data.length = (r.mem q.buf).length → env.can q (-(e : Int)) →
      Kernel file env r ⟨upd r.mem q.buf data, r.sq, pre ++ post, r.cq ++ [-(e : Int)]⟩

/-- Any number of completions. -/
inductive Steps (file : List B) (env : Env) : Ring B → Ring B → Prop
  | nil (r) : Steps file env r r
  | cons {r s t} : Kernel file env r s → Steps file env s t → Steps file env r t

/-- Errors of a call: the submission queue is full, the kernel refused the submission, or the code of a failed read. -/
inductive Err
  | full
  | enter
  | os (code : Int)
deriving DecidableEq, Repr

/-- `MAX_IO_CONCURRENCY` (linux.rs 21). -/
def maxIo : Nat := 128

/-- `submit_aligned_read` for the requests of a batch (linux.rs 52-82, 100-104): the answer is whether all had
room in the submission queue. -/
def pushAll (r : Ring B) : List Req → Ring B × Bool
  | [] => (r, true)
  | q :: qs => if r.sq.length < maxIo then pushAll { r with sq := r.sq ++ [q] } qs else (r, false)

/-- The kernel takes the submission queue (linux.rs 107). -/
def submit (r : Ring B) : Ring B := { r with sq := [], flight := r.flight ++ r.sq }

/-- Flushing the completion queue (linux.rs 109-116): the first error, and what is left in the queue. -/
def flush : List Int → Option Int × List Int
  | [] => (none, [])
  | c :: cs => if c < 0 then (some c, cs) else flush cs

/-- One batch (linux.rs 95-117). -/
inductive Batch (file : List B) (env : Env) : Ring B → List Req → Ring B → Option Err → Prop
  | full {r reqs r1} : pushAll r reqs = (r1, false) → Batch file env r reqs r1 (some .full)
  | refused {r reqs r1} : env.refuse = true → pushAll r reqs = (r1, true) → Batch file env r reqs r1 (some .enter)
  | done {r reqs r1 r2} : pushAll r reqs = (r1, true) → Steps file env (submit r1) r2 →
      (reqs.length ≤ r2.cq.length ∨ env.early = true) →
      Batch file env r reqs { r2 with cq := (flush r2.cq).2 } ((flush r2.cq).1.map .os)

/-- The batches of a call (linux.rs 90-98). -/
def batches (reqs : List Req) : List (List Req) :=
  (List.range ((reqs.length + (maxIo - 1)) / maxIo)).map fun b =>
    (reqs.drop (maxIo * b)).take (min (reqs.length - maxIo * b) maxIo)

/-- The loop over the batches (linux.rs 95-119). -/
inductive Read (file : List B) (env : Env) : Ring B → List (List Req) → Ring B → Option Err → Prop
  | nil (r) : Read file env r [] r none
  | ok {r b r1 bs r2 a} : Batch file env r b r1 none → Read file env r1 bs r2 a → Read file env r (b :: bs) r2 a
  | err {r b r1 bs e} : Batch file env r b r1 (some e) → Read file env r (b :: bs) r1 (some e)

/-- `LinuxAlignedFileReader::read` (linux.rs 89-120). -/
def Call (file : List B) (env : Env) (r : Ring B) (reqs : List Req) (r' : Ring B) (a : Option Err) : Prop :=
  Read file env r (batches reqs) r' a

/-- `StorageProviderAlignedFileReader::read` (storage_provider.rs 37-46); `none` is a panic. -/
def storageRead (data : List B) : (Nat → List B) → List Req → Option (Nat → List B)
  | mem, [] => some mem
  | mem, q :: qs =>
    if q.off + q.len ≤ data.length then storageRead data (upd mem q.buf ((data.drop q.off).take q.len)) qs else none

/-- `AlignedRead::new` (aligned_read.rs 58-81): the address and the length of the buffer and the offset. -/
def accepts (align addr len off : Nat) : Bool := addr % align == 0 && len % align == 0 && off % align == 0

/-- The requests of `read_graph` (disk_sector_graph.rs 113-148), as address, length and offset: `base` is the address
of the buffer, `cur` the slots that are taken. -/
def graphReqs (base block perNode cur : Nat) (sectors : List Nat) : List (Nat × Nat × Nat) :=
  sectors.zipIdx.map fun (s, i) => (base + (cur + i) * (perNode * block), perNode * block, s * block)

end Verif.Io
