import Verif.Label.IndexSpec
/-
Model of the inverted label index over a store whose calls can fail: insertion, deletion and update of documents,
stopped at any store call, and records that the store refuses.

Sources: /repo/diskann-label-filter/src/kv_index/{generic_index,inverted_index_provider_impl}.rs,
stores/bftree_store.rs 160-225.

Simplifications: a store call that fails has changed nothing.  An operation stops at its first failing call, so
where it fails is one number: how many more store calls work.  A crash is the same.  The store refuses a record
by a test on the key and the value (`fits`); for `BfTreeStore` that is the largest record size (bftree_store.rs
79, 137-139, 203-208), which the library behind it checks.
-/
namespace Verif.Label.Fault

/-- What an operation leaves: the store, and how many more store calls would have worked, an error or a panic. -/
abbrev Out := Store × Res Nat

/-- Go on after a part of an operation that succeeded. -/
def Out.andThen (o : Out) (f : Nat → Store → Out) : Out :=
  match o with
  | (st, .ok n) => f n st
  | (st, .err) => (st, .err)
  | (st, .panic) => (st, .panic)

/-- `KvStore::set` (bftree_store.rs 202-209). -/
def setF (fits : Bytes → Cell → Bool) (n : Nat) (st : Store) (k : Bytes) (c : Cell) : Out :=
  match n with
  | 0 => (st, .err)
  | n + 1 => if fits k c then (sset st k c, .ok n) else (st, .err)

/-- `KvStore::del` (bftree_store.rs 211-215). -/
def delF (n : Nat) (st : Store) (k : Bytes) : Out :=
  match n with
  | 0 => (st, .err)
  | n + 1 => (sdel st k, .ok n)

/-- The loop of `insert` (inverted_index_provider_impl.rs 33-48): a read and a write per key. -/
def insertLoop (fits : Bytes → Cell → Bool) (doc : Nat) : List Bytes → Nat → Store → Out
  | [], n, st => (st, .ok n)
  | _ :: _, 0, st => (st, .err)
  | k :: ks, n + 1, st =>
    match getOrEmpty st k with
    | .ok ids => (setF fits n st k (.pl (plInsert ids doc))).andThen (insertLoop fits doc ks)
    | .err => (st, .err)
    | .panic => (st, .panic)

/-- `insert` (inverted_index_provider_impl.rs 28-58): the posting lists, then the reverse mapping. -/
def insert (fits : Bytes → Cell → Bool) (n : Nat) (st : Store) (doc : Nat) (attrs : Attrs) : Out :=
  let keys := attrs.map (fun p => encKey p.1 p.2)
  (insertLoop fits doc keys n st).andThen fun n st => setF fits n st (revKey doc) (.rev (serKeys keys))

/-- The loop of `delete` (inverted_index_provider_impl.rs 74-98). -/
def deleteLoop (fits : Bytes → Cell → Bool) (doc : Nat) : List Bytes → Nat → Store → Out
  | [], n, st => (st, .ok n)
  | _ :: _, 0, st => (st, .err)
  | k :: ks, n + 1, st =>
    match sget st k with
    | none => deleteLoop fits doc ks n st
    | some c =>
      match asPl c with
      | .ok ids =>
        (if (plRemove ids doc).isEmpty then delF n st k
          else setF fits n st k (.pl (plRemove ids doc))).andThen (deleteLoop fits doc ks)
      | .err => (st, .err)
      | .panic => (st, .panic)

/-- `delete` after the key list was decoded (inverted_index_provider_impl.rs 73-105): the reverse mapping is
deleted last. -/
def deleteKeys (fits : Bytes → Cell → Bool) (n : Nat) (st : Store) (doc : Nat) : Res (List Bytes) → Out
  | .ok keys => (deleteLoop fits doc keys n st).andThen fun n st => delF n st (revKey doc)
  | .err => (st, .err)
  | .panic => (st, .panic)

/-- `delete` after the reverse mapping was read (inverted_index_provider_impl.rs 68-71). -/
def deleteCell (fits : Bytes → Cell → Bool) (n : Nat) (st : Store) (doc : Nat) : Option Cell → Out
  | none => (st, .ok n)
  | some (.pl _) => (st, .err)
  | some (.rev bytes) => deleteKeys fits n st doc (deserKeys bytes)

/-- `delete` (inverted_index_provider_impl.rs 60-106). -/
def delete (fits : Bytes → Cell → Bool) (n : Nat) (st : Store) (doc : Nat) : Out :=
  match n with
  | 0 => (st, .err)
  | n + 1 => deleteCell fits n st doc (sget st (revKey doc))

/-- `update` (inverted_index_provider_impl.rs 108-112). -/
def update (fits : Bytes → Cell → Bool) (n : Nat) (st : Store) (doc : Nat) (attrs : Attrs) : Out :=
  (delete fits n st doc).andThen fun n st => insert fits n st doc attrs

/-- One attempt of an operation of a client. -/
def attempt (fits : Bytes → Cell → Bool) (n : Nat) (st : Store) : IOp → Out
  | .insert d a => insert fits n st d a
  | .delete d => delete fits n st d
  | .update d a => update fits n st d a

/-- The store after attempts, whatever each of them answered. -/
def tryAll (fits : Bytes → Cell → Bool) : Store → List (Nat × IOp) → Store
  | st, [] => st
  | st, (n, o) :: os => tryAll fits (attempt fits n st o).1 os

/-! ### Specification vocabulary -/

/-- The document of an operation. -/
def docOf : IOp → Nat
  | .insert d _ => d
  | .delete d => d
  | .update d _ => d

/-- Ids and attributes the index can hold.  Nothing is asked about the documents that are there. -/
def Allowed : IOp → Prop
  | .insert d a => d < 4294967296 ∧ AttrsOk a
  | .delete _ => True
  | .update d a => d < 4294967296 ∧ AttrsOk a

/-- Failing attempts of one operation. -/
inductive Failing (fits : Bytes → Cell → Bool) (o : IOp) : Store → Store → Prop
  | none {st} : Failing fits o st st
  | again {st st1 st2 n} : Failing fits o st st1 → attempt fits n st1 o = (st2, .err) → Failing fits o st st2

/-- A history in which every operation is tried until it succeeds. -/
inductive Retried (fits : Bytes → Cell → Bool) : List IOp → Store → Prop
  | start : Retried fits [] []
  | done {ops st st1 st2 o n m} : Retried fits ops st → Failing fits o st st1 →
      attempt fits n st1 o = (st2, .ok m) → Retried fits (ops ++ [o]) st2

end Verif.Label.Fault
