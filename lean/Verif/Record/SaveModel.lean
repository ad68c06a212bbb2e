/-
Model of the disk save context: any number of saves in one file system, interleaved at file system calls.

Source: /repo/diskann-record/src/backend/disk.rs 37-234 (`DiskSaveContext`, `FileWriter`).

A file system maps paths to inodes and inodes to bytes.  Paths: `art n` an artifact path (directory and generated
name together), `man k` a manifest path, `tmp k` the same with `.temp` appended (`temp_metadata`, 83-87); the
three kinds are taken to be different paths (a manifest that is itself named like an artifact, `dir/000`, is
outside the model).  Every action below is one file system call or one lock region; the process may stop
between any two actions.  Power loss (no `fsync`) is outside the model.
-/
namespace Verif.Record

inductive Path
  | art (n : Nat)
  | man (k : Nat)
  | tmp (k : Nat)
deriving DecidableEq, Repr

/-- Ghost: who created an inode. -/
inductive Own
  | before
  | art (s : Nat)
  | tmp (s : Nat)
deriving DecidableEq, Repr

/-- A registered artifact: its path, its inode, and (ghost) its content when its writer finished
(`files : HashMap<String, bool>`, disk.rs 40; `fin.isSome` is the flag). -/
structure Art where
  name : Nat
  ino : Nat
  fin : Option (List Nat)
deriving DecidableEq, Repr

/-- Where a save is. -/
inductive Pc
  | idle
  /-- the context is open: `write` and `Writer::finish` are being called -/
  | opn
  /-- inside `finish`, the first `n` bytes of the temp manifest are written -/
  | writing (n : Nat)
  /-- inside `Drop`: these artifacts are still to be removed, then the temp manifest -/
  | dropping (todo : List Nat)
  /-- `finish` returned `Ok` -/
  | committed
  /-- crashed, or `Drop` is over -/
  | gone
deriving DecidableEq, Repr

/-- `DiskSaveContext` (disk.rs 37-42); `key` stands for the manifest path, `tino` is the inode of the temp
file it created. -/
structure Save where
  key : Nat
  pc : Pc
  arts : List Art
  tino : Nat
deriving DecidableEq, Repr

structure SaveSt where
  dir : Path → Option Nat
  data : Nat → List Nat
  next : Nat
  own : Nat → Own
  sv : Nat → Save
  /-- ghost: the last save whose manifest was put in place -/
  last : Nat → Option Nat

/-- Function update. -/
def fset {α β : Type} [DecidableEq α] (f : α → β) (a : α) (b : β) : α → β := fun x => if x = a then b else f x

inductive Act
  | start (s k : Nat)
  | create (s n : Nat)
  | write (s : Nat) (a : Art) (c : List Nat)
  | finishArt (s : Nat) (a : Art)
  | begin (s : Nat)
  | wtemp (s m : Nat)
  | rename (s : Nat)
  | abort (s : Nat)
  | drop (s : Nat)
  | crash (s : Nat)
deriving DecidableEq, Repr

/-- The save that acts. -/
def Act.actor : Act → Nat
  | .start s _ | .create s _ | .write s _ _ | .finishArt s _ | .begin s | .wtemp s _ | .rename s | .abort s
  | .drop s | .crash s => s

def Pc.active : Pc → Bool
  | .opn | .writing _ | .dropping _ => true
  | _ => false

def SaveSt.setSave (st : SaveSt) (s : Nat) (x : Save) : SaveSt := { st with sv := fset st.sv s x }

def SaveSt.setPc (st : SaveSt) (s : Nat) (pc : Pc) : SaveSt := st.setSave s { st.sv s with pc := pc }

variable (enc : Nat → List Nat → List Nat)

/-- The bytes of the manifest of save `s`: a function of the saved value (the save) and the registered
names (`Final`, disk.rs 44-48, 177-180). -/
def SaveSt.manifest (st : SaveSt) (s : Nat) : List Nat := enc s ((st.sv s).arts.map Art.name)

/-- `DiskSaveContext::new` (disk.rs 58-79). -/
def stepStart (st : SaveSt) (s k : Nat) : Option SaveSt :=
  if (st.sv s).pc = .idle then some (st.setSave s ⟨k, .opn, [], 0⟩) else none

/-- `write` (disk.rs 139-152): `create_new` fails if the path exists, and then nothing is registered. -/
def stepCreate (st : SaveSt) (s n : Nat) : Option SaveSt :=
  if (st.sv s).pc = .opn then
    match st.dir (.art n) with
    | some _ => some st
    | none => some { st.setSave s { st.sv s with arts := (st.sv s).arts ++ [⟨n, st.next, none⟩] } with
        dir := fset st.dir (.art n) (some st.next)
        data := fset st.data st.next []
        own := fset st.own st.next (.art s)
        next := st.next + 1 }
  else none

/-- A write through a writer that has not been finished: any new content of that file. -/
def stepWrite (st : SaveSt) (s : Nat) (a : Art) (c : List Nat) : Option SaveSt :=
  if (st.sv s).pc = .opn ∧ a ∈ (st.sv s).arts ∧ a.fin = none then
    some { st with data := fset st.data a.ino c }
  else none

/-- `FileWriter::finish` (disk.rs 226-233). -/
def stepFinishArt (st : SaveSt) (s : Nat) (a : Art) : Option SaveSt :=
  if (st.sv s).pc = .opn ∧ a ∈ (st.sv s).arts ∧ a.fin = none then
    some (st.setSave s { st.sv s with
      arts := (st.sv s).arts.map (fun b => if b = a then { a with fin := some (st.data a.ino) } else b) })
  else none

/-- The beginning of `finish` (disk.rs 164-195): an unfinished artifact or an existing temp file is an error,
after which the context is dropped. -/
def stepBegin (st : SaveSt) (s : Nat) : Option SaveSt :=
  if (st.sv s).pc = .opn then
    if (st.sv s).arts.all (fun a => a.fin.isSome) then
      match st.dir (.tmp (st.sv s).key) with
      | some _ => some (st.setPc s (.dropping ((st.sv s).arts.map Art.name)))
      | none => some { st.setSave s { st.sv s with pc := .writing 0, tino := st.next } with
          dir := fset st.dir (.tmp (st.sv s).key) (some st.next)
          data := fset st.data st.next []
          own := fset st.own st.next (.tmp s)
          next := st.next + 1 }
    else some (st.setPc s (.dropping ((st.sv s).arts.map Art.name)))
  else none

/-- `to_writer_pretty` (disk.rs 197-199): the manifest reaches the file piece by piece. -/
def stepWtemp (st : SaveSt) (s m : Nat) : Option SaveSt :=
  match (st.sv s).pc with
  | .writing n =>
    if n ≤ m ∧ m ≤ (st.manifest enc s).length then
      some { st.setPc s (.writing m) with data := fset st.data (st.sv s).tino ((st.manifest enc s).take m) }
    else none
  | _ => none

/-- The rename into place and the commit (disk.rs 201-210); if the temp file is gone it is an error. -/
def stepRename (st : SaveSt) (s : Nat) : Option SaveSt :=
  if (st.sv s).pc = .writing (st.manifest enc s).length then
    match st.dir (.tmp (st.sv s).key) with
    | none => some (st.setPc s (.dropping ((st.sv s).arts.map Art.name)))
    | some i => some { st.setPc s .committed with
        dir := fset (fset st.dir (.tmp (st.sv s).key) none) (.man (st.sv s).key) (some i)
        last := fset st.last (st.sv s).key (some s) }
  else none

/-- Any failure, or abandoning the save: the context is dropped. -/
def stepAbort (st : SaveSt) (s : Nat) : Option SaveSt :=
  match (st.sv s).pc with
  | .opn | .writing _ => some (st.setPc s (.dropping ((st.sv s).arts.map Art.name)))
  | _ => none

/-- One removal of `Drop` (disk.rs 92-104). -/
def stepDrop (st : SaveSt) (s : Nat) : Option SaveSt :=
  match (st.sv s).pc with
  | .dropping (n :: rest) =>
    some { st.setPc s (.dropping rest) with dir := fset st.dir (.art n) none }
  | .dropping [] =>
    some { st.setPc s .gone with dir := fset st.dir (.tmp (st.sv s).key) none }
  | _ => none

/-- The process (or thread) stops. -/
def stepCrash (st : SaveSt) (s : Nat) : Option SaveSt :=
  if (st.sv s).pc.active then some (st.setPc s .gone) else none

def SaveSt.step (st : SaveSt) : Act → Option SaveSt
  | .start s k => stepStart st s k
  | .create s n => stepCreate st s n
  | .write s a c => stepWrite st s a c
  | .finishArt s a => stepFinishArt st s a
  | .begin s => stepBegin st s
  | .wtemp s m => stepWtemp enc st s m
  | .rename s => stepRename enc st s
  | .abort s => stepAbort st s
  | .drop s => stepDrop st s
  | .crash s => stepCrash st s

/-- A file system before any of the saves: `next` is above every inode in use. -/
structure Disk0 where
  dir : Path → Option Nat
  data : Nat → List Nat
  next : Nat
  bound : ∀ p i, dir p = some i → i < next

def Disk0.init (d : Disk0) : SaveSt :=
  { dir := d.dir, data := d.data, next := d.next, own := fun _ => .before,
    sv := fun _ => ⟨0, .idle, [], 0⟩, last := fun _ => none }

/-- No other save with manifest `k` is in flight. -/
def SaveSt.free (st : SaveSt) (k : Nat) : Prop := ∀ s, (st.sv s).pc.active = true → (st.sv s).key ≠ k

/-- Everything that can happen; with `excl`, a save is only started when no save to the same manifest path is
in flight. -/
inductive SReach (excl : Bool) (d : Disk0) : SaveSt → Prop
  | init : SReach excl d d.init
  | step {st st' : SaveSt} (a : Act) : SReach excl d st →
      (∀ s k, excl = true → a = .start s k → st.free k) →
      st.step enc a = some st' → SReach excl d st'

end Verif.Record
