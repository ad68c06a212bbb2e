import Mathlib.Data.List.Basic

/-!
# The common error type

Source: /repo/diskann/src/error/ann_error.rs 96-230, 303-440.

`ANNError` wraps an `anyhow::Error`: a root object under a chain of context objects.  `anyhow` finds an object of a type by
walking from the newest context to the root (`context_chain_downcast`), and its debug format shows every object from the
newest to the root and then the sources of the root; both are the parts of that crate used here.  Types are numbers, or the
wrapper `Located` of a type; a value is of an arbitrary type `α`; `α` values stand for what they display.  The source
location is the caller's.  Backtraces are not modelled.
-/

namespace Verif.Error.AnnError

variable {α ε : Type}

/-- A Rust type: one of the user's, or `Located<T>`. -/
inductive Ty
  | user (n : Nat)
  | located (t : Ty)
deriving DecidableEq, Repr

/-- `std::panic::Location`: file and line. -/
abbrev Loc := Nat × Nat

/-- An object stored by `anyhow`: its type, the value, and the location inside `Located`. -/
structure Obj (α : Type) where
  ty : Ty
  value : α
  loc : Option Loc
deriving DecidableEq, Repr

/-- `Located::new`, 314-320. -/
def located (t : Ty) (v : α) (loc : Loc) : Obj α := ⟨.located t, v, some loc⟩

/-- `anyhow::Error`: a root with the sources of its value, or a context. -/
inductive Chain (α : Type)
  | root (o : Obj α) (sources : List α)
  | context (o : Obj α) (inner : Chain α)
deriving DecidableEq, Repr

/-- `ANNError::new`, 123-132; `Located::source` (338-345) passes the sources of the value on. -/
def new (t : Ty) (v : α) (sources : List α) (loc : Loc) : Chain α := .root (located t v loc) sources

/-- `ANNError::message`, 149-158: no sources. -/
def message (t : Ty) (v : α) (loc : Loc) : Chain α := .root (located t v loc) []

/-- `ANNError::context`, 211-220. -/
def context (e : Chain α) (t : Ty) (v : α) (loc : Loc) : Chain α := .context (located t v loc) e

/-- `anyhow::Error::downcast_ref`: the newest object of the type. -/
def anyhowRef (t : Ty) : Chain α → Option (Obj α)
  | .root o _ => if o.ty = t then some o else none
  | .context o e => if o.ty = t then some o else anyhowRef t e

/-- `anyhow::Error::is`. -/
def anyhowIs (t : Ty) (e : Chain α) : Bool := (anyhowRef t e).isSome

/-- `anyhow::Error::downcast`: the value, or the error itself. -/
def anyhowDowncast (t : Ty) (e : Chain α) : Except (Chain α) (Obj α) :=
  match anyhowRef t e with
  | some o => .ok o
  | none => .error e

/-- A write through `anyhow::Error::downcast_mut`. -/
def anyhowWrite (t : Ty) (f : α → α) : Chain α → Chain α
  | .root o s => if o.ty = t then .root { o with value := f o.value } s else .root o s
  | .context o e => if o.ty = t then .context { o with value := f o.value } e else .context o (anyhowWrite t f e)

/-- `ANNError::is`, 163-168. -/
def is (t : Ty) (e : Chain α) : Bool := anyhowIs (.located t) e || anyhowIs t e

/-- `ANNError::downcast`, 171-182. -/
def downcast (t : Ty) (e : Chain α) : Except (Chain α) α :=
  match anyhowDowncast t e with
  | .ok o => .ok o.value
  | .error e =>
    match anyhowDowncast (.located t) e with
    | .ok o => .ok o.value
    | .error e => .error e

/-- `ANNError::downcast_ref`, 185-193. -/
def downcastRef (t : Ty) (e : Chain α) : Option α :=
  match anyhowRef t e with
  | some o => some o.value
  | none => (anyhowRef (.located t) e).map (·.value)

/-- `ANNError::downcast_mut`, 196-205, and a write through the reference: `none` if there is no reference. -/
def writeMut (t : Ty) (f : α → α) (e : Chain α) : Option (Chain α) :=
  if anyhowIs t e then some (anyhowWrite t f e)
  else if anyhowIs (.located t) e then some (anyhowWrite (.located t) f e)
  else none

/-- The debug format of `anyhow::Error`, as `Display` of `ANNError` prints it (223-227): values with their locations
(`Located::fmt`, 323-336), newest first, then the sources of the root. -/
def display : Chain α → List (α × Option Loc)
  | .root o sources => (o.value, o.loc) :: sources.map (fun s => (s, none))
  | .context o e => (o.value, o.loc) :: display e

/-- `ErrorContext::context`, 394-403; `conv` is the conversion of the error type. -/
def contextResult {β : Type} (conv : ε → Chain α) (r : Except ε β) (t : Ty) (v : α) (loc : Loc) : Except (Chain α) β :=
  match r with
  | .ok b => .ok b
  | .error e => .error (context (conv e) t v loc)

/-- `ErrorContext::with_context`, 405-415: the number of calls of `f` comes first. -/
def withContext {β : Type} (conv : ε → Chain α) (r : Except ε β) (t : Ty) (f : Unit → α) (loc : Loc) :
    Nat × Except (Chain α) β :=
  match r with
  | .ok b => (0, .ok b)
  | .error e => (1, .error (context (conv e) t (f ()) loc))

end Verif.Error.AnnError
