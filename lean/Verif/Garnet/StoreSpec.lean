import Verif.Garnet.StoreModel
/-
What a user of a Garnet vector set relies on: a map from external ids to a vector and attributes.
-/
namespace Verif.Garnet.Store

variable {E V C : Type} [DecidableEq E]

/-- The set as a user sees it: the elements with their vector and their attributes. -/
abbrev View (E V : Type) := E → Option (V × List UInt8)

/-- What the calls say about one id: it exists, its vector, its attributes. -/
def Shows (s : State E V C) (m : View E V) : Prop :=
  ∀ e, match m e with
    | none => exists? s e = false
    | some (v, a) => exists? s e = true ∧ vectorOf s e = some v ∧ attrsOf s e = a

/-- Searches report exactly the elements, each under one internal id, with their vectors. -/
def Reports (s : State E V C) (m : View E V) : Prop :=
  (∀ i e v, reported s i = some (e, v) → ∃ a, m e = some (v, a)) ∧
  (∀ e v a, m e = some (v, a) → ∃ i, reported s i = some (e, v)) ∧
  (∀ i j e v w, reported s i = some (e, v) → reported s j = some (e, w) → i = j)

/-- The map after a call that succeeds. -/
def View.after (m : View E V) : Call E V C → View E V
  | .insert _ e v a _ _ => upd m e (some (v, a))
  | .remove e _ => upd m e none
  | .setAttribute e a _ => upd m e ((m e).map fun p => (p.1, a))
  | .restart _ => m

/-- No storage call fails, and no element is inserted under an id that exists. -/
def Clean (m : View E V) : Call E V C → Prop
  | .insert q e v _ a f =>
    (∃ i, a = .gives i) ∧ f.vec ∧ f.code ∧ f.ext ∧ f.int ∧ f.graph ∧ f.attr ∧ m e = none ∧
      (∀ k, q = some k → (k v).isSome)
  | .remove _ f => f.ext ∧ f.int ∧ f.attr ∧ f.vec ∧ f.code ∧ f.free ∧ f.graph
  | .setAttribute _ _ ok => ok
  | .restart _ => True

/-- A run of clean calls, with the map that a user keeps along: it changes when a call reports success. -/
inductive CleanRun : State E V C → View E V → List (Call E V C) → State E V C → View E V → Prop
  | nil (s m) : CleanRun s m [] s m
  | cons {s m c cs t m'} : Allowed s c → Clean m c →
      CleanRun (step s c).1 (if (step s c).2 then m.after c else m) cs t m' → CleanRun s m (c :: cs) t m'

/-- The element a call is about. -/
def Call.about : Call E V C → Option E
  | .insert _ e _ _ _ _ => some e
  | .remove e _ => some e
  | .setAttribute e _ _ => some e
  | .restart _ => none

/-- How the map may change in a call that can fail part of the way: as asked if the call reports success.  If
it reports a failure, an insertion may still have added the element (with other attributes), a removal may still
have removed it, and nothing else changes. -/
def Outcome (m : View E V) (c : Call E V C) (ok : Bool) (m' : View E V) : Prop :=
  if ok then m' = m.after c
  else
    m' = m ∨ match c with
      | .insert _ e v _ _ _ => ∃ a, m' = upd m e (some (v, a))
      | .remove e _ => m' = upd m e none
      | _ => False

/-- The one failure that breaks the map: a removal that cannot delete the mapping to the internal id. -/
def LosesMapping : Call E V C → Prop
  | .remove _ f => f.int = false
  | _ => False

/-- A run of calls that may fail in any way but the one above, with maps that agree with the answers. -/
inductive FaultyRun : State E V C → View E V → List (Call E V C) → State E V C → View E V → Prop
  | nil (s m) : FaultyRun s m [] s m
  | cons {s m c cs t m₁ m'} : Allowed s c → ¬ LosesMapping c → Outcome m c (step s c).2 m₁ →
      FaultyRun (step s c).1 m₁ cs t m' → FaultyRun s m (c :: cs) t m'

end Verif.Garnet.Store
