import Verif.Inmem.EbrModel

/-! # Specification of the concurrent store

Seen from outside, each slot is a simple life cycle: free → live (with a fixed value) → retired → free.
`Legal` says a sequence of events could have come from an *atomic* store: reads return exactly the live
value, a slot is only published when free, only retired when live and only reclaimed when retired. -/

namespace Verif.Inmem

/-- Life cycle of a slot. -/
inductive Life
  | free
  | live (v : Nat)
  | retired
deriving DecidableEq, Repr

/-- What a read of the atomic store returns. -/
def Life.visible : Life → Option Nat
  | .live v => some v
  | _ => none

/-- Is the event possible in the atomic store? -/
def Event.ok (f : Nat → Life) : Event → Prop
  | .published i _ => f i = .free
  | .retired i => ∃ v, f i = .live v
  | .reclaimed i => f i = .retired
  | .read i r => r = (f i).visible

/-- Its effect. -/
def Event.effect (f : Nat → Life) : Event → (Nat → Life)
  | .published i v => upd f i (.live v)
  | .retired i => upd f i .retired
  | .reclaimed i => upd f i .free
  | .read _ _ => f

/-- The store after a sequence of events. -/
def lifeAfter (f : Nat → Life) (es : List Event) : Nat → Life := es.foldl Event.effect f

/-- Every event is possible when it happens. -/
def Legal (f : Nat → Life) : List Event → Prop
  | [] => True
  | e :: es => e.ok f ∧ Legal (e.effect f) es

/-- Initially the frozen start points are live and everything else is free. -/
def initialLife (cfg : Config) (data : Nat → Nat) : Nat → Life :=
  fun i => if cfg.unfrozen ≤ i ∧ i < cfg.total then .live (data i) else .free

end Verif.Inmem
