import Verif.Pool.Model

/-! Specification for C72. -/

namespace Verif.Pool

variable {V A : Type}

/-- Request `r` has the object. -/
def Has (s : Sys V A) (r : Nat) (u : Nat) : Prop :=
  (∃ o a, s.req r = .modifying o a ∧ o.uid = u) ∨ ∃ o, s.req r = .holding o ∧ o.uid = u

/-- The object waits in the pool, once; or one request has it; or it was dropped, once. Never two of these. -/
def OnePlace (s : Sys V A) (u : Nat) : Prop :=
  ((s.queue.map (·.uid)).count u = 1 ∧ (∀ r, ¬ Has s r u) ∧ u ∉ s.dropped) ∨
  (u ∉ s.queue.map (·.uid) ∧ (∃ r, Has s r u ∧ ∀ r', Has s r' u → r' = r) ∧ u ∉ s.dropped) ∨
  (u ∉ s.queue.map (·.uid) ∧ (∀ r, ¬ Has s r u) ∧ s.dropped.count u = 1)

/-- `Same v w`: the two objects cannot be told apart. The documented contract of `modify`: the outcome cannot be told
apart from that of `create`. -/
def Lawful (k : Kind V A) (Same : V → V → Prop) : Prop :=
  ∀ a v, (k.create a = none → k.modify a v = none) ∧
    ∀ w, k.create a = some w → ∃ v', k.modify a v = some v' ∧ Same v' w

end Verif.Pool
