import Verif.AsyncTools.Model

/-! Specification vocabulary for C26. -/

namespace Verif.AsyncTools

/-- Indices handed out in a history, oldest first. -/
def handedOut {T : Nat} (log : List (Event T)) : List Nat :=
  log.filterMap fun | .yielded _ i => some i | .exhausted _ => none

end Verif.AsyncTools
