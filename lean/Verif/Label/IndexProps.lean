import Verif.Label.IndexAgree
/-
C43: the inverted index returns the documents whose labels satisfy the filter.
-/
namespace Verif.Label

/-- **C43** (partial).  After every history of insertions of absent documents, updates and deletions of labels made
of nested objects with scalar leaves, and for every filter in the fragment `FilterOk`: the history succeeds, and if
the index answers, it answers exactly the documents whose current label satisfies the filter under direct evaluation
(`evalExpr`), provided no double of a label ties with a bound of `$gt` or `$lte`.  Filters without `$not`, `$ne` and
with scalar constants are always answered.

Missing from the full statement: the cases shown below to be false of the code (ties of doubles, fractional and huge
bounds, arrays, `-0.0`, 64-bit unsigned integers, empty conjunctions, insertion of a present document, ids from
`2^32`). -/
theorem C43_agrees_partial (ops : List LOp) (hops : LOpsOk (fun _ => none) ops) (e : Expr) (he : FilterOk e)
    (ht : ∀ i label, labelsAfter ops i = some label → NoTies label e) :
    ∃ st, runLOps [] ops = .ok st ∧
      (∀ ids, evalIdx pointerNorm st e = .ok ids →
        ∀ i, i ∈ ids ↔ ∃ label, labelsAfter ops i = some label ∧ evalExpr label e = true) ∧
      (Supported e → ∃ ids, evalIdx pointerNorm st e = .ok ids) := by
  obtain ⟨st, D, h1, h2, h3⟩ := runLOps_inv ops iinv_empty (L := fun _ => none)
    (fun i => ⟨rfl, by simp⟩) hops
  exact ⟨st, h1, fun ids hi => evalIdx_agree h2 h3 e he ht hi, fun hs => evalIdx_ok h2 e he hs⟩

/-- **C43**, documents given by their attributes: the exact answer of the index on every history of allowed
operations and every filter it evaluates, whatever the field normalizer.  Equality finds the attributes with the
value; `IdxHolds` spells out what each range operator finds. -/
theorem C43_exact (ops : List IOp) (hops : OpsOk (fun _ => none) ops) (norm : Bytes → Bytes) (e : Expr)
    (he : ExprWf norm e) :
    ∃ st, runOps [] ops = .ok st ∧ ∀ ids, evalIdx norm st e = .ok ids →
      ∀ i, i ∈ ids ↔ ∃ attrs, docsAfter (fun _ => none) ops i = some attrs ∧ IdxSat norm attrs e := by
  obtain ⟨st, h1, h2⟩ := runOps_inv ops iinv_empty hops
  exact ⟨st, h1, fun ids hi => evalIdx_spec h2.toR e he hi⟩

/-! ### A history and a filter that meet the hypotheses -/

/-- `{"a": 5, "b": {"c": "x"}, "d": 1.5}`. -/
def exLabel1 : Json := .obj [([97], .num (.pos 5)), ([98], .obj [([99], .str [120])]), ([100], .num (.flt 4609434218613702656))]
/-- `{"a": -3}`. -/
def exLabel2 : Json := .obj [([97], .num (.neg (-3)))]
/-- `{"a": 7, "b": {"c": "x"}}`. -/
def exLabel3 : Json := .obj [([97], .num (.pos 7)), ([98], .obj [([99], .str [120])])]

def exOps : List LOp :=
  [.insert 1 exLabel1, .insert 2 exLabel2, .update 2 exLabel3, .insert 3 exLabel2, .delete 3]

/-- `4.0`. -/
def bits4 : Nat := 4616189618054758400

/-- `a > 4 and (b.c == "x" or d < 4)`. -/
def exExpr : Expr := .and [.cmp [97] (.gt bits4), .or [.cmp [98, 46, 99] (.eq (.str [120])), .cmp [100] (.lt bits4)]]

example : LOpsOk (fun _ => none) exOps := by
  have l1 : LabelOk exLabel1 := by
    simp only [exLabel1, LabelOk, LabelEntriesOk, NameOk, NumOk]
    decide +kernel
  have l2 : LabelOk exLabel2 := by
    simp only [exLabel2, LabelOk, LabelEntriesOk, NameOk, NumOk]
    decide +kernel
  have l3 : LabelOk exLabel3 := by
    simp only [exLabel3, LabelOk, LabelEntriesOk, NameOk, NumOk]
    decide +kernel
  have s1 : ∀ l ∈ [exLabel1, exLabel2, exLabel3], ∀ a, flattenMap l = some a →
      a.length < 4294967296 ∧ ∀ p ∈ a, (encKey p.1 p.2).length < 4294967296 := by
    have : ∀ l ∈ [exLabel1, exLabel2, exLabel3], ∀ a ∈ flattenMap l,
      a.length < 4294967296 ∧ ∀ p ∈ a, (encKey p.1 p.2).length < 4294967296 := by
      intro l hl
      simp only [List.mem_cons, List.not_mem_nil, or_false] at hl
      rcases hl with rfl | rfl | rfl <;> decide +kernel
    exact fun l hl a ha => this l hl a ha
  refine ⟨⟨by decide, l1, rfl, s1 _ (by simp)⟩, ⟨by decide, l2, rfl, s1 _ (by simp)⟩,
    ⟨by decide, l3, s1 _ (by simp)⟩, ⟨by decide, l2, rfl, s1 _ (by simp)⟩, trivial, trivial⟩

example : FilterOk exExpr ∧ Supported exExpr := by
  have hb : BoundOk bits4 := ⟨by decide, by decide, by decide, 4, by decide, by decide, by decide +kernel⟩
  constructor
  · simp only [exExpr, FilterOk, FiltersOk, CmpOk, ConstOk, hb, and_true]
    decide
  · simp [exExpr, Supported, SupportedAll, tryFrom]

/-- The answer on this history: documents 1 and 2. -/
example : (match runLOps [] exOps with
    | .ok st => (match evalIdx pointerNorm st exExpr with | .ok ids => ids | _ => [])
    | _ => []) = [1, 2] ∨
    (match runLOps [] exOps with
    | .ok st => (match evalIdx pointerNorm st exExpr with | .ok ids => ids | _ => [])
    | _ => []) = [2, 1] := by decide +kernel

/-! ### Where index and direct evaluation disagree -/

/-- Index a single label under id `i` and evaluate a filter. -/
def indexOne (i : Nat) (label : Json) (e : Expr) : Res (List Nat) :=
  match runLOps [] [.insert i label] with
  | .ok st => evalIdx pointerNorm st e
  | .err => .err
  | .panic => .panic

/-- `{"a": 1.5}`; `1.5`, `2.5`. -/
def lab15 : Json := .obj [([97], .num (.flt 4609434218613702656))]
def bits15 : Nat := 4609434218613702656
def bits25 : Nat := 4612811918334230528

/-- `a > 1.5` returns a document with `a = 1.5`. -/
theorem C43_gt_returns_equal : indexOne 1 lab15 (.cmp [97] (.gt bits15)) = .ok [1] ∧
    evalExpr lab15 (.cmp [97] (.gt bits15)) = false := by decide +kernel

/-- `a <= 1.5` misses a document with `a = 1.5`. -/
theorem C43_lte_misses_equal : indexOne 1 lab15 (.cmp [97] (.lte bits15)) = .ok [] ∧
    evalExpr lab15 (.cmp [97] (.lte bits15)) = true := by decide +kernel

/-- `a >= 2.5` returns a document with `a = 2`; `a < 2.5` misses it. -/
theorem C43_fractional_bound :
    indexOne 1 (.obj [([97], .num (.pos 2))]) (.cmp [97] (.gte bits25)) = .ok [1] ∧
    evalExpr (.obj [([97], .num (.pos 2))]) (.cmp [97] (.gte bits25)) = false ∧
    indexOne 1 (.obj [([97], .num (.pos 2))]) (.cmp [97] (.lt bits25)) = .ok [] ∧
    evalExpr (.obj [([97], .num (.pos 2))]) (.cmp [97] (.lt bits25)) = true := by decide +kernel

/-- `a > 2^63` overflows (a panic in a checked build) although direct evaluation is `false`. -/
theorem C43_huge_bound_panics :
    indexOne 1 (.obj [([97], .num (.pos 2))]) (.cmp [97] (.gt 4890909195324358656)) = .panic ∧
    fVal 4890909195324358656 = 2 ^ 63 * 2 ^ 1074 ∧
    evalExpr (.obj [([97], .num (.pos 2))]) (.cmp [97] (.gt 4890909195324358656)) = false := by decide +kernel

/-- An empty conjunction holds of every label, and the index returns nothing. -/
theorem C43_empty_and : indexOne 1 lab15 (.and []) = .ok [] ∧ evalExpr lab15 (.and []) = true := by decide +kernel

/-- The index finds an array element by its position; direct evaluation does not enter arrays. -/
theorem C43_array : indexOne 1 (.obj [([97], .arr [.num (.pos 1)])]) (.cmp [97, 46, 48] (.eq (.num (.pos 1)))) = .ok [1] ∧
    evalExpr (.obj [([97], .arr [.num (.pos 1)])]) (.cmp [97, 46, 48] (.eq (.num (.pos 1)))) = false := by
  decide +kernel

/-- `-0.0 == 0.0` holds of a label and the index misses it. -/
theorem C43_neg_zero : indexOne 1 (.obj [([97], .num (.flt negZero))]) (.cmp [97] (.eq (.num (.flt 0)))) = .ok [] ∧
    evalExpr (.obj [([97], .num (.flt negZero))]) (.cmp [97] (.eq (.num (.flt 0)))) = true := by decide +kernel

/-- `2^63` and `2^63 + 1` are different labels and the same index key. -/
theorem C43_u64_collides :
    indexOne 1 (.obj [([97], .num (.pos 9223372036854775808))]) (.cmp [97] (.eq (.num (.pos 9223372036854775809)))) =
      .ok [1] ∧
    evalExpr (.obj [([97], .num (.pos 9223372036854775808))]) (.cmp [97] (.eq (.num (.pos 9223372036854775809)))) =
      false := by decide +kernel

/-- A `null` in a label makes the flattening panic. -/
theorem C43_null_panics : indexOne 1 (.obj [([97], .null)]) (.cmp [98] (.eq (.bool true))) = .panic := by decide +kernel

/-- A document with id `2^32` is returned as document `0`. -/
theorem C43_wide_id : indexOne 4294967296 lab15 (.cmp [97] (.gte bits15)) = .ok [0] := by decide +kernel

/-- Inserting a present document again leaves its old attributes in the index, even after the document is deleted. -/
theorem C43_reinsert_stale :
    let one : Json := .obj [([97], .num (.pos 1))]
    let two : Json := .obj [([97], .num (.pos 2))]
    let q : Expr := .cmp [97] (.eq (.num (.pos 1)))
    (match runLOps [] [.insert 1 one, .insert 1 two] with
      | .ok st => evalIdx pointerNorm st q
      | _ => .err) = .ok [1] ∧ evalExpr two q = false ∧
    (match runLOps [] [.insert 1 one, .insert 1 two, .delete 1] with
      | .ok st => evalIdx pointerNorm st q
      | _ => .err) = .ok [1] := by decide +kernel

end Verif.Label
