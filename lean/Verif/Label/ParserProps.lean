import Verif.Label.ParserSpec
import Mathlib.Tactic.Common
/-
C44: the filter parser enforces every condition written.
-/
namespace Verif.Label

theorem mapRes_ok {α β ε : Type} {f : α → Except ε β} {xs : List α} {ys : List β} (h : mapRes f xs = .ok ys) :
    List.Forall₂ (fun x y => f x = .ok y) xs ys := by
  induction xs generalizing ys with
  | nil =>
    simp only [mapRes, Except.ok.injEq] at h
    subst h
    exact .nil
  | cons x xs ih =>
    rw [mapRes] at h
    cases hx : f x with
    | error e => simp [hx] at h
    | ok y =>
      simp only [hx] at h
      cases hr : mapRes f xs with
      | error e => simp [hr] at h
      | ok zs =>
        simp only [hr, Except.ok.injEq] at h
        subst h
        exact .cons hx (ih hr)

theorem forall2_all {α β : Type} {P : α → Prop} {Q : β → Prop} {xs : List α} {ys : List β}
    (h : List.Forall₂ (fun x y => (Q y ↔ P x)) xs ys) : (∀ y ∈ ys, Q y) ↔ ∀ x ∈ xs, P x := by
  induction h with
  | nil => simp
  | cons hx _ ih => simp [hx, ih]

theorem forall2_any {α β : Type} {P : α → Prop} {Q : β → Prop} {xs : List α} {ys : List β}
    (h : List.Forall₂ (fun x y => (Q y ↔ P x)) xs ys) : (∃ y ∈ ys, Q y) ↔ ∃ x ∈ xs, P x := by
  induction h with
  | nil => simp
  | cons hx _ ih => simp [hx, ih]

theorem evalAll_iff (label : Json) (es : List Expr) :
    evalAll label es = true ↔ ∀ e ∈ es, evalExpr label e = true := by
  induction es with
  | nil => simp [evalAll]
  | cons e es ih => simp [evalAll, ih]

theorem evalAny_iff (label : Json) (es : List Expr) :
    evalAny label es = true ↔ ∃ e ∈ es, evalExpr label e = true := by
  induction es with
  | nil => simp [evalAny]
  | cons e es ih => simp [evalAny, ih]

theorem meaningAll_iff (label : Json) (xs : List Json) :
    MeaningAll label xs ↔ ∀ x ∈ xs, Meaning label x := by
  induction xs with
  | nil => simp [MeaningAll]
  | cons e es ih => simp [MeaningAll, ih]

theorem meaningAny_iff (label : Json) (xs : List Json) :
    MeaningAny label xs ↔ ∃ x ∈ xs, Meaning label x := by
  induction xs with
  | nil => simp [MeaningAny]
  | cons e es ih => simp [MeaningAny, ih]

theorem simpleList_iff (xs : List Json) : SimpleList xs ↔ ∀ x ∈ xs, Simple x := by
  induction xs with
  | nil => simp [SimpleList]
  | cons e es ih => simp [SimpleList, ih]

theorem meaningEntries_iff (label : Json) (kvs : List (Bytes × Json)) :
    MeaningEntries label kvs ↔ ∀ p ∈ kvs, MeaningEntry label p.1 p.2 := by
  induction kvs with
  | nil => simp [MeaningEntries]
  | cons e es ih =>
    obtain ⟨k, v⟩ := e
    rw [MeaningEntries, ih]
    simp

theorem parseOp_meaning {op : Bytes} {val : Json} {c : CmpOp} (h : parseOp op val = .ok c) (label : Json)
    (field : Bytes) : evalCmp label field c = true ↔ CondHolds label field op val := by
  unfold CondHolds evalCmp
  unfold parseOp at h
  have d1 : lit "$eq" ≠ lit "$ne" ∧ lit "$eq" ≠ lit "$lt" ∧ lit "$eq" ≠ lit "$lte" ∧ lit "$eq" ≠ lit "$gt" ∧
    lit "$eq" ≠ lit "$gte" := by decide +kernel
  have d2 : lit "$ne" ≠ lit "$lt" ∧ lit "$ne" ≠ lit "$lte" ∧ lit "$ne" ≠ lit "$gt" ∧ lit "$ne" ≠ lit "$gte" := by
    decide +kernel
  have d3 : lit "$lt" ≠ lit "$lte" ∧ lit "$lt" ≠ lit "$gt" ∧ lit "$lt" ≠ lit "$gte" := by decide +kernel
  have d4 : lit "$lte" ≠ lit "$gt" ∧ lit "$lte" ≠ lit "$gte" := by decide +kernel
  have d5 : lit "$gt" ≠ lit "$gte" := by decide +kernel
  generalize lit "$eq" = o1 at *
  generalize lit "$ne" = o2 at *
  generalize lit "$lt" = o3 at *
  generalize lit "$lte" = o4 at *
  generalize lit "$gt" = o5 at *
  generalize lit "$gte" = o6 at *
  have num : ∀ (k : Nat → CmpOp), numOp k val = .ok c → ∃ n, val.asF64 = some n ∧ c = k n := by
    intro k hk
    rw [numOp] at hk
    cases hn : val.asF64 with
    | none => simp [hn] at hk
    | some n =>
      simp only [hn, Except.ok.injEq] at hk
      exact ⟨n, rfl, hk.symm⟩
  cases hg : getByPath label field with
  | none => simp
  | some v =>
    simp only [Option.some.injEq, exists_eq_left']
    split_ifs at h with h1 h2 h3 h4 h5 h6
    · subst h1
      simp only [Except.ok.injEq] at h
      subst h
      simp [evalOp, d1]
    · subst h2
      simp only [Except.ok.injEq] at h
      subst h
      simp [evalOp, d2, h1]
    · subst h3
      obtain ⟨n, hn, rfl⟩ := num _ h
      cases hv : v.asF64 <;> simp [evalOp, d3, h1, h2, hn, hv]
    · subst h4
      obtain ⟨n, hn, rfl⟩ := num _ h
      cases hv : v.asF64 <;> simp [evalOp, d4, h1, h2, h3, hn, hv]
    · subst h5
      obtain ⟨n, hn, rfl⟩ := num _ h
      cases hv : v.asF64 <;> simp [evalOp, d5, h1, h2, h3, h4, hn, hv]
    · subst h6
      obtain ⟨n, hn, rfl⟩ := num _ h
      cases hv : v.asF64 <;> simp [evalOp, h1, h2, h3, h4, h5, hn, hv]

theorem parseField_meaning {field : Bytes} {ops : List (Bytes × Json)} {es : List Expr}
    (h : parseField field (.obj ops) = .ok es) (label : Json) :
    (∀ e ∈ es, evalExpr label e = true) ↔ ∀ p ∈ ops, CondHolds label field p.1 p.2 := by
  have hm := mapRes_ok h
  induction hm with
  | nil => simp
  | @cons p e ops es hp _ ih =>
    have hr : (∀ e ∈ es, evalExpr label e = true) ↔ ∀ p ∈ ops, CondHolds label field p.1 p.2 := by
      apply ih
      simp only [parseField, mapRes] at h ⊢
      cases hop : (parseOp p.1 p.2).map (Expr.cmp field) with
      | error x => simp [hop] at hp
      | ok y =>
        rw [hop] at h
        cases hrest : mapRes (fun p => (parseOp p.1 p.2).map (Expr.cmp field)) ops with
        | error x => simp [hrest] at h
        | ok ys =>
          simp only [hrest, Except.ok.injEq, List.cons.injEq] at h
          rw [h.2]
    have he : evalExpr label e = true ↔ CondHolds label field p.1 p.2 := by
      cases hop : parseOp p.1 p.2 with
      | error x => rw [hop] at hp; simp [Except.map] at hp
      | ok c =>
        rw [hop] at hp
        simp only [Except.map, Except.ok.injEq] at hp
        subst hp
        rw [evalExpr]
        exact parseOp_meaning hop label field
    simp only [List.mem_cons, forall_eq_or_imp, he, hr]

/-- The fields of an object, all with object conditions. -/
theorem parseFields_meaning {kvs : List (Bytes × Json)} {e : Expr} (h : parseFields kvs = .ok e)
    (hs : ∀ p ∈ kvs, p.1.head? ≠ some 36 ∧ p.2.isObj = true) (label : Json) :
    evalExpr label e = true ↔ MeaningEntries label kvs := by
  rw [meaningEntries_iff]
  rw [parseFields] at h
  split at h
  · exact absurd h (by simp)
  · rename_i hnd
    clear hnd
    split at h
    · exact absurd h (by simp)
    · rename_i subs hsubs
      have hm := mapRes_ok hsubs
      have key : (∀ e ∈ subs.flatten, evalExpr label e = true) ↔ ∀ p ∈ kvs, MeaningEntry label p.1 p.2 := by
        clear h hsubs
        induction hm with
        | nil => simp
        | @cons p es kvs subs hp _ ih =>
          have hp' := hs p (by simp)
          have hr := ih (fun q hq => hs q (by simp [hq]))
          have he : (∀ e ∈ es, evalExpr label e = true) ↔ MeaningEntry label p.1 p.2 := by
            obtain ⟨k, v⟩ := p
            cases v with
            | obj ops =>
              have hk : k ≠ lit "$not" := by
                rintro rfl
                exact hp'.1 (show (lit "$not").head? = some 36 by decide +kernel)
              simp only [MeaningEntry, if_neg hk]
              exact parseField_meaning hp label
            | _ => simp [Json.isObj] at hp'
          simp only [List.mem_cons, forall_eq_or_imp, ← he]
          rw [← hr]
          simp only [List.flatten_cons, List.mem_append]
          constructor
          · intro h
            exact ⟨fun e he => h e (Or.inl he), fun e he => h e (Or.inr he)⟩
          · rintro ⟨h1, h2⟩ e (he | he)
            · exact h1 e he
            · exact h2 e he
      rw [← key]
      split at h
      · exact absurd h (by simp)
      · rename_i x hx
        simp only [Except.ok.injEq] at h
        subst h
        rw [hx]
        simp
      · simp only [Except.ok.injEq] at h
        subst h
        rw [evalExpr, evalAll_iff]

theorem combine_ok {c : List Expr → Expr} {r : Except PErr (List Expr)} {e : Expr} (h : combine c r = .ok e) :
    ∃ es, r = .ok es ∧ e = c es := by
  cases r with
  | error x => simp [combine] at h
  | ok es =>
    cases es with
    | nil => simp [combine] at h
    | cons x xs =>
      simp only [combine, Except.ok.injEq] at h
      exact ⟨_, rfl, h.symm⟩

theorem not_dollar_get {kvs : List (Bytes × Json)} (hs : ∀ p ∈ kvs, p.1.head? ≠ some 36 ∧ p.2.isObj = true)
    {k : Bytes} (hk : k.head? = some 36) : objGet kvs k = none := by
  rw [objGet, Option.map_eq_none_iff, List.find?_eq_none]
  intro p hp
  simp only [beq_iff_eq]
  rintro rfl
  exact (hs p hp).1 hk

theorem parseD_meaning (label : Json) (left : Nat) : ∀ (filter : Json) (e : Expr), Simple filter →
    parseD left filter = .ok e → (evalExpr label e = true ↔ Meaning label filter) := by
  have hand : (lit "$and").head? = some 36 := by decide +kernel
  have hor : (lit "$or").head? = some 36 := by decide +kernel
  have hnot : (lit "$not").head? = some 36 := by decide +kernel
  have h1 : lit "$and" ≠ lit "$or" := by decide +kernel
  have h2 : lit "$and" ≠ lit "$not" := by decide +kernel
  have h3 : lit "$or" ≠ lit "$not" := by decide +kernel
  induction left with
  | zero => intro filter e _ h; simp [parseD] at h
  | succ left ih =>
    intro filter e hs h
    have fields : ∀ kvs, filter = .obj kvs → (∀ p ∈ kvs, p.1.head? ≠ some 36 ∧ p.2.isObj = true) →
        (evalExpr label e = true ↔ Meaning label filter) := by
      rintro kvs rfl hk
      rw [parseD, not_dollar_get hk hand, not_dollar_get hk hor, not_dollar_get hk hnot] at h
      rw [Meaning]
      exact parseFields_meaning h hk label
    have list : ∀ xs es, mapRes (parseD left) xs = .ok es → (∀ x ∈ xs, Simple x) →
        List.Forall₂ (fun x e => (evalExpr label e = true ↔ Meaning label x)) xs es := by
      intro xs es hm hsx
      have := mapRes_ok hm
      clear hm
      induction this with
      | nil => exact .nil
      | cons hx _ ih' => exact .cons (ih _ _ (hsx _ (by simp)) hx) (ih' (fun x hx => hsx x (by simp [hx])))
    cases filter with
    | obj kvs =>
      match kvs, hs, h, fields with
      | [], hs, h, fields => exact fields _ rfl (by simp)
      | (k, v) :: p :: rest, hs, h, fields => exact fields _ rfl hs
      | [(k, v)], hs, h, fields =>
        cases v with
        | arr xs =>
          rw [Simple, SimpleObj, SimpleOne, simpleList_iff] at hs
          rw [Meaning, MeaningEntries, MeaningEntries, MeaningEntry]
          rcases hs.1 with rfl | rfl
          · rw [if_pos rfl, meaningAll_iff]
            simp only [parseD, objGet, List.find?_cons, beq_self_eq_true, Option.map_some, asArr] at h
            obtain ⟨es, hes, rfl⟩ := combine_ok h
            rw [evalExpr, evalAll_iff, and_true]
            exact forall2_all (list xs es hes hs.2)
          · rw [if_neg (Ne.symm h1), if_pos rfl, meaningAny_iff]
            have e1 : (lit "$or" == lit "$and") = false := by simpa using Ne.symm h1
            simp only [parseD, objGet, List.find?_cons, e1, beq_self_eq_true, Option.map_some, asArr,
              List.find?_nil, Option.map_none] at h
            obtain ⟨es, hes, rfl⟩ := combine_ok h
            rw [evalExpr, evalAny_iff, and_true]
            exact forall2_any (list xs es hes hs.2)
        | obj ops =>
          by_cases hk : k = lit "$not"
          · subst hk
            have hso : SimpleObj ops := by
              rw [Simple, SimpleObj, SimpleOne, if_pos rfl] at hs
              exact hs
            rw [Meaning, MeaningEntries, MeaningEntries, MeaningEntry, if_pos rfl]
            have e1 : (lit "$not" == lit "$and") = false := by simpa using Ne.symm h2
            have e2 : (lit "$not" == lit "$or") = false := by simpa using Ne.symm h3
            simp only [parseD, objGet, List.find?_cons, e1, e2, beq_self_eq_true, Option.map_some, asArr,
              List.find?_nil, Option.map_none] at h
            cases hp : parseD left (.obj ops) with
            | error x => rw [hp] at h; simp [Except.map] at h
            | ok y =>
              rw [hp] at h
              simp only [Except.map, Except.ok.injEq] at h
              subst h
              have := ih (.obj ops) y (by rw [Simple]; exact hso) hp
              rw [Meaning] at this
              rw [evalExpr, ← this]
              simp
          · rw [Simple, SimpleObj, SimpleOne, if_neg hk] at hs
            exact fields _ rfl (by simp [hs, Json.isObj])
        | _ => simp [Simple, SimpleObj, SimpleOne] at hs
    | _ => simp [Simple] at hs

/-- C44, for documents in which every object is either one logical operator with its argument or only fields with
object conditions: the accepted expression is satisfied by exactly the labels that satisfy every condition of the
document.  Missing: an object that mixes a logical operator with other entries, and a field whose condition is not
an object; there conditions are dropped (`C44_siblings_dropped`, `C44_plain_value_dropped`). -/
theorem C44_meaning_partial (filter label : Json) (e : Expr) (hs : Simple filter)
    (h : parseFilter filter = .ok e) : evalExpr label e = true ↔ Meaning label filter :=
  parseD_meaning label 3 filter e hs h

/-- `{"$and": [{"a": {"$gte": 1, "$lt": 5}}, {"$not": {"b": {"$eq": "x"}}}]}` is such a document and is accepted. -/
def exFilter : Json := .obj [(lit "$and", .arr [
  .obj [(lit "a", .obj [(lit "$gte", .num (.pos 1)), (lit "$lt", .num (.pos 5))])],
  .obj [(lit "$not", .obj [(lit "b", .obj [(lit "$eq", .str (lit "x"))])])]])]

example : Simple exFilter := by
  simp only [exFilter, Simple, SimpleObj, SimpleOne, SimpleList]
  refine ⟨Or.inl trivial, ?_, ?_, trivial⟩
  · rw [if_neg (by decide +kernel)]; decide +kernel
  · rw [if_pos trivial, if_neg (by decide +kernel)]; decide +kernel

example : (match parseFilter exFilter with | .ok e => some (evalExpr (.obj [(lit "a", .num (.pos 3))]) e,
    evalExpr (.obj [(lit "a", .num (.pos 5))]) e) | .error _ => none) = some (true, false) := by decide +kernel

/-- C44, unknown logical operators: an accepted object with an entry whose name starts with `$` has an `$and` or
`$or` array or a `$not` entry. -/
theorem C44_unknown_logical_rejected (kvs : List (Bytes × Json)) (e : Expr) (h : parseFilter (.obj kvs) = .ok e)
    (p : Bytes × Json) (hp : p ∈ kvs) (hd : p.1.head? = some 36) :
    (∃ xs, objGet kvs (lit "$and") = some (.arr xs)) ∨ (∃ xs, objGet kvs (lit "$or") = some (.arr xs)) ∨
      ∃ v, objGet kvs (lit "$not") = some v := by
  have hasArr : ∀ o xs, asArr o = some xs → o = some (.arr xs) := by
    intro o xs ho
    unfold asArr at ho
    split at ho
    · cases ho; rfl
    · simp at ho
  rw [parseFilter, parseD] at h
  cases h1 : asArr (objGet kvs (lit "$and")) with
  | some xs => exact Or.inl ⟨xs, hasArr _ _ h1⟩
  | none =>
    rw [h1] at h
    cases h2 : asArr (objGet kvs (lit "$or")) with
    | some xs => exact Or.inr (Or.inl ⟨xs, hasArr _ _ h2⟩)
    | none =>
      rw [h2] at h
      cases h3 : objGet kvs (lit "$not") with
      | some v => exact Or.inr (Or.inr ⟨v, rfl⟩)
      | none =>
        rw [h3] at h
        simp only at h
        unfold parseFields at h
        rw [if_pos (by rw [List.any_eq_true]; exact ⟨p, hp, by rw [hd]; rfl⟩)] at h
        simp at h

/-- C44, unknown comparison operators: every operator of an accepted field is one of the six, and the range
operators have a number. -/
theorem C44_unknown_comparison_rejected (field : Bytes) (ops : List (Bytes × Json)) (es : List Expr)
    (h : parseField field (.obj ops) = .ok es) (p : Bytes × Json) (hp : p ∈ ops) :
    p.1 = lit "$eq" ∨ p.1 = lit "$ne" ∨
      ((p.1 = lit "$lt" ∨ p.1 = lit "$lte" ∨ p.1 = lit "$gt" ∨ p.1 = lit "$gte") ∧ ∃ n, p.2 = .num n) := by
  have hnum : ∀ (c : Nat → CmpOp) (v : Json) (o : CmpOp), numOp c v = .ok o → ∃ n, v = .num n := by
    intro c v o ho
    unfold numOp Json.asF64 at ho
    cases v <;> simp at ho ⊢
  have hop : ∀ o, parseOp p.1 p.2 = .ok o → p.1 = lit "$eq" ∨ p.1 = lit "$ne" ∨
      ((p.1 = lit "$lt" ∨ p.1 = lit "$lte" ∨ p.1 = lit "$gt" ∨ p.1 = lit "$gte") ∧ ∃ n, p.2 = .num n) := by
    intro o ho
    unfold parseOp at ho
    split at ho
    · exact Or.inl ‹_›
    · split at ho
      · exact Or.inr (Or.inl ‹_›)
      · split at ho
        · exact Or.inr (Or.inr ⟨Or.inl ‹_›, hnum _ _ _ ho⟩)
        · split at ho
          · exact Or.inr (Or.inr ⟨Or.inr (Or.inl ‹_›), hnum _ _ _ ho⟩)
          · split at ho
            · exact Or.inr (Or.inr ⟨Or.inr (Or.inr (Or.inl ‹_›)), hnum _ _ _ ho⟩)
            · split at ho
              · exact Or.inr (Or.inr ⟨Or.inr (Or.inr (Or.inr ‹_›)), hnum _ _ _ ho⟩)
              · simp at ho
  replace h : mapRes (fun p => Except.map (Expr.cmp field) (parseOp p.1 p.2)) ops = .ok es := h
  induction ops generalizing es with
  | nil => simp at hp
  | cons q ops ih =>
    unfold mapRes at h
    cases hq : parseOp q.1 q.2 with
    | error x => rw [hq] at h; simp [Except.map] at h
    | ok o =>
      rw [hq] at h
      simp only [Except.map] at h
      rcases List.mem_cons.1 hp with rfl | hp'
      · exact hop o hq
      · split at h
        · simp at h
        · rename_i ys hys
          exact ih ys hp' hys

/-- `{"$nor": [..], "a": {..}}` and `{"a": {"$in": ..}}` are rejected. -/
example : (match parseFilter (.obj [(lit "$nor", .arr []), (lit "a", .obj [(lit "$eq", .null)])]) with
      | .ok _ => none | .error e => some e) = some .logicalOp ∧
    (match parseFilter (.obj [(lit "a", .obj [(lit "$in", .arr [])])]) with
      | .ok _ => none | .error e => some e) = some .compareOp := by
  constructor <;> decide +kernel

/-- Next to an `$and` array every other entry of the object is ignored. -/
theorem C44_siblings_dropped (kvs : List (Bytes × Json)) (xs : List Json)
    (h : objGet kvs (lit "$and") = some (.arr xs)) :
    parseFilter (.obj kvs) = parseFilter (.obj [(lit "$and", .arr xs)]) := by
  rw [parseFilter, parseFilter, parseD, parseD, h]
  simp [objGet, asArr]

/-- `{"$and": [{"a": {"$eq": 1}}], "b": {"$eq": 2}}` is accepted and matches a label that violates its second
condition; so is `{"$and": {..}, "$or": [..]}`, whose `$and` is not an array. -/
theorem C44_siblings_violation : ∃ filter label e, parseFilter filter = .ok e ∧ evalExpr label e = true ∧
    ¬ Meaning label filter := by
  refine ⟨.obj [(lit "$and", .arr [.obj [(lit "a", .obj [(lit "$eq", .num (.pos 1))])]]),
    (lit "b", .obj [(lit "$eq", .num (.pos 2))])], .obj [(lit "a", .num (.pos 1))],
    .and [.cmp (lit "a") (.eq (.num (.pos 1)))], rfl, by decide +kernel, ?_⟩
  rw [Meaning, MeaningEntries, MeaningEntries]
  rintro ⟨_, h, _⟩
  rw [MeaningEntry, if_neg (by decide +kernel)] at h
  obtain ⟨v, hv, _⟩ := h (lit "$eq", .num (.pos 2)) (by simp)
  have : getByPath (.obj [(lit "a", .num (.pos 1))]) (lit "b") = none := rfl
  rw [this] at hv
  exact absurd hv (by simp)

/-- A field whose condition is a plain value adds no condition: `{"a": {"$eq": 1}, "b": 2}` reads as
`{"a": {"$eq": 1}}`, and a label without `b` matches. -/
theorem C44_plain_value_dropped :
    parseFilter (.obj [(lit "a", .obj [(lit "$eq", .num (.pos 1))]), (lit "b", .num (.pos 2))])
      = parseFilter (.obj [(lit "a", .obj [(lit "$eq", .num (.pos 1))])]) ∧
    ∃ e, parseFilter (.obj [(lit "a", .obj [(lit "$eq", .num (.pos 1))]), (lit "b", .num (.pos 2))]) = .ok e ∧
      evalExpr (.obj [(lit "a", .num (.pos 1))]) e = true := by
  refine ⟨rfl, _, rfl, by decide +kernel⟩

end Verif.Label
