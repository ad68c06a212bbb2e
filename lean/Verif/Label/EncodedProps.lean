import Verif.Label.EncodedLemmas
import Mathlib.Algebra.Order.Field.Rat
import Mathlib.Tactic.Linarith
/-
Properties of encoded attributes and of the inline beta search (C87).
-/
namespace Verif.Label.Encoded

/-- `a = 5`, `b = "x"`; `a = 7`. -/
def exA : List Attr := [([97], .int 5), ([98], .str [120])]
def exB : List Attr := [([97], .int 7), ([98], .str [120]), ([98], .str [120])]
def exOps : List AOp := [.set 3 exA, .set 4 exB, .set 3 exB, .set 9 exA, .del 4, .set 8 []]
/-- `b = "x" and not (a = 5)`. -/
def exF : Expr := .and [.cmp [98] (.eq (.str [120])), .not (.cmp [97] (.eq (.num (.pos 5))))]

theorem runOps_append (ops more : List AOp) : runOps (ops ++ more) = more.foldl stepOp (runOps ops) := by
  unfold runOps; rw [List.foldl_append]

/-- C87: equal attribute values have equal hashes, equality is an equivalence, and it is equality of kind and value,
with one NaN and one zero. -/
theorem C87_equality (a b c : AttrVal) :
    (valEq a b = true → hashInput a = hashInput b) ∧ valEq a a = true ∧ (valEq a b = true → valEq b a = true) ∧
      (valEq a b = true → valEq b c = true → valEq a c = true) ∧
      (a.valid → b.valid → (valEq a b = true ↔ SameValue a b)) :=
  ⟨hash_of_valEq, valEq_refl a, valEq_symm, valEq_trans, valEq_iff⟩

example : (AttrVal.real negZero).valid ∧ (AttrVal.real 0).valid ∧ valEq (.real negZero) (.real 0) = true ∧
    valEq (.real 9221120237041090561) (.real 18444492273895866369) = true ∧ valEq (.int 5) (.real 4617315517961601024) = false := by
  refine ⟨by simp [AttrVal.valid, negZero], by simp [AttrVal.valid], ?_, ?_, ?_⟩ <;> decide +kernel

/-- C87: the operations of the store answer as the history says and never fail, except that a vector needs an
attribute: after any history, setting attributes succeeds exactly if there is one and otherwise changes nothing,
deleting says whether the vector had attributes, and a vector exists exactly if it has attributes. -/
theorem C87_operations (ops : List AOp) (id : Nat) (attrs : List Attr) :
    ((runOps ops).setElement id attrs).2 = (if attrs = [] then none else some true) ∧
      (attrs = [] → ((runOps ops).setElement id attrs).1 = runOps ops) ∧
      ((runOps ops).delete id).2 = some (docsAfter ops id).isSome ∧
      (runOps ops).idExists id = (docsAfter ops id).isSome := by
  have h := good_run ops
  refine ⟨?_, ?_, ?_, h.has id⟩
  · unfold AStore.setElement
    cases attrs <;> simp
  · rintro rfl; rfl
  · rw [delete_eq h]
    cases docsAfter ops id <;> simp

example : docsAfter exOps 3 = some exB ∧ docsAfter exOps 4 = none ∧ docsAfter exOps 9 = some exA ∧
    docsAfter exOps 8 = none ∧ ((runOps exOps).delete 9).2 = some true ∧ ((runOps exOps).delete 4).2 = some false := by
  decide +kernel

/-- C87: after any history the inverted index lists under an attribute exactly the vectors that have it. -/
theorem C87_inverted (ops : List AOp) (hv : ∀ op ∈ ops, OpValid op) (f : Bytes) (v : AttrVal) (hvv : v.valid) (i : Nat)
    (hi : (runOps ops).enc.get (f, v) = some i) (id : Nat) :
    id ∈ (Sets.get (runOps ops).inv i).getD [] ↔ ∃ attrs, docsAfter ops id = some attrs ∧ Has attrs f v := by
  have h := good_run ops
  have hD := docs_valid ops hv (D := fun _ => none) (by simp)
  show id ∈ mem (runOps ops).inv i ↔ _
  rw [h.core.inv]
  cases hd : docsAfter ops id with
  | none => simp
  | some attrs =>
    simp only [Option.getD_some, Option.some.injEq, exists_eq_left']
    constructor
    · rintro ⟨p, hp, hg⟩
      exact ⟨p, hp, (attrEq_iff (hD id attrs hd p hp) hvv).1 (get_inj h.core.enc hg hi)⟩
    · rintro ⟨p, hp, hs⟩
      exact ⟨p, hp, by rw [get_congr _ ((attrEq_iff (hD id attrs hd p hp) hvv).2 hs), hi]⟩

example : (runOps exOps).enc.get ([98], .str [120]) = some 1 ∧ Sets.get (runOps exOps).inv 1 = some [3, 9] := by
  decide +kernel

/-- C87: a filter encoded at any time is, at any later time, true of a vector's ids exactly if the vector's current
attributes satisfy the filter; a vector without attributes has no ids. -/
theorem C87_filter (ops more : List AOp) (hv : ∀ op ∈ ops ++ more, OpValid op) (e : Expr)
    (he : ∀ c ∈ cmps e, CmpValid c) (x : IdExpr) (hx : mapExpr (runOps ops).enc e = .ok x) (id : Nat) :
    (docsAfter (ops ++ more) id = none → Sets.get (runOps (ops ++ more)).index id = none) ∧
      ∀ attrs, docsAfter (ops ++ more) id = some attrs →
        ∃ labels, Sets.get (runOps (ops ++ more)).index id = some labels ∧ (evalId labels x = true ↔ Sat attrs e) := by
  have h := good_run (ops ++ more)
  have hD := docs_valid (ops ++ more) hv (D := fun _ => none) (by simp)
  have hh := h.has id
  unfold Sets.has at hh
  constructor
  · intro hn
    rw [hn] at hh
    cases hg : Sets.get (runOps (ops ++ more)).index id with
    | none => rfl
    | some l => rw [hg] at hh; cases hh
  · intro attrs hd
    rw [hd] at hh
    cases hg : Sets.get (runOps (ops ++ more)).index id with
    | none => rw [hg] at hh; cases hh
    | some labels =>
      refine ⟨labels, rfl, eval_iff ?_ e x he hx⟩
      intro f v a i _ hi ha
      have hm : mem (runOps (ops ++ more)).index id = labels := by unfold mem; rw [hg]; rfl
      rw [← hm]
      refine contains_iff h hd (hD id attrs hd) ha ?_
      rw [runOps_append]
      exact old_run more (good_run ops) _ _ hi

example : (∃ x, mapExpr (runOps exOps).enc exF = .ok x) ∧
    (∀ op ∈ exOps ++ [.set 4 exB, .set 3 exA], OpValid op) ∧ (∀ c ∈ cmps exF, CmpValid c) := by
  refine ⟨⟨.and [.term 1, .not (.term 0)], by rfl⟩, ?_, ?_⟩
  · intro op hop
    simp [exOps] at hop
    rcases hop with rfl | rfl | rfl | rfl | rfl | rfl | rfl | rfl <;> simp [OpValid, exA, exB, AttrVal.valid]
  · intro c hc
    simp [exF, cmps, cmpsAll] at hc
    rcases hc with rfl | rfl <;> intro v a h1 h2 <;> cases h1 <;> simp [tryFrom] at h2 <;> subst h2 <;>
      simp [AttrVal.valid]

/-- C87: a filter is accepted exactly if every comparison in it is an equality with a boolean, number or string that
some vector had in that field at some time, deleted vectors included. -/
theorem C87_accepted (ops : List AOp) (hv : ∀ op ∈ ops, OpValid op) (e : Expr) (he : ∀ c ∈ cmps e, CmpValid c) :
    (∃ x, mapExpr (runOps ops).enc e = .ok x) ↔ ∀ c ∈ cmps e, Known ops c := by
  rw [map_ok_iff]
  refine forall_congr' fun c => forall_congr' fun hc => ?_
  have hk : ∀ a : AttrVal, a.valid → (((runOps ops).enc.get (c.1, a)).isSome = true ↔ EverHad ops c.1 a) := by
    intro a ha
    have := known_run ops good_new (c.1, a)
    have h0 : (AStore.new.enc.get (c.1, a)).isSome = true ↔ False := by
      simp [AStore.new, Encoder.new, Encoder.get]
    rw [h0, false_or] at this
    rw [show (runOps ops).enc.get (c.1, a) = (ops.foldl stepOp AStore.new).enc.get (c.1, a) from rfl, this]
    refine exists_congr fun id => exists_congr fun attrs => ?_
    constructor
    · rintro ⟨ho, p, hp, hq⟩
      exact ⟨ho, p, hp, (attrEq_iff (hv _ ho p hp) ha).1 hq⟩
    · rintro ⟨ho, p, hp, hq⟩
      exact ⟨ho, p, hp, (attrEq_iff (hv _ ho p hp) ha).2 hq⟩
  constructor
  · rintro ⟨v, a, i, h1, h2, h3⟩
    exact ⟨v, a, h1, h2, (hk a (he c hc v a h1 h2)).1 (by rw [h3]; rfl)⟩
  · rintro ⟨v, a, h1, h2, h3⟩
    obtain ⟨i, hi⟩ := Option.isSome_iff_exists.1 ((hk a (he c hc v a h1 h2)).2 h3)
    exact ⟨v, a, i, h1, h2, hi⟩

/-- `a = 5 or a = 6`, and `not (a = 6)`. -/
def exOr : Expr := .or [.cmp [97] (.eq (.num (.pos 5))), .cmp [97] (.eq (.num (.pos 6)))]
def exNot : Expr := .not (.cmp [97] (.eq (.num (.pos 6))))

/-- C87, refuted in general: a filter that vectors satisfy is refused when it mentions a value no vector ever had. -/
theorem C87_unknown_value_refused :
    docsAfter exOps 9 = some exA ∧ Sat exA exOr ∧ Sat exA exNot ∧
      (∀ x, mapExpr (runOps exOps).enc exOr ≠ .ok x) ∧ ∀ x, mapExpr (runOps exOps).enc exNot ≠ .ok x := by
  have hr : ∀ e, mapExpr (runOps exOps).enc e = .error .unknown → ∀ x, mapExpr (runOps exOps).enc e ≠ .ok x := by
    intro e h x h'; rw [h] at h'; cases h'
  refine ⟨by decide +kernel, ?_, ?_, hr _ (by rfl), hr _ (by rfl)⟩
  · simp [Sat, SatAny, exOr, tryFrom, Has, exA, SameValue]
  · simp [Sat, exNot, tryFrom, Has, exA, SameValue]

/-- C87, refuted in general: two different integers above the `i64` range are one value to a filter. -/
theorem C87_big_integers_collide :
    jeq (.num (.pos 9223372036854775808)) (.num (.pos 9223372036854775809)) = false ∧
      ∃ a, tryFrom (.num (.pos 9223372036854775808)) = some a ∧ tryFrom (.num (.pos 9223372036854775809)) = some a := by
  refine ⟨by decide +kernel, _, rfl, ?_⟩
  decide +kernel

section Scores

variable {K : Type}

theorem seen_matches {ops : List AOp} {e : Expr} {x : IdExpr} (he : ∀ c ∈ cmps e, CmpValid c)
    (hx : mapExpr (runOps ops).enc e = .ok x) (c : Cand K) (hv : ∀ op ∈ ops ++ c.1, OpValid op)
    (hl : c.Labelled ops) :
    ∃ labels, Sets.get (c.seen ops).1 c.2.1 = some labels ∧ (evalId labels x = true ↔ c.Matches ops e) := by
  obtain ⟨attrs, hd⟩ := Option.ne_none_iff_exists'.1 hl
  obtain ⟨labels, h1, h2⟩ := (C87_filter ops c.1 hv e he x hx c.2.1).2 attrs hd
  refine ⟨labels, h1, h2.trans ⟨fun h => ⟨attrs, hd, h⟩, ?_⟩⟩
  rintro ⟨attrs', hd', h⟩
  rw [hd] at hd'; cases hd'; exact h

open Classical in
/-- C87: the search sees, for every candidate in order, the distance times beta if the candidate satisfies the filter
at the time it is looked up and the distance itself otherwise, up to the first candidate without attributes, where it
fails. -/
theorem C87_scores [Mul K] (beta : K) (ops : List AOp) (e : Expr) (he : ∀ c ∈ cmps e, CmpValid c) (x : IdExpr)
    (hx : mapExpr (runOps ops).enc e = .ok x) (cands : List (Cand K))
    (hv : ∀ c ∈ cands, ∀ op ∈ ops ++ c.1, OpValid op) :
    scoreLoop beta x (cands.map (Cand.seen ops)) =
      ((cands.takeWhile (fun c => decide (c.Labelled ops))).map
          (fun c => (c.2.1, if c.Matches ops e then c.2.2 * beta else c.2.2)),
        decide (∀ c ∈ cands, c.Labelled ops)) := by
  induction cands with
  | nil => simp [scoreLoop]
  | cons c cs ih =>
    have ih := ih (fun c' hc' => hv c' (by simp [hc']))
    have hs : Cand.seen ops c = ((c.seen ops).1, c.2.1, c.2.2) := rfl
    rw [List.map_cons, hs, scoreLoop]
    by_cases hl : c.Labelled ops
    · obtain ⟨labels, h1, h2⟩ := seen_matches he hx c (hv c (by simp)) hl
      rw [h1]
      dsimp only
      rw [ih, List.takeWhile_cons_of_pos (by simpa using hl), List.map_cons]
      unfold applyBeta
      by_cases hm : c.Matches ops e
      · simp [h2.2 hm, hm, hl]
      · have : evalId labels x = false := by
          rw [Bool.eq_false_iff]; exact fun h => hm (h2.1 h)
        simp [this, hm, hl]
    · have hn : docsAfter (ops ++ c.1) c.2.1 = none := by
        unfold Cand.Labelled at hl; simpa using hl
      have h1 := (C87_filter ops c.1 (hv c (by simp)) e he x hx c.2.1).1 hn
      rw [show Sets.get (c.seen ops).1 c.2.1 = none from h1, List.takeWhile_cons_of_neg (by simpa using hl)]
      simp [hl]

open Classical in
/-- C87: the results of a search are its candidates that satisfy the filter when they are looked up at the end, in
their order; the search fails exactly if one of the candidates has no attributes then. -/
theorem C87_results (ops : List AOp) (e : Expr) (he : ∀ c ∈ cmps e, CmpValid c) (x : IdExpr)
    (hx : mapExpr (runOps ops).enc e = .ok x) (cands : List (Cand K))
    (hv : ∀ c ∈ cands, ∀ op ∈ ops ++ c.1, OpValid op) :
    postLoop x (cands.map (Cand.seen ops)) =
      if ∀ c ∈ cands, c.Labelled ops then
        some ((cands.filter (fun c => decide (c.Matches ops e))).map (fun c => c.2))
      else none := by
  induction cands with
  | nil => simp [postLoop]
  | cons c cs ih =>
    have ih := ih (fun c' hc' => hv c' (by simp [hc']))
    have hs : Cand.seen ops c = ((c.seen ops).1, c.2.1, c.2.2) := rfl
    rw [List.map_cons, hs, postLoop]
    by_cases hl : c.Labelled ops
    · obtain ⟨labels, h1, h2⟩ := seen_matches he hx c (hv c (by simp)) hl
      rw [h1]
      dsimp only
      rw [ih]
      by_cases ha : ∀ c ∈ cs, c.Labelled ops
      · rw [if_pos ha, if_pos (by simpa [hl] using ha)]
        by_cases hm : c.Matches ops e
        · simp [h2.2 hm, hm]
        · have : evalId labels x = false := by
            rw [Bool.eq_false_iff]; exact fun h => hm (h2.1 h)
          simp [this, hm]
      · rw [if_neg ha, if_neg (fun h => ha (fun c' hc' => h c' (by simp [hc'])))]
    · have hn : docsAfter (ops ++ c.1) c.2.1 = none := by
        unfold Cand.Labelled at hl; simpa using hl
      have h1 := (C87_filter ops c.1 (hv c (by simp)) e he x hx c.2.1).1 hn
      rw [show Sets.get (c.seen ops).1 c.2.1 = none from h1, if_neg (fun h => hl (h c (by simp)))]

end Scores

/-- Vector 3 satisfies the filter, vector 9 does not until it is set again, vector 4 has no attributes. -/
def exCands : List (Cand Rat) := [([], 3, 10), ([], 9, 20), ([.set 9 exB], 9, 30)]

example : scoreLoop (1 / 2 : Rat) (.and [.term 1, .not (.term 0)]) (exCands.map (Cand.seen exOps)) =
    ([(3, 5), (9, 20), (9, 15)], true) := by decide +kernel
example : postLoop (.and [.term 1, .not (.term 0)]) (exCands.map (Cand.seen exOps)) = some [(3, 10), (9, 30)] := by
  decide +kernel
example : scoreLoop (1 / 2 : Rat) (.and [.term 1, .not (.term 0)])
    ((exCands ++ [([], 4, 1), ([], 3, 2)]).map (Cand.seen exOps)) = ([(3, 5), (9, 20), (9, 15)], false) := by
  decide +kernel

/-- C87: with beta between zero and one and a distance that is not negative, a vector that satisfies the filter is
never moved further away. -/
theorem C87_beta_favours_partial {K : Type} [Field K] [LinearOrder K] [IsStrictOrderedRing K] (beta d : K)
    (hb : 0 ≤ beta) (hb1 : beta ≤ 1) (hd : 0 ≤ d) (x : IdExpr) (labels : List Nat) :
    applyBeta beta x d labels ≤ d ∧ 0 ≤ applyBeta beta x d labels := by
  unfold applyBeta
  split
  · exact ⟨mul_le_of_le_one_right hd hb1, mul_nonneg hd hb⟩
  · exact ⟨le_refl _, hd⟩

example : applyBeta (1 / 2 : Rat) (.term 1) 10 [1] = 5 := by decide +kernel

/-- C87, refuted in general: with a negative distance, as inner products have, a beta below one moves a vector that
satisfies the filter further away, behind one that does not. -/
theorem C87_beta_negative_wrong :
    evalId [1] (.term 1) = true ∧ evalId [0] (.term 1) = false ∧
      ((-8 : Rat) < -6 ∧ applyBeta (1 / 2 : Rat) (.term 1) (-6) [0] < applyBeta (1 / 2 : Rat) (.term 1) (-8) [1]) := by
  decide +kernel

/-- C87, refuted: inserting several values under a key stops at the first value that is already there. -/
theorem C87_insert_values_wrong :
    ∃ s : Sets, (Sets.insertValues s 1 [5, 6]).2 = false ∧ 6 ∉ (Sets.get (Sets.insertValues s 1 [5, 6]).1 1).getD [] := by
  exact ⟨[(1, [5])], by decide +kernel⟩

theorem addAll_new (xs v : List Nat) (hn : xs.Nodup) (hd : ∀ x ∈ xs, x ∉ v) : addAll v true xs = (v ++ xs, true) := by
  induction xs generalizing v with
  | nil => simp [addAll]
  | cons x xs ih =>
    rw [List.nodup_cons] at hn
    have h1 : addTo v x = (v ++ [x], true) := by
      unfold addTo
      rw [if_neg (by simpa using hd x (by simp))]
    rw [addAll, h1]
    dsimp only
    rw [ih _ hn.2 ?_]
    · simp
    · intro y hy
      simp only [List.mem_append, List.mem_singleton, not_or]
      exact ⟨hd y (by simp [hy]), fun h => hn.1 (h ▸ hy)⟩

/-- C87: inserting several distinct values none of which is there inserts them all and says so. -/
theorem C87_insert_values_partial (s : Sets) (k : Nat) (xs : List Nat) (hn : xs.Nodup)
    (hd : ∀ x ∈ xs, x ∉ (Sets.get s k).getD []) :
    (Sets.insertValues s k xs).2 = true ∧
      ∀ j y, y ∈ (Sets.get (Sets.insertValues s k xs).1 j).getD [] ↔
        (j = k ∧ y ∈ xs) ∨ y ∈ (Sets.get s j).getD [] := by
  unfold Sets.insertValues
  rw [addAll_new xs _ hn hd]
  refine ⟨rfl, fun j y => ?_⟩
  dsimp only
  rw [get_put]
  by_cases hj : j = k
  · subst hj; simp [or_comm]
  · simp [hj]

example : (Sets.insertValues [(1, [5])] 1 [6, 7]).2 = true ∧ [6, 7].Nodup := by decide +kernel

/-! ### Documents -/

/-- What the parts of the provider hold for a document in each stage of its life. -/
def LifeOk (after : Option Status) (p : Docs2) (L : Nat → Life) (D : Nat → Option (List Attr)) : Prop :=
  Good p.attrs D ∧ ∀ id,
    match L id with
    | .absent => p.status id = after ∧ D id = none
    | .live => p.status id = some .valid ∧ (D id).isSome = true
    | .dead => p.status id = some .deleted ∧ (D id).isSome = true
    | .gone => p.status id = some .deleted ∧ D id = none

theorem life_step {after : Option Status} {p : Docs2} {L : Nat → Life} {D : Nat → Option (List Attr)}
    (h : LifeOk after p L D) (op : DOp) : ∃ D', LifeOk after (docStep after p op) (lifeStep L op) D' := by
  obtain ⟨hg, hl⟩ := h
  cases op with
  | set id attrs =>
    refine ⟨docsStep D (.set id attrs), ?_, ?_⟩
    · have := good_step hg (.set id attrs)
      simp only [stepOp] at this
      simp only [docStep, Docs2.set]
      split <;> exact this
    · intro j
      have hj := hl j
      simp only [docStep, Docs2.set, lifeStep, docsStep, AStore.setElement]
      by_cases ha : attrs = []
      · subst ha
        simpa using hj
      · have he : attrs.isEmpty = false := by simpa using ha
        simp only [he, Bool.false_eq_true, if_false, reduceCtorEq]
        by_cases hjid : j = id
        · simp [hjid, ha]
        · simpa [hjid] using hj
  | delete id =>
    refine ⟨D, hg, ?_⟩
    intro j
    have hj := hl j
    simp only [docStep, Docs2.delete, lifeStep]
    by_cases hjid : j = id
    · subst hjid
      cases hL : L j <;> rw [hL] at hj <;> simp_all
    · simpa [hjid] using hj
  | release id =>
    refine ⟨docsStep D (.del id), good_step hg (.del id), ?_⟩
    intro j
    have hj := hl j
    simp only [docStep, Docs2.release, lifeStep, docsStep]
    by_cases hjid : j = id
    · simp [hjid]
    · simpa [hjid] using hj

theorem life_run (after : Option Status) (ops : List DOp) : ∃ D, LifeOk after (docRun after ops) (lifeAfter ops) D := by
  unfold docRun lifeAfter
  have h0 : LifeOk after ⟨fun _ => after, AStore.new⟩ (fun _ => .absent) (fun _ => none) :=
    ⟨good_new, fun _ => ⟨rfl, rfl⟩⟩
  revert h0
  generalize (⟨fun _ => after, AStore.new⟩ : Docs2) = p
  generalize (fun _ : Nat => Life.absent) = L
  generalize (fun _ : Nat => (none : Option (List Attr))) = D
  intro h0
  induction ops generalizing p L D with
  | nil => exact ⟨D, h0⟩
  | cons op ops ih =>
    obtain ⟨D', h'⟩ := life_step h0 op
    exact ih _ _ _ h'

/-- C87: after any history of documents, a document that is set and not deleted since is reported valid; one that is
deleted and not yet released is an error, not a deleted document; one that is released, or was never set, is what the
data provider says, unless that is "valid". -/
theorem C87_status_partial (after : Option Status) (ops : List DOp) (id : Nat) :
    (docRun after ops).statusOf id =
      match lifeAfter ops id with
      | .absent => if after = some .valid then none else after
      | .live => some .valid
      | .dead => none
      | .gone => some .deleted := by
  obtain ⟨D, hg, hl⟩ := life_run after ops
  have hj := hl id
  have hh := hg.has id
  unfold Docs2.statusOf AStore.idExists
  rw [hh]
  cases hL : lifeAfter ops id <;> rw [hL] at hj <;> dsimp only at hj ⊢
  · rw [hj.1, hj.2]
    rcases after with _ | s
    · rfl
    · cases s <;> rfl
  · rw [hj.1, hj.2]; rfl
  · rw [hj.1, hj.2]; rfl
  · rw [hj.1, hj.2]; rfl

/-- C87, refuted: a deleted document is never reported deleted before it is released; asking is an error, whatever the
history and the data provider. -/
theorem C87_deleted_is_error (after : Option Status) (ops : List DOp) (id : Nat) (attrs : List Attr)
    (ha : attrs ≠ []) : (docRun after (ops ++ [.set id attrs, .delete id])).statusOf id = none := by
  rw [C87_status_partial]
  have : lifeAfter (ops ++ [.set id attrs, .delete id]) id = .dead := by
    unfold lifeAfter
    rw [List.foldl_append]
    simp [lifeStep, ha]
  rw [this]

example : (docRun (some .deleted) [.set 1 exA, .set 2 exB, .delete 2, .set 3 exA, .delete 3, .release 3]).statusOf 1 =
      some .valid ∧
    (docRun (some .deleted) [.set 1 exA, .set 2 exB, .delete 2]).statusOf 2 = none ∧
    (docRun (some .deleted) [.set 3 exA, .delete 3, .release 3]).statusOf 3 = some .deleted := by
  decide +kernel

end Verif.Label.Encoded
