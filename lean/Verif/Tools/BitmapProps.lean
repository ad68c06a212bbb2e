import Verif.Tools.BitmapLemmas
/-!
# C91: label bitmaps of the ground truth tools
-/
namespace Verif.Tools

open Verif.Label

/-- The steps of a computation that succeeds. -/
theorem computeBitmaps_ok {docs : List (Nat × Json)} {queries : List (Nat × Expr)} {bms : List (List Nat)}
    (h : computeBitmaps docs queries = .ok bms) :
    ∃ flat maps g accs, flattenAll docs = some flat ∧ docMaps flat = some maps ∧
      globalLoop [] (maps.map (·.2)) = some g ∧ makeAccels maps g = some accs ∧
      evalAccs accs (queries.map (·.2)) = some bms := by
  unfold computeBitmaps at h
  cases h1 : flattenAll docs with
  | none => rw [h1] at h; simp at h
  | some flat =>
    rw [h1] at h; dsimp only at h
    cases h2 : docMaps flat with
    | none => rw [h2] at h; simp at h
    | some maps =>
      rw [h2] at h; dsimp only at h
      cases h3 : globalLoop [] (maps.map (·.2)) with
      | none => rw [h3] at h; simp at h
      | some g =>
        rw [h3] at h; dsimp only at h
        cases h4 : makeAccels maps g with
        | none => rw [h4] at h; simp at h
        | some accs =>
          rw [h4] at h; dsimp only at h
          cases h5 : evalAccs accs (queries.map (·.2)) with
          | none => rw [h5] at h; simp at h
          | some b =>
            rw [h5] at h
            simp only [Res.ok.injEq] at h
            subst h
            exact ⟨flat, maps, g, accs, rfl, h2, h3, h4, h5⟩

/-- **C91.** When the bitmaps are computed, there is one for each query, in order, and it holds exactly the ids of the
documents whose attributes satisfy the filter. -/
theorem C91_bitmaps (docs : List (Nat × Json)) (queries : List (Nat × Expr)) (bms : List (List Nat))
    (h : computeBitmaps docs queries = .ok bms) (hn : (docs.map (·.1)).Nodup) :
    ∃ flat, flattenAll docs = some flat ∧ bms.length = queries.length ∧
      ∀ (j : Nat) (q : Nat × Expr) (b : List Nat), queries[j]? = some q → bms[j]? = some b →
        ∀ id, id ∈ b ↔ ∃ label attrs, (id, label) ∈ docs ∧ flattenD [] label = some attrs ∧ Sat flat attrs q.2 := by
  obtain ⟨flat, maps, g, accs, h1, h2, h3, h4, h5⟩ := computeBitmaps_ok h
  obtain ⟨m1, m2, m3, m4⟩ := docMaps_spec flat maps h2
  obtain ⟨f1, f2⟩ := flattenAll_spec docs flat h1
  have hn' : (maps.map (·.1)).Nodup := by rw [m1, f1]; exact hn
  have ok := accels_ok m2 h3 h4
  obtain ⟨l, get⟩ := evalAccs_get _ _ h5
  refine ⟨flat, h1, by simpa using l, ?_⟩
  intro j q b hq hb id
  obtain ⟨e, he, hev⟩ := get j b hb
  rw [List.getElem?_map, hq] at he
  simp only [Option.map_some, Option.some.injEq] at he
  subst he
  rw [evalAcc_spec ok hn' _ b hev id]
  have sf : SameFields maps flat := by
    intro f
    constructor
    · rintro ⟨d, hd, v, hv⟩
      obtain ⟨as, ha, hp⟩ := m3 d hd
      exact ⟨_, ha, v, (hp _).1 hv⟩
    · rintro ⟨d, hd, v, hv⟩
      obtain ⟨as, ha, hp⟩ := m4 d hd
      exact ⟨_, ha, v, (hp _).2 hv⟩
  constructor
  · rintro ⟨attrs, hm, hs⟩
    obtain ⟨as, ha, hp⟩ := m3 _ hm
    obtain ⟨label, hl, hf⟩ := (f2 id as).1 ha
    exact ⟨label, as, hl, hf, (sat_congr sf hp _).1 hs⟩
  · rintro ⟨label, as, hl, hf, hs⟩
    obtain ⟨m, hm, hp⟩ := m4 _ ((f2 id as).2 ⟨label, hl, hf⟩)
    exact ⟨m, hm, (sat_congr sf hp _).2 hs⟩

mutual
theorem plain_fields {label : Json} (e : Expr) (h : Plain label e) :
    ∀ f ∈ labelSet e, f.head? ≠ some 46 ∧ ScalarAt label f := by
  match e, h with
  | .cmp g op, h =>
    rw [Plain] at h
    intro f hf
    simp only [labelSet, List.mem_singleton] at hf
    subst hf
    exact ⟨h.1, h.2.1⟩
  | .not e, h =>
    rw [Plain] at h
    intro f hf
    rw [labelSet] at hf
    exact plain_fields e h.1 f hf
  | .or es, h =>
    rw [Plain] at h
    intro f hf
    rw [labelSet] at hf
    exact plain_fieldsAll es h f hf
  | .and es, h =>
    rw [Plain] at h
    intro f hf
    rw [labelSet] at hf
    exact plain_fieldsAll es h.2 f hf
theorem plain_fieldsAll {label : Json} (es : List Expr) (h : PlainAll label es) :
    ∀ f ∈ labelSets es, f.head? ≠ some 46 ∧ ScalarAt label f := by
  match es, h with
  | [], _ => intro f hf; simp [labelSets] at hf
  | e :: rest, h =>
    rw [PlainAll] at h
    intro f hf
    rw [labelSets, List.mem_append] at hf
    rcases hf with hf | hf
    · exact plain_fields e h.1 f hf
    · exact plain_fieldsAll rest h.2 f hf
end

mutual
/-- On a plain filter, the attributes decide as the evaluator does. -/
theorem sat_eval {docs : List (Nat × Attrs)} {label : Json} {attrs : Attrs} (hl : LabelOk label)
    (ha : flattenD [] label = some attrs) (e : Expr) (h : Plain label e) :
    Sat docs attrs e ↔ evalExpr label e = true := by
  match e, h with
  | .cmp f op, h =>
    rw [Plain] at h
    obtain ⟨h0, hs, hp⟩ := h
    rw [Sat, evalExpr, evalCmp]
    simp only [attrs_field hl ha h0]
    cases hg : getByPath label f with
    | none => simp
    | some v =>
      obtain ⟨a, hv⟩ := hs v hg
      have hb : BoundNum op := by cases op <;> first | trivial | exact hp
      have := opHolds_eval (getPath_labelOk _ hl hg) hv hb (op := op) (by
        intro c hc m k hm hk he
        subst hm
        rcases hc with rfl | rfl
        · exact hp m k hg hk he
        · exact hp m k hg hk he)
      dsimp only
      rw [← this]
      simp [hv]
  | .not e, h =>
    rw [Plain] at h
    obtain ⟨hp, hne, hall⟩ := h
    have ih := sat_eval (docs := docs) hl ha e hp
    rw [Sat, evalExpr, ih]
    have has : ∀ f ∈ labelSet e, HasField attrs f := by
      intro f hf
      obtain ⟨h0, hs⟩ := plain_fields e hp f hf
      obtain ⟨v, hv⟩ := hall f hf
      obtain ⟨a, hva⟩ := hs v hv
      exact ⟨a, (attrs_field hl ha h0 a).2 ⟨v, hv, hva⟩⟩
    have el : Eligible docs attrs (labelSet e) := by
      cases hls : labelSet e with
      | nil => exact absurd hls hne
      | cons f fs =>
        rw [hls] at has
        exact ⟨has f (by simp), fun g hg _ => has g (by simp [hg])⟩
    simp [el]
  | .or es, h =>
    rw [Plain] at h
    rw [Sat, evalExpr]
    exact (sat_evalAll hl ha es h).2
  | .and es, h =>
    rw [Plain] at h
    rw [Sat, evalExpr, (sat_evalAll hl ha es h.2).1]
    simp [h.1]
theorem sat_evalAll {docs : List (Nat × Attrs)} {label : Json} {attrs : Attrs} (hl : LabelOk label)
    (ha : flattenD [] label = some attrs) (es : List Expr) (h : PlainAll label es) :
    (SatAll docs attrs es ↔ evalAll label es = true) ∧ (SatAny docs attrs es ↔ evalAny label es = true) := by
  match es, h with
  | [], _ => simp [SatAll, SatAny, evalAll, evalAny]
  | e :: rest, h =>
    rw [PlainAll] at h
    have i1 := sat_eval (docs := docs) hl ha e h.1
    obtain ⟨i2, i3⟩ := sat_evalAll (docs := docs) hl ha rest h.2
    simp [SatAll, SatAny, evalAll, evalAny, i1, i2, i3]
end

/-- **C91.** On labels of nested objects and filters that are plain for every document, the bitmap of a query is the
set of the documents the evaluator accepts.

What is missing: filters with an empty `And`, with a negation over a field some document lacks, and with constants
equal to a number of another type.  For these the two disagree: see the theorems below. -/
theorem C91_agrees_partial (docs : List (Nat × Json)) (queries : List (Nat × Expr)) (bms : List (List Nat))
    (h : computeBitmaps docs queries = .ok bms) (hn : (docs.map (·.1)).Nodup) (hl : ∀ d ∈ docs, LabelOk d.2)
    (j : Nat) (q : Nat × Expr) (b : List Nat) (hq : queries[j]? = some q) (hb : bms[j]? = some b)
    (hp : ∀ d ∈ docs, Plain d.2 q.2) (id : Nat) :
    id ∈ b ↔ ∃ label, (id, label) ∈ docs ∧ evalExpr label q.2 = true := by
  obtain ⟨flat, h1, -, h2⟩ := C91_bitmaps docs queries bms h hn
  rw [h2 j q b hq hb id]
  constructor
  · rintro ⟨label, attrs, hm, hf, hs⟩
    exact ⟨label, hm, (sat_eval (hl _ hm) hf _ (hp _ hm)).1 hs⟩
  · rintro ⟨label, hm, he⟩
    obtain ⟨attrs, hf, -⟩ := flattenD_spec label (hl _ hm) []
    exact ⟨label, attrs, hm, hf, (sat_eval (hl _ hm) hf _ (hp _ hm)).2 he⟩

/-- **C91.** Bitmaps are only computed for collections in which a path never has two values in a document, and has
values of one type in all of them. -/
theorem C91_one_type (docs : List (Nat × Json)) (queries : List (Nat × Expr)) (bms : List (List Nat))
    (h : computeBitmaps docs queries = .ok bms) (d e : Nat × Json) (hd : d ∈ docs) (he : e ∈ docs)
    (as bs : Attrs) (ha : flattenD [] d.2 = some as) (hb : flattenD [] e.2 = some bs)
    (k : Bytes) (v w : AttrVal) (hv : (k, v) ∈ as) (hw : (k, w) ∈ bs) :
    sameKind v w = true ∧ ∀ v', (k, v') ∈ as → v' = v := by
  obtain ⟨flat, maps, g, accs, h1, h2, h3, h4, h5⟩ := computeBitmaps_ok h
  obtain ⟨m1, m2, m3, m4⟩ := docMaps_spec flat maps h2
  obtain ⟨f1, f2⟩ := flattenAll_spec docs flat h1
  obtain ⟨n, g1, g2⟩ := globalLoop_spec _ [] g (fun _ _ => False) (by simp [GlobalOk]) h3
  simp only [false_or, List.mem_map] at g1 g2
  obtain ⟨ma, hma, pa⟩ := m4 _ ((f2 d.1 as).2 ⟨d.2, hd, ha⟩)
  obtain ⟨mb, hmb, pb⟩ := m4 _ ((f2 e.1 bs).2 ⟨e.2, he, hb⟩)
  have sa : ∃ m, (∃ a, a ∈ maps ∧ a.2 = m) ∧ (k, v) ∈ m := ⟨ma, ⟨_, hma, rfl⟩, (pa _).2 hv⟩
  have sb : ∃ m, (∃ a, a ∈ maps ∧ a.2 = m) ∧ (k, w) ∈ m := ⟨mb, ⟨_, hmb, rfl⟩, (pb _).2 hw⟩
  obtain ⟨r, hr⟩ := (g1 k).2 ⟨v, sa⟩
  refine ⟨sameKind_trans (sameKind_symm (g2 k r v hr sa)) (g2 k r w hr sb), fun v' hv' => ?_⟩
  have x1 := (aget_mem (m2 _ hma) k v).2 ((pa _).2 hv)
  have x2 := (aget_mem (m2 _ hma) k v').2 ((pa _).2 hv')
  rw [x1] at x2
  simpa using x2.symm

/-- Three documents: `{"a":{"b":1},"c":"x"}`, `{"a":{"b":5}}`, `{"c":"y","d":true}`. -/
def exDocs : List (Nat × Json) :=
  [(7, .obj [(lit "a", .obj [(lit "b", .num (.pos 1))]), (lit "c", .str (lit "x"))]),
   (2, .obj [(lit "a", .obj [(lit "b", .num (.pos 5))])]),
   (4, .obj [(lit "c", .str (lit "y")), (lit "d", .bool true)])]

/-- The bits of `2.0`. -/
def two : Nat := 4611686018427387904

/-- `C91_bitmaps`, `C91_one_type`: a conjunction, a disjunction, and a negation. -/
example : computeBitmaps exDocs
    [(0, .or [.cmp (lit "a.b") (.gt two), .cmp (lit "c") (.eq (.str (lit "y")))]),
     (1, .and [.cmp (lit "a.b") (.lte two), .cmp (lit "c") (.ne (.str (lit "y")))]),
     (2, .not (.cmp (lit "a.b") (.eq (.num (.pos 1)))))] = .ok [[2, 4], [7], [2]] := by
  decide +kernel

/-- `C91_agrees_partial`: its hypotheses hold of these documents and a disjunction. -/
example : (∀ d ∈ exDocs, LabelOk d.2) ∧ (exDocs.map (·.1)).Nodup ∧
    ∀ d ∈ exDocs, Plain d.2 (.or [.cmp (lit "a.b") (.gt two), .cmp (lit "c") (.eq (.str (lit "y")))]) := by
  refine ⟨?_, by decide +kernel, ?_⟩
  · intro d hd
    simp only [exDocs, List.mem_cons, List.not_mem_nil, or_false] at hd
    rcases hd with rfl | rfl | rfl <;>
      simp only [LabelOk, LabelEntriesOk, NameOk, NumOk] <;> decide +kernel
  · intro d hd
    simp only [Plain, PlainAll, OpPlain, ScalarAt, NoMix]
    refine ⟨⟨by decide +kernel, ?_, by decide +kernel⟩, ⟨by decide +kernel, ?_, ?_⟩, trivial⟩
    · intro v hv
      simp only [exDocs, List.mem_cons, List.not_mem_nil, or_false] at hd
      rcases hd with rfl | rfl | rfl
      · have : getByPath (.obj [(lit "a", .obj [(lit "b", .num (.pos 1))]), (lit "c", .str (lit "x"))]) (lit "a.b") =
          some (.num (.pos 1)) := by rfl
        rw [this] at hv
        simp only [Option.some.injEq] at hv
        subst hv
        exact ⟨.int 1, by rfl⟩
      · have : getByPath (.obj [(lit "a", .obj [(lit "b", .num (.pos 5))])]) (lit "a.b") =
          some (.num (.pos 5)) := by rfl
        rw [this] at hv
        simp only [Option.some.injEq] at hv
        subst hv
        exact ⟨.int 5, by rfl⟩
      · have : getByPath (.obj [(lit "c", .str (lit "y")), (lit "d", .bool true)]) (lit "a.b") = none := by rfl
        rw [this] at hv
        simp at hv
    · intro v hv
      simp only [exDocs, List.mem_cons, List.not_mem_nil, or_false] at hd
      rcases hd with rfl | rfl | rfl
      · have : getByPath (.obj [(lit "a", .obj [(lit "b", .num (.pos 1))]), (lit "c", .str (lit "x"))]) (lit "c") =
          some (.str (lit "x")) := by rfl
        rw [this] at hv
        simp only [Option.some.injEq] at hv
        subst hv
        exact ⟨.str (lit "x"), by rfl⟩
      · have : getByPath (.obj [(lit "a", .obj [(lit "b", .num (.pos 5))])]) (lit "c") = none := by rfl
        rw [this] at hv
        simp at hv
      · have : getByPath (.obj [(lit "c", .str (lit "y")), (lit "d", .bool true)]) (lit "c") =
          some (.str (lit "y")) := by rfl
        rw [this] at hv
        simp only [Option.some.injEq] at hv
        subst hv
        exact ⟨.str (lit "y"), by rfl⟩
    · intro m k _ hk
      simp at hk

/-- The evaluator says the same. -/
example : exDocs.filterMap (fun d => if evalExpr d.2
    (.or [.cmp (lit "a.b") (.gt two), .cmp (lit "c") (.eq (.str (lit "y")))]) then some d.1 else none) = [2, 4] := by
  decide +kernel

/-! ### Disagreements with the evaluator -/

/-- **C91 (refuted for negations).** A document without the field of a negated comparison satisfies the filter, and is
missing from its bitmap. -/
theorem C91_not_drops_documents : ∃ (docs : List (Nat × Json)) (e : Expr),
    (∀ d ∈ docs, evalExpr d.2 e = true) ∧ (docs.map (·.1)) = [0, 1] ∧
    computeBitmaps docs [(0, e)] = .ok [[0]] :=
  ⟨[(0, .obj [(lit "a", .num (.pos 2))]), (1, .obj [(lit "b", .num (.pos 1))])],
    .not (.cmp (lit "a") (.eq (.num (.pos 1)))), by decide +kernel, by decide +kernel, by decide +kernel⟩

/-- **C91 (refuted for negations).** Exchanging the two sides of a disjunction under a negation changes the bitmap: a
label no document has empties it when it comes first, and is ignored otherwise. -/
theorem C91_not_depends_on_order : ∃ (docs : List (Nat × Json)) (p q : Expr),
    (∀ d ∈ docs, evalExpr d.2 (.not (.or [p, q])) = evalExpr d.2 (.not (.or [q, p]))) ∧
    computeBitmaps docs [(0, .not (.or [p, q])), (1, .not (.or [q, p]))] = .ok [[0], []] :=
  ⟨[(0, .obj [(lit "a", .num (.pos 2))])], .cmp (lit "a") (.eq (.num (.pos 1))),
    .cmp (lit "z") (.eq (.num (.pos 1))), by decide +kernel, by decide +kernel⟩

/-- **C91 (refuted for numbers of two types).** The bitmap compares numbers as doubles: the integer `1` equals `1.0`,
and `2^53` equals `2^53 + 1`; the evaluator says they differ. -/
theorem C91_equal_as_doubles : ∃ (docs : List (Nat × Json)) (p q : Expr),
    (∀ d ∈ docs, evalExpr d.2 p = false ∧ evalExpr d.2 q = false) ∧
    computeBitmaps docs [(0, p), (1, q)] = .ok [[0], [1]] :=
  ⟨[(0, .obj [(lit "a", .num (.pos 1))]), (1, .obj [(lit "a", .num (.pos 9007199254740992))])],
    .cmp (lit "a") (.eq (.num (.flt 4607182418800017408))), .cmp (lit "a") (.eq (.num (.pos 9007199254740993))),
    by decide +kernel, by decide +kernel⟩

/-- **C91 (refuted for operators a type does not have).** A range over a text field, or an equality of a number with a
text, fails the whole computation, for every query; the evaluator says that no document matches. -/
theorem C91_type_mismatch_fails : ∃ (docs : List (Nat × Json)) (p q r : Expr),
    (∀ d ∈ docs, evalExpr d.2 p = false ∧ evalExpr d.2 q = false ∧ evalExpr d.2 r = true) ∧
    computeBitmaps docs [(0, r)] = .ok [[0]] ∧
    computeBitmaps docs [(0, r), (1, p)] = .err ∧ computeBitmaps docs [(0, r), (1, q)] = .err :=
  ⟨[(0, .obj [(lit "a", .str (lit "x")), (lit "n", .num (.pos 1))])],
    .cmp (lit "a") (.lt two), .cmp (lit "n") (.eq (.str (lit "x"))), .cmp (lit "n") (.lt two),
    by decide +kernel, by decide +kernel, by decide +kernel, by decide +kernel⟩

/-- **C91 (refuted for mixed numbers).** A field that is `1` in one document and `1.5` in another fails the whole
computation. -/
theorem C91_integer_and_real_fail : ∃ (docs : List (Nat × Json)) (e : Expr),
    (∀ d ∈ docs, evalExpr d.2 e = true) ∧ computeBitmaps docs [(0, e)] = .err :=
  ⟨[(0, .obj [(lit "a", .num (.pos 1))]), (1, .obj [(lit "a", .num (.flt 4609434218613702656))])],
    .cmp (lit "a") (.lt two), by decide +kernel, by decide +kernel⟩

/-- **C91 (refuted for nulls).** A `null` anywhere in a label panics, even in a field no query names. -/
theorem C91_null_panics : ∃ (docs : List (Nat × Json)) (e : Expr),
    (∀ d ∈ docs, evalExpr d.2 e = true) ∧ computeBitmaps docs [(0, e)] = .panic :=
  ⟨[(0, .obj [(lit "a", .num (.pos 1)), (lit "z", .null)])], .cmp (lit "a") (.lt two), by decide +kernel,
    by decide +kernel⟩

/-- **C91 (refuted for names with dots).** The field `a.b` names the key `a.b` as well as `b` in `a`; the evaluator
only knows the second. -/
theorem C91_dotted_name_matches : ∃ (docs : List (Nat × Json)) (e : Expr),
    (∀ d ∈ docs, evalExpr d.2 e = false) ∧ computeBitmaps docs [(0, e)] = .ok [[0]] :=
  ⟨[(0, .obj [(lit "a.b", .num (.pos 1))])], .cmp (lit "a.b") (.lt two), by decide +kernel, by decide +kernel⟩

end Verif.Tools
