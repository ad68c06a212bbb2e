import Verif.Label.IndexInv
/-
What the inverted index returns for a query, exactly, in terms of the attributes of the documents.
-/
namespace Verif.Label

/-- What a comparison means to the index, on the attributes of one document.  `field` is already normalized. -/
def IdxHolds (attrs : Attrs) (field : Bytes) : CmpOp → Prop
  | .eq v => ∃ a, tryFrom v = some a ∧ (field, a) ∈ attrs
  | .ne _ => False
  | .gte b => (∃ n, (field, .int n) ∈ attrs ∧ f64ToI64 b ≤ n) ∨
      (fFinite b = true ∧ ∃ x, (field, .real x) ∈ attrs ∧ encF64 b ≤ encF64 x)
  | .gt b => (∃ n, (field, .int n) ∈ attrs ∧ f64ToI64 b < n) ∨
      (fFinite b = true ∧ ∃ x, (field, .real x) ∈ attrs ∧ encF64 b ≤ encF64 x)
  | .lte b => (∃ n, (field, .int n) ∈ attrs ∧ n ≤ f64ToI64 b) ∨
      (fFinite b = true ∧ ∃ x, (field, .real x) ∈ attrs ∧ encF64 x < encF64 b)
  | .lt b => (∃ n, (field, .int n) ∈ attrs ∧ n < f64ToI64 b) ∨
      (fFinite b = true ∧ ∃ x, (field, .real x) ∈ attrs ∧ encF64 x < encF64 b)

mutual
/-- What a filter means to the index. -/
def IdxSat (norm : Bytes → Bytes) (attrs : Attrs) : Expr → Prop
  | .and es => es ≠ [] ∧ IdxAll norm attrs es
  | .or es => IdxAny norm attrs es
  | .not _ => False
  | .cmp f op => IdxHolds attrs (norm f) op
def IdxAll (norm : Bytes → Bytes) (attrs : Attrs) : List Expr → Prop
  | [] => True
  | e :: es => IdxSat norm attrs e ∧ IdxAll norm attrs es
def IdxAny (norm : Bytes → Bytes) (attrs : Attrs) : List Expr → Prop
  | [] => False
  | e :: es => IdxSat norm attrs e ∨ IdxAny norm attrs es
end

/-- Range bounds of valid doubles, constants that are valid. -/
def OpWf : CmpOp → Prop
  | .eq v => ∀ a, tryFrom v = some a → a.valid
  | .ne _ => True
  | .lt b => b < 18446744073709551616
  | .lte b => b < 18446744073709551616
  | .gt b => b < 18446744073709551616
  | .gte b => b < 18446744073709551616

mutual
/-- Normalized fields without NUL bytes and well-formed constants. -/
def ExprWf (norm : Bytes → Bytes) : Expr → Prop
  | .and es => ExprsWf norm es
  | .or es => ExprsWf norm es
  | .not _ => True
  | .cmp f op => 0 ∉ norm f ∧ OpWf op
def ExprsWf (norm : Bytes → Bytes) : List Expr → Prop
  | [] => True
  | e :: es => ExprWf norm e ∧ ExprsWf norm es
end

theorem f64ToI64_range (b : Nat) : (AttrVal.int (f64ToI64 b)).valid := by
  unfold AttrVal.valid f64ToI64
  generalize (fVal b).tdiv (2 ^ 1074) = t
  dsimp only
  split <;> omega

theorem encInt_eq (f : Bytes) (n : Int) : encKey f (.int n) = (f ++ [0, 73]) ++ hexN 16 (encI64 n) := by
  simp [encKey, sepByte, prefI]

theorem encReal_eq (f : Bytes) (b : Nat) : encKey f (.real b) = (f ++ [0, 70]) ++ hexN 16 (encF64 b) := by
  simp [encKey, sepByte, prefF]

theorem intEnd_eq (f : Bytes) : f ++ [0, 73, 244, 143, 191, 191] = (f ++ [0, 73]) ++ [244, 143, 191, 191] := by simp
theorem realEnd_eq (f : Bytes) : f ++ [0, 70, 244, 143, 191, 191] = (f ++ [0, 70]) ++ [244, 143, 191, 191] := by simp

theorem hexN_lt_end (k n : Nat) : hexN k n < [244, 143, 191, 191] := by
  have hb := hexN_bound k n
  cases hx : hexN k n with
  | nil => simp
  | cons c cs =>
    rw [hx] at hb
    rw [List.cons_lt_cons_iff]
    exact Or.inl (hb c (by simp))

theorem real_order (f : Bytes) (a b : Nat) (ha : a < 18446744073709551616) (hb : b < 18446744073709551616) :
    encKey f (.real a) < encKey f (.real b) ↔ encF64 a < encF64 b := by
  rw [encReal_eq, encReal_eq, prefix_lt, hexN_lt (encF64_lt ha) (encF64_lt hb)]

/-- The keys of an integer range that is open above. -/
theorem int_above {f g : Bytes} {v : AttrVal} (hf : 0 ∉ f) (hg : 0 ∉ g) (hv : v.valid) {n0 : Int}
    (hn : (AttrVal.int n0).valid) :
    InRange (encKey f (.int n0)) (f ++ [0, 73, 244, 143, 191, 191]) (encKey g v) ↔
      g = f ∧ ∃ n, v = .int n ∧ n0 ≤ n := by
  have sp := (C42_int_space f g v hf hg hv).1
  constructor
  · rintro ⟨h1, h2⟩
    have : intSpace f (encKey g v) := by
      refine ⟨?_, h2⟩
      refine List.le_trans ?_ h1
      rw [encInt_eq, ← List.not_lt]
      have := (prefix_lt (f ++ [0, 73]) (hexN 16 (encI64 n0)) [])
      rw [List.append_nil] at this
      rw [this]
      simp
    obtain ⟨rfl, n, rfl⟩ := sp.1 this
    refine ⟨rfl, n, rfl, ?_⟩
    rw [← List.not_lt, C42_int_order g n n0 hv hn] at h1
    omega
  · rintro ⟨rfl, n, rfl, hle⟩
    refine ⟨?_, ?_⟩
    · rw [← List.not_lt, C42_int_order g n n0 hv hn]
      omega
    · rw [encInt_eq, intEnd_eq, prefix_lt]
      exact hexN_lt_end _ _

/-- The keys of an integer range that is open below. -/
theorem int_below {f g : Bytes} {v : AttrVal} (hf : 0 ∉ f) (hg : 0 ∉ g) (hv : v.valid) {n0 : Int}
    (hn : (AttrVal.int n0).valid) :
    InRange (f ++ [0, 73]) (encKey f (.int n0)) (encKey g v) ↔ g = f ∧ ∃ n, v = .int n ∧ n < n0 := by
  have sp := (C42_int_space f g v hf hg hv).1
  constructor
  · rintro ⟨h1, h2⟩
    have : intSpace f (encKey g v) := by
      refine ⟨h1, List.lt_trans h2 ?_⟩
      rw [encInt_eq, intEnd_eq, prefix_lt]
      exact hexN_lt_end _ _
    obtain ⟨rfl, n, rfl⟩ := sp.1 this
    exact ⟨rfl, n, rfl, (C42_int_order g n n0 hv hn).1 h2⟩
  · rintro ⟨rfl, n, rfl, hlt⟩
    exact ⟨(sp.2 ⟨rfl, n, rfl⟩).1, (C42_int_order g n n0 hv hn).2 hlt⟩

theorem real_above {f g : Bytes} {v : AttrVal} (hf : 0 ∉ f) (hg : 0 ∉ g) (hv : v.valid) {b : Nat}
    (hb : b < 18446744073709551616) :
    InRange (encKey f (.real b)) (f ++ [0, 70, 244, 143, 191, 191]) (encKey g v) ↔
      g = f ∧ ∃ x, v = .real x ∧ encF64 b ≤ encF64 x := by
  have sp := (C42_float_space f g v hf hg hv).1
  constructor
  · rintro ⟨h1, h2⟩
    have : floatSpace f (encKey g v) := by
      refine ⟨?_, h2⟩
      refine List.le_trans ?_ h1
      rw [encReal_eq, ← List.not_lt]
      have := (prefix_lt (f ++ [0, 70]) (hexN 16 (encF64 b)) [])
      rw [List.append_nil] at this
      rw [this]
      simp
    obtain ⟨rfl, n, rfl⟩ := sp.1 this
    refine ⟨rfl, n, rfl, ?_⟩
    rw [← List.not_lt, real_order g n b hv hb] at h1
    omega
  · rintro ⟨rfl, n, rfl, hle⟩
    refine ⟨?_, ?_⟩
    · rw [← List.not_lt, real_order g n b hv hb]
      omega
    · rw [encReal_eq, realEnd_eq, prefix_lt]
      exact hexN_lt_end _ _

theorem real_below {f g : Bytes} {v : AttrVal} (hf : 0 ∉ f) (hg : 0 ∉ g) (hv : v.valid) {b : Nat}
    (hb : b < 18446744073709551616) :
    InRange (f ++ [0, 70]) (encKey f (.real b)) (encKey g v) ↔ g = f ∧ ∃ x, v = .real x ∧ encF64 x < encF64 b := by
  have sp := (C42_float_space f g v hf hg hv).1
  constructor
  · rintro ⟨h1, h2⟩
    have : floatSpace f (encKey g v) := by
      refine ⟨h1, List.lt_trans h2 ?_⟩
      rw [encReal_eq, realEnd_eq, prefix_lt]
      exact hexN_lt_end _ _
    obtain ⟨rfl, n, rfl⟩ := sp.1 this
    exact ⟨rfl, n, rfl, (real_order g n b hv hb).1 h2⟩
  · rintro ⟨rfl, n, rfl, hlt⟩
    exact ⟨(sp.2 ⟨rfl, n, rfl⟩).1, (real_order g n b hv hb).2 hlt⟩

/-- A document with a key in a range, in terms of its attributes. -/
theorem posted_range {st : Store} {D : Docs} (h : RInv st D) {f : Bytes} {Q : AttrVal → Prop} {R : Bytes → Prop}
    (hR : ∀ g v, 0 ∉ g → v.valid → (R (encKey g v) ↔ g = f ∧ Q v)) (i : Nat) :
    (∃ k, R k ∧ Posted D i k) ↔ ∃ attrs, D i = some attrs ∧ ∃ v, (f, v) ∈ attrs ∧ Q v := by
  constructor
  · rintro ⟨k, hk, attrs, hD, hm⟩
    obtain ⟨p, hp, rfl⟩ := List.mem_map.1 hm
    have ok := h.fine i attrs hD
    obtain ⟨e, hq⟩ := (hR p.1 p.2 (ok.noNul p hp) (ok.valid p hp)).1 hk
    exact ⟨attrs, hD, p.2, by rw [← e]; exact hp, hq⟩
  · rintro ⟨attrs, hD, v, hm, hq⟩
    have ok := h.fine i attrs hD
    exact ⟨encKey f v, (hR f v (ok.noNul _ hm) (ok.valid _ hm)).2 ⟨rfl, hq⟩, attrs, hD,
      List.mem_map.2 ⟨(f, v), hm, rfl⟩⟩

/-- The float scan of a range comparison. -/
theorem float_scan {st : Store} {D : Docs} (h : RInv st D) {f : Bytes} (hf : 0 ∉ f) {op : CmpOp} {b : Nat}
    (hb : b < 18446744073709551616) {Q : Nat → Prop}
    (hop : (floatBounds f op = (if fFinite b then (encKey f (.real b), f ++ [0, 70, 244, 143, 191, 191])
        else ([], [])) ∧ ∀ x, Q x ↔ encF64 b ≤ encF64 x) ∨
      (floatBounds f op = (if fFinite b then (f ++ [0, 70], encKey f (.real b)) else ([], [])) ∧
        ∀ x, Q x ↔ encF64 x < encF64 b)) (acc : List Nat) :
    ∃ res, scanRange st (floatBounds f op) acc = .ok res ∧
      ∀ i, i ∈ res ↔ i ∈ acc ∨ (fFinite b = true ∧ ∃ attrs, D i = some attrs ∧ ∃ x, (f, .real x) ∈ attrs ∧ Q x) := by
  have h0 : 0 ∈ f ++ [0, 70] := by simp
  have reals : ∀ (i : Nat) (Q' : Nat → Prop), (∃ attrs, D i = some attrs ∧ ∃ v, (f, v) ∈ attrs ∧ ∃ x, v = .real x ∧ Q' x)
      ↔ ∃ attrs, D i = some attrs ∧ ∃ x, (f, AttrVal.real x) ∈ attrs ∧ Q' x := by
    intro i Q'
    constructor
    · rintro ⟨attrs, hD, v, hm, x, rfl, hq⟩
      exact ⟨attrs, hD, x, hm, hq⟩
    · rintro ⟨attrs, hD, x, hm, hq⟩
      exact ⟨attrs, hD, _, hm, x, rfl, hq⟩
  by_cases hfin : fFinite b = true
  · rcases hop with ⟨e, hQ⟩ | ⟨e, hQ⟩
    · rw [e, if_pos hfin, encReal_eq, realEnd_eq]
      obtain ⟨res, h1, h2⟩ := scanRange_posted h h0 (u := hexN 16 (encF64 b)) (v := [244, 143, 191, 191]) acc
      refine ⟨res, h1, fun i => ?_⟩
      rw [h2, ← encReal_eq, ← realEnd_eq,
        posted_range h (fun g v hg hv => real_above hf hg hv hb) i, reals]
      simp [hfin, hQ]
    · rw [e, if_pos hfin, encReal_eq]
      obtain ⟨res, h1, h2⟩ := scanRange_posted h h0 (u := []) (v := hexN 16 (encF64 b)) acc
      rw [List.append_nil] at h1 h2
      refine ⟨res, h1, fun i => ?_⟩
      rw [h2, ← encReal_eq, posted_range h (fun g v hg hv => real_below hf hg hv hb) i, reals]
      simp [hfin, hQ]
  · refine ⟨acc, ?_, fun i => by simp [hfin]⟩
    rcases hop with ⟨e, _⟩ | ⟨e, _⟩
    · rw [e, if_neg hfin]; rfl
    · rw [e, if_neg hfin]; rfl

/-- The integer scan of a range comparison. -/
theorem int_scan {st : Store} {D : Docs} (h : RInv st D) {f : Bytes} (hf : 0 ∉ f) {n0 : Int}
    (hn : (AttrVal.int n0).valid) {r : Bytes × Bytes} {Q : Int → Prop}
    (hop : (r = (encKey f (.int n0), f ++ [0, 73, 244, 143, 191, 191]) ∧ ∀ x, Q x ↔ n0 ≤ x) ∨
      (r = (f ++ [0, 73], encKey f (.int n0)) ∧ ∀ x, Q x ↔ x < n0)) :
    ∃ res, scanRange st r [] = .ok res ∧
      ∀ i, i ∈ res ↔ ∃ attrs, D i = some attrs ∧ ∃ x, (f, .int x) ∈ attrs ∧ Q x := by
  have h0 : 0 ∈ f ++ [0, 73] := by simp
  have ints : ∀ (i : Nat) (Q' : Int → Prop), (∃ attrs, D i = some attrs ∧ ∃ v, (f, v) ∈ attrs ∧ ∃ x, v = .int x ∧ Q' x)
      ↔ ∃ attrs, D i = some attrs ∧ ∃ x, (f, AttrVal.int x) ∈ attrs ∧ Q' x := by
    intro i Q'
    constructor
    · rintro ⟨attrs, hD, v, hm, x, rfl, hq⟩
      exact ⟨attrs, hD, x, hm, hq⟩
    · rintro ⟨attrs, hD, x, hm, hq⟩
      exact ⟨attrs, hD, _, hm, x, rfl, hq⟩
  rcases hop with ⟨e, hQ⟩ | ⟨e, hQ⟩
  · rw [e, encInt_eq, intEnd_eq]
    obtain ⟨res, h1, h2⟩ := scanRange_posted h h0 (u := hexN 16 (encI64 n0)) (v := [244, 143, 191, 191]) []
    refine ⟨res, h1, fun i => ?_⟩
    rw [h2, ← encInt_eq, ← intEnd_eq, posted_range h (fun g v hg hv => int_above hf hg hv hn) i, ints]
    simp [hQ]
  · rw [e, encInt_eq]
    obtain ⟨res, h1, h2⟩ := scanRange_posted h h0 (u := []) (v := hexN 16 (encI64 n0)) []
    rw [List.append_nil] at h1 h2
    refine ⟨res, h1, fun i => ?_⟩
    rw [h2, ← encInt_eq, posted_range h (fun g v hg hv => int_below hf hg hv hn) i, ints]
    simp [hQ]

theorem addOne_ok {n m : Int} (hn : (AttrVal.int n).valid) (h : addOne n = .ok m) :
    m = n + 1 ∧ (AttrVal.int m).valid := by
  unfold addOne at h
  split at h
  · simp at h
  · simp only [Res.ok.injEq] at h
    unfold AttrVal.valid at *
    dsimp only at *
    omega

/-- A range comparison. -/
theorem evalRange_spec {st : Store} {D : Docs} (h : RInv st D) {f : Bytes} (hf : 0 ∉ f) {op : CmpOp}
    (hw : OpWf op) (hr : (∃ b, op = .lt b) ∨ (∃ b, op = .lte b) ∨ (∃ b, op = .gt b) ∨ (∃ b, op = .gte b))
    {ids : List Nat} (he : evalRange st f op = .ok ids) (i : Nat) :
    i ∈ ids ↔ ∃ attrs, D i = some attrs ∧ IdxHolds attrs f op := by
  have comb : ∀ (fin : Prop) (Q1 : Int → Prop) (Q2 : Nat → Prop),
      ((∃ attrs, D i = some attrs ∧ ∃ x, (f, AttrVal.int x) ∈ attrs ∧ Q1 x) ∨
        (fin ∧ ∃ attrs, D i = some attrs ∧ ∃ x, (f, AttrVal.real x) ∈ attrs ∧ Q2 x)) ↔
      ∃ attrs, D i = some attrs ∧ ((∃ n, (f, AttrVal.int n) ∈ attrs ∧ Q1 n) ∨
        (fin ∧ ∃ x, (f, AttrVal.real x) ∈ attrs ∧ Q2 x)) := by
    intro fin Q1 Q2
    constructor
    · rintro (⟨a, h1, h2⟩ | ⟨h0, a, h1, h2⟩)
      · exact ⟨a, h1, Or.inl h2⟩
      · exact ⟨a, h1, Or.inr ⟨h0, h2⟩⟩
    · rintro ⟨a, h1, h2 | h2⟩
      · exact Or.inl ⟨a, h1, h2⟩
      · exact Or.inr ⟨h2.1, a, h1, h2.2⟩
  have main : ∀ (r : Bytes × Bytes) (n0 : Int) (b : Nat) (Q1 : Int → Prop) (Q2 : Nat → Prop),
      intBounds f op = .ok r → (AttrVal.int n0).valid → b < 18446744073709551616 →
      ((r = (encKey f (.int n0), f ++ [0, 73, 244, 143, 191, 191]) ∧ ∀ x, Q1 x ↔ n0 ≤ x) ∨
        (r = (f ++ [0, 73], encKey f (.int n0)) ∧ ∀ x, Q1 x ↔ x < n0)) →
      ((floatBounds f op = (if fFinite b then (encKey f (.real b), f ++ [0, 70, 244, 143, 191, 191])
        else ([], [])) ∧ ∀ x, Q2 x ↔ encF64 b ≤ encF64 x) ∨
        (floatBounds f op = (if fFinite b then (f ++ [0, 70], encKey f (.real b)) else ([], [])) ∧
          ∀ x, Q2 x ↔ encF64 x < encF64 b)) →
      (i ∈ ids ↔ ∃ attrs, D i = some attrs ∧ ((∃ n, (f, AttrVal.int n) ∈ attrs ∧ Q1 n) ∨
        (fFinite b = true ∧ ∃ x, (f, AttrVal.real x) ∈ attrs ∧ Q2 x))) := by
    intro r n0 b Q1 Q2 hb hn hbb h1 h2
    obtain ⟨res, e1, m1⟩ := int_scan h hf hn h1
    obtain ⟨res2, e2, m2⟩ := float_scan h hf hbb h2 res
    rw [evalRange, hb] at he
    simp only [e1, e2, Res.ok.injEq] at he
    subst he
    rw [m2, m1, comb]
  rcases hr with ⟨b, rfl⟩ | ⟨b, rfl⟩ | ⟨b, rfl⟩ | ⟨b, rfl⟩
  · exact main _ (f64ToI64 b) b _ _ rfl (f64ToI64_range b) hw (Or.inr ⟨rfl, fun _ => Iff.rfl⟩)
      (Or.inr ⟨rfl, fun _ => Iff.rfl⟩)
  · cases ha : addOne (f64ToI64 b) with
    | err => rw [evalRange, intBounds, ha] at he; simp at he
    | panic => rw [evalRange, intBounds, ha] at he; simp at he
    | ok m =>
      obtain ⟨rfl, hv⟩ := addOne_ok (f64ToI64_range b) ha
      exact main _ (f64ToI64 b + 1) b (fun n => n ≤ f64ToI64 b) _ (by rw [intBounds, ha]) hv hw
        (Or.inr ⟨rfl, fun x => by omega⟩) (Or.inr ⟨rfl, fun _ => Iff.rfl⟩)
  · cases ha : addOne (f64ToI64 b) with
    | err => rw [evalRange, intBounds, ha] at he; simp at he
    | panic => rw [evalRange, intBounds, ha] at he; simp at he
    | ok m =>
      obtain ⟨rfl, hv⟩ := addOne_ok (f64ToI64_range b) ha
      exact main _ (f64ToI64 b + 1) b (fun n => f64ToI64 b < n) _ (by rw [intBounds, ha]) hv hw
        (Or.inl ⟨rfl, fun x => by omega⟩) (Or.inl ⟨rfl, fun _ => Iff.rfl⟩)
  · exact main _ (f64ToI64 b) b _ _ rfl (f64ToI64_range b) hw (Or.inl ⟨rfl, fun _ => Iff.rfl⟩)
      (Or.inl ⟨rfl, fun _ => Iff.rfl⟩)

theorem evalIdxCmp_spec {st : Store} {D : Docs} (h : RInv st D) {norm : Bytes → Bytes} {f : Bytes}
    (hf : 0 ∉ norm f) {op : CmpOp} (hw : OpWf op) {ids : List Nat} (he : evalIdxCmp norm st f op = .ok ids)
    (i : Nat) : i ∈ ids ↔ ∃ attrs, D i = some attrs ∧ IdxHolds attrs (norm f) op := by
  cases op with
  | eq v =>
    rw [evalIdxCmp] at he
    cases ht : tryFrom v with
    | none => simp [ht] at he
    | some a =>
      simp only [ht] at he
      obtain ⟨ids', e, hm⟩ := getOrEmpty_posted h (norm f) a
      rw [e] at he
      simp only [Res.ok.injEq] at he
      subst he
      rw [hm, Posted]
      have hne : a ≠ .empty := by
        intro e
        subst e
        cases v with
        | num n => cases n <;> simp [tryFrom] at ht; split at ht <;> simp at ht
        | _ => simp [tryFrom] at ht
      constructor
      · rintro ⟨attrs, hD, hk⟩
        obtain ⟨p, hp, e⟩ := List.mem_map.1 hk
        have ok := h.fine i attrs hD
        obtain ⟨e1, e2⟩ := C41_injective_partial p.1 (norm f) p.2 a (ok.noNul p hp) hf (ok.valid p hp) (hw a ht)
          (ok.notEmpty p hp) hne e
        exact ⟨attrs, hD, a, ht, by rw [← e1, ← e2]; exact hp⟩
      · rintro ⟨attrs, hD, a', ha', hm⟩
        rw [ht] at ha'
        simp only [Option.some.injEq] at ha'
        subst ha'
        exact ⟨attrs, hD, List.mem_map.2 ⟨(norm f, a), hm, rfl⟩⟩
  | ne v => simp [evalIdxCmp] at he
  | lt b => exact evalRange_spec h hf hw (Or.inl ⟨b, rfl⟩) he i
  | lte b => exact evalRange_spec h hf hw (Or.inr (Or.inl ⟨b, rfl⟩)) he i
  | gt b => exact evalRange_spec h hf hw (Or.inr (Or.inr (Or.inl ⟨b, rfl⟩))) he i
  | gte b => exact evalRange_spec h hf hw (Or.inr (Or.inr (Or.inr ⟨b, rfl⟩))) he i

mutual
theorem evalIdx_spec {st : Store} {D : Docs} (h : RInv st D) {norm : Bytes → Bytes} (e : Expr)
    (hw : ExprWf norm e) {ids : List Nat} (he : evalIdx norm st e = .ok ids) (i : Nat) :
    i ∈ ids ↔ ∃ attrs, D i = some attrs ∧ IdxSat norm attrs e := by
  match e, hw, he with
  | .and [], hw, he =>
    simp only [evalIdx, Res.ok.injEq] at he
    subst he
    simp [IdxSat]
  | .and (e :: es), hw, he =>
    rw [ExprWf, ExprsWf] at hw
    rw [evalIdx] at he
    cases h1 : evalIdx norm st e with
    | err => simp [h1] at he
    | panic => simp [h1] at he
    | ok acc =>
      simp only [h1] at he
      rw [evalIdxAnd_spec h es hw.2 acc (fun attrs => IdxSat norm attrs e) (evalIdx_spec h e hw.1 h1) he i]
      simp only [IdxSat, IdxAll, ne_eq, reduceCtorEq, not_false_eq_true, true_and]
  | .or es, hw, he =>
    rw [ExprWf] at hw
    rw [evalIdx] at he
    rw [evalIdxOr_spec h es hw [] (fun _ => False) (by simp) he i]
    simp only [IdxSat, false_or]
  | .not e, hw, he => simp [evalIdx] at he
  | .cmp f op, hw, he =>
    rw [ExprWf] at hw
    rw [evalIdx] at he
    rw [evalIdxCmp_spec h hw.1 hw.2 he i]
    simp only [IdxSat]
theorem evalIdxAnd_spec {st : Store} {D : Docs} (h : RInv st D) {norm : Bytes → Bytes} (es : List Expr)
    (hw : ExprsWf norm es) (acc : List Nat) (P : Attrs → Prop)
    (hacc : ∀ i, i ∈ acc ↔ ∃ attrs, D i = some attrs ∧ P attrs)
    {ids : List Nat} (he : evalIdxAnd norm st acc es = .ok ids) (i : Nat) :
    i ∈ ids ↔ ∃ attrs, D i = some attrs ∧ P attrs ∧ IdxAll norm attrs es := by
  match es, hw, he with
  | [], hw, he =>
    simp only [evalIdxAnd, Res.ok.injEq] at he
    subst he
    simp only [IdxAll, and_true]
    exact hacc i
  | e :: es, hw, he =>
    rw [ExprsWf] at hw
    rw [evalIdxAnd] at he
    cases h1 : evalIdx norm st e with
    | err => simp [h1] at he
    | panic => simp [h1] at he
    | ok r =>
      simp only [h1] at he
      have h2 := evalIdx_spec h e hw.1 h1
      have hint : ∀ j, j ∈ plInter acc r ↔ ∃ attrs, D j = some attrs ∧ (P attrs ∧ IdxSat norm attrs e) := by
        intro j
        rw [mem_plInter, hacc, h2]
        constructor
        · rintro ⟨⟨a, ha, hp⟩, b, hb, hq⟩
          rw [ha] at hb
          simp only [Option.some.injEq] at hb
          subst hb
          exact ⟨a, ha, hp, hq⟩
        · rintro ⟨a, ha, hp, hq⟩
          exact ⟨⟨a, ha, hp⟩, a, ha, hq⟩
      split at he
      · rename_i hemp
        simp only [Res.ok.injEq] at he
        subst he
        constructor
        · intro hi
          rw [List.isEmpty_iff.1 hemp] at hi
          simp at hi
        · rintro ⟨a, ha, hp, hq⟩
          rw [IdxAll] at hq
          exact (hint i).2 ⟨a, ha, hp, hq.1⟩
      · rw [evalIdxAnd_spec h es hw.2 _ _ hint he i]
        simp only [IdxAll, and_assoc]
theorem evalIdxOr_spec {st : Store} {D : Docs} (h : RInv st D) {norm : Bytes → Bytes} (es : List Expr)
    (hw : ExprsWf norm es) (acc : List Nat) (P : Attrs → Prop)
    (hacc : ∀ i, i ∈ acc ↔ ∃ attrs, D i = some attrs ∧ P attrs)
    {ids : List Nat} (he : evalIdxOr norm st acc es = .ok ids) (i : Nat) :
    i ∈ ids ↔ ∃ attrs, D i = some attrs ∧ (P attrs ∨ IdxAny norm attrs es) := by
  match es, hw, he with
  | [], hw, he =>
    simp only [evalIdxOr, Res.ok.injEq] at he
    subst he
    simp only [IdxAny, or_false]
    exact hacc i
  | e :: es, hw, he =>
    rw [ExprsWf] at hw
    rw [evalIdxOr] at he
    cases h1 : evalIdx norm st e with
    | err => simp [h1] at he
    | panic => simp [h1] at he
    | ok r =>
      simp only [h1] at he
      have h2 := evalIdx_spec h e hw.1 h1
      have hun : ∀ j, j ∈ plUnion acc r ↔ ∃ attrs, D j = some attrs ∧ (P attrs ∨ IdxSat norm attrs e) := by
        intro j
        rw [mem_plUnion, hacc, h2]
        constructor
        · rintro (⟨a, ha, hp⟩ | ⟨b, hb, hq⟩)
          · exact ⟨a, ha, Or.inl hp⟩
          · exact ⟨b, hb, Or.inr hq⟩
        · rintro ⟨a, ha, hp | hq⟩
          · exact Or.inl ⟨a, ha, hp⟩
          · exact Or.inr ⟨a, ha, hq⟩
      rw [evalIdxOr_spec h es hw.2 _ _ hun he i]
      simp only [IdxAny, or_assoc]
end

end Verif.Label
