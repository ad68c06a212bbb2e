import Verif.Label.IndexLabel
/-
Agreement of the index with the direct evaluator, comparison by comparison and then for filters.
-/
namespace Verif.Label

theorem cmp_scaled {F X c n : Int} (hX : 0 < X)
    (h : F = c * X ∨ (9007199254740992 ≤ c ∧ 9007199254740992 * X ≤ F) ∨
      (c ≤ -9007199254740992 ∧ F ≤ -9007199254740992 * X))
    (hn : -9007199254740992 < n ∧ n < 9007199254740992) :
    (F < n * X ↔ c < n) ∧ (n * X < F ↔ n < c) := by
  rcases h with rfl | ⟨h1, h2⟩ | ⟨h1, h2⟩
  · exact ⟨Int.mul_lt_mul_right hX, Int.mul_lt_mul_right hX⟩
  · have : n * X < 9007199254740992 * X := (Int.mul_lt_mul_right hX).2 hn.2
    omega
  · have : -9007199254740992 * X < n * X := (Int.mul_lt_mul_right hX).2 hn.1
    omega

theorem fVal_pos_bits {b : Nat} (h : b < 9223372036854775808) : fVal b = fMag b := by
  rw [fVal, if_pos h]

theorem fExp_add_sign {b : Nat} (h : b < 9223372036854775808) : fExp (9223372036854775808 + b) = fExp b := by
  unfold fExp
  omega

theorem fVal_add_sign {b : Nat} (h : b < 9223372036854775808) : fVal (9223372036854775808 + b) = -(fMag b : Int) := by
  rw [fVal, if_neg (by omega), fMag_mod, show (9223372036854775808 + b) % 9223372036854775808 = b by omega]

/-- The integer of a number. -/
def JNum.int? : JNum → Option Int
  | .pos n => some n
  | .neg n => some n
  | .flt _ => none

theorem asF64_int {m : JNum} {c : Int} (hm : NumOk m) (hc : m.int? = some c) :
    fNaNb m.asF64 = false ∧
    (fVal m.asF64 = c * 2 ^ 1074 ∨ (9007199254740992 ≤ c ∧ 9007199254740992 * 2 ^ 1074 ≤ fVal m.asF64) ∨
      (c ≤ -9007199254740992 ∧ fVal m.asF64 ≤ -9007199254740992 * 2 ^ 1074)) := by
  have nan : ∀ b, fExp b < 2047 → fNaNb b = false := by
    intro b hb
    unfold fNaNb
    have : (fExp b == 2047) = false := by simp; omega
    rw [this]
    rfl
  have castp : ((9007199254740992 * 2 ^ 1074 : Nat) : Int) = 9007199254740992 * 2 ^ 1074 := by
    rw [Int.natCast_mul, Int.natCast_pow]; rfl
  cases m with
  | flt b => simp [JNum.int?] at hc
  | pos n =>
    rw [NumOk] at hm
    simp only [JNum.int?, Option.some.injEq] at hc
    subst hc
    simp only [JNum.asF64]
    by_cases hs : n < 9007199254740992
    · obtain ⟨h1, h2, h3⟩ := f64OfNat_small hs
      refine ⟨nan _ h2, Or.inl ?_⟩
      rw [fVal_pos_bits h1, h3, Int.natCast_mul, Int.natCast_pow]
      rfl
    · obtain ⟨h1, h2, h3⟩ := f64OfNat_big (by omega : 9007199254740992 ≤ n) (by omega)
      refine ⟨nan _ h2, Or.inr (Or.inl ⟨by omega, ?_⟩)⟩
      rw [fVal_pos_bits h1, ← castp]
      exact Int.ofNat_le.2 h3
  | neg n =>
    rw [NumOk] at hm
    simp only [JNum.int?, Option.some.injEq] at hc
    subst hc
    simp only [JNum.asF64]
    by_cases hs : n.natAbs < 9007199254740992
    · obtain ⟨h1, h2, h3⟩ := f64OfNat_small hs
      refine ⟨nan _ (by rw [fExp_add_sign h1]; exact h2), Or.inl ?_⟩
      rw [fVal_add_sign h1, h3, Int.natCast_mul, Int.natCast_pow, ← Int.neg_mul]
      congr 1
      omega
    · obtain ⟨h1, h2, h3⟩ := f64OfNat_big (by omega : 9007199254740992 ≤ n.natAbs) (by omega)
      refine ⟨nan _ (by rw [fExp_add_sign h1]; exact h2), Or.inr (Or.inr ⟨by omega, ?_⟩)⟩
      rw [fVal_add_sign h1, Int.neg_mul, ← castp]
      have := Int.ofNat_le.2 h3
      exact Int.neg_le_neg this

theorem f64ToI64_bound {b : Nat} (he : fExp b ≠ 2047) {n : Int} (h1 : -9007199254740992 < n)
    (h2 : n < 9007199254740992) (hv : fVal b = n * 2 ^ 1074) : f64ToI64 b = n := by
  have hnan : fNaNb b = false := by
    unfold fNaNb
    have : (fExp b == 2047) = false := by simpa using he
    rw [this]
    rfl
  unfold f64ToI64
  rw [hv, Int.mul_tdiv_cancel n (by decide +kernel), hnan]
  simp only [Bool.false_eq_true, if_false]
  omega

theorem fVal_inj {a b : Nat} (ha : a < 18446744073709551616) (hb : b < 18446744073709551616) (na : a ≠ negZero)
    (nb : b ≠ negZero) (h : fVal a = fVal b) : a = b := by
  apply encF64_inj ha hb
  have h1 := encF64_order ha hb
  have h2 := encF64_order hb ha
  simp only [h, Int.lt_irrefl, na, nb, false_and, or_false, iff_false] at h1 h2
  omega

/-- Equality: JSON equality is equality of attribute values. -/
theorem jeq_iff {v w : Json} (hv : LabelOk v) (hw : ConstOk w) {a : AttrVal} (ha : tryFrom w = some a) :
    jeq v w = true ↔ tryFrom v = some a := by
  cases w with
  | bool x =>
    simp only [tryFrom, Option.some.injEq] at ha
    subst ha
    cases v with
    | bool y => simp [jeq, tryFrom]
    | num m => cases m <;> simp [jeq, tryFrom] ; split <;> simp
    | _ => simp [jeq, tryFrom]
  | str x =>
    simp only [tryFrom, Option.some.injEq] at ha
    subst ha
    cases v with
    | str y => simp [jeq, tryFrom]
    | num m => cases m <;> simp [jeq, tryFrom] ; split <;> simp
    | _ => simp [jeq, tryFrom]
  | num k =>
    rw [ConstOk] at hw
    cases v with
    | num m =>
      rw [LabelOk] at hv
      cases k with
      | pos x =>
        rw [NumOk] at hw
        rw [tryFrom, if_pos hw] at ha
        simp only [Option.some.injEq] at ha
        subst ha
        cases m with
        | pos y =>
          rw [NumOk] at hv
          rw [tryFrom, if_pos hv]
          simp only [jeq, JNum.eq, beq_iff_eq, Option.some.injEq, AttrVal.int.injEq]
          omega
        | neg y =>
          rw [NumOk] at hv
          simp only [jeq, JNum.eq, tryFrom, Option.some.injEq, AttrVal.int.injEq, Bool.false_eq_true, false_iff]
          omega
        | flt y => simp [jeq, JNum.eq, tryFrom]
      | neg x =>
        rw [NumOk] at hw
        simp only [tryFrom, Option.some.injEq] at ha
        subst ha
        cases m with
        | pos y =>
          rw [NumOk] at hv
          rw [tryFrom, if_pos hv]
          simp only [jeq, JNum.eq, Option.some.injEq, AttrVal.int.injEq, Bool.false_eq_true, false_iff]
          omega
        | neg y => simp [jeq, JNum.eq, tryFrom]
        | flt y => simp [jeq, JNum.eq, tryFrom]
      | flt x =>
        rw [NumOk] at hw
        simp only [tryFrom, Option.some.injEq] at ha
        subst ha
        cases m with
        | pos y =>
          rw [NumOk] at hv
          rw [tryFrom, if_pos hv]
          simp [jeq, JNum.eq]
        | neg y => simp [jeq, JNum.eq, tryFrom]
        | flt y =>
          rw [NumOk] at hv
          simp only [jeq, JNum.eq, tryFrom, Option.some.injEq, AttrVal.real.injEq, decide_eq_true_eq]
          constructor
          · exact fVal_inj hv.1 hw.1 hv.2.2 hw.2.2
          · rintro rfl; rfl
    | _ =>
      have : ∃ c, tryFrom (.num k) = some c := ⟨a, ha⟩
      cases k with
      | pos x =>
        rw [NumOk] at hw
        rw [tryFrom, if_pos hw] at ha
        simp only [Option.some.injEq] at ha
        subst ha
        simp [jeq, tryFrom]
      | neg x =>
        simp only [tryFrom, Option.some.injEq] at ha
        subst ha
        simp [jeq, tryFrom]
      | flt x =>
        simp only [tryFrom, Option.some.injEq] at ha
        subst ha
        simp [jeq, tryFrom]
  | _ => simp [tryFrom] at ha

theorem fNaNb_of_exp {b : Nat} (h : fExp b ≠ 2047) : fNaNb b = false := by
  unfold fNaNb
  have : (fExp b == 2047) = false := by simpa using h
  rw [this]
  rfl

/-- Order: the comparisons of the evaluator and of the index agree on a number, apart from ties of doubles. -/
theorem order_num {m : JNum} (hm : NumOk m) {b : Nat} (hb : BoundOk b) {a : AttrVal} (ha : tryFrom (.num m) = some a) :
    (fLt m.asF64 b = true ↔ (∃ n, a = .int n ∧ n < f64ToI64 b) ∨ (∃ x, a = .real x ∧ encF64 x < encF64 b)) ∧
    (fLe b m.asF64 = true ↔ (∃ n, a = .int n ∧ f64ToI64 b ≤ n) ∨ (∃ x, a = .real x ∧ encF64 b ≤ encF64 x)) ∧
    (fLt b m.asF64 = true ↔ (∃ n, a = .int n ∧ f64ToI64 b < n) ∨ (∃ x, a = .real x ∧ fVal b < fVal x)) ∧
    (fLe m.asF64 b = true ↔ (∃ n, a = .int n ∧ n ≤ f64ToI64 b) ∨ (∃ x, a = .real x ∧ fVal x ≤ fVal b)) := by
  obtain ⟨hb1, hb2, hb3, n0, hn1, hn2, hv⟩ := hb
  have hi := f64ToI64_bound hb2 hn1 hn2 hv
  have nb := fNaNb_of_exp hb2
  have intCase : ∀ c : Int, m.int? = some c → a = .int c →
      (fLt m.asF64 b = true ↔ c < n0) ∧ (fLe b m.asF64 = true ↔ n0 ≤ c) ∧ (fLt b m.asF64 = true ↔ n0 < c) ∧
      (fLe m.asF64 b = true ↔ c ≤ n0) := by
    intro c hc _
    obtain ⟨nn, h3⟩ := asF64_int hm hc
    have hX : (0 : Int) < 2 ^ 1074 := by decide +kernel
    obtain ⟨h4, h5⟩ := cmp_scaled hX h3 ⟨hn1, hn2⟩
    unfold fLt fLe
    simp only [nb, nn, Bool.not_false, Bool.true_and, decide_eq_true_eq, hv]
    generalize (2 : Int) ^ 1074 = X at *
    refine ⟨h4, ?_, h5, ?_⟩ <;> omega
  have viaInt : ∀ c : Int, m.int? = some c → a = .int c →
      (fLt m.asF64 b = true ↔ (∃ n, a = .int n ∧ n < n0) ∨ (∃ x, a = .real x ∧ encF64 x < encF64 b)) ∧
      (fLe b m.asF64 = true ↔ (∃ n, a = .int n ∧ n0 ≤ n) ∨ (∃ x, a = .real x ∧ encF64 b ≤ encF64 x)) ∧
      (fLt b m.asF64 = true ↔ (∃ n, a = .int n ∧ n0 < n) ∨ (∃ x, a = .real x ∧ fVal b < fVal x)) ∧
      (fLe m.asF64 b = true ↔ (∃ n, a = .int n ∧ n ≤ n0) ∨ (∃ x, a = .real x ∧ fVal x ≤ fVal b)) := by
    intro c hc hac
    have := intCase c hc hac
    subst hac
    simpa using this
  rw [hi]
  cases m with
  | pos n =>
    have hm' := hm
    rw [NumOk] at hm'
    rw [tryFrom, if_pos hm'] at ha
    simp only [Option.some.injEq] at ha
    exact viaInt n rfl ha.symm
  | neg n =>
    simp only [tryFrom, Option.some.injEq] at ha
    exact viaInt n rfl ha.symm
  | flt x =>
    simp only [tryFrom, Option.some.injEq] at ha
    subst ha
    rw [NumOk] at hm
    have nx := fNaNb_of_exp hm.2.1
    have o1 := encF64_order hm.1 hb1
    have o2 := encF64_order hb1 hm.1
    simp only [hm.2.2, hb3, false_and, or_false] at o1 o2
    rw [show (JNum.flt x).asF64 = x from rfl]
    unfold fLt fLe
    simp only [nb, nx, Bool.not_false, Bool.true_and, decide_eq_true_eq, reduceCtorEq, false_and,
      exists_false, false_or, AttrVal.real.injEq]
    refine ⟨by simp [o1], ?_, by simp, by simp⟩
    simp only [exists_eq_left']
    omega

/-- One comparison: direct evaluation and the index agree. -/
theorem cmp_agree {label : Json} {attrs : Attrs} (hl : LabelOk label) {f : Bytes}
    (hattrs : ∀ a, (pointerNorm f, a) ∈ attrs ↔ ∃ w, getByPath label f = some w ∧ tryFrom w = some a)
    {op : CmpOp} (hop : CmpOk op) (ht : NoTies label (.cmp f op))
    (hs : (∀ v, op ≠ .ne v) ∧ ∀ v, op = .eq v → ∃ a, tryFrom v = some a) :
    IdxHolds attrs (pointerNorm f) op ↔ evalExpr label (.cmp f op) = true := by
  rw [evalExpr, evalCmp]
  have fin : ∀ b, BoundOk b → fFinite b = true := by
    intro b hb
    unfold fFinite
    simpa using hb.2.1
  have wfl : ∀ w, getByPath label f = some w → LabelOk w := fun w hw => getPath_labelOk _ hl hw
  cases hg : getByPath label f with
  | none =>
    simp only [hg, reduceCtorEq, false_and, exists_false, iff_false] at hattrs
    cases op <;> simp [IdxHolds, hattrs]
  | some w =>
    have hw := wfl w hg
    simp only [hg, Option.some.injEq, exists_eq_left'] at hattrs
    -- a range operator on a value that is not a number
    have range : ∀ (b : Nat) (c : Nat → Bool) (Q1 : Int → Prop) (Q2 : Nat → Prop), BoundOk b →
        (∀ m a, w = .num m → tryFrom w = some a → (c m.asF64 = true ↔ (∃ n, a = .int n ∧ Q1 n) ∨ ∃ x, a = .real x ∧ Q2 x)) →
        (((∃ n, (pointerNorm f, AttrVal.int n) ∈ attrs ∧ Q1 n) ∨
          (fFinite b = true ∧ ∃ x, (pointerNorm f, AttrVal.real x) ∈ attrs ∧ Q2 x)) ↔
          (match w.asF64 with | some g => c g | none => false) = true) := by
      intro b c Q1 Q2 hb hc
      simp only [fin b hb, true_and, hattrs]
      cases w with
      | num m =>
        have hta : ∃ a, tryFrom (.num m) = some a := by
          cases m with
          | pos n => rw [tryFrom]; split <;> exact ⟨_, rfl⟩
          | neg n => exact ⟨_, rfl⟩
          | flt n => exact ⟨_, rfl⟩
        obtain ⟨a, ha⟩ := hta
        simp only [Json.asF64, ha, Option.some.injEq]
        rw [hc m a rfl ha]
      | _ => simp [Json.asF64, tryFrom]
    have ord : ∀ b, BoundOk b → ∀ m a, w = .num m → tryFrom w = some a →
        NumOk m ∧ BoundOk b ∧ tryFrom (.num m) = some a := by
      intro b hb m a hm ha
      subst hm
      rw [LabelOk] at hw
      exact ⟨hw, hb, ha⟩
    have ord : ∀ b, BoundOk b → ∀ m a, w = .num m → tryFrom w = some a → _ := fun b hb m a hm ha =>
      order_num (ord b hb m a hm ha).1 hb (ord b hb m a hm ha).2.2
    cases op with
    | eq v =>
      obtain ⟨a, ha⟩ := hs.2 v rfl
      simp only [IdxHolds, ha, Option.some.injEq, exists_eq_left', evalOp, hattrs]
      exact (jeq_iff hw hop ha).symm
    | ne v => exact absurd rfl (hs.1 v)
    | lt b =>
      rw [IdxHolds]
      exact range b (fun g => fLt g b) _ _ hop (fun m a hm ha => (ord b hop m a hm ha).1)
    | gte b =>
      rw [IdxHolds]
      exact range b (fun g => fLe b g) _ _ hop (fun m a hm ha => (ord b hop m a hm ha).2.1)
    | gt b =>
      rw [NoTies] at ht
      rw [IdxHolds]
      refine range b (fun g => fLt b g) _ _ hop (fun m a hm ha => ?_)
      rw [(ord b hop m a hm ha).2.2.1]
      refine or_congr Iff.rfl (exists_congr fun x => and_congr_right fun hx => ?_)
      subst hm hx
      have hne : fVal x ≠ fVal b := by
        cases m with
        | flt y =>
          simp only [tryFrom, Option.some.injEq, AttrVal.real.injEq] at ha
          subst ha
          exact ht y hg
        | neg n => simp [tryFrom] at ha
        | pos n =>
          rw [LabelOk, NumOk] at hw
          rw [tryFrom, if_pos hw] at ha
          simp at ha
      have hx : x < 18446744073709551616 ∧ x ≠ negZero := by
        cases m with
        | flt y =>
          simp only [tryFrom, Option.some.injEq, AttrVal.real.injEq] at ha
          subst ha
          rw [LabelOk, NumOk] at hw
          exact ⟨hw.1, hw.2.2⟩
        | neg n => simp [tryFrom] at ha
        | pos n =>
          rw [LabelOk, NumOk] at hw
          rw [tryFrom, if_pos hw] at ha
          simp at ha
      have o1 := encF64_order hx.1 hop.1
      have o2 := encF64_order hop.1 hx.1
      simp only [hx.2, hop.2.2.1, false_and, or_false] at o1 o2
      omega
    | lte b =>
      rw [NoTies] at ht
      rw [IdxHolds]
      refine range b (fun g => fLe g b) _ _ hop (fun m a hm ha => ?_)
      rw [(ord b hop m a hm ha).2.2.2]
      refine or_congr Iff.rfl (exists_congr fun x => and_congr_right fun hx => ?_)
      subst hm hx
      have hne : fVal x ≠ fVal b := by
        cases m with
        | flt y =>
          simp only [tryFrom, Option.some.injEq, AttrVal.real.injEq] at ha
          subst ha
          exact ht y hg
        | neg n => simp [tryFrom] at ha
        | pos n =>
          rw [LabelOk, NumOk] at hw
          rw [tryFrom, if_pos hw] at ha
          simp at ha
      have hx : x < 18446744073709551616 ∧ x ≠ negZero := by
        cases m with
        | flt y =>
          simp only [tryFrom, Option.some.injEq, AttrVal.real.injEq] at ha
          subst ha
          rw [LabelOk, NumOk] at hw
          exact ⟨hw.1, hw.2.2⟩
        | neg n => simp [tryFrom] at ha
        | pos n =>
          rw [LabelOk, NumOk] at hw
          rw [tryFrom, if_pos hw] at ha
          simp at ha
      have o1 := encF64_order hx.1 hop.1
      simp only [hx.2, false_and, or_false] at o1
      omega

/-! ### Filters -/

/-- The documents of a history, as attributes and as labels. -/
def Linked (L : Nat → Option Json) (D : Docs) : Prop :=
  ∀ i, D i = (L i).bind flattenMap ∧ ∀ l, L i = some l → LabelOk l

theorem tryFrom_const {v : Json} (hc : ConstOk v) {a : AttrVal} (h : tryFrom v = some a) : a.valid := by
  apply (tryFrom_valid ?_ h).1
  cases v with
  | num n => rw [LabelOk]; exact hc
  | str s => rw [LabelOk]; exact hc
  | bool b => rw [LabelOk]; trivial
  | _ => simp [tryFrom] at h

theorem opWf_of_ok {op : CmpOp} (h : CmpOk op) : OpWf op := by
  cases op with
  | eq v => exact fun a ha => tryFrom_const h ha
  | ne v => trivial
  | lt b => exact h.1
  | lte b => exact h.1
  | gt b => exact h.1
  | gte b => exact h.1

theorem pointerNorm_noNul {f : Bytes} (h : 0 ∉ f) : 0 ∉ pointerNorm f := by
  rw [pointerNorm]
  simp only [List.mem_cons, List.mem_map, not_or, not_exists, not_and]
  refine ⟨by omega, fun c hc e => ?_⟩
  split at e
  · omega
  · subst e; exact h hc

theorem evalIdxCmp_agree {st : Store} {L : Nat → Option Json} {D : Docs} (h : IInv st D) (hL : Linked L D)
    {f : Bytes} (hf : 47 ∉ f ∧ 0 ∉ f) {op : CmpOp} (hop : CmpOk op)
    (ht : ∀ i l, L i = some l → NoTies l (.cmp f op)) {ids : List Nat}
    (he : evalIdxCmp pointerNorm st f op = .ok ids) (i : Nat) :
    i ∈ ids ↔ ∃ l, L i = some l ∧ evalExpr l (.cmp f op) = true := by
  have hs : (∀ v, op ≠ .ne v) ∧ ∀ v, op = .eq v → ∃ a, tryFrom v = some a := by
    refine ⟨?_, ?_⟩
    · rintro v rfl
      simp [evalIdxCmp] at he
    · rintro v rfl
      rw [evalIdxCmp] at he
      cases hv : tryFrom v with
      | none => simp [hv] at he
      | some a => exact ⟨a, rfl⟩
  rw [evalIdxCmp_spec h.toR (pointerNorm_noNul hf.2) (opWf_of_ok hop) he i]
  constructor
  · rintro ⟨attrs, hD, hh⟩
    rw [(hL i).1] at hD
    cases hl : L i with
    | none => simp [hl] at hD
    | some l =>
      simp only [hl, Option.bind_some] at hD
      have lok := (hL i).2 l hl
      obtain ⟨attrs', h1, h2, _⟩ := flattenMap_spec lok
      rw [hD] at h1
      simp only [Option.some.injEq] at h1
      subst h1
      exact ⟨l, rfl, (cmp_agree lok (h2 f hf.1 hf.2) hop (ht i l hl) hs).1 hh⟩
  · rintro ⟨l, hl, hh⟩
    have lok := (hL i).2 l hl
    obtain ⟨attrs, h1, h2, _⟩ := flattenMap_spec lok
    exact ⟨attrs, by rw [(hL i).1, hl]; exact h1, (cmp_agree lok (h2 f hf.1 hf.2) hop (ht i l hl) hs).2 hh⟩

mutual
theorem evalIdx_agree {st : Store} {L : Nat → Option Json} {D : Docs} (h : IInv st D) (hL : Linked L D)
    (e : Expr) (hw : FilterOk e) (ht : ∀ i l, L i = some l → NoTies l e) {ids : List Nat}
    (he : evalIdx pointerNorm st e = .ok ids) (i : Nat) :
    i ∈ ids ↔ ∃ l, L i = some l ∧ evalExpr l e = true := by
  match e, hw, ht, he with
  | .and [], hw, ht, he =>
    rw [FilterOk] at hw
    exact absurd rfl hw.1
  | .and (e :: es), hw, ht, he =>
    rw [FilterOk, FiltersOk] at hw
    simp only [NoTies, NoTiesAll] at ht
    rw [evalIdx] at he
    cases h1 : evalIdx pointerNorm st e with
    | err => simp [h1] at he
    | panic => simp [h1] at he
    | ok acc =>
      simp only [h1] at he
      rw [evalIdxAnd_agree h hL es hw.2.2 (fun i l hl => (ht i l hl).2) acc (fun l => evalExpr l e = true)
        (evalIdx_agree h hL e hw.2.1 (fun i l hl => (ht i l hl).1) h1) he i]
      simp only [evalExpr, evalAll, Bool.and_eq_true]
  | .or es, hw, ht, he =>
    rw [FilterOk] at hw
    simp only [NoTies] at ht
    rw [evalIdx] at he
    rw [evalIdxOr_agree h hL es hw ht [] (fun _ => False) (by simp) he i]
    simp only [evalExpr, false_or]
  | .not e, hw, ht, he => simp [evalIdx] at he
  | .cmp f op, hw, ht, he =>
    rw [FilterOk] at hw
    rw [evalIdx] at he
    exact evalIdxCmp_agree h hL ⟨hw.1, hw.2.1⟩ hw.2.2 ht he i
theorem evalIdxAnd_agree {st : Store} {L : Nat → Option Json} {D : Docs} (h : IInv st D) (hL : Linked L D)
    (es : List Expr) (hw : FiltersOk es) (ht : ∀ i l, L i = some l → NoTiesAll l es) (acc : List Nat)
    (P : Json → Prop) (hacc : ∀ i, i ∈ acc ↔ ∃ l, L i = some l ∧ P l) {ids : List Nat}
    (he : evalIdxAnd pointerNorm st acc es = .ok ids) (i : Nat) :
    i ∈ ids ↔ ∃ l, L i = some l ∧ P l ∧ evalAll l es = true := by
  match es, hw, ht, he with
  | [], hw, ht, he =>
    simp only [evalIdxAnd, Res.ok.injEq] at he
    subst he
    simp only [evalAll, and_true]
    exact hacc i
  | e :: es, hw, ht, he =>
    rw [FiltersOk] at hw
    simp only [NoTiesAll] at ht
    rw [evalIdxAnd] at he
    cases h1 : evalIdx pointerNorm st e with
    | err => simp [h1] at he
    | panic => simp [h1] at he
    | ok r =>
      simp only [h1] at he
      have h2 := evalIdx_agree h hL e hw.1 (fun i l hl => (ht i l hl).1) h1
      have hint : ∀ j, j ∈ plInter acc r ↔ ∃ l, L j = some l ∧ (P l ∧ evalExpr l e = true) := by
        intro j
        rw [mem_plInter, hacc, h2]
        constructor
        · rintro ⟨⟨a, ha, hp⟩, b, hb, hq⟩
          rw [ha] at hb
          simp only [Option.some.injEq] at hb
          subst hb
          exact ⟨a, ha, hp, hq⟩
        · rintro ⟨a, ha, hp, hq⟩
          exact ⟨⟨a, ha, hp⟩, a, ha, hq⟩
      split at he
      · rename_i hemp
        simp only [Res.ok.injEq] at he
        subst he
        constructor
        · intro hi
          rw [List.isEmpty_iff.1 hemp] at hi
          simp at hi
        · rintro ⟨a, ha, hp, hq⟩
          rw [evalAll, Bool.and_eq_true] at hq
          exact (hint i).2 ⟨a, ha, hp, hq.1⟩
      · rw [evalIdxAnd_agree h hL es hw.2 (fun i l hl => (ht i l hl).2) _ _ hint he i]
        simp only [evalAll, Bool.and_eq_true, and_assoc]
theorem evalIdxOr_agree {st : Store} {L : Nat → Option Json} {D : Docs} (h : IInv st D) (hL : Linked L D)
    (es : List Expr) (hw : FiltersOk es) (ht : ∀ i l, L i = some l → NoTiesAll l es) (acc : List Nat)
    (P : Json → Prop) (hacc : ∀ i, i ∈ acc ↔ ∃ l, L i = some l ∧ P l) {ids : List Nat}
    (he : evalIdxOr pointerNorm st acc es = .ok ids) (i : Nat) :
    i ∈ ids ↔ ∃ l, L i = some l ∧ (P l ∨ evalAny l es = true) := by
  match es, hw, ht, he with
  | [], hw, ht, he =>
    simp only [evalIdxOr, Res.ok.injEq] at he
    subst he
    simp only [evalAny, Bool.false_eq_true, or_false]
    exact hacc i
  | e :: es, hw, ht, he =>
    rw [FiltersOk] at hw
    simp only [NoTiesAll] at ht
    rw [evalIdxOr] at he
    cases h1 : evalIdx pointerNorm st e with
    | err => simp [h1] at he
    | panic => simp [h1] at he
    | ok r =>
      simp only [h1] at he
      have h2 := evalIdx_agree h hL e hw.1 (fun i l hl => (ht i l hl).1) h1
      have hun : ∀ j, j ∈ plUnion acc r ↔ ∃ l, L j = some l ∧ (P l ∨ evalExpr l e = true) := by
        intro j
        rw [mem_plUnion, hacc, h2]
        constructor
        · rintro (⟨a, ha, hp⟩ | ⟨b, hb, hq⟩)
          · exact ⟨a, ha, Or.inl hp⟩
          · exact ⟨b, hb, Or.inr hq⟩
        · rintro ⟨a, ha, hp | hq⟩
          · exact Or.inl ⟨a, ha, hp⟩
          · exact Or.inr ⟨a, ha, hq⟩
      rw [evalIdxOr_agree h hL es hw.2 (fun i l hl => (ht i l hl).2) _ _ hun he i]
      simp only [evalAny, Bool.or_eq_true, or_assoc]
end

/-! ### Supported filters are answered -/

theorem scanRange_ok {st : Store} {D : Docs} (h : IInv st D) {f : Bytes} (hf : 0 ∉ f) {op : CmpOp} (hop : CmpOk op)
    (hr : (∃ b, op = .lt b) ∨ (∃ b, op = .lte b) ∨ (∃ b, op = .gt b) ∨ (∃ b, op = .gte b)) :
    ∃ ids, evalRange st f op = .ok ids := by
  have conv : ∀ b, BoundOk b → f64ToI64 b ≠ 9223372036854775807 := by
    rintro b ⟨h1, h2, h3, n, hn1, hn2, hv⟩
    rw [f64ToI64_bound h2 hn1 hn2 hv]
    omega
  have main : ∀ (r : Bytes × Bytes) (n0 : Int) (b : Nat) (Q1 : Int → Prop) (Q2 : Nat → Prop),
      intBounds f op = .ok r → (AttrVal.int n0).valid → b < 18446744073709551616 →
      ((r = (encKey f (.int n0), f ++ [0, 73, 244, 143, 191, 191]) ∧ ∀ x, Q1 x ↔ n0 ≤ x) ∨
        (r = (f ++ [0, 73], encKey f (.int n0)) ∧ ∀ x, Q1 x ↔ x < n0)) →
      ((floatBounds f op = (if fFinite b then (encKey f (.real b), f ++ [0, 70, 244, 143, 191, 191])
        else ([], [])) ∧ ∀ x, Q2 x ↔ encF64 b ≤ encF64 x) ∨
        (floatBounds f op = (if fFinite b then (f ++ [0, 70], encKey f (.real b)) else ([], [])) ∧
          ∀ x, Q2 x ↔ encF64 x < encF64 b)) → ∃ ids, evalRange st f op = .ok ids := by
    intro r n0 b Q1 Q2 hb hn hbb h1 h2
    obtain ⟨res, e1, _⟩ := int_scan h.toR hf hn h1
    obtain ⟨res2, e2, _⟩ := float_scan h.toR hf hbb h2 res
    exact ⟨res2, by rw [evalRange, hb]; simp only [e1, e2]⟩
  rcases hr with ⟨b, rfl⟩ | ⟨b, rfl⟩ | ⟨b, rfl⟩ | ⟨b, rfl⟩
  · exact main _ (f64ToI64 b) b _ _ rfl (f64ToI64_range b) hop.1 (Or.inr ⟨rfl, fun _ => Iff.rfl⟩)
      (Or.inr ⟨rfl, fun _ => Iff.rfl⟩)
  · have ha : addOne (f64ToI64 b) = .ok (f64ToI64 b + 1) := by rw [addOne, if_neg (conv b hop)]
    obtain ⟨_, hv⟩ := addOne_ok (f64ToI64_range b) ha
    exact main _ (f64ToI64 b + 1) b (fun n => n < f64ToI64 b + 1) _ (by rw [intBounds, ha]) hv hop.1
      (Or.inr ⟨rfl, fun _ => Iff.rfl⟩) (Or.inr ⟨rfl, fun _ => Iff.rfl⟩)
  · have ha : addOne (f64ToI64 b) = .ok (f64ToI64 b + 1) := by rw [addOne, if_neg (conv b hop)]
    obtain ⟨_, hv⟩ := addOne_ok (f64ToI64_range b) ha
    exact main _ (f64ToI64 b + 1) b (fun n => f64ToI64 b + 1 ≤ n) _ (by rw [intBounds, ha]) hv hop.1
      (Or.inl ⟨rfl, fun _ => Iff.rfl⟩) (Or.inl ⟨rfl, fun _ => Iff.rfl⟩)
  · exact main _ (f64ToI64 b) b _ _ rfl (f64ToI64_range b) hop.1 (Or.inl ⟨rfl, fun _ => Iff.rfl⟩)
      (Or.inl ⟨rfl, fun _ => Iff.rfl⟩)

mutual
theorem evalIdx_ok {st : Store} {D : Docs} (h : IInv st D) (e : Expr) (hw : FilterOk e) (hs : Supported e) :
    ∃ ids, evalIdx pointerNorm st e = .ok ids := by
  match e, hw, hs with
  | .and [], hw, hs => exact ⟨[], by rw [evalIdx]⟩
  | .and (e :: es), hw, hs =>
    rw [FilterOk, FiltersOk] at hw
    rw [Supported, SupportedAll] at hs
    obtain ⟨acc, h1⟩ := evalIdx_ok h e hw.2.1 hs.1
    obtain ⟨ids, h2⟩ := evalIdxAnd_ok h es hw.2.2 hs.2 acc
    exact ⟨ids, by rw [evalIdx, h1]; exact h2⟩
  | .or es, hw, hs =>
    rw [FilterOk] at hw
    rw [Supported] at hs
    obtain ⟨ids, h2⟩ := evalIdxOr_ok h es hw hs []
    exact ⟨ids, by rw [evalIdx]; exact h2⟩
  | .not e, hw, hs => rw [Supported] at hs; exact hs.elim
  | .cmp f op, hw, hs =>
    rw [FilterOk] at hw
    have hf := pointerNorm_noNul hw.2.1
    rw [evalIdx]
    cases op with
    | eq v =>
      rw [Supported] at hs
      obtain ⟨a, ha⟩ := hs
      obtain ⟨ids, h1, _⟩ := getOrEmpty_posted h.toR (pointerNorm f) a
      exact ⟨ids, by rw [evalIdxCmp, ha]; exact h1⟩
    | ne v => rw [Supported] at hs; exact hs.elim
    | lt b => exact scanRange_ok h hf hw.2.2 (Or.inl ⟨b, rfl⟩)
    | lte b => exact scanRange_ok h hf hw.2.2 (Or.inr (Or.inl ⟨b, rfl⟩))
    | gt b => exact scanRange_ok h hf hw.2.2 (Or.inr (Or.inr (Or.inl ⟨b, rfl⟩)))
    | gte b => exact scanRange_ok h hf hw.2.2 (Or.inr (Or.inr (Or.inr ⟨b, rfl⟩)))
theorem evalIdxAnd_ok {st : Store} {D : Docs} (h : IInv st D) (es : List Expr) (hw : FiltersOk es)
    (hs : SupportedAll es) (acc : List Nat) : ∃ ids, evalIdxAnd pointerNorm st acc es = .ok ids := by
  match es, hw, hs with
  | [], hw, hs => exact ⟨acc, by rw [evalIdxAnd]⟩
  | e :: es, hw, hs =>
    rw [FiltersOk] at hw
    rw [SupportedAll] at hs
    obtain ⟨r, h1⟩ := evalIdx_ok h e hw.1 hs.1
    rw [evalIdxAnd, h1]
    dsimp only
    split
    · exact ⟨_, rfl⟩
    · exact evalIdxAnd_ok h es hw.2 hs.2 _
theorem evalIdxOr_ok {st : Store} {D : Docs} (h : IInv st D) (es : List Expr) (hw : FiltersOk es)
    (hs : SupportedAll es) (acc : List Nat) : ∃ ids, evalIdxOr pointerNorm st acc es = .ok ids := by
  match es, hw, hs with
  | [], hw, hs => exact ⟨acc, by rw [evalIdxOr]⟩
  | e :: es, hw, hs =>
    rw [FiltersOk] at hw
    rw [SupportedAll] at hs
    obtain ⟨r, h1⟩ := evalIdx_ok h e hw.1 hs.1
    rw [evalIdxOr, h1]
    exact evalIdxOr_ok h es hw.2 hs.2 _
end

/-! ### Histories -/

theorem attrsOk_of_label {l : Json} (hl : LabelOk l)
    (hz : ∀ a, flattenMap l = some a → a.length < 4294967296 ∧ ∀ p ∈ a, (encKey p.1 p.2).length < 4294967296) :
    ∃ a, flattenMap l = some a ∧ AttrsOk a := by
  obtain ⟨a, h1, _, h3⟩ := flattenMap_spec hl
  exact ⟨a, h1, (hz a h1).1, (hz a h1).2, fun p hp => (h3 p hp).1, fun p hp => (h3 p hp).2.1,
    fun p hp => (h3 p hp).2.2⟩

theorem runLOps_inv (ops : List LOp) {st : Store} {L : Nat → Option Json} {D : Docs} (h : IInv st D)
    (hL : Linked L D) (ho : LOpsOk L ops) :
    ∃ st' D', runLOps st ops = .ok st' ∧ IInv st' D' ∧ Linked (ops.foldl labelsOp L) D' := by
  induction ops generalizing st L D with
  | nil => exact ⟨st, D, rfl, h, hL⟩
  | cons o os ih =>
    obtain ⟨h1, h2⟩ := ho
    have step : ∃ st1 D1, applyLOp st o = .ok st1 ∧ IInv st1 D1 ∧ Linked (labelsOp L o) D1 := by
      cases o with
      | insert d l =>
        obtain ⟨a, ha, hok⟩ := attrsOk_of_label h1.2.1 h1.2.2.2
        have hD : D d = none := by rw [(hL d).1, h1.2.2.1]; rfl
        obtain ⟨st1, e1, i1⟩ := insertDoc_inv h h1.1 hok hD
        refine ⟨st1, _, by rw [applyLOp, ha]; exact e1, i1, fun i => ?_⟩
        simp only [setDoc, labelsOp]
        split
        · refine ⟨by simp [ha], fun l' hl' => ?_⟩
          simp only [Option.some.injEq] at hl'
          rw [← hl']; exact h1.2.1
        · exact hL i
      | delete d =>
        obtain ⟨st1, e1, i1⟩ := deleteDoc_inv h d
        refine ⟨st1, _, e1, i1, fun i => ?_⟩
        simp only [setDoc, labelsOp]
        split
        · simp
        · exact hL i
      | update d l =>
        obtain ⟨a, ha, hok⟩ := attrsOk_of_label h1.2.1 h1.2.2
        obtain ⟨st1, e1, i1⟩ := applyOp_inv (o := .update d a) h ⟨h1.1, hok⟩
        refine ⟨st1, _, by rw [applyLOp, ha]; exact e1, i1, fun i => ?_⟩
        simp only [docsOp, setDoc, labelsOp]
        split
        · refine ⟨by simp [ha], fun l' hl' => ?_⟩
          simp only [Option.some.injEq] at hl'
          rw [← hl']; exact h1.2.1
        · exact hL i
    obtain ⟨st1, D1, e1, i1, l1⟩ := step
    obtain ⟨st2, D2, e2, i2, l2⟩ := ih i1 l1 h2
    exact ⟨st2, D2, by rw [runLOps, e1]; exact e2, i2, l2⟩

end Verif.Label
