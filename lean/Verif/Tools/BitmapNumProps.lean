import Verif.Tools.BitmapProps
/-!
# C91: the names and the numbers of the attributes

Every label is turned into a list of named scalars, and the numbers among them into doubles.  Here: which names, for
every label (arrays included), and which integers.
-/
namespace Verif.Tools

open Verif.Label

/-! ### Names -/

/-- `segs` leads to a scalar of a value: a segment is the key of a field, or the position of an item in decimal. -/
inductive LeafAt : Json → List Bytes → AttrVal → Prop
  | bool (b : Bool) : LeafAt (.bool b) [] (.bool b)
  | str (s : Bytes) : LeafAt (.str s) [] (.str s)
  | num (n : JNum) (a : AttrVal) : tryFrom (.num n) = some a → LeafAt (.num n) [] a
  | field (kvs : List (Bytes × Json)) (k : Bytes) (v : Json) (segs : List Bytes) (a : AttrVal) :
      (k, v) ∈ kvs → LeafAt v segs a → LeafAt (.obj kvs) (k :: segs) a
  | item (xs : List Json) (i : Nat) (v : Json) (segs : List Bytes) (a : AttrVal) :
      xs[i]? = some v → LeafAt v segs a → LeafAt (.arr xs) (decBytes i :: segs) a

mutual
theorem flattenD_leaf (v : Json) (pre : Bytes) (as : Attrs) (h : flattenD pre v = some as) (path : Bytes)
    (a : AttrVal) : (path, a) ∈ as ↔ ∃ segs, LeafAt v segs a ∧ path = pre ++ dotPath segs := by
  match v with
  | .null => simp [flattenD] at h
  | .bool b =>
    simp only [flattenD, Option.some.injEq] at h
    subst h
    simp only [List.mem_singleton, Prod.mk.injEq]
    constructor
    · rintro ⟨rfl, rfl⟩; exact ⟨[], .bool b, by simp [dotPath]⟩
    · rintro ⟨segs, hl, hp⟩; cases hl; exact ⟨by simpa [dotPath] using hp, rfl⟩
  | .str s =>
    simp only [flattenD, Option.some.injEq] at h
    subst h
    simp only [List.mem_singleton, Prod.mk.injEq]
    constructor
    · rintro ⟨rfl, rfl⟩; exact ⟨[], .str s, by simp [dotPath]⟩
    · rintro ⟨segs, hl, hp⟩; cases hl; exact ⟨by simpa [dotPath] using hp, rfl⟩
  | .num n =>
    rw [flattenD] at h
    cases ht : tryFrom (.num n) with
    | none => rw [ht] at h; simp at h
    | some b =>
      rw [ht] at h
      simp only [Option.map_some, Option.some.injEq] at h
      subst h
      simp only [List.mem_singleton, Prod.mk.injEq]
      constructor
      · rintro ⟨rfl, rfl⟩; exact ⟨[], .num n _ ht, by simp [dotPath]⟩
      · rintro ⟨segs, hl, hp⟩
        cases hl with
        | num _ _ ht' => rw [ht] at ht'; exact ⟨by simpa [dotPath] using hp, by simpa using ht'.symm⟩
  | .obj kvs =>
    rw [flattenD] at h
    rw [flattenDEntries_leaf kvs pre as h path a]
    constructor
    · rintro ⟨k, w, segs, hm, hl, hp⟩
      exact ⟨k :: segs, .field kvs k w segs a hm hl, by rw [hp]; simp [dotPath]⟩
    · rintro ⟨segs, hl, hp⟩
      cases hl with
      | field _ k w segs _ hm hl => exact ⟨k, w, segs, hm, hl, by rw [hp]; simp [dotPath]⟩
  | .arr xs =>
    rw [flattenD] at h
    rw [flattenDItems_leaf xs pre 0 as h path a]
    constructor
    · rintro ⟨i, w, segs, hm, hl, hp⟩
      exact ⟨decBytes i :: segs, .item xs i w segs a hm hl, by rw [hp]; simp [dotPath]⟩
    · rintro ⟨segs, hl, hp⟩
      cases hl with
      | item _ i w segs _ hm hl => exact ⟨i, w, segs, hm, hl, by rw [hp]; simp [dotPath]⟩
theorem flattenDEntries_leaf (kvs : List (Bytes × Json)) (pre : Bytes) (as : Attrs)
    (h : flattenDEntries pre kvs = some as) (path : Bytes) (a : AttrVal) :
    (path, a) ∈ as ↔ ∃ k v segs, (k, v) ∈ kvs ∧ LeafAt v segs a ∧ path = pre ++ 46 :: k ++ dotPath segs := by
  match kvs with
  | [] => simp only [flattenDEntries, Option.some.injEq] at h; subst h; simp
  | (k, v) :: rest =>
    rw [flattenDEntries] at h
    cases h1 : flattenD (pre ++ 46 :: k) v with
    | none => rw [h1] at h; simp at h
    | some bs =>
      rw [h1] at h; dsimp only at h
      cases h2 : flattenDEntries pre rest with
      | none => rw [h2] at h; simp at h
      | some cs =>
        rw [h2] at h
        simp only [Option.some.injEq] at h
        subst h
        rw [List.mem_append, flattenD_leaf v _ bs h1 path a, flattenDEntries_leaf rest pre cs h2 path a]
        constructor
        · rintro (⟨segs, hl, hp⟩ | ⟨k', v', segs, hm, hl, hp⟩)
          · exact ⟨k, v, segs, by simp, hl, hp⟩
          · exact ⟨k', v', segs, by simp [hm], hl, hp⟩
        · rintro ⟨k', v', segs, hm, hl, hp⟩
          rcases List.mem_cons.1 hm with e | hm
          · simp only [Prod.mk.injEq] at e
            obtain ⟨rfl, rfl⟩ := e
            exact Or.inl ⟨segs, hl, hp⟩
          · exact Or.inr ⟨k', v', segs, hm, hl, hp⟩
theorem flattenDItems_leaf (xs : List Json) (pre : Bytes) (n : Nat) (as : Attrs)
    (h : flattenDItems pre n xs = some as) (path : Bytes) (a : AttrVal) :
    (path, a) ∈ as ↔ ∃ i v segs, xs[i]? = some v ∧ LeafAt v segs a ∧
      path = pre ++ 46 :: decBytes (n + i) ++ dotPath segs := by
  match xs with
  | [] => simp only [flattenDItems, Option.some.injEq] at h; subst h; simp
  | v :: rest =>
    rw [flattenDItems] at h
    cases h1 : flattenD (pre ++ 46 :: decBytes n) v with
    | none => rw [h1] at h; simp at h
    | some bs =>
      rw [h1] at h; dsimp only at h
      cases h2 : flattenDItems pre (n + 1) rest with
      | none => rw [h2] at h; simp at h
      | some cs =>
        rw [h2] at h
        simp only [Option.some.injEq] at h
        subst h
        rw [List.mem_append, flattenD_leaf v _ bs h1 path a, flattenDItems_leaf rest pre (n + 1) cs h2 path a]
        constructor
        · rintro (⟨segs, hl, hp⟩ | ⟨i, v', segs, hm, hl, hp⟩)
          · exact ⟨0, v, segs, by simp, hl, hp⟩
          · exact ⟨i + 1, v', segs, by simpa using hm, hl, by rw [hp, Nat.add_right_comm, Nat.add_assoc]⟩
        · rintro ⟨i, v', segs, hm, hl, hp⟩
          cases i with
          | zero =>
            simp only [List.getElem?_cons_zero, Option.some.injEq] at hm
            subst hm
            exact Or.inl ⟨segs, hl, hp⟩
          | succ i =>
            exact Or.inr ⟨i, v', segs, by simpa using hm, hl, by rw [hp, Nat.add_right_comm, Nat.add_assoc]⟩
end

/-- **C91.** The attributes of a label are exactly its scalars, each under the dotted path that leads to it: keys of
fields, and positions of items. -/
theorem C91_attributes (label : Json) (attrs : Attrs) (h : flattenD [] label = some attrs) (path : Bytes)
    (a : AttrVal) : (path, a) ∈ attrs ↔ ∃ segs, LeafAt label segs a ∧ path = segs.flatMap (fun s => 46 :: s) := by
  rw [flattenD_leaf label [] attrs h path a]
  simp [dotPath]

/-- `{"a":[true,{"b":"x"}]}` has the attributes `.a.0` and `.a.1.b`. -/
example : flattenD [] (.obj [(lit "a", .arr [.bool true, .obj [(lit "b", .str (lit "x"))]])])
    = some [(lit ".a.0", .bool true), (lit ".a.1.b", .str (lit "x"))] := by decide +kernel

/-! ### Numbers -/

theorem f64OfNat_whole {n : Nat} (h64 : n < 18446744073709551616) :
    f64OfNat n < 9223372036854775808 ∧ fExp (f64OfNat n) < 2047 ∧ ∃ q, fMag (f64OfNat n) = q * 2 ^ 1074 := by
  by_cases hs : n < 9007199254740992
  · obtain ⟨h1, h2, h3⟩ := f64OfNat_small hs
    exact ⟨h1, h2, n, h3⟩
  have h : 9007199254740992 ≤ n := by omega
  obtain ⟨h1', h2', -⟩ := f64OfNat_big h h64
  refine ⟨h1', h2', ?_⟩
  obtain ⟨hr1, hr2⟩ := roundNat_big h
  have hn : n ≠ 0 := by omega
  generalize hR : Record.roundNat 53 n = r at *
  have hr0 : r ≠ 0 := by omega
  obtain ⟨h1, h2⟩ := log2_bounds hr0
  have hl : 53 ≤ r.log2 := (Nat.le_log2 hr0).2 hr1
  have hu : r.log2 < 65 := (Nat.log2_lt hr0).2 (by omega)
  generalize hL : r.log2 = L at *
  have e : f64OfNat n = (L + 1023) * 4503599627370496 + (r / 2 ^ (L - 52) - 4503599627370496) := by
    unfold f64OfNat
    simp only [hR, hn, if_false, hL, if_neg (show ¬ L ≤ 52 by omega)]
  have hs1 : 4503599627370496 ≤ r / 2 ^ (L - 52) := by
    rw [Nat.le_div_iff_mul_le (Nat.two_pow_pos _)]
    calc 4503599627370496 * 2 ^ (L - 52) = 2 ^ 52 * 2 ^ (L - 52) := rfl
      _ = 2 ^ L := by rw [← Nat.pow_add, show 52 + (L - 52) = L by omega]
      _ ≤ r := h1
  have hs2 : r / 2 ^ (L - 52) < 9007199254740992 := by
    rw [Nat.div_lt_iff_lt_mul (Nat.two_pow_pos _)]
    calc r < 2 ^ (L + 1) := h2
      _ = 2 ^ 53 * 2 ^ (L - 52) := by rw [← Nat.pow_add, show 53 + (L - 52) = L + 1 by omega]
  have hb := fExp_build (e := L + 1023) (f := r / 2 ^ (L - 52) - 4503599627370496) (by omega) (by omega)
  refine ⟨r / 2 ^ (L - 52) * 2 ^ (L - 52), ?_⟩
  rw [e]
  unfold fMag
  rw [hb.1, hb.2, if_neg (by omega), Nat.add_sub_cancel' hs1, Nat.mul_assoc, ← Nat.pow_add,
    show L - 52 + 1074 = L + 1023 - 1 by omega]

/-- A double that reads back as the integer it came from has its value, unless the integer is the largest. -/
theorem back_exact {n : Int} (hn1 : -9223372036854775808 ≤ n) (hn2 : n < 9223372036854775807)
    (h : f64ToI64 (i64AsF64 n) = n) : fVal (i64AsF64 n) = n * 2 ^ 1074 := by
  have main : ∃ q : Int, fVal (i64AsF64 n) = q * 2 ^ 1074 ∧ (n = -9223372036854775808 → q = n) := by
    unfold i64AsF64
    by_cases h0 : 0 ≤ n
    · rw [if_pos h0]
      obtain ⟨h1, h2, q, h3⟩ := f64OfNat_whole (n := n.toNat) (by omega)
      refine ⟨q, ?_, by omega⟩
      unfold fVal
      rw [if_pos h1, h3]
      push_cast
      rfl
    · rw [if_neg h0]
      obtain ⟨h1, h2, q, h3⟩ := f64OfNat_whole (n := n.natAbs) (by omega)
      have hm : fMag (9223372036854775808 + f64OfNat n.natAbs) = fMag (f64OfNat n.natAbs) := by
        generalize f64OfNat n.natAbs = b at *
        have he : fExp (9223372036854775808 + b) = fExp b := by unfold fExp; omega
        have hf : fFrac (9223372036854775808 + b) = fFrac b := by unfold fFrac; omega
        unfold fMag
        rw [he, hf]
      refine ⟨-q, ?_, ?_⟩
      · unfold fVal
        rw [if_neg (by omega), hm, h3]
        push_cast
        rw [Int.neg_mul]
      · rintro rfl
        have hq : fMag (f64OfNat 9223372036854775808) = 9223372036854775808 * 2 ^ 1074 := by decide +kernel
        rw [show (-9223372036854775808 : Int).natAbs = 9223372036854775808 from rfl, hq] at h3
        have : (9223372036854775808 : Nat) = q := Nat.eq_of_mul_eq_mul_right (Nat.two_pow_pos 1074) h3
        omega
  obtain ⟨q, hq, hmin⟩ := main
  unfold f64ToI64 at h
  split at h
  · rename_i hnan
    subst h
    exact absurd hnan (by decide +kernel)
  · have hd : (q * 2 ^ 1074 : Int).tdiv (2 ^ 1074) = q := Int.mul_tdiv_cancel _ (by decide +kernel)
    rw [hq, hd] at h
    by_cases hl : n = -9223372036854775808
    · rw [hq, hmin hl]
    · have : q = n := by omega
      rw [hq, this]

theorem computeBitmaps_numbers {docs : List (Nat × Json)} {queries : List (Nat × Expr)} {bms : List (List Nat)}
    (h : computeBitmaps docs queries = .ok bms) {d : Nat × Json} (hd : d ∈ docs) {as : Attrs}
    (ha : flattenD [] d.2 = some as) {k : Bytes} {v : AttrVal} (hv : (k, v) ∈ as)
    (hnum : (∃ n, v = .int n) ∨ ∃ b, v = .real b) : ∃ f, btreeKey v = some f := by
  obtain ⟨flat, maps, g, accs, h1, h2, h3, h4, h5⟩ := computeBitmaps_ok h
  obtain ⟨m1, m2, m3, m4⟩ := docMaps_spec flat maps h2
  obtain ⟨f1, f2⟩ := flattenAll_spec docs flat h1
  obtain ⟨n, g1, g2⟩ := globalLoop_spec _ [] g (fun _ _ => False) (by simp [GlobalOk]) h3
  simp only [false_or, List.mem_map] at g1 g2
  obtain ⟨ma, hma, pa⟩ := m4 _ ((f2 d.1 as).2 ⟨d.2, hd, ha⟩)
  have sa : ∃ m, (∃ a, a ∈ maps ∧ a.2 = m) ∧ (k, v) ∈ m := ⟨ma, ⟨_, hma, rfl⟩, (pa _).2 hv⟩
  obtain ⟨r, hr⟩ := (g1 k).2 ⟨v, sa⟩
  have hk := g2 k r v hr sa
  obtain ⟨s1, s2⟩ := makeAccels_spec h4 n k
  cases hacc : accelOf accs k with
  | none => exact absurd hr (s2 hacc r)
  | some acc =>
    obtain ⟨w, hw, hm⟩ := s1 acc hacc
    have hkw := g2 k w v hw sa
    have hb : ∃ m, btreeLoop k [] maps = some m := by
      rcases hnum with ⟨x, rfl⟩ | ⟨x, rfl⟩
      · cases w <;> simp [sameKind] at hkw
        simp only [makeAccel] at hm
        cases hl : btreeLoop k [] maps with
        | none => rw [hl] at hm; simp at hm
        | some m => exact ⟨m, rfl⟩
      · cases w <;> simp [sameKind] at hkw
        simp only [makeAccel] at hm
        cases hl : btreeLoop k [] maps with
        | none => rw [hl] at hm; simp at hm
        | some m => exact ⟨m, rfl⟩
    obtain ⟨m, hm⟩ := hb
    exact (btreeLoop_spec k maps [] m _ m2 (files_nil _) hm).1 _ _ _ hma ((pa _).2 hv)

/-- **C91.** Bitmaps are only computed for collections whose numbers can be compared as doubles: no double in a label is
`NaN`, and an integer is the value of the double it is compared as, except for the largest 64-bit integer. -/
theorem C91_exact_numbers (docs : List (Nat × Json)) (queries : List (Nat × Expr)) (bms : List (List Nat))
    (h : computeBitmaps docs queries = .ok bms) (d : Nat × Json) (hd : d ∈ docs) (as : Attrs)
    (ha : flattenD [] d.2 = some as) (k : Bytes) :
    (∀ b, (k, .real b) ∈ as → ¬ fNaN b) ∧
    ∀ n : Int, (k, .int n) ∈ as → -2 ^ 63 ≤ n → n < 2 ^ 63 - 1 →
      ∃ b, asDouble (.int n) = some b ∧ ¬ fNaN b ∧ fVal b = n * 2 ^ 1074 := by
  have ofn : ∀ b f, ofNew b = some f → ¬ fNaN b := by
    intro b f hf hn
    unfold ofNew at hf
    rw [if_pos (by unfold fNaNb; simp [hn.1, hn.2])] at hf
    simp at hf
  constructor
  · intro b hb
    obtain ⟨f, hf⟩ := computeBitmaps_numbers h hd ha hb (Or.inr ⟨b, rfl⟩)
    exact ofn b f hf
  · intro n hn l u
    obtain ⟨f, hf⟩ := computeBitmaps_numbers h hd ha hn (Or.inl ⟨n, rfl⟩)
    simp only [btreeKey] at hf
    by_cases hc : f64ToI64 (i64AsF64 n) ≠ n
    · rw [if_pos hc] at hf; simp at hf
    · rw [if_neg hc] at hf
      exact ⟨i64AsF64 n, rfl, ofn _ f hf, back_exact (by omega) (by omega) (not_not.1 hc)⟩

/-- `2^53 + 1` is not the value of a double: one such label fails the computation, whatever the queries are. -/
theorem C91_inexact_integer_fails (queries : List (Nat × Expr)) :
    computeBitmaps [(0, .obj [(lit "a", .num (.pos 9007199254740993))])] queries = .err := by
  have h1 : flattenAll [(0, .obj [(lit "a", .num (.pos 9007199254740993))])] =
      some [(0, [(lit ".a", .int 9007199254740993)])] := by decide +kernel
  have h2 : docMaps [(0, [(lit ".a", .int 9007199254740993)])] = some [(0, [(lit ".a", .int 9007199254740993)])] := by
    decide +kernel
  have h3 : globalLoop [] [[(lit ".a", .int 9007199254740993)]] = some [(lit ".a", .int 9007199254740993)] := by
    decide +kernel
  have h4 : btreeLoop (lit ".a") [] [(0, [(lit ".a", .int 9007199254740993)])] = none := by decide +kernel
  unfold computeBitmaps
  simp only [h1, h2, List.map_cons, List.map_nil, h3, makeAccels, makeAccel, h4, Option.map_none]

/-- **C91 (refuted for the largest integer).** The test that an integer survives the way to a double and back lets
`2^63 - 1` pass, because the way back saturates; it is then filed under `2^63`, and matches an equality with it. -/
theorem C91_largest_integer_rounded : ∃ (docs : List (Nat × Json)) (e : Expr),
    docs = [(0, .obj [(lit "a", .num (.pos 9223372036854775807))])] ∧
    e = .cmp (lit "a") (.eq (.num (.pos 9223372036854775808))) ∧
    (∀ d ∈ docs, evalExpr d.2 e = false) ∧ computeBitmaps docs [(0, e)] = .ok [[0]] :=
  ⟨_, _, rfl, rfl, by decide +kernel, by decide +kernel⟩

/-- `C91_exact_numbers`: a label with an integer and a double. -/
example : computeBitmaps [(0, .obj [(lit "a", .num (.neg (-3))), (lit "b", .num (.flt two))])]
    [(0, .cmp (lit "a") (.lt two))] = .ok [[0]] := by decide +kernel

end Verif.Tools
