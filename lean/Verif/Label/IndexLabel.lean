import Verif.Label.IndexEval
import Verif.Record.NumberProps
/-
From attributes back to labels: what flattening keeps, and the comparisons of the direct evaluator.
-/
namespace Verif.Label

/-! ### Paths -/

/-- The path of a sequence of names. -/
def pathOf (segs : List Bytes) : Bytes := segs.flatMap (fun s => 47 :: s)

theorem splitByte_self {sep : Nat} {s : Bytes} (h : sep ∉ s) : splitByte sep s = [s] := by
  induction s with
  | nil => rfl
  | cons c cs ih =>
    simp only [List.mem_cons, not_or] at h
    rw [splitByte, if_neg (fun e => h.1 e.symm), ih h.2]

theorem splitByte_cut {sep : Nat} {s : Bytes} (h : sep ∉ s) (t : Bytes) :
    splitByte sep (s ++ sep :: t) = s :: splitByte sep t := by
  induction s with
  | nil => simp [splitByte]
  | cons c cs ih =>
    simp only [List.mem_cons, not_or] at h
    rw [List.cons_append, splitByte, if_neg (fun e => h.1 e.symm), ih h.2]

theorem split_pathOf (segs : List Bytes) (hs : ∀ s ∈ segs, 47 ∉ s) (s : Bytes) (h : 47 ∉ s) :
    splitByte 47 (s ++ pathOf segs) = s :: segs := by
  induction segs generalizing s with
  | nil => rw [pathOf, List.flatMap_nil, List.append_nil, splitByte_self h]
  | cons r rest ih =>
    have : s ++ pathOf (r :: rest) = s ++ 47 :: (r ++ pathOf rest) := by simp [pathOf]
    rw [this, splitByte_cut h, ih (fun x hx => hs x (by simp [hx])) r (hs r (by simp))]

theorem pathOf_inj {a b : List Bytes} (ha : ∀ s ∈ a, 47 ∉ s) (hb : ∀ s ∈ b, 47 ∉ s) (h : pathOf a = pathOf b) :
    a = b := by
  have h1 := split_pathOf a ha [] (by simp)
  have h2 := split_pathOf b hb [] (by simp)
  rw [List.nil_append] at h1 h2
  rw [h, h2] at h1
  simpa using h1.symm

theorem splitByte_ne_nil (sep : Nat) (s : Bytes) : splitByte sep s ≠ [] := by
  cases s with
  | nil => simp [splitByte]
  | cons c cs =>
    rw [splitByte]
    split
    · simp
    · split <;> simp

theorem splitByte_mem {sep c : Nat} {s seg : Bytes} (h : seg ∈ splitByte sep s) (hc : c ∈ seg) : c ∈ s := by
  induction s generalizing seg with
  | nil => simp [splitByte] at h; subst h; simp at hc
  | cons d ds ih =>
    rw [splitByte] at h
    split at h
    · rcases List.mem_cons.1 h with rfl | h
      · simp at hc
      · exact List.mem_cons_of_mem _ (ih h hc)
    · split at h
      · rename_i he; exact absurd he (splitByte_ne_nil _ _)
      · rename_i x xs he
        rw [he] at ih
        rcases List.mem_cons.1 h with rfl | h
        · rcases List.mem_cons.1 hc with rfl | hc
          · simp
          · exact List.mem_cons_of_mem _ (ih (by simp) hc)
        · exact List.mem_cons_of_mem _ (ih (by simp [h]) hc)

theorem pointerNorm_eq (f : Bytes) : pointerNorm f = pathOf (splitByte 46 f) := by
  induction f with
  | nil => rfl
  | cons c cs ih =>
    rw [splitByte]
    by_cases hc : c = 46
    · rw [if_pos hc]
      have : pathOf ([] :: splitByte 46 cs) = 47 :: pathOf (splitByte 46 cs) := by simp [pathOf]
      rw [this, ← ih]
      simp [pointerNorm, hc]
    · rw [if_neg hc]
      split
      · rename_i he; exact absurd he (splitByte_ne_nil _ _)
      · rename_i x xs he
        rw [he] at ih
        have h1 : pathOf ((c :: x) :: xs) = 47 :: c :: (x ++ pathOf xs) := by simp [pathOf]
        have h2 : pathOf (x :: xs) = 47 :: (x ++ pathOf xs) := by simp [pathOf]
        rw [h2] at ih
        rw [h1]
        simp only [pointerNorm, List.map_cons, if_neg hc, List.cons.injEq, true_and] at ih ⊢
        exact ih

/-! ### Flattening -/

theorem objGet_mem {kvs : List (Bytes × Json)} (h : LabelEntriesOk kvs) (k : Bytes) (v : Json) :
    objGet kvs k = some v ↔ (k, v) ∈ kvs := by
  induction kvs with
  | nil => simp [objGet]
  | cons p rest ih =>
    obtain ⟨l, w⟩ := p
    rw [LabelEntriesOk] at h
    have ih := ih h.2.2.2
    unfold objGet at ih ⊢
    rw [List.find?_cons]
    by_cases e : l = k
    · subst e
      simp only [BEq.rfl, Option.map_some, Option.some.injEq, List.mem_cons, Prod.mk.injEq, true_and]
      constructor
      · rintro rfl; exact Or.inl rfl
      · rintro (rfl | hm)
        · rfl
        · exact absurd (List.mem_map.2 ⟨_, hm, rfl⟩) h.2.1
    · have : ((l, w).1 == k) = false := by simpa using e
      rw [this]
      simp only [List.mem_cons, Prod.mk.injEq]
      rw [ih]
      constructor
      · exact Or.inr
      · rintro (⟨rfl, _⟩ | hm)
        · exact absurd rfl e
        · exact hm

theorem entryOk {kvs : List (Bytes × Json)} (h : LabelEntriesOk kvs) {k : Bytes} {v : Json} (hm : (k, v) ∈ kvs) :
    NameOk k ∧ LabelOk v := by
  induction kvs with
  | nil => simp at hm
  | cons p rest ih =>
    obtain ⟨l, w⟩ := p
    rw [LabelEntriesOk] at h
    rcases List.mem_cons.1 hm with e | hm
    · simp only [Prod.mk.injEq] at e
      obtain ⟨rfl, rfl⟩ := e
      exact ⟨h.1, h.2.2.1⟩
    · exact ih h.2.2.2 hm

/-- The scalars of a value, by path. -/
def Leaf (v : Json) (pre path : Bytes) (a : AttrVal) : Prop :=
  ∃ segs w, (∀ s ∈ segs, 47 ∉ s ∧ 0 ∉ s) ∧ getPath v segs = some w ∧ tryFrom w = some a ∧ path = pre ++ pathOf segs

theorem leaf_scalar {v : Json} (hv : ∀ kvs, v ≠ .obj kvs) {b : AttrVal} (hb : tryFrom v = some b) (pre path : Bytes)
    (a : AttrVal) : Leaf v pre path a ↔ path = pre ∧ a = b := by
  constructor
  · rintro ⟨segs, w, _, hg, ht, hp⟩
    cases segs with
    | nil =>
      rw [getPath] at hg
      simp only [Option.some.injEq] at hg
      subst hg
      rw [hb] at ht
      simp only [Option.some.injEq] at ht
      exact ⟨by simpa [pathOf] using hp, ht.symm⟩
    | cons s ss =>
      cases v with
      | obj kvs => exact absurd rfl (hv kvs)
      | _ => simp [getPath] at hg
  · rintro ⟨rfl, rfl⟩
    exact ⟨[], v, by simp, by rw [getPath], hb, by simp [pathOf]⟩

theorem leaf_obj {kvs : List (Bytes × Json)} (h : LabelEntriesOk kvs) (pre path : Bytes) (a : AttrVal) :
    Leaf (.obj kvs) pre path a ↔ ∃ k v, (k, v) ∈ kvs ∧ Leaf v (pre ++ 47 :: k) path a := by
  constructor
  · rintro ⟨segs, w, hs, hg, ht, hp⟩
    cases segs with
    | nil =>
      rw [getPath] at hg
      simp only [Option.some.injEq] at hg
      subst hg
      simp [tryFrom] at ht
    | cons s ss =>
      rw [getPath] at hg
      cases ho : objGet kvs s with
      | none => simp [ho] at hg
      | some v =>
        simp only [ho] at hg
        exact ⟨s, v, (objGet_mem h s v).1 ho, ss, w, fun x hx => hs x (by simp [hx]), hg, ht, by
          rw [hp]; simp [pathOf]⟩
  · rintro ⟨k, v, hm, segs, w, hs, hg, ht, hp⟩
    refine ⟨k :: segs, w, ?_, ?_, ht, ?_⟩
    · intro x hx
      rcases List.mem_cons.1 hx with rfl | hx
      · exact ⟨(entryOk h hm).1.2.1, (entryOk h hm).1.2.2⟩
      · exact hs x hx
    · rw [getPath, (objGet_mem h k v).2 hm]
      exact hg
    · rw [hp]; simp [pathOf]

mutual
theorem flattenJ_spec (v : Json) (h : LabelOk v) (pre : Bytes) :
    ∃ as, flattenJ pre v = some as ∧ ∀ path a, (path, a) ∈ as ↔ Leaf v pre path a := by
  match v, h with
  | .null, h => exact absurd h (by rw [LabelOk]; simp)
  | .arr xs, h => exact absurd h (by rw [LabelOk]; simp)
  | .bool b, h =>
    refine ⟨[(pre, .bool b)], by rw [flattenJ], fun path a => ?_⟩
    rw [leaf_scalar (by simp) (by rw [tryFrom]) pre path a]
    simp
  | .str s, h =>
    refine ⟨[(pre, .str s)], by rw [flattenJ], fun path a => ?_⟩
    rw [leaf_scalar (by simp) (by rw [tryFrom]) pre path a]
    simp
  | .num n, h =>
    have : ∃ b, tryFrom (.num n) = some b := by
      cases n with
      | pos n =>
        rw [tryFrom]
        split
        · exact ⟨_, rfl⟩
        · exact ⟨_, rfl⟩
      | neg n => exact ⟨_, by rw [tryFrom]⟩
      | flt n => exact ⟨_, by rw [tryFrom]⟩
    obtain ⟨b, hb⟩ := this
    refine ⟨[(pre, b)], by rw [flattenJ, hb]; rfl, fun path a => ?_⟩
    rw [leaf_scalar (by simp) hb pre path a]
    simp
  | .obj kvs, h =>
    rw [LabelOk] at h
    obtain ⟨as, h1, h2⟩ := flattenEntries_spec kvs h pre
    exact ⟨as, by rw [flattenJ, h1], fun path a => by rw [h2, leaf_obj h]⟩
theorem flattenEntries_spec (kvs : List (Bytes × Json)) (h : LabelEntriesOk kvs) (pre : Bytes) :
    ∃ as, flattenEntries pre kvs = some as ∧
      ∀ path a, (path, a) ∈ as ↔ ∃ k v, (k, v) ∈ kvs ∧ Leaf v (pre ++ 47 :: k) path a := by
  match kvs, h with
  | [], h => exact ⟨[], by rw [flattenEntries], by simp⟩
  | (k, v) :: rest, h =>
    rw [LabelEntriesOk] at h
    obtain ⟨as, h1, h2⟩ := flattenJ_spec v h.2.2.1 (pre ++ 47 :: k)
    obtain ⟨bs, h3, h4⟩ := flattenEntries_spec rest h.2.2.2 pre
    refine ⟨as ++ bs, by rw [flattenEntries, h1, h3], fun path a => ?_⟩
    rw [List.mem_append, h2, h4]
    constructor
    · rintro (hl | ⟨k', v', hm, hl⟩)
      · exact ⟨k, v, by simp, hl⟩
      · exact ⟨k', v', by simp [hm], hl⟩
    · rintro ⟨k', v', hm, hl⟩
      rcases List.mem_cons.1 hm with e | hm
      · simp only [Prod.mk.injEq] at e
        obtain ⟨rfl, rfl⟩ := e
        exact Or.inl hl
      · exact Or.inr ⟨k', v', hm, hl⟩
end

theorem mem_toMap {as : Attrs} (h : ∀ p a b, (p, a) ∈ as → (p, b) ∈ as → a = b) (p : Bytes) (a : AttrVal) :
    (p, a) ∈ toMap as ↔ (p, a) ∈ as := by
  induction as with
  | nil => simp [toMap]
  | cons q rest ih =>
    obtain ⟨k, v⟩ := q
    have ih := ih (fun p a b h1 h2 => h p a b (by simp [h1]) (by simp [h2]))
    rw [toMap]
    split
    · rename_i hc
      rw [ih]
      simp only [List.mem_cons, Prod.mk.injEq]
      constructor
      · exact Or.inr
      · rintro (⟨rfl, rfl⟩ | hm)
        · simp only [List.contains_iff_mem, List.mem_map] at hc
          obtain ⟨⟨k', v'⟩, hm, e⟩ := hc
          dsimp only at e
          subst e
          rw [h k' a v' (by simp) (by simp [hm])]
          exact hm
        · exact hm
    · simp only [List.mem_cons, ih]

theorem tryFrom_valid {w : Json} (h : LabelOk w) {a : AttrVal} (ht : tryFrom w = some a) :
    a.valid ∧ a ≠ .empty := by
  cases w with
  | num n =>
    rw [LabelOk] at h
    cases n with
    | pos n =>
      rw [NumOk] at h
      rw [tryFrom, if_pos h] at ht
      simp only [Option.some.injEq] at ht
      subst ht
      refine ⟨?_, by simp⟩
      unfold AttrVal.valid
      dsimp only
      omega
    | neg n =>
      rw [NumOk] at h
      simp only [tryFrom, Option.some.injEq] at ht
      subst ht
      refine ⟨?_, by simp⟩
      unfold AttrVal.valid
      dsimp only
      omega
    | flt b =>
      rw [NumOk] at h
      simp only [tryFrom, Option.some.injEq] at ht
      subst ht
      refine ⟨?_, by simp⟩
      unfold AttrVal.valid
      exact h.1
  | str s =>
    rw [LabelOk] at h
    simp only [tryFrom, Option.some.injEq] at ht
    subst ht
    refine ⟨?_, by simp⟩
    unfold AttrVal.valid
    first
      | exact h
      | trivial
  | bool b =>
    simp only [tryFrom, Option.some.injEq] at ht
    subst ht
    refine ⟨?_, by simp⟩
    unfold AttrVal.valid
    trivial
  | _ => simp [tryFrom] at ht

theorem getPath_labelOk {v w : Json} (segs : List Bytes) (h : LabelOk v) (hg : getPath v segs = some w) :
    LabelOk w := by
  induction segs generalizing v with
  | nil =>
    rw [getPath] at hg
    simp only [Option.some.injEq] at hg
    rw [← hg]
    exact h
  | cons s ss ih =>
    cases v with
    | obj kvs =>
      rw [LabelOk] at h
      rw [getPath] at hg
      cases ho : objGet kvs s with
      | none => simp [ho] at hg
      | some x =>
        simp only [ho] at hg
        exact ih (entryOk h ((objGet_mem h s x).1 ho)).2 hg
    | _ => simp [getPath] at hg

/-- The attributes of a label: the scalars it has at each path. -/
theorem flattenMap_spec {label : Json} (h : LabelOk label) :
    ∃ attrs, flattenMap label = some attrs ∧
      (∀ f, 47 ∉ f → 0 ∉ f → ∀ a, (pointerNorm f, a) ∈ attrs ↔ ∃ w, getByPath label f = some w ∧ tryFrom w = some a) ∧
      (∀ p ∈ attrs, 0 ∉ p.1 ∧ p.2.valid ∧ p.2 ≠ .empty) := by
  obtain ⟨as, h1, h2⟩ := flattenJ_spec label h []
  have fn : ∀ p a b, (p, a) ∈ as → (p, b) ∈ as → a = b := by
    intro p a b ha hb
    obtain ⟨s1, w1, n1, g1, t1, p1⟩ := (h2 p a).1 ha
    obtain ⟨s2, w2, n2, g2, t2, p2⟩ := (h2 p b).1 hb
    rw [p1] at p2
    simp only [List.nil_append] at p2
    have := pathOf_inj (fun s hs => (n1 s hs).1) (fun s hs => (n2 s hs).1) p2
    subst this
    rw [g1] at g2
    simp only [Option.some.injEq] at g2
    subst g2
    rw [t1] at t2
    simpa using t2
  refine ⟨toMap as, by rw [flattenMap, h1]; rfl, ?_, ?_⟩
  · intro f hf h0 a
    rw [mem_toMap fn, h2, pointerNorm_eq, getByPath]
    constructor
    · rintro ⟨segs, w, hs, hg, ht, hp⟩
      rw [List.nil_append] at hp
      have := pathOf_inj (fun s hs' hc => hf (splitByte_mem hs' hc)) (fun s hs' => (hs s hs').1) hp
      rw [this]
      exact ⟨w, hg, ht⟩
    · rintro ⟨w, hg, ht⟩
      exact ⟨_, w, fun s hs => ⟨fun hc => hf (splitByte_mem hs hc), fun hc => h0 (splitByte_mem hs hc)⟩, hg, ht,
        by simp⟩
  · rintro ⟨p, a⟩ hp
    obtain ⟨segs, w, hs, hg, ht, rfl⟩ := (h2 p a).1 ((mem_toMap fn p a).1 hp)
    refine ⟨?_, tryFrom_valid (getPath_labelOk segs h hg) ht⟩
    simp only [List.nil_append, pathOf, List.mem_flatMap, List.mem_cons, not_exists, not_and, not_or]
    intro s hm
    exact ⟨by omega, (hs s hm).2⟩

/-! ### Numbers -/

theorem roundNat_big {n : Nat} (h1 : 9007199254740992 ≤ n) :
    9007199254740992 ≤ Record.roundNat 53 n ∧ Record.roundNat 53 n ≤ 2 * n := by
  unfold Record.roundNat Record.bitLen
  have hn : n ≠ 0 := by omega
  have hl : 53 ≤ n.log2 := (Nat.le_log2 hn).2 h1
  simp only [hn, if_false]
  obtain ⟨k, hk⟩ : ∃ k, n.log2 = 52 + (k + 1) := ⟨n.log2 - 53, by omega⟩
  have hlo := (Nat.le_log2 hn (k := n.log2)).1 (Nat.le_refl _)
  have e : n.log2 + 1 - 53 = k + 1 := by omega
  rw [e, if_neg (by omega)]
  rw [hk, Nat.pow_add] at hlo
  have hq : 2 ^ 52 ≤ n / 2 ^ (k + 1) := by
    rw [Nat.le_div_iff_mul_le (Nat.two_pow_pos _)]
    exact hlo
  have hp2 : 2 ≤ 2 ^ (k + 1) := by
    rw [Nat.pow_succ]
    have := Nat.two_pow_pos k
    omega
  have hm := Nat.div_mul_le_self n (2 ^ (k + 1))
  have hb : 2 ^ 52 * 2 ≤ n / 2 ^ (k + 1) * 2 ^ (k + 1) := Nat.mul_le_mul hq hp2
  have hpn : 2 ^ (k + 1) ≤ n := by
    have : 1 * 2 ^ (k + 1) ≤ 2 ^ 52 * 2 ^ (k + 1) := Nat.mul_le_mul_right _ (by decide)
    omega
  split
  · rw [Nat.add_mul, Nat.one_mul]
    omega
  · omega

theorem fExp_build {e f : Nat} (he : e < 2048) (hf : f < 4503599627370496) :
    fExp (e * 4503599627370496 + f) = e ∧ fFrac (e * 4503599627370496 + f) = f := by
  unfold fExp fFrac
  omega

theorem log2_bounds {r : Nat} (h : r ≠ 0) : 2 ^ r.log2 ≤ r ∧ r < 2 ^ (r.log2 + 1) :=
  ⟨(Nat.le_log2 h).1 (Nat.le_refl _), (Nat.log2_lt h).1 (Nat.lt_succ_self _)⟩

theorem f64OfNat_small {n : Nat} (h : n < 9007199254740992) :
    f64OfNat n < 9223372036854775808 ∧ fExp (f64OfNat n) < 2047 ∧ fMag (f64OfNat n) = n * 2 ^ 1074 := by
  by_cases hn : n = 0
  · subst hn
    decide +kernel
  have hr : Record.roundNat 53 n = n := Record.roundNat_small h
  obtain ⟨h1, h2⟩ := log2_bounds hn
  have hl : n.log2 ≤ 52 := by
    have := (Nat.log2_lt hn (k := 53)).2 h
    omega
  generalize hL : n.log2 = L at *
  have e : f64OfNat n = (L + 1023) * 4503599627370496 + (n * 2 ^ (52 - L) - 4503599627370496) := by
    unfold f64OfNat
    simp only [hr, hn, if_false, hL, if_pos hl]
  have hs1 : 4503599627370496 ≤ n * 2 ^ (52 - L) := by
    calc 4503599627370496 = 2 ^ L * 2 ^ (52 - L) := by
          rw [← Nat.pow_add, show L + (52 - L) = 52 by omega]
      _ ≤ _ := Nat.mul_le_mul_right _ h1
  have hs2 : n * 2 ^ (52 - L) < 9007199254740992 := by
    calc n * 2 ^ (52 - L) < 2 ^ (L + 1) * 2 ^ (52 - L) := Nat.mul_lt_mul_of_pos_right h2 (Nat.two_pow_pos _)
      _ = _ := by rw [← Nat.pow_add, show L + 1 + (52 - L) = 53 by omega]
  have hb := fExp_build (e := L + 1023) (f := n * 2 ^ (52 - L) - 4503599627370496) (by omega) (by omega)
  rw [e]
  refine ⟨by omega, by omega, ?_⟩
  unfold fMag
  rw [hb.1, hb.2, if_neg (by omega), Nat.add_sub_cancel' hs1, Nat.mul_assoc, ← Nat.pow_add,
    show 52 - L + (L + 1023 - 1) = 1074 by omega]

theorem f64OfNat_big {n : Nat} (h : 9007199254740992 ≤ n) (h64 : n < 18446744073709551616) :
    f64OfNat n < 9223372036854775808 ∧ fExp (f64OfNat n) < 2047 ∧
      9007199254740992 * 2 ^ 1074 ≤ fMag (f64OfNat n) := by
  obtain ⟨hr1, hr2⟩ := roundNat_big h
  have hn : n ≠ 0 := by omega
  generalize hR : Record.roundNat 53 n = r at *
  have hr0 : r ≠ 0 := by omega
  obtain ⟨h1, h2⟩ := log2_bounds hr0
  have hl : 53 ≤ r.log2 := (Nat.le_log2 hr0).2 hr1
  have hu : r.log2 < 65 := (Nat.log2_lt hr0).2 (by omega)
  generalize hL : r.log2 = L at *
  have e : f64OfNat n = (L + 1023) * 4503599627370496 + (r / 2 ^ (L - 52) - 4503599627370496) := by
    unfold f64OfNat
    simp only [hR, hn, if_false, hL, if_neg (show ¬ L ≤ 52 by omega)]
  have hs1 : 4503599627370496 ≤ r / 2 ^ (L - 52) := by
    rw [Nat.le_div_iff_mul_le (Nat.two_pow_pos _)]
    calc 4503599627370496 * 2 ^ (L - 52) = 2 ^ 52 * 2 ^ (L - 52) := rfl
      _ = 2 ^ L := by rw [← Nat.pow_add, show 52 + (L - 52) = L by omega]
      _ ≤ r := h1
  have hs2 : r / 2 ^ (L - 52) < 9007199254740992 := by
    rw [Nat.div_lt_iff_lt_mul (Nat.two_pow_pos _)]
    calc r < 2 ^ (L + 1) := h2
      _ = 2 ^ 53 * 2 ^ (L - 52) := by rw [← Nat.pow_add, show 53 + (L - 52) = L + 1 by omega]
  have hb := fExp_build (e := L + 1023) (f := r / 2 ^ (L - 52) - 4503599627370496) (by omega) (by omega)
  rw [e]
  refine ⟨by omega, by omega, ?_⟩
  unfold fMag
  rw [hb.1, hb.2, if_neg (by omega), Nat.add_sub_cancel' hs1]
  calc 9007199254740992 * 2 ^ 1074 = 4503599627370496 * 2 ^ 1075 := by decide +kernel
    _ ≤ 4503599627370496 * 2 ^ (L + 1023 - 1) :=
        Nat.mul_le_mul_left _ (Nat.pow_le_pow_right (by decide) (by omega))
    _ ≤ _ := Nat.mul_le_mul_right _ hs1

end Verif.Label
