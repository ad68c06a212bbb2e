import Verif.Record.TextModel
import Mathlib.Tactic.Common
/-
C37 (version text) and C38 (artifact names).
-/
namespace Verif.Record

/-! Decimal digits -/

/-- Value of a string of decimal digits, most significant first. -/
def valueOf (acc : Nat) : List Nat → Nat
  | [] => acc
  | d :: ds => valueOf (acc * 10 + d) ds

/-- `s` writes the number `n < 2^32` in decimal: at least one digit, optionally preceded by `+`. -/
def IsU32 (s : Str) (n : Nat) : Prop :=
  ∃ ds : List Nat, ds ≠ [] ∧ (∀ d ∈ ds, d < 10) ∧ (s = ds.map digitChar ∨ s = '+' :: ds.map digitChar) ∧
    valueOf 0 ds = n ∧ n < 4294967296

theorem toNat_digitChar {d : Nat} (h : d < 10) : (digitChar d).toNat = 48 + d := by
  have : d = 0 ∨ d = 1 ∨ d = 2 ∨ d = 3 ∨ d = 4 ∨ d = 5 ∨ d = 6 ∨ d = 7 ∨ d = 8 ∨ d = 9 := by omega
  rcases this with rfl | rfl | rfl | rfl | rfl | rfl | rfl | rfl | rfl | rfl <;> rfl

theorem digitVal_digitChar {d : Nat} (h : d < 10) : digitVal (digitChar d) = some d := by
  unfold digitVal
  rw [toNat_digitChar h, if_pos (by omega)]
  congr 1; omega

theorem digitVal_some {c : Char} {d : Nat} (h : digitVal c = some d) : d < 10 ∧ c = digitChar d := by
  unfold digitVal at h
  split at h
  · rename_i hc
    simp only [Option.some.injEq] at h
    refine ⟨by omega, ?_⟩
    unfold digitChar
    rw [← h, show 48 + (c.toNat - 48) = c.toNat by omega]
    exact (Char.ofNat_toNat c).symm
  · simp at h

theorem digitChar_ne {d : Nat} (h : d < 10) (c : Char) (hc : c.toNat < 48 ∨ 57 < c.toNat) :
    digitChar d ≠ c := by
  intro he
  have := toNat_digitChar h
  rw [he] at this
  omega

theorem valueOf_mono (acc : Nat) (ds : List Nat) : acc ≤ valueOf acc ds := by
  induction ds generalizing acc with
  | nil => exact Nat.le_refl _
  | cons d ds ih => exact Nat.le_trans (by omega) (ih (acc * 10 + d))

theorem parseDigits_map {acc : Nat} {ds : List Nat} (hd : ∀ d ∈ ds, d < 10) (h : valueOf acc ds < 4294967296) :
    parseDigits acc (ds.map digitChar) = some (valueOf acc ds) := by
  induction ds generalizing acc with
  | nil => rfl
  | cons d ds ih =>
    simp only [List.map_cons, parseDigits]
    rw [digitVal_digitChar (hd d (by simp))]
    have := valueOf_mono (acc * 10 + d) ds
    simp only [valueOf] at h ⊢
    rw [if_pos (by omega)]
    exact ih (fun x hx => hd x (by simp [hx])) h

theorem parseDigits_some {acc n : Nat} {s : Str} (ha : acc < 4294967296) (h : parseDigits acc s = some n) :
    ∃ ds : List Nat, (∀ d ∈ ds, d < 10) ∧ s = ds.map digitChar ∧ valueOf acc ds = n ∧ n < 4294967296 := by
  induction s generalizing acc with
  | nil =>
    simp only [parseDigits, Option.some.injEq] at h
    exact ⟨[], by simp, rfl, h, by omega⟩
  | cons c cs ih =>
    simp only [parseDigits] at h
    split at h
    · simp at h
    · rename_i d hd
      split at h
      · rename_i hlt
        obtain ⟨ds, h1, h2, h3, h4⟩ := ih hlt h
        obtain ⟨hd1, hd2⟩ := digitVal_some hd
        refine ⟨d :: ds, ?_, by rw [h2, hd2]; rfl, h3, h4⟩
        intro x hx
        rcases List.mem_cons.1 hx with rfl | hx
        · exact hd1
        · exact h1 x hx
      · simp at h

theorem parseU32_iff (s : Str) (n : Nat) : parseU32 s = some n ↔ IsU32 s n := by
  constructor
  · intro h
    cases s with
    | nil => simp [parseU32] at h
    | cons c cs =>
      simp only [parseU32] at h
      split at h
      · rename_i hc
        split at h
        · simp at h
        · rename_i hne
          obtain ⟨ds, h1, h2, h3, h4⟩ := parseDigits_some (by omega) h
          refine ⟨ds, ?_, h1, Or.inr (by rw [hc, h2]), h3, h4⟩
          rintro rfl
          exact hne h2
      · obtain ⟨ds, h1, h2, h3, h4⟩ := parseDigits_some (by omega) h
        refine ⟨ds, ?_, h1, Or.inl h2, h3, h4⟩
        rintro rfl
        simp at h2
  · rintro ⟨ds, hne, hd, hs, hv, hn⟩
    subst hv
    have hp := parseDigits_map hd hn
    obtain ⟨d, ds', rfl⟩ := List.exists_cons_of_ne_nil hne
    rcases hs with rfl | rfl
    · have : digitChar d ≠ '+' := digitChar_ne (hd d (by simp)) '+' (by decide)
      simp only [List.map_cons, parseU32]
      rw [if_neg this]
      exact hp
    · simp only [parseU32, if_true]
      rw [if_neg (by simp)]
      exact hp

/-- The digits of the decimal form. -/
def decDigits (n : Nat) : List Nat := if h : n < 10 then [n] else decDigits (n / 10) ++ [n % 10]
termination_by n
decreasing_by omega

theorem dec_eq (n : Nat) : dec n = (decDigits n).map digitChar := by
  induction n using Nat.strongRecOn with
  | _ n ih =>
    unfold dec decDigits
    split
    · rfl
    · rw [ih (n / 10) (by omega)]; simp

theorem decDigits_lt (n : Nat) : ∀ d ∈ decDigits n, d < 10 := by
  induction n using Nat.strongRecOn with
  | _ n ih =>
    unfold decDigits
    split
    · intro d hd; simp at hd; omega
    · intro d hd
      rcases List.mem_append.1 hd with h | h
      · exact ih (n / 10) (by omega) d h
      · simp at h; omega

theorem valueOf_append (acc : Nat) (xs ys : List Nat) :
    valueOf acc (xs ++ ys) = valueOf (valueOf acc xs) ys := by
  induction xs generalizing acc with
  | nil => rfl
  | cons x xs ih => exact ih _

theorem valueOf_dec (n : Nat) : valueOf 0 (decDigits n) = n := by
  induction n using Nat.strongRecOn with
  | _ n ih =>
    unfold decDigits
    split
    · simp [valueOf]
    · rw [valueOf_append, ih (n / 10) (by omega)]
      simp only [valueOf]; omega

theorem decDigits_ne (n : Nat) : decDigits n ≠ [] := by
  unfold decDigits; split <;> simp

theorem isU32_dec {n : Nat} (h : n < 4294967296) : IsU32 (dec n) n :=
  ⟨decDigits n, decDigits_ne n, decDigits_lt n, Or.inl (dec_eq n), valueOf_dec n, h⟩

/-! Splitting -/

theorem splitOn_ne (sep : Char) (s : Str) : splitOn sep s ≠ [] := by
  cases s with
  | nil => simp [splitOn]
  | cons c cs =>
    simp only [splitOn]
    split
    · simp
    · split <;> simp

theorem splitOn_cons_sep (sep : Char) (cs : Str) : splitOn sep (sep :: cs) = [] :: splitOn sep cs := by
  simp only [splitOn]
  split
  · rename_i h; exact absurd h (splitOn_ne _ _)
  · rename_i h; rw [h]; simp

theorem splitOn_append (sep : Char) {a : Str} (ha : sep ∉ a) (b : Str) :
    splitOn sep (a ++ sep :: b) = a :: splitOn sep b := by
  induction a with
  | nil => exact splitOn_cons_sep sep b
  | cons c cs ih =>
    have h1 : c ≠ sep := fun h => ha (by simp [h])
    have h2 : sep ∉ cs := fun h => ha (by simp [h])
    simp only [List.cons_append, splitOn, ih h2]
    rw [if_neg h1]

theorem splitOn_none (sep : Char) {a : Str} (ha : sep ∉ a) : splitOn sep a = [a] := by
  induction a with
  | nil => rfl
  | cons c cs ih =>
    have h1 : c ≠ sep := fun h => ha (by simp [h])
    have h2 : sep ∉ cs := fun h => ha (by simp [h])
    simp only [splitOn, ih h2]
    rw [if_neg h1]

/-- The first part has no separator, and the text is the first part, or the first part, a separator and a
text that splits into the other parts. -/
theorem splitOn_head (sep : Char) (s : Str) {a : Str} {r : List Str} (h : splitOn sep s = a :: r) :
    sep ∉ a ∧ ((r = [] ∧ s = a) ∨ ∃ t, s = a ++ sep :: t ∧ splitOn sep t = r) := by
  induction s generalizing a r with
  | nil =>
    simp only [splitOn, List.cons.injEq] at h
    obtain ⟨rfl, rfl⟩ := h
    exact ⟨by simp, Or.inl ⟨rfl, rfl⟩⟩
  | cons c cs ih =>
    by_cases hc : c = sep
    · subst hc
      rw [splitOn_cons_sep] at h
      simp only [List.cons.injEq] at h
      obtain ⟨rfl, rfl⟩ := h
      exact ⟨by simp, Or.inr ⟨cs, rfl, rfl⟩⟩
    · simp only [splitOn] at h
      split at h
      · rename_i h0; exact absurd h0 (splitOn_ne _ _)
      · rename_i x xs hx
        rw [if_neg hc] at h
        simp only [List.cons.injEq] at h
        obtain ⟨rfl, rfl⟩ := h
        obtain ⟨h1, h2⟩ := ih hx
        refine ⟨?_, ?_⟩
        · intro hm
          rcases List.mem_cons.1 hm with h | h
          · exact hc h.symm
          · exact h1 h
        · rcases h2 with ⟨h2, h3⟩ | ⟨t, h2, h3⟩
          · exact Or.inl ⟨h2, by rw [h3]⟩
          · exact Or.inr ⟨t, by rw [h2]; rfl, h3⟩

theorem isU32_no_dot {s : Str} {n : Nat} (h : IsU32 s n) : '.' ∉ s := by
  obtain ⟨ds, _, hd, hs, _, _⟩ := h
  have h1 : '.' ∉ ds.map digitChar := by
    intro hm
    obtain ⟨d, hd1, hd2⟩ := List.mem_map.1 hm
    exact digitChar_ne (hd d hd1) '.' (by decide) hd2
  rcases hs with rfl | rfl
  · exact h1
  · intro hm
    rcases List.mem_cons.1 hm with h | h
    · exact absurd h (by decide)
    · exact h1 h

/-- C37: a text parses exactly when it is two decimal `u32`s (each optionally with a leading `+`) around one
dot, and then to those numbers; every other text is rejected. -/
theorem C37_parse_iff (s : Str) (v : Version) :
    Version.parse s = some v ↔ ∃ a b, s = a ++ '.' :: b ∧ IsU32 a v.major ∧ IsU32 b v.minor := by
  constructor
  · intro h
    unfold Version.parse at h
    split at h
    · rename_i a b hsplit
      split at h
      · rename_i x y hx hy
        simp only [Option.some.injEq] at h
        subst h
        obtain ⟨_, h2⟩ := splitOn_head _ _ hsplit
        rcases h2 with ⟨h2, _⟩ | ⟨t, h2, h3⟩
        · simp at h2
        · obtain ⟨_, h5⟩ := splitOn_head _ _ h3
          rcases h5 with ⟨_, h5⟩ | ⟨u, _, h6⟩
          · exact ⟨a, b, by rw [h2, h5], (parseU32_iff _ _).1 hx, (parseU32_iff _ _).1 hy⟩
          · exact absurd h6 (splitOn_ne _ _)
      · simp at h
    · simp at h
  · rintro ⟨a, b, rfl, ha, hb⟩
    unfold Version.parse
    rw [splitOn_append _ (isU32_no_dot ha), splitOn_none _ (isU32_no_dot hb)]
    simp only [(parseU32_iff _ _).2 ha, (parseU32_iff _ _).2 hb]

/-- C37: formatting a version and parsing it gives the version back. -/
theorem C37_round_trip (v : Version) (h1 : v.major < 4294967296) (h2 : v.minor < 4294967296) :
    Version.parse v.display = some v :=
  (C37_parse_iff _ _).2 ⟨dec v.major, dec v.minor, rfl, isU32_dec h1, isU32_dec h2⟩

/-- C37: different versions have different texts. -/
theorem C37_display_injective (v w : Version) (hv : v.major < 4294967296 ∧ v.minor < 4294967296)
    (hw : w.major < 4294967296 ∧ w.minor < 4294967296) (h : v.display = w.display) : v = w := by
  have h1 := C37_round_trip v hv.1 hv.2
  rw [h, C37_round_trip w hw.1 hw.2] at h1
  exact (Option.some.inj h1).symm

/-- The parser is more liberal than the formatter: a sign and leading zeros are accepted. -/
theorem C37_liberal : Version.parse "+1.02".toList = some ⟨1, 2⟩ ∧
    Version.display ⟨1, 2⟩ ≠ "+1.02".toList := by
  refine ⟨by decide +kernel, by decide +kernel⟩

example : Version.parse "1.2".toList = some ⟨1, 2⟩ ∧ Version.parse "4294967295.0".toList = some ⟨4294967295, 0⟩ ∧
    Version.parse "4294967296.0".toList = none ∧ Version.parse "1.2.3".toList = none ∧
    Version.parse "1".toList = none ∧ Version.parse "-1.0".toList = none ∧ Version.parse "+.0".toList = none ∧
    Version.parse " 1.0".toList = none ∧ Version.parse "".toList = none ∧ Version.parse ".".toList = none ∧
    Version.display ⟨10, 203⟩ = "10.203".toList := by decide +kernel

/-! Names -/

theorem dec3_eq (n : Nat) : ∃ k, dec3 n = (List.replicate k 0 ++ decDigits n).map digitChar := by
  refine ⟨3 - (dec n).length, ?_⟩
  unfold dec3
  rw [List.map_append, List.map_replicate]
  rw [← dec_eq]; rfl

theorem dec3_not_mem (n : Nat) (c : Char) (hc : c.toNat < 48 ∨ 57 < c.toNat) : c ∉ dec3 n := by
  obtain ⟨k, hk⟩ := dec3_eq n
  rw [hk]
  intro hm
  obtain ⟨d, hd, hd2⟩ := List.mem_map.1 hm
  refine digitChar_ne ?_ c hc hd2
  rcases List.mem_append.1 hd with h | h
  · have := List.eq_of_mem_replicate h; omega
  · exact decDigits_lt n d h

theorem digitChar_inj {a b : Nat} (ha : a < 10) (hb : b < 10) (h : digitChar a = digitChar b) : a = b := by
  have := toNat_digitChar ha
  rw [h, toNat_digitChar hb] at this
  omega

theorem map_digitChar_inj {xs ys : List Nat} (hx : ∀ d ∈ xs, d < 10) (hy : ∀ d ∈ ys, d < 10)
    (h : xs.map digitChar = ys.map digitChar) : xs = ys := by
  induction xs generalizing ys with
  | nil => simpa [eq_comm] using h
  | cons x xs ih =>
    cases ys with
    | nil => simp at h
    | cons y ys =>
      simp only [List.map_cons, List.cons.injEq] at h
      rw [digitChar_inj (hx x (by simp)) (hy y (by simp)) h.1,
        ih (fun d hd => hx d (by simp [hd])) (fun d hd => hy d (by simp [hd])) h.2]

theorem valueOf_zeros (k : Nat) (ds : List Nat) : valueOf 0 (List.replicate k 0 ++ ds) = valueOf 0 ds := by
  induction k with
  | zero => rfl
  | succ k ih => simpa [List.replicate_succ, valueOf] using ih

theorem dec3_inj {a b : Nat} (h : dec3 a = dec3 b) : a = b := by
  obtain ⟨j, hj⟩ := dec3_eq a
  obtain ⟨k, hk⟩ := dec3_eq b
  rw [hj, hk] at h
  have lt : ∀ n k, ∀ d ∈ List.replicate k 0 ++ decDigits n, d < 10 := by
    intro n k d hd
    rcases List.mem_append.1 hd with h | h
    · have := List.eq_of_mem_replicate h; omega
    · exact decDigits_lt n d h
  have h2 := congrArg (valueOf 0) (map_digitChar_inj (lt a j) (lt b k) h)
  rwa [valueOf_zeros, valueOf_zeros, valueOf_dec, valueOf_dec] at h2

theorem dec3_ne (n : Nat) : dec3 n ≠ [] := by
  unfold dec3
  rw [dec_eq]
  simp [decDigits_ne]

/-- The digits before the first `-` of a name made of the digits of `n`, alone or followed by `-`. -/
theorem takeWhile_dec3 (n : Nat) (t : Str) (ht : t = [] ∨ ∃ u, t = '-' :: u) :
    (dec3 n ++ t).takeWhile (· != '-') = dec3 n := by
  have h : ∀ c ∈ dec3 n, (c != '-') = true := by
    intro c hc
    have := dec3_not_mem n '-' (by decide)
    simp only [bne_iff_ne, ne_eq]
    rintro rfl
    exact this hc
  rw [List.takeWhile_append_of_pos h]
  rcases ht with rfl | ⟨u, rfl⟩ <;> simp

/-- A usable hint is a first segment, and then only vanishing segments. -/
theorem single_some {p f : Str} (h : single p = some f) :
    ∃ rest, splitOn '/' p = f :: rest ∧ rest.filterMap segComp = [] ∧ segComp f = some (.normal f) := by
  unfold single at h
  split at h
  · rename_i g hg
    simp only [Option.some.injEq] at h
    subst h
    unfold components at hg
    split at hg
    · simp at hg
    · simp at hg
    · rename_i hn1 hn2
      revert hn1 hn2 hg
      generalize hs : splitOn '/' _ = l
      intro hn1 hn2 hg
      cases l with
      | nil => exact absurd hs (splitOn_ne _ _)
      | cons a r =>
        have hne : a ≠ [] := by
          rintro rfl
          obtain ⟨_, h2⟩ := splitOn_head _ _ hs
          rcases h2 with ⟨h2, h3⟩ | ⟨t, h2, _⟩
          · subst h2; simp [segComp] at hg
          · exact hn1 t h2
        have hnd : a ≠ ['.'] := by
          rintro rfl
          exact hn2 _ rfl
        have hsc : segComp a = some .parent ∨ segComp a = some (.normal a) := by
          unfold segComp
          rw [if_neg hne, if_neg hnd]
          split
          · exact Or.inl rfl
          · exact Or.inr rfl
        rcases hsc with hsc | hsc
        · rw [List.filterMap_cons, hsc] at hg
          simp at hg
        · rw [List.filterMap_cons, hsc] at hg
          simp only [List.cons.injEq, Comp.normal.injEq] at hg
          obtain ⟨rfl, hg⟩ := hg
          exact ⟨r, rfl, hg, hsc⟩
  · simp at h

theorem single_of {p f : Str} {rest : List Str} (hs : splitOn '/' p = f :: rest)
    (hr : rest.filterMap segComp = []) (hc : segComp f = some (.normal f)) : single p = some f := by
  have hcomp : components p = [.normal f] := by
    unfold components
    split
    · rename_i t
      rw [splitOn_cons_sep] at hs
      simp only [List.cons.injEq] at hs
      obtain ⟨rfl, _⟩ := hs
      simp [segComp] at hc
    · rename_i segs _ h2
      rw [hs] at h2
      simp only [List.cons.injEq] at h2
      obtain ⟨rfl, _⟩ := h2
      simp [segComp] at hc
    · rw [hs, List.filterMap_cons, hc]
      simp [hr]
  unfold single
  rw [hcomp]

theorem segComp_dec3 (n : Nat) (t : Str) : segComp (dec3 n ++ t) = some (.normal (dec3 n ++ t)) := by
  obtain ⟨c, cs, hc⟩ := List.exists_cons_of_ne_nil (dec3_ne n)
  have hdot : c ≠ '.' := by
    rintro rfl
    exact dec3_not_mem n '.' (by decide) (by rw [hc]; simp)
  unfold segComp
  rw [hc, if_neg (by simp), if_neg (by simp [hdot]), if_neg (by simp [hdot])]

/-- A name is the digits of its number, alone or with a hint; the file it denotes too. -/
theorem artName_shape (n : Nat) (key : Option Str) :
    ∃ t t', (t = [] ∨ ∃ u, t = '-' :: u) ∧ (t' = [] ∨ ∃ u, t' = '-' :: u) ∧
      artName n key = dec3 n ++ t ∧ single (artName n key) = some (dec3 n ++ t') ∧ '/' ∉ t' := by
  have hslash : '/' ∉ dec3 n := dec3_not_mem n '/' (by decide)
  cases hk : key.filter (fun k => (single k).isSome) with
  | none =>
    refine ⟨[], [], Or.inl rfl, Or.inl rfl, ?_, ?_, by simp⟩
    · unfold artName; rw [hk]; simp
    · unfold artName; rw [hk]
      simp only [List.append_nil]
      have := segComp_dec3 n []
      rw [List.append_nil] at this
      exact single_of (splitOn_none _ hslash) rfl this
  | some k =>
    obtain ⟨f, hf⟩ : ∃ f, single k = some f := by
      have := (Option.filter_eq_some_iff.1 hk).2
      exact Option.isSome_iff_exists.1 this
    obtain ⟨rest, h1, h2, h3⟩ := single_some hf
    obtain ⟨hnf, h4⟩ := splitOn_head _ _ h1
    have hno : '/' ∉ dec3 n ++ '-' :: f := by
      simp only [List.mem_append, List.mem_cons, not_or]
      exact ⟨hslash, by decide, hnf⟩
    refine ⟨'-' :: k, '-' :: f, Or.inr ⟨k, rfl⟩, Or.inr ⟨f, rfl⟩, ?_, ?_, ?_⟩
    · unfold artName; rw [hk]
    · unfold artName; rw [hk]
      refine single_of (rest := rest) ?_ h2 (segComp_dec3 n ('-' :: f))
      rcases h4 with ⟨h4, h5⟩ | ⟨t, h4, h5⟩
      · subst h4; rw [h5]; exact splitOn_none _ hno
      · show splitOn '/' (dec3 n ++ '-' :: k) = _
        rw [h4, show dec3 n ++ '-' :: (f ++ '/' :: t) = (dec3 n ++ '-' :: f) ++ '/' :: t by simp,
          splitOn_append _ hno, h5]
    · intro hm
      rcases List.mem_cons.1 hm with h | h
      · exact absurd h (by decide)
      · exact hnf h

/-- The number of a name can be read off the name and off the file it denotes. -/
theorem artName_number {n m : Nat} {k l : Option Str}
    (h : artName n k = artName m l ∨ single (artName n k) = single (artName m l)) : n = m := by
  obtain ⟨t, t', ht, ht', h1, h2, _⟩ := artName_shape n k
  obtain ⟨u, u', hu, hu', h3, h4, _⟩ := artName_shape m l
  rcases h with h | h
  · rw [h1, h3] at h
    have := congrArg (List.takeWhile (· != '-')) h
    rw [takeWhile_dec3 n t ht, takeWhile_dec3 m u hu] at this
    exact dec3_inj this
  · rw [h2, h4] at h
    have := congrArg (List.takeWhile (· != '-')) (Option.some.inj h)
    rw [takeWhile_dec3 n t' ht', takeWhile_dec3 m u' hu'] at this
    exact dec3_inj this

/-- The registered names are exactly numbered `0, 1, 2, ...`. -/
def Numbered (files : List Str) : Prop := ∀ i (h : i < files.length), ∃ key, files[i] = artName i key

theorem numbered_not_mem {files : List Str} (h : Numbered files) (key : Option Str) :
    artName files.length key ∉ files := by
  intro hm
  obtain ⟨i, hi, he⟩ := List.getElem_of_mem hm
  obtain ⟨k, hk⟩ := h i hi
  rw [hk] at he
  have := artName_number (Or.inl he)
  omega

theorem writeName_numbered {files files' : List Str} (h : Numbered files) {key : Option Str} {created : Bool}
    (hw : writeName files key created = some files') : Numbered files' := by
  unfold writeName at hw
  simp only at hw
  split at hw
  · simp at hw
  · simp only [Option.some.injEq] at hw
    subst hw
    cases created
    · exact h
    · intro i hi
      simp only [if_true, List.length_append, List.length_singleton] at hi ⊢
      by_cases hlt : i < files.length
      · obtain ⟨k, hk⟩ := h i hlt
        exact ⟨k, by rw [List.getElem_append_left hlt]; exact hk⟩
      · have : i = files.length := by omega
        subst this
        exact ⟨key, by simp⟩

theorem writeNames_numbered {files : List Str} (h : Numbered files) (ws : List (Option Str × Bool)) :
    ∃ files', writeNames files ws = some files' ∧ Numbered files' := by
  induction ws generalizing files with
  | nil => exact ⟨files, rfl, h⟩
  | cons w ws ih =>
    obtain ⟨key, created⟩ := w
    have hn : writeName files key created =
        some (if created then files ++ [artName files.length key] else files) := by
      unfold writeName
      simp only
      rw [if_neg (numbered_not_mem h key)]
    obtain ⟨files', h1, h2⟩ := ih (writeName_numbered h hn)
    exact ⟨files', by simp only [writeNames, hn]; exact h1, h2⟩

/-- C38: whatever the hints and whichever creations fail, no write of a save is refused for a name
collision, all names are distinct, and each denotes a file directly inside the save directory (one path
component, not `.` or `..`, without `/`), distinct for distinct artifacts. -/
theorem C38_names_distinct (ws : List (Option Str × Bool)) :
    ∃ files, writeNames [] ws = some files ∧ files.Nodup ∧ (files.map single).Nodup ∧
      ∀ name ∈ files, ∃ f, components name = [.normal f] ∧ f ≠ [] ∧ f ≠ ['.'] ∧ f ≠ ['.', '.'] ∧ '/' ∉ f := by
  obtain ⟨files, h1, h2⟩ := writeNames_numbered (files := []) (fun i hi => by simp at hi) ws
  refine ⟨files, h1, ?_, ?_, ?_⟩
  · rw [List.nodup_iff_pairwise_ne, List.pairwise_iff_getElem]
    intro i j hi hj hij he
    obtain ⟨k, hk⟩ := h2 i hi
    obtain ⟨l, hl⟩ := h2 j hj
    have := artName_number (n := i) (m := j) (Or.inl (by rw [← hk, ← hl]; exact he))
    omega
  · rw [List.nodup_iff_pairwise_ne, List.pairwise_map, List.pairwise_iff_getElem]
    intro i j hi hj hij he
    obtain ⟨k, hk⟩ := h2 i hi
    obtain ⟨l, hl⟩ := h2 j hj
    have := artName_number (n := i) (m := j) (Or.inr (by rw [← hk, ← hl]; exact he))
    omega
  · intro name hm
    obtain ⟨i, hi, rfl⟩ := List.getElem_of_mem hm
    obtain ⟨k, hk⟩ := h2 i hi
    rw [hk]
    obtain ⟨t, t', _, _, _, h3, hns⟩ := artName_shape i k
    have hc : components (artName i k) = [.normal (dec3 i ++ t')] := by
      unfold single at h3
      split at h3
      · rename_i hg; rw [hg, Option.some.inj h3]
      · simp at h3
    have hdot : '.' ∉ dec3 i := dec3_not_mem i '.' (by decide)
    refine ⟨_, hc, ?_, ?_, ?_, ?_⟩
    · simp [dec3_ne]
    · intro he
      obtain ⟨c, cs, hcs⟩ := List.exists_cons_of_ne_nil (dec3_ne i)
      rw [hcs, List.cons_append, List.cons.injEq] at he
      exact hdot (by rw [hcs, he.1]; simp)
    · intro he
      obtain ⟨c, cs, hcs⟩ := List.exists_cons_of_ne_nil (dec3_ne i)
      rw [hcs, List.cons_append, List.cons.injEq] at he
      exact hdot (by rw [hcs, he.1]; simp)
    · simp only [List.mem_append, not_or]
      exact ⟨dec3_not_mem i '/' (by decide), hns⟩

/-- C38: an unusable hint (several components, absolute, or with a parent reference) is ignored. -/
theorem C38_bad_hint_ignored (n : Nat) (key : Str)
    (h : ¬ ∃ f, components key = [.normal f]) : artName n (some key) = dec3 n := by
  unfold artName
  have : single key = none := by
    unfold single
    split
    · rename_i f hf; exact absurd ⟨f, hf⟩ h
    · rfl
  simp [Option.filter, this]

/-- A hint with a trailing slash is not ignored, although the name made from it contains a separator and
cannot be created as a file. -/
theorem C38_trailing_slash : artName 0 (some "a/".toList) = "000-a/".toList ∧
    artName 0 (some "a/.".toList) = "000-a/.".toList := by
  refine ⟨by decide +kernel, by decide +kernel⟩

example : artName 7 (some "x.bin".toList) = "007-x.bin".toList ∧
    artName 1234 (some "../x".toList) = "1234".toList ∧ artName 5 (some "/etc".toList) = "005".toList ∧
    artName 5 (some "..".toList) = "005".toList ∧ artName 5 (some "./a".toList) = "005".toList ∧
    artName 5 none = "005".toList ∧
    writeNames [] [(some ['a'], true), (some ['a'], false), (some ['a'], true), (none, true)] =
      some ["000-a".toList, "001-a".toList, "002".toList] := by decide +kernel

end Verif.Record
