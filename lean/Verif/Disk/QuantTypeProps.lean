import Verif.Disk.QuantTypeModel
import Verif.Record.TextProps
import Mathlib.Data.List.Forall2
import Mathlib.Data.List.TakeWhile
import Mathlib.Tactic.Common
/-
C123: the name of a quantization type.
-/
namespace Verif.Disk.QuantType

open Verif.Record

/-! Specification -/

/-- `s` writes the number `n < 2^64` in decimal: at least one digit, optionally preceded by `+`. -/
def IsUsize (s : Str) (n : Nat) : Prop :=
  ∃ ds : List Nat, ds ≠ [] ∧ (∀ d ∈ ds, d < 10) ∧ (s = ds.map digitChar ∨ s = '+' :: ds.map digitChar) ∧
    valueOf 0 ds = n ∧ n < 2 ^ 64

/-- The lower case name `s` of the quantization type `q`. -/
def Names (N : Num) (s : Str) : QType N.F → Prop
  | .fp => s = "fp".toList
  | .pq n => 0 < n ∧ ∃ a, IsUsize a n ∧ s = "pq_".toList ++ a
  | .sq n none => ∃ a, IsUsize a n ∧ s = "sq_".toList ++ a
  | .sq n (some x) => N.positive x = true ∧
      ∃ a b, IsUsize a n ∧ N.read b = some x ∧ '_' ∉ b ∧ s = "sq_".toList ++ a ++ "_".toList ++ b
  | .spherical => s = "spherical_1".toList

/-- A type the rest of the code may be given: some chunks, a positive deviation, and sizes of 64 bits. -/
def Valid (N : Num) : QType N.F → Prop
  | .fp => True
  | .pq n => 0 < n ∧ n < 2 ^ 64
  | .sq n none => n < 2 ^ 64
  | .sq n (some x) => n < 2 ^ 64 ∧ N.positive x = true
  | .spherical => True

/-- Equal up to the case of ASCII letters. -/
def SameLetter (a b : Char) : Prop :=
  a = b ∨ (a.toNat < 128 ∧ b.toNat < 128 ∧ a.toLower = b.toLower)

/-- The folding of the model is that of Lean's library. -/
theorem asciiLower_eq {c : Char} (h : c.toNat < 128) : asciiLower c = c.toLower := by
  have hall : ∀ n : Nat, n < 128 → asciiLower (Char.ofNat n) = (Char.ofNat n).toLower := by decide +kernel
  have := hall c.toNat h
  rwa [Char.ofNat_toNat] at this

/-! Numbers -/

theorem readDigits_map {acc : Nat} {ds : List Nat} (hd : ∀ d ∈ ds, d < 10) (h : valueOf acc ds < 2 ^ 64) :
    readDigits acc (ds.map digitChar) = some (valueOf acc ds) := by
  induction ds generalizing acc with
  | nil => rfl
  | cons d ds ih =>
    simp only [List.map_cons, readDigits]
    rw [digitVal_digitChar (hd d (by simp))]
    have := valueOf_mono (acc * 10 + d) ds
    simp only [valueOf] at h ⊢
    rw [if_pos (by omega)]
    exact ih (fun x hx => hd x (by simp [hx])) h

theorem readDigits_some {acc n : Nat} {s : Str} (ha : acc < 2 ^ 64) (h : readDigits acc s = some n) :
    ∃ ds : List Nat, (∀ d ∈ ds, d < 10) ∧ s = ds.map digitChar ∧ valueOf acc ds = n ∧ n < 2 ^ 64 := by
  induction s generalizing acc with
  | nil =>
    simp only [readDigits, Option.some.injEq] at h
    exact ⟨[], by simp, rfl, h, by omega⟩
  | cons c cs ih =>
    simp only [readDigits] at h
    split at h
    · simp at h
    · rename_i d hd
      split at h
      · rename_i hlt
        obtain ⟨ds, h1, h2, h3, h4⟩ := ih hlt h
        obtain ⟨hd1, hd2⟩ := digitVal_some hd
        refine ⟨d :: ds, ?_, by rw [h2, hd2]; rfl, h3, h4⟩
        intro x hx
        rcases List.mem_cons.1 hx with rfl | hx
        · exact hd1
        · exact h1 x hx
      · simp at h

theorem readUsize_iff (s : Str) (n : Nat) : readUsize s = some n ↔ IsUsize s n := by
  constructor
  · intro h
    cases s with
    | nil => simp [readUsize] at h
    | cons c cs =>
      simp only [readUsize] at h
      split at h
      · rename_i hc
        split at h
        · simp at h
        · rename_i hne
          obtain ⟨ds, h1, h2, h3, h4⟩ := readDigits_some (by omega) h
          refine ⟨ds, ?_, h1, Or.inr (by rw [hc, h2]), h3, h4⟩
          rintro rfl
          exact hne h2
      · obtain ⟨ds, h1, h2, h3, h4⟩ := readDigits_some (by omega) h
        refine ⟨ds, ?_, h1, Or.inl h2, h3, h4⟩
        rintro rfl
        simp at h2
  · rintro ⟨ds, hne, hd, hs, hv, hn⟩
    subst hv
    have hp := readDigits_map hd hn
    obtain ⟨d, ds', rfl⟩ := List.exists_cons_of_ne_nil hne
    rcases hs with rfl | rfl
    · have : digitChar d ≠ '+' := digitChar_ne (hd d (by simp)) '+' (by decide)
      simp only [List.map_cons, readUsize]
      rw [if_neg this]
      exact hp
    · simp only [readUsize, if_true]
      rw [if_neg (by simp)]
      exact hp

theorem isUsize_dec {n : Nat} (h : n < 2 ^ 64) : IsUsize (dec n) n :=
  ⟨decDigits n, decDigits_ne n, decDigits_lt n, Or.inl (dec_eq n), valueOf_dec n, h⟩

theorem isUsize_lt {s : Str} {n : Nat} (h : IsUsize s n) : n < 2 ^ 64 := by
  obtain ⟨_, _, _, _, _, h⟩ := h; exact h

theorem isUsize_sep {s : Str} {n : Nat} (h : IsUsize s n) : '_' ∉ s := by
  obtain ⟨ds, _, hd, hs, _, _⟩ := h
  have h1 : '_' ∉ ds.map digitChar := by
    intro hm
    obtain ⟨d, hd1, hd2⟩ := List.mem_map.1 hm
    exact digitChar_ne (hd d hd1) '_' (by decide) hd2
  rcases hs with rfl | rfl
  · exact h1
  · intro hm
    rcases List.mem_cons.1 hm with h | h
    · exact absurd h (by decide)
    · exact h1 h

/-! Splitting -/

theorem split_one {s a : Str} (h : splitOn '_' s = [a]) : s = a ∧ '_' ∉ a := by
  obtain ⟨h1, h2⟩ := splitOn_head _ _ h
  rcases h2 with ⟨_, h2⟩ | ⟨t, _, h3⟩
  · exact ⟨h2, h1⟩
  · exact absurd h3 (splitOn_ne _ _)

theorem split_cons {s a b : Str} {r : List Str} (h : splitOn '_' s = a :: b :: r) :
    ∃ t, s = a ++ '_' :: t ∧ splitOn '_' t = b :: r := by
  obtain ⟨_, h2⟩ := splitOn_head _ _ h
  rcases h2 with ⟨h2, _⟩ | h
  · simp at h2
  · exact h

theorem split_two {s a b : Str} (h : splitOn '_' s = [a, b]) : s = a ++ '_' :: b ∧ '_' ∉ b := by
  obtain ⟨t, rfl, ht⟩ := split_cons h
  obtain ⟨rfl, h2⟩ := split_one ht
  exact ⟨rfl, h2⟩

theorem split_three {s a b c : Str} (h : splitOn '_' s = [a, b, c]) :
    s = a ++ '_' :: (b ++ '_' :: c) ∧ '_' ∉ c := by
  obtain ⟨t, rfl, ht⟩ := split_cons h
  obtain ⟨rfl, h2⟩ := split_two ht
  exact ⟨rfl, h2⟩

theorem readDev_iff (N : Num) (s : Str) (x : N.F) :
    readDev N s = some x ↔ N.read s = some x ∧ N.positive x = true := by
  unfold readDev
  split
  · rename_i h; simp [h]
  · rename_i y h
    rw [h]
    split
    · rename_i hp
      constructor
      · intro he; simp only [Option.some.injEq] at he; subst he; exact ⟨rfl, hp⟩
      · rintro ⟨he, _⟩; exact he
    · rename_i hp
      constructor
      · intro he; simp at he
      · rintro ⟨he, h2⟩
        simp only [Option.some.injEq] at he; subst he; exact absurd h2 hp

theorem fromParts_iff (N : Num) (s : Str) (q : QType N.F) :
    fromParts N (splitOn '_' s) = some q ↔ Names N s q := by
  constructor
  · intro h
    cases hs : splitOn '_' s with
    | nil => exact absurd hs (splitOn_ne _ _)
    | cons name rest =>
      rw [hs] at h
      simp only [fromParts] at h
      split at h
      · rename_i hn
        subst hn
        split at h
        · simp at h
        · rename_i hl
          simp only [Option.some.injEq] at h
          subst h
          have : rest = [] := List.length_eq_zero_iff.1 (by omega)
          subst this
          exact (split_one hs).1
      · split at h
        · rename_i hn
          subst hn
          split at h
          · rename_i a
            split at h
            · simp at h
            · rename_i n ha
              split at h
              · simp at h
              · rename_i hn0
                simp only [Option.some.injEq] at h
                subst h
                exact ⟨by omega, a, (readUsize_iff _ _).1 ha, (split_two hs).1⟩
          · simp at h
        · split at h
          · rename_i hn
            subst hn
            split at h
            · rename_i a
              split at h
              · simp at h
              · rename_i n ha
                simp only [Option.some.injEq] at h
                subst h
                exact ⟨a, (readUsize_iff _ _).1 ha, (split_two hs).1⟩
            · rename_i a b
              split at h
              · simp at h
              · rename_i n ha
                split at h
                · simp at h
                · rename_i x hx
                  simp only [Option.some.injEq] at h
                  subst h
                  obtain ⟨hx1, hx2⟩ := (readDev_iff _ _ _).1 hx
                  obtain ⟨h1, h2⟩ := split_three hs
                  exact ⟨hx2, a, b, (readUsize_iff _ _).1 ha, hx1, h2, by rw [h1]; simp⟩
            · simp at h
          · split at h
            · rename_i hn
              subst hn
              split at h
              · split at h
                · rename_i ha
                  subst ha
                  simp only [Option.some.injEq] at h
                  subst h
                  exact (split_two hs).1
                · simp at h
              · simp at h
            · simp at h
  · intro h
    match q, h with
    | .fp, h =>
      subst h
      rfl
    | .pq n, ⟨h0, a, ha, hs⟩ =>
      subst hs
      rw [show "pq_".toList ++ a = ['p', 'q'] ++ '_' :: a from rfl, splitOn_append _ (by decide),
        splitOn_none _ (isUsize_sep ha)]
      simp only [fromParts]
      rw [if_neg (by decide), if_pos trivial, (readUsize_iff _ _).2 ha]
      simp only
      rw [if_neg (by omega)]
    | .sq n none, ⟨a, ha, hs⟩ =>
      subst hs
      rw [show "sq_".toList ++ a = ['s', 'q'] ++ '_' :: a from rfl, splitOn_append _ (by decide),
        splitOn_none _ (isUsize_sep ha)]
      simp only [fromParts]
      rw [if_neg (by decide), if_neg (by decide), if_pos trivial, (readUsize_iff _ _).2 ha]
    | .sq n (some x), ⟨hx, a, b, ha, hb, hsep, hs⟩ =>
      subst hs
      rw [show "sq_".toList ++ a ++ "_".toList ++ b = ['s', 'q'] ++ '_' :: (a ++ '_' :: b) by simp,
        splitOn_append _ (by decide), splitOn_append _ (isUsize_sep ha), splitOn_none _ hsep]
      simp only [fromParts]
      rw [if_neg (by decide), if_neg (by decide), if_pos trivial, (readUsize_iff _ _).2 ha]
      simp only
      rw [(readDev_iff _ _ _).2 ⟨hb, hx⟩]
    | .spherical, h =>
      subst h
      rfl

/-! Lower case and white space -/

theorem lower_digit {d : Nat} (h : d < 10) : (digitChar d).toNat < 128 ∧ asciiLower (digitChar d) = digitChar d ∧
    asciiSpace (digitChar d) = false := by
  have : d = 0 ∨ d = 1 ∨ d = 2 ∨ d = 3 ∨ d = 4 ∨ d = 5 ∨ d = 6 ∨ d = 7 ∨ d = 8 ∨ d = 9 := by omega
  rcases this with rfl | rfl | rfl | rfl | rfl | rfl | rfl | rfl | rfl | rfl <;> decide

/-- A text of ASCII characters without white space is only made lower case. -/
theorem clean_ascii (T : Text) {s : Str} (h : ∀ c ∈ s, c.toNat < 128 ∧ asciiSpace c = false) :
    toLower T (trim T s) = s.map asciiLower := by
  have hd : ∀ l : Str, (∀ c ∈ l, c.toNat < 128 ∧ asciiSpace c = false) → l.dropWhile T.space = l := by
    intro l hl
    cases l with
    | nil => rfl
    | cons c cs =>
      obtain ⟨h1, h2⟩ := hl c (by simp)
      rw [List.dropWhile_cons_of_neg]
      rw [T.space_ascii c h1, h2]; simp
  have ht : trim T s = s := by
    unfold trim
    rw [hd s h, hd s.reverse (fun c hc => h c (by simpa using hc)), List.reverse_reverse]
  rw [ht]
  unfold toLower
  clear ht hd
  induction s with
  | nil => rfl
  | cons c cs ih =>
    rw [List.flatMap_cons, T.lower_ascii c (h c (by simp)).1, ih (fun x hx => h x (by simp [hx]))]
    rfl

theorem map_lower_dec (n : Nat) : (dec n).map asciiLower = dec n := by
  rw [dec_eq, List.map_map]
  apply List.map_congr_left
  intro d hd
  exact (lower_digit (decDigits_lt n d hd)).2.1

theorem dec_ascii (n : Nat) : ∀ c ∈ dec n, c.toNat < 128 ∧ asciiSpace c = false := by
  intro c hc
  rw [dec_eq] at hc
  obtain ⟨d, hd, rfl⟩ := List.mem_map.1 hc
  have := lower_digit (decDigits_lt n d hd)
  exact ⟨this.1, this.2.2⟩

theorem map_lower_print (N : Num) {x : N.F} (hx : N.positive x = true) :
    (N.print x).map asciiLower = N.print x := by
  conv_rhs => rw [← List.map_id (N.print x)]
  apply List.map_congr_left
  intro c hc
  exact (N.print_plain x hx c hc).2.1

/-! Properties -/

/-- C123: a text names a type exactly when, without the white space around it and in lower case, it is one of
the documented forms; everything else is refused. -/
theorem C123_accepts (T : Text) (N : Num) (s : Str) (q : QType N.F) :
    fromStr T N s = some q ↔ Names N (toLower T (trim T s)) q := fromParts_iff N _ q

/-- C123: whatever is accepted is valid: at least one chunk, a positive deviation. -/
theorem C123_accepted_valid (T : Text) (N : Num) (s : Str) (q : QType N.F) (h : fromStr T N s = some q) :
    Valid N q := by
  have h := (C123_accepts T N s q).1 h
  match q, h with
  | .fp, _ => trivial
  | .pq n, ⟨h0, a, ha, _⟩ => exact ⟨h0, isUsize_lt ha⟩
  | .sq n none, ⟨a, ha, _⟩ => exact isUsize_lt ha
  | .sq n (some x), ⟨hx, a, b, ha, _⟩ => exact ⟨isUsize_lt ha, hx⟩
  | .spherical, _ => trivial

/-- C123: a stored type is read back as it was, whatever the number of chunks, bits or the deviation.  Missing:
scalar quantization with the default deviation, see `C123_default_deviation_lost`. -/
theorem C123_round_trip_partial (T : Text) (N : Num) (q : QType N.F) (hq : Valid N q)
    (hdev : ∀ n, q ≠ .sq n none) : fromStr T N (display N q) = some q := by
  rw [C123_accepts]
  match q, hq, hdev with
  | .fp, _, _ =>
    rw [clean_ascii T (by intro c hc; simp [display] at hc; rcases hc with rfl | rfl <;> decide)]
    rfl
  | .pq n, ⟨h0, hn⟩, _ =>
    rw [clean_ascii T]
    · refine ⟨h0, dec n, isUsize_dec hn, ?_⟩
      simp only [display, List.map_append, map_lower_dec]
      rfl
    · intro c hc
      rcases List.mem_append.1 hc with h | h
      · simp at h; rcases h with rfl | rfl | rfl <;> decide
      · exact dec_ascii n c h
  | .sq n none, _, hdev => exact absurd rfl (hdev n)
  | .sq n (some x), ⟨hn, hx⟩, _ =>
    rw [clean_ascii T]
    · refine ⟨hx, dec n, N.print x, isUsize_dec hn, N.read_print x hx, ?_, ?_⟩
      · intro h
        exact (N.print_plain x hx _ h).2.2.2 rfl
      · simp only [display, List.map_append, map_lower_dec, List.map_cons, map_lower_print N hx]
        simp [asciiLower]
    · intro c hc
      simp only [display, List.mem_append, List.mem_cons] at hc
      rcases hc with (h | h) | h | h
      · rcases h with rfl | rfl | rfl | h
        · decide
        · decide
        · decide
        · simp at h
      · exact dec_ascii n c h
      · subst h; decide
      · exact ⟨(N.print_plain x hx c h).1, (N.print_plain x hx c h).2.2.1⟩
  | .spherical, _, _ =>
    rw [clean_ascii T (by
      intro c hc
      simp only [display, List.mem_cons] at hc
      rcases hc with rfl | rfl | rfl | rfl | rfl | rfl | rfl | rfl | rfl | rfl | rfl | h
      all_goals first | decide | simp at h)]
    rfl

/-- C123: scalar quantization with the default deviation is stored as a text that is refused, whatever the
number of bits: a stored configuration cannot be read back. -/
theorem C123_default_deviation_lost (T : Text) (N : Num) (n : Nat) (hn : n < 2 ^ 64) :
    fromStr T N (display N (.sq n none)) = none := by
  unfold fromStr
  rw [clean_ascii T]
  · have : (display N (.sq n none)).map asciiLower = ['s', 'q'] ++ '_' :: (dec n ++ '_' :: ['n', 'o', 'n', 'e']) := by
      simp only [display, List.map_append, map_lower_dec, List.map_cons]
      simp [asciiLower]
    rw [this, splitOn_append _ (by decide), splitOn_append _ (isUsize_sep (isUsize_dec hn)),
      splitOn_none _ (by decide)]
    simp only [fromParts]
    rw [if_neg (by decide), if_neg (by decide), if_pos trivial, (readUsize_iff _ _).2 (isUsize_dec hn)]
    simp only
    rw [show readDev N ['n', 'o', 'n', 'e'] = none by simp [readDev, N.read_none]]
  · intro c hc
    simp only [display, List.mem_append, List.mem_cons] at hc
    rcases hc with (h | h) | h | h
    · rcases h with rfl | rfl | rfl | h
      · decide
      · decide
      · decide
      · simp at h
    · exact dec_ascii n c h
    · subst h; decide
    · rcases h with rfl | rfl | rfl | rfl | h
      · decide
      · decide
      · decide
      · decide
      · simp at h

/-- C123: product quantization with no chunks, which the type allows, is also stored as a refused text. -/
theorem C123_zero_chunks_refused (T : Text) (N : Num) : fromStr T N (display N (.pq 0)) = none := by
  cases h : fromStr T N (display N (.pq 0)) with
  | none => rfl
  | some q =>
    have hc := (C123_accepts T N _ q).1 h
    rw [clean_ascii T] at hc
    · simp only [display, List.map_append, map_lower_dec] at hc
      have h0 : IsUsize (dec 0) 0 := isUsize_dec (by decide)
      have hp := (fromParts_iff N _ q).2 hc
      rw [show ['P', 'Q', '_'].map asciiLower ++ dec 0 = ['p', 'q'] ++ '_' :: dec 0 from rfl,
        splitOn_append _ (by decide), splitOn_none _ (isUsize_sep h0)] at hp
      simp only [fromParts] at hp
      rw [if_neg (by decide), if_pos trivial, (readUsize_iff _ _).2 h0] at hp
      simp at hp
    · intro c hc
      rcases List.mem_append.1 hc with h | h
      · simp at h; rcases h with rfl | rfl | rfl <;> decide
      · exact dec_ascii 0 c h

/-- C123: two valid types are never printed alike. -/
theorem C123_distinct (T : Text) (N : Num) (q r : QType N.F) (hq : Valid N q) (hr : Valid N r)
    (h : display N q = display N r) : q = r := by
  have hdef : ∀ q : QType N.F, (∃ n, q = .sq n none) ∨ ∀ n, q ≠ .sq n none := by
    intro q
    by_cases h : ∃ n, q = .sq n none
    · exact Or.inl h
    · exact Or.inr (fun n hn => h ⟨n, hn⟩)
  rcases hdef q with ⟨n, rfl⟩ | h1 <;> rcases hdef r with ⟨m, rfl⟩ | h2
  · simp only [display, List.append_assoc, List.append_cancel_left_eq, List.append_cancel_right_eq] at h
    have e : IsUsize (dec n) m := by rw [h]; exact isUsize_dec hr
    have := ((readUsize_iff _ _).2 (isUsize_dec (n := n) hq)).symm.trans ((readUsize_iff _ _).2 e)
    simp only [Option.some.injEq] at this
    rw [this]
  · have a := C123_default_deviation_lost T N n hq
    rw [h, C123_round_trip_partial T N r hr h2] at a
    simp at a
  · have a := C123_default_deviation_lost T N m hr
    rw [← h, C123_round_trip_partial T N q hq h1] at a
    simp at a
  · have a := C123_round_trip_partial T N q hq h1
    rw [h, C123_round_trip_partial T N r hr h2] at a
    simpa using a.symm

theorem space_same (T : Text) {a b : Char} (h : SameLetter a b) : T.space a = T.space b := by
  rcases h with rfl | ⟨ha, hb, h⟩
  · rfl
  · rw [T.space_ascii a ha, T.space_ascii b hb]
    have key : ∀ c : Char, c.toNat < 128 → asciiSpace (asciiLower c) = asciiSpace c := by
      intro c hc
      have hall : ∀ n : Nat, n < 128 → asciiSpace (asciiLower (Char.ofNat n)) = asciiSpace (Char.ofNat n) := by
        decide +kernel
      have := hall c.toNat hc
      rwa [Char.ofNat_toNat] at this
    rw [← key a ha, ← key b hb, asciiLower_eq ha, asciiLower_eq hb, h]

theorem lower_same (T : Text) {a b : Char} (h : SameLetter a b) : T.lower a = T.lower b := by
  rcases h with rfl | ⟨ha, hb, h⟩
  · rfl
  · rw [T.lower_ascii a ha, T.lower_ascii b hb, asciiLower_eq ha, asciiLower_eq hb, h]

theorem dropWhile_same (T : Text) {s t : Str} (h : List.Forall₂ SameLetter s t) :
    List.Forall₂ SameLetter (s.dropWhile T.space) (t.dropWhile T.space) := by
  induction h with
  | nil => exact .nil
  | @cons a b l₁ l₂ hab hl ih =>
    by_cases hs : T.space a = true
    · rw [List.dropWhile_cons_of_pos hs, List.dropWhile_cons_of_pos (by rw [← space_same T hab]; exact hs)]
      exact ih
    · rw [List.dropWhile_cons_of_neg hs, List.dropWhile_cons_of_neg (by rw [← space_same T hab]; exact hs)]
      exact .cons hab hl

/-- C123: the case of ASCII letters does not matter. -/
theorem C123_case (T : Text) (N : Num) {s t : Str} (h : List.Forall₂ SameLetter s t) :
    fromStr T N s = fromStr T N t := by
  have h1 : List.Forall₂ SameLetter (trim T s) (trim T t) := by
    unfold trim
    exact List.rel_reverse (dropWhile_same T (List.rel_reverse (dropWhile_same T h)))
  have h2 : toLower T (trim T s) = toLower T (trim T t) := by
    generalize trim T s = a at h1
    generalize trim T t = b at h1
    unfold toLower
    induction h1 with
    | nil => rfl
    | cons hab _ ih => rw [List.flatMap_cons, List.flatMap_cons, ih, lower_same T hab]
  unfold fromStr
  rw [h2]

theorem dropWhile_prefix {p : Char → Bool} {a b : Str} (h : ∀ c ∈ a, p c = true) :
    (a ++ b).dropWhile p = b.dropWhile p := by
  induction a with
  | nil => rfl
  | cons c cs ih =>
    rw [List.cons_append, List.dropWhile_cons_of_pos (h c (by simp))]
    exact ih (fun x hx => h x (by simp [hx]))

theorem dropWhile_append_stop {p : Char → Bool} {a b : Str} (h : a.dropWhile p ≠ []) :
    (a ++ b).dropWhile p = a.dropWhile p ++ b := by
  induction a with
  | nil => simp at h
  | cons c cs ih =>
    by_cases hc : p c = true
    · rw [List.cons_append, List.dropWhile_cons_of_pos hc, List.dropWhile_cons_of_pos hc]
      rw [List.dropWhile_cons_of_pos hc] at h
      exact ih h
    · rw [List.cons_append, List.dropWhile_cons_of_neg hc, List.dropWhile_cons_of_neg hc]
      rfl

/-- C123: white space around the text does not matter. -/
theorem C123_space (T : Text) (N : Num) (p s q : Str) (hp : ∀ c ∈ p, T.space c = true)
    (hq : ∀ c ∈ q, T.space c = true) : fromStr T N (p ++ s ++ q) = fromStr T N s := by
  have ht : trim T (p ++ s ++ q) = trim T s := by
    unfold trim
    rw [List.append_assoc, dropWhile_prefix hp]
    by_cases hs : s.dropWhile T.space = []
    · have hall : ∀ c ∈ s, T.space c = true := List.dropWhile_eq_nil_iff.1 hs
      rw [dropWhile_prefix hall, hs]
      have : q.dropWhile T.space = [] := List.dropWhile_eq_nil_iff.2 hq
      rw [this]
    · rw [dropWhile_append_stop hs, List.reverse_append, dropWhile_prefix (by simpa using hq)]
  unfold fromStr
  rw [ht]

/-! A concrete reading of numbers -/

/-- Unicode reduced to ASCII. -/
def exText : Text where
  space := asciiSpace
  lower := fun c => [asciiLower c]
  space_ascii := fun _ _ => rfl
  lower_ascii := fun _ _ => rfl

/-- Numbers written as tally marks, `|||` for three. -/
def exNum : Num where
  F := Nat
  read := fun s => if s.all (· == '|') then some s.length else none
  print := fun n => List.replicate n '|'
  positive := fun n => decide (0 < n)
  read_print := by intro x _; simp
  print_plain := by
    intro x _ c hc
    rw [List.eq_of_mem_replicate hc]
    decide
  read_none := by decide

/-- The premises of the round trip hold for scalar quantization with a deviation. -/
example : fromStr exText exNum (display exNum (.sq 8 (some (3 : Nat)))) = some (.sq 8 (some (3 : Nat))) :=
  C123_round_trip_partial exText exNum _ ⟨by decide, by decide⟩ (by intro n h; cases h)

example : display exNum (.sq 8 (some (3 : Nat)) : QType exNum.F) = "SQ_8_|||".toList := by
  simp [display, exNum, dec, digitChar]

/-- Surrounding space and case are ignored. -/
example : fromStr exText exNum " pQ_+0128\n".toList = some (.pq 128) := by rfl

/-- No chunks, no deviation and further parts are refused. -/
example : fromStr exText exNum "PQ_0".toList = none ∧ fromStr exText exNum "SQ_1_".toList = none ∧
    fromStr exText exNum "SQ_1_|_|".toList = none ∧ fromStr exText exNum "SQ".toList = none ∧
    fromStr exText exNum "FP_1".toList = none ∧ fromStr exText exNum "SPHERICAL_2".toList = none := by
  refine ⟨?_, ?_, ?_, ?_, ?_, ?_⟩ <;> rfl

/-- The largest number of chunks is accepted, the next is not. -/
example : fromStr exText exNum "PQ_18446744073709551615".toList = some (.pq 18446744073709551615) ∧
    fromStr exText exNum "PQ_18446744073709551616".toList = none := by
  refine ⟨?_, ?_⟩ <;> rfl

example : SameLetter 'P' 'p' := Or.inr ⟨by decide, by decide, by decide⟩

end Verif.Disk.QuantType
