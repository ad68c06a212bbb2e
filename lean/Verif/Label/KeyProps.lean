import Verif.Label.KeyLemmas
/-
C41: index keys are unambiguous.  C42: index keys preserve order.  C45: key lists round-trip.
-/
namespace Verif.Label

/-! ## C41 -/

/-- C41, for field names without a NUL byte and for values other than `Empty`: two (field, value) pairs get the
same key only if they are the same pair (floats: the same bits).  Missing: fields with a NUL byte and `Empty`,
for which it is false (`C41_nul_collides`, `C41_empty_collides`). -/
theorem C41_injective_partial (f g : Bytes) (v w : AttrVal) (hf : 0 ∉ f) (hg : 0 ∉ g)
    (hv : v.valid) (hw : w.valid) (hve : v ≠ .empty) (hwe : w ≠ .empty)
    (h : encKey f v = encKey g w) : f = g ∧ v = w := by
  rw [encKey_eq, encKey_eq] at h
  obtain ⟨hfg, hp⟩ := split_sep hf hg h
  refine ⟨hfg, ?_⟩
  rcases payload_inj hv hw hp with h | h | h
  · exact h
  · exact absurd h.1 hve
  · exact absurd h.2 hwe

/-- Distinct pairs of every kind and their distinct keys. -/
example : encKey (lit "/age") (.int (-1)) = lit "/age" ++ 0 :: lit "I7fffffffffffffff" ∧
    encKey (lit "/age") (.real 4607182418800017408) = lit "/age" ++ 0 :: lit "Fbff0000000000000" ∧
    encKey (lit "/age") (.str (lit "x")) = lit "/age" ++ 0 :: lit "Sx" ∧
    (0 ∉ lit "/age") ∧ AttrVal.valid (.int (-1)) := by
  refine ⟨by decide +kernel, by decide +kernel, by decide +kernel, by decide +kernel, ?_⟩
  exact ⟨by decide, by decide⟩

/-- The property fails for a field name with a NUL byte: `("a", "x\0Sy")` and `("a\0Sx", "y")` share a key. -/
theorem C41_nul_collides : encKey [97] (.str [120, 0, 83, 121]) = encKey [97, 0, 83, 120] (.str [121]) ∧
    ([97] : Bytes) ≠ [97, 0, 83, 120] := by decide

/-- The property fails for `Empty`: it shares the key of the empty string in every field. -/
theorem C41_empty_collides (f : Bytes) : encKey f .empty = encKey f (.str []) ∧
    AttrVal.empty ≠ .str [] := ⟨rfl, by decide⟩

/-- The mapping from a document to its list of keys never meets an attribute key, whatever the field name. -/
theorem C41_reverse_distinct (d e : Nat) (f : Bytes) (v : AttrVal) :
    revKey d ≠ encKey f v ∧ (revKey d = revKey e → d = e) :=
  ⟨revKey_ne_encKey d f v, revKey_inj⟩

/-! ## C42 -/

/-- Integer keys of one field are ordered as the integers, for every field name. -/
theorem C42_int_order (f : Bytes) (a b : Int) (ha : (AttrVal.int a).valid) (hb : (AttrVal.int b).valid) :
    encKey f (.int a) < encKey f (.int b) ↔ a < b := by
  rw [encKey_eq, encKey_eq, prefix_lt]
  simp only [payload, List.cons_lt_cons_iff, Nat.lt_irrefl, true_and, false_or]
  rw [hexN_lt (encI64_lt ha) (encI64_lt hb)]
  have h1 := encI64_eq ha
  have h2 := encI64_eq hb
  omega

/-- Float keys of one field are ordered as the floats, except that `-0.0` sorts just below `0.0`, to which it is
equal: for any two floats that are not NaN, and for any field name.  Missing: `C42_neg_zero`. -/
theorem C42_float_order_partial (f : Bytes) (a b : Nat) (ha : (AttrVal.real a).valid) (hb : (AttrVal.real b).valid)
    (_na : ¬ fNaN a) (_nb : ¬ fNaN b) :
    encKey f (.real a) < encKey f (.real b) ↔ fVal a < fVal b ∨ (a = negZero ∧ b = 0) := by
  rw [encKey_eq, encKey_eq, prefix_lt]
  simp only [payload, List.cons_lt_cons_iff, Nat.lt_irrefl, true_and, false_or]
  rw [hexN_lt (encF64_lt ha) (encF64_lt hb), encF64_order ha hb]

/-- `1.5 < 2.5` and `-1.0 < -0.5` are not NaN and have the values one expects. -/
example : ¬ fNaN 4609434218613702656 ∧ ¬ fNaN 4612811918334230528 ∧
    fVal 4609434218613702656 = 3 * 2 ^ 1073 ∧ fVal 4612811918334230528 = 5 * 2 ^ 1073 ∧
    fVal 13830554455654793216 = - 2 ^ 1074 ∧ fVal 13826050856027422720 = - 2 ^ 1073 := by
  unfold fNaN
  decide +kernel

/-- `-0.0` equals `0.0` and its key is smaller. -/
theorem C42_neg_zero (f : Bytes) : fVal negZero = fVal 0 ∧ encKey f (.real negZero) < encKey f (.real 0) := by
  refine ⟨by decide, ?_⟩
  refine (C42_float_order_partial f negZero 0 (by unfold AttrVal.valid; decide) (by unfold AttrVal.valid; decide)
    (by unfold fNaN; decide) (by unfold fNaN; decide)).2 (Or.inr ⟨rfl, rfl⟩)

theorem space_prefix {p u : Nat} {f t k : Bytes} (h : InRange (f ++ [0, p]) (f ++ [0, p, u] ++ t) k) :
    ∃ w, k = f ++ 0 :: p :: w := by
  obtain ⟨w, hw⟩ := prefix_of_range (p := f ++ [0, p]) (u := []) (v := u :: t) (k := k)
    (by simpa using h.1) (by simpa using h.2)
  exact ⟨w, by simpa using hw⟩

/-- Only integer keys of the same field lie in the integer range of a field without NUL bytes: not the keys of
another type, not those of another NUL-free field and not those of the document mapping. -/
theorem C42_int_space (f g : Bytes) (v : AttrVal) (hf : 0 ∉ f) (hg : 0 ∉ g) (hv : v.valid) :
    (intSpace f (encKey g v) ↔ g = f ∧ ∃ n, v = .int n) ∧ ∀ d, ¬ intSpace f (revKey d) := by
  refine ⟨⟨?_, ?_⟩, ?_⟩
  · intro h
    obtain ⟨w, hw⟩ := space_prefix (p := 73) (u := 244) (t := [143, 191, 191]) (by simpa [intSpace] using h)
    rw [encKey_eq] at hw
    obtain ⟨hgf, hp⟩ := split_sep hg hf hw
    refine ⟨hgf, ?_⟩
    cases v <;> simp_all [payload]
  · rintro ⟨rfl, n, rfl⟩
    rw [intSpace, InRange, encKey_eq]
    have e : ∀ t : Bytes, g ++ (0 :: 73 :: t) = (g ++ [0, 73]) ++ t := by simp
    constructor
    · have := (prefix_le (g ++ [0, 73]) [] (hexN 16 (encI64 n))).2 (by simp [← List.not_lt])
      simpa [payload] using this
    · have h2 : hexN 16 (encI64 n) < [244, 143, 191, 191] := by
        have hb := hexN_bound 16 (encI64 n)
        cases hx : hexN 16 (encI64 n) with
        | nil => simp
        | cons c cs =>
          rw [hx] at hb
          rw [List.cons_lt_cons_iff]
          exact Or.inl (hb c (by simp))
      have := (prefix_lt (g ++ [0, 73]) _ _).2 h2
      simpa [payload] using this
  · intro d h
    obtain ⟨w, hw⟩ := space_prefix (p := 73) (u := 244) (t := [143, 191, 191]) (by simpa [intSpace] using h)
    exact revKey_no_nul d (by rw [hw]; simp)

/-- The same for the float range. -/
theorem C42_float_space (f g : Bytes) (v : AttrVal) (hf : 0 ∉ f) (hg : 0 ∉ g) (hv : v.valid) :
    (floatSpace f (encKey g v) ↔ g = f ∧ ∃ b, v = .real b) ∧ ∀ d, ¬ floatSpace f (revKey d) := by
  refine ⟨⟨?_, ?_⟩, ?_⟩
  · intro h
    obtain ⟨w, hw⟩ := space_prefix (p := 70) (u := 244) (t := [143, 191, 191]) (by simpa [floatSpace] using h)
    rw [encKey_eq] at hw
    obtain ⟨hgf, hp⟩ := split_sep hg hf hw
    refine ⟨hgf, ?_⟩
    cases v <;> simp_all [payload]
  · rintro ⟨rfl, n, rfl⟩
    rw [floatSpace, InRange, encKey_eq]
    constructor
    · have := (prefix_le (g ++ [0, 70]) [] (hexN 16 (encF64 n))).2 (by simp [← List.not_lt])
      simpa [payload] using this
    · have h2 : hexN 16 (encF64 n) < [244, 143, 191, 191] := by
        have hb := hexN_bound 16 (encF64 n)
        cases hx : hexN 16 (encF64 n) with
        | nil => simp
        | cons c cs =>
          rw [hx] at hb
          rw [List.cons_lt_cons_iff]
          exact Or.inl (hb c (by simp))
      have := (prefix_lt (g ++ [0, 70]) _ _).2 h2
      simpa [payload] using this
  · intro d h
    obtain ⟨w, hw⟩ := space_prefix (p := 70) (u := 244) (t := [143, 191, 191]) (by simpa [floatSpace] using h)
    exact revKey_no_nul d (by rw [hw]; simp)

/-- A concrete integer key in its range. -/
example : intSpace (lit "/age") (encKey (lit "/age") (.int 30)) :=
  ((C42_int_space (lit "/age") (lit "/age") (.int 30) (by decide +kernel) (by decide +kernel)
    ⟨by decide, by decide⟩).1).2 ⟨rfl, 30, rfl⟩

/-- A NUL byte in a field name puts its string keys inside the integer range of another field. -/
theorem C42_nul_in_space : intSpace [97] (encKey [97, 0, 73] (.str [])) := by
  unfold intSpace InRange
  decide

/-! ## C45 -/

theorem ofLe32_le32 {n : Nat} (h : n < 4294967296) : ofLe32 (le32 n) = n := by
  simp only [le32, ofLe32]
  omega

theorem le32_length (n : Nat) : (le32 n).length = 4 := rfl

theorem slice_append (pre mid post : Bytes) :
    slice (pre ++ mid ++ post) pre.length (pre.length + mid.length) = .ok mid := by
  rw [slice, if_pos (by simp)]
  simp

theorem deserLoop_ser (keys : List Bytes) (pre post : Bytes) (acc : List Bytes)
    (h : ∀ k ∈ keys, k.length < 4294967296) :
    deserLoop (pre ++ (keys.map serKey).flatten ++ post) keys.length pre.length acc = .ok (acc ++ keys) := by
  induction keys generalizing pre acc with
  | nil => simp [deserLoop]
  | cons k keys ih =>
    have hk := h k (by simp)
    have e1 : pre ++ ((k :: keys).map serKey).flatten ++ post
        = pre ++ le32 k.length ++ (k ++ ((keys.map serKey).flatten ++ post)) := by simp [serKey]
    have s1 := slice_append pre (le32 k.length) (k ++ ((keys.map serKey).flatten ++ post))
    have e2 : pre ++ le32 k.length ++ (k ++ ((keys.map serKey).flatten ++ post))
        = (pre ++ le32 k.length) ++ k ++ ((keys.map serKey).flatten ++ post) := by simp
    have s2 := slice_append (pre ++ le32 k.length) k ((keys.map serKey).flatten ++ post)
    rw [le32_length] at s1
    rw [← e2, List.length_append, le32_length] at s2
    rw [List.length_cons, deserLoop, e1, if_neg (by simp [le32_length]), s1]
    simp only [ofLe32_le32 hk]
    rw [if_neg (by simp [le32_length]; omega), s2]
    simp only
    have := ih (pre ++ le32 k.length ++ k) (acc ++ [k]) (fun x hx => h x (by simp [hx]))
    rw [show (pre ++ le32 k.length ++ k).length = pre.length + 4 + k.length by
      simp [le32_length]; omega] at this
    rw [show pre ++ le32 k.length ++ (k ++ ((keys.map serKey).flatten ++ post))
      = pre ++ le32 k.length ++ k ++ (keys.map serKey).flatten ++ post by simp, this]
    simp

/-- C45: decoding an encoded list of keys returns the list, also when other bytes follow. -/
theorem C45_round_trip (keys : List Bytes) (rest : Bytes) (hn : keys.length < 4294967296)
    (h : ∀ k ∈ keys, k.length < 4294967296) : deserKeys (serKeys keys ++ rest) = .ok keys := by
  have s := slice_append [] (le32 keys.length) ((keys.map serKey).flatten ++ rest)
  simp only [List.nil_append, List.length_nil, Nat.zero_add, le32_length] at s
  have e : serKeys keys ++ rest = le32 keys.length ++ ((keys.map serKey).flatten ++ rest) := by simp [serKeys]
  rw [deserKeys, e, if_neg (by simp [le32_length]), s]
  simp only [ofLe32_le32 hn]
  have := deserLoop_ser keys (le32 keys.length) rest [] h
  rw [le32_length] at this
  simpa using this

theorem deserLoop_no_panic (bytes : Bytes) (count pos : Nat) (acc : List Bytes) :
    deserLoop bytes count pos acc ≠ .panic := by
  induction count generalizing pos acc with
  | zero => simp [deserLoop]
  | succ count ih =>
    rw [deserLoop]
    split
    · simp
    · rw [slice, if_pos (by omega)]
      simp only
      split
      · simp
      · rw [slice, if_pos (by omega)]
        exact ih _ _

/-- C45: decoding never reads out of bounds, whatever the bytes. -/
theorem C45_no_out_of_bounds (bytes : Bytes) : deserKeys bytes ≠ .panic := by
  rw [deserKeys]
  split
  · simp
  · rw [slice, if_pos (by omega)]
    exact deserLoop_no_panic _ _ _ _

/-- A strict prefix of an encoded list makes the loop fail. -/
theorem deserLoop_trunc (keys : List Bytes) (pre part : Bytes) (acc : List Bytes)
    (h : ∀ k ∈ keys, k.length < 4294967296)
    (hp : ∃ t, t ≠ [] ∧ part ++ t = (keys.map serKey).flatten) :
    deserLoop (pre ++ part) keys.length pre.length acc = .err := by
  induction keys generalizing pre part acc with
  | nil =>
    obtain ⟨t, ht, e⟩ := hp
    simp only [List.map_nil, List.flatten_nil, List.append_eq_nil_iff] at e
    exact absurd e.2 ht
  | cons k keys ih =>
    have hk := h k (by simp)
    obtain ⟨t, ht, e⟩ := hp
    rw [List.length_cons, deserLoop]
    by_cases h4 : part.length < 4
    · rw [if_pos (by simp; omega)]
    · rw [if_neg (by simp; omega)]
      have e' : part ++ t = le32 k.length ++ (k ++ (keys.map serKey).flatten) := by simpa [serKey] using e
      obtain ⟨p2, rfl⟩ : ∃ p2, part = le32 k.length ++ p2 := by
        refine ⟨part.drop 4, ?_⟩
        have := congrArg (List.take 4) e'
        rw [List.take_append_of_le_length (by omega)] at this
        rw [← List.take_append_drop 4 part, this]
        simp [le32]
      have e2 : p2 ++ t = k ++ (keys.map serKey).flatten := by simpa using e'
      have s1 := slice_append pre (le32 k.length) p2
      rw [le32_length] at s1
      rw [show pre ++ (le32 k.length ++ p2) = pre ++ le32 k.length ++ p2 by simp, s1]
      simp only [ofLe32_le32 hk]
      by_cases hkl : p2.length < k.length
      · rw [if_pos (by simp [le32_length]; omega)]
      · rw [if_neg (by simp [le32_length]; omega)]
        obtain ⟨p3, rfl⟩ : ∃ p3, p2 = k ++ p3 := by
          refine ⟨p2.drop k.length, ?_⟩
          have := congrArg (List.take k.length) e2
          rw [List.take_append_of_le_length (by omega)] at this
          rw [← List.take_append_drop k.length p2, this]
          simp
        have e3 : p3 ++ t = (keys.map serKey).flatten := by simpa using e2
        have s2 := slice_append (pre ++ le32 k.length) k p3
        rw [List.length_append, le32_length] at s2
        rw [show pre ++ le32 k.length ++ (k ++ p3) = pre ++ le32 k.length ++ k ++ p3 by simp, s2]
        simp only
        have := ih (pre ++ le32 k.length ++ k) p3 (acc ++ [k]) (fun x hx => h x (by simp [hx])) ⟨t, ht, e3⟩
        rw [show (pre ++ le32 k.length ++ k).length = pre.length + 4 + k.length by
          simp [le32_length]; omega] at this
        exact this

/-- C45: decoding any strict prefix of an encoding is an error. -/
theorem C45_truncation_rejected (keys : List Bytes) (hn : keys.length < 4294967296)
    (h : ∀ k ∈ keys, k.length < 4294967296) (part rest : Bytes) (hr : rest ≠ [])
    (hp : part ++ rest = serKeys keys) : deserKeys part = .err := by
  rw [deserKeys]
  by_cases h4 : part.length < 4
  · rw [if_pos h4]
  · rw [if_neg h4]
    obtain ⟨p2, rfl⟩ : ∃ p2, part = le32 keys.length ++ p2 := by
      refine ⟨part.drop 4, ?_⟩
      have := congrArg (List.take 4) hp
      rw [List.take_append_of_le_length (by omega)] at this
      rw [← List.take_append_drop 4 part, this]
      simp [serKeys, le32]
    have e2 : p2 ++ rest = (keys.map serKey).flatten := by simpa [serKeys] using hp
    have s := slice_append [] (le32 keys.length) p2
    simp only [List.nil_append, List.length_nil, Nat.zero_add, le32_length] at s
    rw [s]
    simp only [ofLe32_le32 hn]
    exact deserLoop_trunc keys (le32 keys.length) p2 [] h ⟨rest, hr, e2⟩

/-- Two keys, their encoding, and a truncation. -/
example : serKeys [[1, 2, 3], []] = [2, 0, 0, 0, 3, 0, 0, 0, 1, 2, 3, 0, 0, 0, 0] ∧
    deserKeys [2, 0, 0, 0, 3, 0, 0, 0, 1, 2, 3, 0, 0, 0, 0] = .ok [[1, 2, 3], []] ∧
    deserKeys [2, 0, 0, 0, 3, 0, 0, 0, 1, 2, 3, 0, 0, 0] = .err := by decide

end Verif.Label
