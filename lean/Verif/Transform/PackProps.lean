import Verif.Transform.HadProps
import Mathlib.Data.List.Perm.Subperm

/-! # C84: serialized transforms -/

namespace Verif.Rotate

open Finset

variable {K : Type}

/-! ## Specification -/

/-- A sample of the coordinates below `n`: not empty, increasing. -/
def IsSample (n : Nat) (s : List Nat) : Prop := s ≠ [] ∧ s.Pairwise (· < ·) ∧ ∀ i ∈ s, i < n

/-- A serialized transform that is accepted. -/
def Proto.Acceptable : Proto K → Prop
  | .padding signs p sample => signs.length ≤ p ∧ (∃ k, p = 2 ^ k) ∧ ∀ s, sample = some s → IsSample p s
  | .double signs0 signs1 sample =>
    signs0 ≠ [] ∧ signs0.length ≤ signs1.length ∧ ∀ s, sample = some s → IsSample signs1.length s
  | .null dim => dim ≠ 0
  | .rotation data nrows ncols => nrows ≠ 0 ∧ ncols ≠ 0 ∧ data.length = nrows * ncols

/-- The dimensions a serialized transform announces. -/
def Proto.dims : Proto K → Nat × Nat
  | .padding signs p sample => (signs.length, (sample.map List.length).getD p)
  | .double signs0 signs1 sample => (signs0.length, (sample.map List.length).getD signs1.length)
  | .null dim => (dim, dim)
  | .rotation _ nrows ncols => (ncols, nrows)

/-- The integers of a serialized transform are 32-bit. -/
def Proto.Bounded : Proto K → Prop
  | .padding _ p _ => p < 2 ^ 32
  | .double _ _ _ => True
  | .null dim => dim < 2 ^ 32
  | .rotation _ nrows ncols => nrows < 2 ^ 32 ∧ ncols < 2 ^ 32

/-- The sample of a double transform names only coordinates that the transform computes. -/
def Proto.SampleInside : Proto K → Prop
  | .double signs0 _ (some s) => ∀ i ∈ s, i < max signs0.length s.length
  | _ => True

/-! ## Lemmas -/

theorem signToBool_boolToSign (b : Bool) : signToBool (boolToSign b) = b := by cases b <;> rfl

theorem boolToSign_signToBool {n : Nat} (h : n = 0 ∨ n = 0x80000000) : boolToSign (signToBool n) = n := by
  rcases h with rfl | rfl <;> rfl

theorem map_back (l : List Bool) : (l.map boolToSign).map signToBool = l := by
  rw [List.map_map]
  conv_rhs => rw [← List.map_id l]
  exact List.map_congr_left fun b _ => signToBool_boolToSign b

theorem map_forth {l : List Nat} (h : Signs l) : (l.map signToBool).map boolToSign = l := by
  rw [List.map_map]
  conv_rhs => rw [← List.map_id l]
  exact List.map_congr_left fun b hb => boolToSign_signToBool (h b hb)

theorem signs_bools (l : List Bool) : Signs (l.map boolToSign) := by
  intro w hw
  obtain ⟨b, _, rfl⟩ := List.mem_map.1 hw
  cases b <;> simp [boolToSign]

theorem all_bools (l : List Bool) : (l.map boolToSign).all isSign = true := (signs_all _).2 (signs_bools l)

theorem chunks_flatten {m : Nat} : ∀ {rows : List (List K)}, (∀ r ∈ rows, r.length = m) →
    chunks m rows.length rows.flatten = rows
  | [], _ => rfl
  | r :: rows, h => by
    have hr := h r List.mem_cons_self
    rw [List.length_cons, chunks, List.flatten_cons, ← hr, List.take_left, List.drop_left, hr,
      chunks_flatten fun q hq => h q (List.mem_cons_of_mem _ hq)]

theorem flatten_chunks {m : Nat} : ∀ {n : Nat} {l : List K}, l.length = n * m → (chunks m n l).flatten = l
  | 0, l, h => by simp_all [chunks]
  | n + 1, l, h => by
    rw [chunks, List.flatten_cons, flatten_chunks (by rw [List.length_drop, h, Nat.succ_mul]; omega), List.take_append_drop]

theorem length_chunks {m : Nat} : ∀ {n : Nat} {l : List K}, (chunks m n l).length = n
  | 0, _ => rfl
  | n + 1, l => by rw [chunks, List.length_cons, length_chunks]

theorem chunks_row {m : Nat} : ∀ {n : Nat} {l : List K}, l.length = n * m → ∀ r ∈ chunks m n l, r.length = m
  | 0, _, _, r, h => by simp [chunks] at h
  | n + 1, l, h, r, hr => by
    rw [Nat.succ_mul] at h
    rw [chunks, List.mem_cons] at hr
    rcases hr with rfl | hr
    · rw [List.length_take]; omega
    · exact chunks_row (by rw [List.length_drop]; omega) r hr

/-- The checks on a sample accept exactly the samples. -/
theorem sample_iff (n : Nat) (s : List Nat) :
    IsSample n s ↔ isStrictlyMonotonic s = true ∧ ∃ last, s.getLast? = some last ∧ last < n := by
  unfold IsSample
  rw [strict_iff]
  constructor
  · rintro ⟨h0, h1, h2⟩
    exact ⟨h1, s.getLast h0, List.getLast?_eq_some_getLast h0, h2 _ (List.getLast_mem h0)⟩
  · rintro ⟨h1, last, h2, h3⟩
    have h0 : s ≠ [] := by rintro rfl; simp at h2
    refine ⟨h0, h1, fun i hi => ?_⟩
    rw [List.getLast?_eq_some_getLast h0] at h2
    obtain rfl : s.getLast h0 = last := by simpa using h2
    obtain ⟨j, hj, rfl⟩ := List.mem_iff_getElem.1 hi
    rw [List.getLast_eq_getElem] at h3
    by_cases hlt : j < s.length - 1
    · have := (List.pairwise_iff_getElem.1 h1) j (s.length - 1) hj (by omega) hlt
      omega
    · have : j = s.length - 1 := by omega
      subst this
      exact h3

theorem Padding.check_iff (p : Nat) (sample : Option (List Nat)) :
    Padding.checkSubsample p sample = none ↔ ∀ s, sample = some s → IsSample p s := by
  cases sample with
  | none => simp [Padding.checkSubsample]
  | some s =>
    simp only [Option.some.injEq, forall_eq', sample_iff]
    unfold Padding.checkSubsample
    dsimp only
    split
    · simp_all
    · cases s.getLast? with
      | none => simp
      | some last =>
        dsimp only
        simp_all

theorem Double.check_ok {signs1 : List Nat} {sample : Option (List Nat)} {debug : Bool} {n : Nat}
    (h : Double.checkSubsample debug signs1 sample = some (.ok n)) :
    n = (sample.map List.length).getD signs1.length ∧ ∀ s, sample = some s → IsSample signs1.length s := by
  cases sample with
  | none =>
    have : some (Except.ok (ε := DoubleError) signs1.length) = some (.ok n) := h
    simp only [Option.some.injEq, Except.ok.injEq] at this
    simp [this]
  | some s =>
    simp only [Option.some.injEq, forall_eq', sample_iff]
    unfold Double.checkSubsample at h
    dsimp only at h
    split at h
    · simp at h
    · cases hl : s.getLast? with
      | none => rw [hl] at h; simp at h
      | some last =>
        rw [hl] at h
        dsimp only at h
        split at h
        · simp at h
        · split at h
          · simp at h
          · simp_all

theorem Double.check_of {signs1 : List Nat} {sample : Option (List Nat)} {debug : Bool}
    (h : ∀ s, sample = some s → IsSample signs1.length s) (hd : debug = true → ∀ s, sample = some s → s.length < signs1.length) :
    Double.checkSubsample debug signs1 sample = some (.ok ((sample.map List.length).getD signs1.length)) := by
  cases sample with
  | none => rfl
  | some s =>
    simp only [Option.some.injEq, forall_eq', sample_iff] at h hd
    obtain ⟨h1, last, h2, h3⟩ := h
    unfold Double.checkSubsample
    dsimp only
    rw [if_neg (by simp [h1]), h2]
    dsimp only
    rw [if_neg (by omega), if_neg (by tauto)]
    rfl

theorem Double.check_release {signs1 : List Nat} {sample : Option (List Nat)}
    (h : ¬ ∀ s, sample = some s → IsSample signs1.length s) :
    ∃ e, Double.checkSubsample false signs1 sample = some (.error e) := by
  cases hc : Double.checkSubsample false signs1 sample with
  | none =>
    exfalso
    cases sample with
    | none => simp [Double.checkSubsample] at hc
    | some s =>
      unfold Double.checkSubsample at hc
      dsimp only at hc
      split at hc
      · simp at hc
      · cases hl : s.getLast? with
        | none => rw [hl] at hc; simp at hc
        | some last =>
          rw [hl] at hc
          dsimp only at hc
          split at hc
          · simp at hc
          · rw [if_neg (by simp)] at hc; simp at hc
  | some r =>
    cases r with
    | error e => exact ⟨e, rfl⟩
    | ok n => exact absurd (Double.check_ok hc).2 h

theorem Double.parts_ok {debug : Bool} {signs0 signs1 : List Nat} {sample : Option (List Nat)} {t : Double}
    (h : Double.tryFromParts debug signs0 signs1 sample = some (.ok t)) :
    signs0 ≠ [] ∧ signs0.length ≤ signs1.length ∧ (∀ s, sample = some s → IsSample signs1.length s) ∧
      t = ⟨signs0, signs1, (sample.map List.length).getD signs1.length, sample⟩ := by
  unfold Double.tryFromParts at h
  split at h
  · simp at h
  · split at h
    · simp at h
    · split at h
      · simp at h
      · split at h
        · simp at h
        · split at h
          · simp at h
          · simp at h
          · rename_i n hc
            obtain ⟨rfl, h2⟩ := Double.check_ok hc
            simp only [Option.some.injEq, Except.ok.injEq] at h
            exact ⟨by assumption, by omega, h2, h.symm⟩

theorem Double.parts_of {debug : Bool} {signs0 signs1 : List Nat} {sample : Option (List Nat)} (h0 : signs0 ≠ [])
    (h1 : signs0.length ≤ signs1.length) (h2 : signs0.all isSign = true) (h3 : signs1.all isSign = true)
    (h : ∀ s, sample = some s → IsSample signs1.length s) (hd : debug = true → ∀ s, sample = some s → s.length < signs1.length) :
    Double.tryFromParts debug signs0 signs1 sample =
      some (.ok ⟨signs0, signs1, (sample.map List.length).getD signs1.length, sample⟩) := by
  unfold Double.tryFromParts
  rw [if_neg h0, if_neg (by omega), if_neg (by simp [h2]), if_neg (by simp [h3]), Double.check_of h hd]

theorem Padding.parts_ok {signs : List Nat} {p : Nat} {sample : Option (List Nat)} {t : Padding}
    (h : Padding.tryFromParts signs p sample = .ok t) :
    signs.length ≤ p ∧ (∃ k, p = 2 ^ k) ∧ (∀ s, sample = some s → IsSample p s) ∧ t = ⟨signs, p, sample⟩ := by
  unfold Padding.tryFromParts at h
  split at h
  · simp at h
  · split at h
    · simp at h
    · split at h
      · simp at h
      · split at h
        · simp at h
        · rename_i hp _ hc
          simp only [Except.ok.injEq] at h
          exact ⟨by omega, (isPowerOfTwo_iff _).1 (by simpa using hp), (Padding.check_iff _ _).1 hc, h.symm⟩

theorem Padding.parts_of {signs : List Nat} {p : Nat} {sample : Option (List Nat)} (h0 : signs.all isSign = true)
    (h1 : signs.length ≤ p) (h2 : ∃ k, p = 2 ^ k) (h3 : ∀ s, sample = some s → IsSample p s) :
    Padding.tryFromParts signs p sample = .ok ⟨signs, p, sample⟩ := by
  unfold Padding.tryFromParts
  rw [if_neg (by simp [h0]), if_neg (by omega), if_neg (by simp [(isPowerOfTwo_iff _).2 h2]), (Padding.check_iff _ _).2 h3]

theorem asU32_of {n : Nat} (h : n < 2 ^ 32) : asU32 n = n := Nat.mod_eq_of_lt h

/-- What is known of an accepted transform. -/
theorem accepted [DecidableEq K] {debug : Bool} {p : Proto K} {t : Transform K}
    (h : Transform.tryUnpack debug p = some (.ok t)) :
    p.Acceptable ∧ match p with
      | .padding signs n sample => t = .padding ⟨signs.map boolToSign, n, sample⟩
      | .double signs0 signs1 sample => t = .double ⟨signs0.map boolToSign, signs1.map boolToSign,
          (sample.map List.length).getD signs1.length, sample⟩
      | .null dim => t = .null dim
      | .rotation data nrows ncols => t = .rotation ⟨chunks ncols nrows data, nrows, ncols⟩ := by
  cases p with
  | padding signs n sample =>
    simp only [Transform.tryUnpack, Option.some.injEq] at h
    cases hp : Padding.tryFromParts (signs.map boolToSign) n sample with
    | error e => rw [hp] at h; simp [Transform.ofPadding] at h
    | ok r =>
      rw [hp] at h
      obtain ⟨h1, h2, h3, rfl⟩ := Padding.parts_ok hp
      rw [List.length_map] at h1
      exact ⟨⟨h1, h2, h3⟩, by simpa [Transform.ofPadding] using h.symm⟩
  | double signs0 signs1 sample =>
    simp only [Transform.tryUnpack] at h
    cases hp : Double.tryFromParts debug (signs0.map boolToSign) (signs1.map boolToSign) sample with
    | none => rw [hp] at h; simp at h
    | some r =>
      rw [hp] at h
      cases r with
      | error e => simp [Transform.ofDouble] at h
      | ok r =>
        obtain ⟨h1, h2, h3, rfl⟩ := Double.parts_ok hp
        rw [List.length_map, List.length_map] at h2
        rw [List.length_map] at h3
        refine ⟨⟨by simpa using h1, h2, h3⟩, ?_⟩
        simpa [Transform.ofDouble] using h.symm
  | null dim =>
    simp only [Transform.tryUnpack, Option.some.injEq] at h
    split at h
    · simp at h
    · rename_i hd
      exact ⟨hd, by simpa using h.symm⟩
  | rotation data nrows ncols =>
    simp only [Transform.tryUnpack, Option.some.injEq, Rotation.tryUnpack] at h
    split at h
    · simp [Except.map] at h
    · split at h
      · simp [Except.map] at h
      · split at h
        · simp [Except.map] at h
        · rename_i h1 h2 h3
          exact ⟨⟨h1, h2, by simpa using h3⟩, by simpa [Except.map] using h.symm⟩

/-! ## Theorems -/

/-- In a release build reading never panics, and exactly the acceptable serializations are accepted. -/
theorem C84_accepts [DecidableEq K] (p : Proto K) :
    (p.Acceptable → ∃ t, Transform.tryUnpack false p = some (.ok t)) ∧
    (¬ p.Acceptable → ∃ e, Transform.tryUnpack false p = some (.error e)) := by
  constructor
  · intro h
    cases p with
    | padding signs n sample =>
      obtain ⟨h1, h2, h3⟩ := h
      exact ⟨_, by
        unfold Transform.tryUnpack
        dsimp only
        rw [Padding.parts_of (all_bools _) (by rw [List.length_map]; exact h1) h2 h3]
        rfl⟩
    | double signs0 signs1 sample =>
      obtain ⟨h1, h2, h3⟩ := h
      exact ⟨_, by
        unfold Transform.tryUnpack
        dsimp only
        rw [Double.parts_of (by simpa using h1) (by simpa using h2) (all_bools _) (all_bools _) (by simpa using h3) (by simp)]
        rfl⟩
    | null dim => exact ⟨.null dim, by simp only [Transform.tryUnpack, if_neg (show ¬ dim = 0 from h)]⟩
    | rotation data nrows ncols =>
      obtain ⟨h1, h2, h3⟩ := h
      exact ⟨_, by simp only [Transform.tryUnpack, Rotation.tryUnpack, if_neg h1, if_neg h2, h3, ne_eq, not_true_eq_false,
        if_false]; rfl⟩
  · intro h
    cases hr : Transform.tryUnpack false p with
    | some r =>
      cases r with
      | error e => exact ⟨e, rfl⟩
      | ok t => exact absurd (accepted hr).1 h
    | none =>
      exfalso
      cases p with
      | padding signs n sample => simp [Transform.tryUnpack] at hr
      | null dim => simp [Transform.tryUnpack] at hr
      | rotation data nrows ncols => simp [Transform.tryUnpack] at hr
      | double signs0 signs1 sample =>
        simp only [Transform.tryUnpack, Option.map_eq_none_iff] at hr
        unfold Double.tryFromParts at hr
        split at hr
        · simp at hr
        · split at hr
          · simp at hr
          · split at hr
            · simp at hr
            · split at hr
              · simp at hr
              · split at hr
                · rename_i hc
                  by_cases hs : ∀ s, sample = some s → IsSample (signs1.map boolToSign).length s
                  · rw [Double.check_of hs (by simp)] at hc; simp at hc
                  · obtain ⟨e, he⟩ := Double.check_release hs
                    rw [he] at hc; simp at hc
                · simp at hr
                · simp at hr

example : (Proto.padding (K := Rat) [true, false, true] 4 (some [1, 3])).Acceptable :=
  ⟨by decide, ⟨2, rfl⟩, by
    intro s hs
    obtain rfl : [1, 3] = s := by simpa using hs
    exact ⟨by decide, by decide, by decide⟩⟩
example : ¬ (Proto.padding (K := Rat) [true, false, true] 6 none).Acceptable := by
  rintro ⟨_, ⟨k, hk⟩, _⟩
  have := (isPowerOfTwo_iff 6).2 ⟨k, hk⟩
  revert this
  decide +kernel

/-- A transform read back from what a new transform wrote is that transform, with and without debug assertions. -/
theorem C84_round_trip [DecidableEq K] [Field K] [LinearOrder K] [IsStrictOrderedRing K] {sqrt : K → K} {d : Draws K}
    (hd : d.Fair) {kind : Kind} (hk : kind.Allowed) {dim : Nat} (h0 : 0 < dim) (h1 : dim ≤ 2 ^ 31) {t : Transform K}
    (ht : Transform.new sqrt kind dim (some d) = some (.ok t)) (ho : t.outputDim ≤ 2 ^ 31) (debug : Bool) :
    Transform.tryUnpack debug t.pack = some (.ok t) := by
  cases kind with
  | padding target =>
    have hsize := allowed_dims (h1.trans (by decide)) hk
    obtain rfl : .padding (Padding.new d dim target) = t := by
      have : some (Except.ok (ε := NewError) (Transform.padding (Padding.new d dim target))) = some (.ok t) := ht
      simpa using this
    have hout : (Padding.new d dim target).outputDim = (Padding.dims dim target).2 := Padding.new_output hd dim target hsize
    have hsp := Padding.dims_spec dim target
    have hv := Padding.new_valid hd target hsize
    have hlen : (Padding.new d dim target).signs.length = dim := by simp [Padding.new]
    have hpd : (Padding.new d dim target).paddedDim = (Padding.dims dim target).1 := rfl
    have hp : (Padding.new d dim target).paddedDim < 2 ^ 32 := by
      rw [hpd]
      have hm : max dim (Padding.dims dim target).2 ≤ 2 ^ 31 := by
        have : (Padding.dims dim target).2 ≤ 2 ^ 31 := by rw [← hout]; exact ho
        omega
      have := hsp.2.2 31 hm
      omega
    show some (Transform.ofPadding (Padding.tryFromParts _ (asU32 _) _)) = _
    rw [map_forth hv.signs, asU32_of hp, Padding.parts_of ((signs_all _).2 hv.signs) hv.long hv.pow ?_]
    · rfl
    · intro s hs
      have hs' := hs
      unfold Padding.new at hs'
      dsimp only at hs'
      by_cases hc : (Padding.dims dim target).1 > (Padding.dims dim target).2
      · rw [if_pos hc] at hs'
        simp only [Option.some.injEq] at hs'
        refine ⟨?_, ?_, hv.sample s hs⟩
        · rintro rfl
          have hl := subsample_length hd (n := (Padding.dims dim target).1) (m := (Padding.dims dim target).2) (by omega) hsize
          rw [hs'] at hl
          have hpos : 0 < (Padding.dims dim target).2 := by
            cases target with
            | same => exact h0
            | natural => exact lt_of_lt_of_le h0 (nextPowerOfTwo_spec dim).2.1
            | override n => exact hk.1
          simp only [List.length_nil] at hl
          omega
        · rw [← hs']
          exact subsample_strict hd (by omega) hsize
      · rw [if_neg hc] at hs'
        simp at hs'
  | double target =>
    obtain rfl : .double (Double.new d dim target) = t := by
      have : some (Except.ok (ε := NewError) (Transform.double (Double.new d dim target))) = some (.ok t) := ht
      simpa using this
    have hv := Double.new_valid hd target h0 (h1.trans (by decide))
    have hl0 : (Double.new d dim target).signs0.length = dim := by simp [Double.new]
    have hl1 : (Double.new d dim target).signs1.length = max dim (Double.target dim target) := by
      simp [Double.new]
    have htp := Double.target_pos h0 (target := target) hk
    have hsub : ∀ s, (Double.new d dim target).subsample = some s →
        Double.target dim target < dim ∧ s = subsampleIndices d dim (Double.target dim target) := by
      intro s hs
      unfold Double.new at hs
      dsimp only at hs
      by_cases hc : dim > Double.target dim target
      · rw [if_pos hc] at hs
        exact ⟨hc, by simpa using hs.symm⟩
      · rw [if_neg hc] at hs
        simp at hs
    have hslen : ∀ s, (Double.new d dim target).subsample = some s → s.length = Double.target dim target := by
      intro s hs
      obtain ⟨hc, rfl⟩ := hsub s hs
      exact subsample_length hd (by omega) (h1.trans (by decide))
    show (Double.tryFromParts debug _ _ _).map Transform.ofDouble = _
    rw [map_forth hv.signs0, map_forth hv.signs1, Double.parts_of ?_ (by omega) ((signs_all _).2 hv.signs0)
      ((signs_all _).2 hv.signs1) ?_ ?_]
    · refine congrArg (fun x => some (Except.ok (Transform.double x))) ?_
      have hT : (Option.map List.length (Double.new d dim target).subsample).getD (Double.new d dim target).signs1.length =
          (Double.new d dim target).targetDim := by
        cases hs : (Double.new d dim target).subsample with
        | none =>
          have := hv.sample
          rw [hs] at this
          dsimp only at this
          have htd : (Double.new d dim target).targetDim = Double.target dim target := rfl
          simp only [Option.map_none, Option.getD_none]
          omega
        | some s => exact hslen s hs
      rw [hT]
    · intro hnil
      rw [hnil] at hl0
      simp at hl0
      omega
    · intro s hs
      obtain ⟨hc, he⟩ := hsub s hs
      have hl := hslen s hs
      refine ⟨?_, ?_, ?_⟩
      · rintro rfl
        simp only [List.length_nil] at hl
        omega
      · rw [he]
        exact subsample_strict hd (by omega) (h1.trans (by decide))
      · intro i hi
        have h2 := hv.sample
        rw [hs] at h2
        have := h2.2 i hi
        have htd : (Double.new d dim target).targetDim = Double.target dim target := rfl
        omega
    · intro _ s hs
      have := hslen s hs
      have := (hsub s hs).1
      omega
  | null =>
    obtain rfl : .null dim = t := by
      have : some (Except.ok (ε := NewError) (Transform.null (K := K) dim)) = some (.ok t) := ht
      simpa using this
    show some (if asU32 dim = 0 then _ else _) = _
    rw [asU32_of (by omega), if_neg (by omega)]
  | rotation target =>
    have hnew := ht
    unfold Transform.new at hnew
    dsimp only at hnew
    rw [Rotation.new_ok hd] at hnew
    obtain rfl : .rotation ⟨Rotation.matrixOf sqrt d dim (Double.target dim target), Double.target dim target, dim⟩ = t := by
      have : some (Except.ok (ε := NewError) (Transform.rotation
        ⟨Rotation.matrixOf sqrt d dim (Double.target dim target), Double.target dim target, dim⟩)) = some (.ok t) := hnew
      simpa using this
    have hsh := Rotation.new_shaped (sqrt := sqrt) hd dim (Double.target dim target)
    have htp := Double.target_pos h0 (target := target) hk
    have ho' : Double.target dim target ≤ 2 ^ 31 := ho
    show some ((Rotation.tryUnpack (Rotation.matrixOf sqrt d dim (Double.target dim target)).flatten
      (asU32 (Double.target dim target)) (asU32 dim)).map _) = _
    rw [asU32_of (by omega), asU32_of (by omega)]
    unfold Rotation.tryUnpack
    have h2 : (Rotation.matrixOf sqrt d dim (Double.target dim target)).flatten.length = Double.target dim target * dim := by
      rw [List.length_flatten, List.map_congr_left hsh.2]
      simp [hsh.1]
    rw [if_neg (by omega), if_neg (by omega), if_neg (by simp [h2])]
    have h3 : chunks dim (Double.target dim target) (Rotation.matrixOf sqrt d dim (Double.target dim target)).flatten =
        Rotation.matrixOf sqrt d dim (Double.target dim target) := by
      have := chunks_flatten hsh.2
      rw [hsh.1] at this
      exact this
    rw [h3]
    rfl

/-- Writing a transform that was read yields what was read. -/
theorem C84_rewrite [DecidableEq K] {debug : Bool} {p : Proto K} (hp : p.Bounded) {t : Transform K}
    (h : Transform.tryUnpack debug p = some (.ok t)) : t.pack = p := by
  obtain ⟨ha, ht⟩ := accepted h
  cases p with
  | padding signs n sample =>
    dsimp only at ht
    subst ht
    show Proto.padding _ (asU32 n) sample = _
    rw [map_back, asU32_of hp]
  | double signs0 signs1 sample =>
    dsimp only at ht
    subst ht
    show Proto.double _ _ sample = _
    rw [map_back, map_back]
  | null dim =>
    dsimp only at ht
    subst ht
    show Proto.null (asU32 dim) = _
    rw [asU32_of hp]
  | rotation data nrows ncols =>
    dsimp only at ht
    subst ht
    show Proto.rotation (chunks ncols nrows data).flatten (asU32 nrows) (asU32 ncols) = _
    rw [asU32_of hp.1, asU32_of hp.2, flatten_chunks ha.2.2]

variable [Field K] [LinearOrder K] [IsStrictOrderedRing K]

omit [LinearOrder K] [IsStrictOrderedRing K] in
theorem Padding.run {sqrt : K → K} {arch : Arch} {t : Padding} {dst src y : List K} (h1 : src.length = t.inputDim)
    (h2 : dst.length = t.outputDim) (hy : t.body sqrt arch dst src = some y) :
    t.transformInto sqrt arch dst src = some (.ok y) := by
  unfold Padding.transformInto
  rw [checkDims_ok h1 h2, hy]
  rfl

omit [LinearOrder K] [IsStrictOrderedRing K] in
theorem Double.run {sqrt : K → K} {arch : Arch} {t : Double} {dst src y : List K} (h1 : src.length = t.inputDim)
    (h2 : dst.length = t.outputDim) (hy : t.body sqrt arch dst src = some y) :
    t.transformInto sqrt arch dst src = some (.ok y) := by
  unfold Double.transformInto
  rw [checkDims_ok h1 h2, hy]
  rfl

theorem double_valid {signs0 signs1 : List Bool} {sample : Option (List Nat)}
    (ha : (Proto.double (K := K) signs0 signs1 sample).Acceptable)
    (hin : (Proto.double (K := K) signs0 signs1 sample).SampleInside) :
    (⟨signs0.map boolToSign, signs1.map boolToSign, (sample.map List.length).getD signs1.length, sample⟩ : Double).Valid := by
  obtain ⟨h1, h2, h3⟩ := ha
  have hpos : 0 < signs0.length := List.length_pos_iff.2 h1
  have hle : ∀ s, IsSample signs1.length s → s.length ≤ signs1.length := by
    intro s hs
    have hn : s.Nodup := hs.2.1.imp fun h => Nat.ne_of_lt h
    have := (List.subperm_of_subset hn (l₂ := List.range signs1.length) fun i hi => List.mem_range.2 (hs.2.2 i hi)).length_le
    rwa [List.length_range] at this
  refine ⟨by simpa using hpos, signs_bools _, signs_bools _, ?_, ?_⟩
  · dsimp only
    rw [List.length_map, List.length_map]
    cases sample with
    | none => simpa using h2
    | some s => have := hle s (h3 s rfl); simp only [Option.map_some, Option.getD_some]; omega
  · dsimp only
    cases sample with
    | none => simpa using h2
    | some s =>
      refine ⟨rfl, ?_⟩
      rw [List.length_map]
      exact hin

/-- A transform that was read has the dimensions announced and transforms every vector of its dimension, unless it is a
double transform with a sample of coordinates it does not compute. What is missing: `C84_double_unpack_panics`. -/
theorem C84_usable_partial [DecidableEq K] {sqrt : K → K} (hs : ∀ a : K, 0 ≤ a → IsRoot (sqrt a) a) (arch : Arch)
    {debug : Bool} {p : Proto K} {t : Transform K} (h : Transform.tryUnpack debug p = some (.ok t)) (hin : p.SampleInside) :
    t.inputDim = p.dims.1 ∧ t.outputDim = p.dims.2 ∧
    ∀ dst src, src.length = p.dims.1 → dst.length = p.dims.2 →
      ∃ y, t.transformInto sqrt arch dst src = some (.ok y) ∧ y.length = p.dims.2 := by
  obtain ⟨ha, ht⟩ := accepted h
  cases p with
  | padding signs n sample =>
    dsimp only at ht
    subst ht
    obtain ⟨h1, h2, h3⟩ := ha
    have hi : (⟨signs.map boolToSign, n, sample⟩ : Padding).inputDim = signs.length := by simp [Padding.inputDim]
    have ho : (⟨signs.map boolToSign, n, sample⟩ : Padding).outputDim = (sample.map List.length).getD n := by
      cases sample <;> rfl
    refine ⟨hi, ho, fun dst src hsrc hdst => ?_⟩
    have hv : (⟨signs.map boolToSign, n, sample⟩ : Padding).Valid :=
      ⟨signs_bools _, by simpa using h1, h2, fun s hs => (h3 s hs).2.2⟩
    have hsrc' : src.length = signs.length := hsrc
    have hdst' : dst.length = (sample.map List.length).getD n := hdst
    obtain ⟨y, hy, _, hl⟩ := Padding.body_ok (sqrt := sqrt) arch hv (dst := dst) (src := src) (by simpa using hsrc')
      (by rw [ho]; exact hdst') (hs _ (by positivity))
    refine ⟨y, ?_, by rw [hl, ho]; rfl⟩
    show Padding.transformInto sqrt arch _ dst src = _
    unfold Padding.transformInto
    rw [checkDims_ok (by rw [hi]; exact hsrc') (by rw [ho]; exact hdst'), hy]
    rfl
  | double signs0 signs1 sample =>
    dsimp only at ht
    subst ht
    have hi : (⟨signs0.map boolToSign, signs1.map boolToSign, (sample.map List.length).getD signs1.length, sample⟩ :
        Double).inputDim = signs0.length := by simp [Double.inputDim]
    refine ⟨hi, rfl, fun dst src hsrc hdst => ?_⟩
    have hsrc' : src.length = signs0.length := hsrc
    have hdst' : dst.length = (⟨signs0.map boolToSign, signs1.map boolToSign,
      (sample.map List.length).getD signs1.length, sample⟩ : Double).outputDim := hdst
    obtain ⟨y, hy, _, hl⟩ := Double.body_ok (sqrt := sqrt) arch (double_valid ha hin) (dst := dst) (src := src)
      (by simpa using hsrc') hdst (hs _ (by positivity))
    refine ⟨y, ?_, hl⟩
    show Double.transformInto sqrt arch _ dst src = _
    unfold Double.transformInto
    rw [checkDims_ok (by rw [hi]; exact hsrc') hdst', hy]
    rfl
  | null dim =>
    dsimp only at ht
    subst ht
    exact ⟨rfl, rfl, fun dst src hsrc hdst => ⟨src, C83_null arch dim hsrc hdst, hsrc⟩⟩
  | rotation data nrows ncols =>
    dsimp only at ht
    subst ht
    refine ⟨rfl, rfl, fun dst src hsrc hdst => ⟨(chunks ncols nrows data).map fun row => (List.zipWith (· * ·) row src).sum,
      ?_, ?_⟩⟩
    · show some (Rotation.transformInto _ dst src) = _
      have hc : checkDims dst src ncols nrows = none := checkDims_ok hsrc hdst
      unfold Rotation.transformInto
      dsimp only
      rw [hc]
    · rw [List.length_map, length_chunks]
      rfl

/-- A transform of signs that was read without a sample preserves inner products, whoever wrote it. -/
theorem C84_isometry [DecidableEq K] {sqrt : K → K} (hs : ∀ a : K, 0 ≤ a → IsRoot (sqrt a) a) (arch : Arch)
    {debug : Bool} {p : Proto K} {t : Transform K} (h : Transform.tryUnpack debug p = some (.ok t))
    (hp : (∃ signs n, p = .padding signs n none) ∨ ∃ signs0 signs1, p = .double signs0 signs1 none)
    {dst dst' x y : List K} (hx : x.length = p.dims.1) (hy : y.length = p.dims.1) (hd : dst.length = p.dims.2)
    (hd' : dst'.length = p.dims.2) :
    ∃ x' y', t.transformInto sqrt arch dst x = some (.ok x') ∧ t.transformInto sqrt arch dst' y = some (.ok y') ∧
      inner x' y' = inner x y := by
  obtain ⟨ha, ht⟩ := accepted h
  rcases hp with ⟨signs, n, rfl⟩ | ⟨signs0, signs1, rfl⟩
  · dsimp only at ht
    subst ht
    obtain ⟨h1, h2, h3⟩ := ha
    have hv : (⟨signs.map boolToSign, n, none⟩ : Padding).Valid :=
      ⟨signs_bools _, by simpa using h1, h2, fun s hs => (h3 s hs).2.2⟩
    have hi : (⟨signs.map boolToSign, n, none⟩ : Padding).inputDim = signs.length := by simp [Padding.inputDim]
    have hx' : x.length = signs.length := hx
    have hy' : y.length = signs.length := hy
    have hr := hs (n : K) (by positivity)
    obtain ⟨u, hu, hus, _⟩ := Padding.body_ok (sqrt := sqrt) arch hv (dst := dst) (src := x) (by simpa using hx') hd hr
    obtain ⟨v, hv1, hvs, _⟩ := Padding.body_ok (sqrt := sqrt) arch hv (dst := dst') (src := y) (by simpa using hy') hd' hr
    refine ⟨u, v, ?_, ?_, ?_⟩
    · exact Padding.run (by rw [hi]; exact hx') hd hu
    · exact Padding.run (by rw [hi]; exact hy') hd' hv1
    · have hu' : u = _ := hus
      have hv' : v = _ := hvs
      rw [hu', hv', inner_map_range]
      exact Padding.coords_inner hv (by simpa using hx') (by simpa using hy') hr
  · dsimp only at ht
    subst ht
    have hv := double_valid (K := K) ha trivial
    have hi : (⟨signs0.map boolToSign, signs1.map boolToSign, signs1.length, none⟩ : Double).inputDim = signs0.length := by
      simp [Double.inputDim]
    have hx' : x.length = signs0.length := hx
    have hy' : y.length = signs0.length := hy
    have hr := hs (2 ^ (max (signs0.map boolToSign).length signs1.length).log2 : K) (by positivity)
    obtain ⟨u, hu, hus, _⟩ := Double.body_ok (sqrt := sqrt) arch hv (dst := dst) (src := x) (by simpa using hx') hd hr
    obtain ⟨v, hv1, hvs, _⟩ := Double.body_ok (sqrt := sqrt) arch hv (dst := dst') (src := y) (by simpa using hy') hd' hr
    refine ⟨u, v, ?_, ?_, ?_⟩
    · exact Double.run (hx'.trans hi.symm) hd hu
    · exact Double.run (hy'.trans hi.symm) hd' hv1
    · have hu' : u = _ := hus
      have hv' : v = _ := hvs
      rw [hu', hv', inner_map_range]
      exact Double.coords_inner hv.pos (by simpa using hx') (by simpa using hy') hr

/-! ## Concrete cases and disagreements -/

example : ∃ t : Transform Rat, Transform.tryUnpack true (.padding [true, false, true] 4 (some [1])) = some (.ok t) ∧
    t.transformInto ratRoot .scalar [0] [1, 2, 3] = some (.ok [-6]) :=
  ⟨.padding ⟨[0x80000000, 0, 0x80000000], 4, some [1]⟩, by decide +kernel, by decide +kernel⟩
example : ∃ t : Transform Rat, Transform.tryUnpack true (.double [true, false, true] [false, true, false, true] none) =
    some (.ok t) ∧ t.transformInto ratRoot .scalar [0, 0, 0, 0] [1, 2, 3] = some (.ok [2, -1, 0, -3]) :=
  ⟨.double ⟨[0x80000000, 0, 0x80000000], [0, 0x80000000, 0, 0x80000000], 4, none⟩, by decide +kernel, by decide +kernel⟩

/-- A double transform is accepted although transforming any vector with it panics: the sample is checked against the
second list of signs, which may be longer than the vector that is computed. -/
theorem C84_double_unpack_panics :
    ∃ (p : Proto Rat) (t : Transform Rat), Transform.tryUnpack false p = some (.ok t) ∧
      Transform.tryUnpack true p = some (.ok t) ∧ t.inputDim = 2 ∧ t.outputDim = 3 ∧
      t.transformInto ratRoot .scalar [0, 0, 0] [1, 2] = none :=
  ⟨.double [false, false] [false, false, false, false, false] (some [0, 1, 4]),
    .double ⟨[0, 0], [0, 0, 0, 0, 0], 3, some [0, 1, 4]⟩, by decide +kernel, by decide +kernel, by decide +kernel,
    by decide +kernel, by decide +kernel⟩

/-- A debug assertion is said to be implied by the checks before it; the sample of all coordinates fails it. -/
theorem C84_debug_assert_false :
    ∃ p : Proto Rat, Transform.tryUnpack true p = none ∧ ∃ t, Transform.tryUnpack false p = some (.ok t) :=
  ⟨.double [false, false] [false, false] (some [0, 1]), by decide +kernel,
    .double ⟨[0, 0], [0, 0], 2, some [0, 1]⟩, by decide +kernel⟩

end Verif.Rotate
