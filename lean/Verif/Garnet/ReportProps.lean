import Verif.Garnet.ReportLemmas
import Mathlib.Data.List.Basic
import Mathlib.Data.List.Nodup
import Mathlib.Data.List.Perm.Subperm
import Mathlib.Data.List.Sort
import Mathlib.Order.Defs.LinearOrder
/-
C108: what a Garnet vector set writes into the buffers of its caller.
-/
namespace Verif.Garnet.Report

variable {V D : Type}

/-! ### The format -/

/-- Results that are written one after the other into buffers for `dists.length` distances and `ids.length` bytes
of ids: exactly the longest prefix that fits both is written, its ids can be read back, its distances are beside
them, the buffers keep their lengths, and what is behind the results is untouched. -/
theorem C108_written (ids : List UInt8) (dists : List D) (items : List (List UInt8 × D))
    (hl : ∀ r ∈ items, r.1.length < 4294967296) :
    ∃ k, k ≤ items.length ∧ Fits dists.length ids.length (items.take k) ∧
      (k < items.length → ¬ Fits dists.length ids.length (items.take (k + 1))) ∧
      Holds ((Buf.new ids dists).extend items) (items.take k) ∧
      ((Buf.new ids dists).extend items).ids.length = ids.length ∧
      ((Buf.new ids dists).extend items).dists.length = dists.length ∧
      ((Buf.new ids dists).extend items).ids.drop (size (items.take k)) = ids.drop (size (items.take k)) ∧
      ((Buf.new ids dists).extend items).dists.drop k = dists.drop k := by
  obtain ⟨k, hk, hf, hmax⟩ := filled_extend (filled_new ids dists) items
  simp only [List.nil_append] at hf hmax
  obtain ⟨e1, e2⟩ := filled_lengths hf
  refine ⟨k, hk, hf.fits, hmax, holds_of_filled hf (fun r hr => hl r (List.mem_of_mem_take hr)), e1, e2, ?_, ?_⟩
  · rw [hf.ids]
    rw [← encode_length, List.drop_left]
  · rw [hf.dists]
    have hkl : (items.take k).length = k := by rw [List.length_take]; omega
    have hm : ((items.take k).map Prod.snd).length = k := by rw [List.length_map, hkl]
    rw [hkl, List.drop_append, List.drop_eq_nil_of_le (by omega), hm]
    simp

/-- Two results, the second of which does not fit. -/
example : ((Buf.new (List.replicate 12 9) [0, 0, 0]).extend [([5, 6], 1), ([7], 2), ([8], 3)]).ids =
    [2, 0, 0, 0, 5, 6, 1, 0, 0, 0, 7, 9] ∧
    ((Buf.new (List.replicate 12 9) [0, 0, 0]).extend [([5, 6], 1), ([7], 2), ([8], 3)]).dists = [1, 2, 0] := by
  decide

example : Holds ((Buf.new (List.replicate 12 9) [0, 0, 0]).extend [([5, 6], 1), ([7], 2), ([8], 3)])
    [([5, 6], 1), ([7], 2)] := by
  refine ⟨by decide, by decide, by decide⟩

/-! ### Search results -/

/-- What `sort_unstable_by` promises. -/
def Sorts [LinearOrder D] (sort : List (Nat × D) → List (Nat × D)) : Prop :=
  ∀ l, (sort l).Perm l ∧ (sort l).Pairwise fun p q => p.2 ≤ q.2

/-- A search in full precision writes its candidates in their order, without the start point and without those
whose name cannot be read: the longest prefix of them that fits the buffers. -/
theorem C108_full_search (vec : Nat → Option V) (dist : V → D) (sort : List (Nat × D) → List (Nat × D))
    (ext : Nat → Option (List UInt8)) (hl : ∀ i id, ext i = some id → id.length < 4294967296)
    (ids : List UInt8) (dists : List D) (candidates : List (Nat × D)) :
    ∃ (named : List (List UInt8 × D)) (k : Nat),
      named = (candidates.filter (fun p => p.1 ≠ 0)).filterMap (fun p => (ext p.1).map fun id => (id, p.2)) ∧
      k ≤ named.length ∧
      Fits dists.length ids.length (named.take k) ∧
      (k < named.length → ¬ Fits dists.length ids.length (named.take (k + 1))) ∧
      Holds (report false vec dist sort ext (Buf.new ids dists) candidates) (named.take k) := by
  have h := C108_written ids dists
    ((candidates.filter (fun p => p.1 ≠ 0)).filterMap (fun p => (ext p.1).map fun id => (id, p.2))) (by
      intro r hr
      obtain ⟨p, _, hp⟩ := List.mem_filterMap.1 hr
      obtain ⟨id, hid, rfl⟩ := Option.map_eq_some_iff.1 hp
      exact hl _ _ hid)
  obtain ⟨k, h1, h2, h3, h4, _⟩ := h
  refine ⟨_, k, rfl, h1, h2, h3, ?_⟩
  unfold report
  rw [if_neg (by simp), copyExternal_eq]
  exact h4

/-- A quantized search writes its candidates, without the start point and without those whose vector or name
cannot be read, with the distances of their stored vectors (not of their codes), sorted by these distances: the
longest prefix that fits the buffers, so no result that is left out is nearer than one that is written. -/
theorem C108_quantized_search [LinearOrder D] (vec : Nat → Option V) (dist : V → D)
    (sort : List (Nat × D) → List (Nat × D)) (hs : Sorts sort)
    (ext : Nat → Option (List UInt8)) (hl : ∀ i id, ext i = some id → id.length < 4294967296)
    (ids : List UInt8) (dists : List D) (candidates : List (Nat × D)) :
    ∃ (named : List (List UInt8 × D)) (k : Nat),
      named.Perm ((candidates.filter (fun p => p.1 ≠ 0)).filterMap fun p =>
        match vec p.1, ext p.1 with
        | some v, some id => some (id, dist v)
        | _, _ => none) ∧
      named.Pairwise (fun p q => p.2 ≤ q.2) ∧
      k ≤ named.length ∧
      Fits dists.length ids.length (named.take k) ∧
      (k < named.length → ¬ Fits dists.length ids.length (named.take (k + 1))) ∧
      Holds (report true vec dist sort ext (Buf.new ids dists) candidates) (named.take k) := by
  have hsort := hs ((candidates.filter fun p => p.1 ≠ 0).filterMap fun p => (vec p.1).map fun v => (p.1, dist v))
  have h := C108_written ids dists
    ((sort ((candidates.filter fun p => p.1 ≠ 0).filterMap fun p => (vec p.1).map fun v => (p.1, dist v))).filterMap
      (fun p => (ext p.1).map fun id => (id, p.2))) (by
      intro r hr
      obtain ⟨p, _, hp⟩ := List.mem_filterMap.1 hr
      obtain ⟨id, hid, rfl⟩ := Option.map_eq_some_iff.1 hp
      exact hl _ _ hid)
  obtain ⟨k, h1, h2, h3, h4, _⟩ := h
  refine ⟨_, k, ?_, ?_, h1, h2, h3, ?_⟩
  · have := hsort.1.filterMap (fun p => (ext p.1).map fun id => (id, p.2))
    refine this.trans (List.Perm.of_eq ?_)
    rw [List.filterMap_filterMap]
    congr 1
    funext p
    cases hv : vec p.1 with
    | none => rfl
    | some v => cases hx : ext p.1 <;> simp [hx]
  · refine List.Pairwise.filterMap _ ?_ hsort.2
    intro p q hpq a ha b hb
    obtain ⟨_, _, rfl⟩ := Option.map_eq_some_iff.1 ha
    obtain ⟨_, _, rfl⟩ := Option.map_eq_some_iff.1 hb
    exact hpq
  · unfold report
    rw [if_pos rfl, copyExternal_eq]
    exact h4

/-- Three candidates with wrong distances, one of them the start point, written in the right order. -/
example : Holds (report true (fun i => some i) (fun v => 10 - v) (fun l => l.insertionSort fun a b => a.2 ≤ b.2)
    (fun i => some [UInt8.ofNat i]) (Buf.new (List.replicate 20 0) [0, 0, 0]) [(0, 1), (3, 2), (5, 9)])
    [([5], 5), ([3], 7)] := by
  refine ⟨by decide +kernel, by decide +kernel, by decide +kernel⟩

/-- There is such a sort. -/
example : Sorts (D := Nat) (fun l => l.mergeSort fun a b => a.2 ≤ b.2) := fun l =>
  ⟨List.mergeSort_perm l _, by
    have := List.pairwise_mergeSort (le := fun a b : Nat × Nat => decide (a.2 ≤ b.2))
      (fun a b c h1 h2 => by simp at h1 h2 ⊢; omega) (fun a b => by simp; omega) l
    simpa using this⟩

/-! ### Random members -/

/-- What `sample` promises: distinct ids of the id space, as many as asked for. -/
def SampleOk (idSpace : Nat) (samples : Nat → Nat → List Nat) : Prop :=
  ∀ k n, n ≤ idSpace → (samples k n).length = n ∧ (samples k n).Nodup ∧ ∀ i ∈ samples k n, i < idSpace

/-- The ids that have a name. -/
def live (ext : Nat → Option (List UInt8)) (idSpace : Nat) : List Nat :=
  (List.range idSpace).filter fun i => (ext i).isSome

/-- A list of ids with their names. -/
def named (zero : D) (ext : Nat → Option (List UInt8)) (is : List Nat) : List (List UInt8 × D) :=
  is.filterMap fun i => (ext i).map fun id => (id, zero)

theorem named_append (zero : D) (ext : Nat → Option (List UInt8)) (is js : List Nat) :
    named zero ext (is ++ js) = named zero ext is ++ named zero ext js := by
  simp [named]

/-- What is known of a draw: `is` are the ids whose names were written, `R` the number of members wanted. -/
structure Drawn (zero : D) (ext : Nat → Option (List UInt8)) (idSpace : Nat) (ids : List UInt8) (dists : List D)
    (R : Nat) (st : Draw D) (is : List Nat) : Prop where
  filled : Filled st.out ids dists (named zero ext is)
  nodup : is.Nodup
  live : ∀ i ∈ is, i ∈ st.chosen ∧ (ext i).isSome
  chosen : ∀ i ∈ st.chosen, i < idSpace
  count : is.length + st.remaining = R
  all : ∀ i ∈ st.chosen, (ext i).isSome → i ∈ is

theorem named_length (zero : D) (ext : Nat → Option (List UInt8)) (is : List Nat) (h : ∀ i ∈ is, (ext i).isSome) :
    (named zero ext is).length = is.length := by
  induction is with
  | nil => rfl
  | cons i is ih =>
    obtain ⟨id, hid⟩ := Option.isSome_iff_exists.1 (h i (by simp))
    have := ih (fun j hj => h j (by simp [hj]))
    simp only [named, List.filterMap_cons, hid, Option.map_some, List.length_cons] at this ⊢
    omega

/-- The end of a draw: the buffers are full, or as many as wanted were written. -/
structure Ended (zero : D) (ext : Nat → Option (List UInt8)) (idSpace : Nat) (ids : List UInt8) (dists : List D)
    (R : Nat) (st : Draw D) (is : List Nat) : Prop where
  filled : Filled st.out ids dists (named zero ext is)
  nodup : is.Nodup
  live : ∀ i ∈ is, i < idSpace ∧ (ext i).isSome
  le : is.length ≤ R
  why : is.length = R ∨ (∀ i, i < idSpace → (ext i).isSome → i ∈ is) ∨
    (∃ i, i < idSpace ∧ (ext i).isSome ∧ i ∉ is ∧ ¬ Fits dists.length ids.length (named zero ext (is ++ [i]))) ∨
    (named zero ext is).length = dists.length ∨ size (named zero ext is) = ids.length

theorem drawSample_spec (zero : D) (ext : Nat → Option (List UInt8)) (idSpace : Nat) (ids : List UInt8)
    (dists : List D) (R : Nat) (l : List Nat) (hl : ∀ i ∈ l, i < idSpace) (st : Draw D) (is : List Nat)
    (h : Drawn zero ext idSpace ids dists R st is) (hr : 0 < st.remaining) :
    ∃ is', ((drawSample zero ext l st).2 = false ∧ Drawn zero ext idSpace ids dists R (drawSample zero ext l st).1 is' ∧
        0 < (drawSample zero ext l st).1.remaining ∧
        (∀ i ∈ st.chosen, i ∈ (drawSample zero ext l st).1.chosen) ∧
        (∀ i ∈ l, i ∈ (drawSample zero ext l st).1.chosen)) ∨
      ((drawSample zero ext l st).2 = true ∧ Ended zero ext idSpace ids dists R (drawSample zero ext l st).1 is') := by
  induction l generalizing st is with
  | nil => exact ⟨is, .inl ⟨rfl, h, hr, fun i hi => hi, by simp⟩⟩
  | cons i l ih =>
    have hi : i < idSpace := hl i (by simp)
    have hl' : ∀ j ∈ l, j < idSpace := fun j hj => hl j (by simp [hj])
    by_cases hc : i ∈ st.chosen
    · have e : drawSample zero ext (i :: l) st = drawSample zero ext l st := by
        rw [drawSample]; simp [hc]
      rw [e]
      obtain ⟨is', h' | h'⟩ := ih hl' st is h hr
      · refine ⟨is', .inl ⟨h'.1, h'.2.1, h'.2.2.1, h'.2.2.2.1, ?_⟩⟩
        intro j hj
        rcases List.mem_cons.1 hj with rfl | hj
        · exact h'.2.2.2.1 _ hc
        · exact h'.2.2.2.2 j hj
      · exact ⟨is', .inr h'⟩
    · cases he : ext i with
      | none =>
        have e : drawSample zero ext (i :: l) st = drawSample zero ext l { st with chosen := i :: st.chosen } := by
          rw [drawSample]; simp [hc, he]
        rw [e]
        have hd : Drawn zero ext idSpace ids dists R { st with chosen := i :: st.chosen } is := by
          refine ⟨h.filled, h.nodup, fun j hj => ⟨by simp [(h.live j hj).1], (h.live j hj).2⟩, ?_, h.count, ?_⟩
          · intro j hj
            rcases List.mem_cons.1 hj with rfl | hj
            · exact hi
            · exact h.chosen j hj
          · intro j hj hs
            rcases List.mem_cons.1 hj with rfl | hj
            · rw [he] at hs; cases hs
            · exact h.all j hj hs
        obtain ⟨is', h' | h'⟩ := ih hl' _ is hd hr
        · refine ⟨is', .inl ⟨h'.1, h'.2.1, h'.2.2.1, fun j hj => h'.2.2.2.1 j (by simp [hj]), ?_⟩⟩
          intro j hj
          rcases List.mem_cons.1 hj with rfl | hj
          · exact h'.2.2.2.1 _ (by simp)
          · exact h'.2.2.2.2 j hj
        · exact ⟨is', .inr h'⟩
      | some id =>
        have hni : i ∉ is := fun hmem => hc (h.live i hmem).1
        have hlen : (named zero ext is).length = is.length := named_length zero ext is fun j hj => (h.live j hj).2
        have hna : named zero ext (is ++ [i]) = named zero ext is ++ [(id, zero)] := by
          rw [named_append]; simp [named, he]
        have e : drawSample zero ext (i :: l) st =
            (if st.remaining - 1 = 0 || (st.out.push id zero).2 then
              (⟨i :: st.chosen, (st.out.push id zero).1, st.remaining - 1⟩, true)
            else drawSample zero ext l ⟨i :: st.chosen, (st.out.push id zero).1, st.remaining - 1⟩) := by
          rw [drawSample]; simp [hc, he]
        rcases filled_push h.filled id zero with ⟨hf, hfill, hfull⟩ | ⟨hnf, heq⟩
        · have hnd : (is ++ [i]).Nodup := by
            rw [List.nodup_append]
            refine ⟨h.nodup, by simp, ?_⟩
            intro a ha b hb
            simp only [List.mem_singleton] at hb
            subst hb
            exact fun hab => hni (hab ▸ ha)
          have hlive : ∀ j ∈ is ++ [i], j ∈ i :: st.chosen ∧ (ext j).isSome := by
            intro j hj
            rcases List.mem_append.1 hj with hj | hj
            · exact ⟨by simp [(h.live j hj).1], (h.live j hj).2⟩
            · simp only [List.mem_singleton] at hj
              subst hj
              exact ⟨by simp, by simp [he]⟩
          have hch : ∀ j ∈ i :: st.chosen, j < idSpace := by
            intro j hj
            rcases List.mem_cons.1 hj with rfl | hj
            · exact hi
            · exact h.chosen j hj
          have hcount := h.count
          by_cases hend : (st.remaining - 1 = 0 || (st.out.push id zero).2) = true
          · rw [e, if_pos (by simpa using hend)]
            refine ⟨is ++ [i], .inr ⟨rfl, ⟨by rw [hna]; exact hfill, hnd,
              fun j hj => ⟨hch j (hlive j hj).1, (hlive j hj).2⟩, by simp; omega, ?_⟩⟩⟩
            simp only [Bool.or_eq_true, decide_eq_true_eq] at hend
            rcases hend with hz | hfl
            · left; simp; omega
            · rcases hfull.1 hfl with hx | hx
              · right; right; right; left
                rw [hna]; simp [hx]
              · right; right; right; right
                rw [hna, size_append]
                simp only [size]
                omega
          · rw [e, if_neg (by simpa using hend)]
            simp only [Bool.or_eq_true, decide_eq_true_eq, not_or] at hend
            have hd : Drawn zero ext idSpace ids dists R
                ⟨i :: st.chosen, (st.out.push id zero).1, st.remaining - 1⟩ (is ++ [i]) := by
              refine ⟨by rw [hna]; exact hfill, hnd, hlive, hch, by simp; omega, ?_⟩
              intro j hj hs
              rcases List.mem_cons.1 hj with rfl | hj
              · simp
              · simp [h.all j hj hs]
            obtain ⟨is', h' | h'⟩ := ih hl' _ _ hd (by show 0 < st.remaining - 1; omega)
            · refine ⟨is', .inl ⟨h'.1, h'.2.1, h'.2.2.1, fun j hj => h'.2.2.2.1 j (by simp [hj]), ?_⟩⟩
              intro j hj
              rcases List.mem_cons.1 hj with rfl | hj
              · exact h'.2.2.2.1 _ (by simp)
              · exact h'.2.2.2.2 j hj
            · exact ⟨is', .inr h'⟩
        · rw [e, heq, if_pos (by simp)]
          have hcount := h.count
          refine ⟨is, .inr ⟨rfl, ⟨h.filled, h.nodup, fun j hj => ⟨h.chosen j (h.live j hj).1, (h.live j hj).2⟩,
            by omega, ?_⟩⟩⟩
          right; right; left
          exact ⟨i, hi, by simp [he], hni, by rw [hna]; exact hnf⟩

theorem drawRounds_spec (zero : D) (ext : Nat → Option (List UInt8)) (idSpace : Nat) (ids : List UInt8)
    (dists : List D) (R : Nat) (samples : Nat → Nat → List Nat) (hs : SampleOk idSpace samples)
    (fuel k batch : Nat) (st : Draw D) (is : List Nat) (hb : 1 ≤ batch) (hb2 : batch ≤ idSpace)
    (hfuel : idSpace - batch < fuel) (h : Drawn zero ext idSpace ids dists R st is) :
    ∃ st' is', drawRounds zero ext idSpace samples fuel k batch st = some st' ∧
      Ended zero ext idSpace ids dists R st' is' := by
  induction fuel generalizing k batch st is with
  | zero => omega
  | succ fuel ih =>
    unfold drawRounds
    by_cases hr : st.remaining = 0
    · rw [if_pos hr]
      have hcount := h.count
      exact ⟨st, is, rfl, h.filled, h.nodup, fun j hj => ⟨h.chosen j (h.live j hj).1, (h.live j hj).2⟩,
        by omega, .inl (by omega)⟩
    · rw [if_neg hr]
      obtain ⟨s1, s2, s3⟩ := hs k batch hb2
      obtain ⟨is', ⟨g1, g2, g3, g4, g5⟩ | ⟨g1, g2⟩⟩ :=
        drawSample_spec zero ext idSpace ids dists R (samples k batch) s3 st is h (by omega)
      · simp only [g1, Bool.false_eq_true, if_false]
        by_cases hbe : batch = idSpace
        · rw [if_pos hbe]
          have hcount := g2.count
          refine ⟨_, is', rfl, g2.filled, g2.nodup,
            fun j hj => ⟨g2.chosen j (g2.live j hj).1, (g2.live j hj).2⟩, by omega, ?_⟩
          right; left
          intro i hi he
          refine g2.all i (g5 i ?_) he
          have hsub : (samples k batch).Subperm (List.range idSpace) :=
            List.subperm_of_subset s2 fun j hj => List.mem_range.2 (s3 j hj)
          have hperm : (samples k batch).Perm (List.range idSpace) :=
            hsub.perm_of_length_le (by rw [List.length_range, s1, hbe])
          exact hperm.mem_iff.2 (List.mem_range.2 hi)
        · rw [if_neg hbe]
          exact ih (k + 1) (min (batch * 2) idSpace) _ is' (by omega) (by omega) (by omega) g2
      · simp only [g1, if_true]
        exact ⟨_, is', rfl, g2⟩

theorem drawn_new (zero : D) (ext : Nat → Option (List UInt8)) (idSpace : Nat) (ids : List UInt8) (dists : List D)
    (R : Nat) : Drawn zero ext idSpace ids dists R ⟨[], Buf.new ids dists, R⟩ [] :=
  ⟨filled_new ids dists, by simp, by simp, by simp, by simp, by simp⟩

theorem random_spec (zero : D) (ext : Nat → Option (List UInt8)) (maxId total count : Nat) (ids : List UInt8)
    (dists : List D) (samples : Nat → Nat → List Nat) (hs : SampleOk (maxId + 1) samples) :
    ∃ st is, randomMembers zero ext maxId total samples count (Buf.new ids dists) = some st ∧
      Ended zero ext (maxId + 1) ids dists (min count total) st is := by
  unfold randomMembers
  refine drawRounds_spec zero ext (maxId + 1) ids dists (min count total) samples hs _ 0 _ _ [] ?_ ?_ ?_
    (drawn_new zero ext (maxId + 1) ids dists (min count total))
  · unfold firstBatch; omega
  · unfold firstBatch; omega
  · unfold firstBatch; omega

theorem mem_live {ext : Nat → Option (List UInt8)} {n i : Nat} : i ∈ live ext n ↔ i < n ∧ (ext i).isSome := by
  simp [live]

/-- Asking for random members always ends, whatever is sampled.  What is written are the names of different
elements of the set, never more than asked for, and they can be read back. -/
theorem C108_random_members (zero : D) (ext : Nat → Option (List UInt8))
    (hl : ∀ i id, ext i = some id → id.length < 4294967296) (maxId total count : Nat) (ids : List UInt8)
    (dists : List D) (samples : Nat → Nat → List Nat) (hs : SampleOk (maxId + 1) samples) :
    ∃ st is, randomMembers zero ext maxId total samples count (Buf.new ids dists) = some st ∧
      is.Nodup ∧ (∀ i ∈ is, i ∈ live ext (maxId + 1)) ∧ is.length ≤ count ∧ st.out.index = is.length ∧
      Holds st.out (named zero ext is) := by
  obtain ⟨st, is, h1, h2⟩ := random_spec zero ext maxId total count ids dists samples hs
  refine ⟨st, is, h1, h2.nodup, fun i hi => mem_live.2 (h2.live i hi), ?_, ?_, ?_⟩
  · have := h2.le; omega
  · rw [h2.filled.index, named_length zero ext is fun j hj => (h2.live j hj).2]
  · refine holds_of_filled h2.filled ?_
    intro r hr
    obtain ⟨i, _, hp⟩ := List.mem_filterMap.1 hr
    obtain ⟨id, hid, rfl⟩ := Option.map_eq_some_iff.1 hp
    exact hl _ _ hid

theorem size_perm {rs ts : List (List UInt8 × D)} (h : rs.Perm ts) : size rs = size ts := by
  induction h with
  | nil => rfl
  | cons r _ ih => obtain ⟨id, d⟩ := r; simp [size, ih]
  | swap r t l => obtain ⟨id, d⟩ := r; obtain ⟨id', d'⟩ := t; simp [size]; omega
  | trans _ _ ih1 ih2 => rw [ih1, ih2]

theorem named_le (zero : D) (ext : Nat → Option (List UInt8)) (n : Nat) (is : List Nat) (hn : is.Nodup)
    (hm : ∀ i ∈ is, i ∈ live ext n) :
    is.length ≤ (live ext n).length ∧ size (named zero ext is) ≤ size (named zero ext (live ext n)) := by
  have hsub : is.Subperm (live ext n) := List.subperm_of_subset hn hm
  refine ⟨hsub.length_le, ?_⟩
  obtain ⟨l, hp, hsl⟩ := hsub
  have h1 : size (named zero ext is) = size (named zero ext l) := size_perm ((hp.symm).filterMap _)
  rw [h1]
  clear h1 hp hm hn
  have hsl2 : (named zero ext l).Sublist (named zero ext (live ext n)) := hsl.filterMap _
  generalize named zero ext l = a at hsl2
  generalize named zero ext (live ext n) = b at hsl2
  induction hsl2 with
  | slnil => simp
  | cons r _ ih => obtain ⟨id, d⟩ := r; simp only [size]; omega
  | cons_cons r _ ih => obtain ⟨id, d⟩ := r; simp only [size]; omega

/-- If the buffers have room for all names and one more byte and one more distance, exactly as many members are
written as were asked for, or as the set counts, or as there are, whichever is least: deleted ids in between do
not make it miss one. -/
theorem C108_random_members_all (zero : D) (ext : Nat → Option (List UInt8)) (maxId total count : Nat)
    (ids : List UInt8) (dists : List D) (samples : Nat → Nat → List Nat) (hs : SampleOk (maxId + 1) samples)
    (hroom : (live ext (maxId + 1)).length < dists.length ∧
      size (named zero ext (live ext (maxId + 1))) < ids.length) :
    ∃ st, randomMembers zero ext maxId total samples count (Buf.new ids dists) = some st ∧
      st.out.index = min (min count total) (live ext (maxId + 1)).length := by
  obtain ⟨st, is, h1, h2⟩ := random_spec zero ext maxId total count ids dists samples hs
  refine ⟨st, h1, ?_⟩
  have hlen := named_length zero ext is fun j hj => (h2.live j hj).2
  rw [h2.filled.index, hlen]
  have hm : ∀ i ∈ is, i ∈ live ext (maxId + 1) := fun i hi => mem_live.2 (h2.live i hi)
  obtain ⟨hle, hsz⟩ := named_le zero ext (maxId + 1) is h2.nodup hm
  have hR := h2.le
  rcases h2.why with h | h | ⟨i, a, b, c, hno⟩ | h | h
  · omega
  · have hback : (live ext (maxId + 1)).Subperm is := by
      refine List.subperm_of_subset (List.Nodup.filter _ List.nodup_range) ?_
      intro i hi
      exact h i (mem_live.1 hi).1 (mem_live.1 hi).2
    have := hback.length_le
    omega
  · exfalso
    apply hno
    have hnd : (is ++ [i]).Nodup := by
      rw [List.nodup_append]
      refine ⟨h2.nodup, by simp, ?_⟩
      intro x hx y hy
      simp only [List.mem_singleton] at hy
      subst hy
      exact fun hxy => c (hxy ▸ hx)
    have hm' : ∀ j ∈ is ++ [i], j ∈ live ext (maxId + 1) := by
      intro j hj
      rcases List.mem_append.1 hj with hj | hj
      · exact hm j hj
      · simp only [List.mem_singleton] at hj
        subst hj
        exact mem_live.2 ⟨a, b⟩
    obtain ⟨p, q⟩ := named_le zero ext (maxId + 1) (is ++ [i]) hnd hm'
    have hl2 := named_length zero ext (is ++ [i]) fun j hj => (mem_live.1 (hm' j hj)).2
    exact ⟨by rw [hl2]; omega, by omega⟩
  · rw [hlen] at h; omega
  · omega

/-- Whatever the buffers: if fewer members are written than asked for, counted and existing, then the buffers
were full: one more name did not fit, or nothing at all. -/
theorem C108_random_members_full (zero : D) (ext : Nat → Option (List UInt8)) (maxId total count : Nat)
    (ids : List UInt8) (dists : List D) (samples : Nat → Nat → List Nat) (hs : SampleOk (maxId + 1) samples) :
    ∃ st is, randomMembers zero ext maxId total samples count (Buf.new ids dists) = some st ∧
      Filled st.out ids dists (named zero ext is) ∧
      (is.length < min (min count total) (live ext (maxId + 1)).length →
        ∃ i ∈ live ext (maxId + 1), i ∉ is ∧ ¬ Fits dists.length ids.length (named zero ext (is ++ [i]))) := by
  obtain ⟨st, is, h1, h2⟩ := random_spec zero ext maxId total count ids dists samples hs
  refine ⟨st, is, h1, h2.filled, ?_⟩
  intro hlt
  have hlen := named_length zero ext is fun j hj => (h2.live j hj).2
  have hex : ∃ i ∈ live ext (maxId + 1), i ∉ is := by
    by_contra hcon
    push Not at hcon
    have : (live ext (maxId + 1)).Subperm is :=
      List.subperm_of_subset (List.Nodup.filter _ List.nodup_range) hcon
    have := this.length_le
    omega
  have hfull : ∀ i ∈ live ext (maxId + 1), ((named zero ext is).length = dists.length ∨
      size (named zero ext is) = ids.length) → ¬ Fits dists.length ids.length (named zero ext (is ++ [i])) := by
    intro i hi hor hf
    obtain ⟨id, hid⟩ := Option.isSome_iff_exists.1 (mem_live.1 hi).2
    have hna : named zero ext (is ++ [i]) = named zero ext is ++ [(id, zero)] := by
      rw [named_append]; simp [named, hid]
    obtain ⟨f1, f2⟩ := hf
    rw [hna] at f1 f2
    rw [size_append] at f2
    simp only [size, List.length_append, List.length_singleton] at f1 f2
    omega
  obtain ⟨j, hj1, hj2⟩ := hex
  rcases h2.why with h | h | ⟨i, a, b, c, hno⟩ | h | h
  · omega
  · exact absurd (h j (mem_live.1 hj1).1 (mem_live.1 hj1).2) hj2
  · exact ⟨i, mem_live.2 ⟨a, b⟩, c, hno⟩
  · exact ⟨j, hj1, hj2, hfull j hj1 (.inl h)⟩
  · exact ⟨j, hj1, hj2, hfull j hj1 (.inr h)⟩

/-- Ids 1, 3 and 6 of seven have names. -/
def exampleNames : Nat → Option (List UInt8) := fun i => if i ∈ [1, 3, 6] then some [UInt8.ofNat i] else none

example : ((randomMembers (0 : Nat) exampleNames 6 3 (fun _ n => List.range n) 2
    (Buf.new (List.replicate 30 0) (List.replicate 6 0))).map fun st => (st.out.index, st.chosen)) =
    some (2, [3, 2, 1, 0]) := by decide

example : SampleOk 7 (fun _ n => List.range n) := fun k n hn =>
  ⟨List.length_range, List.nodup_range, fun i hi => by have := List.mem_range.1 hi; omega⟩

example : (live exampleNames 7).length < 6 ∧ size (named (0 : Nat) exampleNames (live exampleNames 7)) < 30 := by
  decide

/-- Refutation for the caller: the call answers true whether it wrote two members or none, and does not say how
many; the buffer for no member and the one for a member with an empty name are the same. -/
theorem C108_random_members_silent :
    ∃ (ids : List UInt8) (dists : List Nat) (ext : Nat → Option (List UInt8)) (st st' : Draw Nat),
      randomMembers 0 ext 1 1 (fun _ n => List.range n) 1 (Buf.new ids dists) = some st ∧
      randomMembers 0 (fun _ => none) 1 1 (fun _ n => List.range n) 1 (Buf.new ids dists) = some st' ∧
      st.out.index = 1 ∧ st'.out.index = 0 ∧ st.out.ids = st'.out.ids := by
  refine ⟨List.replicate 8 0, [0], fun i => if i = 1 then some [] else none, _, _, rfl, rfl, ?_, ?_, ?_⟩ <;> decide

/-! ### Neighbours -/

/-- If every neighbour other than the start point has a vector and a name, the neighbours of an element are
reported in the order of its list, with their names and distances, the start point left out. -/
theorem C108_neighbors_partial (vec : Nat → Option V) (ext : Nat → Option (List UInt8)) (dist : V → D) (is : List Nat)
    (h : ∀ i ∈ is, i ≠ 0 → (vec i).isSome ∧ (ext i).isSome) :
    neighborsOf vec ext dist is = some ((is.filter (· ≠ 0)).filterMap fun i =>
      match vec i, ext i with
      | some v, some id => some (id, dist v)
      | _, _ => none) := by
  induction is with
  | nil => rfl
  | cons i is ih =>
    have ih' := ih fun j hj => h j (by simp [hj])
    unfold neighborsOf
    by_cases hi : i = 0
    · rw [if_pos hi, ih']
      simp [hi]
    · obtain ⟨h1, h2⟩ := h i (by simp) hi
      obtain ⟨v, hv⟩ := Option.isSome_iff_exists.1 h1
      obtain ⟨id, hid⟩ := Option.isSome_iff_exists.1 h2
      rw [if_neg hi, hv, hid]
      simp [ih', hi, hv, hid]

/-- Refutation for dangling edges: a single neighbour that was removed makes the whole call fail. -/
theorem C108_dangling (vec : Nat → Option V) (ext : Nat → Option (List UInt8)) (dist : V → D) (is : List Nat) (i : Nat)
    (hi : i ∈ is) (h0 : i ≠ 0) (hgone : vec i = none ∨ ext i = none) : neighborsOf vec ext dist is = none := by
  induction is with
  | nil => simp at hi
  | cons j is ih =>
    unfold neighborsOf
    rcases List.mem_cons.1 hi with rfl | hm
    · rw [if_neg h0]
      rcases hgone with h | h
      · rw [h]
      · cases vec i with
        | none => rfl
        | some v => simp [h]
    · have := ih hm
      split
      · exact this
      · cases vec j with
        | none => rfl
        | some v =>
          cases ext j with
          | none => rfl
          | some id => simp [this]

example : neighborsOf (fun i => if i = 9 then none else some i) (fun i => some [UInt8.ofNat i]) (fun v => v) [3, 0, 5] =
    some [([3], 3), ([5], 5)] := by decide

example : neighborsOf (fun i => if i = 9 then none else some i) (fun i => some [UInt8.ofNat i]) (fun v => v) [3, 9] =
    none := by decide

end Verif.Garnet.Report
