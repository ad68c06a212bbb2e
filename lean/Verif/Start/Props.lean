import Verif.Start.Lemmas

/-!
# C100: start points

A strategy returns the number of points it announces, of the dimension of the data, or an error when the data is too
small. The medoid is the first vector closest to the mean, in a matrix and in a file alike; random samples are vectors
of the data set at distinct positions; a latin hypercube takes one value of each slice of the data in every coordinate;
random vectors have the requested norm, or less for integers.

Refuted: the medoid of data with a value that is not finite is the zero vector, and so is the medoid of no data; a
latin hypercube of more points than data panics; sampling for the medoid of a file can take more vectors than its
maximum, or none and fail; a file that lost its end gives the vector closest to another point than the mean; random
integer vectors with a small norm are zero.
-/

namespace Verif.Start

open Verif.Disk (Row Byte VIter Sampler readMetadata VectorFile saveToBin)

/-! ### The medoid of a matrix -/

theorem map_val {T : Type} (val : T → F) (fin : T → Rat) (rows : List (List T))
    (h : ∀ r ∈ rows, ∀ x ∈ r, val x = some (fin x)) :
    rows.map (·.map val) = (rows.map (·.map fin)).map (·.map some) := by
  rw [List.map_map]
  apply List.map_congr_left
  intro r hr
  simp only [Function.comp, List.map_map]
  exact List.map_congr_left fun x hx => h r hr x hx

/-- C100. On data whose values are finite, with a vector at a distance from the mean below the largest float, the
medoid is a vector of the data: the first of those closest to the mean. `fin` gives the values, `big` is the largest
float. -/
theorem C100_medoid_partial {T : Type} (val : T → F) (fin : T → Rat) (big : Rat) (dflt : T) (data : Mat T) (m : List Rat)
    (hc : 0 < data.cols) (hr : ∀ r ∈ data.rows, r.length = data.cols)
    (hfin : ∀ r ∈ data.rows, ∀ x ∈ r, val x = some (fin x))
    (hm : IsMean (data.rows.map (·.map fin)) data.cols m)
    (hb : ∃ r ∈ data.rows, dist2 m (r.map fin) < big) :
    ∃ i, data.rows[i]? = some (computeMedoid val big dflt data) ∧ FirstNearest (data.rows.map (·.map fin)) m i := by
  have hv : ∀ v ∈ data.rows.map (·.map fin), v.length = data.cols := by
    intro v hv
    obtain ⟨r, hr', rfl⟩ := List.mem_map.1 hv
    simpa using hr r hr'
  have em : m = meanOf data.cols (data.rows.map (·.map fin)) := isMean_unique hm (meanOf_isMean _ _ hv)
  have e1 : divAll data.rows.length (colSums data.cols (data.rows.map (·.map val))) = m.map some := by
    rw [map_val val fin data.rows hfin, em, ← mean_some, List.length_map]
  have ed : ∀ r ∈ data.rows, sqL2 (m.map some) (r.map val) = some (dist2 m (r.map fin)) := by
    intro r hr'
    have : r.map val = (r.map fin).map some := by
      rw [List.map_map]; exact List.map_congr_left fun x hx => hfin r hr' x hx
    rw [this, sqL2_some]
  unfold computeMedoid
  rw [if_neg (by omega), e1]
  dsimp only
  rcases closest_spec val (m.map some) big none data.rows with ⟨-, h2⟩ | ⟨i, r, d, h1, h2, h3, h4, h5⟩
  · obtain ⟨r, hr', hlt⟩ := hb
    exact absurd (h2 r hr' _ (ed r hr')) (not_le.2 hlt)
  · refine ⟨i, by rw [h4]; exact h1, r.map fin, by simp [h1], fun j w hw => ?_⟩
    rw [List.getElem?_map] at hw
    cases hj : data.rows[j]? with
    | none => rw [hj] at hw; cases hw
    | some r' =>
      rw [hj] at hw
      have hw' := Option.some.inj hw
      subst hw'
      have hd : d = dist2 m (r.map fin) := by
        rw [ed r (List.mem_of_getElem? h1)] at h2; exact (Option.some.inj h2).symm
      rw [← hd]
      exact h5 j r' _ hj (ed r' (List.mem_of_getElem? hj))

/-- C100, disagreement: if one value of the data is not finite, the medoid is the zero vector, whatever the other
vectors are. -/
theorem C100_medoid_not_finite {T : Type} (val : T → F) (big : Rat) (dflt : T) (data : Mat T)
    (hc : 0 < data.cols) (hr : ∀ r ∈ data.rows, r.length = data.cols) (hx : ∃ r ∈ data.rows, ∃ x ∈ r, val x = none) :
    computeMedoid val big dflt data = List.replicate data.cols dflt := by
  obtain ⟨r0, hr0, x, hx, hn⟩ := hx
  obtain ⟨j, hj⟩ := List.mem_iff_getElem?.1 hx
  have hjd : j < data.cols := by
    rw [← hr r0 hr0]; exact (List.getElem?_eq_some_iff.1 hj).1
  have hs : (colSums data.cols (data.rows.map (·.map val)))[j]? = some none := by
    refine foldl_sum_none _ _ data.cols j ?_ (by simp) hjd (Or.inr ⟨r0.map val, List.mem_map_of_mem hr0, ?_⟩)
    · intro r hr'
      obtain ⟨w, hw, rfl⟩ := List.mem_map.1 hr'
      simpa using hr w hw
    · rw [List.getElem?_map, hj, Option.map_some, hn]
  have hm : (divAll data.rows.length (colSums data.cols (data.rows.map (·.map val))))[j]? = some none := by
    unfold divAll; rw [List.getElem?_map, hs]; rfl
  unfold computeMedoid
  rw [if_neg (by omega)]
  dsimp only
  rcases closest_spec val (divAll data.rows.length (colSums data.cols (data.rows.map (·.map val)))) big none data.rows
    with ⟨h1, -⟩ | ⟨i, r, d, h1, h2, -⟩
  · rw [h1]; rfl
  · have := sqL2_none _ (r.map val) j hm (by simp [hr r (List.mem_of_getElem? h1), hjd])
    rw [this] at h2; cases h2

/-- C100, disagreement: the strategy returns a zero vector for the medoid of no data, where the other strategies that
choose from the data report an error. -/
theorem C100_medoid_empty {T : Type} (e : Elem T) (r : Draws) (d : Nat) (n : Nat) (hn : 0 < n) :
    Strategy.medoid.compute e r ⟨[], d⟩ = .ok [List.replicate d e.dflt] ∧
    Strategy.first.compute e r ⟨[], d⟩ = .err ∧ (Strategy.randomSamples n).compute e r ⟨[], d⟩ = .err := by
  refine ⟨?_, rfl, by simp [Strategy.compute, hn]⟩
  unfold Strategy.compute computeMedoid
  cases d with
  | zero => rfl
  | succ d => simp [closest]

/-! ### Strategies -/

/-- What `rand::seq::index::sample` promises: `n` distinct indices below `len`. -/
def GoodSample (r : Draws) : Prop :=
  ∀ len n, n ≤ len → (r.sample len n).length = n ∧ (r.sample len n).Nodup ∧ ∀ i ∈ r.sample len n, i < len

theorem latin_ok {T : Type} (dflt : T) (data : Mat T) (n : Nat) (raw1 raw2 : Nat → Nat → Nat) (hc : 0 < data.cols)
    (hr : ∀ r ∈ data.rows, r.length = data.cols) (hn : n ≤ data.rows.length) (h0 : 0 < data.rows.length) :
    ∃ m, latin dflt data n raw1 raw2 = .ok m ∧ Shape m n data.cols ∧ OnePerSlice data.rows m n data.cols := by
  obtain ⟨m, h1, h2, h3⟩ := latinFill_some data.rows n data.cols raw1 hr hn
  have hp : OnePerSlice data.rows m n data.cols := fun j hj =>
    ⟨id, fun s hs => hs, fun s _ t _ e => e, fun s hs => h3 s hs j hj⟩
  have hcells : ∀ p ∈ cells n data.cols, p.1 < n ∧ p.2 < data.cols := by
    intro p hp
    unfold cells at hp
    obtain ⟨s, hs, hp⟩ := List.mem_flatMap.1 hp
    obtain ⟨j, hj, rfl⟩ := List.mem_map.1 hp
    exact ⟨List.mem_range.1 hs, List.mem_range.1 hj⟩
  have := shuffle_spec data.rows n data.cols raw2 (cells n data.cols) hcells m h2 hp
  refine ⟨_, ?_, this⟩
  unfold latin
  rw [if_neg (by omega), h1]

theorem withNorm_length (k : Kind) (sqrt : Rat → Rat) (norm : Rat) (xs : List Rat) :
    (withNorm k sqrt norm xs).length = xs.length := by
  cases k <;> simp [withNorm, scaled]

theorem latin_fill_none {T : Type} (rows : List (List T)) (n d : Nat) (raw : Nat → Nat → Nat) (hd : 0 < d)
    (h : rows.length < n) : latinFill rows n d raw = none := by
  cases he : latinFill rows n d raw with
  | none => rfl
  | some m =>
    exfalso
    have h1 := (mapM_some_iff _ _ _).1 he
    have h2 := congrArg (fun l => l[0]?) h1
    simp only [List.getElem?_map, List.getElem?_range (show 0 < n by omega), Option.map_some] at h2
    cases hm : m[0]? with
    | none => rw [hm] at h2; cases h2
    | some r =>
      rw [hm] at h2
      have h3 := (mapM_some_iff _ _ _).1 (Option.some.inj h2)
      have h4 := congrArg (fun l => l[0]?) h3
      simp only [List.getElem?_map, List.getElem?_range hd, Option.map_some, latinCell,
        Nat.div_eq_of_lt h, Nat.mul_zero, drawRange, lt_irrefl, if_false, Option.bind_none] at h4
      cases hr : r[0]? with
      | none => rw [hr] at h4; cases h4
      | some x => rw [hr] at h4; cases h4

/-- C100. What a strategy returns is as many points as it announces, each of the dimension of the data. -/
theorem C100_count {T : Type} (e : Elem T) (r : Draws) (hs : GoodSample r) (data : Mat T)
    (hr : ∀ row ∈ data.rows, row.length = data.cols) (st : Strategy) (pts : List (List T))
    (h : st.compute e r data = .ok pts) : pts.length = st.count ∧ ∀ p ∈ pts, p.length = data.cols := by
  cases st with
  | randomVectors norm n =>
    simp only [Strategy.compute] at h
    split at h
    · cases h
    · cases h
      refine ⟨by simp [Strategy.count], fun p hp => ?_⟩
      obtain ⟨i, -, rfl⟩ := List.mem_map.1 hp
      simp [withNorm_length]
  | randomSamples n =>
    simp only [Strategy.compute] at h
    split at h
    · cases h
    · rename_i hlt
      split at h
      · cases h
      · split at h
        · cases h
        · rename_i rows hrows
          cases h
          have h1 := (mapM_some_iff _ _ _).1 hrows
          have h2 := congrArg List.length h1
          simp only [List.length_map, (hs data.rows.length n (by omega)).1] at h2
          refine ⟨h2.symm, fun p hp => ?_⟩
          have : some p ∈ pts.map some := List.mem_map_of_mem hp
          rw [← h1] at this
          obtain ⟨i, -, hi⟩ := List.mem_map.1 this
          exact hr p (List.mem_of_getElem? hi)
  | medoid =>
    cases h
    refine ⟨rfl, fun p hp => ?_⟩
    rw [List.mem_singleton.1 hp]
    unfold computeMedoid
    split
    · rename_i h0; rw [h0]; rfl
    · dsimp only
      rcases closest_spec e.val (divAll data.rows.length (colSums data.cols (data.rows.map (·.map e.val)))) e.big none
        data.rows with ⟨h1, -⟩ | ⟨i, w, d, h1, -, -, h4, -⟩
      · rw [h1]; simp
      · rw [h4]; exact hr w (List.mem_of_getElem? h1)
  | latin n =>
    simp only [Strategy.compute] at h
    by_cases h0 : data.cols = 0 ∨ data.rows.length = 0
    · unfold latin at h
      rw [if_pos h0] at h
      cases h
      refine ⟨by simp [Strategy.count], fun p hp => ?_⟩
      rw [List.eq_of_mem_replicate hp]; simp
    · by_cases hn : n ≤ data.rows.length
      · obtain ⟨m, h1, h2, -⟩ := latin_ok e.dflt data n r.raw1 r.raw2 (by omega) hr hn (by omega)
        rw [h1] at h
        cases h
        exact ⟨h2.1, h2.2⟩
      · unfold latin at h
        rw [if_neg h0, latin_fill_none _ _ _ _ (by omega) (by omega)] at h
        cases h
  | first =>
    simp only [Strategy.compute] at h
    split at h
    · rename_i row hrow
      cases h
      refine ⟨rfl, fun p hp => ?_⟩
      rw [List.mem_singleton.1 hp]
      exact hr row (List.mem_of_getElem? hrow)
    · cases h

/-- C100. When a strategy reports an error, and when it panics. Too little data is an error for two strategies only:
the latin hypercube panics, and so do the random strategies on data without columns. -/
theorem C100_errors {T : Type} (e : Elem T) (r : Draws) (hs : GoodSample r) (data : Mat T)
    (hr : ∀ row ∈ data.rows, row.length = data.cols) (st : Strategy) :
    (st.compute e r data = .err ↔
      (∃ n, st = .randomSamples n ∧ data.rows.length < n) ∨ (st = .first ∧ data.rows = [])) ∧
    (st.compute e r data = .panic ↔
      (∃ n, st = .latin n ∧ 0 < data.cols ∧ 0 < data.rows.length ∧ data.rows.length < n) ∨
      (∃ n, st = .randomSamples n ∧ n ≤ data.rows.length ∧ data.cols = 0) ∨
      (∃ norm n, st = .randomVectors norm n ∧ data.cols = 0)) := by
  cases st with
  | randomVectors norm n =>
    simp only [Strategy.compute]
    split <;> rename_i h <;> simp [h]
  | randomSamples n =>
    simp only [Strategy.compute]
    split
    · rename_i h
      simp [h]
    · rename_i h
      split
      · rename_i h0
        simp only [reduceCtorEq, false_iff, true_iff, false_and, exists_false, or_false, Strategy.randomSamples.injEq,
          and_true, exists_eq_left', false_or]
        exact ⟨by simpa using h, by simpa [h0] using h⟩
      · rename_i h0
        have hsm := hs data.rows.length n (by omega)
        have : ∃ rows, (r.sample data.rows.length n).mapM (fun i => data.rows[i]?) = some rows := by
          refine ⟨(r.sample data.rows.length n).filterMap fun i => data.rows[i]?, (mapM_some_iff _ _ _).2 ?_⟩
          have := hsm.2.2
          generalize r.sample data.rows.length n = l at this
          induction l with
          | nil => rfl
          | cons i l ih =>
            have hi := this i List.mem_cons_self
            rw [List.filterMap_cons, List.map_cons, List.getElem?_eq_getElem hi]
            dsimp only
            rw [List.map_cons, ih fun k hk => this k (List.mem_cons_of_mem _ hk)]
        obtain ⟨rows, he⟩ := this
        rw [he]
        simp only [reduceCtorEq, false_iff, false_and, exists_false, or_false, Strategy.randomSamples.injEq,
          exists_eq_left', false_or, true_iff]
        exact ⟨by simpa using h, by simp [h0]⟩
  | medoid => simp [Strategy.compute]
  | latin n =>
    simp only [Strategy.compute]
    by_cases h0 : data.cols = 0 ∨ data.rows.length = 0
    · unfold latin
      rw [if_pos h0]
      simp only [reduceCtorEq, false_iff, false_and, exists_false, or_false, Strategy.latin.injEq, exists_eq_left',
        not_and, not_lt]
      exact ⟨trivial, by omega⟩
    · by_cases hn : n ≤ data.rows.length
      · obtain ⟨m, h1, -⟩ := latin_ok e.dflt data n r.raw1 r.raw2 (by omega) hr hn (by omega)
        rw [h1]
        simp only [reduceCtorEq, false_iff, false_and, exists_false, or_false, Strategy.latin.injEq, exists_eq_left',
          not_and, not_lt]
        exact ⟨trivial, by omega⟩
      · unfold latin
        rw [if_neg h0, latin_fill_none _ _ _ _ (by omega) (by omega)]
        simp only [reduceCtorEq, false_and, exists_false, or_false, Strategy.latin.injEq, exists_eq_left', true_iff]
        exact ⟨trivial, by omega⟩
  | first =>
    simp only [Strategy.compute]
    cases hd : data.rows with
    | nil => simp
    | cons row rows => simp

/-- C100. Random samples are vectors of the data at distinct positions; the first vector is the first vector. -/
theorem C100_samples {T : Type} (e : Elem T) (r : Draws) (hs : GoodSample r) (data : Mat T) (n : Nat)
    (pts : List (List T)) :
    ((Strategy.randomSamples n).compute e r data = .ok pts →
      ∃ idx : List Nat, idx.Nodup ∧ idx.length = n ∧ pts.map some = idx.map fun i => data.rows[i]?) ∧
    (Strategy.first.compute e r data = .ok pts → ∃ row rest, data.rows = row :: rest ∧ pts = [row]) := by
  constructor
  · intro h
    simp only [Strategy.compute] at h
    split at h
    · cases h
    · rename_i hlt
      split at h
      · cases h
      · split at h
        · cases h
        · rename_i rows hrows
          cases h
          have hsm := hs data.rows.length n (by omega)
          exact ⟨_, hsm.2.1, hsm.1, ((mapM_some_iff _ _ _).1 hrows).symm⟩
  · intro h
    simp only [Strategy.compute] at h
    cases hd : data.rows with
    | nil => rw [hd] at h; simp at h
    | cons row rest =>
      rw [hd] at h
      simp only [List.getElem?_cons_zero] at h
      cases h
      exact ⟨row, rest, rfl, rfl⟩

/-- C100. A latin hypercube of at most as many points as there are vectors: the data is cut into equal slices, one per
point, and in every coordinate the points take their values from distinct slices. This holds for all draws. -/
theorem C100_latin {T : Type} (e : Elem T) (r : Draws) (data : Mat T) (n : Nat) (hc : 0 < data.cols)
    (hr : ∀ row ∈ data.rows, row.length = data.cols) (hn : n ≤ data.rows.length) (h0 : 0 < data.rows.length) :
    ∃ pts, (Strategy.latin n).compute e r data = .ok pts ∧ OnePerSlice data.rows pts n data.cols := by
  obtain ⟨m, h1, -, h3⟩ := latin_ok e.dflt data n r.raw1 r.raw2 hc hr hn h0
  exact ⟨m, h1, h3⟩

/-- C100, disagreement: a latin hypercube of more points than vectors panics, for all draws. -/
theorem C100_latin_panics {T : Type} (e : Elem T) (r : Draws) (data : Mat T) (n : Nat) (hc : 0 < data.cols)
    (h0 : 0 < data.rows.length) (hn : data.rows.length < n) : (Strategy.latin n).compute e r data = .panic := by
  simp only [Strategy.compute, latin]
  rw [if_neg (by omega), latin_fill_none _ _ _ _ hc hn]

/-! ### Random vectors -/

theorem scaled_some (sqrt : Rat → Rat) (norm : Rat) (b : Bool) (xs : List Rat)
    (h : sqrt ((xs.map fun x => x * x).sum) ≠ 0) :
    scaled sqrt norm b xs = (xs.map fun x =>
      if b then x * (norm / sqrt ((xs.map fun x => x * x).sum))
      else |x * (norm / sqrt ((xs.map fun x => x * x).sum))|).map some := by
  unfold scaled
  dsimp only
  rw [List.map_map]
  apply List.map_congr_left
  intro x _
  rw [if_neg h]
  cases b <;> rfl

theorem sum_sq_scale (xs : List Rat) (c : Rat) :
    ((xs.map fun x => x * c).map fun y => y * y).sum = c * c * (xs.map fun x => x * x).sum := by
  induction xs with
  | nil => simp
  | cons x xs ih => simp only [List.map_cons, List.sum_cons, ih]; ring

theorem truncTo_abs (lo hi : Int) (hlo : lo ≤ 0) (hhi : 0 ≤ hi) (x : Rat) : |((truncTo lo hi (some x) : Int) : Rat)| ≤ |x| := by
  unfold truncTo
  dsimp only
  by_cases hx : 0 ≤ x
  · rw [if_pos hx]
    have h1 : (0 : Int) ≤ ⌊x⌋ := Int.floor_nonneg.2 hx
    have h2 : max lo (min hi ⌊x⌋) = min hi ⌊x⌋ := max_eq_right (le_trans hlo (le_min hhi h1))
    rw [h2, abs_of_nonneg (by exact_mod_cast le_min hhi h1), abs_of_nonneg hx]
    calc ((min hi ⌊x⌋ : Int) : Rat) ≤ (⌊x⌋ : Rat) := by exact_mod_cast min_le_right _ _
      _ ≤ x := Int.floor_le x
  · rw [if_neg hx]
    have hx' : x < 0 := not_le.1 hx
    have h1 : (0 : Int) ≤ ⌊-x⌋ := Int.floor_nonneg.2 (by linarith)
    have h2 : min hi (-⌊-x⌋) = -⌊-x⌋ := min_eq_right (by omega)
    rw [h2]
    have h3 : max lo (-⌊-x⌋) ≤ 0 := max_le hlo (by omega)
    rw [abs_of_nonpos (by exact_mod_cast h3), abs_of_neg hx']
    have h4 : -(max lo (-⌊-x⌋)) ≤ ⌊-x⌋ := by have := le_max_right lo (-⌊-x⌋); omega
    calc -((max lo (-⌊-x⌋) : Int) : Rat) ≤ (⌊-x⌋ : Rat) := by exact_mod_cast h4
      _ ≤ -x := Int.floor_le _

theorem truncTo_near (lo hi : Int) (x : Rat) (hlo : (lo : Rat) ≤ x) (hhi : x ≤ hi) (hz : lo ≤ 0) (hh : 0 ≤ hi) :
    |x - (truncTo lo hi (some x) : Int)| < 1 := by
  unfold truncTo
  dsimp only
  by_cases hx : 0 ≤ x
  · rw [if_pos hx]
    have h1 : (0 : Int) ≤ ⌊x⌋ := Int.floor_nonneg.2 hx
    have h2 : ⌊x⌋ ≤ hi := by
      have : (⌊x⌋ : Rat) ≤ hi := le_trans (Int.floor_le x) hhi
      exact_mod_cast this
    rw [min_eq_right h2, max_eq_right (le_trans hz h1), abs_of_nonneg (by linarith [Int.floor_le x])]
    linarith [Int.lt_floor_add_one x]
  · rw [if_neg hx]
    have h1 : (0 : Int) ≤ ⌊-x⌋ := Int.floor_nonneg.2 (by linarith)
    have h2 : ⌊-x⌋ ≤ -lo := by
      have : (⌊-x⌋ : Rat) ≤ ((-lo : Int) : Rat) := by
        push_cast; linarith [Int.floor_le (-x)]
      exact_mod_cast this
    rw [min_eq_right (by omega), max_eq_right (by omega)]
    push_cast
    have := Int.floor_le (-x)
    have := Int.lt_floor_add_one (-x)
    rw [abs_of_nonpos (by linarith)]
    linarith

/-- C100. A random vector. With a square root `s` of the sum of squares of the draws that is not zero, the float vector
has exactly the requested norm. The integers are the values of that vector without sign (`u8`) or with sign (`i8`), cut
towards zero: each is no larger in absolute value, and within one of it when it is in the range of the type. -/
theorem C100_random_vector (sqrt : Rat → Rat) (norm : Rat) (xs : List Rat)
    (hs : sqrt ((xs.map fun x => x * x).sum) * sqrt ((xs.map fun x => x * x).sum) = (xs.map fun x => x * x).sum)
    (h0 : ∃ x ∈ xs, x ≠ 0) :
    ∃ ys : List Rat, ys.length = xs.length ∧ (ys.map fun y => y * y).sum = norm * norm ∧
      withNorm .float sqrt norm xs = ys.map some ∧
      (∃ us : List Int, withNorm .u8 sqrt norm xs = us.map (fun u : Int => some (u : Rat)) ∧
        List.Forall₂ (fun (y : Rat) (u : Int) => 0 ≤ u ∧ u ≤ 255 ∧ (u : Rat) ≤ |y| ∧ (|y| ≤ 255 → |y| - u < 1)) ys us) ∧
      (∃ us : List Int, withNorm .i8 sqrt norm xs = us.map (fun u : Int => some (u : Rat)) ∧
        List.Forall₂ (fun (y : Rat) (u : Int) => -128 ≤ u ∧ u ≤ 127 ∧ |(u : Rat)| ≤ |y| ∧
          (-128 ≤ y → y ≤ 127 → |y - u| < 1)) ys us) := by
  have hpos : 0 < (xs.map fun x => x * x).sum := by
    obtain ⟨x, hx, hne⟩ := h0
    have h1 : x * x ≤ (xs.map fun x => x * x).sum :=
      List.single_le_sum (l := xs.map fun y => y * y) (by
        intro z hz
        obtain ⟨w, -, rfl⟩ := List.mem_map.1 hz
        exact mul_self_nonneg w) _ (List.mem_map_of_mem hx)
    have h2 : 0 < x * x := mul_self_pos.2 hne
    linarith
  have hne : sqrt ((xs.map fun x => x * x).sum) ≠ 0 := by
    intro h; rw [h] at hs; simp only [mul_zero] at hs; linarith
  obtain ⟨c, hc⟩ : ∃ c, c = norm / sqrt ((xs.map fun x => x * x).sum) := ⟨_, rfl⟩
  have h1 : withNorm .float sqrt norm xs = (xs.map fun x => x * c).map some := by
    show scaled sqrt norm true xs = _
    rw [scaled_some sqrt norm true xs hne, ← hc]; rfl
  have h2 : scaled sqrt norm false xs = (xs.map fun x => |x * c|).map some := by
    rw [scaled_some sqrt norm false xs hne, ← hc]; rfl
  have h3 : scaled sqrt norm true xs = (xs.map fun x => x * c).map some := h1
  refine ⟨xs.map fun x => x * c, by simp, ?_, h1,
    ⟨xs.map fun x => truncTo 0 255 (some |x * c|), ?_, ?_⟩, ⟨xs.map fun x => truncTo (-128) 127 (some (x * c)), ?_, ?_⟩⟩
  · rw [sum_sq_scale, hc, div_mul_div_comm, hs, div_mul_cancel₀ _ (ne_of_gt hpos)]
  · show (scaled sqrt norm false xs).map _ = _
    rw [h2, List.map_map, List.map_map, List.map_map]; rfl
  · rw [List.forall₂_map_left_iff, List.forall₂_map_right_iff, List.forall₂_same]
    intro x _
    have ha := truncTo_abs 0 255 (le_refl _) (by decide) |x * c|
    have hb : 0 ≤ truncTo 0 255 (some |x * c|) := le_max_left _ _
    rw [abs_abs, abs_of_nonneg (by exact_mod_cast hb)] at ha
    refine ⟨hb, max_le (by decide) (min_le_left _ _), ha, fun h => ?_⟩
    have hn := truncTo_near 0 255 |x * c| (by push_cast; exact abs_nonneg _) (by exact_mod_cast h) (le_refl _) (by decide)
    exact lt_of_le_of_lt (le_abs_self _) hn
  · show (scaled sqrt norm true xs).map _ = _
    rw [h3, List.map_map, List.map_map, List.map_map]; rfl
  · rw [List.forall₂_map_left_iff, List.forall₂_map_right_iff, List.forall₂_same]
    intro x _
    refine ⟨le_max_left _ _, max_le (by decide) (min_le_left _ _), truncTo_abs _ _ (by decide) (by decide) _,
      fun ha hb => ?_⟩
    exact truncTo_near (-128) 127 (x * c) (by exact_mod_cast ha) (by exact_mod_cast hb) (by decide) (by decide)

/-- C100, disagreement: a random integer vector with a norm below one is the zero vector; so can be one of norm one. -/
theorem C100_random_zero (sqrt : Rat → Rat) (norm : Rat) (xs : List Rat)
    (hs : sqrt ((xs.map fun x => x * x).sum) * sqrt ((xs.map fun x => x * x).sum) = (xs.map fun x => x * x).sum)
    (h0 : ∃ x ∈ xs, x ≠ 0) (hn : |norm| < 1) :
    withNorm .u8 sqrt norm xs = xs.map (fun _ => some 0) ∧ withNorm .i8 sqrt norm xs = xs.map (fun _ => some 0) := by
  obtain ⟨ys, hl, hy, -, ⟨us, hu, hf⟩, ⟨vs, hv, hg⟩⟩ := C100_random_vector sqrt norm xs hs h0
  have hsmall : ∀ y ∈ ys, |y| < 1 := by
    intro y hyy
    have h1 : y * y ≤ (ys.map fun y => y * y).sum :=
      List.single_le_sum (l := ys.map fun y => y * y) (by
        intro z hz
        obtain ⟨w, -, rfl⟩ := List.mem_map.1 hz
        exact mul_self_nonneg w) _ (List.mem_map_of_mem hyy)
    rw [hy, ← abs_mul_abs_self y, ← abs_mul_abs_self norm] at h1
    by_contra h
    have h2 := not_lt.1 h
    nlinarith [abs_nonneg norm, abs_nonneg y]
  constructor
  · rw [hu]
    have : us = xs.map fun _ => 0 := by
      apply List.ext_getElem (by rw [← hf.length_eq, hl, List.length_map])
      intro i h1 h2
      have hi : i < ys.length := by rw [hf.length_eq]; exact h1
      have hq := List.forall₂_iff_get.1 hf |>.2 i hi h1
      simp only [List.get_eq_getElem] at hq
      have hz := hsmall ys[i] (List.getElem_mem hi)
      have : ((us[i] : Int) : Rat) < 1 := lt_of_le_of_lt hq.2.2.1 hz
      have : us[i] < 1 := by exact_mod_cast this
      simp only [List.getElem_map]
      omega
    rw [this]; simp
  · rw [hv]
    have : vs = xs.map fun _ => 0 := by
      apply List.ext_getElem (by rw [← hg.length_eq, hl, List.length_map])
      intro i h1 h2
      have hi : i < ys.length := by rw [hg.length_eq]; exact h1
      have hq := List.forall₂_iff_get.1 hg |>.2 i hi h1
      simp only [List.get_eq_getElem] at hq
      have hz := hsmall ys[i] (List.getElem_mem hi)
      have h3 : |((vs[i] : Int) : Rat)| < 1 := lt_of_le_of_lt hq.2.2.1 hz
      have h4 : |vs[i]| < 1 := by exact_mod_cast h3
      simp only [List.getElem_map]
      exact Int.abs_lt_one_iff.1 h4
    rw [this]; simp

/-! ### The medoid of a file -/

/-- The stored vectors have the values `v`, finite and all of dimension `d`. -/
structure Reads (R : Repr) (v : Row → List Rat) (d : Nat) (rows : List Row) : Prop where
  val : ∀ r ∈ rows, R.asF32 r = some ((v r).map some)
  len : ∀ r ∈ rows, (v r).length = d
  dim : ∀ r ∈ rows, R.fullDim r = some d

theorem second_pass {R : Repr} {v : Row → List Rat} {d sz D : Nat} {rows : List Row} {file : List Byte} (big : Rat)
    (h : VectorFile sz D rows file) (hpos : 0 < D * sz) (hv : Reads R v d rows) (m : List Rat) (hm : m.length = d) :
    ((∃ r ∈ rows, dist2 m (v r) < big) → ∃ i r, rows[i]? = some r ∧ secondPass R big sz file (m.map some) = .ok (r, i) ∧
      FirstNearest (rows.map v) m i) ∧
    ((∀ r ∈ rows, big ≤ dist2 m (v r)) → secondPass R big sz file (m.map some) = .err) := by
  obtain ⟨it, h1, -, h3⟩ := all_rows h hpos
  obtain ⟨res, hres, hspec⟩ := nearest_closest R (m.map some) 0 big none rows (fun r => (v r).map some) hv.val
    (fun r hr => by simp [hv.len r hr, hm])
  have ed : ∀ r, sqL2 (m.map some) ((v r).map some) = some (dist2 m (v r)) := fun r => sqL2_some _ _
  have e : secondPass R big sz file (m.map some) = orErr res := by
    unfold secondPass
    rw [h1]
    dsimp only
    rw [h3, hres]
    rfl
  constructor
  · rintro ⟨r0, hr0, hlt⟩
    rcases hspec with ⟨-, q2⟩ | ⟨i, r, dd, q1, q2, q3, q4, q5⟩
    · exact absurd (q2 r0 hr0 _ (ed r0)) (not_le.2 hlt)
    · refine ⟨i, r, q1, by rw [e, q4, Nat.zero_add]; rfl, v r, by simp [q1], fun j w hw => ?_⟩
      rw [List.getElem?_map] at hw
      cases hj : rows[j]? with
      | none => rw [hj] at hw; cases hw
      | some r' =>
        rw [hj] at hw
        have hw' := Option.some.inj hw
        subst hw'
        have hd : dd = dist2 m (v r) := by
          rw [ed r] at q2; exact (Option.some.inj q2).symm
        rw [← hd]
        exact q5 j r' _ hj (ed r')
  · intro hall
    rcases hspec with ⟨q1, -⟩ | ⟨i, r, dd, q1, q2, q3, -, -⟩
    · rw [e, q1]; rfl
    · have := hall r (List.mem_of_getElem? q1)
      rw [ed r] at q2
      rw [← Option.some.inj q2] at q3
      exact absurd q3 (not_lt.2 this)

/-- C100. The medoid of a file is the first vector closest to the mean of all vectors, with its position; without a
vector at a distance below the largest float there is an error. -/
theorem C100_file_medoid {R : Repr} {v : Row → List Rat} {d sz D : Nat} {rows : List Row} {file : List Byte} (big : Rat)
    (h : VectorFile sz D rows file) (hpos : 0 < D * sz) (hv : Reads R v d rows) (hne : rows ≠ []) (m : List Rat)
    (hm : IsMean (rows.map v) d m) :
    ((∃ r ∈ rows, dist2 m (v r) < big) → ∃ i r, rows[i]? = some r ∧ medoidFromFile R big sz file = .ok (r, i) ∧
      FirstNearest (rows.map v) m i) ∧
    ((∀ r ∈ rows, big ≤ dist2 m (v r)) → medoidFromFile R big sz file = .err) := by
  obtain ⟨it, h1, h2, h3⟩ := all_rows h hpos
  have hl : ∀ w ∈ rows.map v, w.length = d := by
    intro w hw
    obtain ⟨r, hr, rfl⟩ := List.mem_map.1 hw
    exact hv.len r hr
  have em : m = meanOf d (rows.map v) := isMean_unique hm (meanOf_isMean d _ hl)
  have hcent : calculateCentroid R rows d rows.length = .ok (m.map some) := by
    unfold calculateCentroid
    have e0 : List.replicate d (some (0 : Rat)) = (List.replicate d (0 : Rat)).map some := by simp
    rw [e0, centroidSum_some R rows v d hv.val hv.len]
    show (if rows.length = 0 then _ else _) = _
    rw [if_neg (by simp [hne]), divAll_some, em, meanOf, List.length_map]
  have e : medoidFromFile R big sz file = secondPass R big sz file (m.map some) := by
    unfold medoidFromFile
    rw [h1]
    dsimp only
    rw [h3, h2]
    cases rows with
    | nil => exact absurd rfl hne
    | cons x rest =>
      dsimp only
      rw [hv.dim x List.mem_cons_self]
      dsimp only
      rw [hcent]
      rfl
  rw [e]
  exact second_pass big h hpos hv m hm.len

/-- The sum stops with an error at the first vector that cannot be read or has another length. -/
theorem centroidSum_err (R : Repr) (d : Nat) (bad : Row) (post : List Row)
    (hb : ∀ x, R.asF32 bad = some x → x.length ≠ d) : ∀ (pre : List Row) (acc : List F),
    centroidSum R d acc (pre ++ bad :: post) = .err := by
  intro pre
  induction pre with
  | nil =>
    intro acc
    simp only [List.nil_append]
    unfold centroidSum
    cases h : R.asF32 bad with
    | none => rfl
    | some x => simp [hb x h]
  | cons y pre ih =>
    intro acc
    simp only [List.cons_append]
    unfold centroidSum
    cases h : R.asF32 y with
    | none => rfl
    | some x =>
      simp only
      split
      · rfl
      · exact ih _

/-- C100. A file without vectors, or with a vector that cannot be read or whose length is not that of the first, is an
error: never a panic and never a medoid. -/
theorem C100_file_errors {R : Repr} {sz D : Nat} {rows : List Row} {file : List Byte} (big : Rat)
    (h : VectorFile sz D rows file) (hpos : 0 < D * sz)
    (hbad : rows = [] ∨ (∃ r, rows.head? = some r ∧ R.fullDim r = none) ∨
      ∃ r d, rows.head? = some r ∧ R.fullDim r = some d ∧ ∃ bad ∈ rows, ∀ x, R.asF32 bad = some x → x.length ≠ d) :
    medoidFromFile R big sz file = .err := by
  obtain ⟨it, h1, h2, h3⟩ := all_rows h hpos
  unfold medoidFromFile
  rw [h1]
  dsimp only
  rw [h3]
  rcases hbad with rfl | ⟨r, hr, hd⟩ | ⟨r, d, hr, hd, bad, hm, hb⟩
  · rfl
  · cases rows with
    | nil => cases hr
    | cons x rest =>
      cases hr
      dsimp only
      rw [hd]
  · cases rows with
    | nil => cases hr
    | cons x rest =>
      cases hr
      dsimp only
      rw [hd]
      dsimp only
      obtain ⟨pre, post, e⟩ := List.append_of_mem hm
      unfold calculateCentroid
      rw [e, centroidSum_err R d bad post hb pre]
      rfl

/-- C100. The matrix and the file give the same medoid. -/
theorem C100_medoids_agree {R : Repr} {v : Row → List Rat} {d sz D : Nat} {rows : List Row} {file : List Byte}
    (big : Rat) (h : VectorFile sz D rows file) (hpos : 0 < D * sz) (hd : 0 < d) (hv : Reads R v d rows) (r : Row) (i : Nat)
    (hr : medoidFromFile R big sz file = .ok (r, i)) : computeMedoid some big 0 ⟨rows.map v, d⟩ = v r := by
  have hl : ∀ w ∈ rows.map v, w.length = d := by
    intro w hw
    obtain ⟨r, hr, rfl⟩ := List.mem_map.1 hw
    exact hv.len r hr
  have hm := meanOf_isMean d _ hl
  have hne : rows ≠ [] := by
    rintro rfl
    obtain ⟨it, h1, h2, h3⟩ := all_rows h hpos
    unfold medoidFromFile at hr
    rw [h1] at hr
    dsimp only at hr
    rw [h3] at hr
    cases hr
  obtain ⟨ha, hb⟩ := C100_file_medoid big h hpos hv hne _ hm
  by_cases hex : ∃ r ∈ rows, dist2 (meanOf d (rows.map v)) (v r) < big
  · obtain ⟨i', r', q1, q2, q3⟩ := ha hex
    rw [hr] at q2
    simp only [Out.ok.injEq, Prod.mk.injEq] at q2
    obtain ⟨rfl, rfl⟩ := q2
    have hid : (rows.map v).map (fun x => x.map fun y => y) = rows.map v := by simp
    obtain ⟨k, p1, p2⟩ := C100_medoid_partial (T := Rat) some (fun x => x) big 0 ⟨rows.map v, d⟩ (meanOf d (rows.map v)) hd hl
      (fun _ _ _ _ => rfl) (by rw [hid]; exact hm) (by
        obtain ⟨w, hw, hlt⟩ := hex
        exact ⟨v w, List.mem_map_of_mem hw, by simpa using hlt⟩)
    rw [hid] at p2
    obtain ⟨x, x1, x2⟩ := q3
    obtain ⟨y, y1, y2⟩ := p2
    have hik : i = k := by
      rcases Nat.lt_trichotomy i k with hlt | heq | hgt
      · exact absurd ((y2 i x x1).2 hlt) (not_lt.2 (x2 k y y1).1)
      · exact heq
      · exact absurd ((x2 k y y1).2 hgt) (not_lt.2 (y2 i x x1).1)
    subst hik
    have : (rows.map v)[i]? = some (v r) := by simp [q1]
    dsimp only at p1
    rw [this] at p1
    exact (Option.some.inj p1).symm
  · have := hb fun r hr => by
      by_contra hlt
      exact hex ⟨r, hr, not_le.1 hlt⟩
    rw [this] at hr
    cases hr

/-- C100. The medoid of a file by sampling, for all draws: if some vector is drawn, the result is the first vector of
the whole file closest to the mean of the vectors drawn; if none is, there is an error. A maximum of `0`, or one that
is not below the number of vectors, draws them all. -/
theorem C100_sampled_medoid {R : Repr} {v : Row → List Rat} {d sz D : Nat} {rows : List Row} {file : List Byte}
    (big : Rat) (h : VectorFile sz D rows file) (hpos : 0 < D * sz) (hv : Reads R v d rows) (maxSample : Nat)
    (p : Nat → Rat) (hp : ∀ i, 0 ≤ p i ∧ p i < 1) :
    ∃ idx : List Nat, idx.Pairwise (· < ·) ∧
      (∀ i, i ∈ idx ↔ i < rows.length ∧ (maxSample = 0 ∨ p i * rows.length < maxSample ∨ rows.length ≤ maxSample)) ∧
      (idx = [] → medoidWithSampling R big sz file maxSample p = .err) ∧
      ∀ m, idx ≠ [] → IsMean (idx.map fun i => v (rows.getD i [])) d m → (∃ r ∈ rows, dist2 m (v r) < big) →
        ∃ i r, rows[i]? = some r ∧ medoidWithSampling R big sz file maxSample p = .ok (r, i) ∧
          FirstNearest (rows.map v) m i := by
  obtain ⟨rate, hrate⟩ : ∃ rate, rate = samplingRate maxSample rows.length := ⟨_, rfl⟩
  obtain ⟨s, s1, s2, s3, s4⟩ := sampled_rows h rate p
  have hmem : ∀ i, i ∈ drawn rate p rows.length ↔ i < rows.length ∧ p i < rate := by
    intro i; simp [drawn]
  have hrow : ∀ l : List Nat, (∀ i ∈ l, i < rows.length) →
      l.filterMap (fun i => rows[i]?) = l.map fun i => rows.getD i [] := by
    intro l hl
    induction l with
    | nil => rfl
    | cons i l ih =>
      have hi := hl i List.mem_cons_self
      rw [List.filterMap_cons, List.getElem?_eq_getElem hi]
      simp only [List.map_cons, ih fun k hk => hl k (List.mem_cons_of_mem _ hk)]
      rw [List.getD_eq_getElem _ _ hi]
  have hrows := hrow (drawn rate p rows.length) fun i hi => ((hmem i).1 hi).1
  have hsub : ∀ r ∈ (drawn rate p rows.length).map (fun i => rows.getD i []), r ∈ rows := by
    intro r hr
    obtain ⟨i, hi, rfl⟩ := List.mem_map.1 hr
    have := ((hmem i).1 hi).1
    rw [List.getD_eq_getElem _ _ this]
    exact List.getElem_mem this
  have e : medoidWithSampling R big sz file maxSample p =
      (sampledCentroid R sz file rate p).bind fun c => secondPass R big sz file c := by
    unfold medoidWithSampling
    rw [h.metadata, hrate]
  have ec : sampledCentroid R sz file rate p =
      (sampleSum R none 0 ((drawn rate p rows.length).map fun i => rows.getD i [])).bind fun y =>
        match y.1 with
        | none => .err
        | some a => .ok (divAll y.2 a) := by
    unfold sampledCentroid
    rw [s1]
    dsimp only
    rw [s4, s3, hrows]
    rfl
  refine ⟨drawn rate p rows.length, ?_, ?_, ?_, ?_⟩
  · exact List.Pairwise.filter _ List.pairwise_lt_range
  · intro i
    rw [hmem, hrate]
    unfold samplingRate
    constructor
    · rintro ⟨hi, hlt⟩
      refine ⟨hi, ?_⟩
      split at hlt
      · rename_i hc
        rcases hc with hc | hc
        · exact Or.inl hc
        · exact Or.inr (Or.inr hc)
      · have hn : (0 : Rat) < rows.length := by exact_mod_cast (by omega : 0 < rows.length)
        rw [lt_div_iff₀ hn] at hlt
        exact Or.inr (Or.inl hlt)
    · rintro ⟨hi, hc⟩
      refine ⟨hi, ?_⟩
      split
      · exact (hp i).2
      · rename_i hno
        have hn : (0 : Rat) < rows.length := by exact_mod_cast (by omega : 0 < rows.length)
        rw [lt_div_iff₀ hn]
        rcases hc with hc | hc | hc
        · exact absurd (Or.inl hc) hno
        · exact hc
        · exact absurd (Or.inr hc) hno
  · intro hnil
    rw [e, ec, hnil]
    rfl
  · intro m hne hm hb
    have hsum := sampleSum_first R ((drawn rate p rows.length).map fun i => rows.getD i []) v d (by simpa using hne)
      (fun r hr => hv.val r (hsub r hr)) (fun r hr => hv.len r (hsub r hr)) (fun r hr => hv.dim r (hsub r hr))
    have hl : ∀ w ∈ (drawn rate p rows.length).map (fun i => v (rows.getD i [])), w.length = d := by
      intro w hw
      obtain ⟨i, hi, rfl⟩ := List.mem_map.1 hw
      exact hv.len _ (hsub _ (List.mem_map_of_mem hi))
    have em := isMean_unique hm (meanOf_isMean d _ hl)
    have e2 : medoidWithSampling R big sz file maxSample p = secondPass R big sz file (m.map some) := by
      rw [e, ec, hsum]
      show secondPass R big sz file _ = _
      dsimp only
      rw [divAll_some, em, meanOf, List.length_map, List.length_map]
      congr 4
      rw [List.map_map]; rfl
    rw [e2]
    exact (second_pass big h hpos hv m hm.len).1 hb

/-! ### Disagreements on files, and examples -/

/-- One byte per coordinate. -/
def byteRepr : Repr := ⟨fun r => some (r.map fun b => some (b.toNat : Rat)), fun r => some r.length⟩

/-- Files of vectors of one byte. -/
def byteFile (l : List Nat) : List Byte := saveToBin (l.map fun x => [x.toUInt8]) 1

theorem byteReads (l : List Nat) :
    Reads byteRepr (fun r => r.map fun b => (b.toNat : Rat)) 1 (l.map fun x => [x.toUInt8]) where
  val r _ := by simp [byteRepr]
  len r hr := by obtain ⟨x, -, rfl⟩ := List.mem_map.1 hr; rfl
  dim r hr := by obtain ⟨x, -, rfl⟩ := List.mem_map.1 hr; rfl

/-- C100, disagreement: the documented maximum does not bound the sample. With a maximum of one, all four vectors can
be drawn. -/
theorem C100_sample_above_maximum :
    ∃ p : Nat → Rat, (∀ i, 0 ≤ p i ∧ p i < 1) ∧ (drawn (samplingRate 1 4) p 4).length = 4 :=
  ⟨fun _ => 0, fun _ => ⟨le_refl _, one_pos⟩, by decide +kernel⟩

/-- C100, disagreement: sampling can draw nothing, and the medoid of a good file is an error. -/
theorem C100_sample_empty :
    ∃ p : Nat → Rat, (∀ i, 0 ≤ p i ∧ p i < 1) ∧
      medoidWithSampling byteRepr 1000000 1 (byteFile [1, 2, 3]) 1 p = .err ∧
      medoidFromFile byteRepr 1000000 1 (byteFile [1, 2, 3]) = .ok ([2], 1) :=
  ⟨fun _ => 1 / 2, fun _ => ⟨by norm_num, by norm_num⟩, by decide +kernel, by decide +kernel⟩

/-- C100, disagreement: a file that lost its end has a medoid. It is not the vector closest to the mean of the vectors
left, as the sum is divided by the number in the header; by sampling, the file is refused. -/
theorem C100_truncated_medoid :
    let cut := (byteFile [2, 4, 9, 0, 0]).take 11
    medoidFromFile byteRepr 1000000 1 cut = .ok ([2], 0) ∧
    medoidFromFile byteRepr 1000000 1 (byteFile [2, 4, 9]) = .ok ([4], 1) ∧
    medoidWithSampling byteRepr 1000000 1 cut 0 (fun _ => 0) = .err := by decide +kernel

/-- A type of small integers with its zero. -/
def intElem : Elem Rat := ⟨0, some, fun x => x.getD 0, .i8, 1000000, fun x => if x = 25 then 5 else 0⟩

/-- Draws: the first indices, a vector `3, 4`, and the numbers `1`. -/
def demoDraws : Draws :=
  ⟨fun _ n => List.range n, fun _ j => if j = 0 then 3 else 4, fun s j => s + j, fun s j => s * 2 + j + 1⟩

def demoMat : Mat Rat := ⟨[[1, 10], [2, 20], [3, 30], [4, 40], [9, 90]], 2⟩

example : GoodSample demoDraws := fun len n hn =>
  ⟨by simp [demoDraws], List.nodup_range, fun i hi => lt_of_lt_of_le (List.mem_range.1 hi) hn⟩

example : Strategy.medoid.compute intElem demoDraws demoMat = .ok [[4, 40]] := by decide +kernel

example : IsMean demoMat.rows 2 [19 / 5, 38] where
  len := rfl
  coord j hj := by
    have : j = 0 ∨ j = 1 := by omega
    rcases this with rfl | rfl <;> decide +kernel

example : (Strategy.randomSamples 2).compute intElem demoDraws demoMat = .ok [[1, 10], [2, 20]] := by decide +kernel

example : (Strategy.latin 2).compute intElem demoDraws demoMat = .ok [[4, 30], [1, 20]] := by decide +kernel

example : (Strategy.latin 6).compute intElem demoDraws demoMat = .panic := by decide +kernel

example : (Strategy.randomVectors 10 1).compute intElem demoDraws demoMat = .ok [[6, 8]] := by decide +kernel

example : (Strategy.randomVectors 1 1).compute intElem demoDraws demoMat = .ok [[0, 0]] := by decide +kernel

/-- The hypotheses of `C100_random_vector` hold for the draws `3, 4`. -/
example : let xs : List Rat := [3, 4]
    intElem.sqrt ((xs.map fun x => x * x).sum) * intElem.sqrt ((xs.map fun x => x * x).sum) =
      (xs.map fun x => x * x).sum ∧ ∃ x ∈ xs, x ≠ 0 := by
  refine ⟨by decide +kernel, 3, by simp, by norm_num⟩

/-- A value that is not finite. -/
example : computeMedoid (fun x : F => x) 1000000 (some 0) ⟨[[some 1], [none], [some 3]], 1⟩ = [some 0] := by
  decide +kernel

example : VectorFile 1 1 ([1, 2, 3].map fun x => [x.toUInt8]) (byteFile [1, 2, 3]) :=
  Verif.Disk.C70_save_layout 1 1 _ (by decide) (by decide) (by decide)

example : medoidWithSampling byteRepr 1000000 1 (byteFile [1, 2, 3]) 0 (fun _ => 0) = .ok ([2], 1) := by
  decide +kernel

/-- The hypotheses of `C100_file_errors`: the third vector is read with two values. -/
example : medoidFromFile ⟨fun r => some (if r = [3] then [some 3, some 3] else r.map fun b => some b.toNat), fun r => some r.length⟩
    1000000 1 (byteFile [1, 2, 3]) = .err := by
  have h : VectorFile 1 1 ([1, 2, 3].map fun x => [x.toUInt8]) (byteFile [1, 2, 3]) :=
    Verif.Disk.C70_save_layout 1 1 _ (by decide) (by decide) (by decide)
  refine C100_file_errors 1000000 h (by decide)
    (Or.inr (Or.inr ⟨[1], 1, rfl, rfl, [3], by decide, ?_⟩))
  intro x hx
  cases hx
  decide

end Verif.Start
