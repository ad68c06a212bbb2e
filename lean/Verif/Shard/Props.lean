import Verif.Shard.Lemmas
import Verif.Disk.MergeProps
import Mathlib.Tactic.NormNum
import Mathlib.Algebra.Order.Floor.Semifield

/-! # C105: the memory limit of a disk index build

Theorems about the number of shards take the samples `train` and `test` that were drawn, of vectors with `dim` entries. A sample
is bounded if the distances of its vectors stay below `f32::MAX` (C86). -/

namespace Verif.Shard

open Verif.Kmeans Verif.Kmeans.Disk Spec Verif.Disk

/-! ## Settings -/

/-- A memory limit is accepted exactly if it is at least half a byte, and it is the nearest number of bytes, at most that of the
address space. NaN and negative values are refused, infinity is the largest limit. -/
theorem C105_limit (g : Gib) :
    (∀ q : Rat, g = .fin q →
      (q * 2 ^ 30 < 1 / 2 → tryFromGb g = none) ∧
      (1 / 2 ≤ q * 2 ^ 30 → ∃ b, tryFromGb g = some b ∧ 0 < b ∧ b < 2 ^ 64 ∧
        (q * 2 ^ 30 < 2 ^ 64 - 1 → (b : Rat) - 1 / 2 ≤ q * 2 ^ 30 ∧ q * 2 ^ 30 < (b : Rat) + 1 / 2) ∧
        (2 ^ 64 - 1 ≤ q * 2 ^ 30 → b = 2 ^ 64 - 1))) ∧
    (g = .nan ∨ g = .inf true → tryFromGb g = none) ∧
    (g = .inf false → tryFromGb g = some (2 ^ 64 - 1)) := by
  refine ⟨?_, ?_, ?_⟩
  · rintro q rfl
    have ha : asUsize (scale (.fin q)) = min (roundAway (q * 2 ^ 30)).toNat (2 ^ 64 - 1) := rfl
    unfold tryFromGb
    dsimp only
    rw [ha]
    constructor
    · intro h
      rw [round_small _ h]
      simp
    · intro h
      obtain ⟨b, hb, hb1, hb2, hb3⟩ := round_large _ h
      rw [hb]
      refine ⟨min b (2 ^ 64 - 1), if_neg (by omega), by omega, by omega, ?_, ?_⟩
      · intro hx
        have : b ≤ 2 ^ 64 - 1 := by
          by_contra hc
          have h2 : (2 ^ 64 : Nat) ≤ b := by omega
          have : ((2 ^ 64 : Nat) : Rat) ≤ (b : Rat) := by exact_mod_cast h2
          push_cast at this
          linarith
        rw [min_eq_left this]
        exact ⟨hb2, hb3⟩
      · intro hx
        apply min_eq_right
        by_contra hc
        have h2 : b + 1 ≤ 2 ^ 64 - 1 := by omega
        have h3 : ((b + 1 : Nat) : Rat) ≤ ((2 ^ 64 - 1 : Nat) : Rat) := by exact_mod_cast h2
        have h4 : ((2 ^ 64 - 1 : Nat) : Rat) = 2 ^ 64 - 1 := by norm_num
        rw [h4] at h3
        push_cast at h3
        linarith
  · rintro (rfl | rfl) <;> rfl
  · rintro rfl; rfl

/-- Two gibibytes. -/
example : tryFromGb (.fin 2) = some (2 ^ 31) := by decide +kernel

example : tryFromGb (.fin (-1)) = none := by decide +kernel

/-- The number of chunks is accepted exactly if it is between one and the dimension. -/
theorem C105_chunks (chunks dim : Nat) : numChunks chunks dim = .ok chunks ↔ 1 ≤ chunks ∧ chunks ≤ dim := by
  unfold numChunks
  split
  · constructor
    · intro h; cases h
    · intro h; omega
  split
  · constructor
    · intro h; cases h
    · intro h; omega
  split
  · constructor
    · intro h; cases h
    · intro h; omega
  · exact ⟨fun _ => by omega, fun _ => rfl⟩

/-- **Disagreement.** The error for chunks out of the range `[1, dim]` is not given for zero chunks: they are reported as a
dimension of zero. -/
theorem C105_zero_chunks (dim : Nat) : numChunks 0 dim = .error .dimensionIsZero := by
  unfold numChunks
  split
  · rfl
  · rw [if_pos rfl]

/-! ## The choice -/

/-- The index is built in one piece exactly if the estimate is below the limit. The estimate is proportional to the number of
points: `11/10` of `13/10` of four bytes for every neighbour plus the size of a vector. -/
theorem C105_strategy (q : Quant) (datasize maxDegree maxPoints dim : Nat) (limit : Rat) :
    strategy q datasize maxDegree maxPoints dim limit = .oneShot ↔
      (maxPoints : Rat) * (11 / 10 * (4 * maxDegree * (13 / 10) + (match q with
        | .fp => ((dim + 7) / 8 * 8 * datasize : Nat)
        | .pq chunks => (chunks : Nat)
        | .sq nbits => ((nbits * dim + 7) / 8 + 4 : Nat)
        | .spherical => ((dim + 7) / 8 + 6 : Nat)))) < limit := by
  unfold strategy
  rw [estimate_linear]
  have e : perPoint q datasize maxDegree dim = 11 / 10 * (4 * maxDegree * (13 / 10) + (match q with
        | .fp => ((dim + 7) / 8 * 8 * datasize : Nat)
        | .pq chunks => (chunks : Nat)
        | .sq nbits => ((nbits * dim + 7) / 8 + 4 : Nat)
        | .spherical => ((dim + 7) / 8 + 6 : Nat))) := by
    unfold perPoint vectorSize
    cases q <;> push_cast <;> ring
  rw [← e]
  by_cases h : (maxPoints : Rat) * perPoint q datasize maxDegree dim ≥ limit
  · rw [if_pos h]
    exact ⟨fun h' => (by cases h'), fun h' => absurd h (not_le.2 h')⟩
  · rw [if_neg h]
    exact ⟨fun _ => not_le.1 h, fun _ => rfl⟩

/-- More points, neighbours or memory per vector never turn a merged build into one piece. -/
theorem C105_strategy_monotone (q : Quant) {datasize maxDegree maxPoints dim maxDegree' maxPoints' : Nat} {limit limit' : Rat}
    (h1 : maxDegree ≤ maxDegree') (h2 : maxPoints ≤ maxPoints') (h3 : limit' ≤ limit)
    (h : strategy q datasize maxDegree maxPoints dim limit = .merged) :
    strategy q datasize maxDegree' maxPoints' dim limit' = .merged := by
  unfold strategy at h ⊢
  split at h
  · rename_i h0
    rw [if_pos]
    refine le_trans h3 (le_trans h0 ?_)
    rw [estimate_linear, estimate_linear]
    have hp : perPoint q datasize maxDegree dim ≤ perPoint q datasize maxDegree' dim := by
      unfold perPoint
      have : ((maxDegree * 4 : Nat) : Rat) ≤ ((maxDegree' * 4 : Nat) : Rat) := by exact_mod_cast Nat.mul_le_mul_right 4 h1
      linarith
    have hn : (maxPoints : Rat) ≤ maxPoints' := by exact_mod_cast h2
    exact mul_le_mul hn hp (perPoint_nonneg _ _ _ _) (by positivity)
  · cases h

example : strategy .fp 4 64 1000000 128 (2 ^ 30) = .oneShot ∧ strategy .fp 4 64 1000000 128 (2 ^ 29) = .merged := by
  decide +kernel

/-! ## The initial number of shards -/

/-- The first number that is tried is odd and at least three; shards of equal size and as many would fit, and no smaller odd
number that is at least three has this property. -/
theorem C105_initial (est : Nat → Rat) (total k : Nat) (budget : Rat) (hb : 0 < budget) :
    let p := initialParts est total k budget
    p % 2 = 1 ∧ 3 ≤ p ∧ est (total * k) ≤ p * budget ∧
    ∀ p' : Nat, p' % 2 = 1 → 3 ≤ p' → est (total * k) ≤ p' * budget → p ≤ p' := by
  dsimp only
  unfold initialParts
  dsimp only
  generalize est (total * k) = e
  have hle : ∀ n : Nat, ⌈e / budget⌉₊ ≤ n ↔ e ≤ n * budget := by
    intro n
    rw [Nat.ceil_le, div_le_iff₀ hb]
  have key : ∀ p : Nat, ⌈e / budget⌉₊ ≤ p → e ≤ p * budget := fun p => (hle p).1
  split
  · rename_i h2
    refine ⟨by omega, by omega, key _ (by omega), fun p' h3 h4 h5 => ?_⟩
    have := (hle p').2 h5
    omega
  · rename_i h2
    refine ⟨by omega, by omega, key _ (by omega), fun p' h3 h4 h5 => ?_⟩
    have := (hle p').2 h5
    omega

example : initialParts (fun n => (n : Rat)) 10 2 4 = 5 ∧ initialParts (fun n => (n : Rat)) 10 2 3 = 7 := by decide +kernel

/-! ## The search -/

variable {K : Type} [Field K] [LinearOrder K] [IsStrictOrderedRing K]

/-- The centers `C` are those that clustering of the sample into `parts` gives with the draws `d`. -/
def Clustered (big : K) (order : List (K × Nat) → List (K × Nat)) (dim : Nat) (train : List (List K)) (d : Disk.Draws K)
    (parts : Nat) (C : List (List K)) : Prop :=
  Rect dim C ∧ C.length = parts ∧ ∃ s,
    clustering big order train.flatten train.length dim (List.replicate (parts * dim) 0) parts 10 d false = some (.ok s) ∧
    s.centers = C.flatten

/-- What is assumed of the samples and the draws. -/
structure Samples (big : K) (order : List (K × Nat) → List (K × Nat)) (dim : Nat) (train test : List (List K))
    (draws : Nat → Disk.Draws K) : Prop where
  heap : HeapOrder order
  dimPos : 0 < dim
  trainRect : Rect dim train
  testRect : Rect dim test
  trainNe : train ≠ []
  testNe : test ≠ []
  most : train.length ≤ 2 ^ 23
  bounded : Bounded big train
  fair : ∀ i, Disk.Fair train.length (draws i)

theorem findLoop_step {big : K} {order : List (K × Nat) → List (K × Nat)} {dim : Nat} {train test : List (List K)}
    {draws : Nat → Disk.Draws K} (h : Samples big order dim train test draws) (est : Nat → Rat) (rate budget : Rat)
    (hb : 0 ≤ budget) {k : Nat} (hk : 2 ≤ k) (parts : Nat) (hp : k ≤ parts) (i fuel : Nat) :
    ∃ C, Clustered big order dim train (draws i) parts C ∧
      ((∀ c < parts, est (scaleUp (shardSize (test.map (closestOf big order k C)) c) rate) ≤ budget) →
        findLoop big order est rate budget k dim train test draws (fuel + 1) i parts = .ok parts C.flatten) ∧
      ((∃ c < parts, budget < est (scaleUp (shardSize (test.map (closestOf big order k C)) c) rate)) →
        findLoop big order est rate budget k dim train test draws (fuel + 1) i parts =
          findLoop big order est rate budget k dim train test draws fuel (i + 1) (parts + 2)) := by
  obtain ⟨C, s, h1, h2, h3, h4⟩ := clustering_ok big order h.dimPos h.trainRect h.trainNe h.most h.bounded parts (by omega) (h.fair i)
  have hs := clusterSizes_eq big h.heap h.dimPos h.testRect h3 hk (by omega) h.testNe
  rw [h4] at hs
  refine ⟨C, ⟨h3, h4, s, h1, h2⟩, ?_, ?_⟩
  · intro hall
    rw [findLoop, h1]
    dsimp only
    rw [h2, hs]
    dsimp only
    rw [if_neg]
    rw [gt_iff_lt, not_lt, maxUsage_le _ _ _ _ hb]
    intro p hpm
    obtain ⟨c, hc, rfl⟩ := List.mem_map.1 hpm
    exact hall c (List.mem_range.1 hc)
  · rintro ⟨c, hc, hlt⟩
    rw [findLoop, h1]
    dsimp only
    rw [h2, hs]
    dsimp only
    rw [if_pos]
    rw [gt_iff_lt, ← not_le, maxUsage_le _ _ _ _ hb]
    intro hall
    exact absurd (hall _ (List.mem_map.2 ⟨c, List.mem_range.2 hc, rfl⟩)) (not_le.2 hlt)

/-- Neither an error nor a panic happens. In round `i` the sample is clustered into `parts + 2 i` shards and every sampled vector
goes to its `k` nearest; the search ends in the first round in which no estimate for a shard is above the limit, with the number
and the centers of that round. It goes on as long as there is a shard above the limit. -/
theorem C105_search {big : K} {order : List (K × Nat) → List (K × Nat)} {dim : Nat} {train test : List (List K)}
    {draws : Nat → Disk.Draws K} (h : Samples big order dim train test draws) (est : Nat → Rat) (rate budget : Rat)
    (hb : 0 ≤ budget) {k : Nat} (hk : 2 ≤ k) (parts : Nat) (hp : k ≤ parts) (fuel : Nat) :
    ∃ (C : Nat → List (List K)) (A : Nat → List (List Nat)),
      (∀ i, Clustered big order dim train (draws i) (parts + 2 * i) (C i)) ∧ (∀ i, Split (C i) test k (A i)) ∧
      ((∃ j < fuel, findLoop big order est rate budget k dim train test draws fuel 0 parts
          = .ok (parts + 2 * j) (C j).flatten ∧
        (∀ c < parts + 2 * j, est (scaleUp (shardSize (A j) c) rate) ≤ budget) ∧
        ∀ i < j, ∃ c < parts + 2 * i, budget < est (scaleUp (shardSize (A i) c) rate)) ∨
      (findLoop big order est rate budget k dim train test draws fuel 0 parts = .running ∧
        ∀ i < fuel, ∃ c < parts + 2 * i, budget < est (scaleUp (shardSize (A i) c) rate))) := by
  have hstep : ∀ i, ∃ C, Clustered big order dim train (draws i) (parts + 2 * i) C ∧ ∀ fuel,
      ((∀ c < parts + 2 * i, est (scaleUp (shardSize (test.map (closestOf big order k C)) c) rate) ≤ budget) →
        findLoop big order est rate budget k dim train test draws (fuel + 1) i (parts + 2 * i)
          = .ok (parts + 2 * i) C.flatten) ∧
      ((∃ c < parts + 2 * i, budget < est (scaleUp (shardSize (test.map (closestOf big order k C)) c) rate)) →
        findLoop big order est rate budget k dim train test draws (fuel + 1) i (parts + 2 * i) =
          findLoop big order est rate budget k dim train test draws fuel (i + 1) (parts + 2 * i + 2)) := by
    intro i
    obtain ⟨C, h1, _⟩ := findLoop_step h est rate budget hb hk (parts + 2 * i) (by omega) i 0
    refine ⟨C, h1, fun fuel => ?_⟩
    obtain ⟨C', h1', h2', h3'⟩ := findLoop_step h est rate budget hb hk (parts + 2 * i) (by omega) i fuel
    have : C' = C := by
      obtain ⟨a1, a2, s, a3, a4⟩ := h1
      obtain ⟨b1, b2, s', b3, b4⟩ := h1'
      rw [a3] at b3
      cases b3
      rw [a4] at b4
      rw [← rowsOf_flatten a1, ← rowsOf_flatten b1, a2, b2, b4]
    rw [this] at h2' h3'
    exact ⟨h2', h3'⟩
  choose C hC hC' using hstep
  refine ⟨C, fun i => test.map (closestOf big order k (C i)), hC, fun i => split_of big h.heap hk (by
    have := (hC i).2.1; omega) test, ?_⟩
  have main : ∀ fuel i0, ((∃ j, i0 ≤ j ∧ j < i0 + fuel ∧
        findLoop big order est rate budget k dim train test draws fuel i0 (parts + 2 * i0)
          = .ok (parts + 2 * j) (C j).flatten ∧
        (∀ c < parts + 2 * j, est (scaleUp (shardSize (test.map (closestOf big order k (C j))) c) rate) ≤ budget) ∧
        ∀ i, i0 ≤ i → i < j → ∃ c < parts + 2 * i,
          budget < est (scaleUp (shardSize (test.map (closestOf big order k (C i))) c) rate)) ∨
      (findLoop big order est rate budget k dim train test draws fuel i0 (parts + 2 * i0) = .running ∧
        ∀ i, i0 ≤ i → i < i0 + fuel → ∃ c < parts + 2 * i,
          budget < est (scaleUp (shardSize (test.map (closestOf big order k (C i))) c) rate))) := by
    intro fuel
    induction fuel with
    | zero => intro i0; exact Or.inr ⟨rfl, fun i h1 h2 => by omega⟩
    | succ fuel ih =>
      intro i0
      by_cases hfit : ∀ c < parts + 2 * i0, est (scaleUp (shardSize (test.map (closestOf big order k (C i0))) c) rate) ≤ budget
      · exact Or.inl ⟨i0, le_rfl, by omega, (hC' i0 fuel).1 hfit, hfit, fun i h1 h2 => by omega⟩
      · have hover : ∃ c < parts + 2 * i0,
            budget < est (scaleUp (shardSize (test.map (closestOf big order k (C i0))) c) rate) := by
          by_contra hc
          exact hfit fun c hcl => by
            by_contra hh
            exact hc ⟨c, hcl, not_le.1 hh⟩
        rw [(hC' i0 fuel).2 hover, show parts + 2 * i0 + 2 = parts + 2 * (i0 + 1) by ring]
        rcases ih (i0 + 1) with ⟨j, h1, h2, h3, h4, h5⟩ | ⟨h1, h2⟩
        · refine Or.inl ⟨j, by omega, by omega, h3, h4, fun i hi1 hi2 => ?_⟩
          by_cases e : i = i0
          · subst e; exact hover
          · exact h5 i (by omega) hi2
        · refine Or.inr ⟨h1, fun i hi1 hi2 => ?_⟩
          by_cases e : i = i0
          · subst e; exact hover
          · exact h2 i (by omega) (by omega)
  rcases main fuel 0 with ⟨j, _, h2, h3, h4, h5⟩ | ⟨h1, h2⟩
  · exact Or.inl ⟨j, by omega, h3, h4, fun i hi => h5 i (by omega) hi⟩
  · exact Or.inr ⟨h1, fun i hi => h2 i (by omega) (by omega)⟩

/-- **Disagreement.** The search need not end. If the estimate for the copies of one vector alone is above the limit, it goes on
for ever, with more and more shards: copies always go to the same shards. -/
theorem C105_never_ends {big : K} {order : List (K × Nat) → List (K × Nat)} {dim : Nat} {train test : List (List K)}
    {draws : Nat → Disk.Draws K} (h : Samples big order dim train test draws) (est : Nat → Rat) (hest : Monotone est)
    (rate budget : Rat) (hr : 0 < rate) (hb : 0 ≤ budget) {k : Nat} (hk : 2 ≤ k) (parts : Nat) (hp : k ≤ parts)
    (x : List K) (hx : budget < est (scaleUp (test.countP fun y => y = x) rate)) (hm : x ∈ test) (fuel : Nat) :
    findLoop big order est rate budget k dim train test draws fuel 0 parts = .running := by
  obtain ⟨C, A, hC, hA, hor⟩ := C105_search h est rate budget hb hk parts hp fuel
  rcases hor with ⟨j, _, _, hfit, _⟩ | ⟨h1, _⟩
  · exfalso
    obtain ⟨i, hi, hxi⟩ := List.getElem_of_mem hm
    have hx0 : test[i]? = some x := by rw [List.getElem?_eq_getElem hi, hxi]
    have hi' : i < (A j).length := by rw [(hA j).length]; exact hi
    have hkn := (hA j).nearest i x (A j)[i] hx0 (List.getElem?_eq_getElem hi')
    have hlen := hkn.length
    obtain ⟨c, hc⟩ : ∃ c, c ∈ (A j)[i] := by
      cases hcs : (A j)[i] with
      | nil => rw [hcs] at hlen; simp at hlen; omega
      | cons c cs => exact ⟨c, by simp⟩
    have hcl := hkn.inside c hc
    rw [(hC j).2.1] at hcl
    have hbig : test.countP (fun y => y = x) ≤ shardSize (A j) c := by
      refine copies_le x c test (A j) (hA j).length fun i' cs h1 h2 => ?_
      have := (hA j).same i i' x hx0 h1
      rw [List.getElem?_eq_getElem hi', h2, Option.some.injEq] at this
      rw [← this]
      exact hc
    have := hfit c hcl
    exact absurd (lt_of_lt_of_le hx (hest (scaleUp_mono hbig rate hr))) (not_lt.2 this)
  · exact h1

/-! ## Shards of the whole data set -/

theorem ids_length {assign : List (List Nat)} {s : Nat} {ids : List Nat} (h1 : ids.Pairwise (· < ·))
    (h2 : ∀ p, p ∈ ids ↔ p < assign.length ∧ s ∈ assign.getD p []) : ids.length = shardSize assign s := by
  have hp : ids.Perm ((List.range assign.length).filter fun p => s ∈ assign.getD p []) := by
    apply (List.perm_ext_iff_of_nodup (h1.imp (fun h => Nat.ne_of_lt h)) (List.nodup_range.filter _)).2
    intro a
    rw [h2]
    simp only [List.mem_filter, List.mem_range, decide_eq_true_eq]
  rw [hp.length_eq, ← List.countP_eq_length_filter]
  have : assign = (List.range assign.length).map fun p => assign.getD p [] := by
    apply List.ext_getElem
    · simp
    · intro i h1 h2
      rw [List.getElem_map, List.getElem_range, List.getD_eq_getElem _ _ h1]
  unfold shardSize
  conv_rhs => rw [this, List.countP_map]
  rfl

theorem scaleUp_points (p maxPoints : Nat) : scaleUp p (50000 / maxPoints) = p * maxPoints / 50000 := by
  unfold scaleUp
  rw [div_div_eq_mul_div]
  have := Nat.floor_div_eq_div (K := Rat) (p * maxPoints) 50000
  push_cast at this
  exact this

/-- What the merged build puts into the shards: the id maps written for the centers that were found. `assign` is what the search
for the closest centers gives for the whole file. -/
def Sharding (big : K) (order : List (K × Nat) → List (K × Nat)) (dim : Nat) (rows C : List (List K)) (assign maps : List (List Nat)) :
    Prop :=
  (∃ inv, closestCenters big order rows.flatten rows.length dim C.flatten C.length 2 (rows.length * 2)
      (List.replicate C.length []) none = some (.ok ⟨assign.flatten, inv⟩)) ∧
    Split C rows 2 assign ∧
    partitionIds (fun p => assign.getD p []) C.length rows.length 10000 = some maps ∧ maps.length = C.length

theorem sharding_exists (big : K) {order : List (K × Nat) → List (K × Nat)} (ho : HeapOrder order) {dim : Nat} (hd : 0 < dim)
    {rows C : List (List K)} (hr : Rect dim rows) (h0 : rows ≠ []) (hc : Rect dim C) (hC : 2 ≤ C.length) :
    ∃ maps, Sharding big order dim rows C (rows.map (closestOf big order 2 C)) maps ∧
      ∀ (s : Nat) (ids : List Nat), maps[s]? = some ids → ids.length = shardSize (rows.map (closestOf big order 2 C)) s := by
  obtain ⟨inv, e⟩ := closest_assign big ho hd hr hc (le_refl 2) hC
  have hsp := split_of big ho (le_refl 2) hC rows
  obtain ⟨maps, h1, h2, h3⟩ := C71_partition (fun p => (rows.map (closestOf big order 2 C)).getD p []) C.length rows.length 10000
    (List.length_pos_iff.2 h0) (by decide) (by
      intro p hp
      have hl : p < (rows.map (closestOf big order 2 C)).length := by simpa using hp
      exact (hsp.nearest p rows[p] _ (List.getElem?_eq_getElem hp) (by
        rw [List.getElem?_eq_getElem hl, List.getD_eq_getElem _ _ hl])).nodup)
  refine ⟨maps, ⟨⟨inv, by rw [e, List.flatMap]⟩, hsp, h1, h2⟩, ?_⟩
  intro s ids hs
  obtain ⟨h4, h5⟩ := h3 s ids hs
  exact ids_length h4 (fun p => by rw [h5, List.length_map])

/-- What is assumed of a file of vectors and the draws, when everything is sampled. -/
structure SmallData (big : K) (order : List (K × Nat) → List (K × Nat)) (dim : Nat) (rows : List (List K)) (maxPoints : Nat)
    (trainDraws testDraws : List Rat) (draws : Nat → Disk.Draws K) : Prop where
  heap : HeapOrder order
  dimPos : 0 < dim
  rect : Rect dim rows
  ne : rows ≠ []
  most : rows.length ≤ 2 ^ 23
  bounded : Bounded big rows
  train : Uniform rows.length trainDraws
  test : Uniform rows.length testDraws
  fair : ∀ i, Disk.Fair rows.length (draws i)
  pos : 0 < maxPoints
  small : maxPoints ≤ 50000

theorem SmallData.samples {big : K} {order : List (K × Nat) → List (K × Nat)} {dim : Nat} {rows : List (List K)} {maxPoints : Nat}
    {trainDraws testDraws : List Rat} {draws : Nat → Disk.Draws K}
    (h : SmallData big order dim rows maxPoints trainDraws testDraws draws) : Samples big order dim rows rows draws :=
  ⟨h.heap, h.dimPos, h.rect, h.rect, h.ne, h.ne, h.most, h.bounded, h.fair⟩

theorem SmallData.rate {big : K} {order : List (K × Nat) → List (K × Nat)} {dim : Nat} {rows : List (List K)} {maxPoints : Nat}
    {trainDraws testDraws : List Rat} {draws : Nat → Disk.Draws K}
    (h : SmallData big order dim rows maxPoints trainDraws testDraws draws) : (1 : Rat) ≤ 50000 / maxPoints := by
  have h1 : (0 : Rat) < maxPoints := by exact_mod_cast h.pos
  rw [le_div_iff₀ h1, one_mul]
  exact_mod_cast h.small

theorem SmallData.find {big : K} {order : List (K × Nat) → List (K × Nat)} {dim : Nat} {rows : List (List K)} {maxPoints : Nat}
    {trainDraws testDraws : List Rat} {draws : Nat → Disk.Draws K}
    (h : SmallData big order dim rows maxPoints trainDraws testDraws draws) (q : Quant) (datasize degree : Nat) (budget : Rat)
    (fuel : Nat) :
    partitionData big order q datasize degree maxPoints budget dim rows trainDraws testDraws draws fuel =
      findLoop big order (fun n => estimate q datasize (2 * degree / 3) n dim) (50000 / maxPoints) budget 2 dim rows rows draws
        fuel 0 (initialParts (fun n => estimate q datasize (2 * degree / 3) n dim) (rows.length * maxPoints / 50000) 2 budget) := by
  unfold partitionData findPartitionSize
  rw [sample_all rows _ h.rate trainDraws h.train h.ne, sample_all rows _ h.rate testDraws h.test h.ne]
  dsimp only
  rw [scaleUp_points]

/-- With at most 50000 configured points the sample is the whole file. If a number of shards is found, then the id maps that are
written have estimates below the limit, but for `maxPoints / 50000` of their size. -/
theorem C105_small_data {big : K} {order : List (K × Nat) → List (K × Nat)} {dim : Nat} {rows : List (List K)} {maxPoints : Nat}
    {trainDraws testDraws : List Rat} {draws : Nat → Disk.Draws K}
    (h : SmallData big order dim rows maxPoints trainDraws testDraws draws) (q : Quant) (datasize degree : Nat) (budget : Rat)
    (hb : 0 < budget) (fuel parts : Nat) (pivots : List K)
    (hok : partitionData big order q datasize degree maxPoints budget dim rows trainDraws testDraws draws fuel
      = .ok parts pivots) :
    parts % 2 = 1 ∧ 3 ≤ parts ∧ ∃ C assign maps, pivots = C.flatten ∧ C.length = parts ∧ Rect dim C ∧
      Sharding big order dim rows C assign maps ∧
      ∀ (s : Nat) (ids : List Nat), maps[s]? = some ids →
        estimate q datasize (2 * degree / 3) (ids.length * maxPoints / 50000) dim ≤ budget := by
  rw [h.find] at hok
  obtain ⟨hi1, hi2, _, _⟩ := C105_initial (fun n => estimate q datasize (2 * degree / 3) n dim)
    (rows.length * maxPoints / 50000) 2 budget hb
  generalize initialParts (fun n => estimate q datasize (2 * degree / 3) n dim) (rows.length * maxPoints / 50000) 2 budget = p0
    at hi1 hi2 hok
  have hfuel : ∀ fuel i p, p % 2 = 1 → 3 ≤ p →
      findLoop big order (fun n => estimate q datasize (2 * degree / 3) n dim) (50000 / maxPoints) budget 2 dim rows rows draws
        fuel i p = .ok parts pivots → parts % 2 = 1 ∧ 3 ≤ parts ∧ ∃ C, pivots = C.flatten ∧ C.length = parts ∧ Rect dim C ∧
        ∀ c < parts, estimate q datasize (2 * degree / 3)
          (scaleUp (shardSize (rows.map (closestOf big order 2 C)) c) (50000 / maxPoints)) dim ≤ budget := by
    intro fuel
    induction fuel with
    | zero => intro i p _ _ hh; cases hh
    | succ fuel ih =>
      intro i p hp1 hp2 hh
      obtain ⟨C, hC, h1, h2⟩ := findLoop_step h.samples (fun n => estimate q datasize (2 * degree / 3) n dim) (50000 / maxPoints)
        budget hb.le (le_refl 2) p (by omega) i fuel
      by_cases hfit : ∀ c < p, estimate q datasize (2 * degree / 3)
          (scaleUp (shardSize (rows.map (closestOf big order 2 C)) c) (50000 / maxPoints)) dim ≤ budget
      · rw [h1 hfit] at hh
        cases hh
        exact ⟨hp1, hp2, C, rfl, hC.2.1, hC.1, hfit⟩
      · rw [h2 (by
          by_contra hc
          exact hfit fun c hcl => by
            by_contra hh
            exact hc ⟨c, hcl, not_le.1 hh⟩)] at hh
        exact ih (i + 1) (p + 2) (by omega) (by omega) hh
  obtain ⟨r1, r2, C, r3, r4, r5, r6⟩ := hfuel fuel 0 p0 hi1 hi2 hok
  obtain ⟨maps, m1, m2⟩ := sharding_exists big h.heap h.dimPos h.rect h.ne r5 (by omega)
  refine ⟨r1, r2, C, _, maps, r3, r4, r5, m1, ?_⟩
  intro s ids hs
  rw [m2 s ids hs, ← scaleUp_points]
  refine r6 s ?_
  have := (List.getElem?_eq_some_iff.1 hs).1
  rw [m1.2.2.2, r4] at this
  exact this

/-- **Partial.** With 50000 configured points every shard that is written has an estimate below the limit. Missing: other numbers
of points, for which it is false. -/
theorem C105_fits_partial {big : K} {order : List (K × Nat) → List (K × Nat)} {dim : Nat} {rows : List (List K)}
    {trainDraws testDraws : List Rat} {draws : Nat → Disk.Draws K}
    (h : SmallData big order dim rows 50000 trainDraws testDraws draws) (q : Quant) (datasize degree : Nat) (budget : Rat)
    (hb : 0 < budget) (fuel parts : Nat) (pivots : List K)
    (hok : partitionData big order q datasize degree 50000 budget dim rows trainDraws testDraws draws fuel = .ok parts pivots) :
    ∃ C assign maps, pivots = C.flatten ∧ C.length = parts ∧ Sharding big order dim rows C assign maps ∧
      ∀ (s : Nat) (ids : List Nat), maps[s]? = some ids →
        estimate q datasize (2 * degree / 3) ids.length dim ≤ budget := by
  obtain ⟨_, _, C, assign, maps, h1, h2, _, h3, h4⟩ := C105_small_data h q datasize degree budget hb fuel parts pivots hok
  refine ⟨C, assign, maps, h1, h2, h3, fun s ids hs => ?_⟩
  have := h4 s ids hs
  rwa [Nat.mul_div_cancel _ (by decide)] at this

/-- **Disagreement.** Small data sets are built in shards above the limit. For every file of `224` to `33332` vectors, with the
configured number of points, there is a limit for which a merged build is chosen, three shards are accepted at once, and some
shard holds two thirds of the vectors, which is above the limit: the sizes are divided by a sampling rate above one, although
every vector is sampled. -/
theorem C105_over_budget {big : K} {order : List (K × Nat) → List (K × Nat)} {dim : Nat} {rows : List (List K)}
    {trainDraws testDraws : List Rat} {draws : Nat → Disk.Draws K}
    (h : SmallData big order dim rows rows.length trainDraws testDraws draws) (hn : 224 ≤ rows.length) (hn' : rows.length ≤ 33332)
    (q : Quant) (datasize degree maxDegree : Nat) (hdeg : 2 * degree / 3 ≤ maxDegree) (hv : 0 < vectorSize q dim datasize)
    (fuel : Nat) :
    ∃ budget C, 0 < budget ∧ strategy q datasize maxDegree rows.length dim budget = .merged ∧
      partitionData big order q datasize degree rows.length budget dim rows trainDraws testDraws draws (fuel + 1)
        = .ok 3 C.flatten ∧ Rect dim C ∧ C.length = 3 ∧
      ∃ assign maps, Sharding big order dim rows C assign maps ∧
      ∃ (s : Nat) (ids : List Nat), maps[s]? = some ids ∧ 2 * rows.length ≤ 3 * ids.length ∧
        budget < estimate q datasize (2 * degree / 3) ids.length dim := by
  set n := rows.length with hnn
  have hpp : 0 < perPoint q datasize (2 * degree / 3) dim := by
    unfold perPoint
    have : (0 : Rat) < ((vectorSize q dim datasize : Nat) : Rat) := by exact_mod_cast hv
    positivity
  have hm : 1 ≤ n * n / 50000 := by
    rw [Nat.one_le_div_iff (by decide)]
    calc 50000 ≤ 224 * 224 := by decide
      _ ≤ n * n := Nat.mul_le_mul hn hn
  have hmn : n * n / 50000 ≤ n := by
    apply Nat.div_le_of_le_mul
    rw [Nat.mul_comm 50000]
    exact Nat.mul_le_mul_left _ (by omega)
  have hb : (0 : Rat) < estimate q datasize (2 * degree / 3) (n * n / 50000) dim := by
    rw [estimate_linear]
    have : (0 : Rat) < ((n * n / 50000 : Nat) : Rat) := by exact_mod_cast hm
    positivity
  have hmono : ∀ a b : Nat, a ≤ b → estimate q datasize (2 * degree / 3) a dim ≤ estimate q datasize (2 * degree / 3) b dim := by
    intro a b hab
    rw [estimate_linear, estimate_linear]
    have : (a : Rat) ≤ b := by exact_mod_cast hab
    exact mul_le_mul_of_nonneg_right this hpp.le
  have hinit : initialParts (fun m => estimate q datasize (2 * degree / 3) m dim) (n * n / 50000) 2
      (estimate q datasize (2 * degree / 3) (n * n / 50000) dim) = 3 := by
    obtain ⟨_, h2, _, h4⟩ := C105_initial (fun m => estimate q datasize (2 * degree / 3) m dim) (n * n / 50000) 2 _ hb
    refine le_antisymm (h4 3 rfl le_rfl ?_) h2
    simp only [estimate_linear]
    push_cast
    have : 0 ≤ ((n * n / 50000 : Nat) : Rat) * perPoint q datasize (2 * degree / 3) dim := by positivity
    push_cast at this
    linarith
  obtain ⟨C, hC, h1, _⟩ := findLoop_step h.samples (fun m => estimate q datasize (2 * degree / 3) m dim) (50000 / n)
    (estimate q datasize (2 * degree / 3) (n * n / 50000) dim) hb.le (le_refl 2) 3 (by omega) 0 fuel
  have hC3 := hC.2.1
  obtain ⟨maps, m1, m2⟩ := sharding_exists big h.heap h.dimPos h.rect h.ne hC.1 (by omega)
  obtain ⟨c, hc, hlarge⟩ := exists_large (rows.map (closestOf big order 2 C)) 3 2 (by decide) (by
    intro cs hcs
    obtain ⟨r, _, rfl⟩ := List.mem_map.1 hcs
    have := closestOf_kNearest big h.heap (le_refl 2) (show 2 ≤ C.length by omega) r
    exact ⟨this.length, this.nodup, fun c hc => by rw [← hC3]; exact this.inside c hc⟩)
  rw [List.length_map] at hlarge
  obtain ⟨ids, hids⟩ : ∃ ids, maps[c]? = some ids :=
    ⟨maps[c]'(by rw [m1.2.2.2]; omega), List.getElem?_eq_getElem _⟩
  refine ⟨_, C, hb, ?_, ?_, hC.1, hC3, _, maps, m1, c, ids, hids, ?_, ?_⟩
  · unfold strategy
    rw [if_pos]
    rw [ge_iff_le, estimate_linear, estimate_linear]
    have h2 : perPoint q datasize (2 * degree / 3) dim ≤ perPoint q datasize maxDegree dim := by
      unfold perPoint
      have : ((2 * degree / 3 * 4 : Nat) : Rat) ≤ ((maxDegree * 4 : Nat) : Rat) := by
        exact_mod_cast Nat.mul_le_mul_right 4 hdeg
      linarith
    have h3 : ((n * n / 50000 : Nat) : Rat) ≤ (n : Rat) := by exact_mod_cast hmn
    exact mul_le_mul h3 h2 hpp.le (by positivity)
  · rw [h.find, hinit]
    apply h1
    intro c _
    rw [scaleUp_points]
    refine hmono _ _ (Nat.div_le_div_right (Nat.mul_le_mul_right _ ?_))
    unfold shardSize
    exact List.countP_le_length.trans (by simp [hnn])
  · rw [m2 c ids hids]; omega
  · rw [m2 c ids hids, estimate_linear, estimate_linear]
    have h2 : n * n / 50000 < shardSize (rows.map (closestOf big order 2 C)) c := by
      have : n * n ≤ n * 33332 := Nat.mul_le_mul_left _ hn'
      have := Nat.div_mul_le_self (n * n) 50000
      omega
    have : ((n * n / 50000 : Nat) : Rat) < ((shardSize (rows.map (closestOf big order 2 C)) c : Nat) : Rat) := by exact_mod_cast h2
    exact mul_lt_mul_of_pos_right this hpp

/-- **Disagreement.** A build can go on looking for a number of shards for ever: it is enough that the file consists of copies of
one vector, and that the limit is below the estimate for `n * n / 50000` of them. -/
theorem C105_copies_never_end {big : K} {order : List (K × Nat) → List (K × Nat)} {dim : Nat} {rows : List (List K)}
    {trainDraws testDraws : List Rat} {draws : Nat → Disk.Draws K}
    (h : SmallData big order dim rows rows.length trainDraws testDraws draws) (x : List K) (hx : ∀ r ∈ rows, r = x)
    (q : Quant) (datasize degree : Nat) (budget : Rat) (hb : 0 < budget)
    (hlt : budget < estimate q datasize (2 * degree / 3) (rows.length * rows.length / 50000) dim) (fuel : Nat) :
    partitionData big order q datasize degree rows.length budget dim rows trainDraws testDraws draws fuel = .running := by
  rw [h.find]
  obtain ⟨_, h2, _, _⟩ := C105_initial (fun m => estimate q datasize (2 * degree / 3) m dim)
    (rows.length * rows.length / 50000) 2 budget hb
  have hpos : (0 : Rat) < rows.length := by exact_mod_cast List.length_pos_iff.2 h.ne
  refine C105_never_ends h.samples (fun m => estimate q datasize (2 * degree / 3) m dim) ?_ _ budget (by positivity) hb.le
    (le_refl 2) _ (by omega) x ?_ ?_ fuel
  · intro a b hab
    dsimp only
    rw [estimate_linear, estimate_linear]
    have : (a : Rat) ≤ b := by exact_mod_cast hab
    exact mul_le_mul_of_nonneg_right this (perPoint_nonneg _ _ _ _)
  · rw [List.countP_eq_length.2 (by intro r hr; simpa using hx r hr), scaleUp_points]
    exact hlt
  · obtain ⟨r, rest, hr⟩ := List.exists_cons_of_ne_nil h.ne
    have : r ∈ rows := by rw [hr]; simp
    rw [← hx r this]
    exact this

omit [IsStrictOrderedRing K] in
/-- Without sampled vectors for training the search fails; with some for training and none for testing it panics. -/
theorem C105_empty_sample (big : K) (order : List (K × Nat) → List (K × Nat)) (est : Nat → Rat) (rate budget : Rat) (k dim : Nat)
    (rows test : List (List K)) (trainDraws testDraws : List Rat) (draws : Nat → Disk.Draws K) (fuel : Nat)
    (h1 : sample rows rate trainDraws = some []) (h2 : sample rows rate testDraws = some test) :
    findPartitionSize big order est rate budget k dim rows trainDraws testDraws draws (fuel + 1) = .err := by
  unfold findPartitionSize
  rw [h1, h2]
  dsimp only
  rw [findLoop]
  have : ∀ nc, clustering big order ([] : List (List K)).flatten ([] : List (List K)).length dim (List.replicate (nc * dim) 0) nc 10
      (draws 0) false = some (.error "cannot cluster an empty dataset") := by
    intro nc
    unfold clustering selectPivots
    rw [if_neg (by simp), if_neg (by simp), if_neg (by simp), if_pos (by simp)]
    rfl
  rw [this]

omit [IsStrictOrderedRing K] in
/-- A data set without vectors is reported as an error, in the call by the build too. -/
theorem C105_empty_file (big : K) (order : List (K × Nat) → List (K × Nat)) (est : Nat → Rat) (rate budget : Rat) (k dim : Nat)
    (trainDraws testDraws : List Rat) (draws : Nat → Disk.Draws K) (fuel : Nat) (q : Quant) (datasize degree maxPoints : Nat) :
    findPartitionSize big order est rate budget k dim [] trainDraws testDraws draws fuel = .err ∧
    partitionData big order q datasize degree maxPoints budget dim [] trainDraws testDraws draws fuel = .err := by
  constructor <;> simp [partitionData, findPartitionSize, sample]

/-- **Disagreement.** See `C105_empty_sample`: no sampled vectors for testing are a panic. -/
theorem C105_empty_test_panics {big : K} {order : List (K × Nat) → List (K × Nat)} {dim : Nat} {rows train : List (List K)}
    {trainDraws testDraws : List Rat} {draws : Nat → Disk.Draws K} (hd : 0 < dim) (hr : Rect dim train)
    (hne : train ≠ []) (hl : train.length ≤ 2 ^ 23) (hbig : Bounded big train) (hf : ∀ i, Disk.Fair train.length (draws i))
    (est : Nat → Rat) (rate budget : Rat) (k fuel : Nat)
    (h1 : sample rows rate trainDraws = some train) (h2 : sample rows rate testDraws = some []) :
    findPartitionSize big order est rate budget k dim rows trainDraws testDraws draws (fuel + 1) = .panic := by
  unfold findPartitionSize
  rw [h1, h2]
  dsimp only
  have h3 : 3 ≤ initialParts est (scaleUp train.length rate) k budget := by
    unfold initialParts
    dsimp only
    split <;> omega
  obtain ⟨C, s, e1, _⟩ := clustering_ok big order hd hr hne hl hbig
    (initialParts est (scaleUp train.length rate) k budget) (by omega) (hf 0)
  rw [findLoop, e1]
  rfl

/-- **Disagreement.** Shards can be empty: if all vectors are equal, then at most two of the id maps are not, whatever the
centers. Building the graph of an empty shard fails (C100). -/
theorem C105_empty_shards (big : K) {order : List (K × Nat) → List (K × Nat)} (ho : HeapOrder order) {dim : Nat} (hd : 0 < dim)
    {rows C : List (List K)} (hr : Rect dim rows) (h0 : rows ≠ []) (hc : Rect dim C) (hC : 2 ≤ C.length) (x : List K)
    (hx : ∀ r ∈ rows, r = x) :
    ∃ assign maps, Sharding big order dim rows C assign maps ∧ (maps.countP fun ids => ids = []) = C.length - 2 := by
  obtain ⟨maps, m1, m2⟩ := sharding_exists big ho hd hr h0 hc hC
  refine ⟨_, maps, m1, ?_⟩
  have hk := closestOf_kNearest big ho (le_refl 2) hC x
  have hpos : 0 < rows.length := List.length_pos_iff.2 h0
  have hsize : ∀ s, shardSize (rows.map (closestOf big order 2 C)) s = if s ∈ closestOf big order 2 C x then rows.length else 0 := by
    intro s
    unfold shardSize
    rw [List.countP_map]
    split
    · rename_i hs
      rw [List.countP_eq_length]
      intro r hr'
      rw [hx r hr']
      simpa using hs
    · rename_i hs
      rw [List.countP_eq_zero]
      intro r hr'
      rw [hx r hr']
      simpa using hs
  have hml := m1.2.2.2
  have hmap : maps.map (fun ids => decide (ids = [])) =
      (List.range C.length).map fun s => !decide (s ∈ closestOf big order 2 C x) := by
    apply List.ext_getElem
    · simp [hml]
    intro i h1 h2
    simp only [List.getElem_map, List.getElem_range]
    have hi : i < maps.length := by simpa using h1
    have := m2 i maps[i] (List.getElem?_eq_getElem hi)
    rw [hsize] at this
    by_cases e : i ∈ closestOf big order 2 C x
    · rw [if_pos e] at this
      have : maps[i] ≠ [] := by intro e'; rw [e'] at this; simp at this; omega
      simp [e, this]
    · rw [if_neg e] at this
      have : maps[i] = [] := List.length_eq_zero_iff.1 this
      simp [e, this]
  have h1 : (maps.countP fun ids => ids = []) = ((List.range C.length).countP fun s => !decide (s ∈ closestOf big order 2 C x)) := by
    have := congrArg (List.countP id) hmap
    rw [List.countP_map, List.countP_map] at this
    exact this
  rw [h1]
  have h2 : ((List.range C.length).countP fun s => decide (s ∈ closestOf big order 2 C x)) = 2 := by
    rw [List.countP_eq_length_filter]
    refine Eq.trans (List.Perm.length_eq ?_) hk.length
    apply (List.perm_ext_iff_of_nodup (List.nodup_range.filter _) hk.nodup).2
    intro a
    simp only [List.mem_filter, List.mem_range, decide_eq_true_eq]
    exact ⟨fun h => h.2, fun h => ⟨hk.inside a h, h⟩⟩
  have h3 := List.length_eq_countP_add_countP (fun s => decide (s ∈ closestOf big order 2 C x)) (l := List.range C.length)
  rw [List.length_range, h2] at h3
  simp only [decide_not, Bool.not_eq_true, decide_eq_false_iff_not] at h3 ⊢
  omega

/-! ## Non-vacuity -/

def exDraws : Nat → Disk.Draws Rat := fun _ => ⟨1, fun _ => 1 / 2, fun _ => 0⟩

def exRows : List (List Rat) := [[0], [4], [4], [20], [21], [40]]

theorem exDraws_fair (n : Nat) (h : 2 ≤ n) (i : Nat) : Disk.Fair n (exDraws i) :=
  ⟨by show 1 < n; omega, fun _ => ⟨by norm_num [exDraws], by norm_num [exDraws]⟩, fun _ => by show 0 < n; omega⟩

theorem exSamples : Samples 10000 sortPairs 1 exRows exRows exDraws :=
  ⟨sortPairs_heap, by decide, by simp [Rect, exRows], by simp [Rect, exRows], by decide, by decide, by decide,
    by unfold Bounded; decide +kernel, exDraws_fair _ (by decide)⟩

/-- Three shards have sizes 5, 1 and 6, which is too much for a limit of four vectors; five shards fit. -/
example : findLoop 10000 sortPairs (fun n => (n : Rat)) 1 4 2 1 exRows exRows exDraws 3 0 3 = .ok 5 [4, 40, 21, 0, 20] := by
  decide +kernel

/-- Two copies, and a limit of one vector. -/
example (fuel : Nat) : findLoop 10000 sortPairs (fun n => (n : Rat)) 1 1 2 1 exRows exRows exDraws fuel 0 3 = .running :=
  C105_never_ends exSamples _ (fun a b h => by exact_mod_cast h) 1 1 (by norm_num) (by norm_num) (le_refl 2) 3
    (by decide) [4] (by decide +kernel) (by decide) fuel

theorem exSmall (n maxPoints : Nat) (hn : 2 ≤ n) (hn' : n ≤ 50000) (hp : 0 < maxPoints) (hp' : maxPoints ≤ 50000) :
    SmallData 1 sortPairs 1 (List.replicate n [(7 : Rat)]) maxPoints (List.replicate n (1 / 2)) (List.replicate n 0) exDraws := by
  refine ⟨sortPairs_heap, by decide, ?_, ?_, by rw [List.length_replicate]; omega, ?_, ?_, ?_, ?_, hp, hp'⟩
  · intro r hr; rw [(List.mem_replicate.1 hr).2]; rfl
  · intro h; have := congrArg List.length h; simp at this; omega
  · intro x hx
    rw [(List.mem_replicate.1 hx).2, List.map_replicate]
    have : distSq [(7 : Rat)] [7] = 0 := by decide +kernel
    rw [this, List.sum_replicate]
    simp
  · refine ⟨by simp, fun d hd => ?_⟩
    rw [(List.mem_replicate.1 hd).2]
    norm_num
  · refine ⟨by simp, fun d hd => ?_⟩
    rw [(List.mem_replicate.1 hd).2]
    norm_num
  · rw [List.length_replicate]; exact exDraws_fair n hn

/-- Ten thousand vectors of one `f32`, degree 60. -/
example := C105_over_budget (by rw [List.length_replicate]; exact exSmall 10000 10000 (by decide) (by decide) (by decide) (by decide))
  (by rw [List.length_replicate]; decide) (by rw [List.length_replicate]; decide) .fp 4 60 78 (by decide) (by decide) 0

/-- For ten thousand copies and a limit of ten thousand bytes the search never ends. -/
example (fuel : Nat) : partitionData 1 sortPairs .fp 4 60 (List.replicate 10000 [(7 : Rat)]).length 10000 1
    (List.replicate 10000 [(7 : Rat)]) (List.replicate 10000 (1 / 2)) (List.replicate 10000 0) exDraws fuel = .running :=
  C105_copies_never_end (by rw [List.length_replicate]; exact exSmall 10000 10000 (by decide) (by decide) (by decide) (by decide))
    [7] (fun r hr => (List.mem_replicate.1 hr).2) .fp 4 60 10000 (by norm_num) (by
      rw [List.length_replicate, estimate_linear]
      norm_num [perPoint, vectorSize]) fuel

/-- Three copies are split over three shards, one of which is empty. -/
example : ∃ assign maps, Sharding 1000 sortPairs 1 [[(7 : Rat)], [7], [7]] [[7], [7], [0]] assign maps ∧
    (maps.countP fun ids => ids = []) = 1 :=
  C105_empty_shards 1000 sortPairs_heap (by decide) (by simp [Rect]) (by decide) (by simp [Rect]) (by decide) [7] (by simp)

/-- A file of two vectors, sampled at a rate of one half. -/
example : findPartitionSize 1000 sortPairs (fun n => (n : Rat)) (1 / 2) 100 2 1 [[0], [1]] [3 / 4, 3 / 4] [0, 0] exDraws 1 = .err ∧
    findPartitionSize 1000 sortPairs (fun n => (n : Rat)) (1 / 2) 100 2 1 [[0], [1]] [0, 0] [3 / 4, 3 / 4] exDraws 1 = .panic := by
  decide +kernel

example : ∃ C, findPartitionSize 10000 sortPairs (fun n => (n : Rat)) (1 / 2) 100 2 1 exRows (List.replicate 6 (1 / 4))
    (List.replicate 6 (1 / 4)) exDraws 1 = .ok 3 C := ⟨[8 / 3, 40, 41 / 2], by decide +kernel⟩

end Verif.Shard
