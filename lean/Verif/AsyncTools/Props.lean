import Verif.AsyncTools.Lemmas

namespace Verif.AsyncTools

/-! ## C27 partition -/

/-- **C27.** Splitting `n` items among `t > 0` tasks: a task number is rejected exactly when it is
not below `t`; otherwise it gets a range. Every item index below `n` lies in the range of exactly
one task; ranges contain nothing else; task `j`'s range ends where task `j+1`'s begins (contiguous
and in order, from `0` to `n`); any two range lengths differ by at most one. -/
theorem C27_partition (n t : Nat) (ht : 0 < t) :
    (∀ j, partition n t j = none ↔ t ≤ j) ∧
    (∀ x, x < n → ∃! j, ∃ r, partition n t j = some r ∧ r.1 ≤ x ∧ x < r.2) ∧
    (∀ j r, partition n t j = some r → r.1 ≤ r.2 ∧ r.2 ≤ n) ∧
    (∀ r, partition n t 0 = some r → r.1 = 0) ∧
    (∀ r, partition n t (t - 1) = some r → r.2 = n) ∧
    (∀ j r r', partition n t j = some r → partition n t (j + 1) = some r' → r.2 = r'.1) ∧
    (∀ j j' r r', partition n t j = some r → partition n t j' = some r' →
      r.2 - r.1 ≤ (r'.2 - r'.1) + 1) := by
  have key : ∀ j r, partition n t j = some r ↔ j < t ∧ r = (bound n t j, bound n t (j+1)) := by
    intro j r
    unfold partition
    split
    · simp; omega
    · rename_i h
      rw [impl_eq]; simp only [Option.some.injEq]
      constructor
      · rintro rfl; exact ⟨by omega, rfl⟩
      · rintro ⟨-, rfl⟩; rfl
  refine ⟨?_, ?_, ?_, ?_, ?_, ?_, ?_⟩
  · intro j; unfold partition; split <;> simp <;> omega
  · intro x hx
    -- existence by searching the least j with x < bound (j+1)
    have hex : ∃ j, x < bound n t (j + 1) := ⟨t - 1, by
      have : t - 1 + 1 = t := by omega
      rw [this, bound_last ht]; exact hx⟩
    classical
    let j := Nat.find hex
    have hj : x < bound n t (j + 1) := Nat.find_spec hex
    have hjt : j < t := by
      have : j ≤ t - 1 := Nat.find_min' hex (by
        have : t - 1 + 1 = t := by omega
        rw [this, bound_last ht]; exact hx)
      omega
    have hjl : bound n t j ≤ x := by
      by_cases h0 : j = 0
      · rw [h0]; simp [bound]
      · have := Nat.find_min hex (m := j - 1) (by omega)
        have e : j - 1 + 1 = j := by omega
        rw [e] at this; omega
    refine ⟨j, ⟨_, (key j _).2 ⟨hjt, rfl⟩, hjl, hj⟩, ?_⟩
    rintro j' ⟨r, hr, h1, h2⟩
    obtain ⟨hj't, rfl⟩ := (key _ _).1 hr
    simp only at h1 h2
    rcases Nat.lt_trichotomy j' j with h | h | h
    · have := bound_mono (n := n) (t := t) (a := j'+1) (b := j) (by omega)
      omega
    · exact h
    · have := bound_mono (n := n) (t := t) (a := j+1) (b := j') (by omega)
      omega
  · intro j r hr
    obtain ⟨hj, rfl⟩ := (key _ _).1 hr
    refine ⟨bound_mono (by omega), ?_⟩
    have := bound_mono (n := n) (t := t) (a := j+1) (b := t) (by omega)
    rw [bound_last ht] at this; exact this
  · intro r hr
    obtain ⟨-, rfl⟩ := (key _ _).1 hr
    simp [bound]
  · intro r hr
    obtain ⟨-, rfl⟩ := (key _ _).1 hr
    have : t - 1 + 1 = t := by omega
    simp only [this, bound_last ht]
  · intro j r r' hr hr'
    obtain ⟨-, rfl⟩ := (key _ _).1 hr
    obtain ⟨-, rfl⟩ := (key _ _).1 hr'
    rfl
  · intro j j' r r' hr hr'
    obtain ⟨-, rfl⟩ := (key _ _).1 hr
    obtain ⟨-, rfl⟩ := (key _ _).1 hr'
    simp only [bound, Nat.add_mul, Nat.one_mul]
    generalize j * (n / t) = a
    generalize j' * (n / t) = b
    omega

/-- The iterator form yields the same ranges as `partition`, one per task, in order. -/
theorem C27_partition_iter (n t : Nat) :
    (partitionIter n t).length = t ∧
    ∀ j, (partitionIter n t)[j]? = partition n t j := by
  constructor
  · simp [partitionIter]
  · intro j
    simp only [partitionIter, partition, List.getElem?_map]
    split
    · rename_i h; simp [h]
    · rename_i h
      have : j < t := by omega
      simp [this]

/-- non-vacuity: 11 items over 4 tasks -/
example : partitionIter 11 4 = [(0, 3), (3, 6), (6, 9), (9, 11)] := by decide

/-! ## C29 chunks -/

/-- **C29.** The chunks, concatenated, are the batch; every chunk is non-empty and at most
`chunkSize` long; every chunk except possibly the last has exactly `chunkSize` elements. -/
theorem C29_arc_chunks {T : Type} (s : List T) (cs : Nat) (hcs : 0 < cs) :
    (arcChunks s cs).flatten = s ∧
    (∀ c ∈ arcChunks s cs, 0 < c.length ∧ c.length ≤ cs) ∧
    (∀ i, i + 1 < (arcChunks s cs).length → ∀ c, (arcChunks s cs)[i]? = some c → c.length = cs) := by
  have hn : ∀ c, c < (s.length + cs - 1) / cs → cs * c < s.length := by
    intro c hc
    have h1 : (c + 1) * cs ≤ s.length + cs - 1 := (Nat.le_div_iff_mul_le hcs).1 hc
    rw [Nat.add_mul, Nat.one_mul, Nat.mul_comm] at h1; omega
  refine ⟨?_, ?_, ?_⟩
  · unfold arcChunks
    refine chunks_aux cs hcs _ s ?_
    have h1 := Nat.div_add_mod (s.length + cs - 1) cs
    have h2 := Nat.mod_lt (s.length + cs - 1) hcs
    omega
  · intro c hc
    simp only [arcChunks, List.mem_map, List.mem_range] at hc
    obtain ⟨k, hk, rfl⟩ := hc
    have := hn k hk
    simp; omega
  · intro i hi c hc
    simp only [arcChunks, List.length_map, List.length_range] at hi
    have := hn (i+1) hi
    simp only [arcChunks, List.getElem?_map] at hc
    rw [List.getElem?_range (by omega)] at hc
    simp only [Option.map_some, Option.some.injEq] at hc
    subst hc
    rw [Nat.mul_add, Nat.mul_one] at this
    simp; omega

example : arcChunks [1,2,3,4,5,6,7] 3 = [[1,2,3],[4,5,6],[7]] := by decide

/-! ## C28 around -/

/-- **C28.** For a non-empty batch and an in-range position `i`, the iterator produces the batch
elements at a list of positions `idx` such that: there are exactly `min len (n-1)` of them, all are
valid positions, none is `i`, no position repeats (and no access is out of bounds: every produced
item is the element at its position). -/
theorem C28_around {T : Type} (s : List T) (i len : Nat) (hi : i < s.length) :
    ∃ idx : List Nat,
      around s i len = idx.map (fun j => s[j]?) ∧
      idx.length = min len (s.length - 1) ∧
      (∀ j ∈ idx, j < s.length ∧ j ≠ i) ∧
      idx.Nodup := by
  have hs : s ≠ [] := by rintro rfl; simp at hi
  have hi' : min i (s.length - 1) = i := by omega
  refine ⟨(List.range (min len (s.length - 1))).map
    (windowIndex s.length i ((min len (s.length - 1) + 1) / 2)), ?_, by simp, ?_, ?_⟩
  · rw [around_eq s i len hs, hi', List.map_map]; rfl
  · intro j hj
    simp only [List.mem_map, List.mem_range] at hj
    obtain ⟨k, hk, rfl⟩ := hj
    refine ⟨Nat.mod_lt _ (by omega), ?_⟩
    unfold windowIndex
    split
    · intro hc
      have := (mod_eq_skip (k := k+1) hi (by omega) (by omega : (min len (s.length - 1) + 1) / 2 < s.length)).1 (by rw [← Nat.add_assoc]; exact hc)
      omega
    · intro hc
      have := (mod_eq_skip (k := k) hi (by omega) (by omega : (min len (s.length - 1) + 1) / 2 < s.length)).1 (by simpa using hc)
      omega
  · refine List.Nodup.map_on ?_ List.nodup_range
    intro a ha b hb h
    simp only [List.mem_range] at ha hb
    exact windowIndex_inj hi (by omega) (by omega) (by omega) h

/-- C28, window shape: the `k`-th item produced is the batch element `half - k` places to the left
of `i` (circularly) for `k < half`, and `k - half + 1` places to the right for `k ≥ half`, where
`half = ⌈L/2⌉` and `L = min len (n-1)`: a window around `i`, biased left for odd lengths. An
out-of-range `i` is treated as the last position; an empty batch gives nothing. -/
theorem C28_around_window {T : Type} (s : List T) (i len k : Nat) (hs : s ≠ [])
    (hk : k < min len (s.length - 1)) :
    let n := s.length
    let half := (min len (n - 1) + 1) / 2
    let c := min i (n - 1)
    (around s i len)[k]? = some
      (if k < half then s[(c + (n - (half - k))) % n]? else s[(c + (k - half + 1)) % n]?) := by
  intro n half c
  rw [around_eq s i len hs]
  simp only [List.getElem?_map, List.getElem?_range hk, Option.map_some]
  congr 1
  unfold windowIndex
  have hn : half < n := by simp only [half, n]; omega
  have hc : min i (s.length - 1) = c := rfl
  have hh : (min len (s.length - 1) + 1) / 2 = half := rfl
  have hnn : s.length = n := rfl
  rw [hc, hh, hnn]
  by_cases h : k < half
  · rw [if_neg (by omega : ¬ half ≤ k), if_pos h]
    congr 2
    omega
  · rw [if_pos (by omega : half ≤ k), if_neg h]
    congr 1
    have : c + (n - half) + k + 1 = (c + (k - half + 1)) + n := by omega
    rw [this, Nat.add_mod_right]

theorem C28_around_empty {T : Type} (i len : Nat) : around ([] : List T) i len = [] := by
  unfold around Around.new; simp [collect_none]

example : around [10, 11, 12, 13, 14, 15] 3 3 = [some 11, some 12, some 14] := by
  simp [around, Around.new, Around.collect, Around.next, Around.inc]

/-! ## C26 DynamicBalancer -/

/-- **C26.** `T` workers share a balancer over `len` items; `sched` is any interleaving of their
atomic steps (the machine word does not wrap as long as `len + T < 2^64`). Then: the process never
aborts; the indices handed out so far are `0, 1, ..., m-1` in that order for some `m ≤ len` — each
valid item at most once and nothing else; and whenever some call returned "exhausted", all `len`
items had already been handed out before it (so none is lost, and none is handed out after). -/
theorem C26_balancer_exactly_once (T len : Nat) (hW : len + T < 2 ^ 64) (sched : List (Fin T)) :
    let s := Balancer.run len sched
    s.aborted = false ∧
    (∃ m ≤ len, handedOut s.log = List.range m) ∧
    (∀ pre t post, s.log = pre ++ .exhausted t :: post →
      handedOut pre = List.range len ∧ handedOut post = []) := by
  intro s
  have h := inv_run hW sched
  refine ⟨h.alive, ⟨_, h.le, h.order⟩, ?_⟩
  intro pre t post heq
  have h1 := h.none_full pre t post heq
  have h2 := h.order
  have h3 := h.le
  have h4 : handedOut (Balancer.run len sched).log = handedOut pre ++ handedOut post := by
    show handedOut s.log = _
    rw [heq, handedOut_append]; simp [handedOut]
  have h5 : (handedOut post).length = 0 := by
    rw [h4, List.length_append] at h3; omega
  have h6 := List.eq_nil_of_length_eq_zero h5
  refine ⟨?_, h6⟩
  rw [h4, h6, List.append_nil, h1] at h2
  exact h2

/-- Progress companion to C26: if fewer than `len` items have been handed out and no call is in
flight past the end, the next call by any worker hands out the next item — in particular `len`
calls from the start hand out everything. -/
theorem C26_balancer_progress (T len : Nat) (hW : len + T < 2 ^ 64) (sched : List (Fin T))
    (t : Fin T) (h : (handedOut (Balancer.run len sched).log).length < len) :
    handedOut ((Balancer.run len sched).step len t).log
      = handedOut (Balancer.run len sched).log ++ [(handedOut (Balancer.run len sched).log).length] := by
  have hi := inv_run hW sched
  generalize Balancer.run len sched = s at *
  have h0 : pendingCount s.pending = 0 := by
    by_contra hne
    have := hi.full (by omega)
    omega
  have hpt : s.pending t = false := by
    by_contra hne
    have := pendingCount_clear s.pending t (by simpa using hne)
    omega
  have hc := hi.count
  unfold Balancer.step
  rw [if_neg (by simp [hi.alive]), if_neg (by simp [hpt])]
  simp only
  rw [if_pos (by omega)]
  simp only [handedOut_append]
  have e : s.current = (handedOut s.log).length := by omega
  rw [e]; rfl

/-- non-vacuity: three workers, two items, one put-back racing with others -/
example : (Balancer.run 2 ([0, 1, 2, 0, 2, 0, 1] : List (Fin 3))).log
    = [.yielded 0 0, .yielded 1 1, .exhausted 2, .exhausted 0] := by decide

end Verif.AsyncTools
