import Verif.Search.FlatModel
import Verif.Search.BufferProps
import Verif.Queue.Props
/-!
# C89: flat search returns the exact nearest neighbours
-/
namespace Verif.Search.Flat

open Verif.Queue Verif.Search

variable {I D : Type} [DecidableEq I] [LinearOrder D]

theorem foldlM_onPair (pad : D) (xs : List (I × Option D)) (c : Nat) (q : Queue I D) (h : c + xs.length < 4294967296) :
    xs.foldlM (onPair pad) (c, q) = (feed pad q xs).map (fun q' => (c + xs.length, q')) := by
  induction xs generalizing c q with
  | nil => simp [feed]
  | cons x xs ih =>
    simp only [List.length_cons] at h
    unfold feed
    simp only [List.foldlM_cons, onPair]
    rw [if_pos (by omega)]
    cases hq : q.insert pad x.1 x.2 with
    | none => rfl
    | some q' =>
      simp only [Option.map_some, Option.bind_eq_bind, Option.bind_some]
      rw [ih (c + 1) q' (by omega)]
      unfold feed
      simp only [List.length_cons]
      congr 1
      funext q''
      rw [Nat.add_assoc, Nat.add_comm 1]

theorem runScan_spec (pad : D) (k : Nat) (hk : 1 ≤ k) (xs : List (I × Option D)) (h : xs.length < 4294967296) :
    ∃ q, runScan pad k xs = some (xs.length, q) ∧ q.iter = bestOf k xs := by
  obtain ⟨q, h1, -, h3⟩ := C01_queue_best_l pad k hk xs
  refine ⟨q, ?_, h3⟩
  unfold runScan
  rw [foldlM_onPair pad xs 0 _ (by omega), h1]
  simp

theorem bestOf_take_self (k : Nat) (xs : List (I × Option D)) : (bestOf k xs).take k = bestOf k xs := by
  unfold bestOf; rw [List.take_take, Nat.min_self]

theorem foldlM_onPair_over (pad : D) (xs : List (I × Option D)) (c : Nat) (q : Queue I D) (hc : c < 4294967296)
    (h : 4294967296 ≤ c + xs.length) : xs.foldlM (onPair pad) (c, q) = none := by
  induction xs generalizing c q with
  | nil => simp only [List.length_nil] at h; omega
  | cons x xs ih =>
    simp only [List.length_cons] at h
    simp only [List.foldlM_cons, onPair]
    by_cases hc' : c + 1 < 4294967296
    · rw [if_pos hc']
      cases hq : q.insert pad x.1 x.2 with
      | none => rfl
      | some q' =>
        simp only [Option.map_some, Option.bind_eq_bind, Option.bind_some]
        exact ih (c + 1) q' hc' (by omega)
    · rw [if_neg hc']
      rfl

/-- A strategy whose every step succeeds. -/
def Strategy.healthy (st : Strategy I D) : Prop :=
  st.visitorOk = true ∧ st.computerOk = true ∧ st.scan.ending = .finished

/-- A buffer the caller may hand over: slices of equal length, of which a prefix is in use. -/
def Ready (b : Buf I D) : Prop := b.ids.length = b.distances.length ∧ b.position ≤ b.ids.length

theorem knnSearch_healthy (pad : D) (k : Nat) (hk : 1 ≤ k) (st : Strategy I D) (hs : st.healthy) (post : Post I D)
    (out : Buf I D) (hn : st.scan.calls.length < 4294967296) :
    ∃ q : Queue I D, q.iter = bestOf k st.scan.calls ∧
      knnSearch pad k st post out = some (finish k post out (st.scan.calls.length, q)) := by
  obtain ⟨q, h1, h2⟩ := runScan_spec pad k hk st.scan.calls hn
  refine ⟨q, h2, ?_⟩
  obtain ⟨a, b, c⟩ := hs
  unfold knnSearch
  rw [if_neg (by rw [a]; decide), if_neg (by rw [b]; decide), h1, c]
  rfl

/-- **C89.** For every collection the visitor streams (in whatever order, with NaN distances, ties and repetitions),
every `k ≥ 1` and every buffer with room for `k` results, the search succeeds, counts one comparison per element, and
appends exactly the nearest elements to the buffer: `min k (number of comparable elements)` of them, in order of
increasing distance, and no element left out is nearer than one that was returned. -/
theorem C89_exact (pad : D) (k : Nat) (hk : 1 ≤ k) (st : Strategy I D) (hs : st.healthy)
    (hn : st.scan.calls.length < 4294967296) (out : Buf I D) (hr : Ready out)
    (hroom : k ≤ out.ids.length - out.position) :
    ∃ out' found rejected,
      knnSearch pad k st copyIds out = some (.ok ⟨st.scan.calls.length, found.length % 4294967296⟩, out') ∧
      out'.written = out.written ++ found ∧
      found.length = min k (comparable st.scan.calls).length ∧
      found.Pairwise (fun a b => a.2 ≤ b.2) ∧
      (found ++ rejected).Perm (comparable st.scan.calls) ∧
      ∀ a ∈ found, ∀ b ∈ rejected, a.2 ≤ b.2 := by
  obtain ⟨q, h1, h2⟩ := knnSearch_healthy pad k hk st hs copyIds out hn
  obtain ⟨m1, m2, rej, m3, m4⟩ := C01_bestOf_meaning k st.scan.calls
  refine ⟨(out.extend (bestOf k st.scan.calls)).2, bestOf k st.scan.calls, rej, ?_, ?_, m2, m1, m3, m4⟩
  · rw [h2]
    unfold finish copyIds
    dsimp only
    rw [h1, bestOf_take_self, (extend_closed out _ hr.1 hr.2).1, m2]
    congr 5
    omega
  · rw [written_extend out _ hr.1 hr.2, List.take_of_length_le (by rw [m2]; omega)]

/-- C89: with less room than `k`, the buffer receives the nearest elements that fit and the count says how many. -/
theorem C89_small_buffer (pad : D) (k : Nat) (hk : 1 ≤ k) (st : Strategy I D) (hs : st.healthy)
    (hn : st.scan.calls.length < 4294967296) (out : Buf I D) (hr : Ready out)
    (hroom : out.ids.length - out.position ≤ k) :
    ∃ out' found rejected,
      knnSearch pad k st copyIds out = some (.ok ⟨st.scan.calls.length, found.length % 4294967296⟩, out') ∧
      out'.written = out.written ++ found ∧
      found.length = min (out.ids.length - out.position) (comparable st.scan.calls).length ∧
      found.Pairwise (fun a b => a.2 ≤ b.2) ∧
      (found ++ rejected).Perm (comparable st.scan.calls) ∧
      ∀ a ∈ found, ∀ b ∈ rejected, a.2 ≤ b.2 := by
  obtain ⟨q, h1, h2⟩ := knnSearch_healthy pad k hk st hs copyIds out hn
  obtain ⟨m1, m2, rej, m3, m4⟩ := C01_bestOf_meaning (out.ids.length - out.position) st.scan.calls
  have hb : (bestOf k st.scan.calls).take (out.ids.length - out.position)
      = bestOf (out.ids.length - out.position) st.scan.calls := by
    unfold bestOf; rw [List.take_take, Nat.min_eq_left hroom]
  have hl : (bestOf k st.scan.calls).length = min k (comparable st.scan.calls).length :=
    (C01_bestOf_meaning k st.scan.calls).2.1
  refine ⟨(out.extend (bestOf k st.scan.calls)).2, bestOf (out.ids.length - out.position) st.scan.calls, rej,
    ?_, ?_, m2, m1, m3, m4⟩
  · rw [h2]
    unfold finish copyIds
    dsimp only
    rw [h1, bestOf_take_self, (extend_closed out _ hr.1 hr.2).1, m2, hl]
    congr 5
    omega
  · rw [written_extend out _ hr.1 hr.2, hb]

theorem bestOf_dists_perm (k : Nat) (xs ys : List (I × Option D)) (h : xs.Perm ys) :
    (bestOf k xs).map (·.2) = (bestOf k ys).map (·.2) := by
  haveI : Std.Total (fun a b : I × D => a.2 ≤ b.2) := ⟨fun a b => le_total a.2 b.2⟩
  haveI : IsTrans (I × D) (fun a b => a.2 ≤ b.2) := ⟨fun a b c h1 h2 => le_trans (α := D) h1 h2⟩
  unfold bestOf
  rw [List.map_take, List.map_take]
  congr 1
  have hp : ((comparable xs).reverse.insertionSort (fun a b => a.2 ≤ b.2)).Perm
      ((comparable ys).reverse.insertionSort (fun a b => a.2 ≤ b.2)) :=
    (List.perm_insertionSort _ _).trans ((List.reverse_perm _).trans
      ((h.filterMap _).trans ((List.reverse_perm _).symm.trans (List.perm_insertionSort _ _).symm)))
  have s1 := List.pairwise_insertionSort (fun a b : I × D => a.2 ≤ b.2) (comparable xs).reverse
  have s2 := List.pairwise_insertionSort (fun a b : I × D => a.2 ≤ b.2) (comparable ys).reverse
  refine List.Perm.eq_of_pairwise (le := fun a b : D => a ≤ b) ?_ (List.pairwise_map.2 s1) (List.pairwise_map.2 s2) (hp.map _)
  intro a b _ _ h1 h2
  exact le_antisymm h1 h2

theorem bestOf_perm_distinct (k : Nat) (xs ys : List (I × Option D)) (h : xs.Perm ys)
    (hd : ((comparable xs).map (·.2)).Nodup) : bestOf k xs = bestOf k ys := by
  haveI : Std.Total (fun a b : I × D => a.2 ≤ b.2) := ⟨fun a b => le_total a.2 b.2⟩
  haveI : IsTrans (I × D) (fun a b => a.2 ≤ b.2) := ⟨fun a b c h1 h2 => le_trans (α := D) h1 h2⟩
  unfold bestOf
  congr 1
  have hp : ((comparable xs).reverse.insertionSort (fun a b => a.2 ≤ b.2)).Perm
      ((comparable ys).reverse.insertionSort (fun a b => a.2 ≤ b.2)) :=
    (List.perm_insertionSort _ _).trans ((List.reverse_perm _).trans
      ((h.filterMap _).trans ((List.reverse_perm _).symm.trans (List.perm_insertionSort _ _).symm)))
  refine List.Perm.eq_of_pairwise (le := fun a b : I × D => a.2 ≤ b.2) ?_
    (List.pairwise_insertionSort _ _) (List.pairwise_insertionSort _ _) hp
  intro a b ha hb h1 h2
  have ha' : a ∈ comparable xs := List.mem_reverse.1 ((List.perm_insertionSort _ _).mem_iff.1 ha)
  have hb' : b ∈ comparable xs := List.mem_reverse.1 ((List.perm_insertionSort _ _).mem_iff.1 (hp.mem_iff.2 hb))
  exact List.inj_on_of_nodup_map hd ha' hb' (le_antisymm h1 h2)

/-- C89: the order in which the provider streams its elements does not matter.  Two scans of the same elements give
the same distances; if no two elements are at the same distance, the same elements. -/
theorem C89_order_free (pad : D) (k : Nat) (hk : 1 ≤ k) (st st' : Strategy I D) (hs : st.healthy) (hs' : st'.healthy)
    (hn : st.scan.calls.length < 4294967296) (hp : st.scan.calls.Perm st'.scan.calls)
    (out : Buf I D) (hr : Ready out) :
    ∃ s b s' b', knnSearch pad k st copyIds out = some (.ok s, b) ∧ knnSearch pad k st' copyIds out = some (.ok s', b') ∧
      s = s' ∧ b.written.map (·.2) = b'.written.map (·.2) ∧
      (((comparable st.scan.calls).map (·.2)).Nodup → b.written = b'.written) := by
  obtain ⟨q, h1, h2⟩ := knnSearch_healthy pad k hk st hs copyIds out hn
  obtain ⟨q', h1', h2'⟩ := knnSearch_healthy pad k hk st' hs' copyIds out (hp.length_eq ▸ hn)
  refine ⟨_, _, _, _, h2, h2', ?_, ?_, ?_⟩
  · rw [h1, h1', bestOf_take_self, bestOf_take_self, (extend_closed out _ hr.1 hr.2).1,
      (extend_closed out _ hr.1 hr.2).1, hp.length_eq]
    have : (bestOf k st.scan.calls).length = (bestOf k st'.scan.calls).length := by
      simpa using congrArg List.length (bestOf_dists_perm k _ _ hp)
    rw [this]
  · rw [h1, h1', bestOf_take_self, bestOf_take_self, written_extend out _ hr.1 hr.2, written_extend out _ hr.1 hr.2,
      List.map_append, List.map_append, List.map_take, List.map_take, bestOf_dists_perm k _ _ hp]
  · intro hd
    rw [h1, h1', bestOf_take_self, bestOf_take_self, written_extend out _ hr.1 hr.2, written_extend out _ hr.1 hr.2,
      bestOf_perm_distinct k _ _ hp hd]

/-- C89: a search that does not see the whole collection returns nothing.  If the visitor or the computer cannot be
built, or the scan ends with an error of any kind (even a transient one, and however many elements it delivered
before), the search is an error and the caller's buffer is unchanged. -/
theorem C89_no_partial_results (pad : D) (k : Nat) (hk : 1 ≤ k) (st : Strategy I D) (hs : ¬ st.healthy)
    (post : Post I D) (out : Buf I D) (hn : st.scan.calls.length < 4294967296) :
    ∃ e, knnSearch pad k st post out = some (.error e, out) := by
  unfold knnSearch
  by_cases a : st.visitorOk = false
  · exact ⟨_, if_pos a⟩
  · rw [if_neg a]
    by_cases b : st.computerOk = false
    · exact ⟨_, if_pos b⟩
    · rw [if_neg b]
      obtain ⟨q, h1, -⟩ := runScan_spec pad k hk st.scan.calls hn
      rw [h1]
      have : scanOk st.scan.ending = false := by
        cases he : st.scan.ending with
        | finished => exact absurd ⟨by simpa using a, by simpa using b, he⟩ hs
        | transient => rfl
        | fatal => rfl
      dsimp only
      rw [this]
      exact ⟨_, rfl⟩

/-- C89: a post-processor that drops candidates sees only the `k` nearest: the results are the `k` nearest that pass
the test, not the nearest among those that pass it. -/
theorem C89_filter_after_cut (pad : D) (k : Nat) (hk : 1 ≤ k) (st : Strategy I D) (hs : st.healthy)
    (hn : st.scan.calls.length < 4294967296) (keep : I → Bool) (out : Buf I D) (hr : Ready out)
    (hroom : k ≤ out.ids.length - out.position) :
    ∃ (out' : Buf I D) (kept rejected : List (I × D)) (n : Nat),
      knnSearch pad k st (filterIds keep) out = some (.ok ⟨st.scan.calls.length, n⟩, out') ∧
      out'.written = out.written ++ kept.filter (fun c => keep c.1) ∧
      kept.length = min k (comparable st.scan.calls).length ∧
      (kept ++ rejected).Perm (comparable st.scan.calls) ∧
      (∀ a ∈ kept, ∀ b ∈ rejected, a.2 ≤ b.2) := by
  obtain ⟨q, h1, h2⟩ := knnSearch_healthy pad k hk st hs (filterIds keep) out hn
  obtain ⟨m1, m2, rej, m3, m4⟩ := C01_bestOf_meaning k st.scan.calls
  refine ⟨_, bestOf k st.scan.calls, rej, _, h2, ?_, m2, m3, m4⟩
  rw [h1, bestOf_take_self, written_extend out _ hr.1 hr.2, List.take_of_length_le]
  refine Nat.le_trans (List.length_filter_le _ _) ?_
  rw [m2]; omega

/-- C89, the filtered case on a concrete scan: two of three elements pass the test, `k = 1`, and nothing is
returned, although the buffer has room and elements that pass exist. -/
theorem C89_filter_may_starve :
    (knnSearch (0 : Nat) 1 (⟨true, true, ⟨[(1, some 1), (2, some 5), (4, some 7)], .finished⟩⟩ : Strategy Nat Nat)
      (filterIds (fun i => i % 2 == 0)) ⟨[0, 0], [0, 0], 0⟩).map (fun r => r.2.written) = some [] := by decide +kernel

-- The hypotheses are met by a scan with ties, a repetition and a NaN.
example : (⟨true, true, ⟨[(7, some 4), (3, none), (9, some 2), (5, some 4), (9, some 2)], .finished⟩⟩ :
    Strategy Nat Nat).healthy ∧ Ready (⟨[0, 0, 0], [0, 0, 0], 0⟩ : Buf Nat Nat) := by
  refine ⟨⟨rfl, rfl, rfl⟩, rfl, by decide⟩

example : (knnSearch (0 : Nat) 3
      (⟨true, true, ⟨[(7, some 4), (3, none), (9, some 2), (5, some 4), (9, some 2)], .finished⟩⟩ : Strategy Nat Nat)
      copyIds ⟨[0, 0, 0], [0, 0, 0], 0⟩).map (fun r => r.2.written) = some [(9, 2), (9, 2), (5, 4)] := by decide +kernel

-- A scan that fails after delivering elements leaves the buffer as it was.
example : (knnSearch (0 : Nat) 2 (⟨true, true, ⟨[(7, some 4), (9, some 2)], .transient⟩⟩ : Strategy Nat Nat)
      copyIds ⟨[0, 0], [0, 0], 0⟩).map (fun r => r.2.written) = some [] := by decide +kernel

/-- **C89.** The limit of the scan: the comparisons are counted in 32 bits, and a scan of `2^32` points or more panics
(in a build that checks overflow), also when it would have failed for another reason. -/
theorem C89_overflow (pad : D) (k : Nat) (st : Strategy I D) (hv : st.visitorOk = true) (hc : st.computerOk = true)
    (post : Post I D) (out : Buf I D) (hn : 4294967296 ≤ st.scan.calls.length) :
    knnSearch pad k st post out = none := by
  unfold knnSearch
  rw [if_neg (by rw [hv]; decide), if_neg (by rw [hc]; decide)]
  unfold runScan
  rw [foldlM_onPair_over pad _ 0 _ (by decide) (by omega)]

/-- `C89_overflow`: a scan of `2^32` points. -/
example : 4294967296 ≤ (List.replicate 4294967296 ((0 : Nat), some (1 : Nat))).length := by
  rw [List.length_replicate]

end Verif.Search.Flat
