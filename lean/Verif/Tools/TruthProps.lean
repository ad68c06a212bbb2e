import Verif.Tools.TruthLemmas
import Mathlib.Tactic.Ring
import Mathlib.Algebra.Order.Ring.Rat
/-!
# C90: computing, writing and reading ground truth
-/
namespace Verif.Tools

open Verif.Queue Verif.Disk

variable {V Q D A : Type} [LinearOrder D]

theorem mem_comparable_candidates (dist : V → Q → Option D) (bms : Option (List Bitmap)) (i : Nat) (q : Q)
    (pts : List V) (x : Nat × D) (h : x ∈ comparable (candidates dist bms i q pts)) : x.1 < pts.length := by
  unfold comparable candidates at h
  obtain ⟨y, hy, hx⟩ := List.mem_filterMap.1 h
  obtain ⟨z, hz, rfl⟩ := List.mem_map.1 hy
  have hz' := mem_zipIdx_lt pts z (List.mem_filter.1 hz).1
  dsimp only at hx
  cases hd : dist z.1 q with
  | none => rw [hd] at hx; simp at hx
  | some d =>
    rw [hd] at hx
    simp only [Option.map_some, Option.some.injEq] at hx
    rw [← hx]; exact hz'

theorem mem_bestOf_lt (dist : V → Q → Option D) (bms : Option (List Bitmap)) (i k : Nat) (q : Q)
    (pts : List V) (x : Nat × D) (h : x ∈ bestOf k (candidates dist bms i q pts)) : x.1 < pts.length := by
  obtain ⟨-, -, rej, hp, -⟩ := C01_bestOf_meaning k (candidates dist bms i q pts)
  exact mem_comparable_candidates dist bms i q pts x (hp.mem_iff.1 (List.mem_append_left _ h))

theorem good_slot_of {pad : D} {dist : V → Q → Option D} {bms : Option (List Bitmap)} {k : Nat} {queries : List Q}
    {pts : List V} {slots : List (Slot Q D)} (h : GoodSlots pad dist bms k queries pts slots) (i : Nat) (q : Q)
    (hq : queries[i]? = some q) : ∃ s, slots[i]? = some s ∧ s.1 = q := by
  have hi : i < queries.length := by
    by_contra hge
    rw [List.getElem?_eq_none (by omega)] at hq
    simp at hq
  have hi' : i < slots.length := by rw [h.len]; exact hi
  refine ⟨slots[i], List.getElem?_eq_getElem hi', ?_⟩
  have := (h.slot i _ (List.getElem?_eq_getElem hi')).1
  rw [hq] at this
  simpa using this.symm

/-- **C90.** Ground truth is the truth.  For every dataset (after the skipped points, with the inserted points behind),
every distance function, every `k ≥ 1`, every set of per-query bitmaps and every list of queries, the computation
succeeds and gives each query a queue whose content is a list of the `k` nearest permitted points, by position in
that dataset; the way the dataset is cut into batches does not show. -/
theorem C90_nearest (pad : D) (dist : V → Q → Option D) (k : Nat) (hk : 1 ≤ k) (base : List (V × A))
    (ins : List V) (skip : Nat) (bms : Option (List Bitmap)) (queries : List Q) (hc : Covers bms queries.length)
    (hn : (base.drop skip).length + ins.length ≤ 4294967296) :
    ∃ queues table, computeTruth pad dist k base ins skip bms queries = some (queues, table) ∧
      table = (base.drop skip).map (·.2) ∧ queues.length = queries.length ∧
      ∀ (i : Nat) (q : Q), queries[i]? = some q → ∃ queue, queues[i]? = some queue ∧
        IsNearest k (candidates dist bms i q ((base.drop skip).map (·.1) ++ ins)) queue.contents := by
  obtain ⟨slots, e1, e2⟩ := computeTruth_good pad dist k hk base ins skip bms queries hc hn
  refine ⟨_, _, e1, rfl, by simp [e2.len], ?_⟩
  intro i q hq
  obtain ⟨s, hs, rfl⟩ := good_slot_of e2 i q hq
  refine ⟨s.2, by rw [List.getElem?_map, hs]; rfl, ?_⟩
  obtain ⟨q', h1, h2, -⟩ := C01_queue_best_l pad k hk (candidates dist bms i s.1 ((base.drop skip).map (·.1) ++ ins))
  rw [(e2.slot i s hs).2] at h1
  simp only [Option.some.injEq] at h1
  rw [h1, h2]
  exact isNearest_bestOf _ _

theorem flatten_length_const {α : Type} (k : Nat) (rows : List (List α)) (h : ∀ r ∈ rows, r.length = k) :
    rows.flatten.length = rows.length * k := by
  induction rows with
  | nil => simp
  | cons r rows ih =>
    rw [List.flatten_cons, List.length_append, h r (by simp), ih (fun x hx => h x (by simp [hx])), List.length_cons]
    ring

theorem flatten_length_le {α : Type} (k : Nat) (rows : List (List α)) (h : ∀ r ∈ rows, r.length ≤ k) :
    rows.flatten.length ≤ rows.length * k := by
  induction rows with
  | nil => simp
  | cons r rows ih =>
    rw [List.flatten_cons, List.length_append, List.length_cons, Nat.add_mul, Nat.one_mul]
    have := h r (by simp)
    have := ih (fun x hx => h x (by simp [hx]))
    omega

theorem flatten_length_lt {α : Type} (k : Nat) (rows : List (List α)) (h : ∀ r ∈ rows, r.length ≤ k)
    (r : List α) (hr : r ∈ rows) (hlt : r.length < k) : rows.flatten.length < rows.length * k := by
  induction rows with
  | nil => simp at hr
  | cons a rows ih =>
    rw [List.flatten_cons, List.length_append, List.length_cons, Nat.add_mul, Nat.one_mul]
    have h1 := h a (by simp)
    have h2 : ∀ x ∈ rows, x.length ≤ k := fun x hx => h x (by simp [hx])
    rcases List.mem_cons.1 hr with rfl | hr
    · have := flatten_length_le k rows h2; omega
    · have := ih h2 hr; omega

/-- The rows a computation would write, and what is known about each. -/
theorem rows_of (pad : D) (dist : V → Q → Option D) (k : Nat) (hk : 1 ≤ k) (base : List (V × A)) (ins : List V)
    (skip : Nat) (bms : Option (List Bitmap)) (queries : List Q) (hc : Covers bms queries.length)
    (hn : (base.drop skip).length + ins.length ≤ 4294967296) :
    ∃ (queues : List (Queue Nat D)) (rows : List (List (Nat × D))),
      computeTruth pad dist k base ins skip bms queries = some (queues, (base.drop skip).map (·.2)) ∧
      queues.length = queries.length ∧ drainAll queues = some rows.flatten ∧ queues.map (fun q => q.iter) = rows ∧
      rows.length = queries.length ∧
      (∀ (i : Nat) (q : Q), queries[i]? = some q →
        rows[i]? = some (bestOf k (candidates dist bms i q ((base.drop skip).map (·.1) ++ ins)))) ∧
      (∀ r ∈ rows, r.length ≤ k ∧ ∀ x ∈ r, x.1 < (base.drop skip).length + ins.length) := by
  obtain ⟨slots, e1, e2⟩ := computeTruth_good pad dist k hk base ins skip bms queries hc hn
  have hs' : ∀ (i : Nat) (s : Slot Q D), slots[i]? = some s → feed pad (Queue.new k)
      (candidates dist bms (0 + i) s.1 ((base.drop skip).map (·.1) ++ ins)) = some s.2 := by
    intro i s hs; rw [Nat.zero_add]; exact (e2.slot i s hs).2
  obtain ⟨rows, d1, d2, d3⟩ := drainAll_spec pad k hk
    (fun i q => candidates dist bms i q ((base.drop skip).map (·.1) ++ ins)) 0 slots hs'
  obtain ⟨rows', f1, f2, f3⟩ := iters_spec pad k hk
    (fun i q => candidates dist bms i q ((base.drop skip).map (·.1) ++ ins)) 0 slots hs'
  have hrr : rows' = rows := by
    apply List.ext_getElem?
    intro i
    by_cases hi : i < slots.length
    · rw [d3 i _ (List.getElem?_eq_getElem hi), f3 i _ (List.getElem?_eq_getElem hi)]
    · rw [List.getElem?_eq_none (by omega), List.getElem?_eq_none (by omega)]
  subst hrr
  refine ⟨_, rows', e1, by simp [e2.len], d1, f1, d2.trans e2.len, ?_, ?_⟩
  · intro i q hq
    obtain ⟨s, hs, rfl⟩ := good_slot_of e2 i q hq
    have := d3 i s hs
    rwa [Nat.zero_add] at this
  · intro r hr
    obtain ⟨i, hi, rfl⟩ := List.getElem_of_mem hr
    have := d3 i slots[i] (List.getElem?_eq_getElem (by omega))
    rw [List.getElem?_eq_getElem hi] at this
    simp only [Option.some.injEq] at this
    rw [this]
    constructor
    · rw [(C01_bestOf_meaning _ _).2.1]; omega
    · intro x hx
      have := mem_bestOf_lt dist bms (0 + i) k _ _ x hx
      simpa using this

/-- **C90, the file.** Without filters, if every query has at least `k` points at a comparable distance: the file
written is read back as the ids and distances of all queries in order, `k` per query, and the `k` of a query are its
nearest points. -/
theorem C90_file (pad : D) (bits : D → Nat) (ser : A → List Byte) (dist : V → Q → Option D) (k : Nat) (hk : 1 ≤ k)
    (base : List (V × A)) (ins : List V) (skip : Nat) (queries : List Q)
    (hn : (base.drop skip).length + ins.length ≤ 4294967296) (hq0 : queries ≠ [])
    (hq : queries.length < 2 ^ 32) (hk' : k < 2 ^ 32) (hsz : 2 * queries.length * k * 4 + 8 < 2 ^ 64)
    (hbits : ∀ d, bits d < 2 ^ 32)
    (henough : ∀ (i : Nat) (q : Q), queries[i]? = some q →
      k ≤ (comparable (candidates dist none i q ((base.drop skip).map (·.1) ++ ins))).length) :
    ∃ (file : List Byte) (rows : List (List (Nat × D))),
      truthFile pad bits ser dist k base ins skip none false queries = some (.ok file) ∧
      loadTruth file = some (.ok ⟨rows.flatten.map (·.1), some (rows.flatten.map (fun x => bits x.2)),
        queries.length, k⟩) ∧
      rows.length = queries.length ∧
      ∀ (i : Nat) (q : Q), queries[i]? = some q → ∃ row, rows[i]? = some row ∧ row.length = k ∧
        IsNearest k (candidates dist none i q ((base.drop skip).map (·.1) ++ ins)) row := by
  obtain ⟨queues, rows, e1, e2, e3, -, e5, e6, e7⟩ := rows_of pad dist k hk base ins skip none queries
    (by intro bs h; simp at h) hn
  have hrow : ∀ r ∈ rows, r.length = k := by
    intro r hr
    obtain ⟨i, hi, rfl⟩ := List.getElem_of_mem hr
    have := e6 i queries[i] (List.getElem?_eq_getElem (by omega))
    rw [List.getElem?_eq_getElem hi] at this
    simp only [Option.some.injEq] at this
    rw [this, (C01_bestOf_meaning _ _).2.1]
    have := henough i queries[i] (List.getElem?_eq_getElem (by omega))
    omega
  have hlen : rows.flatten.length = queries.length * k := by rw [flatten_length_const k rows hrow, e5]
  refine ⟨leEncode 4 queries.length ++ leEncode 4 k ++ words (rows.flatten.map (·.1)) ++
    words (rows.flatten.map (fun x => bits x.2)), rows, ?_, ?_, e5, ?_⟩
  · unfold truthFile
    rw [e1]
    dsimp only
    rw [if_neg (by rw [e2]; simpa using hq0), if_neg (by decide)]
    unfold writeTruth metadataBytes
    rw [if_pos ⟨hq, hk'⟩, e3]
    simp only [Bool.false_eq_true, if_false, idPart]
    rw [exactWords_ok _ _ (by rw [List.length_map]; exact hlen), exactWords_ok _ _ (by rw [List.length_map]; exact hlen)]
  · apply loadTruth_full _ _ _ _ hq hk' hsz (by rw [List.length_map]; exact hlen) (by rw [List.length_map]; exact hlen)
    · intro x hx
      obtain ⟨y, hy, rfl⟩ := List.mem_map.1 hx
      obtain ⟨r, hr, hyr⟩ := List.mem_flatten.1 hy
      have := (e7 r hr).2 y hyr
      omega
    · intro x hx
      obtain ⟨y, -, rfl⟩ := List.mem_map.1 hx
      exact hbits _
  · intro i q hq
    refine ⟨_, e6 i q hq, ?_, isNearest_bestOf _ _⟩
    exact hrow _ (List.mem_of_getElem? (e6 i q hq))

/-- C90: if some query has fewer than `k` points at a comparable distance (a dataset smaller than `k`, for instance),
the tool does not write what there is: it panics. -/
theorem C90_too_few_points_panics (pad : D) (bits : D → Nat) (ser : A → List Byte) (dist : V → Q → Option D) (k : Nat)
    (hk : 1 ≤ k) (base : List (V × A)) (ins : List V) (skip : Nat) (queries : List Q)
    (hn : (base.drop skip).length + ins.length ≤ 4294967296) (hq : queries.length < 2 ^ 32) (hk' : k < 2 ^ 32)
    (i : Nat) (q : Q) (hi : queries[i]? = some q)
    (hfew : (comparable (candidates dist none i q ((base.drop skip).map (·.1) ++ ins))).length < k) :
    truthFile pad bits ser dist k base ins skip none false queries = none := by
  obtain ⟨queues, rows, e1, e2, e3, -, e5, e6, e7⟩ := rows_of pad dist k hk base ins skip none queries
    (by intro bs h; simp at h) hn
  have hlt : rows.flatten.length < rows.length * k := by
    refine flatten_length_lt k rows (fun r hr => (e7 r hr).1) _ (List.mem_of_getElem? (e6 i q hi)) ?_
    rw [(C01_bestOf_meaning _ _).2.1]; omega
  have hq0 : queries ≠ [] := by rintro rfl; simp at hi
  unfold truthFile
  rw [e1]
  dsimp only
  rw [if_neg (by rw [e2]; simpa using hq0), if_neg (by decide)]
  unfold writeTruth metadataBytes
  rw [if_pos ⟨hq, hk'⟩, e3]
  simp only [Bool.false_eq_true, if_false, idPart]
  rw [exactWords_bad _ _ (by rw [List.length_map, ← e5]; omega)]

/-- C90, filtered: with a bitmap per query, whatever they permit, the file written is read back as one list of ids per
query, each a list of the `k` nearest permitted points (all of them, if there are fewer). -/
theorem C90_filtered_file (pad : D) (bits : D → Nat) (ser : A → List Byte) (dist : V → Q → Option D) (k : Nat)
    (hk : 1 ≤ k) (base : List (V × A)) (ins : List V) (skip : Nat) (bs : List Bitmap) (queries : List Q)
    (hasAssoc : Bool) (hc : queries.length ≤ bs.length)
    (hn : (base.drop skip).length + ins.length ≤ 4294967296) (hq0 : queries ≠ [])
    (hsz : queries.length * k < 4294967296) :
    ∃ (file : List Byte) (rows : List (List (Nat × D))),
      truthFile pad bits ser dist k base ins skip (some bs) hasAssoc queries = some (.ok file) ∧
      loadRange file = .ok (rows.map (fun r => r.map (·.1))) ∧ rows.length = queries.length ∧
      ∀ (i : Nat) (q : Q), queries[i]? = some q → ∃ row, rows[i]? = some row ∧
        IsNearest k (candidates dist (some bs) i q ((base.drop skip).map (·.1) ++ ins)) row := by
  obtain ⟨queues, rows, e1, e2, -, e4, e5, e6, e7⟩ := rows_of pad dist k hk base ins skip (some bs) queries
    (by intro bs' h; simp only [Option.some.injEq] at h; subst h; exact hc) hn
  have hlen : (rows.map (fun r => r.map (·.1))).length = queries.length := by rw [List.length_map, e5]
  obtain ⟨file, w1, w2⟩ := range_round_trip (rows.map (fun r => r.map (·.1)))
    (by
      have : queries.length * 1 ≤ queries.length * k := Nat.mul_le_mul_left _ hk
      omega)
    (by
      have := flatten_length_le k rows (fun r hr => (e7 r hr).1)
      rw [List.length_flatten, e5] at this
      rw [List.map_map]
      have he : (List.length ∘ fun r : List (Nat × D) => r.map (·.1)) = List.length := by funext r; simp
      rw [he]
      omega)
    (by
      intro l hl x hx
      obtain ⟨r, hr, rfl⟩ := List.mem_map.1 hl
      obtain ⟨y, hy, rfl⟩ := List.mem_map.1 hx
      have := (e7 r hr).2 y hy
      omega)
  refine ⟨file, rows, ?_, w2, e5, ?_⟩
  · unfold truthFile
    rw [e1]
    dsimp only
    rw [if_neg (by rw [e2]; simpa using hq0), if_pos (by rfl), ← w1, hlen]
    rw [← e4, List.map_map]
    rfl
  · intro i q hq
    exact ⟨_, e6 i q hq, isNearest_bestOf _ _⟩

/-- C90: a filter file, which has the same format, gives back the sets of ids it was made from. -/
theorem C90_filter_file (ls : List (List Nat)) (hn : ls.length < 4294967296)
    (ht : (ls.map List.length).sum < 4294967296) (h : ∀ l ∈ ls, ∀ x ∈ l, x < 4294967296) :
    ∃ file, writeRange ls.length ls = some (.ok file) ∧ bitmapsOf ls.length file = .ok ls ∧
      ∀ nq, nq ≠ ls.length → bitmapsOf nq file = .err := by
  obtain ⟨file, h1, h2⟩ := range_round_trip ls hn ht h
  refine ⟨file, h1, ?_, ?_⟩
  · unfold bitmapsOf; rw [h2]; dsimp only; rw [if_pos rfl]
  · intro nq hne
    unfold bitmapsOf; rw [h2]; dsimp only; rw [if_neg (fun e => hne e.symm)]

/-! ### Range search -/

/-- The positions of the points within the radius. -/
def inRange (dist : V → Q → Option D) (radius : D) (bms : Option (List Bitmap)) (qi : Nat) (q : Q) (pts : List V) :
    List Nat :=
  (pts.zipIdx.filter (fun x => permits bms qi x.2 && within radius (dist x.1 q))).map (·.2)

theorem rangeOffer_fold (dist : V → Q → Option D) (radius : D) (bms : Option (List Bitmap)) (nq base qi : Nat) (q : Q)
    (hc : Covers bms nq) (hq : qi < nq) (xs : List (V × Nat)) (hx : ∀ x ∈ xs, base + x.2 < 4294967296)
    (acc : List Nat) :
    xs.foldlM (rangeOffer dist radius bms base qi q) acc
      = some (acc ++ (xs.filter (fun x => permits bms qi (base + x.2) && within radius (dist x.1 q))).map
          (fun x => base + x.2)) := by
  induction xs generalizing acc with
  | nil => simp
  | cons x xs ih =>
    have hx0 := hx x (by simp)
    have ih' := ih (fun y hy => hx y (by simp [hy]))
    have hstep : rangeOffer dist radius bms base qi q acc x
        = some (if (permits bms qi (base + x.2) && within radius (dist x.1 q)) = true then acc ++ [base + x.2] else acc) := by
      unfold rangeOffer
      rw [Nat.mod_eq_of_lt hx0, allowed_eq bms nq qi _ hc hq]
      cases permits bms qi (base + x.2) with
      | false => rfl
      | true =>
        dsimp only
        rw [Bool.true_and]
        split <;> rfl
    rw [List.foldlM_cons, hstep, List.filter_cons]
    simp only [Option.bind_eq_bind, Option.bind_some]
    rw [ih']
    split
    · rw [List.map_cons, List.append_assoc]; rfl
    · rfl

theorem inRange_append (dist : V → Q → Option D) (radius : D) (bms : Option (List Bitmap)) (qi : Nat) (q : Q)
    (pts batch : List V) :
    inRange dist radius bms qi q (pts ++ batch) = inRange dist radius bms qi q pts ++
      (batch.zipIdx.filter (fun x => permits bms qi (pts.length + x.2) && within radius (dist x.1 q))).map
        (fun x => pts.length + x.2) := by
  unfold inRange
  rw [List.zipIdx_append, List.filter_append, List.map_append, Nat.zero_add,
    List.zipIdx_eq_map_add (l := batch) (i := pts.length), List.filter_map, List.map_map]
  rfl

theorem rangeSteps_good (dist : V → Q → Option D) (radius : D) (bms : Option (List Bitmap)) (queries : List Q)
    (hc : Covers bms queries.length) (chunks : List (List V)) (pts : List V)
    (hn : pts.length + chunks.flatten.length ≤ 4294967296) (slots : List (Q × List Nat))
    (hl : slots.length = queries.length)
    (h : ∀ (i : Nat) (s : Q × List Nat), slots[i]? = some s → queries[i]? = some s.1 ∧
      s.2 = inRange dist radius bms i s.1 pts) :
    ∃ out n, chunks.foldlM (rangeStep dist radius bms) (slots, pts.length) = some (out, n) ∧
      out.length = queries.length ∧
      ∀ (i : Nat) (s : Q × List Nat), out[i]? = some s → queries[i]? = some s.1 ∧
        s.2 = inRange dist radius bms i s.1 (pts ++ chunks.flatten) := by
  induction chunks generalizing pts slots with
  | nil => exact ⟨slots, pts.length, rfl, hl, by simpa using h⟩
  | cons c cs ih =>
    rw [List.flatten_cons, List.length_append] at hn
    rw [List.foldlM_cons, List.flatten_cons, ← List.append_assoc]
    unfold rangeStep
    by_cases hc0 : c.isEmpty = true
    · have hnil : c = [] := by simpa using hc0
      subst hnil
      rw [if_pos (by rfl), List.append_nil]
      exact ih pts (by omega) slots hl h
    · rw [if_neg hc0]
      obtain ⟨out, e1, e2, e3⟩ := forQueries_spec (rangeBatch dist radius bms pts.length c)
        (fun i s => queries[i]? = some s.1 ∧ s.2 = inRange dist radius bms i s.1 (pts ++ c)) 0 slots (by
          intro i s hs
          rw [Nat.zero_add]
          obtain ⟨g1, g2⟩ := h i s hs
          have hi : i < queries.length := by
            by_contra hge
            rw [List.getElem?_eq_none (by omega)] at g1
            simp at g1
          refine ⟨(s.1, inRange dist radius bms i s.1 (pts ++ c)), ?_, g1, rfl⟩
          unfold rangeBatch
          rw [rangeOffer_fold dist radius bms queries.length pts.length i s.1 hc hi _ (by
            intro x hx
            have := mem_zipIdx_lt _ _ hx
            omega), inRange_append, g2]
          rfl)
      dsimp only
      rw [e1]
      simp only [Option.map_some, Option.bind_eq_bind, Option.bind_some]
      have := ih (pts ++ c) (by rw [List.length_append]; omega) out (e2.trans hl) (by
        intro i s hs
        have := e3 i s hs
        rwa [Nat.zero_add] at this)
      rwa [List.length_append] at this

/-- C90, range search: each query gets exactly the positions of the permitted points whose distance is at most the
radius, in increasing order, and the file written is read back as those lists. -/
theorem C90_range (dist : V → Q → Option D) (radius : D) (base : List V) (bms : Option (List Bitmap))
    (queries : List Q) (hc : Covers bms queries.length) (hn : base.length ≤ 4294967296) :
    ∃ lists, computeRange dist radius base bms queries = some lists ∧ lists.length = queries.length ∧
      (∀ (i : Nat) (q : Q), queries[i]? = some q → ∃ l : List Nat, lists[i]? = some l ∧ l.Pairwise (· < ·) ∧
        ∀ j, j ∈ l ↔ permits bms i j = true ∧ ∃ v d, base[j]? = some v ∧ dist v q = some d ∧ d ≤ radius) ∧
      (queries.length < 4294967296 → (lists.map List.length).sum < 4294967296 →
        ∃ file, writeRange queries.length lists = some (.ok file) ∧ loadRange file = .ok lists) := by
  have hf := chunksF_flatten batchSize (by decide) base.length base (Nat.le_refl _)
  obtain ⟨out, n, e1, e2, e3⟩ := rangeSteps_good dist radius bms queries hc (chunksF batchSize base.length base) []
    (by rw [hf]; simpa using hn) (queries.map (fun q => (q, []))) (by simp) (by
      intro i s hs
      rw [List.getElem?_map] at hs
      cases hq : queries[i]? with
      | none => rw [hq] at hs; simp at hs
      | some q =>
        rw [hq] at hs
        simp only [Option.map_some, Option.some.injEq] at hs
        subst hs
        exact ⟨rfl, rfl⟩)
  rw [hf, List.nil_append] at e3
  have hmem : ∀ (i : Nat) (q : Q) (j : Nat), j ∈ inRange dist radius bms i q base ↔
      permits bms i j = true ∧ ∃ v d, base[j]? = some v ∧ dist v q = some d ∧ d ≤ radius := by
    intro i q j
    unfold inRange
    simp only [List.mem_map, List.mem_filter, Bool.and_eq_true]
    constructor
    · rintro ⟨⟨v, j'⟩, ⟨hx, hp, hw⟩, rfl⟩
      refine ⟨hp, v, ?_⟩
      have hv : base[j']? = some v := by
        rw [List.mem_zipIdx_iff_getElem?] at hx
        exact hx
      unfold within at hw
      cases hd : dist v q with
      | none => rw [hd] at hw; simp at hw
      | some d =>
        rw [hd] at hw
        exact ⟨d, hv, rfl, by simpa using hw⟩
    · rintro ⟨hp, v, d, hv, hd, hle⟩
      refine ⟨(v, j), ⟨?_, hp, ?_⟩, rfl⟩
      · rw [List.mem_zipIdx_iff_getElem?]; exact hv
      · dsimp only; rw [hd]; simpa [within] using hle
  refine ⟨out.map (·.2), ?_, by simp [e2], ?_, ?_⟩
  · unfold computeRange
    rw [List.length_nil] at e1
    rw [e1]
    rfl
  · intro i q hq
    have hi : i < queries.length := by
      by_contra hge
      rw [List.getElem?_eq_none (by omega)] at hq
      simp at hq
    have hs := e3 i out[i] (List.getElem?_eq_getElem (by omega))
    rw [hq] at hs
    obtain ⟨h1, h2⟩ := hs
    simp only [Option.some.injEq] at h1
    refine ⟨inRange dist radius bms i q base, ?_, ?_, hmem i q⟩
    · rw [List.getElem?_map, List.getElem?_eq_getElem (by omega), Option.map_some, h2, ← h1]
    · unfold inRange
      refine List.Pairwise.map _ (R := fun a b => a.2 < b.2) (fun a b h => h) (List.Pairwise.filter _ ?_)
      have : (base.zipIdx.map (·.2)).Pairwise (· < ·) := by
        rw [List.zipIdx_map_snd]
        exact List.pairwise_lt_range'
      exact List.pairwise_map.1 this
  · intro hq hs
    have := range_round_trip (out.map (·.2)) (by rw [List.length_map]; omega) hs (by
      intro l hl x hx
      obtain ⟨s, hsm, rfl⟩ := List.mem_map.1 hl
      obtain ⟨i, hi, rfl⟩ := List.getElem_of_mem hsm
      have h2 := (e3 i out[i] (List.getElem?_eq_getElem hi)).2
      rw [h2] at hx
      obtain ⟨-, v, d, hv, -⟩ := (hmem i _ x).1 hx
      have : x < base.length := by
        by_contra hge
        rw [List.getElem?_eq_none (by omega)] at hv
        simp at hv
      omega)
    rwa [List.length_map, e2] at this

/-! ### Multi-vectors -/

section
variable {K W : Type} [Field K] [LinearOrder K]

theorem foldl_add_sum (l : List W) (f : W → K) (a : K) : l.foldl (fun acc x => acc + f x) a = a + (l.map f).sum := by
  induction l generalizing a with
  | nil => simp
  | cons x l ih => rw [List.foldl_cons, ih, List.map_cons, List.sum_cons]; ring

theorem sumPairs_eq (d : W → W → K) (qs bs : List W) :
    sumPairs d qs bs = (qs.map (fun q => (bs.map (d q)).sum)).sum := by
  unfold sumPairs
  have : (fun (acc : K) (q : W) => bs.foldl (fun acc b => acc + d q b) acc)
      = fun acc q => acc + (bs.map (d q)).sum := by
    funext acc q; exact foldl_add_sum bs (d q) acc
  rw [this, foldl_add_sum qs (fun q => (bs.map (d q)).sum) 0, zero_add]

/-- `m` is the smallest of a starting value and some values. -/
def IsMinOf (m top : K) (vals : List K) : Prop := m ≤ top ∧ (∀ v ∈ vals, m ≤ v) ∧ (m = top ∨ m ∈ vals)

theorem minRow_spec (d : W → W → K) (q : W) (bs : List W) (top : K) : IsMinOf (minRow d q bs top) top (bs.map (d q)) := by
  induction bs generalizing top with
  | nil => exact ⟨le_refl _, by simp, Or.inl rfl⟩
  | cons b bs ih =>
    obtain ⟨h1, h2, h3⟩ := ih (min top (d q b))
    refine ⟨le_trans h1 (min_le_left _ _), ?_, ?_⟩
    · intro v hv
      rw [List.map_cons] at hv
      rcases List.mem_cons.1 hv with rfl | hv
      · exact le_trans h1 (min_le_right _ _)
      · exact h2 v hv
    · rw [List.map_cons]
      rcases h3 with h3 | h3
      · rcases min_choice top (d q b) with hm | hm
        · left; exact h3.trans hm
        · right; exact List.mem_cons.2 (Or.inl (h3.trans hm))
      · right; exact List.mem_cons_of_mem _ h3

theorem minRows_spec (d : W → W → K) (qs bs : List W) (top : K) :
    IsMinOf (qs.foldl (fun m q => minRow d q bs m) top) top (qs.flatMap (fun q => bs.map (d q))) := by
  induction qs generalizing top with
  | nil => exact ⟨le_refl _, by simp, Or.inl rfl⟩
  | cons q qs ih =>
    obtain ⟨h1, h2, h3⟩ := ih (minRow d q bs top)
    obtain ⟨g1, g2, g3⟩ := minRow_spec d q bs top
    refine ⟨le_trans h1 g1, ?_, ?_⟩
    · intro v hv
      rw [List.flatMap_cons] at hv
      rcases List.mem_append.1 hv with hv | hv
      · exact le_trans h1 (g2 v hv)
      · exact h2 v hv
    · rw [List.flatMap_cons, List.mem_append]
      rcases h3 with h3 | h3
      · rcases g3 with g3 | g3
        · left; exact h3.trans g3
        · right; left; rw [List.foldl_cons, h3]; exact g3
      · right; right; exact h3

/-- C90, multi-vectors: the three aggregations are the mean over all pairs, the minimum over all pairs, and the mean
over the query vectors of the minimum over the document vectors; a mean over nothing is not comparable. -/
theorem C90_aggregation (top : K) (d : W → W → K) (qs bs : List W) :
    (0 < qs.length * bs.length → aggregate top d .averagePairwise qs bs
      = some ((qs.map (fun q => (bs.map (d q)).sum)).sum / ((qs.length * bs.length : Nat) : K))) ∧
    (qs.length * bs.length = 0 → aggregate top d .averagePairwise qs bs = none) ∧
    (∃ m, aggregate top d .minPairwise qs bs = some m ∧ IsMinOf m top (qs.flatMap (fun q => bs.map (d q)))) ∧
    (qs = [] → aggregate top d .avgOfMins qs bs = none) ∧
    (qs ≠ [] → ∃ mins : W → K, (∀ q ∈ qs, IsMinOf (mins q) top (bs.map (d q))) ∧
      aggregate top d .avgOfMins qs bs = some ((qs.map mins).sum / ((qs.length : Nat) : K))) := by
  refine ⟨?_, ?_, ⟨_, rfl, minRows_spec d qs bs top⟩, ?_, ?_⟩
  · intro h
    unfold aggregate
    dsimp only
    rw [if_neg (by omega), sumPairs_eq]
  · intro h
    unfold aggregate
    dsimp only
    rw [if_pos h]
  · rintro rfl; rfl
  · intro h
    refine ⟨fun q => minRow d q bs top, fun q _ => minRow_spec d q bs top, ?_⟩
    unfold aggregate
    dsimp only
    rw [if_neg (by simpa using h), foldl_add_sum qs (fun q => minRow d q bs top) 0, zero_add]

/-- C90, multi-vectors: each query gets the `k` permitted documents nearest by the aggregated distance. -/
theorem C90_multi (pad top : K) (d : W → W → K) (m : Aggregation) (k : Nat) (hk : 1 ≤ k) (base : List (List W))
    (bms : Option (List Bitmap)) (queries : List (List W)) (hc : Covers bms queries.length)
    (hn : base.length ≤ 4294967296) :
    ∃ queues, computeMulti pad top d m k base bms queries = some queues ∧ queues.length = queries.length ∧
      ∀ (i : Nat) (q : List W), queries[i]? = some q → ∃ queue, queues[i]? = some queue ∧
        IsNearest k (candidates (fun b q => aggregate top d m q b) bms i q base) queue.contents := by
  obtain ⟨out, e1, e2⟩ := forBatch_good pad (fun b q => aggregate top d m q b) bms k hk queries hc [] base
    (by simpa using hn) _ (good_start pad _ bms k queries)
  rw [List.nil_append] at e2
  refine ⟨out.map (·.2), ?_, by simp [e2.len], ?_⟩
  · unfold computeMulti
    rw [List.length_nil] at e1
    rw [e1]; rfl
  · intro i q hq
    obtain ⟨s, hs, rfl⟩ := good_slot_of e2 i q hq
    refine ⟨s.2, by rw [List.getElem?_map, hs]; rfl, ?_⟩
    obtain ⟨q', h1, h2, -⟩ := C01_queue_best_l pad k hk (candidates (fun b q => aggregate top d m q b) bms i s.1 base)
    rw [(e2.slot i s hs).2] at h1
    simp only [Option.some.injEq] at h1
    rw [h1, h2]
    exact isNearest_bestOf _ _
end

/-! ### Where the tools depart from the property -/

theorem forQueries_none {S : Type} (f : Nat → S → Option S) (start : Nat) (slots : List S) (i : Nat) (s : S)
    (hs : slots[i]? = some s) (hf : ∀ s, f (start + i) s = none) : forQueries f start slots = none := by
  induction slots generalizing start i with
  | nil => simp at hs
  | cons a rest ih =>
    unfold forQueries
    cases i with
    | zero =>
      rw [Nat.add_zero] at hf
      rw [hf a]
    | succ i =>
      cases f start a with
      | none => rfl
      | some a' =>
        dsimp only
        rw [ih (start + 1) i (by simpa using hs) (by
          intro s; rw [show start + 1 + i = start + (i + 1) by omega]; exact hf s)]

/-- C90, disagreement: the number of label queries is not compared with the number of queries.  With fewer bitmaps
than queries, the computation panics on the first point. -/
theorem C90_missing_bitmap_panics (pad : D) (dist : V → Q → Option D) (k : Nat) (base : List (V × A)) (ins : List V)
    (bs : List Bitmap) (queries : List Q) (hb : base ≠ []) (hc : bs.length < queries.length) :
    computeTruth pad dist k base ins 0 (some bs) queries = none := by
  cases base with
  | nil => exact absurd rfl hb
  | cons x base =>
    unfold computeTruth
    dsimp only
    rw [List.drop_zero, List.length_cons]
    unfold chunksF
    rw [if_neg (by simp), List.foldlM_cons]
    have hstep : batchStep (A := A) pad dist (some bs) ⟨queries.map (fun q => (q, Queue.new k)), 0, []⟩
        ((x :: base).take batchSize) = none := by
      unfold batchStep
      rw [if_neg (by simp [batchSize])]
      rw [forQueries_none _ 0 _ bs.length (queries[bs.length], Queue.new k) (by
        rw [List.getElem?_map, List.getElem?_eq_getElem hc]; rfl) (by
        intro s
        unfold offerBatch
        rw [show (x :: base).take batchSize = x :: base.take 9999 from rfl, List.map_cons, List.zipIdx_cons,
          List.foldlM_cons]
        unfold offer allowed
        dsimp only
        rw [List.getElem?_eq_none (by omega)]
        rfl)]
      rfl
    rw [hstep]
    rfl

/-- C90, disagreement: `skip_base` is meant for an index whose first points are deleted, but it renumbers the points
that are left.  The nearest point to the query is the second point of the file, id 1 in the index; the tool says 0. -/
theorem C90_skip_renumbers :
    (computeTruth (0 : Nat) (fun v q => some (Int.natAbs (v - q))) 1 [((10 : Int), ()), (20, ())] [] 1 none [20]).map
      (fun r => r.1.map Queue.contents) = some [[(0, 0)]] := by decide +kernel

/-- C90, disagreement: with associated data, a neighbour that comes from the insert file has no entry in the table and
the writer panics. -/
theorem C90_inserted_associated_panics :
    truthFile (0 : Nat) id (fun (a : Nat) => leEncode 4 a) (fun (v q : Int) => some (Int.natAbs (v - q))) 1
      [(10, 7)] [20] 0 none true [20] = none := by decide +kernel

theorem assocBytes_unit (table : List A) (ids : List Nat) (h : ∀ i ∈ ids, i < table.length) :
    assocBytes (fun _ => []) table ids = some [] := by
  induction ids with
  | nil => rfl
  | cons i ids ih =>
    unfold assocBytes
    rw [List.getElem?_eq_getElem (h i (by simp)), ih (fun j hj => h j (by simp [hj]))]
    rfl

/-- C90, disagreement: the command line tool computes ground truth with an empty record type (`()`), also when an
associated data file is given.  The file then holds no ids, and the loader takes it for a file of ids without
distances: the ids it reports are the bit patterns of the distances. -/
theorem C90_unit_associated_data_misread (pad : D) (bits : D → Nat) (dist : V → Q → Option D) (k : Nat) (hk : 1 ≤ k)
    (base : List (V × A)) (queries : List Q) (hn : base.length ≤ 4294967296) (hq0 : queries ≠ [])
    (hq : queries.length < 2 ^ 32) (hk' : k < 2 ^ 32) (hsz : 2 * queries.length * k * 4 + 8 < 2 ^ 64)
    (hbits : ∀ d, bits d < 2 ^ 32)
    (henough : ∀ (i : Nat) (q : Q), queries[i]? = some q →
      k ≤ (comparable (candidates dist none i q (base.map (·.1)))).length) :
    ∃ (file : List Byte) (rows : List (List (Nat × D))),
      truthFile pad bits (fun _ => []) dist k base [] 0 none true queries = some (.ok file) ∧
      loadTruth file = some (.ok ⟨rows.flatten.map (fun x => bits x.2), none, queries.length, k⟩) ∧
      rows.length = queries.length ∧
      ∀ (i : Nat) (q : Q), queries[i]? = some q → ∃ row, rows[i]? = some row ∧
        IsNearest k (candidates dist none i q (base.map (·.1))) row := by
  obtain ⟨queues, rows, e1, e2, e3, -, e5, e6, e7⟩ := rows_of pad dist k hk base [] 0 none queries
    (by intro bs h; simp at h) (by simpa using hn)
  simp only [List.drop_zero, List.append_nil, List.length_nil, Nat.add_zero] at e1 e6 e7
  have hrow : ∀ r ∈ rows, r.length = k := by
    intro r hr
    obtain ⟨i, hi, rfl⟩ := List.getElem_of_mem hr
    have := e6 i queries[i] (List.getElem?_eq_getElem (by omega))
    rw [List.getElem?_eq_getElem hi] at this
    simp only [Option.some.injEq] at this
    rw [this, (C01_bestOf_meaning _ _).2.1]
    have := henough i queries[i] (List.getElem?_eq_getElem (by omega))
    omega
  have hlen : rows.flatten.length = queries.length * k := by rw [flatten_length_const k rows hrow, e5]
  refine ⟨leEncode 4 queries.length ++ leEncode 4 k ++ words (rows.flatten.map (fun x => bits x.2)), rows, ?_, ?_,
    e5, fun i q hq => ⟨_, e6 i q hq, isNearest_bestOf _ _⟩⟩
  · unfold truthFile
    rw [e1]
    dsimp only
    rw [if_neg (by rw [e2]; simpa using hq0), if_neg (by decide)]
    unfold writeTruth metadataBytes
    rw [if_pos ⟨hq, hk'⟩, e3]
    simp only [if_true, idPart]
    rw [assocBytes_unit _ _ (by
      intro j hj
      obtain ⟨y, hy, rfl⟩ := List.mem_map.1 hj
      obtain ⟨r, hr, hyr⟩ := List.mem_flatten.1 hy
      simpa using (e7 r hr).2 y hyr), exactWords_ok _ _ (by rw [List.length_map]; exact hlen)]
    dsimp only
    rw [List.append_nil]
  · refine loadTruth_half _ _ _ hq hk' hsz ?_ (by rw [List.length_map]; exact hlen) ?_
    · exact Nat.mul_pos (List.length_pos_iff.2 hq0) hk
    · intro x hx
      obtain ⟨y, -, rfl⟩ := List.mem_map.1 hx
      exact hbits _

theorem assocBytes_spec (ser : A → List Byte) (table : List A) (ids : List Nat) (h : ∀ i ∈ ids, i < table.length) :
    assocBytes ser table ids = some (ids.flatMap (fun i => (table[i]?.map ser).getD [])) := by
  induction ids with
  | nil => rfl
  | cons i ids ih =>
    unfold assocBytes
    rw [List.getElem?_eq_getElem (h i (by simp)), ih (fun j hj => h j (by simp [hj]))]
    simp [List.getElem?_eq_getElem (h i (by simp))]

theorem flatten_flatMap {α β : Type} (L : List (List α)) (f : α → List β) :
    L.flatten.flatMap f = L.flatMap (fun l => l.flatMap f) := by
  induction L with
  | nil => rfl
  | cons l L ih => rw [List.flatten_cons, List.flatMap_append, ih, List.flatMap_cons]

/-- C90.  With associated data the file holds, after its header, the data of the nearest points in place of their ids:
query by query, nearest first, each point's own record as the serializer writes it; then the distances. -/
theorem C90_associated_file (pad : D) (bits : D → Nat) (ser : A → List Byte) (dist : V → Q → Option D) (k : Nat)
    (hk : 1 ≤ k) (base : List (V × A)) (queries : List Q) (hn : base.length ≤ 4294967296) (hq0 : queries ≠ [])
    (hq : queries.length < 2 ^ 32) (hk' : k < 2 ^ 32)
    (henough : ∀ (i : Nat) (q : Q), queries[i]? = some q →
      k ≤ (comparable (candidates dist none i q (base.map (·.1)))).length) :
    ∃ rows : List (List (Nat × D)),
      truthFile pad bits ser dist k base [] 0 none true queries = some (.ok
        (leEncode 4 queries.length ++ leEncode 4 k
          ++ rows.flatMap (fun row => row.flatMap (fun x => (base[x.1]?.map (fun p => ser p.2)).getD []))
          ++ rows.flatMap (fun row => row.flatMap (fun x => leEncode 4 (bits x.2))))) ∧
      rows.length = queries.length ∧
      ∀ (i : Nat) (q : Q), queries[i]? = some q → ∃ row, rows[i]? = some row ∧ row.length = k ∧
        (∀ x ∈ row, x.1 < base.length) ∧ IsNearest k (candidates dist none i q (base.map (·.1))) row := by
  obtain ⟨queues, rows, e1, e2, e3, -, e5, e6, e7⟩ := rows_of pad dist k hk base [] 0 none queries
    (by intro bs h; simp at h) (by simpa using hn)
  simp only [List.drop_zero, List.append_nil, List.length_nil, Nat.add_zero] at e1 e6 e7
  have hrow : ∀ r ∈ rows, r.length = k := by
    intro r hr
    obtain ⟨i, hi, rfl⟩ := List.getElem_of_mem hr
    have := e6 i queries[i] (List.getElem?_eq_getElem (by omega))
    rw [List.getElem?_eq_getElem hi] at this
    simp only [Option.some.injEq] at this
    rw [this, (C01_bestOf_meaning _ _).2.1]
    have := henough i queries[i] (List.getElem?_eq_getElem (by omega))
    omega
  have hlen : rows.flatten.length = queries.length * k := by rw [flatten_length_const k rows hrow, e5]
  refine ⟨rows, ?_, e5, fun i q hq => ⟨_, e6 i q hq, ?_, ?_, isNearest_bestOf _ _⟩⟩
  · unfold truthFile
    rw [e1]
    dsimp only
    rw [if_neg (by rw [e2]; simpa using hq0), if_neg (by decide)]
    unfold writeTruth metadataBytes
    rw [if_pos ⟨hq, hk'⟩, e3]
    simp only [if_true, idPart]
    rw [assocBytes_spec _ _ _ (by
      intro j hj
      obtain ⟨y, hy, rfl⟩ := List.mem_map.1 hj
      obtain ⟨r, hr, hyr⟩ := List.mem_flatten.1 hy
      simpa using (e7 r hr).2 y hyr), exactWords_ok _ _ (by rw [List.length_map]; exact hlen)]
    dsimp only
    rw [words, List.flatMap_map, List.flatMap_map, flatten_flatMap, flatten_flatMap]
    simp [Function.comp_def]
  · exact hrow _ (List.mem_of_getElem? (e6 i q hq))
  · intro x hx
    simpa using (e7 _ (List.mem_of_getElem? (e6 i q hq))).2 x hx

/-- `C90_associated_file`: two queries, records of two bytes. -/
example : truthFile (0 : Nat) id (fun (a : Nat) => leEncode 2 a) (fun (v q : Int) => some (Int.natAbs (v - q))) 2
    [(10, 700), (20, 800), (35, 900)] [] 0 none true [20, 40] = some (.ok ([2, 0, 0, 0, 2, 0, 0, 0]
      ++ [32, 3, 188, 2] ++ [132, 3, 32, 3] ++ [0, 0, 0, 0, 10, 0, 0, 0] ++ [5, 0, 0, 0, 20, 0, 0, 0])) := by
  decide +kernel

/-! ### Concrete cases -/

/-- Distance between integers, as the bits of a number below `2^32`. -/
def dInt (v q : Int) : Option Nat := some (Int.natAbs (v - q) % 4294967296)

example : (computeTruth (0 : Nat) dInt 2 [((10 : Int), 'a'), (20, 'b'), (35, 'c')] [21, 22] 1 none [20, 40]).map
    (fun r => (r.1.map Queue.contents, r.2)) = some ([[(0, 0), (2, 1)], [(1, 5), (3, 18)]], ['b', 'c']) := by
  decide +kernel

-- The hypotheses of `C90_file` hold for two queries over three points with `k = 2`.
example : ∀ (i : Nat) (q : Int), [(20 : Int), 40][i]? = some q →
    2 ≤ (comparable (candidates dInt none i q [10, 20, 35])).length := by
  intro i q h
  match i, h with
  | 0, h => simp only [List.getElem?_cons_zero, Option.some.injEq] at h; subst h; decide +kernel
  | 1, h =>
    simp only [List.getElem?_cons_succ, List.getElem?_cons_zero, Option.some.injEq] at h; subst h; decide +kernel
  | n + 2, h => simp at h

-- A dataset of one point and `k = 2` meets the hypothesis of `C90_too_few_points_panics`.
example : (comparable (candidates dInt none 0 20 [10])).length < 2 := by decide +kernel

example : (computeTruth (0 : Nat) dInt 2 [((10 : Int), ()), (20, ()), (35, ())] [] 0 (some [[0, 2], [1]]) [20, 40]).map
    (fun r => r.1.map Queue.contents) = some [[(0, 10), (2, 15)], [(1, 20)]] := by decide +kernel

example : computeRange dInt 12 [10, 20, 35] none [(20 : Int), 40] = some [[0, 1], [2]] := by decide +kernel

example : aggregate (1000 : Rat) (fun a b : Rat => (a - b) * (a - b)) .avgOfMins [1, 5] [2, 9] = some 5 := by
  decide +kernel

end Verif.Tools
