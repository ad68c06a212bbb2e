import Verif.Bench.LinearModel
import Verif.Queue.Props
import Mathlib.Data.List.Basic
import Mathlib.Data.List.Sort
import Mathlib.Data.List.Range

/-!
# Exhaustive search over quantized vectors: theorems
-/

namespace Verif.Bench.Linear

open Verif.Queue

/-! ## Specification -/

section

variable {Q E D : Type} [LinearOrder D]

/-- The stored vectors that can be compared, with their positions, for the distances of a query. -/
def points (ds : List (Option D)) : List (Nat × D) := ds.zipIdx.filterMap fun x => x.1.map fun d => (x.2, d)

/-- The row holds the `k` nearest points, nearest first, and then `u32::MAX`. -/
def Nearest (k : Nat) (ds : List (Option D)) (row : List Nat) : Prop :=
  ∃ found rejected : List (Nat × D),
    row = found.map (·.1) ++ List.replicate (k - found.length) 4294967295 ∧
    found.length = min k (points ds).length ∧
    found.Pairwise (fun a b => a.2 ≤ b.2) ∧
    (found ++ rejected).Perm (points ds) ∧
    ∀ a ∈ found, ∀ b ∈ rejected, a.2 ≤ b.2

/-! ## Lemmas -/

/-- What the loop feeds to the queue. -/
def fed (j : Nat) (ds : List (Option D)) : List (Nat × Option D) := (ds.zipIdx j).map fun x => (x.2 % 4294967296, x.1)

theorem scan_eq (pad : D) (ds : List (Option D)) (j : Nat) (q : Queue Nat D) : scan pad j q ds = feed pad q (fed j ds) := by
  induction ds generalizing j q with
  | nil => rfl
  | cons d ds ih =>
    unfold scan fed feed
    rw [List.zipIdx_cons, List.map_cons, List.foldlM_cons]
    cases h : q.insert pad (j % 4294967296) d with
    | none => rfl
    | some q' => exact ih (j + 1) q'

theorem comparable_fed (ds : List (Option D)) (j : Nat) (h : j + ds.length ≤ 4294967296) :
    comparable (fed j ds) = (ds.zipIdx j).filterMap fun x => x.1.map fun d => (x.2, d) := by
  unfold comparable fed
  rw [List.filterMap_map]
  apply List.filterMap_congr
  rintro ⟨d, i⟩ hx
  have := List.mem_zipIdx hx
  have e : i % 4294967296 = i := Nat.mod_eq_of_lt (by omega)
  simp [e]

theorem writeIds_eq (f : Nat) (ids : List Nat) (k : Nat) (h : ids.length ≤ k) :
    writeIds (List.replicate k f) ids = ids ++ List.replicate (k - ids.length) f := by
  induction ids generalizing k with
  | nil =>
    cases k with
    | zero => rfl
    | succ k => simp [List.replicate_succ, writeIds]
  | cons i ids ih =>
    cases k with
    | zero => simp at h
    | succ k =>
      rw [List.replicate_succ]
      unfold writeIds
      rw [ih k (by simpa using h)]
      simp

/-- The row of a query. -/
def expected (k : Nat) (ds : List (Option D)) : List Nat :=
  (bestOf k (fed 0 ds)).map (·.1) ++ List.replicate (k - (bestOf k (fed 0 ds)).length) 4294967295

theorem searchRow_ok (pad : D) (k : Nat) (hk : 0 < k) (builder : Q → Except E (List (Option D))) (q : Q)
    (ds : List (Option D)) (h : builder q = .ok ds) :
    searchRow pad k builder (List.replicate k filler) q = some (.ok (expected k ds)) := by
  unfold searchRow
  rw [h]
  simp only
  obtain ⟨queue, h1, _, h3⟩ := C01_queue_best_l pad k hk (fed 0 ds)
  rw [scan_eq, h1]
  simp only [h3]
  obtain ⟨_, h4, _⟩ := C01_bestOf_meaning k (fed 0 ds)
  rw [writeIds_eq]
  · rw [List.length_map]
    rfl
  · rw [List.length_map, h4]
    omega

theorem expected_nearest (k : Nat) (ds : List (Option D)) (h : ds.length ≤ 4294967296) : Nearest k ds (expected k ds) := by
  obtain ⟨h1, h2, rejected, h3, h4⟩ := C01_bestOf_meaning k (fed 0 ds)
  have e : comparable (fed 0 ds) = points ds := comparable_fed ds 0 (by omega)
  rw [e] at h2 h3
  exact ⟨_, rejected, rfl, h2, h1, h3, h4⟩

theorem searchRows_ok (pad : D) (k : Nat) (hk : 0 < k) (builder : Q → Except E (List (Option D))) (queries : List Q)
    (order : List Nat) (rows : List (List Nat)) (hl : rows.length = queries.length) (hn : order.Nodup)
    (ho : ∀ i ∈ order, rows[i]? = some (List.replicate k filler))
    (hb : ∀ i ∈ order, ∀ q, queries[i]? = some q → ∃ ds, builder q = .ok ds) :
    ∃ rows', searchRows pad k builder queries order rows = some (.ok rows') ∧ rows'.length = queries.length ∧
      (∀ i, i ∉ order → rows'[i]? = rows[i]?) ∧
      ∀ i ∈ order, ∀ q ds, queries[i]? = some q → builder q = .ok ds → rows'[i]? = some (expected k ds) := by
  induction order generalizing rows with
  | nil => exact ⟨rows, rfl, hl, fun _ _ => rfl, by simp⟩
  | cons i order ih =>
    have hi := ho i (by simp)
    have hilt : i < rows.length := (List.getElem?_eq_some_iff.1 hi).1
    obtain ⟨q, hq⟩ : ∃ q, queries[i]? = some q := ⟨_, List.getElem?_eq_getElem (hl ▸ hilt)⟩
    obtain ⟨ds, hds⟩ := hb i (by simp) q hq
    rw [List.nodup_cons] at hn
    unfold searchRows
    rw [hq, hi]
    simp only
    rw [searchRow_ok pad k hk builder q ds hds]
    simp only
    obtain ⟨rows', h1, h2, h3, h4⟩ := ih (rows.set i (expected k ds)) (by rw [List.length_set, hl]) hn.2
      (fun j hj => by
        have : i ≠ j := fun e => hn.1 (e ▸ hj)
        rw [List.getElem?_set_ne this]
        exact ho j (by simp [hj]))
      (fun j hj => hb j (by simp [hj]))
    refine ⟨rows', h1, h2, ?_, ?_⟩
    · intro j hj
      simp only [List.mem_cons, not_or] at hj
      rw [h3 j hj.2, List.getElem?_set_ne (Ne.symm hj.1)]
    · intro j hj p es hp hes
      rw [List.mem_cons] at hj
      rcases hj with rfl | hj
      · rw [h3 j hn.1, List.getElem?_set_self hilt]
        rw [hq] at hp
        cases hp
        rw [hds] at hes
        cases hes
        rfl
      · exact h4 j hj p es hp hes

theorem searchRows_error (pad : D) (k : Nat) (hk : 0 < k) (builder : Q → Except E (List (Option D))) (queries : List Q)
    (order : List Nat) (rows : List (List Nat)) (hl : rows.length = queries.length) (hn : order.Nodup)
    (ho : ∀ i ∈ order, rows[i]? = some (List.replicate k filler))
    (hb : ∃ i ∈ order, ∃ q e, queries[i]? = some q ∧ builder q = .error e) :
    ∃ e, searchRows pad k builder queries order rows = some (.error e) ∧ ∃ q ∈ queries, builder q = .error e := by
  induction order generalizing rows with
  | nil => simp at hb
  | cons i order ih =>
    have hi := ho i (by simp)
    have hilt : i < rows.length := (List.getElem?_eq_some_iff.1 hi).1
    obtain ⟨q, hq⟩ : ∃ q, queries[i]? = some q := ⟨_, List.getElem?_eq_getElem (hl ▸ hilt)⟩
    rw [List.nodup_cons] at hn
    unfold searchRows
    rw [hq, hi]
    simp only
    cases hds : builder q with
    | error e =>
      have : searchRow pad k builder (List.replicate k filler) q = some (.error e) := by
        unfold searchRow
        rw [hds]
      rw [this]
      exact ⟨e, rfl, q, List.mem_of_getElem? hq, hds⟩
    | ok ds =>
      rw [searchRow_ok pad k hk builder q ds hds]
      simp only
      apply ih (rows.set i (expected k ds)) (by rw [List.length_set, hl]) hn.2
      · intro j hj
        have : i ≠ j := fun e => hn.1 (e ▸ hj)
        rw [List.getElem?_set_ne this]
        exact ho j (by simp [hj])
      · obtain ⟨j, hj, p, e, hp, he⟩ := hb
        rw [List.mem_cons] at hj
        rcases hj with rfl | hj
        · rw [hq] at hp
          cases hp
          rw [hds] at he
          cases he
        · exact ⟨j, hj, p, e, hp, he⟩

/-! ## The search -/

/-- C135: if all queries can be prepared and the store has at most 2^32 vectors, then in whatever order the threads take the
queries, each row of the result has the nearest stored vectors of its query, nearest first, and `u32::MAX` after them. -/
theorem C135_exact (pad : D) (k dim : Nat) (hk : 0 < k) (hd : 0 < dim) (builder : Q → Except E (List (Option D)))
    (queries : List Q) (order : List Nat) (ho : order.Perm (List.range queries.length))
    (hb : ∀ q ∈ queries, ∃ ds, builder q = .ok ds ∧ ds.length ≤ 4294967296) :
    ∃ rows : List (List Nat), linearSearch pad k dim builder queries order = some (.ok rows) ∧ rows.length = queries.length ∧
      ∀ (i : Nat) (q : Q) (ds : List (Option D)) (row : List Nat), queries[i]? = some q → builder q = .ok ds → rows[i]? = some row → row.length = k ∧ Nearest k ds row := by
  unfold linearSearch
  rw [if_neg (by omega)]
  obtain ⟨rows, h1, h2, _, h4⟩ := searchRows_ok pad k hk builder queries order
    (List.replicate queries.length (List.replicate k filler)) (by simp) (ho.nodup_iff.2 List.nodup_range)
    (fun i hi => by
      have := List.mem_range.1 (ho.mem_iff.1 hi)
      simp [this])
    (fun i _ q hq => by
      obtain ⟨ds, h, _⟩ := hb q (List.mem_of_getElem? hq)
      exact ⟨ds, h⟩)
  refine ⟨rows, h1, h2, fun i q ds row hq hds hr => ?_⟩
  have hi : i ∈ order := ho.mem_iff.2 (List.mem_range.2 (List.getElem?_eq_some_iff.1 hq).1)
  rw [h4 i hi q ds hq hds] at hr
  cases hr
  obtain ⟨ds', hd1, hd2⟩ := hb q (List.mem_of_getElem? hq)
  rw [hds] at hd1
  cases hd1
  have hn := expected_nearest k ds hd2
  refine ⟨?_, hn⟩
  unfold expected
  obtain ⟨_, h5, _⟩ := C01_bestOf_meaning k (fed 0 ds)
  simp only [List.length_append, List.length_map, List.length_replicate]
  omega

/-- C135: no id but the filler is returned twice. -/
theorem C135_distinct (k : Nat) (ds : List (Option D)) (row : List Nat) (h : Nearest k ds row) :
    (row.take (points ds).length).Nodup ∧ ∀ i ∈ row.take (points ds).length, ∃ d, ds[i]? = some (some d) := by
  obtain ⟨found, rejected, rfl, h2, _, h4, _⟩ := h
  have hp : ((points ds).map (·.1)).Nodup := by
    have : List.Sublist ((points ds).map (·.1)) (ds.zipIdx.map (·.2)) := by
      unfold points
      generalize ds.zipIdx = l
      induction l with
      | nil => simp
      | cons x l ih =>
        obtain ⟨d, i⟩ := x
        cases d with
        | none => simpa using ih.cons i
        | some d => simpa using ih
    refine List.Nodup.sublist this ?_
    rw [List.zipIdx_map_snd]
    exact List.nodup_range'
  have ht : (found.map (fun x : Nat × D => x.1) ++ List.replicate (k - found.length) 4294967295).take (points ds).length = found.map (fun x : Nat × D => x.1) := by
    rcases Nat.lt_or_ge k (points ds).length with hlt | hge
    · have hf : found.length = k := by omega
      have : k - found.length = 0 := by omega
      rw [this]
      simp only [List.replicate_zero, List.append_nil]
      exact List.take_of_length_le (by rw [List.length_map]; omega)
    · have : (points ds).length = (found.map (fun x => x.1)).length := by rw [List.length_map]; omega
      rw [this, List.take_left']
      rfl
  rw [ht]
  constructor
  · have := (h4.map (·.1)).nodup_iff.2 hp
    rw [List.map_append, List.nodup_append] at this
    exact this.1
  · intro i hi
    rw [List.mem_map] at hi
    obtain ⟨⟨j, d⟩, hx, rfl⟩ := hi
    have : (j, d) ∈ points ds := h4.mem_iff.1 (List.mem_append_left _ hx)
    unfold points at this
    rw [List.mem_filterMap] at this
    obtain ⟨⟨o, i⟩, hm, he⟩ := this
    cases o with
    | none => simp at he
    | some d' =>
      simp only [Option.map_some, Option.some.injEq, Prod.mk.injEq] at he
      obtain ⟨rfl, rfl⟩ := he
      refine ⟨d', ?_⟩
      rw [List.mem_zipIdx_iff_getElem?] at hm
      exact hm

/-- C135: if a query cannot be prepared, the search fails with the error of such a query, and has no other result. -/
theorem C135_error (pad : D) (k dim : Nat) (hk : 0 < k) (hd : 0 < dim) (builder : Q → Except E (List (Option D)))
    (queries : List Q) (order : List Nat) (ho : order.Perm (List.range queries.length))
    (hb : ∃ q ∈ queries, ∃ e, builder q = .error e) :
    ∃ e, linearSearch pad k dim builder queries order = some (.error e) ∧ ∃ q ∈ queries, builder q = .error e := by
  unfold linearSearch
  rw [if_neg (by omega)]
  apply searchRows_error pad k hk builder queries order _ (by simp) (ho.nodup_iff.2 List.nodup_range)
  · intro i hi
    have := List.mem_range.1 (ho.mem_iff.1 hi)
    simp [this]
  · obtain ⟨q, hq, e, he⟩ := hb
    obtain ⟨i, hi⟩ := List.mem_iff_getElem?.1 hq
    exact ⟨i, ho.mem_iff.2 (List.mem_range.2 (List.getElem?_eq_some_iff.1 hi).1), q, e, hi, he⟩

/-- C135: the rows do not depend on the order in which the threads take the queries. -/
theorem C135_schedule (pad : D) (k dim : Nat) (hk : 0 < k) (hd : 0 < dim) (builder : Q → Except E (List (Option D)))
    (queries : List Q) (order order' : List Nat) (ho : order.Perm (List.range queries.length))
    (ho' : order'.Perm (List.range queries.length)) (rows : List (List Nat))
    (h : linearSearch pad k dim builder queries order = some (.ok rows)) :
    linearSearch pad k dim builder queries order' = some (.ok rows) := by
  have hb : ∀ q ∈ queries, ∃ ds, builder q = .ok ds := by
    intro q hq
    cases hq' : builder q with
    | ok ds => exact ⟨ds, rfl⟩
    | error e =>
      obtain ⟨e', h', _⟩ := C135_error pad k dim hk hd builder queries order ho ⟨q, hq, e, hq'⟩
      rw [h] at h'
      cases h'
  unfold linearSearch at h ⊢
  rw [if_neg (by omega)] at h ⊢
  have key : ∀ ord : List Nat, ord.Perm (List.range queries.length) → ∃ rows : List (List Nat),
      searchRows pad k builder queries ord (List.replicate queries.length (List.replicate k filler)) = some (.ok rows) ∧
      rows.length = queries.length ∧ ∀ (i : Nat) (q : Q) (ds : List (Option D)), queries[i]? = some q → builder q = .ok ds →
        rows[i]? = some (expected k ds) := by
    intro ord hord
    obtain ⟨rows, h1, h2, _, h4⟩ := searchRows_ok pad k hk builder queries ord
      (List.replicate queries.length (List.replicate k filler)) (by simp) (hord.nodup_iff.2 List.nodup_range)
      (fun i hi => by
        have := List.mem_range.1 (hord.mem_iff.1 hi)
        simp [this])
      (fun i _ q hq => hb q (List.mem_of_getElem? hq))
    exact ⟨rows, h1, h2, fun i q ds hq hds =>
      h4 i (hord.mem_iff.2 (List.mem_range.2 (List.getElem?_eq_some_iff.1 hq).1)) q ds hq hds⟩
  obtain ⟨r1, a1, a2, a3⟩ := key order ho
  obtain ⟨r2, b1, b2, b3⟩ := key order' ho'
  rw [a1] at h
  cases h
  rw [b1]
  have : r2 = rows := by
    apply List.ext_getElem?
    intro i
    cases hq : queries[i]? with
    | none =>
      have := List.getElem?_eq_none_iff.1 hq
      rw [List.getElem?_eq_none_iff.2 (by omega), List.getElem?_eq_none_iff.2 (by omega)]
    | some q =>
      obtain ⟨ds, hds⟩ := hb q (List.mem_of_getElem? hq)
      rw [a3 i q ds hq hds, b3 i q ds hq hds]
  rw [this]

theorem large_best (d : D) (n : Nat) (h : n % 4294967296 = 0) :
    bestOf 1 (fed 0 (List.replicate n none ++ [some d])) = [(0, d)] := by
  have : comparable (fed 0 (List.replicate n (none : Option D) ++ [some d])) = [(0, d)] := by
    unfold fed comparable
    rw [List.zipIdx_append, List.map_append, List.filterMap_append]
    have hn : ((List.replicate n (none : Option D)).zipIdx.map fun x => (x.2 % 4294967296, x.1)).filterMap
        (fun x => x.2.map fun d => (x.1, d)) = [] := by
      rw [List.filterMap_eq_nil_iff]
      intro x hx
      rw [List.mem_map] at hx
      obtain ⟨⟨o, i⟩, ho, rfl⟩ := hx
      have hm := List.mem_zipIdx_iff_getElem?.1 ho
      have := List.mem_of_getElem? hm
      rw [List.mem_replicate] at this
      simp only at this
      rw [this.2]
      rfl
    rw [hn, List.length_replicate, List.zipIdx_singleton, Nat.zero_add, List.map_singleton, h]
    rfl
  unfold bestOf
  rw [this]
  rfl

/-- C135 (refuted: the id returned is the position of the vector, without a limit on the store): in a store in which only the
last vector can be compared, at a position that is a multiple of 2^32, the answer is vector 0. -/
theorem C135_large_refuted (pad d : D) (q : Q) (n : Nat) (h : n % 4294967296 = 0) :
    linearSearch (E := E) pad 1 1 (fun _ => .ok (List.replicate n none ++ [some d])) [q] [0] = some (.ok [[0]]) := by
  have hr := searchRow_ok (E := E) pad 1 (by omega) (fun _ => .ok (List.replicate n none ++ [some d])) q _ rfl
  have he : expected 1 (List.replicate n none ++ [some d]) = [0] := by
    unfold expected
    rw [large_best d n h]
    rfl
  rw [he] at hr
  unfold linearSearch
  rw [if_neg (by omega)]
  simp only [List.length_singleton, List.replicate_one, searchRows, List.getElem?_cons_zero]
  rw [List.replicate_one] at hr
  rw [hr]
  rfl

end

/-! ## The values -/

theorem dedup_mem (l : List Nat) (x : Nat) : x ∈ dedup l ↔ x ∈ l := by
  induction l with
  | nil => rfl
  | cons y ys ih =>
    unfold dedup
    cases h : dedup ys with
    | nil =>
      rw [h] at ih
      simp only [List.not_mem_nil, false_iff] at ih
      simp [ih]
    | cons z zs =>
      rw [h] at ih
      simp only
      split
      · rename_i e
        subst e
        rw [ih, List.mem_cons]
        exact ⟨Or.inr, fun h => h.elim (fun e => ih.1 (by simp [e])) id⟩
      · rw [List.mem_cons, ih, List.mem_cons]

theorem dedup_head (y : Nat) (ys : List Nat) : ∃ zs, dedup (y :: ys) = y :: zs := by
  unfold dedup
  cases h : dedup ys with
  | nil => exact ⟨[], rfl⟩
  | cons z zs =>
    simp only
    split
    · rename_i e
      subst e
      exact ⟨zs, rfl⟩
    · exact ⟨z :: zs, rfl⟩

theorem dedup_sorted (l : List Nat) (h : l.Pairwise (· ≤ ·)) : (dedup l).Pairwise (· < ·) := by
  induction l with
  | nil => simp [dedup]
  | cons y ys ih =>
    rw [List.pairwise_cons] at h
    have ih := ih h.2
    unfold dedup
    cases hd : dedup ys with
    | nil => simp
    | cons z zs =>
      rw [hd] at ih
      simp only
      split
      · exact ih
      · rename_i hne
        rw [List.pairwise_cons]
        refine ⟨fun w hw => ?_, ih⟩
        have hz : z ∈ ys := (dedup_mem ys z).1 (by rw [hd]; simp)
        have := h.1 z hz
        rw [List.mem_cons] at hw
        rcases hw with rfl | hw
        · omega
        · have := (List.pairwise_cons.1 ih).1 w hw
          omega

/-- What `sort_unstable` promises. -/
def Sorts (sort : List Nat → List Nat) : Prop := ∀ l, (sort l).Perm l ∧ (sort l).Pairwise (· ≤ ·)

theorem last_max (l : List Nat) (h : l.Pairwise (· < ·)) (n : Nat) (hn : l.getLast? = some n) : ∀ x ∈ l, x ≤ n := by
  obtain ⟨ys, rfl⟩ := List.getLast?_eq_some_iff.1 hn
  rw [List.pairwise_append] at h
  intro x hx
  rw [List.mem_append, List.mem_singleton] at hx
  rcases hx with hx | rfl
  · exact Nat.le_of_lt (h.2.2 x hx n (by simp))
  · exact Nat.le_refl _

/-- C135: the values are accepted exactly if some `k` given is at most some `n` given; afterwards both lists have the values
given, each once and in increasing order. -/
theorem C135_values (sort : List Nat → List Nat) (hs : Sorts sort) (v : Values) :
    ((validate sort v).1 = .ok () ↔ ∃ k ∈ v.recallK, ∃ n ∈ v.recallN, k ≤ n) ∧
    ((validate sort v).1 = .ok () →
      (validate sort v).2.recallK.Pairwise (· < ·) ∧ (∀ x, x ∈ (validate sort v).2.recallK ↔ x ∈ v.recallK) ∧
      (validate sort v).2.recallN.Pairwise (· < ·) ∧ (∀ x, x ∈ (validate sort v).2.recallN ↔ x ∈ v.recallN)) := by
  have mk : ∀ l x, x ∈ dedup (sort l) ↔ x ∈ l := fun l x => by rw [dedup_mem, (hs l).1.mem_iff]
  have so : ∀ l, (dedup (sort l)).Pairwise (· < ·) := fun l => dedup_sorted _ (hs l).2
  unfold validate
  by_cases h1 : v.recallK = []
  · rw [if_pos h1]
    simp [h1]
  · rw [if_neg h1]
    by_cases h2 : v.recallN = []
    · rw [if_pos h2]
      simp [h2]
    · rw [if_neg h2]
      simp only
      cases hk : (dedup (sort v.recallK)).head? with
      | none =>
        rw [List.head?_eq_none_iff] at hk
        obtain ⟨x, hx⟩ := List.exists_mem_of_ne_nil _ h1
        rw [← mk, hk] at hx
        simp at hx
      | some k =>
        cases hn : (dedup (sort v.recallN)).getLast? with
        | none =>
          rw [List.getLast?_eq_none_iff] at hn
          obtain ⟨x, hx⟩ := List.exists_mem_of_ne_nil _ h2
          rw [← mk, hn] at hx
          simp at hx
        | some n =>
          simp only
          have hmin : ∀ x ∈ v.recallK, k ≤ x := by
            intro x hx
            rw [← mk] at hx
            have := so v.recallK
            cases hl : dedup (sort v.recallK) with
            | nil => rw [hl] at hk; simp at hk
            | cons y ys =>
              rw [hl] at hk hx this
              simp only [List.head?_cons, Option.some.injEq] at hk
              subst hk
              rw [List.mem_cons] at hx
              rcases hx with rfl | hx
              · exact Nat.le_refl _
              · exact Nat.le_of_lt ((List.pairwise_cons.1 this).1 x hx)
          have hmax : ∀ x ∈ v.recallN, x ≤ n := fun x hx => last_max _ (so v.recallN) n hn x ((mk _ _).2 hx)
          have hk' : k ∈ v.recallK := (mk _ _).1 (List.mem_of_head? hk)
          have hn' : n ∈ v.recallN := (mk _ _).1 (List.mem_of_getLast? hn)
          split
          · rename_i hgt
            refine ⟨?_, by simp⟩
            simp only [reduceCtorEq, false_iff]
            rintro ⟨a, ha, b, hb, hab⟩
            have := hmin a ha
            have := hmax b hb
            omega
          · rename_i hle
            exact ⟨⟨fun _ => ⟨k, hk', n, hn', by omega⟩, fun _ => rfl⟩,
              fun _ => ⟨so _, mk _, so _, mk _⟩⟩

/-- C135: for accepted values, at least one recall is computed; one is computed for exactly the pairs with `k` at most `n`, each
once; and the search is asked for as many results as the largest `n` needs. -/
theorem C135_pairs (sort : List Nat → List Nat) (hs : Sorts sort) (v : Values) (h : (validate sort v).1 = .ok ()) :
    recallPairs (validate sort v).2 ≠ [] ∧ (recallPairs (validate sort v).2).Nodup ∧
    (∀ k n, (k, n) ∈ recallPairs (validate sort v).2 ↔ k ∈ v.recallK ∧ n ∈ v.recallN ∧ k ≤ n) ∧
    ∃ m ∈ v.recallN, resultsPerQuery (validate sort v).2 = some m ∧ ∀ n ∈ v.recallN, n ≤ m := by
  obtain ⟨h1, h2⟩ := C135_values sort hs v
  obtain ⟨a1, a2, a3, a4⟩ := h2 h
  obtain ⟨k, hk, n, hn, hkn⟩ := h1.1 h
  have hm : ∀ k n, (k, n) ∈ recallPairs (validate sort v).2 ↔ k ∈ v.recallK ∧ n ∈ v.recallN ∧ k ≤ n := by
    intro k n
    unfold recallPairs
    simp only [List.mem_flatMap, List.mem_filterMap, Option.ite_none_left_eq_some, Option.some.injEq, Prod.mk.injEq]
    constructor
    · rintro ⟨k', h1, n', h2, h3, rfl, rfl⟩
      exact ⟨(a2 _).1 h1, (a4 _).1 h2, by omega⟩
    · rintro ⟨h1, h2, h3⟩
      exact ⟨k, (a2 _).2 h1, n, (a4 _).2 h2, by omega, rfl, rfl⟩
  refine ⟨fun e => ?_, ?_, hm, ?_⟩
  · have := (hm k n).2 ⟨hk, hn, hkn⟩
    rw [e] at this
    simp at this
  · unfold recallPairs
    rw [List.nodup_flatMap]
    constructor
    · intro k _
      refine List.Nodup.filterMap ?_ (a3.imp (fun h => Nat.ne_of_lt h))
      intro x y b hx hy
      simp only [Option.mem_def, Option.ite_none_left_eq_some, Option.some.injEq] at hx hy
      obtain ⟨_, rfl⟩ := hx
      obtain ⟨_, e⟩ := hy
      simpa using e.symm
    · refine a1.imp ?_
      intro x y hxy
      simp only [Function.onFun]
      rw [List.disjoint_left]
      intro p hp hq
      simp only [List.mem_filterMap, Option.ite_none_left_eq_some, Option.some.injEq] at hp hq
      obtain ⟨_, _, _, rfl⟩ := hp
      obtain ⟨_, _, _, e⟩ := hq
      simp only [Prod.mk.injEq] at e
      omega
  · unfold resultsPerQuery
    cases hl : (validate sort v).2.recallN.getLast? with
    | none =>
      rw [List.getLast?_eq_none_iff] at hl
      have := (a4 n).2 hn
      rw [hl] at this
      simp at this
    | some m =>
      exact ⟨m, (a4 m).1 (List.mem_of_getLast? hl), rfl, fun x hx => last_max _ a3 m hl x ((a4 x).2 hx)⟩

/-- C135 (refuted: accepted values can be searched for): zero alone is accepted, and the search panics. -/
theorem C135_zero_refuted {Q E D : Type} [LinearOrder D] (sort : List Nat → List Nat) (hs : Sorts sort) (pad : D) (dim : Nat)
    (builder : Q → Except E (List (Option D))) (queries : List Q) (order : List Nat) :
    (validate sort ⟨[0], [0]⟩).1 = .ok () ∧ resultsPerQuery (validate sort ⟨[0], [0]⟩).2 = some 0 ∧
      linearSearch pad 0 dim builder queries order = none := by
  have h : (validate sort ⟨[0], [0]⟩).1 = .ok () := ((C135_values sort hs ⟨[0], [0]⟩).1).2 ⟨0, by simp, 0, by simp, by simp⟩
  obtain ⟨_, _, _, m, hm, h4, _⟩ := C135_pairs sort hs _ h
  simp only [List.mem_singleton] at hm
  subst hm
  exact ⟨h, h4, by simp [linearSearch]⟩

/-! ## A concrete case -/

/-- Two queries on a store of four, one of the vectors not comparable with the second. -/
def exBuilder : Nat → Except Unit (List (Option Nat))
  | 0 => .ok [some 7, some 3, some 5, some 3]
  | 1 => .ok [some 1, none, some 0, none]
  | _ => .error ()

example : linearSearch 0 3 8 exBuilder [0, 1] [1, 0] = some (.ok [[3, 1, 2], [2, 0, 4294967295]]) := by decide +kernel

example : linearSearch 0 3 8 exBuilder [0, 5] [1, 0] = some (.error ()) := by decide +kernel

example : ∀ q ∈ [0, 1], ∃ ds, exBuilder q = .ok ds ∧ ds.length ≤ 4294967296 := by
  intro q hq
  simp only [List.mem_cons, List.not_mem_nil, or_false] at hq
  rcases hq with rfl | rfl
  · exact ⟨_, rfl, by decide⟩
  · exact ⟨_, rfl, by decide⟩

example : Sorts (fun l => l.insertionSort (· ≤ ·)) := fun l =>
  ⟨List.perm_insertionSort _ l, List.pairwise_insertionSort _ l⟩

example : validate (fun l => l.insertionSort (· ≤ ·)) ⟨[10, 1, 10], [5, 20, 5]⟩ = (.ok (), ⟨[1, 10], [5, 20]⟩) ∧
    recallPairs ⟨[1, 10], [5, 20]⟩ = [(1, 5), (1, 20), (10, 20)] := by decide +kernel

end Verif.Bench.Linear
