import Verif.Pq.DistProps

/-! # C80: distances to many codes -/

namespace Verif.Pq

open Verif.Vec Verif.Vec.Spec Verif.Pq.Spec

section

variable {R : Type} [Zero R] [Add R]

/-- **C80.** Looking up many codes at once gives each the very value that looking it up alone gives, added in the same order,
and leaves the rest of the output alone. -/
theorem C80_batch (codes : List (List Nat)) (n : Nat) (hn : 0 < n) (hlen : ∀ c ∈ codes, c.length = n)
    (hbyte : ∀ c ∈ codes, ∀ b ∈ c, b < 256) (lut out : List R) (hl : lut.length = n * 256) (hout : codes.length ≤ out.length) :
    ∃ r, pqDistLookup codes.flatten codes.length n lut out = some (some r) ∧ r.length = out.length ∧
      (∀ k (h : k < codes.length), some (r.getD k 0) = lookupSingle codes[k] lut 256) ∧
      ∀ k, codes.length ≤ k → r.getD k 0 = out.getD k 0 := by
  have hb : ∀ b ∈ codes.flatten, b < 256 := by
    intro b hb
    obtain ⟨c, hc, hb⟩ := List.mem_flatten.mp hb
    exact hbyte c hc b hb
  refine ⟨_, pqDistLookup_ok (flatten_len codes n hlen) hb (by omega) out hout, by simp; omega, fun k hk => ?_, fun k hk => ?_⟩
  · rw [lookupSingle_ok codes[k] lut 256 (by omega) (by rw [hl, hlen _ (List.getElem_mem hk)])
      (hbyte _ (List.getElem_mem hk)), hlen _ (List.getElem_mem hk)]
    rw [List.getD_eq_getElem?_getD, List.getElem?_append_left (by simpa using hk), List.getElem?_map, List.getElem?_range hk]
    simp only [Option.map_some, Option.getD_some]
    congr 1
    unfold tableSum
    refine List.foldl_ext _ _ _ (fun acc i hi => ?_)
    rw [List.mem_range] at hi
    show acc + lut.getD (i * 256 + codes.flatten.getD (k * n + i) 0) 0 = acc + lut.getD (i * 256 + codes[k].getD i 0) 0
    rw [flatten_getD codes n hlen hk hi]
    have : codes.getD k [] = codes[k] := by rw [List.getD_eq_getElem?_getD, List.getElem?_eq_getElem hk]; rfl
    rw [this]
  · rw [List.getD_eq_getElem?_getD, List.getElem?_append_right (by simpa using hk), List.getElem?_drop, List.length_map,
      List.length_range, ← List.getD_eq_getElem?_getD]
    congr 1
    omega

/-- Looking up one code in a longer buffer. -/
theorem C80_one (code : List Nat) (hn : 0 < code.length) (hbyte : ∀ b ∈ code, b < 256) (lut out : List R)
    (hl : lut.length = code.length * 256) (hout : 1 ≤ out.length) :
    ∃ d, lookupSingle code lut 256 = some d ∧ computePqDistanceForCode code code.length lut out = some (some (d :: out.drop 1)) := by
  refine ⟨_, lookupSingle_ok code lut 256 (by omega) hl hbyte, ?_⟩
  unfold computePqDistanceForCode
  rw [pqDistLookup_ok (by simp) hbyte (by omega) out hout]
  congr 2
  simp

/-- **C80.** Distances of a list of ids: for each id the sum of the table entries that its stored code names, in the order of the
ids. Buffers that are too short are an error; an id without a stored code panics. -/
theorem C80_ids (ids data : List Nat) (n : Nat) (hn : 0 < n) (hids : ∀ id ∈ ids, (id + 1) * n ≤ data.length)
    (hbyte : ∀ b ∈ data, b < 256) (lut : List R) (hl : 256 * n ≤ lut.length) (coord : List Nat) (out : List R)
    (hc : ids.length * n ≤ coord.length) (hout : ids.length ≤ out.length) :
    ∃ coord' r, computePqDistance ids n lut data coord out = some (some (coord', r)) ∧
      r = ids.map (fun id => tableSum lut 256 n (fun i => (codeAt data n id).getD i 0)) ++ out.drop ids.length ∧
      pqDistances ids n lut data coord out =
        some (some (ids.map (fun id => (tableSum lut 256 n (fun i => (codeAt data n id).getD i 0), id)))) := by
  have hg := gather_len ids data n hids
  have hsl : slice (ids.flatMap (codeAt data n) ++ coord.drop (ids.length * n)) 0 (ids.length * n) =
      some (ids.flatMap (codeAt data n)) := by
    unfold slice
    rw [if_pos ⟨by omega, by rw [List.length_append]; omega⟩, List.drop_zero, Nat.sub_zero, ← hg, List.take_left]
  have hb : ∀ b ∈ ids.flatMap (codeAt data n), b < 256 := by
    intro b hb
    obtain ⟨id, hid, hb⟩ := List.mem_flatMap.mp hb
    exact hbyte b (List.mem_of_mem_drop (List.mem_of_mem_take hb))
  have hmap : (List.range ids.length).map (fun k => tableSum lut 256 n (fun i =>
      (ids.flatMap (codeAt data n)).getD (k * n + i) 0)) =
      ids.map (fun id => tableSum lut 256 n (fun i => (codeAt data n id).getD i 0)) := by
    apply List.ext_getElem
    · simp
    · intro k h1 h2
      simp only [List.length_map] at h2
      rw [List.getElem_map, List.getElem_map, List.getElem_range]
      unfold tableSum
      refine List.foldl_ext _ _ _ (fun acc i hi => ?_)
      rw [List.mem_range] at hi
      show acc + lut.getD (i * 256 + (ids.flatMap (codeAt data n)).getD (k * n + i) 0) 0 =
        acc + lut.getD (i * 256 + (codeAt data n ids[k]).getD i 0) 0
      rw [gather_getD ids data n hids h2 hi]
      have : ids.getD k 0 = ids[k] := by rw [List.getD_eq_getElem?_getD, List.getElem?_eq_getElem h2]; rfl
      rw [this]
  have hcomp : computePqDistance ids n lut data coord out = some (some
      (ids.flatMap (codeAt data n) ++ coord.drop (ids.length * n),
        ids.map (fun id => tableSum lut 256 n (fun i => (codeAt data n id).getD i 0)) ++ out.drop ids.length)) := by
    unfold computePqDistance
    rw [aggregate_ok ids data n hn hids coord hc]
    simp only [Option.bind_eq_bind, Option.bind_some]
    rw [hsl]
    simp only [Option.bind_some]
    rw [pqDistLookup_ok hg hb hl out hout, hmap]
    rfl
  refine ⟨_, _, hcomp, rfl, ?_⟩
  unfold pqDistances
  rw [hcomp]
  simp only [Option.bind_eq_bind, Option.bind_some]
  rw [mapM_some _ (fun i => (tableSum lut 256 n (fun j => (codeAt data n (ids.getD i 0)).getD j 0), ids.getD i 0))
    (List.range ids.length) (fun i hi => ?_)]
  · simp only [Option.bind_some, Option.some.injEq]
    apply List.ext_getElem
    · simp
    · intro k h1 h2
      simp only [List.length_map] at h2
      have : ids.getD k 0 = ids[k] := by rw [List.getD_eq_getElem?_getD, List.getElem?_eq_getElem h2]; rfl
      simp only [List.getElem_map, List.getElem_range, this]
  · rw [List.mem_range] at hi
    rw [List.getElem?_append_left (by simpa using hi), List.getElem?_map, List.getElem?_eq_getElem hi]
    have : ids.getD i 0 = ids[i] := by rw [List.getD_eq_getElem?_getD, List.getElem?_eq_getElem hi]; rfl
    simp only [Option.map_some, Option.bind_some, this]

/-- What is checked before any distance is computed. -/
theorem C80_ids_args (ids data : List Nat) (n : Nat) (lut out : List R) (coord : List Nat) :
    (coord.length < ids.length * n → computePqDistance ids n lut data coord out = some none) ∧
    (ids.length * n ≤ coord.length → n = 0 → computePqDistance ids n lut data coord out = none) ∧
    (ids.length * n ≤ coord.length → 0 < n → (∀ id ∈ ids, (id + 1) * n ≤ data.length) → 256 * n ≤ lut.length →
      out.length < ids.length → computePqDistance ids n lut data coord out = some none) ∧
    (ids.length * n ≤ coord.length → 0 < n → (∀ id ∈ ids, (id + 1) * n ≤ data.length) → lut.length < 256 * n →
      computePqDistance ids n lut data coord out = none) := by
  have hcommon : ids.length * n ≤ coord.length → 0 < n → (∀ id ∈ ids, (id + 1) * n ≤ data.length) →
      computePqDistance ids n lut data coord out =
        (do
          match ← pqDistLookup (ids.flatMap (codeAt data n)) ids.length n lut out with
          | none => some none
          | some o => some (some (ids.flatMap (codeAt data n) ++ coord.drop (ids.length * n), o))) := by
    intro hc hn hids
    have hg := gather_len ids data n hids
    unfold computePqDistance
    rw [aggregate_ok ids data n hn hids coord hc]
    simp only [Option.bind_eq_bind, Option.bind_some]
    have hsl : slice (ids.flatMap (codeAt data n) ++ coord.drop (ids.length * n)) 0 (ids.length * n) =
        some (ids.flatMap (codeAt data n)) := by
      unfold slice
      rw [if_pos ⟨by omega, by rw [List.length_append]; omega⟩, List.drop_zero, Nat.sub_zero, ← hg, List.take_left]
    rw [hsl]
    rfl
  refine ⟨fun h => ?_, fun h h0 => ?_, fun hc hn hids hl ho => ?_, fun hc hn hids hl => ?_⟩
  · unfold computePqDistance aggregateCoords
    rw [if_pos h]
    rfl
  · unfold computePqDistance aggregateCoords
    rw [if_neg (by omega), if_pos h0]
    rfl
  · rw [hcommon hc hn hids]
    unfold pqDistLookup
    rw [if_neg (by rw [gather_len ids data n hids]; simp), if_neg (by omega), if_pos ho]
    rfl
  · rw [hcommon hc hn hids]
    unfold pqDistLookup
    rw [if_neg (by rw [gather_len ids data n hids]; simp), if_pos hl]
    rfl

end

/-! ## Disk search -/

section

variable {K : Type} [Field K] [LinearOrder K] [IsStrictOrderedRing K] {Q : List (List K)} {o : Offsets}
  (ho : Partition o) (hpos : 0 < Q.length) (hQ : ∀ p ∈ Q, p.length = o.dim)
  (hsize : (Q.length + 15) * o.dim < 2 ^ 61)

theorem tableSum_num (lut : List (Fl K)) (stride n : Nat) (code : Nat → Nat) (g : Nat → K)
    (h : ∀ i, i < n → lut.getD (i * stride + code i) 0 = .num (g i)) :
    tableSum lut stride n code = .num (((List.range n).map g).sum) := by
  have : ∀ m, m ≤ n → (List.range m).foldl (fun acc i => acc + lut.getD (i * stride + code i) 0) (0 : Fl K) =
      .num (((List.range m).map g).sum) := by
    intro m hm
    induction m with
    | zero => rfl
    | succ m ih =>
      rw [List.range_succ, List.foldl_append, ih (by omega), List.map_append, List.sum_append]
      simp only [List.foldl_cons, List.foldl_nil, List.map_cons, List.map_nil, List.sum_cons, List.sum_nil, add_zero]
      rw [h m (by omega)]
      rfl
  exact this n le_rfl

include ho hpos hQ hsize

theorem process_rows (hn : Q.length < 2 ^ 32) (t : Transposed K)
    (ht : Transposed.fromParts (mat (Q.map fl) o.dim) o = some (some t)) (m : Metric) (x : List K) (hx : x.length = o.dim)
    (scratch : List (Fl K)) (hsc : Q.length * o.len ≤ scratch.length) :
    t.ncenters = Q.length ∧ t.offsets = o ∧
    ∃ dst rows, slice scratch 0 (Q.length * o.len) = some dst ∧
      t.processInto (preprocessKind m) (fl x) ⟨dst, o.len, Q.length⟩ = some rows ∧
      rows.length = o.len ∧ (∀ r ∈ rows, r.length = Q.length) ∧
      ∀ i, i < o.len → ∀ j, j < Q.length → (rows.getD i []).getD j 0 = .num (diskDist m (piece o i x) (piece o i (Q.getD j []))) := by
  have hTab := tableOf ho hpos hQ hsize hn t ht
  refine ⟨by rw [hTab.ncenters]; simp, hTab.offsets, ?_⟩
  have hdst : (scratch.take (Q.length * o.len)).length = o.len * Q.length := by
    rw [List.length_take, Nat.mul_comm o.len]; omega
  obtain ⟨T, h1, h2, h3⟩ := rows_of _ o.len Q.length hdst
  obtain ⟨⟨r1, a1, a2, a3⟩, ⟨r2, b1, b2, b3⟩⟩ := C79_process ho hpos hQ hsize hn t ht x hx T h1 h2
  have hmat : (mat T Q.length : Mat (Fl K)) = ⟨scratch.take (Q.length * o.len), o.len, Q.length⟩ := by
    unfold mat; rw [h3, h1]
  rw [hmat] at a1 b1
  have hslice : slice scratch 0 (Q.length * o.len) = some (scratch.take (Q.length * o.len)) := by
    unfold slice
    rw [if_pos ⟨by omega, hsc⟩, List.drop_zero, Nat.sub_zero]
  have hmem : ∀ r : List (List (Fl K)), r.length = o.len → (∀ i, i < o.len → (r.getD i []).length = Q.length) →
      ∀ l ∈ r, l.length = Q.length := by
    intro r hr h l hl
    obtain ⟨i, hi, rfl⟩ := List.getElem_of_mem hl
    have := h i (by omega)
    rw [List.getD_eq_getElem?_getD, List.getElem?_eq_getElem hi] at this
    exact this
  have l2case : ∃ dst rows, slice scratch 0 (Q.length * o.len) = some dst ∧
      t.processInto .squaredL2 (fl x) ⟨dst, o.len, Q.length⟩ = some rows ∧
      rows.length = o.len ∧ (∀ r ∈ rows, r.length = Q.length) ∧
      ∀ i, i < o.len → ∀ j, j < Q.length → (rows.getD i []).getD j 0 =
        .num (sqDist (piece o i x) (piece o i (Q.getD j []))) :=
    ⟨_, r1, hslice, a1, a2, hmem r1 a2 (fun i hi => (a3 i hi).1), fun i hi j hj => (a3 i hi).2 j hj⟩
  cases m
  · exact l2case
  · exact ⟨_, r2, hslice, b1, b2, hmem r2 b2 (fun i hi => (b3 i hi).1), fun i hi j hj => (b3 i hi).2 j hj⟩
  · exact l2case
  · exact l2case

/-- **C80.** Preparing a query for disk search with a table of 256 centers: the distance of each given id is the distance between
the query and the vector that its stored code stands for; squared distance for every metric but inner product. Entries of the
distance buffer beyond the ids stay. -/
theorem C80_disk (h256 : Q.length = 256) (t : Transposed K)
    (ht : Transposed.fromParts (mat (Q.map fl) o.dim) o = some (some t)) (m : Metric) (x : List K) (hx : x.length = o.dim)
    (ids data : List Nat) (hids : ∀ id ∈ ids, (id + 1) * o.len ≤ data.length) (hbyte : ∀ b ∈ data, b < 256)
    (lut : List (Fl K)) (coord : List Nat) (out : List (Fl K)) (hl : 256 * o.len ≤ lut.length)
    (hc : ids.length * o.len ≤ coord.length) (hout : ids.length ≤ out.length) :
    ∃ lut' coord' out', quantizerPreprocess t m ids data (fl x) lut coord out = some (some (lut', coord', out')) ∧
      out' = ids.map (fun id => Fl.num (diskDist m x (decode Q o (codeAt data o.len id)))) ++ out.drop ids.length := by
  obtain ⟨e1, e2, dst, rows, h1, h2, h3, h4, h5⟩ := process_rows ho hpos hQ hsize (by omega) t ht m x hx lut (by rw [h256]; exact hl)
  have hrl : (rows.flatten ++ lut.drop (Q.length * o.len)).length = lut.length := by
    rw [List.length_append, flatten_len rows Q.length h4, h3, List.length_drop, Nat.mul_comm o.len]
    have : Q.length * o.len ≤ lut.length := by rw [h256]; exact hl
    omega
  obtain ⟨coord', out', h6, h7, _⟩ := C80_ids ids data o.len ho.len_pos hids hbyte
    (rows.flatten ++ lut.drop (Q.length * o.len)) (by omega) coord out hc hout
  refine ⟨rows.flatten ++ lut.drop (Q.length * o.len), coord', out', ?_, ?_⟩
  · unfold quantizerPreprocess
    simp only [e1, e2]
    rw [h1]
    simp only [Option.bind_eq_bind, Option.bind_some]
    rw [h2]
    simp only [Option.bind_some]
    rw [h6]
    rfl
  · rw [h7]
    congr 1
    apply List.map_congr_left
    intro id hid
    have hcode : Code Q o (codeAt data o.len id) := ⟨codeAt_len data o.len id (hids id hid), fun c hc => by
      rw [h256]; exact hbyte c (List.mem_of_mem_drop (List.mem_of_mem_take hc))⟩
    have hsum := chunk_sums ho hQ x hx hcode
    have hentry : ∀ i, i < o.len → (rows.flatten ++ lut.drop (Q.length * o.len)).getD
        (i * 256 + (codeAt data o.len id).getD i 0) 0 = .num (diskDist m (piece o i x) (piece o i (Q.getD ((codeAt data o.len id).getD i 0) []))) := by
      intro i hi
      have hcb := (Code.get ho hQ hcode hi).2
      have hlt : i * 256 + (codeAt data o.len id).getD i 0 < rows.flatten.length := by
        rw [flatten_len rows Q.length h4, h3, h256]
        rw [h256] at hcb
        omega
      rw [List.getD_eq_getElem?_getD, List.getElem?_append_left hlt, ← List.getD_eq_getElem?_getD]
      have := flatten_getD rows Q.length h4 (j := i) (a := (codeAt data o.len id).getD i 0) (by omega) hcb 0
      rw [h256] at this
      rw [this]
      exact h5 i hi _ hcb
    rw [tableSum_num _ 256 o.len _ _ hentry]
    congr 1
    cases m
    · exact hsum.1
    · exact hsum.2
    · exact hsum.1
    · exact hsum.1

/-- A table with fewer than 256 centers is accepted, but preparing any query with it panics when the scratch has the size it is
given, the number of centers times the number of chunks: the lookup takes the centers to be 256. -/
theorem C80_few_centers_false (h256 : Q.length < 256) (t : Transposed K)
    (ht : Transposed.fromParts (mat (Q.map fl) o.dim) o = some (some t)) (m : Metric) (x : List K) (hx : x.length = o.dim)
    (ids data : List Nat) (hids : ∀ id ∈ ids, (id + 1) * o.len ≤ data.length)
    (lut : List (Fl K)) (coord : List Nat) (out : List (Fl K)) (hl : lut.length = Q.length * o.len)
    (hc : ids.length * o.len ≤ coord.length) :
    pqTableFrom (table Q o) = some (table Q o) ∧ quantizerPreprocess t m ids data (fl x) lut coord out = none := by
  obtain ⟨e1, e2, dst, rows, h1, h2, h3, h4, h5⟩ := process_rows ho hpos hQ hsize (by omega) t ht m x hx lut (by omega)
  refine ⟨by rw [C80_from, if_pos (by simp only [mat]; omega)], ?_⟩
  unfold quantizerPreprocess
  simp only [e1, e2]
  rw [h1]
  simp only [Option.bind_eq_bind, Option.bind_some]
  rw [h2]
  simp only [Option.bind_some]
  have hlt : (rows.flatten ++ lut.drop (Q.length * o.len)).length < 256 * o.len := by
    rw [List.length_append, flatten_len rows Q.length h4, h3, List.length_drop, hl, Nat.sub_self, Nat.add_zero, Nat.mul_comm]
    exact Nat.mul_lt_mul_of_pos_right h256 ho.len_pos
  rw [(C80_ids_args ids data o.len (rows.flatten ++ lut.drop (Q.length * o.len)) out coord).2.2.2 hc ho.len_pos hids hlt]
  rfl

end

end Verif.Pq
