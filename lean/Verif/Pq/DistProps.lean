import Verif.Pq.LookupLemmas
import Verif.Pq.EncodeBatchProps

/-! # C80: distances to and between product quantization codes -/

namespace Verif.Pq

open Verif.Vec Verif.Vec.Spec Verif.Pq.Spec

/-! ## Rows -/

theorem rows_of {T : Type} (l : List T) (a b : Nat) (h : l.length = a * b) :
    ∃ rows : List (List T), rows.length = a ∧ (∀ r ∈ rows, r.length = b) ∧ rows.flatten = l := by
  induction a generalizing l with
  | zero => exact ⟨[], rfl, by simp, by simp at h; simp [h]⟩
  | succ a ih =>
    have h' : l.length = a * b + b := by rw [h]; ring
    obtain ⟨rows, h1, h2, h3⟩ := ih (l.drop b) (by rw [List.length_drop]; omega)
    refine ⟨l.take b :: rows, by simp [h1], ?_, by rw [List.flatten_cons, h3, List.take_append_drop]⟩
    intro r hr
    rcases List.mem_cons.mp hr with rfl | hr
    · rw [List.length_take]; omega
    · exact h2 r hr

theorem flatten_getD {T : Type} (P : List (List T)) (d : Nat) (h : ∀ p ∈ P, p.length = d) {j a : Nat} (hj : j < P.length)
    (ha : a < d) (x : T) : P.flatten.getD (j * d + a) x = (P.getD j []).getD a x := by
  have hs := flatten_slice P d h (j := j) (a := a) (w := 1) hj (by omega)
  have e : ∀ l : List T, l.getD 0 x = (l.take 1).getD 0 x := by intro l; cases l <;> rfl
  have e2 : ∀ (l : List T) k, l.getD k x = (l.drop k).getD 0 x := by
    intro l k; rw [List.getD_eq_getElem?_getD, List.getD_eq_getElem?_getD, List.getElem?_drop, Nat.add_zero]
  rw [e2, e, hs, ← e, ← e2]

section

variable {K : Type}

/-- **C80.** A pivot table is accepted exactly if the offsets partition the dimensions and the data are at least one whole row of
pivots; it then holds those rows. A dimension of zero is not reported as an error: the division panics. -/
theorem C80_new [Field K] [LinearOrder K] (dim : Nat) (data : List K) (offs : List Nat) :
    (dim = 0 → pqTableNew dim data offs = none) ∧ (0 < dim → pqTableNew dim data offs ≠ none) ∧
    ∀ t, pqTableNew dim data offs = some (some t) ↔ ∃ P o, t = table P o ∧ Partition o ∧ o.offsets = offs ∧ o.dim = dim ∧
      0 < P.length ∧ (∀ p ∈ P, p.length = dim) ∧ P.flatten = data := by
  refine ⟨fun h => by unfold pqTableNew; rw [if_pos h], fun h => ?_, fun t => ⟨fun h => ?_, ?_⟩⟩
  · unfold pqTableNew
    rw [if_neg (by omega)]
    simp only
    split
    · simp
    · split <;> simp
  · unfold pqTableNew at h
    split at h
    · simp at h
    rename_i hd
    simp only at h
    split at h
    · simp at h
    rename_i hl
    simp only [ne_eq, not_not] at hl
    split at h
    · simp at h
    rename_i o ho
    have ho' := (C79_offsets offs o).1.mp ho
    simp only [Option.some.injEq] at h
    unfold Basic.new at h
    split at h
    · simp at h
    rename_i hc
    simp only [ne_eq, not_not] at hc
    split at h
    · simp at h
    rename_i hr
    simp only [Option.some.injEq] at h
    obtain ⟨P, h1, h2, h3⟩ := rows_of data (data.length / dim) dim hl
    refine ⟨P, o, ?_, ho'.2, ho'.1, hc.symm, by simp only at hr; omega, h2, h3⟩
    rw [← h]
    unfold table mat
    rw [h1, h3, ← hc]
  · rintro ⟨P, o, rfl, ho, rfl, rfl, hpos, hP, rfl⟩
    have hb := ho.bound ho.len_pos
    have hw := (ho.range ho.len_pos).2.1
    have hlen := flatten_len P o.dim hP
    have hdiv : P.flatten.length / o.dim = P.length := by rw [hlen, Nat.mul_div_cancel _ (by omega)]
    unfold pqTableNew
    rw [if_neg (by omega)]
    simp only
    rw [hdiv, if_neg (by simp [hlen]), (C79_offsets o.offsets o).1.mpr ⟨rfl, ho⟩]
    simp only
    unfold Basic.new
    rw [if_neg (by simp), if_neg (by simp only; omega)]
    rfl

/-- A table with more centers than a byte can name is rejected; others are taken as they are. -/
theorem C80_from (t : Basic K) : pqTableFrom t = if t.pivots.nrows ≤ 256 then some t else none := by
  unfold pqTableFrom
  split <;> split <;> first | rfl | omega

variable [Field K] [LinearOrder K] {P : List (List K)} {o : Offsets}

/-! ## The decoded vector -/

/-- **C80.** The vector a code stands for has the full dimension, and each of its chunks is the chunk of the pivot that the code
names; it is the only such vector. -/
theorem C80_decode (ho : Partition o) (hP : ∀ p ∈ P, p.length = o.dim) {code : List Nat} (hc : Code P o code) :
    (decode P o code).length = o.dim ∧
    (∀ i, i < o.len → piece o i (decode P o code) = piece o i (P.getD (code.getD i 0) [])) ∧
    ∀ y : List K, y.length = o.dim → (∀ i, i < o.len → piece o i y = piece o i (P.getD (code.getD i 0) [])) →
      y = decode P o code := by
  refine ⟨decode_len ho hP hc, fun i hi => decode_piece ho hP hc hi, fun y hy h => ?_⟩
  rw [← pieces_all ho y hy, decode, List.flatMap_def, List.flatMap_def]
  congr 1
  apply List.map_congr_left
  intro i hi
  exact h i (List.mem_range.mp hi)

/-- **C80.** Inflating a code gives the vector it stands for, whatever the output buffer held; a code or buffer of the wrong
length panics. -/
theorem C80_inflate (ho : Partition o) (hP : ∀ p ∈ P, p.length = o.dim) (code : List Nat) (out : List K) :
    (Code P o code → (table P o).inflate code = some (decode P o code)) ∧
    (Code P o code → out.length = o.dim → (table P o).inflateInto code out = some (decode P o code)) ∧
    (code.length ≠ o.len ∨ out.length ≠ o.dim → (table P o).inflateInto code out = none) := by
  refine ⟨fun hc => ?_, fun hc hout => inflateInto_ok ho hP hc out hout, fun h => ?_⟩
  · unfold Basic.inflate
    exact inflateInto_ok ho hP hc _ (by simp [mat])
  · unfold Basic.inflateInto
    rcases h with h | h
    · exact if_pos h
    · split
      · rfl
      · first | rfl | exact if_pos h

/-! ## Distances -/

variable [IsStrictOrderedRing K] (sqrt : K → K) (hs : IsSqrt sqrt) (arch : Quant.Arch)

include hs

theorem distanceFn_ok (ho : Partition o) (hP : ∀ p ∈ P, p.length = o.dim) (m : Metric) (x q : List K) (hx : x.length = o.dim)
    (hq : ∀ i, i < o.len → slice q (o.offsets.getD i 0) (o.offsets.getD (i + 1) 0) = some (piece o i x))
    {code : List Nat} (hc : Code P o code) :
    distanceFn sqrt arch m (table P o) q code = some (metricDist sqrt m x (decode P o code)) := by
  obtain ⟨h1, h2, h3⟩ := pairs_eq ho hP hc x hx
  obtain ⟨r1, r2, r3⟩ := C76_resumable sqrt hs arch .f32 _ h1
  rw [h2, h3] at r1 r2 r3
  have c := directDistance_ok ho hP (cosFloat sqrt arch .f32) hc q x hq _ r3
  have hcos : (table P o).cosineDistance sqrt arch q code = some (1 - cosine sqrt x (decode P o code)) := by
    unfold Basic.cosineDistance
    simp only [mat]
    rw [c]
    rfl
  cases m
  · exact hcos
  · have c := directDistance_ok ho hP (ipFloat arch .f32) hc q x hq _ r2
    show (table P o).innerProduct arch q code = _
    unfold Basic.innerProduct Basic.innerProductRaw
    simp only [mat]
    rw [c]
    rfl
  · exact directDistance_ok ho hP (l2Float arch .f32) hc q x hq _ r1
  · exact hcos

/-- **C80.** The distance between a vector and a code, computed without inflating the code, is the distance between the vector
and the vector the code stands for, on every architecture and for every metric. -/
theorem C80_direct (ho : Partition o) (hP : ∀ p ∈ P, p.length = o.dim) (m : Metric) (x : List K) (code : List Nat) :
    (x.length = o.dim → Code P o code →
      distanceComputer sqrt arch m (table P o) x code = some (metricDist sqrt m x (decode P o code))) ∧
    (x.length ≠ o.dim ∨ code.length ≠ o.len → distanceComputer sqrt arch m (table P o) x code = none) := by
  constructor
  · intro hx hc
    unfold distanceComputer
    rw [if_neg (by rw [hx]; simp [mat]), if_neg (by rw [hc.len]; simp)]
    exact distanceFn_ok sqrt hs arch ho hP m x x hx (fun i hi => query_slice ho hP hi x hx) hc
  · intro h
    unfold distanceComputer
    rcases h with h | h
    · exact if_pos h
    · split
      · rfl
      · first | rfl | exact if_pos h

theorem distanceFnQq_ok (ho : Partition o) (hP : ∀ p ∈ P, p.length = o.dim) (m : Metric) {a b : List Nat} (ha : Code P o a)
    (hb : Code P o b) :
    distanceFnQq sqrt arch m (table P o) a b = some (metricDist sqrt m (decode P o a) (decode P o b)) := by
  obtain ⟨h1, h2, h3⟩ := qq_pairs_eq ho hP ha hb
  obtain ⟨r1, r2, r3⟩ := C76_resumable sqrt hs arch .f32 _ h1
  rw [h2, h3] at r1 r2 r3
  have c := selfDistance_ok ho hP (cosFloat sqrt arch .f32) ha hb _ r3
  have hcos : (table P o).qqCosine sqrt arch a b = some (1 - cosine sqrt (decode P o a) (decode P o b)) := by
    unfold Basic.qqCosine
    rw [c]
    rfl
  cases m
  · exact hcos
  · have c := selfDistance_ok ho hP (ipFloat arch .f32) ha hb _ r2
    show (table P o).qqIp arch a b = _
    unfold Basic.qqIp
    rw [c]
    rfl
  · exact selfDistance_ok ho hP (l2Float arch .f32) ha hb _ r1
  · exact hcos

/-- **C80.** The distance between two codes of a table is the distance between the vectors they stand for. -/
theorem C80_codes (ho : Partition o) (hP : ∀ p ∈ P, p.length = o.dim) (m : Metric) (a b : List Nat) :
    (Code P o a → Code P o b →
      distanceComputerQq sqrt arch m (table P o) a b = some (metricDist sqrt m (decode P o a) (decode P o b))) ∧
    (a.length ≠ o.len ∨ b.length ≠ o.len → distanceComputerQq sqrt arch m (table P o) a b = none) := by
  constructor
  · intro ha hb
    unfold distanceComputerQq
    rw [if_neg (by rw [ha.len]; simp), if_neg (by rw [hb.len]; simp)]
    exact distanceFnQq_ok sqrt hs arch ho hP m ha hb
  · intro h
    unfold distanceComputerQq
    rcases h with h | h
    · exact if_pos h
    · split
      · rfl
      · first | rfl | exact if_pos h

omit hs in
theorem foldl_add_sum (g : Nat → K) (L : List Nat) (a : K) : L.foldl (fun acc i => acc + g i) a = a + (L.map g).sum := by
  induction L generalizing a with
  | nil => simp
  | cons i L ih => rw [List.foldl_cons, ih, List.map_cons, List.sum_cons, add_assoc]

omit hs [LinearOrder K] [IsStrictOrderedRing K] in
theorem sum_map_neg' (g : Nat → K) (L : List Nat) : (L.map (fun i => -g i)).sum = -(L.map g).sum := by
  induction L with
  | nil => simp
  | cons i L ih => rw [List.map_cons, List.sum_cons, ih, List.map_cons, List.sum_cons]; ring

omit hs [IsStrictOrderedRing K] in
theorem chunk_sums (ho : Partition o) (hP : ∀ p ∈ P, p.length = o.dim) (x : List K) (hx : x.length = o.dim) {code : List Nat}
    (hc : Code P o code) :
    ((List.range o.len).map (fun i => sqDist (piece o i x) (piece o i (P.getD (code.getD i 0) [])))).sum =
      sqDist x (decode P o code) ∧
    ((List.range o.len).map (fun i => -dot (piece o i x) (piece o i (P.getD (code.getD i 0) [])))).sum =
      -dot x (decode P o code) := by
  obtain ⟨h1, h2, h3⟩ := pairs_eq ho hP hc x hx
  have a := feed_sum (fun (x y : K) => (x - y) * (x - y)) _ h1
  have b := feed_sum (fun (x y : K) => x * y) _ h1
  rw [h2, h3, List.map_map] at a b
  refine ⟨a, ?_⟩
  rw [sum_map_neg' (fun i => dot (piece o i x) (piece o i (P.getD (code.getD i 0) [])))]
  exact congrArg Neg.neg b

/-- **C80.** A query computer answers with the distance between the query and the vector the code stands for, whatever the
recycled memory of its lookup table held. For normalized vectors it uses the squared distance. A query of the wrong length is an
error, a code of the wrong length panics. -/
theorem C80_query (ho : Partition o) (hpos : 0 < P.length) (hP : ∀ p ∈ P, p.length = o.dim) (m : Metric) (x stale : List K) :
    (x.length ≠ o.dim → QueryComputer.new sqrt arch (table P o) m x stale = some none) ∧
    (x.length = o.dim → ∃ c, QueryComputer.new sqrt arch (table P o) m x stale = some (some c) ∧
      (∀ code, Code P o code → c.evaluate sqrt arch code = some (metricDist sqrt (queryMetric m) x (decode P o code))) ∧
      ∀ code, code.length ≠ o.len → c.evaluate sqrt arch code = none) := by
  refine ⟨fun h => by unfold QueryComputer.new; exact if_pos h, fun hx => ?_⟩
  have hne : ¬ x.length ≠ (table P o).pivots.ncols := by rw [hx]; simp [mat]
  have hsc : ((stale ++ List.replicate (o.len * P.length) 0).take (o.len * P.length)).length = o.len * P.length := by
    rw [List.length_take, List.length_append, List.length_replicate]; omega
  have hlook : ∀ (f : Functor') (v : List K → List K → K),
      (∀ y z : List K, y.length = z.length → evalFloat sqrt arch .f32 f .f32 y z = some (.ok (v y z))) →
      ∃ s, lookupTableNew sqrt arch f (table P o) x stale = some (some s) ∧ ∀ code, Code P o code →
        lookupSingle code s P.length =
          some (((List.range o.len).map (fun i => v (piece o i x) (piece o i (P.getD (code.getD i 0) [])))).sum) := by
    intro f v hv
    obtain ⟨s, h1, h2, h3, _⟩ := populate_ok ho hP sqrt arch f x hx v hv _ (le_of_eq hsc.symm)
    refine ⟨s, h1, fun code hc => ?_⟩
    rw [hsc] at h2
    rw [lookupSingle_ok code s P.length hpos (by rw [h2, hc.len]) hc.lt, hc.len]
    unfold tableSum
    rw [foldl_add_sum, zero_add]
    congr 2
    apply List.map_congr_left
    intro i hi
    rw [List.mem_range] at hi
    exact h3 i hi _ (Code.get ho hP hc hi).2
  obtain ⟨s1, a1, a2⟩ := hlook .squaredL2 sqDist (fun y z h => C76_float_l2 sqrt arch .f32 .f32 y z h)
  obtain ⟨s2, b1, b2⟩ := hlook .innerProduct (fun y z => -dot y z)
    (fun y z h => (C76_float_inner_product sqrt arch .f32 y z h).2.2)
  have hl2 : ∀ code, Code P o code → (QueryComputer.l2 s1 P.length (table P o)).evaluate sqrt arch code =
      some (sqDist x (decode P o code)) := by
    intro code hc
    unfold QueryComputer.evaluate
    simp only
    rw [if_neg (by rw [hc.len]; simp), a2 code hc, (chunk_sums ho hP x hx hc).1]
  cases m
  · refine ⟨.cosine x (table P o), by unfold QueryComputer.new; rw [if_neg hne], fun code hc => ?_, fun code hl => ?_⟩
    · unfold QueryComputer.evaluate
      simp only
      rw [if_neg (by rw [hc.len]; simp)]
      exact distanceFn_ok sqrt hs arch ho hP .cosine x x hx (fun i hi => query_slice ho hP hi x hx) hc
    · unfold QueryComputer.evaluate
      simp only
      rw [if_pos (fun h => hl h.symm)]
  · refine ⟨.ip s2 P.length (table P o), by unfold QueryComputer.new; rw [if_neg hne]; simp only; rw [b1]; rfl,
      fun code hc => ?_, fun code hl => ?_⟩
    · unfold QueryComputer.evaluate
      simp only
      rw [if_neg (by rw [hc.len]; simp), b2 code hc, (chunk_sums ho hP x hx hc).2]
      rfl
    · unfold QueryComputer.evaluate
      simp only
      rw [if_pos (fun h => hl h.symm)]
  · refine ⟨.l2 s1 P.length (table P o), by unfold QueryComputer.new; rw [if_neg hne]; simp only; rw [a1]; rfl, hl2,
      fun code hl => ?_⟩
    unfold QueryComputer.evaluate
    simp only
    rw [if_pos (fun h => hl h.symm)]
  · refine ⟨.l2 s1 P.length (table P o), by unfold QueryComputer.new; rw [if_neg hne]; simp only; rw [a1]; rfl, hl2,
      fun code hl => ?_⟩
    unfold QueryComputer.evaluate
    simp only
    rw [if_pos (fun h => hl h.symm)]

omit hs in
/-- Squared distance of unit vectors is twice one minus their cosine. -/
theorem sqDist_unit (hs : IsSqrt sqrt) (x y : List K) (h : x.length = y.length) (hx : dot x x = 1) (hy : dot y y = 1) :
    sqDist x y = 2 * (1 - cosine sqrt x y) := by
  have h1 : ¬ ((1 : K) < 1 / 2 ^ 126) := by
    rw [not_lt, div_le_one (by positivity)]
    exact one_le_pow₀ (by norm_num)
  have e1 : sqrt 1 = 1 := by
    obtain ⟨h1, h2⟩ := hs 1 zero_le_one
    nlinarith [sq_nonneg (sqrt 1 - 1)]
  have hc : cosine sqrt x y = dot x y := by
    unfold cosine
    rw [hx, hy, if_neg (by simp only [or_self]; exact h1), e1, one_mul, div_one]
  have hexp : sqDist x y = dot x x + dot y y - 2 * dot x y := by
    clear hx hy hc
    unfold sqDist dot
    induction x generalizing y with
    | nil => cases y with
      | nil => simp
      | cons b y => simp at h
    | cons a x ih => cases y with
      | nil => simp at h
      | cons b y =>
        simp only [List.zip_cons_cons, List.map_cons, List.sum_cons]
        rw [ih y (by simpa using h)]
        ring
  rw [hexp, hx, hy, hc]
  ring

/-- For normalized vectors, when the query and the vectors the codes stand for do have norm one, the query computer's value is
twice the distance computer's, so they order codes alike. -/
theorem C80_normalized (ho : Partition o) (hpos : 0 < P.length) (hP : ∀ p ∈ P, p.length = o.dim) (x stale : List K)
    (hx : x.length = o.dim) (hx1 : dot x x = 1) :
    ∃ c, QueryComputer.new sqrt arch (table P o) .cosineNormalized x stale = some (some c) ∧
      ∀ code, Code P o code → dot (decode P o code) (decode P o code) = 1 → ∃ v,
        distanceComputer sqrt arch .cosineNormalized (table P o) x code = some v ∧
        c.evaluate sqrt arch code = some (2 * v) := by
  obtain ⟨c, h1, h2, _⟩ := (C80_query sqrt hs arch ho hpos hP .cosineNormalized x stale).2 hx
  refine ⟨c, h1, fun code hc hy1 => ⟨_, (C80_direct sqrt hs arch ho hP .cosineNormalized x code).1 hx hc, ?_⟩⟩
  rw [h2 code hc]
  show some (sqDist x (decode P o code)) = some (2 * (1 - cosine sqrt x (decode P o code)))
  rw [sqDist_unit sqrt hs x _ (by rw [hx, decode_len ho hP hc]) hx1 hy1]

omit hs in
/-- **C80.** The code that compression gives a vector stands for the closest to the vector among all vectors that codes of the
table stand for. -/
theorem C80_closest (ho : Partition o) (hpos : 0 < P.length) (hP : ∀ p ∈ P, p.length = o.dim) (h256 : P.length ≤ 256)
    (x : List K) (hx : x.length = o.dim) (dst : List Nat) (hd : dst.length = o.len) :
    ∃ code, Basic.compressInto ⟨mat (P.map fl) o.dim, o⟩ (fl x) dst = some (.ok code) ∧ Code P o code ∧
      (∀ c, Code P o c → sqDist x (decode P o code) ≤ sqDist x (decode P o c)) ∧
      (x = decode P o code ∨ ∀ c, Code P o c → x ≠ decode P o c) := by
  obtain ⟨code, h1, h2, h3⟩ := C79_basic ho hpos hP h256 ⟨mat (P.map fl) o.dim, o⟩ (by
    unfold Basic.new
    rw [if_neg (by simp [mat]), if_neg (by simp [mat]; intro h; simp [h] at hpos)]) x hx dst hd
  have hcode : Code P o code := ⟨h2, fun c hc => by
    obtain ⟨i, hi, rfl⟩ := List.getElem_of_mem hc
    have := (h3 i (by omega)).1.1
    rw [List.getD_eq_getElem?_getD, List.getElem?_eq_getElem hi] at this
    exact this⟩
  have hle : ∀ c, Code P o c → sqDist x (decode P o code) ≤ sqDist x (decode P o c) := by
    intro c hc
    rw [← (chunk_sums ho hP x hx hcode).1, ← (chunk_sums ho hP x hx hc).1]
    refine List.sum_le_sum (fun i hi => ?_)
    rw [List.mem_range] at hi
    exact (h3 i hi).1.2 _ (Code.get ho hP hc hi).2
  refine ⟨code, h1, hcode, hle, ?_⟩
  have hzero : ∀ x y : List K, x.length = y.length → sqDist x y = 0 → x = y := by
    intro x
    induction x with
    | nil => intro y hl _; cases y with
      | nil => rfl
      | cons => simp at hl
    | cons a x ih =>
      intro y hl h
      cases y with
      | nil => simp at hl
      | cons b y =>
        have hnn : 0 ≤ sqDist x y := List.sum_nonneg (fun z hz => by
          obtain ⟨p, _, rfl⟩ := List.mem_map.mp hz
          exact mul_self_nonneg _)
        have he : sqDist (a :: x) (b :: y) = (a - b) * (a - b) + sqDist x y := by
          unfold sqDist; simp
        have hm := mul_self_nonneg (a - b)
        have h0 : (a - b) * (a - b) = 0 := by linarith
        have hab : a = b := sub_eq_zero.mp (mul_self_eq_zero.mp h0)
        rw [hab, ih y (by simpa using hl) (by linarith)]
  by_cases h : ∃ c, Code P o c ∧ x = decode P o c
  · obtain ⟨c, hc, he⟩ := h
    left
    have h4 := hle c hc
    rw [← he] at h4
    have h5 : sqDist x x = 0 := by
      unfold sqDist
      refine List.sum_eq_zero (fun z hz => ?_)
      obtain ⟨p, hp, rfl⟩ := List.mem_map.mp hz
      have : p.1 = p.2 := by
        obtain ⟨i, hi, rfl⟩ := List.getElem_of_mem hp
        simp
      rw [this]; ring
    have hnn : 0 ≤ sqDist x (decode P o code) := List.sum_nonneg (fun z hz => by
      obtain ⟨p, _, rfl⟩ := List.mem_map.mp hz
      exact mul_self_nonneg _)
    exact hzero _ _ (by rw [hx, decode_len ho hP hcode]) (by rw [h5] at h4; exact le_antisymm h4 hnn)
  · right
    push Not at h
    exact h

end

end Verif.Pq
