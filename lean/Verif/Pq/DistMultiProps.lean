import Verif.Pq.DistBatchProps
import Verif.Pq.EncodeTies
import Mathlib.Data.Real.Sqrt

/-! # C80: codes of two schemas, and concrete cases -/

namespace Verif.Pq

open Verif.Vec Verif.Vec.Spec Verif.Pq.Spec

section

variable {K : Type} [Field K] [LinearOrder K] [IsStrictOrderedRing K] {V : Type} [DecidableEq V] (sqrt : K → K)
  (hs : IsSqrt sqrt) (arch : Quant.Arch)

/-- The two tables. -/
def tables (s : Schemas K V) : MultiTable K V :=
  .two (table s.newPivots s.newOffsets) (table s.oldPivots s.oldOffsets) s.newVersion s.oldVersion

omit [IsStrictOrderedRing K] in
theorem metricDist_comm (m : Metric) (x y : List K) : metricDist sqrt m x y = metricDist sqrt m y x := by
  have h1 : ∀ (x y : List K) (f : K → K → K), (∀ a b, f a b = f b a) →
      ((x.zip y).map (fun p => f p.1 p.2)).sum = ((y.zip x).map (fun p => f p.1 p.2)).sum := by
    intro x y f hf
    rw [← List.zip_swap, List.map_map]
    congr 1
    apply List.map_congr_left
    intro p _
    exact hf _ _
  have hsq : sqDist x y = sqDist y x := h1 x y (fun a b => (a - b) * (a - b)) (fun a b => by ring)
  have hdot : ∀ x y : List K, dot x y = dot y x := fun x y => h1 x y (fun a b => a * b) (fun a b => mul_comm a b)
  have hcos : cosine sqrt x y = cosine sqrt y x := by
    unfold cosine
    simp only [or_comm, hdot x y, mul_comm (sqrt (dot x x))]
  cases m
  · show 1 - _ = 1 - _; rw [hcos]
  · show -_ = -_; rw [hdot]
  · exact hsq
  · show 1 - _ = 1 - _; rw [hcos]

omit [LinearOrder K] [IsStrictOrderedRing K] [Field K] in
/-- Schemas tables are accepted exactly if their versions differ. -/
theorem C80_two (new old : Basic K) (nv ov : V) :
    MultiTable.mkTwo new old nv ov = if nv = ov then none else some (.two new old nv ov) := rfl

include hs

/-- **C80.** With two schemas, the distance between a vector and a versioned code is that to the vector the code stands for in
the schema of its version, and none for an unknown version. -/
theorem C80_versions (s : Schemas K V) (m : Metric) (x : List K) (hok : s.Ok x.length) (y : Versioned V)
    (hy : s.Valid y.version y.data) :
    multiDistance sqrt arch m (tables s) x y = some ((s.decode y.version y.data).map (metricDist sqrt m x)) := by
  unfold multiDistance tables Schemas.decode
  simp only
  by_cases h1 : s.oldVersion = y.version
  · rw [if_pos h1, if_neg (fun h => hok.differ (by rw [← h, h1])), if_pos h1.symm,
      distanceFn_ok sqrt hs arch hok.old (by rw [hok.oldDim]; exact hok.oldRows) m x x hok.oldDim.symm
      (fun i hi => query_slice hok.old (by rw [hok.oldDim]; exact hok.oldRows) hi x hok.oldDim.symm) (hy.old h1.symm)]
    rfl
  · rw [if_neg h1]
    by_cases h2 : s.newVersion = y.version
    · rw [if_pos h2, if_pos h2.symm,
        distanceFn_ok sqrt hs arch hok.new (by rw [hok.newDim]; exact hok.newRows) m x x hok.newDim.symm
        (fun i hi => query_slice hok.new (by rw [hok.newDim]; exact hok.newRows) hi x hok.newDim.symm) (hy.new h2.symm)]
      rfl
    · rw [if_neg h2, if_neg (fun h => h2 h.symm), if_neg (fun h => h1 h.symm)]
      rfl

/-- **C80.** The distance between two versioned codes is that between the vectors they stand for, each in the schema of its own
version, also when the versions differ; none if a version is unknown. -/
theorem C80_mixed (s : Schemas K V) (m : Metric) {dim : Nat} (hok : s.Ok dim) (x y : Versioned V)
    (hx : s.Valid x.version x.data) (hy : s.Valid y.version y.data) :
    multiDistanceQq sqrt arch m (tables s) x y = some (do
      let a ← s.decode x.version x.data
      let b ← s.decode y.version y.data
      some (metricDist sqrt m a b)) := by
  have hnr : ∀ p ∈ s.newPivots, p.length = s.newOffsets.dim := by rw [hok.newDim]; exact hok.newRows
  have hor : ∀ p ∈ s.oldPivots, p.length = s.oldOffsets.dim := by rw [hok.oldDim]; exact hok.oldRows
  have hmixed : ∀ old new : List Nat, Code s.oldPivots s.oldOffsets old → Code s.newPivots s.newOffsets new →
      ((table s.oldPivots s.oldOffsets).inflate old >>= fun f =>
        (distanceFn sqrt arch m (table s.newPivots s.newOffsets) f new).map some) =
      some (some (metricDist sqrt m (decode s.oldPivots s.oldOffsets old) (decode s.newPivots s.newOffsets new))) := by
    intro old new ha hb
    have hdl : (decode s.oldPivots s.oldOffsets old).length = s.newOffsets.dim := by
      rw [decode_len hok.old hor ha, hok.oldDim, hok.newDim]
    rw [(C80_inflate hok.old hor old []).1 ha]
    simp only [Option.bind_eq_bind, Option.bind_some]
    rw [distanceFn_ok sqrt hs arch hok.new hnr m _ _ hdl (fun i hi => query_slice hok.new hnr hi _ hdl) hb]
    rfl
  unfold multiDistanceQq tables Schemas.decode
  simp only
  have hne := hok.differ
  by_cases x1 : x.version = s.oldVersion
  · have x2 : x.version ≠ s.newVersion := fun h => hne (by rw [← h, x1])
    rw [if_pos (by simpa using x1), if_neg x2, if_pos x1]
    by_cases y1 : y.version = s.oldVersion
    · have y2 : y.version ≠ s.newVersion := fun h => hne (by rw [← h, y1])
      rw [if_pos (by simpa using y1), if_neg y2, if_pos y1, distanceFnQq_ok sqrt hs arch hok.old hor m (hx.old x1) (hy.old y1)]
      rfl
    · rw [if_neg (by simpa using y1)]
      by_cases y2 : y.version = s.newVersion
      · rw [if_pos (by simpa using y2), if_pos y2, hmixed _ _ (hx.old x1) (hy.new y2)]
        rfl
      · rw [if_neg (by simpa using y2), if_neg y2, if_neg y1]
        rfl
  · rw [if_neg (by simpa using x1)]
    by_cases x2 : x.version = s.newVersion
    · rw [if_pos (by simpa using x2), if_pos x2]
      by_cases y1 : y.version = s.oldVersion
      · have y2 : y.version ≠ s.newVersion := fun h => hne (by rw [← h, y1])
        rw [if_pos (by simpa using y1), if_neg y2, if_pos y1, hmixed _ _ (hy.old y1) (hx.new x2), metricDist_comm]
        rfl
      · rw [if_neg (by simpa using y1)]
        by_cases y2 : y.version = s.newVersion
        · rw [if_pos (by simpa using y2), if_pos y2, distanceFnQq_ok sqrt hs arch hok.new hnr m (hx.new x2) (hy.new y2)]
          rfl
        · rw [if_neg (by simpa using y2), if_neg y2, if_neg y1]
          rfl
    · rw [if_neg (by simpa using x2), if_neg x2, if_neg x1]
      rfl

/-- **C80.** A query computer over two schemas answers like the query computer of the schema of the code's version, and not at
all for an unknown version. -/
theorem C80_multi_query (s : Schemas K V) (hn : 0 < s.newPivots.length) (ho : 0 < s.oldPivots.length) (m : Metric) (x : List K)
    (hok : s.Ok x.length) :
    ∃ c, MultiQuery.new sqrt arch (tables s) m x = some (some c) ∧ ∀ y : Versioned V, s.Valid y.version y.data →
      c.evaluate sqrt arch y = some ((s.decode y.version y.data).map (metricDist sqrt (queryMetric m) x)) := by
  have hnr : ∀ p ∈ s.newPivots, p.length = s.newOffsets.dim := by rw [hok.newDim]; exact hok.newRows
  have hor : ∀ p ∈ s.oldPivots, p.length = s.oldOffsets.dim := by rw [hok.oldDim]; exact hok.oldRows
  obtain ⟨cn, a1, a2, _⟩ := (C80_query sqrt hs arch hok.new hn hnr m x []).2 hok.newDim.symm
  obtain ⟨co, b1, b2, _⟩ := (C80_query sqrt hs arch hok.old ho hor m x []).2 hok.oldDim.symm
  refine ⟨.two cn co s.newVersion s.oldVersion, ?_, fun y hy => ?_⟩
  · unfold MultiQuery.new tables
    simp only
    rw [a1]
    simp only [Option.bind_eq_bind, Option.bind_some]
    rw [b1]
    rfl
  · unfold MultiQuery.evaluate Schemas.decode
    simp only
    by_cases h1 : s.oldVersion = y.version
    · rw [if_pos h1, if_neg (fun h => hok.differ (by rw [← h, h1])), if_pos h1.symm, b2 _ (hy.old h1.symm)]
      rfl
    · rw [if_neg h1]
      by_cases h2 : s.newVersion = y.version
      · rw [if_pos h2, if_pos h2.symm, a2 _ (hy.new h2.symm)]
        rfl
      · rw [if_neg h2, if_neg (fun h => h2 h.symm), if_neg (fun h => h1 h.symm)]
        rfl

/-- With one schema, codes of another version have no distance. -/
theorem C80_single_version {P : List (List K)} {o : Offsets} (ho : Partition o) (hpos : 0 < P.length)
    (hP : ∀ p ∈ P, p.length = o.dim) (m : Metric) (x : List K) (hx : x.length = o.dim) (v : V) :
    (∀ y : Versioned V, y.version = v → Code P o y.data →
      multiDistance sqrt arch m (.one (table P o) v) x y = some (some (metricDist sqrt m x (decode P o y.data)))) ∧
    (∀ y : Versioned V, y.version ≠ v → multiDistance sqrt arch m (.one (table P o) v) x y = some none) ∧
    (∀ y z : Versioned V, y.version = v → z.version = v → Code P o y.data → Code P o z.data →
      multiDistanceQq sqrt arch m (.one (table P o) v) y z =
        some (some (metricDist sqrt m (decode P o y.data) (decode P o z.data)))) ∧
    (∀ y z : Versioned V, y.version ≠ v ∨ z.version ≠ v →
      multiDistanceQq sqrt arch m (.one (table P o) v) y z = some none) ∧
    ∃ c, MultiQuery.new sqrt arch (.one (table P o) v) m x = some (some c) ∧ ∀ y : Versioned V,
      (y.version = v → Code P o y.data →
        c.evaluate sqrt arch y = some (some (metricDist sqrt (queryMetric m) x (decode P o y.data)))) ∧
      (y.version ≠ v → c.evaluate sqrt arch y = some none) := by
  refine ⟨fun y hy hc => ?_, fun y hy => ?_, fun y z hy hz ha hb => ?_, fun y z h => ?_, ?_⟩
  · unfold multiDistance
    simp only
    rw [if_neg (by rw [hy]; simp), distanceFn_ok sqrt hs arch ho hP m x x hx (fun i hi => query_slice ho hP hi x hx) hc]
    rfl
  · unfold multiDistance
    simp only
    rw [if_pos (fun h => hy h.symm)]
  · unfold multiDistanceQq
    simp only
    rw [if_neg (by rw [hy, hz]; simp), distanceFnQq_ok sqrt hs arch ho hP m ha hb]
    rfl
  · unfold multiDistanceQq
    simp only
    rw [if_pos h]
  · obtain ⟨c, h1, h2, _⟩ := (C80_query sqrt hs arch ho hpos hP m x []).2 hx
    refine ⟨.one c v, ?_, fun y => ⟨fun hy hc => ?_, fun hy => ?_⟩⟩
    · unfold MultiQuery.new
      simp only
      rw [h1]
      rfl
    · unfold MultiQuery.evaluate
      simp only
      rw [if_neg (by rw [hy]; simp), h2 _ hc]
      rfl
    · unfold MultiQuery.evaluate
      simp only
      rw [if_pos (fun h => hy h.symm)]

/-- Unlike the distance computer of one table, the versioned one does not check the length of the vector: whatever follows the
first `dim` elements is ignored without a complaint (in builds without debug assertions). -/
theorem C80_multi_length_false {P : List (List K)} {o : Offsets} (ho : Partition o) (hP : ∀ p ∈ P, p.length = o.dim)
    (m : Metric) (x extra : List K) (hx : x.length = o.dim) (he : extra ≠ []) (v : V) (code : List Nat) (hc : Code P o code) :
    multiDistance sqrt arch m (.one (table P o) v) (x ++ extra) ⟨code, v⟩ =
      some (some (metricDist sqrt m x (decode P o code))) ∧
    distanceComputer sqrt arch m (table P o) (x ++ extra) code = none := by
  constructor
  · unfold multiDistance
    simp only
    rw [if_neg (by simp), distanceFn_ok sqrt hs arch ho hP m x _ hx (fun i hi => prefix_slice ho hP hi x extra hx) hc]
    rfl
  · refine (C80_direct sqrt hs arch ho hP m (x ++ extra) code).2 (Or.inl ?_)
    rw [List.length_append, hx]
    have := List.length_pos_of_ne_nil he
    omega

end

/-! ## Concrete cases -/

/-- One chunk of two dimensions and two pivots. -/
def exLine : List (List ℝ) := [[3, 0], [0, 1]]

/-- For a normalized query, the query computer for normalized vectors can order two codes against the distance computer for the
same metric: the vectors that codes stand for need not be normalized. -/
theorem C80_normalized_false :
    ∃ (P : List (List ℝ)) (o : Offsets) (x : List ℝ) (a b : List Nat), Partition o ∧ (∀ p ∈ P, p.length = o.dim) ∧
      x.length = o.dim ∧ dot x x = 1 ∧ Code P o a ∧ Code P o b ∧ ∀ arch, ∃ c va vb wa wb,
        QueryComputer.new Real.sqrt arch (table P o) .cosineNormalized x [] = some (some c) ∧
        c.evaluate Real.sqrt arch a = some va ∧ c.evaluate Real.sqrt arch b = some vb ∧
        distanceComputer Real.sqrt arch .cosineNormalized (table P o) x a = some wa ∧
        distanceComputer Real.sqrt arch .cosineNormalized (table P o) x b = some wb ∧ vb < va ∧ wa < wb := by
  have hsq : IsSqrt Real.sqrt := fun a ha => ⟨Real.sqrt_nonneg a, Real.mul_self_sqrt ha⟩
  have ho : Partition ⟨2, [0, 2]⟩ := ((C79_offsets [0, 2] ⟨2, [0, 2]⟩).1.mp (by decide +kernel)).2
  have hP : ∀ p ∈ exLine, p.length = (⟨2, [0, 2]⟩ : Offsets).dim := by simp [exLine]
  have ha : Code exLine ⟨2, [0, 2]⟩ [0] := ⟨rfl, by simp [exLine]⟩
  have hb : Code exLine ⟨2, [0, 2]⟩ [1] := ⟨rfl, by simp [exLine]⟩
  have ea : decode exLine ⟨2, [0, 2]⟩ [0] = [3, 0] := by
    simp [decode, Offsets.len, piece, width, exLine]
  have eb : decode exLine ⟨2, [0, 2]⟩ [1] = [0, 1] := by
    simp [decode, Offsets.len, piece, width, exLine]
  refine ⟨exLine, ⟨2, [0, 2]⟩, [1, 0], [0], [1], ho, hP, rfl, by simp [dot], ha, hb, fun arch => ?_⟩
  obtain ⟨c, h1, h2, _⟩ := (C80_query Real.sqrt hsq arch ho (by simp [exLine]) hP .cosineNormalized [1, 0] []).2 rfl
  refine ⟨c, _, _, _, _, h1, h2 _ ha, h2 _ hb, (C80_direct Real.sqrt hsq arch ho hP .cosineNormalized [1, 0] [0]).1 rfl ha,
    (C80_direct Real.sqrt hsq arch ho hP .cosineNormalized [1, 0] [1]).1 rfl hb, ?_, ?_⟩
  · rw [ea, eb]
    show sqDist [1, 0] [0, 1] < sqDist [1, 0] [3, 0]
    simp [sqDist]
    norm_num
  · rw [ea, eb]
    show 1 - cosine Real.sqrt [1, 0] [3, 0] < 1 - cosine Real.sqrt [1, 0] [0, 1]
    have e9 : Real.sqrt 9 = 3 := by
      rw [show (9 : ℝ) = 3 ^ 2 by norm_num]; exact Real.sqrt_sq (by norm_num)
    have h3 : cosine Real.sqrt [1, 0] [3, 0] = 1 := by
      unfold cosine
      simp only [dot, List.zip_cons_cons, List.zip_nil_left, List.map_cons, List.map_nil, List.sum_cons, List.sum_nil]
      norm_num [e9]
    have h4 : cosine Real.sqrt [1, 0] [0, 1] = 0 := by
      unfold cosine
      simp [dot]
    rw [h3, h4]
    norm_num

example : Partition exOffsets ∧ 0 < exPivots.length ∧ (∀ p ∈ exPivots, p.length = exOffsets.dim) ∧
    Code exPivots exOffsets [1, 2] ∧ Code exPivots exOffsets [0, 1] ∧ decode exPivots exOffsets [1, 2] = [1, 2, 2] := by
  refine ⟨((C79_offsets [0, 2, 3] exOffsets).1.mp (by decide +kernel)).2, by decide, by decide, ⟨rfl, by decide⟩,
    ⟨rfl, by decide⟩, by decide +kernel⟩

example : (pqTableNew 3 exPivots.flatten [0, 2, 3]).map (·.isSome) = some true ∧
    (pqTableNew 3 exPivots.flatten [0, 2, 4]).map (·.isSome) = some false ∧
    (pqTableNew 3 ([1, 2, 3, 4] : List Rat) [0, 3]).map (·.isSome) = some false := by decide +kernel

/-- A query computer's answer. -/
def ask (m : Metric) (x : List Rat) (code : List Nat) : Option Rat := do
  let c ← QueryComputer.new id .scalar (table exPivots exOffsets) m x [7, 7]
  let c ← c
  c.evaluate id .scalar code

example : ask .l2 [1, 1, 3] [1, 2] = some 2 ∧ ask .innerProduct [1, 1, 3] [1, 2] = some (-9) ∧
    distanceComputer id .v3 .l2 (table exPivots exOffsets) [1, 1, 3] [1, 2] = some 2 ∧
    distanceComputerQq id .neon .innerProduct (table exPivots exOffsets) [0, 1] [1, 2] = some 2 ∧
    ask .l2 [1, 1, 3] [1] = none ∧ ask .l2 [1, 1] [1, 2] = none := by
  decide +kernel

/-- Eighteen chunks of one dimension: more than one tile. -/
example : (pqDistLookup ((List.replicate 18 1) ++ (List.replicate 18 2)) 2 18
    ((List.range (18 * 256)).map (fun i => i % 256)) [0, 0, 99]) = some (some [18, 36, 99]) := by decide +kernel

example : (computePqDistance [2, 0] 2 ((List.range 512).map (fun i => i % 256 + i / 256)) [5, 6, 7, 8, 9, 10] [0, 0, 0, 0, 1]
    [0, 0]) = some (some ([9, 10, 5, 6, 1], [20, 12])) := by decide +kernel

/-- Schemas schemas for vectors of dimension three. -/
def exTwo : Schemas Rat Nat := ⟨exPivots, exOffsets, 7, [[1, 1, 1], [2, 2, 2]], ⟨3, [0, 1, 2, 3]⟩, 6⟩

example : exTwo.Ok 3 ∧ exTwo.Valid 7 [1, 2] ∧ exTwo.Valid 6 [1, 0, 1] ∧ exTwo.Valid 5 [] := by
  refine ⟨⟨((C79_offsets [0, 2, 3] exOffsets).1.mp (by decide +kernel)).2,
    ((C79_offsets [0, 1, 2, 3] ⟨3, [0, 1, 2, 3]⟩).1.mp (by decide +kernel)).2, rfl, rfl, by decide, by decide, by decide⟩,
    ⟨fun _ => ⟨rfl, by decide⟩, fun h => absurd h (by decide)⟩, ⟨fun h => absurd h (by decide), fun _ => ⟨rfl, by decide⟩⟩,
    ⟨fun h => absurd h (by decide), fun h => absurd h (by decide)⟩⟩

example : multiDistanceQq id .scalar .l2 (tables exTwo) ⟨[1, 2], 7⟩ ⟨[1, 0, 1], 6⟩ = some (some 2) ∧
    multiDistanceQq id .scalar .l2 (tables exTwo) ⟨[1, 0, 1], 6⟩ ⟨[1, 2], 7⟩ = some (some 2) ∧
    multiDistanceQq id .scalar .l2 (tables exTwo) ⟨[1, 0, 1], 6⟩ ⟨[1, 2], 5⟩ = some none := by decide +kernel

/-- A table with 256 pivots. -/
def exFull : List (List Rat) := (List.range 256).map (fun i => [(i : Rat), 1])

example : exFull.length = 256 ∧ (∀ p ∈ exFull, p.length = 2) ∧ (exFull.length + 15) * 2 < 2 ^ 61 ∧
    (Transposed.fromParts (mat (exFull.map fl) 2) ⟨2, [0, 1, 2]⟩).map (·.isSome) = some true := by
  refine ⟨by decide +kernel, by decide +kernel, by decide +kernel, by decide +kernel⟩

/-- Distances of some ids after preparing a query for disk search. -/
def diskAnswer (pivots : List (List Rat)) (m : Metric) (x : List Rat) (ids data : List Nat) : Option (List (Fl Rat)) := do
  let t ← Transposed.fromParts (mat (pivots.map fl) 2) ⟨2, [0, 1, 2]⟩
  let t ← t
  let r ← quantizerPreprocess t m ids data (fl x) (List.replicate (pivots.length * 2) (.num 5)) [0, 0, 0, 0] [.num 0, .num 0, .nan]
  let r ← r
  some r.2.2

example : diskAnswer exFull .cosine [2, 3] [1, 0] [7, 0, 4, 0] = some [.num 8, .num 29, .nan] ∧
    diskAnswer exFull .innerProduct [2, 3] [1, 0] [7, 0, 4, 0] = some [.num (-11), .num (-17), .nan] ∧
    diskAnswer (exFull.take 255) .l2 [2, 3] [1, 0] [7, 0, 4, 0] = none := by decide +kernel

end Verif.Pq
