import Verif.Multi.PropsLemmas
import Mathlib.Algebra.Order.Ring.Int

/-! # C88: multi-vector similarity is the best match of every query vector

Whatever the sizes of the panels and of the cache tiles, the prepared kernel gives every query vector its best document
vector, as the reference does. -/

namespace Verif.Multi

open Verif.Vec

section

variable {T K : Type} [CommRing K] [LinearOrder K] [IsOrderedAddMonoid K] [Zero T] (conv : T → K) (fmax : K)

/-- **C88.** For every shape of the query and the document, every tile budget, every panel size up to four document rows
and whatever the buffer held: preparing the query succeeds unless its padded size overflows, and then the scores are
written, one for each query vector, each minus the inner product with the best document vector. No access leaves its
buffer. -/
theorem C88_scores (h0 : 0 ≤ fmax) (c : Kern) (hc : c.Ok) (budget : Budget) (elsize : Nat) (q doc : Mat T) (hq : q.Ok)
    (hd : doc.Ok) (hk : q.ncols = doc.ncols) (hn : 0 < doc.nrows)
    (hr : (BRepr.new c.aPanel 1 elsize q.nrows q.ncols).isSome) (hf : Finite conv fmax q.rows doc.rows)
    (scores : List K) (hs : scores.length = q.nrows) :
    ∃ m out, prepare c elsize q = some m ∧ preparedCompute conv fmax c budget m doc scores = some (.ok out) ∧
      out.length = q.nrows ∧
      ∀ i, i < q.nrows → ∃ v, out[i]? = some v ∧ BestScore conv (q.row i) doc.rows v := by
  obtain ⟨m, h1, h2, h3⟩ := QueryMem.of_prepare conv hc (elsize := elsize) hq hr
  refine ⟨m, _, h1, prepared_eq conv fmax h0 hc budget hq hd hk hn h2 h3 scores hs, by simp [Mat.rows], fun i hi => ?_⟩
  refine ⟨scoreOf conv fmax (q.row i) doc.rows, by simp [Mat.rows, hi], scoreOf_best _ _ _ _ ?_ ?_⟩
  · intro e
    have := doc.rows_length
    rw [e] at this; simp at this; omega
  · exact hf _ (Mat.mem_rows.2 ⟨i, hi, rfl⟩)

/-- Both kernels on the machine. -/
theorem C88_kernels : scalarKern.Ok ∧ v3Kern.Ok ∧ scalarKern.aPanel = 8 ∧ v3Kern.aPanel = 16 :=
  ⟨⟨by decide, by decide, by decide, by decide⟩, ⟨by decide, by decide, by decide, by decide⟩, rfl, rfl⟩

/-- The prepared kernels and the reference agree: the same scores, the same errors, for every buffer, document and
budget. -/
theorem C88_agree (h0 : 0 ≤ fmax) (c : Kern) (hc : c.Ok) (budget : Budget) (elsize : Nat) (q doc : Mat T) (hq : q.Ok)
    (hd : doc.Ok) (hk : q.ncols = doc.ncols) (m : BMat T) (hm : prepare c elsize q = some m)
    (scores : List K) :
    preparedCompute conv fmax c budget m doc scores = referenceCompute conv fmax q doc scores ∧
    (scores.length ≠ q.nrows →
      referenceCompute conv fmax q doc scores = some (.error (.invalidBufferLength scores.length q.nrows))) ∧
    (scores.length = q.nrows → doc.nrows = 0 →
      referenceCompute conv fmax q doc scores = some (.ok (List.replicate q.nrows fmax))) := by
  have hr : (BRepr.new c.aPanel 1 elsize q.nrows q.ncols).isSome := by
    unfold prepare BMat.fromStrided at hm
    cases h : BRepr.new c.aPanel 1 elsize q.nrows q.ncols with
    | none => simp only [h] at hm; cases hm
    | some r => rfl
  obtain ⟨m', h1, h2, h3⟩ := QueryMem.of_prepare conv hc (elsize := elsize) hq hr
  obtain rfl : m' = m := by rw [h1] at hm; exact Option.some.inj hm
  refine ⟨?_, fun h => by unfold referenceCompute; rw [if_pos h], fun h h' => by
    unfold referenceCompute; rw [if_neg (by omega), if_pos h', h]⟩
  by_cases hs : scores.length = q.nrows
  · rcases Nat.eq_zero_or_pos doc.nrows with hz | hz
    · unfold preparedCompute referenceCompute
      simp only [h2]
      rw [if_neg (by omega), if_pos hz, if_neg (by omega), if_pos hz]
    · rw [prepared_eq conv fmax h0 hc budget hq hd hk hz h2 h3 scores hs]
      unfold referenceCompute
      rw [if_neg (by omega), if_neg (by omega), reference_eq conv fmax hq hd hk hz scores hs]
  · unfold preparedCompute referenceCompute
    simp only [h2]
    rw [if_pos hs, if_pos hs]

/-- A document of another dimension makes the prepared kernel panic rather than read outside. -/
theorem C88_dimension (c : Kern) (budget : Budget) (m : BMat T) (doc : Mat T) (hk : m.repr.ncols ≠ doc.ncols)
    (hn : 0 < doc.nrows) (scores : List K) (hs : scores.length = m.repr.nrows) :
    preparedCompute conv fmax c budget m doc scores = none := by
  unfold preparedCompute maxIpKernel
  rw [if_neg (by omega), if_neg (by omega), if_pos (Or.inr hk)]

omit [IsOrderedAddMonoid K] [Zero T]

/-- `MaxSim` on a document with vectors writes the same scores; the Chamfer distance is their sum. -/
theorem C88_chamfer_partial (q doc : Mat T) (hq : q.Ok) (hd : doc.Ok) (hk : q.ncols = doc.ncols) (hn : 0 < doc.nrows)
    (hf : Finite conv fmax q.rows doc.rows) :
    (∀ scores : List K, scores.length = q.nrows →
      ∃ out, maxSimEvaluate conv fmax q doc scores = some (.ok out) ∧ out.length = q.nrows ∧
        chamferEvaluate conv fmax q doc = some out.sum ∧
        ∀ i, i < q.nrows → ∃ v, out[i]? = some v ∧ BestScore conv (q.row i) doc.rows v) ∧
    (∀ scores : List K, scores.length ≠ q.nrows →
      maxSimEvaluate conv fmax q doc scores = some (.error (.invalidBufferLength scores.length q.nrows))) := by
  refine ⟨fun scores hs => ?_, fun scores hs => by unfold maxSimEvaluate; rw [if_pos hs]⟩
  refine ⟨_, reference_eq conv fmax hq hd hk hn scores hs, by simp [Mat.rows], ?_, fun i hi => ?_⟩
  · unfold chamferEvaluate maxSimKernel
    rw [if_neg (by omega), simLoop_eq _ _ _ _ _ (lengths hq hd hk)]
    dsimp only
    rw [callsFrom_sum, zero_add]
  · refine ⟨scoreOf conv fmax (q.row i) doc.rows, by simp [Mat.rows, hi], scoreOf_best _ _ _ _ ?_ ?_⟩
    · intro e
      have := doc.rows_length
      rw [e] at this; simp at this; omega
    · exact hf _ (Mat.mem_rows.2 ⟨i, hi, rfl⟩)

/-- A document without vectors: `MaxSim` reports success and leaves whatever the buffer held, where the kernels built for
the same query write the largest float. -/
theorem C88_empty_document_stale (q doc : Mat T) (hn : doc.nrows = 0) (scores : List K) (hs : scores.length = q.nrows) :
    maxSimEvaluate conv fmax q doc scores = some (.ok scores) ∧
    referenceCompute conv fmax q doc scores = some (.ok (List.replicate q.nrows fmax)) := by
  constructor
  · unfold maxSimEvaluate maxSimKernel
    rw [if_neg (by omega), if_pos hn]; rfl
  · unfold referenceCompute
    rw [if_neg (by omega), if_pos hn, hs]

/-- A document without vectors has Chamfer distance zero: it ranks before every document whose distance is positive. -/
theorem C88_empty_document_chamfer (q doc : Mat T) (hn : doc.nrows = 0) : chamferEvaluate conv fmax q doc = some 0 := by
  unfold chamferEvaluate maxSimKernel
  rw [if_pos hn]; rfl

/-- The projected-eigen distance is minus the sum of the squares of all inner products. -/
theorem C88_eigen (q doc : Mat T) (hq : q.Ok) (hd : doc.Ok) (hk : q.ncols = doc.ncols) :
    eigenEvaluate conv q doc =
      some (-((q.rows.map (fun x => (doc.rows.map (fun d => dot conv x d * dot conv x d)).sum)).sum)) := by
  have hlen := lengths hq hd hk
  have hin : ∀ (x : List T) (docs : List (List T)) (m : K), (∀ d ∈ docs, x.length = d.length) →
      eigenLoop conv x docs m = some (m - (docs.map (fun d => dot conv x d * dot conv x d)).sum) := by
    intro x docs
    induction docs with
    | nil => intro m _; simp [eigenLoop]
    | cons d ds ih =>
      intro m h
      rw [eigenLoop, negIp, if_pos (h d (by simp))]
      dsimp only
      rw [ih _ (fun d' hd' => h d' (by simp [hd']))]
      simp only [List.map_cons, List.sum_cons]
      congr 1
      show m + -(-dot conv x d * -dot conv x d) - _ = _
      ring
  have hout : ∀ (qs : List (List T)) (s : K), (∀ x ∈ qs, ∀ d ∈ doc.rows, x.length = d.length) →
      eigenSum conv doc.rows qs s =
        some (s - ((qs.map (fun x => (doc.rows.map (fun d => dot conv x d * dot conv x d)).sum)).sum)) := by
    intro qs
    induction qs with
    | nil => intro s _; simp [eigenSum]
    | cons x xs ih =>
      intro s h
      rw [eigenSum, hin _ _ _ (h x (by simp))]
      dsimp only
      rw [ih _ (fun x' hx' => h x' (by simp [hx']))]
      simp only [List.map_cons, List.sum_cons]
      congr 1; ring
  unfold eigenEvaluate
  by_cases hz : doc.nrows = 0
  · rw [if_pos hz]
    have : doc.rows = [] := by simp [Mat.rows, hz]
    simp [this]
  · rw [if_neg hz, hout _ _ hlen, zero_sub]

end

section

variable {K : Type} [CommRing K] [LinearOrder K]

/-- Scores are read and written in range and refused outside. -/
theorem C88_buffer (scores : List K) (i : Nat) (x : K) :
    (i < scores.length → ∃ s v, scoreSet scores i x = .ok s ∧ scoreGet scores i = .ok v ∧ scores[i]? = some v ∧
      s.length = scores.length ∧ scoreGet s i = .ok x ∧
      ∀ j, j ≠ i → scoreGet s j = scoreGet scores j) ∧
    (scores.length ≤ i → scoreGet scores i = .error (.indexOutOfBounds i scores.length) ∧
      scoreSet scores i x = .error (.indexOutOfBounds i scores.length)) := by
  refine ⟨fun h => ⟨scores.set i x, scores[i], by unfold scoreSet; rw [if_pos h], ?_, ?_, by simp, ?_, ?_⟩, fun h => ⟨?_, ?_⟩⟩
  · unfold scoreGet; rw [List.getElem?_eq_getElem h]
  · rw [List.getElem?_eq_getElem h]
  · unfold scoreGet; rw [List.getElem?_set_self h]
  · intro j hj
    unfold scoreGet
    rw [List.getElem?_set_ne (Ne.symm hj), List.length_set]
  · unfold scoreGet; rw [List.getElem?_eq_none h]
  · unfold scoreSet; rw [if_neg (by omega)]

/-! ## Quantized multi-vectors -/

variable {Q D : Type} (fmax : K) (dist : Q → D → Option K)

theorem mmMinLoop_eq (f : Q → D → K) (q : Q) (docs : List D) (m : K) (h : ∀ d ∈ docs, dist q d = some (f q d)) :
    mmMinLoop dist q docs m = some (docs.foldl (fun m d => min m (f q d)) m) := by
  induction docs generalizing m with
  | nil => rfl
  | cons d ds ih =>
    rw [mmMinLoop, h d (by simp)]
    exact ih _ (fun d' hd' => h d' (by simp [hd']))

theorem mm_foldl_min (f : D → K) (docs : List D) (v : K) :
    docs.foldl (fun m d => min m (f d)) v ≤ v ∧ (∀ d ∈ docs, docs.foldl (fun m d => min m (f d)) v ≤ f d) ∧
      (docs.foldl (fun m d => min m (f d)) v = v ∨ ∃ d ∈ docs, docs.foldl (fun m d => min m (f d)) v = f d) := by
  induction docs generalizing v with
  | nil => exact ⟨le_refl _, by simp, Or.inl rfl⟩
  | cons d ds ih =>
    obtain ⟨h1, h2, h3⟩ := ih (min v (f d))
    rw [List.foldl_cons]
    refine ⟨le_trans h1 (min_le_left _ _), ?_, ?_⟩
    · intro d' hd'
      rcases List.mem_cons.1 hd' with e | e
      · subst e; exact le_trans h1 (min_le_right _ _)
      · exact h2 d' e
    · rcases h3 with e | ⟨d', hd', e⟩
      · rcases min_choice v (f d) with c | c
        · left; rw [e, c]
        · right; exact ⟨d, by simp, by rw [e, c]⟩
      · right; exact ⟨d', by simp [hd'], e⟩

theorem mmCalls_fold (f : Q → D → K) (docs : List D) (qs : List Q) (h : ∀ q ∈ qs, ∀ d ∈ docs, dist q d = some (f q d)) :
    (∀ (i : Nat) (s : List K), s.length = i + qs.length →
      (mmCalls fmax dist docs i qs).foldl (fun s p => s.set p.1 p.2) s =
        s.take i ++ qs.map (fun q => docs.foldl (fun m d => min m (f q d)) fmax)) ∧
    (∀ (i : Nat) (s : K), (mmCalls fmax dist docs i qs).foldl (fun s p => s + p.2) s =
        s + (qs.map (fun q => docs.foldl (fun m d => min m (f q d)) fmax)).sum) := by
  induction qs with
  | nil => exact ⟨fun i s hs => by simp [mmCalls]; simp at hs; omega, fun i s => by simp [mmCalls]⟩
  | cons q qs ih =>
    obtain ⟨ih1, ih2⟩ := ih (fun q' hq' => h q' (by simp [hq']))
    constructor
    · intro i s hs
      simp only [List.length_cons] at hs
      rw [mmCalls, mmMinLoop_eq dist f q docs fmax (h q (by simp))]
      dsimp only
      rw [List.foldl_cons, ih1 _ _ (by simp; omega), List.take_add_one, List.take_set_of_le (le_refl i),
        List.getElem?_set_self (by omega)]
      simp
    · intro i s
      rw [mmCalls, mmMinLoop_eq dist f q docs fmax (h q (by simp))]
      dsimp only
      rw [List.foldl_cons, ih2]
      simp only [List.map_cons, List.sum_cons]
      ring

/-- With quantized vectors of equal dimensions and a nonempty document: the best distance for every query vector, and the
Chamfer distance is their sum. -/
theorem C88_quantized_partial (f : Q → D → K) (qs : List Q) (docs : List D) (hne : docs ≠ [])
    (h : ∀ q ∈ qs, ∀ d ∈ docs, dist q d = some (f q d) ∧ f q d ≤ fmax) (scores : List K)
    (hs : scores.length = qs.length) :
    ∃ out, mmEvaluate fmax dist qs docs scores = some out ∧ out.length = qs.length ∧
      mmChamfer fmax dist qs docs = out.sum ∧
      ∀ (i : Nat) (q : Q), qs[i]? = some q → ∃ v, out[i]? = some v ∧ (∃ d ∈ docs, v = f q d) ∧ ∀ d ∈ docs, v ≤ f q d := by
  obtain ⟨h1, h2⟩ := mmCalls_fold fmax dist f docs qs (fun q hq d hd => (h q hq d hd).1)
  refine ⟨qs.map (fun q => docs.foldl (fun m d => min m (f q d)) fmax), ?_, by simp, ?_, fun i q hi => ?_⟩
  · unfold mmEvaluate
    rw [if_pos hs, h1 0 scores (by omega)]; rfl
  · unfold mmChamfer
    rw [h2, zero_add]
  · refine ⟨_, by rw [List.getElem?_map, hi]; rfl, ?_⟩
    obtain ⟨a1, a2, a3⟩ := mm_foldl_min (f q) docs fmax
    refine ⟨?_, a2⟩
    rcases a3 with e | e
    · cases docs with
      | nil => exact absurd rfl hne
      | cons d ds =>
        exact ⟨d, by simp, le_antisymm (a2 d (by simp)) (by
          dsimp only; rw [e]; exact (h q (List.mem_of_getElem? hi) d (by simp)).2)⟩
    · exact e

/-- Quantized multi-vectors of different dimensions: the error is dropped, the scores keep what they held and the Chamfer
distance is zero. -/
theorem C88_quantized_mismatch_silent (qs : List Q) (docs : List D) (hne : docs ≠ []) (h : ∀ q d, dist q d = none)
    (scores : List K) (hs : scores.length = qs.length) :
    mmEvaluate fmax dist qs docs scores = some scores ∧ mmChamfer fmax dist qs docs = 0 := by
  have : ∀ i, mmCalls fmax dist docs i qs = [] := by
    intro i
    cases qs with
    | nil => rfl
    | cons q qs =>
      cases docs with
      | nil => exact absurd rfl hne
      | cons d ds => simp [mmCalls, mmMinLoop, h]
  unfold mmEvaluate mmChamfer
  rw [if_pos hs, this]
  exact ⟨rfl, rfl⟩

/-- On a document without vectors the two Chamfer distances differ: the largest float for every query vector when
quantized, zero otherwise (`C88_empty_document_chamfer`). -/
theorem C88_quantized_empty (qs : List Q) (scores : List K) (hs : scores.length = qs.length) :
    mmEvaluate fmax dist qs [] scores = some (List.replicate qs.length fmax) ∧
    mmChamfer fmax dist qs [] = (List.replicate qs.length fmax).sum := by
  obtain ⟨h1, h2⟩ := mmCalls_fold fmax dist (fun _ _ => 0) [] qs (fun q _ d hd => by simp at hd)
  constructor
  · unfold mmEvaluate
    rw [if_pos hs, h1 0 scores (by omega)]
    simp
  · unfold mmChamfer
    rw [h2, zero_add]
    simp

end

/-! ## Concrete cases: a kernel of two registers of two lanes and panels of three document rows; five query vectors, seven
document vectors, one panel to a tile -/

def exQ : Mat Int := ⟨[1, 0, 0, 1, 1, 1, -1, 2, 3, -1], 5, 2⟩

def exD : Mat Int := ⟨[1, 2, 3, -4, 0, 5, -6, 1, 2, 2, -1, -1, 4, 0], 7, 2⟩

def exK : Kern := ⟨2, 2, 3⟩

example : exK.Ok := ⟨by decide, by decide, by decide, by decide⟩

example : exQ.Ok ∧ exD.Ok ∧ exQ.ncols = exD.ncols ∧ 0 < exD.nrows ∧
    (BRepr.new exK.aPanel 1 4 exQ.nrows exQ.ncols).isSome = true ∧ Finite id (1000 : Int) exQ.rows exD.rows := by
  refine ⟨rfl, rfl, rfl, by decide, by decide, ?_⟩
  unfold Finite; decide +kernel

example : (prepare exK 4 exQ).bind (fun m => preparedCompute id (1000 : Int) exK ⟨0, 0⟩ m exD [7, 7, 7, 7, 7]) =
    some (.ok [-4, -5, -5, -10, -13]) := by decide +kernel

example : (prepare v3Kern 4 exQ).bind (fun m => preparedCompute id (1000 : Int) v3Kern ⟨500, 400⟩ m exD [7, 7, 7, 7, 7]) =
    some (.ok [-4, -5, -5, -10, -13]) := by decide +kernel

example : chamferEvaluate id (1000 : Int) exQ exD = some (-37) := by decide +kernel

example : eigenEvaluate id ⟨[1, 2], 1, 2⟩ (⟨[1, 1, 2, 0], 2, 2⟩ : Mat Int) = some (-13) := by decide +kernel

/-- The empty document has the better Chamfer distance than the document `[-1, -1]` for the query `[1, 1]`. -/
example : chamferEvaluate id (1000 : Int) ⟨[1, 1], 1, 2⟩ ⟨[], 0, 2⟩ = some 0 ∧
    chamferEvaluate id (1000 : Int) ⟨[1, 1], 1, 2⟩ ⟨[-1, -1], 1, 2⟩ = some 2 := by decide +kernel

/-- A quantized distance and a case of `C88_quantized_partial`. -/
example : ∀ q ∈ [1, 2], ∀ d ∈ [3, 5], (fun q d : Int => some (-(q * d))) q d = some (-(q * d)) ∧ -(q * d) ≤ (1000 : Int) := by
  decide

end Verif.Multi
