import Verif.Disk.SearchProps
import Verif.Search.DiverseProps

/-! # C82: the diversity selection in a disk search -/

namespace Verif.DiskSearch

open Verif.Queue Verif.Search Verif.Diversity

variable {K A : Type} [LinearOrder K]

/-- The outcome of the selection as an outcome of the search (`?` in disk_provider.rs:581). -/
def toRes : Option (Except Err (List Nat)) → Res (List Nat)
  | none => .panic
  | some (.error _) => .err
  | some (.ok order) => .ok order

/-- The selection used by a diverse disk search. -/
def diskSel (ar : Arith K) (query : List K) (params : Params K) (limit : Nat) : List (List K × K) → Res (List Nat) :=
  fun rows => toRes (diskSelect ar query params limit rows)

omit [LinearOrder K] in
theorem diskSel_ok (ar : Arith K) (query : List K) (hq : query ≠ []) (params : Params K) (limit : Nat)
    (rows : List (List K × K)) (hr : ∀ r ∈ rows, r.1.length = query.length) :
    ∃ order, diskSel ar query params limit rows = .ok order ∧ order.Nodup ∧ (∀ i ∈ order, i < rows.length) ∧
      order.length = min limit rows.length := by
  obtain ⟨sel, h1, h2, h3, h4⟩ := C82_selection ar (rows.map (·.1)) (rows.map (·.2)) query hq (by simp) params
  refine ⟨sel.take limit, ?_, h2.sublist (List.take_sublist _ _), ?_, by rw [List.length_take, h1, List.length_map]⟩
  · unfold diskSel diskSelect
    rw [if_pos hr, h4]
    rfl
  · intro i hi
    simpa using h3 i (List.mem_of_mem_take hi)

/-- **C82, disk search.** A diverse search over a disk index whose vectors have the dimension of the query
never fails; it returns `k` accepted candidates of the traversal, or all of them if there are fewer, in the
order of the selection, each once, with its stored data, vector and distance. -/
theorem C82_disk (pad zero : K) (dflt : A) (srt : List (Nat × A × K) → List (Nat × A × K))
    (fuel : Nat) (ix : Index (List K) A K) (hw : WellFormed ix) (hf : ix.numPoints < fuel) (k l : Nat) (hl : 1 ≤ l)
    (hk : k ≤ l) (beam : Option Nat) (hb : beam ≠ some 0) (filter : Nat → Bool) (ar : Arith K) (query : List K)
    (hq : query ≠ []) (params : Params K) (limit : Nat) (hlim : l < limit)
    (hdim : ∀ i v, ix.node i = some v → v.vec.length = query.length) :
    ∃ (s : St Nat K) (results : List (Nat × K × A × List K)),
      knnTraverse pad (ix.graphOn (s.expanded.take ix.ioLimit)) [ix.medoid] l (beam.getD 1) (fun _ => false) fuel
        = some s ∧
      (∀ r ∈ results, Faithful ix r ∧ r.1 ∈ (s.best.iter.map (·.1)).filter filter) ∧
      (results.map (·.1)).Nodup ∧ results.length = min k ((s.best.iter.map (·.1)).filter filter).length ∧
      ∀ pooled : Acc (List K) A K,
        search pad zero dflt srt fuel ix pooled k l beam (.diverse filter (diskSel ar query params limit))
          = .ok (padded zero dflt k results, ⟨s.cmps, s.hops, results.length, min ix.ioLimit s.expanded.length⟩) ∧
        searchWithVectors pad zero dflt srt fuel ix pooled k l beam (.diverse filter (diskSel ar query params limit))
          = .ok (results, ⟨s.cmps, s.hops, results.length, min ix.ioLimit s.expanded.length⟩) := by
  have hgood : GoodSelection ix (diskSel ar query params limit) := by
    intro rows _ hr
    obtain ⟨order, h1, h2, h3, -⟩ := diskSel_ok ar query hq params limit rows (by
      intro r hr'
      obtain ⟨i, v, hv, rfl⟩ := hr r hr'
      exact hdim i v hv)
    exact ⟨order, h1, h2, h3⟩
  obtain ⟨s, rows, order, results, t1, t2, t3, t4, t5, t6, t7, t8⟩ :=
    C81_diverse pad zero dflt srt fuel ix hw hf k l hl hk beam hb filter _ hgood
  have hb1 : 1 ≤ beam.getD 1 := by
    cases beam with
    | none => simp
    | some b =>
      have : b ≠ 0 := fun h => hb (by rw [h])
      simp only [Option.getD_some]; omega
  obtain ⟨s', e1, e2, -⟩ := C15_results_sound pad (ix.graphOn (s.expanded.take ix.ioLimit))
    (List.range ix.numPoints) [ix.medoid] l (beam.getD 1) (fun _ => false) (graphOn_finite hw _) (by simp) hl hb1 fuel
    (by simpa using hf)
  rw [t1] at e1
  obtain rfl := Option.some.inj e1
  have hrl : rows.length = ((s.best.iter.map (·.1)).filter filter).length := by rw [← t2, List.length_map]
  have hrlim : rows.length ≤ limit := by
    rw [hrl]
    have h7 := List.length_filter_le filter (s.best.iter.map (·.1))
    rw [List.length_map] at h7
    simp only [List.length_cons, List.length_nil] at e2
    omega
  have horder : order.length = rows.length := by
    rcases t4 with ⟨h1, h2⟩ | h4
    · rw [h1, h2]; rfl
    · obtain ⟨o, h1, -, -, h5⟩ := diskSel_ok ar query hq params limit (rows.map fun x => (x.2.vec, ix.exact x.2.vec)) (by
        intro r hr
        obtain ⟨x, hx, rfl⟩ := List.mem_map.mp hr
        exact hdim x.1 x.2 (t3 x hx))
      rw [h4] at h1
      obtain rfl : order = o := by injection h1
      rw [h5, List.length_map]
      omega
  refine ⟨s, results, t1, ?_, t7, by rw [t6, horder, hrl], t8⟩
  intro r hr
  rw [t5] at hr
  obtain ⟨i, -, hi⟩ := List.mem_filterMap.mp hr
  cases hx : rows[i]? with
  | none => rw [hx] at hi; cases hi
  | some x =>
    rw [hx] at hi
    obtain rfl := Option.some.inj hi
    have hm := List.mem_of_getElem? hx
    exact ⟨⟨x.2, t3 x hm, rfl, rfl, rfl⟩, by rw [← t2]; exact List.mem_map.mpr ⟨x, hm, rfl⟩⟩

/-- An index of vectors in the plane. -/
def plane : Index (List Rat) Nat Rat where
  node := fun
    | 0 => some ⟨[3, 4], [1, 2], 100⟩
    | 1 => some ⟨[3, 4], [3], 101⟩
    | 2 => some ⟨[1, 0], [0], 102⟩
    | 3 => some ⟨[0, 1], [], 103⟩
    | _ => none
  numPoints := 4
  medoid := 0
  maxVectors := 2
  ioLimit := 9
  exact v := v.sum
  quant := fun
    | 0 => some 7
    | 1 => some 6
    | 2 => some 5
    | 3 => some 4
    | _ => none

set_option synthInstance.maxSize 1000 in
/-- A diverse search: the copy of the first vector comes last. -/
example : searchWithVectors 0 0 0 id 6 plane ⟨fun _ => none, [], 0, [], false⟩ 4 4 none
      (.diverse (fun _ => true) (diskSel rat [1, 0] ⟨1, 0⟩ 1000))
    = .ok ([(2, 1, 102, [1, 0]), (3, 1, 103, [0, 1]), (0, 7, 100, [3, 4]), (1, 7, 101, [3, 4])], ⟨4, 4, 4, 4⟩) := by
  decide +kernel

/-- The hypotheses are met by it. -/
example : WellFormed plane ∧ (∀ i v, plane.node i = some v → v.vec.length = [1, 0].length) := by
  have hcases : ∀ i v, plane.node i = some v → i < 4 := by
    intro i v h
    match i with
    | 0 | 1 | 2 | 3 => omega
    | i + 4 => simp [plane] at h
  refine ⟨⟨?_, by decide, ?_, ?_, by decide⟩, ?_⟩
  · intro i hi
    change i < 4 at hi
    interval_cases i <;> exact ⟨_, rfl⟩
  · intro i v h j hj
    have hi := hcases i v h
    change j < 4
    interval_cases i <;> · simp only [plane, Option.some.injEq] at h; subst h; revert hj; revert j; decide
  · intro i v h
    have hi := hcases i v h
    interval_cases i <;> · simp only [plane, Option.some.injEq] at h; subst h; simp [plane]
  · intro i v h
    have hi := hcases i v h
    interval_cases i <;> · simp only [plane, Option.some.injEq] at h; subst h; rfl

end Verif.DiskSearch
