import Verif.Disk.SearchOutLemmas

/-! Helper lemmas for C81: from the buffers to the results. -/

namespace Verif.DiskSearch

open Verif.Queue Verif.Search

variable {V A D : Type} [LinearOrder D]

/-- The first `k` of the ordered entries, with their stored vectors. -/
def validOf (ix : Index V A D) (k : Nat) (L : List (Nat × A × D)) : List (Nat × D × A × V) :=
  (L.take k).filterMap fun x => (vecOf ix x.1).map fun v => (x.1, x.2.2, x.2.1, v)

theorem zip3 {α β γ δ : Type} (items : List δ) (f : δ → α) (g : δ → β) (h : δ → γ) (m : Nat) (x : α) (y : β) (z : γ) :
    ((items.map f ++ List.replicate m x).zip (items.map g ++ List.replicate m y)).zip
        (items.map h ++ List.replicate m z)
      = items.map (fun i => ((f i, g i), h i)) ++ List.replicate m ((x, y), z) := by
  rw [List.zip_append (by simp), List.zip_append (by simp), List.zip_map', List.zip_map', List.zip_replicate',
    List.zip_replicate']

theorem vecOf_some (ix : Index V A D) (i : Nat) (v : Vertex V A) (h : ix.node i = some v) :
    vecOf ix i = some v.vec := by simp [vecOf, h]

theorem validOf_map (ix : Index V A D) (L : List (Nat × A × D)) (hst : ∀ x ∈ L, ∃ v, ix.node x.1 = some v) :
    (L.filterMap fun x => (vecOf ix x.1).map fun v => (x.1, x.2.2, x.2.1, v)).map (fun r => (r.1, r.2.1, r.2.2.1))
      = L.map fun x => (x.1, x.2.2, x.2.1) := by
  induction L with
  | nil => rfl
  | cons x L ih =>
    obtain ⟨v, hv⟩ := hst x (by simp)
    have := ih (fun y hy => hst y (List.mem_cons_of_mem _ hy))
    rw [List.filterMap_cons, vecOf_some ix _ v hv]
    simp only [Option.map_some, List.map_cons, this]

theorem collect_valid (ix : Index V A D) (L : List (Nat × A × D)) (hst : ∀ x ∈ L, ∃ v, ix.node x.1 = some v) :
    collect ((L.map (toItem ix true)).map fun i => toResult (((i.id, i.dist), i.data), i.vec))
      = .ok (L.filterMap fun x => (vecOf ix x.1).map fun v => (x.1, x.2.2, x.2.1, v)) := by
  induction L with
  | nil => rfl
  | cons x L ih =>
    obtain ⟨v, hv⟩ := hst x (by simp)
    have := ih (fun y hy => hst y (List.mem_cons_of_mem _ hy))
    rw [List.filterMap_cons, vecOf_some ix _ v hv, List.map_cons, List.map_cons, collect, this]
    simp [toItem, vecOf_some ix _ v hv, toResult]

/-- Both entry points return the first `k` of the ordered entries. -/
theorem api_eq {pad zero : D} {dflt : A} {srt : List (Nat × A × D) → List (Nat × A × D)} {fuel : Nat}
    (ix : Index V A D) (pooled : Acc V A D) (k l : Nat) (beam : Option Nat) (mode : Mode V A D) (st : Stats)
    (L : List (Nat × A × D)) (hst : ∀ x ∈ L, ∃ v, ix.node x.1 = some v) (hcount : st.resultCount = min k L.length)
    (h : ∀ wv, ∃ a o, searchImpl pad zero dflt srt fuel ix pooled k l beam wv mode = .ok (a, st, o) ∧
      Holds k zero dflt wv o ((L.map (toItem ix wv)).take k)) :
    search pad zero dflt srt fuel ix pooled k l beam mode = .ok (padded zero dflt k (validOf ix k L), st) ∧
    searchWithVectors pad zero dflt srt fuel ix pooled k l beam mode = .ok (validOf ix k L, st) := by
  have hst' : ∀ x ∈ L.take k, ∃ v, ix.node x.1 = some v := fun x hx => hst x (List.mem_of_mem_take hx)
  have hvl : (validOf ix k L).length = (L.take k).length := by
    have := congrArg List.length (validOf_map ix (L.take k) hst')
    simpa [validOf] using this
  constructor
  · obtain ⟨a, o, h1, h2⟩ := h false
    unfold search
    rw [h1, ok_bind]
    dsimp only
    rw [pure_ok, h2.ids, h2.distances, h2.assoc, zip3, List.map_append, List.map_replicate]
    congr 2
    unfold padded
    rw [hvl]
    unfold validOf
    rw [validOf_map ix (L.take k) hst', ← List.map_take, List.length_map, List.map_map, List.map_map]
    rfl
  · obtain ⟨a, o, h1, h2⟩ := h true
    unfold searchWithVectors
    rw [h1, ok_bind]
    dsimp only
    have hv := h2.vecs
    simp only [if_true] at hv
    rw [hv, Option.getD_some, h2.ids, h2.distances, h2.assoc, zip3, List.zip_append (by simp), List.zip_map',
      List.zip_replicate', List.take_left' (by rw [hcount]; simp), List.map_map, ← List.map_take]
    have := collect_valid ix (L.take k) hst'
    rw [show (toResult ∘ fun i : Item V A D => (((i.id, i.dist), i.data), i.vec))
      = fun i : Item V A D => toResult (((i.id, i.dist), i.data), i.vec) from rfl, this]
    rfl

theorem validOf_ids (ix : Index V A D) (L : List (Nat × A × D)) (hst : ∀ x ∈ L, ∃ v, ix.node x.1 = some v) :
    (L.filterMap fun x => (vecOf ix x.1).map fun v => (x.1, x.2.2, x.2.1, v)).map (·.1) = L.map (·.1) := by
  have := congrArg (List.map (·.1)) (validOf_map ix L hst)
  simpa [Function.comp_def] using this

/-- The first `k` of a sorted permutation of the exact entries are the closest `k`. -/
theorem topK_of_sorted (ix : Index V A D) (hw : WellFormed ix) (k : Nat) (ids ids' : List Nat) (hp : ids'.Perm ids)
    (hn : ids.Nodup) (hlt : ∀ i ∈ ids, i < ix.numPoints) (L : List (Nat × A × D))
    (hL : L.Perm (ids'.filterMap (exactEntry ix))) (hs : L.Pairwise fun a b => a.2.2 ≤ b.2.2) :
    TopK ix ids k (validOf ix k L) := by
  have hent : ∀ x ∈ L, x.1 ∈ ids ∧ ∃ v, ix.node x.1 = some v ∧ x.2.1 = v.assoc ∧ x.2.2 = ix.exact v.vec := by
    intro x hx
    obtain ⟨i, hi, he⟩ := List.mem_filterMap.mp (hL.mem_iff.mp hx)
    unfold exactEntry at he
    obtain ⟨v, hv, rfl⟩ := Option.map_eq_some_iff.mp he
    exact ⟨hp.mem_iff.mp hi, v, hv, rfl, rfl⟩
  have hst : ∀ x ∈ L, ∃ v, ix.node x.1 = some v := fun x hx => by
    obtain ⟨-, v, hv, -⟩ := hent x hx; exact ⟨v, hv⟩
  have hst' : ∀ x ∈ L.take k, ∃ v, ix.node x.1 = some v := fun x hx => hst x (List.mem_of_mem_take hx)
  have hids : (L.map (·.1)).Perm ids := by
    have h1 := hL.map (·.1)
    rw [rerankList_ids ix hw ids' (fun i hi => hlt i (hp.mem_iff.mp hi))] at h1
    exact h1.trans hp
  have hvids : (validOf ix k L).map (·.1) = (L.take k).map (·.1) := validOf_ids ix _ hst'
  have hmem : ∀ r ∈ validOf ix k L, ∃ x ∈ L.take k, ∃ v, ix.node x.1 = some v ∧ r = (x.1, x.2.2, x.2.1, v.vec) := by
    intro r hr
    obtain ⟨x, hx, he⟩ := List.mem_filterMap.mp hr
    obtain ⟨v, hv⟩ := hst' x hx
    rw [vecOf_some ix _ v hv] at he
    exact ⟨x, hx, v, hv, (Option.some.inj he).symm⟩
  constructor
  · intro r hr
    obtain ⟨x, hx, v, hv, rfl⟩ := hmem r hr
    exact (hent x (List.mem_of_mem_take hx)).1
  · intro r hr
    obtain ⟨x, hx, v, hv, rfl⟩ := hmem r hr
    obtain ⟨-, w, hw', e1, e2⟩ := hent x (List.mem_of_mem_take hx)
    rw [hv] at hw'
    cases hw'
    exact ⟨v, hv, e2, e1, rfl⟩
  · rw [hvids, List.map_take]
    exact (hids.nodup_iff.mpr hn).sublist (List.take_sublist _ _)
  · have h1 : ((validOf ix k L).map fun r => (r.1, r.2.1, r.2.2.1)).Pairwise fun a b => a.2.1 ≤ b.2.1 := by
      unfold validOf
      rw [validOf_map ix _ hst', List.pairwise_map]
      exact hs.sublist (List.take_sublist _ _)
    rw [List.pairwise_map] at h1
    exact h1
  · have h1 := congrArg List.length hvids
    have h2 := hids.length_eq
    simp only [List.length_map, List.length_take] at h1 h2
    omega
  · intro i hi hni v hv r hr
    obtain ⟨x, hx, w, hw', rfl⟩ := hmem r hr
    obtain ⟨y, hy, rfl⟩ := List.mem_map.mp (hids.mem_iff.mpr hi)
    obtain ⟨-, u, hu, -, e⟩ := hent y hy
    rw [hv] at hu
    cases hu
    rw [hvids] at hni
    have hyd : y ∈ L.drop k := by
      rw [← List.take_append_drop k L, List.mem_append] at hy
      rcases hy with h | h
      · exact absurd (List.mem_map.mpr ⟨y, h, rfl⟩) hni
      · exact h
    rw [← List.take_append_drop k L, List.pairwise_append] at hs
    dsimp only
    rw [← e]
    exact hs.2.2 x hx y hyd

end Verif.DiskSearch
