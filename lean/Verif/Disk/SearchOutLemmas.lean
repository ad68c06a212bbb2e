import Verif.Disk.SearchLemmas

/-! Helper lemmas for C81: output buffers, reranking, the flat scan. -/

namespace Verif.DiskSearch

open Verif.Queue Verif.Search

variable {V A D : Type} [LinearOrder D]

/-- The buffers hold `items` in their first places and the fill values after them. -/
structure Holds (k : Nat) (zero : D) (dflt : A) (wv : Bool) (o : Out V A D) (items : List (Item V A D)) : Prop where
  le : items.length ≤ k
  ids : o.buf.ids = items.map (·.id) ++ List.replicate (k - items.length) 0
  distances : o.buf.distances = items.map (·.dist) ++ List.replicate (k - items.length) zero
  assoc : o.buf.assoc = items.map (·.data) ++ List.replicate (k - items.length) dflt
  position : o.buf.position = items.length
  vecs : o.vecs = if wv then some (items.map (·.vec) ++ List.replicate (k - items.length) none) else none

theorem out_new (k : Nat) (zero : D) (dflt : A) (wv : Bool) :
    ∃ o : Out V A D, Out.new (List.replicate k 0) (List.replicate k zero) (List.replicate k dflt)
      (if wv then some (List.replicate k none) else none) = .ok o ∧ Holds k zero dflt wv o [] := by
  unfold Out.new BufA.new
  cases wv
  · simp only [Bool.false_eq_true, if_false, Option.any_none, List.length_replicate, if_true]
    exact ⟨_, rfl, ⟨by simp, by simp, by simp, by simp, rfl, by simp⟩⟩
  · simp only [if_true, Option.any_some, List.length_replicate, ne_eq, not_true, decide_false, Bool.false_eq_true, if_false]
    exact ⟨_, rfl, ⟨by simp, by simp, by simp, by simp, rfl, by simp⟩⟩

theorem set_end {α β : Type} (f : β → α) (items : List β) (x : β) (m : Nat) (z : α) (hm : 0 < m) :
    (items.map f ++ List.replicate m z).set items.length (f x)
      = (items ++ [x]).map f ++ List.replicate (m - 1) z := by
  obtain ⟨m, rfl⟩ : ∃ n, m = n + 1 := ⟨m - 1, by omega⟩
  rw [List.set_append_right _ _ (by simp)]
  simp [List.replicate_succ]

theorem push_full {k : Nat} {zero : D} {dflt : A} {wv : Bool} {o : Out V A D} {items : List (Item V A D)}
    (h : Holds k zero dflt wv o items) (hk : items.length = k) (x : Item V A D) : o.push x = .ok (.full, o) := by
  unfold Out.push
  dsimp only
  rw [if_pos (by rw [h.position, h.ids]; simp [hk])]

theorem push_ok {k : Nat} {zero : D} {dflt : A} {wv : Bool} {o : Out V A D} {items : List (Item V A D)}
    (h : Holds k zero dflt wv o items) (hk : items.length < k) (x : Item V A D) :
    ∃ o', o.push x = .ok (if items.length + 1 = k then .full else .available, o') ∧
      Holds k zero dflt wv o' (items ++ [x]) := by
  have l1 : o.buf.ids.length = k := by rw [h.ids]; simp; omega
  have l2 : o.buf.distances.length = k := by rw [h.distances]; simp; omega
  have l3 : o.buf.assoc.length = k := by rw [h.assoc]; simp; omega
  have hp := h.position
  have hpush : o.buf.push (x.id, x.dist, x.data) = some (if items.length + 1 = k then .full else .available,
      ⟨o.buf.ids.set items.length x.id, o.buf.distances.set items.length x.dist, o.buf.assoc.set items.length x.data,
        items.length + 1⟩) := by
    unfold BufA.push
    rw [if_neg (by omega), if_pos (by omega)]
    simp [hp, l1]
  have hsub : k - (items ++ [x]).length = k - items.length - 1 := by simp; omega
  unfold Out.push
  dsimp only
  rw [if_neg (by omega), hpush]
  dsimp only
  have hv := h.vecs
  cases wv
  · simp only [Bool.false_eq_true, if_false] at hv
    rw [hv]
    dsimp only
    refine ⟨_, rfl, ⟨by simp; omega, ?_, ?_, ?_, by simp, by simp⟩⟩
    · rw [h.ids, set_end Item.id items x _ _ (by omega), hsub]
    · rw [h.distances, set_end Item.dist items x _ _ (by omega), hsub]
    · rw [h.assoc, set_end Item.data items x _ _ (by omega), hsub]
  · simp only [if_true] at hv
    rw [hv]
    dsimp only
    rw [if_pos (by rw [hp]; simp; omega)]
    refine ⟨_, rfl, ⟨by simp; omega, ?_, ?_, ?_, by simp, ?_⟩⟩
    · rw [h.ids, set_end Item.id items x _ _ (by omega), hsub]
    · rw [h.distances, set_end Item.dist items x _ _ (by omega), hsub]
    · rw [h.assoc, set_end Item.data items x _ _ (by omega), hsub]
    · rw [hp, set_end Item.vec items x _ _ (by omega), hsub]; rfl

theorem extend_ok {k : Nat} {zero : D} {dflt : A} {wv : Bool} (xs : List (Item V A D)) (o : Out V A D)
    (items : List (Item V A D)) (h : Holds k zero dflt wv o items) :
    ∃ o', o.extend xs = .ok o' ∧ Holds k zero dflt wv o' (items ++ xs.take (k - items.length)) := by
  induction xs generalizing o items with
  | nil => exact ⟨o, rfl, by simpa using h⟩
  | cons x xs ih =>
    rw [Out.extend]
    by_cases hk : items.length < k
    · obtain ⟨o', h1, h2⟩ := push_ok h hk x
      rw [h1, ok_bind]
      dsimp only
      have hm : k - items.length = (k - (items ++ [x]).length) + 1 := by simp; omega
      rw [hm, List.take_succ_cons]
      by_cases hf : items.length + 1 = k
      · rw [if_pos hf, if_pos rfl]
        have h0 : k - (items ++ [x]).length = 0 := by simp; omega
        rw [h0, List.take_zero]
        exact ⟨o', rfl, h2⟩
      · rw [if_neg hf, if_neg (by simp)]
        obtain ⟨o'', h3, h4⟩ := ih o' _ h2
        exact ⟨o'', h3, by simpa using h4⟩
    · have := h.le
      rw [push_full h (by omega) x, ok_bind, if_pos rfl]
      have h0 : k - items.length = 0 := by omega
      rw [h0, List.take_zero, List.append_nil]
      exact ⟨o, rfl, h⟩

/-- Where the vector of a reranked id is found: in the cache, or in the loaded batch. -/
def Located (ix : Index V A D) (a : Acc V A D) (i : Nat) : Prop :=
  ∃ v, ix.node i = some v ∧ ((∃ d e, a.cache i = some (d, e, some v.vec)) ∨ (a.cache i = none ∧ i ∈ a.batch))

/-- The stored vector of an id, as put into the output. -/
def vecOf (ix : Index V A D) (i : Nat) : Option V := (ix.node i).map (·.vec)

/-- A reranked entry as an output item. -/
def toItem (ix : Index V A D) (wv : Bool) (x : Nat × A × D) : Item V A D :=
  ⟨x.1, x.2.1, if wv then vecOf ix x.1 else none, x.2.2⟩

theorem extendWithVectors_ok {k : Nat} {zero : D} {dflt : A} (ix : Index V A D) (xs : List (Nat × A × D))
    (a : Acc V A D) (o : Out V A D) (items : List (Item V A D)) (c : Nat) (h : Holds k zero dflt true o items)
    (hn : (xs.map (·.1)).Nodup) (hloc : ∀ x ∈ xs, Located ix a x.1) :
    ∃ o', extendWithVectors ix a o c xs = .ok (c + min (k - items.length) xs.length, o') ∧
      Holds k zero dflt true o' (items ++ (xs.map (toItem ix true)).take (k - items.length)) := by
  induction xs generalizing a o items c with
  | nil => exact ⟨o, by simp [extendWithVectors], by simpa using h⟩
  | cons x xs ih =>
    have hle := h.le
    have l1 : o.buf.ids.length = k := by rw [h.ids]; simp; omega
    rw [extendWithVectors]
    by_cases hk : items.length < k
    · rw [if_neg (by rw [l1, h.position]; omega)]
      obtain ⟨v, hv, hor⟩ := hloc x (by simp)
      have hx : toItem ix true x = ⟨x.1, x.2.1, some v.vec, x.2.2⟩ := by simp [toItem, vecOf, hv]
      obtain ⟨o', h1, h2⟩ := push_ok h hk (toItem ix true x)
      rw [hx] at h1
      have hget : takeVector ix a x.1 = Res.ok v.vec := by
        unfold takeVector
        rcases hor with ⟨d, e, hc⟩ | ⟨hc, hb⟩
        · rw [hc]; rfl
        · rw [hc, getVertex_batch ix a x.1 v hb hv]; rfl
      rw [hget, ok_bind, h1, ok_bind]
      dsimp only
      rw [List.map_cons]
      have hm : k - items.length = (k - (items ++ [toItem ix true x]).length) + 1 := by simp; omega
      rw [hm, List.take_succ_cons]
      by_cases hf : items.length + 1 = k
      · rw [if_pos hf, if_pos rfl]
        have h0 : k - (items ++ [toItem ix true x]).length = 0 := by simp; omega
        rw [h0, List.take_zero]
        refine ⟨o', ?_, h2⟩
        simp
      · rw [if_neg hf, if_neg (by simp)]
        rw [List.map_cons, List.nodup_cons] at hn
        obtain ⟨o'', h3, h4⟩ := ih { a with cache := cacheSet a.cache x.1 none } o' _ (c + 1) h2 hn.2 (by
          intro y hy
          obtain ⟨w, hw, hor⟩ := hloc y (List.mem_cons_of_mem _ hy)
          have hne : y.1 ≠ x.1 := fun e => hn.1 (by rw [← e]; exact List.mem_map.mpr ⟨y, hy, rfl⟩)
          refine ⟨w, hw, ?_⟩
          simp only [cacheSet, if_neg hne]
          exact hor)
        refine ⟨o'', ?_, by simpa using h4⟩
        rw [h3]
        congr 2
        simp only [List.length_cons]
        omega
    · have h0 : k - items.length = 0 := by omega
      rw [if_pos (by rw [l1, h.position]; omega), h0, List.take_zero, List.append_nil]
      exact ⟨o, by simp, h⟩

theorem extendOutput_ok {k : Nat} {zero : D} {dflt : A} (ix : Index V A D) (a : Acc V A D) (wv : Bool)
    (hcv : a.cacheVecs = wv) (xs : List (Nat × A × D)) (o : Out V A D) (h : Holds k zero dflt wv o [])
    (hn : (xs.map (·.1)).Nodup) (hloc : wv = true → ∀ x ∈ xs, Located ix a x.1) :
    ∃ o', extendOutput ix a xs o = .ok (min k xs.length, o') ∧
      Holds k zero dflt wv o' ((xs.map (toItem ix wv)).take k) := by
  unfold extendOutput
  rw [hcv]
  cases wv
  · rw [if_pos (by rfl)]
    obtain ⟨o', h1, h2⟩ := extend_ok (xs.map (toItem ix false)) o [] h
    have : (xs.map fun x => (⟨x.1, x.2.1, none, x.2.2⟩ : Item V A D)) = xs.map (toItem ix false) := by
      simp [toItem]
    rw [this, h1, ok_bind]
    refine ⟨o', ?_, by simpa using h2⟩
    rw [h2.position, h.position]
    simp
  · rw [if_neg (by simp)]
    obtain ⟨o', h1, h2⟩ := extendWithVectors_ok ix xs a o [] 0 h hn (hloc rfl)
    exact ⟨o', by rw [h1]; simp, by simpa using h2⟩

/-! ### Reranking -/

/-- The reranked entry of an id. -/
def exactEntry (ix : Index V A D) (i : Nat) : Option (Nat × A × D) :=
  (ix.node i).map fun v => (i, v.assoc, ix.exact v.vec)

theorem rerankUncached_ok (ix : Index V A D) (a : Acc V A D) (ns : List Nat)
    (h : ∀ i ∈ ns, i ∈ a.batch ∧ ∃ v, ix.node i = some v) :
    rerankUncached ix a ns = .ok (ns.filterMap (exactEntry ix)) := by
  induction ns with
  | nil => rfl
  | cons n ns ih =>
    obtain ⟨hb, v, hv⟩ := h n (by simp)
    rw [rerankUncached, getVertex_batch ix a n v hb hv, ok_bind,
      ih (fun i hi => h i (List.mem_cons_of_mem _ hi)), ok_bind, List.filterMap_cons]
    simp [exactEntry, hv]

/-- The list that is sorted by `rerank`. -/
def rerankList (ix : Index V A D) (E ids : List Nat) : List (Nat × A × D) :=
  (ids.filter (fun n => decide (n ∈ E)) ++ ids.filter fun n => decide (n ∉ E)).filterMap (exactEntry ix)

theorem rerankList_ids (ix : Index V A D) (hw : WellFormed ix) (ids : List Nat) (h : ∀ i ∈ ids, i < ix.numPoints) :
    (ids.filterMap (exactEntry ix)).map (·.1) = ids := by
  induction ids with
  | nil => rfl
  | cons i ids ih =>
    obtain ⟨v, hv⟩ := hw.stored i (h i (by simp))
    rw [List.filterMap_cons]
    have := ih (fun j hj => h j (List.mem_cons_of_mem _ hj))
    simp only [exactEntry, hv, Option.map_some, List.map_cons] at this ⊢
    rw [List.cons.injEq]
    exact ⟨rfl, this⟩

theorem cached_entries (ix : Index V A D) (hw : WellFormed ix) (cv : Bool) (a : Acc V A D) (E : List Nat) (ha : AccInv ix cv a E)
    (ids : List Nat) (hlt : ∀ i ∈ ids, i < ix.numPoints) :
    (ids.filterMap fun n => (a.cache n).map fun e => (n, e.2.1, e.1))
      = (ids.filter fun n => decide (n ∈ E)).filterMap (exactEntry ix) := by
  induction ids with
  | nil => rfl
  | cons n ids ih =>
    have ih := ih (fun i hi => hlt i (List.mem_cons_of_mem _ hi))
    rw [List.filterMap_cons, List.filter_cons]
    have hc := ha.cache n
    obtain ⟨v, hv⟩ := hw.stored n (hlt n (by simp))
    by_cases hE : n ∈ E
    · rw [if_pos hE, hv] at hc
      rw [hc, if_pos (by simpa using hE), List.filterMap_cons, ← ih]
      simp [exactEntry, hv, entry]
    · rw [if_neg hE] at hc
      rw [hc, if_neg (by simpa using hE)]
      exact ih

/-- Reranking: the output is the first `k` of the sorted exact entries of the filtered candidates. -/
theorem rerank_ok {k : Nat} {zero : D} {dflt : A} (srt : List (Nat × A × D) → List (Nat × A × D))
    (hs : IsSort srt) (ix : Index V A D) (hw : WellFormed ix) (f : Nat → Bool) (wv : Bool) (a : Acc V A D)
    (E : List Nat) (ha : AccInv ix wv a E) (cands : List Nat) (hn : cands.Nodup)
    (hlt : ∀ i ∈ cands, i < ix.numPoints) (o : Out V A D) (ho : Holds k zero dflt wv o []) :
    ∃ a' o', rerank srt ix f a cands o = .ok (a', min k (cands.filter f).length, o') ∧ a'.io = a.io ∧
      a'.reads = a.reads ++ (cands.filter f).filter (fun n => decide (n ∉ E)) ∧
      Holds k zero dflt wv o' (((srt (rerankList ix E (cands.filter f))).map (toItem ix wv)).take k) := by
  have hnf := hn.filter f
  have hltf : ∀ i ∈ cands.filter f, i < ix.numPoints := fun i hi => hlt i (List.mem_filter.mp hi).1
  set ids := cands.filter f with hids
  set unc := ids.filter (fun n => (a.cache n).isNone) with hunc
  have hncache : ∀ i, i < ix.numPoints → ((a.cache i).isNone = true ↔ i ∉ E) := by
    intro i hi
    obtain ⟨v, hv⟩ := hw.stored i hi
    rw [ha.cache, hv]
    by_cases hE : i ∈ E <;> simp [hE]
  have hunc' : unc = ids.filter fun n => decide (n ∉ E) := by
    apply List.filter_congr
    intro i hi
    have := hncache i (hltf i hi)
    by_cases hE : i ∈ E
    · simp only [hE, not_true, decide_false]
      cases h : (a.cache i).isNone with
      | false => rfl
      | true => exact absurd hE (this.1 h)
    · simp only [hE, not_false_eq_true, decide_true]
      exact this.2 hE
  have hload : ∃ a', loadUncached ix a unc = .ok a' ∧ a'.io = a.io ∧
      a'.reads = a.reads ++ unc ∧ a'.cache = a.cache ∧ a'.cacheVecs = a.cacheVecs ∧ ∀ i ∈ unc, i ∈ a'.batch := by
    unfold loadUncached
    by_cases h : unc = []
    · rw [if_pos h, h]; exact ⟨a, rfl, rfl, by simp, rfl, rfl, by simp⟩
    · rw [if_neg h, ensureVertexLoaded_ok ix hw a unc (hnf.filter _) (fun i hi => hltf i (List.mem_filter.mp hi).1)]
      exact ⟨_, rfl, rfl, rfl, rfl, rfl, fun i hi => hi⟩
  obtain ⟨a', b1, b2, b3, b4, b5, b6⟩ := hload
  have hmore := rerankUncached_ok ix a' unc (fun i hi => ⟨b6 i hi, hw.stored i (hltf i (List.mem_filter.mp hi).1)⟩)
  have hsum : (ids.filterMap fun n => (a.cache n).map fun e => (n, e.2.1, e.1)) ++ unc.filterMap (exactEntry ix)
      = rerankList ix E ids := by
    rw [cached_entries ix hw wv a E ha ids hltf, hunc', ← List.filterMap_append]; rfl
  have hperm : (ids.filter (fun n => decide (n ∈ E)) ++ ids.filter fun n => decide (n ∉ E)).Perm ids := by
    have : (fun n => decide (n ∉ E)) = fun n => !decide (n ∈ E) := by
      funext n; simp
    rw [this]
    exact List.filter_append_perm _ _
  have hidsL : (rerankList ix E ids).map (·.1) = ids.filter (fun n => decide (n ∈ E)) ++ ids.filter fun n => decide (n ∉ E) :=
    rerankList_ids ix hw _ (fun i hi => hltf i (hperm.mem_iff.mp hi))
  have hperm2 : ((srt (rerankList ix E ids)).map (·.1)).Perm ids :=
    ((hs.perm _).map _).trans (hidsL ▸ hperm)
  have hlen : (srt (rerankList ix E ids)).length = ids.length := by
    have := hperm2.length_eq; simpa using this
  obtain ⟨o', c1, c2⟩ := extendOutput_ok ix a' wv (b5.trans ha.cv) (srt (rerankList ix E ids)) o ho
    (hperm2.nodup_iff.mpr hnf) (by
      intro hwv x hx
      have hxi : x.1 ∈ ids := hperm2.mem_iff.mp (List.mem_map.mpr ⟨x, hx, rfl⟩)
      obtain ⟨v, hv⟩ := hw.stored _ (hltf _ hxi)
      refine ⟨v, hv, ?_⟩
      rw [b4]
      by_cases hE : x.1 ∈ E
      · left
        refine ⟨ix.exact v.vec, v.assoc, ?_⟩
        rw [ha.cache, if_pos hE, hv, hwv]; rfl
      · right
        have hc : a.cache x.1 = none := by rw [ha.cache, if_neg hE]
        refine ⟨hc, b6 _ ?_⟩
        rw [hunc, List.mem_filter]
        exact ⟨hxi, by rw [hc]; rfl⟩)
  refine ⟨a', o', ?_, b2, by rw [b3, hunc'], c2⟩
  unfold rerank
  dsimp only
  rw [← hids, ← hunc, b1, ok_bind, hmore, ok_bind, hsum, c1, ok_bind, pure_ok, hlen]

/-! ### The flat scan -/

theorem scan_ok (pad : D) (ix : Index V A D) (hc : 1 ≤ ix.maxVectors) (fuel : Nat) (ids : List Nat)
    (q qf : Queue Nat D) (c : Nat) (hlt : ∀ i ∈ ids, i < ix.numPoints) (hf : ids.length < fuel)
    (hfeed : feed pad q (ids.map fun i => (i, ix.quant i)) = some qf) :
    scan pad ix fuel ids q c = .ok (qf, c + ids.length) := by
  induction fuel generalizing ids q c with
  | zero => omega
  | succ fuel ih =>
    rw [scan]
    by_cases h : ids = []
    · subst h
      rw [if_pos (by simp)]
      simp only [List.map_nil, feed, List.foldlM_nil] at hfeed
      cases hfeed
      simp
    · have hpos : 0 < ids.length := List.length_pos_iff.mpr h
      have htake : ids.take ix.maxVectors ≠ [] := by
        intro h0
        have := congrArg List.length h0
        rw [List.length_take, List.length_nil] at this
        omega
      rw [if_neg htake, pqDistances_ok ix _ (by rw [List.length_take]; omega) (fun i hi => hlt i (List.mem_of_mem_take hi)),
        ok_bind]
      rw [← List.take_append_drop ix.maxVectors ids, List.map_append] at hfeed
      unfold feed at hfeed
      rw [List.foldlM_append] at hfeed
      cases hq : List.foldlM (fun q (x : Nat × Option D) => Queue.insert pad q x.1 x.2) q
          ((ids.take ix.maxVectors).map fun i => (i, ix.quant i)) with
      | none => rw [hq] at hfeed; simp at hfeed
      | some q1 =>
        rw [hq] at hfeed
        rw [ofOption_some, ok_bind, ih (ids.drop ix.maxVectors) q1 _ (fun i hi => hlt i (List.mem_of_mem_drop hi))
          (by rw [List.length_drop]; omega) hfeed]
        congr 2
        rw [List.length_take, List.length_drop]; omega

/-! ### Diversity -/

theorem fetch_ok (ix : Index V A D) (hw : WellFormed ix) (a : Acc V A D) (ns : List Nat)
    (h : ∀ i ∈ ns, i ∈ a.batch ∧ i < ix.numPoints) :
    ∃ vs, fetch ix a ns = .ok vs ∧ vs.map (·.1) = ns ∧ ∀ x ∈ vs, ix.node x.1 = some x.2 := by
  induction ns with
  | nil => exact ⟨[], rfl, rfl, by simp⟩
  | cons n ns ih =>
    obtain ⟨hb, hlt⟩ := h n (by simp)
    obtain ⟨v, hv⟩ := hw.stored n hlt
    obtain ⟨vs, h1, h2, h3⟩ := ih (fun i hi => h i (List.mem_cons_of_mem _ hi))
    refine ⟨(n, v) :: vs, ?_, by simp [h2], ?_⟩
    · rw [fetch, getVertex_batch ix a n v hb hv, ok_bind, h1]; rfl
    · intro x hx
      rcases List.mem_cons.mp hx with rfl | hx
      · exact hv
      · exact h3 x hx

theorem mapM_get {α β : Type} (vs : List α) (g : α → β) (order : List Nat) (h : ∀ i ∈ order, i < vs.length) :
    ∃ out, order.mapM (fun i => vs[i]?.map g) = some out ∧
      out = order.filterMap (fun i => vs[i]?.map g) ∧ out.length = order.length := by
  induction order with
  | nil => exact ⟨[], rfl, rfl, rfl⟩
  | cons i order ih =>
    obtain ⟨out, h1, h2, h3⟩ := ih (fun j hj => h j (List.mem_cons_of_mem _ hj))
    have hi := h i (by simp)
    refine ⟨g vs[i] :: out, ?_, ?_, by simp [h3]⟩
    · rw [List.mapM_cons, h1, List.getElem?_eq_getElem hi]; rfl
    · rw [List.filterMap_cons, List.getElem?_eq_getElem hi, ← h2]; rfl

end Verif.DiskSearch
