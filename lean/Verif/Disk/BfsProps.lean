import Verif.Disk.BfsLemmas
/-
C61: the static cache built from an index file, and the vertex provider that uses it, serve the
vertices of the index.
-/
namespace Verif.Disk

open Verif.Graph (fromIterUntrusted)

theorem reach_lt {vs : List Vertex} {start : Nat} (hs : start < vs.length)
    (hn : ∀ v ∈ vs, ∀ n ∈ v.nbrs, n < vs.length) : ∀ x, Reach vs start x → x < vs.length := by
  intro x hx
  induction hx with
  | refl => exact hs
  | step _ hw hm _ => exact hn _ (List.mem_of_getElem? hw) _ hm

theorem setup_done {p : Params} {vs : List Vertex} (h : WellFormed p vs) (h104 : 104 ≤ p.blockSize)
    {file : List Byte} (hf : createLayout p (streamsOf vs) = some file) {align : Nat}
    (ha : align ∣ p.blockSize) (hs : p.medoid < vs.length)
    (hn : ∀ v ∈ vs, ∀ n ∈ v.nbrs, n < vs.length) (num : Nat) (h0 : num ≠ 0) (fuel : Nat)
    (hfuel : min num vs.length < fuel) :
    ∃ c, setupCache file align p.header p.elemSize num fuel = some c ∧
      BfsDone p vs p.medoid (min num vs.length) c := by
  have hmin : (if num > p.header.md.numPts then p.header.md.numPts else num) = min num vs.length := by
    have : p.header.md.numPts = vs.length := h.num.symm
    rw [this]; split <;> omega
  unfold setupCache
  rw [if_neg h0]
  simp only [hmin]
  have hinit : BfsInv p vs p.medoid (min num vs.length)
      { v := Provider.new p.header p.elemSize beamWidthForBfs,
        c := Cache.new 0 (p.header.md.dims * p.elemSize) (min num vs.length),
        queue := [p.medoid], visited := [p.medoid] } [] [] := by
    refine ⟨⟨VInv.new _ _ _, ⟨by simp [Cache.new], by simp⟩, rfl, by simp⟩, rfl, by simp, by simp, ?_,
      by simp, by simp⟩
    intro x hx
    simp only [List.mem_singleton] at hx
    subst hx; exact Reach.refl
  obtain ⟨b, h1, h2⟩ := loop_inv h h104 hf ha (reach_lt hs hn) fuel _ [] (PInv.new _ _ _)
    (Or.inl ⟨by simp, hinit⟩) (by simpa using hfuel)
  refine ⟨b.c, ?_, h2⟩
  have : p.header.md.medoid = p.medoid := rfl
  simp only [buildCacheViaBfs, this, h1, Option.bind_eq_bind, Option.bind_some]

/-- **C61** (cache construction).  For every well-formed index whose neighbour ids exist, and every
positive number of nodes to cache, building the cache terminates without error; the cache holds a set
`K` of distinct vertices reachable from the start node, `min num (number of points)` of them or all that
are reachable, and serves exactly the vertices of `K`, each with its own vector, neighbours (as an
increasing list) and associated data. -/
theorem C61_bfs_cache (p : Params) (vs : List Vertex) (h : WellFormed p vs) (h104 : 104 ≤ p.blockSize)
    (file : List Byte) (hf : createLayout p (streamsOf vs) = some file) (align : Nat)
    (ha : align ∣ p.blockSize) (hs : p.medoid < vs.length)
    (hn : ∀ v ∈ vs, ∀ n ∈ v.nbrs, n < vs.length) (num : Nat) (h0 : num ≠ 0) (fuel : Nat)
    (hfuel : min num vs.length < fuel) :
    ∃ (c : DiskCache) (K : List Nat), setupCache file align p.header p.elemSize num fuel = some c ∧ K.Nodup ∧
      (∀ x ∈ K, Reach vs p.medoid x) ∧ K.length ≤ min num vs.length ∧
      (K.length < min num vs.length → ∀ x, Reach vs p.medoid x → x ∈ K) ∧
      (∀ id, id ∉ K → c.contains id = false ∧ c.getVector id = some none ∧ c.getAdj id = some none ∧
        c.getAssoc id = some none) ∧
      (∀ id ∈ K, ∃ v adj, vs[id]? = some v ∧ c.contains id = true ∧
        c.getVector id = some (some v.vec) ∧ c.getAdj id = some (some adj) ∧
        adj.Pairwise (· < ·) ∧ (∀ n, n ∈ adj ↔ n ∈ v.nbrs) ∧ c.getAssoc id = some (some v.assoc)) := by
  obtain ⟨c, h1, ⟨s, g1, g2, g3, g4, g5⟩⟩ := setup_done h h104 hf ha hs hn num h0 fuel hfuel
  refine ⟨c, s.map (·.1), h1, g3, g4, by simpa using g2, by simpa using g5, ?_, ?_⟩
  · intro id hid
    rcases g1.get id with ⟨_, h2⟩ | ⟨h2, _⟩
    · exact h2
    · exact absurd h2 hid
  · intro id hid
    rcases g1.get id with ⟨h2, _⟩ | ⟨_, h2, w, hw, h3, h4, h5⟩
    · exact absurd hid h2
    · exact ⟨w, _, hw, h2, h3, h4, (Verif.Graph.C05_from_stream w.nbrs).1, mem_fromIter w.nbrs, h5⟩

/-- Zero nodes to cache is refused. -/
theorem C61_zero_refused (file : List Byte) (align : Nat) (h : Header) (e fuel : Nat) :
    setupCache file align h e 0 fuel = none := rfl

/-- Between batches. -/
structure CInv (p : Params) (vs : List Vertex) (v : CachedProvider)
    (s : List (Nat × Ins Byte (List Byte))) (done : List (Nat × Nat)) : Prop where
  faith : Faithful p vs v.cache s
  inner : ∃ ids, BInv p vs ids v.inner done
  lt : ∀ q ∈ done, q.1 < vs.length

theorem cached_processAll {p : Params} {vs : List Vertex} (h : WellFormed p vs)
    {s : List (Nat × Ins Byte (List Byte))} {ids u : List Nat} (hun : u.Nodup)
    (order : List (Nat × Nat)) : ∀ (v : CachedProvider) (done : List (Nat × Nat)),
      Faithful p vs v.cache s → BInv p vs u v.inner done → (∀ q ∈ done, u[q.2]? = some q.1) →
      (∀ q ∈ done, q.1 < vs.length) →
      (∀ k id, ids[k]? = some id → v.cache.contains id = false →
        ∃ j, v.remap.lookup k = some j ∧ u[j]? = some id) →
      (∀ q ∈ order, ids[q.2]? = some q.1) → (∀ q ∈ order, q.1 < vs.length) →
      (order.map (·.1)).Nodup → (∀ q ∈ order, ∀ j, (q.1, j) ∉ done) →
      ∃ v' done', v.processAll order = some v' ∧ v'.cache = v.cache ∧ CInv p vs v' s done' ∧
        (∀ q ∈ done, q ∈ done') ∧
        ∀ q ∈ order, v.cache.contains q.1 = false → ∃ j, (q.1, j) ∈ done' := by
  induction order with
  | nil =>
    intro v done hf hb _ hlt _ _ _ _ _
    exact ⟨v, done, rfl, rfl, ⟨hf, ⟨u, hb⟩, hlt⟩, fun q hq => hq, by simp⟩
  | cons q order ih =>
    intro v done hf hb hdu hlt hre hmem hol hnd hfresh
    obtain ⟨id, idx⟩ := q
    have hidlt : id < vs.length := hol (id, idx) List.mem_cons_self
    have hidx := hmem (id, idx) List.mem_cons_self
    simp only [List.map_cons, List.nodup_cons] at hnd
    by_cases hc : v.cache.contains id = true
    · obtain ⟨v', done', h1, h2, h3, h4, h5⟩ := ih v done hf hb hdu hlt hre
        (fun q hq => hmem q (List.mem_cons_of_mem _ hq)) (fun q hq => hol q (List.mem_cons_of_mem _ hq))
        hnd.2 (fun q hq => hfresh q (List.mem_cons_of_mem _ hq))
      refine ⟨v', done', by simp [CachedProvider.processAll, CachedProvider.process, hc, h1], h2, h3, h4, ?_⟩
      intro q hq hcq
      rcases List.mem_cons.1 hq with rfl | hq
      · rw [hc] at hcq; simp at hcq
      · exact h5 q hq hcq
    · simp only [Bool.not_eq_true] at hc
      obtain ⟨j, hj, huj⟩ := hre idx id hidx hc
      obtain ⟨w, hw⟩ : ∃ w, vs[id]? = some w := ⟨_, List.getElem?_eq_getElem hidlt⟩
      have hnew := hfresh (id, idx) List.mem_cons_self
      obtain ⟨inner', hp, hb'⟩ := hb.step h huj hw hnew (by
        intro i hi
        have h1 := hdu _ hi
        simp only at h1
        rw [huj] at h1
        simp only [Option.some.injEq] at h1
        subst h1
        exact hnew j hi)
      obtain ⟨v', done', h1, h2, h3, h4, h5⟩ := ih { v with inner := inner' } ((id, j) :: done) hf hb'
        (by
          intro q hq
          rcases List.mem_cons.1 hq with rfl | hq
          · exact huj
          · exact hdu q hq)
        (by
          intro q hq
          rcases List.mem_cons.1 hq with rfl | hq
          · exact hidlt
          · exact hlt q hq)
        hre (fun q hq => hmem q (List.mem_cons_of_mem _ hq))
        (fun q hq => hol q (List.mem_cons_of_mem _ hq)) hnd.2
        (by
          intro q hq j' hj'
          rcases List.mem_cons.1 hj' with he | hj'
          · simp only [Prod.mk.injEq] at he
            exact hnd.1 (List.mem_map.2 ⟨q, hq, he.1⟩)
          · exact hfresh q (List.mem_cons_of_mem _ hq) j' hj')
      refine ⟨v', done', ?_, h2, h3, fun q hq => h4 q (List.mem_cons_of_mem _ hq), ?_⟩
      · simp [CachedProvider.processAll, CachedProvider.process, hc, hj, hp, h1]
      · intro q hq hcq
        rcases List.mem_cons.1 hq with rfl | hq
        · exact ⟨j, h4 _ List.mem_cons_self⟩
        · exact h5 q hq hcq

theorem cached_batch {p : Params} {vs : List Vertex} (h : WellFormed p vs) (h104 : 104 ≤ p.blockSize)
    {file : List Byte} (hf : createLayout p (streamsOf vs) = some file) {align : Nat}
    (ha : align ∣ p.blockSize) {s : List (Nat × Ins Byte (List Byte))} {v : CachedProvider}
    {done : List (Nat × Nat)} (hv : CInv p vs v s done) {ids : List Nat} {order : List (Nat × Nat)}
    (hl : LegalBatch p.numPts ids order) :
    ∃ v0 v1 done1, v.load file align ids = some v0 ∧ v0.processAll order = some v1 ∧
      CInv p vs v1 s done1 ∧ v1.cache = v.cache ∧
      ∀ q ∈ order, v.cache.contains q.1 = false → ∃ j, (q.1, j) ∈ done1 := by
  obtain ⟨hspec, hmap⟩ := filterCached_spec v.cache ids 0 0
  have hol : ∀ q ∈ order, q.1 < vs.length := fun q hq => by
    rw [h.num]; exact hl.ids_lt _ (List.mem_of_getElem? (hl.order_mem q hq))
  obtain ⟨mu, hmu⟩ : ∃ mu, mu = filterCached v.cache 0 0 ids := ⟨_, rfl⟩
  rw [← hmu] at hspec hmap
  unfold CachedProvider.load
  rw [← hmu]
  obtain ⟨m, u⟩ := mu
  simp only at hspec hmap ⊢
  by_cases hu : u = []
  · rw [if_pos hu]
    refine ⟨{ v with remap := m }, { v with remap := m }, done, rfl, ?_, ⟨hv.faith, hv.inner, hv.lt⟩, rfl, ?_⟩
    · have : ∀ q ∈ order, v.cache.contains q.1 = true := by
        intro q hq
        by_contra hc
        have hq' : q.1 ∈ u := by
          rw [hspec, List.mem_filter]
          exact ⟨List.mem_of_getElem? (hl.order_mem q hq), by simpa using hc⟩
        rw [hu] at hq'; simp at hq'
      clear hl hol
      induction order with
      | nil => rfl
      | cons q order ih =>
        obtain ⟨id, idx⟩ := q
        have h1 := this (id, idx) List.mem_cons_self
        simp only at h1
        have h2 := ih (fun q hq => this q (List.mem_cons_of_mem _ hq))
        simp [CachedProvider.processAll, CachedProvider.process, h1, h2]
    · intro q hq hc
      have hq' : q.1 ∈ u := by
        rw [hspec, List.mem_filter]
        exact ⟨List.mem_of_getElem? (hl.order_mem q hq), by simp [hc]⟩
      rw [hu] at hq'; simp at hq'
  · rw [if_neg hu]
    obtain ⟨ids0, hb0⟩ := hv.inner
    obtain ⟨v1, h1, h2, h3, h4, h5, h6, h7⟩ := load_spec h h104 hf ha hb0.pinv (ids := u) (by
      intro i hi
      rw [hspec] at hi
      exact hl.ids_lt i (List.mem_filter.1 hi).1)
    have hb : BInv p vs u v1 [] :=
      ⟨h2, h6, h7, by simp [h3, h4, h5], by intro id; simp [h3], by intro id idx w hm; simp at hm⟩
    obtain ⟨v2, done2, e1, e2, e3, _, e5⟩ := cached_processAll h (ids := ids) (u := u)
      (by rw [hspec]; exact hl.ids_nodup.filter _) order
      { v with inner := v1, remap := m } [] hv.faith hb (by simp) (by simp)
      (by
        intro k id hk hc
        obtain ⟨j, g1, g2⟩ := hmap k id hk hc
        exact ⟨j, by simpa using g1, g2⟩)
      hl.order_mem hol (order_nodups hl).1 (by simp)
    exact ⟨_, v2, done2, by simp [h1], e1, e3, e2, e5⟩

theorem cached_batches {p : Params} {vs : List Vertex} (h : WellFormed p vs) (h104 : 104 ≤ p.blockSize)
    {file : List Byte} (hf : createLayout p (streamsOf vs) = some file) {align : Nat}
    (ha : align ∣ p.blockSize) {s : List (Nat × Ins Byte (List Byte))}
    (bs : List (List Nat × List (Nat × Nat))) : ∀ {v : CachedProvider} {done : List (Nat × Nat)},
      CInv p vs v s done → (∀ b ∈ bs, LegalBatch p.numPts b.1 b.2) →
      ∃ v' done', v.batches file align bs = some v' ∧ CInv p vs v' s done' ∧ v'.cache = v.cache := by
  induction bs with
  | nil => intro v done hv _; exact ⟨v, done, rfl, hv, rfl⟩
  | cons b bs ih =>
    intro v done hv hl
    obtain ⟨ids, order⟩ := b
    obtain ⟨v0, v1, done1, h1, h2, h3, h4, _⟩ := cached_batch h h104 hf ha hv (hl _ List.mem_cons_self)
    obtain ⟨v2, done2, h5, h6, h7⟩ := ih h3 (fun b hb => hl b (List.mem_cons_of_mem _ hb))
    exact ⟨v2, done2, by simp [CachedProvider.batches, h1, h2, h5], h6, by rw [h7, h4]⟩

theorem CInv.served {p : Params} {vs : List Vertex} {v : CachedProvider}
    {s : List (Nat × Ins Byte (List Byte))} {done : List (Nat × Nat)} (hv : CInv p vs v s done) (id : Nat) :
    (v.cache.contains id = false ∧ (∀ j, (id, j) ∉ done) ∧ v.getVector id = none ∧ v.getAdj id = none ∧
      v.getAssoc id = none) ∨
    ∃ w adj, vs[id]? = some w ∧ v.getVector id = some w.vec ∧ v.getAdj id = some adj ∧
      (∀ n, n ∈ adj ↔ n ∈ w.nbrs) ∧ v.getAssoc id = some w.assoc := by
  obtain ⟨ids, hb⟩ := hv.inner
  rcases hv.faith.get id with ⟨_, hc, h1, h2, h3⟩ | ⟨_, _, w, hw, h1, h2, h3⟩
  · by_cases hd : ∃ j, (id, j) ∈ done
    · obtain ⟨j, hj⟩ := hd
      have hlt := hv.lt _ hj
      have hw : vs[id]? = some vs[id] := List.getElem?_eq_getElem hlt
      obtain ⟨g1, g2, g3⟩ := hb.serves hj hw
      right
      exact ⟨vs[id], vs[id].nbrs, hw, by simp [CachedProvider.getVector, h1, g1],
        by simp [CachedProvider.getAdj, h2, g2], by simp, by simp [CachedProvider.getAssoc, h3, g3]⟩
    · have hd' : ∀ j, (id, j) ∉ done := fun j hj => hd ⟨j, hj⟩
      obtain ⟨g1, g2, g3⟩ := hb.silent hd'
      left
      exact ⟨hc, hd', by simp [CachedProvider.getVector, h1, g1], by simp [CachedProvider.getAdj, h2, g2],
        by simp [CachedProvider.getAssoc, h3, g3]⟩
  · right
    exact ⟨w, fromIterUntrusted w.nbrs, hw, by simp [CachedProvider.getVector, h1],
      by simp [CachedProvider.getAdj, h2], mem_fromIter w.nbrs, by simp [CachedProvider.getAssoc, h3]⟩

/-- **C61** (provider with cache).  With the cache built from the file, after any history of legal
batches, loading a further batch and processing any part of it in any order succeeds; every processed
vertex is then served with its own vector, exactly its own neighbours and its own associated data,
cached or not; and no vertex whatsoever is ever served with anything but its own data. -/
theorem C61_cached_provider (p : Params) (vs : List Vertex) (h : WellFormed p vs)
    (h104 : 104 ≤ p.blockSize) (file : List Byte) (hf : createLayout p (streamsOf vs) = some file)
    (align : Nat) (ha : align ∣ p.blockSize) (hs : p.medoid < vs.length)
    (hn : ∀ v ∈ vs, ∀ n ∈ v.nbrs, n < vs.length) (num : Nat) (h0 : num ≠ 0) (fuel : Nat)
    (hfuel : min num vs.length < fuel) (maxBatch : Nat)
    (earlier : List (List Nat × List (Nat × Nat)))
    (he : ∀ b ∈ earlier, LegalBatch p.numPts b.1 b.2)
    (ids : List Nat) (order : List (Nat × Nat)) (hl : LegalBatch p.numPts ids order) :
    ∃ c v0 v1 v2, setupCache file align p.header p.elemSize num fuel = some c ∧
      (CachedProvider.mk c (Provider.new p.header p.elemSize maxBatch) []).batches file align earlier =
        some v0 ∧
      v0.load file align ids = some v1 ∧ v1.processAll order = some v2 ∧
      (∀ q ∈ order, ∃ w adj, vs[q.1]? = some w ∧ v2.getVector q.1 = some w.vec ∧
        v2.getAdj q.1 = some adj ∧ (∀ n, n ∈ adj ↔ n ∈ w.nbrs) ∧ v2.getAssoc q.1 = some w.assoc) ∧
      (∀ id x, v2.getVector id = some x → ∃ w, vs[id]? = some w ∧ x = w.vec) ∧
      (∀ id adj, v2.getAdj id = some adj → ∃ w, vs[id]? = some w ∧ ∀ n, n ∈ adj ↔ n ∈ w.nbrs) ∧
      (∀ id a, v2.getAssoc id = some a → ∃ w, vs[id]? = some w ∧ a = w.assoc) := by
  obtain ⟨c, h1, ⟨s, g1, _⟩⟩ := setup_done h h104 hf ha hs hn num h0 fuel hfuel
  have hb0 : BInv p vs [] (Provider.new p.header p.elemSize maxBatch) [] :=
    ⟨PInv.new _ _ _, by simp, by simp, by simp [Provider.new], by simp [Provider.new], by simp⟩
  obtain ⟨v0, done0, h2, h3, h4⟩ := cached_batches h h104 hf ha earlier
    (v := CachedProvider.mk c (Provider.new p.header p.elemSize maxBatch) []) (done := [])
    ⟨g1, ⟨[], hb0⟩, by simp⟩ he
  obtain ⟨v1, v2, done2, e1, e2, e3, e4, e5⟩ := cached_batch h h104 hf ha h3 hl
  refine ⟨c, v0, v1, v2, h1, h2, e1, e2, ?_, ?_, ?_, ?_⟩
  · intro q hq
    rcases e3.served q.1 with ⟨hc, hd, _⟩ | hgood
    · exfalso
      rw [e4] at hc
      obtain ⟨j, hj⟩ := e5 q hq hc
      exact hd j hj
    · exact hgood
  · intro id x hx
    rcases e3.served id with ⟨_, _, h6, _⟩ | ⟨w, adj, hw, h6, _⟩
    · rw [h6] at hx; simp at hx
    · rw [h6] at hx; simp only [Option.some.injEq] at hx; exact ⟨w, hw, hx.symm⟩
  · intro id x hx
    rcases e3.served id with ⟨_, _, _, h6, _⟩ | ⟨w, adj, hw, _, h6, h7, _⟩
    · rw [h6] at hx; simp at hx
    · rw [h6] at hx; simp only [Option.some.injEq] at hx; subst hx; exact ⟨w, hw, h7⟩
  · intro id x hx
    rcases e3.served id with ⟨_, _, _, _, h6⟩ | ⟨w, adj, hw, _, _, _, h6⟩
    · rw [h6] at hx; simp at hx
    · rw [h6] at hx; simp only [Option.some.injEq] at hx; exact ⟨w, hw, hx.symm⟩

/-- The hypotheses are met by the two-vertex index with one cached node; the second batch mixes a
cached and an uncached vertex. -/
example : WellFormed pairParams pairVs ∧ 104 ≤ pairParams.blockSize ∧ (8 : Nat) ∣ pairParams.blockSize ∧
    pairParams.medoid < pairVs.length ∧ (∀ v ∈ pairVs, ∀ n ∈ v.nbrs, n < pairVs.length) ∧
    min 1 pairVs.length < 2 ∧ LegalBatch pairParams.numPts [0, 1] [(1, 1), (0, 0)] :=
  ⟨pair_wf, by decide, by decide, by decide, by decide, by decide,
    ⟨by decide, by decide, by decide, by decide⟩⟩

end Verif.Disk
