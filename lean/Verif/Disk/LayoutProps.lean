import Verif.Disk.LayoutRead
/-
C51: what the layout writer puts down is what the reader finds.
C60: loading a batch of vertices.
-/
namespace Verif.Disk

/-- State of the provider after processing the `(id, idx)` pairs in `done`. -/
structure BInv (p : Params) (vs : List Vertex) (ids : List Nat) (v : Provider)
    (done : List (Nat × Nat)) : Prop where
  pinv : PInv p.header p.elemSize v
  mb : ids.length ≤ v.maxBatch
  node : ∀ (idx id : Nat) (w : Vertex), ids[idx]? = some id → vs[id]? = some w →
    v.nodeBuf idx id = some (nodeImage p w)
  len : v.loaded.length = done.length ∧ v.adj.length = done.length ∧ v.assoc.length = done.length
  keys : ∀ id, v.loaded.lookup id = none ↔ ∀ idx, (id, idx) ∉ done
  got : ∀ id idx w, (id, idx) ∈ done → vs[id]? = some w → ∃ vi, v.loaded.lookup id = some (vi, idx) ∧
    v.adj[vi]? = some w.nbrs ∧ v.assoc[vi]? = some w.assoc ∧
    slice? v.vecBuf (idx * p.vecLen) (idx * p.vecLen + p.vecLen) = some w.vec

theorem lookup_filter_ne (l : List (Nat × (Nat × Nat))) (a b : Nat) (h : b ≠ a) :
    (l.filter (·.1 ≠ a)).lookup b = l.lookup b := by
  induction l with
  | nil => rfl
  | cons x l ih =>
    obtain ⟨c, y⟩ := x
    by_cases hc : c = a
    · subst hc
      rw [List.filter_cons_of_neg (by simp), ih, List.lookup_cons]
      rw [show (b == c) = false by simpa using h]
    · rw [List.filter_cons_of_pos (by simpa using hc), List.lookup_cons, List.lookup_cons, ih]

theorem lookup_none_notMem (l : List (Nat × (Nat × Nat))) (a : Nat) (h : l.lookup a = none) :
    l.filter (·.1 ≠ a) = l := by
  rw [List.filter_eq_self]
  intro x hx
  simp only [ne_eq, decide_not, Bool.not_eq_eq_eq_not, Bool.not_true, decide_eq_false_iff_not]
  intro he
  rw [List.lookup_eq_none_iff] at h
  have := h x hx
  simp [he] at this

theorem slice_other (buf w : List Byte) (n i j : Nat) (hij : i ≠ j) (hw : w.length = n)
    (hi : (i + 1) * n ≤ buf.length) :
    slice? (buf.take (i * n) ++ (w ++ buf.drop ((i + 1) * n))) (j * n) (j * n + n) =
      slice? buf (j * n) (j * n + n) := by
  have hlen : (buf.take (i * n) ++ (w ++ buf.drop ((i + 1) * n))).length = buf.length := by
    simp only [List.length_append, List.length_take, List.length_drop]
    rw [Nat.add_mul, Nat.one_mul] at hi ⊢
    omega
  unfold slice?
  rw [hlen]
  by_cases hc : j * n ≤ j * n + n ∧ j * n + n ≤ buf.length
  · rw [if_pos hc, if_pos hc]
    congr 1
    rw [Nat.add_sub_cancel_left]
    rcases Nat.lt_or_gt_of_ne hij with h | h
    · have hle : (i + 1) * n ≤ j * n := Nat.mul_le_mul_right _ h
      rw [← List.append_assoc, List.drop_append, List.drop_of_length_le (by
        simp only [List.length_append, List.length_take]; rw [Nat.add_mul, Nat.one_mul] at hle hi; omega),
        List.nil_append, List.drop_drop]
      congr 2
      simp only [List.length_append, List.length_take]
      rw [Nat.add_mul, Nat.one_mul] at hle hi ⊢
      omega
    · have hle : (j + 1) * n ≤ i * n := Nat.mul_le_mul_right _ h
      rw [Nat.add_mul, Nat.one_mul] at hle hi
      rw [List.drop_append_of_le_length (by simp only [List.length_take]; omega),
        List.take_append_of_le_length (by simp only [List.length_drop, List.length_take]; omega),
        List.drop_take, List.take_take]
      congr 1; omega
  · rw [if_neg hc, if_neg hc]

theorem slice_same (buf w : List Byte) (n i : Nat) (hw : w.length = n) (hi : (i + 1) * n ≤ buf.length) :
    slice? (buf.take (i * n) ++ (w ++ buf.drop ((i + 1) * n))) (i * n) (i * n + n) = some w := by
  rw [Nat.add_mul, Nat.one_mul] at hi
  exact slice_append _ _ _ _ _ (by simp only [List.length_take]; omega) (by omega)

theorem BInv.step {p : Params} {vs : List Vertex} (h : WellFormed p vs) {ids : List Nat} {v : Provider}
    {done : List (Nat × Nat)} (hb : BInv p vs ids v done) {id idx : Nat} {w : Vertex}
    (hidx : ids[idx]? = some id) (hw : vs[id]? = some w) (hnew : ∀ j, (id, j) ∉ done)
    (hnew' : ∀ i, (i, idx) ∉ done) :
    ∃ v', v.process id idx = some v' ∧ BInv p vs ids v' ((id, idx) :: done) := by
  have hfit := h.fits w (List.mem_of_getElem? hw)
  have hlt : idx < ids.length := by
    rcases Nat.lt_or_ge idx ids.length with h | h
    · exact h
    · rw [List.getElem?_eq_none h] at hidx; simp at hidx
  have hmb := hb.mb
  have hp := process_spec hfit h.degU32 hb.pinv (by omega) (hb.node idx id w hidx hw)
  have hfp : v.fpVecLen = p.vecLen := hb.pinv.fp
  have hvb : (idx + 1) * p.vecLen ≤ v.vecBuf.length := by
    rw [hb.pinv.vb, hfp]; exact Nat.mul_le_mul_right _ (by omega)
  have hnone : v.loaded.lookup id = none := (hb.keys id).2 hnew
  have hfil := lookup_none_notMem v.loaded id hnone
  refine ⟨_, hp, ⟨⟨hb.pinv.fp, hb.pinv.as, hb.pinv.nl, hb.pinv.g, hb.pinv.sec, ?_⟩, hb.mb, hb.node,
    ?_, ?_, ?_⟩⟩
  · have := hfit.vec
    simp only [List.length_append, List.length_take, List.length_drop, this]
    have hvl := hb.pinv.vb
    have hexp : (idx + 1) * p.vecLen = idx * p.vecLen + p.vecLen := by rw [Nat.add_mul, Nat.one_mul]
    omega
  · obtain ⟨l1, l2, l3⟩ := hb.len
    simp only [hfil, List.length_cons, List.length_append, List.length_nil, l1, l2, l3]
    simp
  · intro id'
    simp only [hfil, List.lookup_cons]
    by_cases he : id' = id
    · subst he
      simp only [beq_self_eq_true]
      constructor
      · intro hh; simp at hh
      · intro hh; exact absurd List.mem_cons_self (hh idx)
    · rw [show (id' == id) = false by simpa using he]
      simp only [hb.keys id', List.mem_cons, Prod.mk.injEq, he, false_and, false_or]
  · intro id' idx' w' hm hw'
    simp only [hfil]
    rcases List.mem_cons.1 hm with he | hm
    · simp only [Prod.mk.injEq] at he
      obtain ⟨rfl, rfl⟩ := he
      rw [hw] at hw'
      simp only [Option.some.injEq] at hw'
      subst hw'
      refine ⟨v.loaded.length, by simp, ?_, ?_, slice_same _ _ _ _ hfit.vec hvb⟩
      · rw [hb.len.1, ← hb.len.2.1]; simp
      · rw [hb.len.1, ← hb.len.2.2]; simp
    · have hne : id' ≠ id := by rintro rfl; exact hnew _ ‹(_, _) ∈ done›
      have hne' : idx ≠ idx' := by rintro rfl; exact hnew' _ ‹(_, _) ∈ done›
      obtain ⟨vi, h1, h2, h3, h4⟩ := hb.got id' idx' w' hm hw'
      refine ⟨vi, ?_, ?_, ?_, ?_⟩
      · rw [List.lookup_cons, show (id' == id) = false by simpa using hne]; exact h1
      · rw [List.getElem?_append_left]
        · exact h2
        · exact (List.getElem?_eq_some_iff.1 h2).1
      · rw [List.getElem?_append_left]
        · exact h3
        · exact (List.getElem?_eq_some_iff.1 h3).1
      · rw [slice_other _ _ _ _ _ hne' hfit.vec hvb]; exact h4

theorem BInv.all {p : Params} {vs : List Vertex} (h : WellFormed p vs) {ids : List Nat}
    (order : List (Nat × Nat)) : ∀ (v : Provider) (done : List (Nat × Nat)), BInv p vs ids v done →
      (∀ q ∈ order, ids[q.2]? = some q.1) → (∀ q ∈ order, q.1 < p.numPts) →
      ((order ++ done).map (·.1)).Nodup → ((order ++ done).map (·.2)).Nodup →
      ∃ v', v.processAll order = some v' ∧ BInv p vs ids v' (order.reverse ++ done) := by
  induction order with
  | nil => intro v done hb _ _ _ _; exact ⟨v, rfl, by simpa using hb⟩
  | cons q order ih =>
    intro v done hb hsub hlt hn1 hn2
    obtain ⟨id, idx⟩ := q
    have hidlt := hlt (id, idx) List.mem_cons_self
    obtain ⟨w, hw⟩ : ∃ w, vs[id]? = some w := by
      simp only at hidlt
      rw [← h.num] at hidlt
      exact ⟨vs[id], List.getElem?_eq_getElem hidlt⟩
    simp only [List.cons_append, List.map_cons, List.nodup_cons, List.map_append, List.mem_append,
      not_or] at hn1 hn2
    obtain ⟨v1, hp, hb1⟩ := hb.step h (hsub (id, idx) List.mem_cons_self) hw
      (fun j hj => hn1.1.2 (List.mem_map.2 ⟨_, hj, rfl⟩))
      (fun i hi => hn2.1.2 (List.mem_map.2 ⟨_, hi, rfl⟩))
    obtain ⟨v2, h2, h3⟩ := ih v1 ((id, idx) :: done) hb1 (fun q hq => hsub q (List.mem_cons_of_mem _ hq))
      (fun q hq => hlt q (List.mem_cons_of_mem _ hq))
      (by
        simp only [List.map_append, List.map_cons]
        rw [List.nodup_middle, List.nodup_cons, List.mem_append, not_or]
        exact hn1)
      (by
        simp only [List.map_append, List.map_cons]
        rw [List.nodup_middle, List.nodup_cons, List.mem_append, not_or]
        exact hn2)
    refine ⟨v2, by simp [Provider.processAll, hp, h2], ?_⟩
    simpa using h3

/-- One batch: load, then process the loaded vertices in the given completion order. -/
def Provider.batch (v : Provider) (file : List Byte) (align : Nat) (ids : List Nat)
    (order : List (Nat × Nat)) : Option Provider := do
  (← v.load file align ids).processAll order

/-- A sequence of batches on the same provider. -/
def Provider.batches (v : Provider) (file : List Byte) (align : Nat) :
    List (List Nat × List (Nat × Nat)) → Option Provider
  | [] => some v
  | (ids, order) :: bs => do (← v.batch file align ids order).batches file align bs

/-- A legal batch on an index of `n` points: distinct existing ids; the completion order lists
requests of the batch (vertex with its position), each at most once. -/
structure LegalBatch (n : Nat) (ids : List Nat) (order : List (Nat × Nat)) : Prop where
  ids_lt : ∀ i ∈ ids, i < n
  ids_nodup : ids.Nodup
  order_mem : ∀ q ∈ order, ids[q.2]? = some q.1
  order_nodup : order.Nodup

theorem order_nodups {n : Nat} {ids : List Nat} {order : List (Nat × Nat)} (h : LegalBatch n ids order) :
    (order.map (·.1)).Nodup ∧ (order.map (·.2)).Nodup := by
  constructor
  · refine List.Nodup.map_on ?_ h.order_nodup
    intro x hx y hy he
    have h1 := h.order_mem x hx
    have h2 := h.order_mem y hy
    rw [← he] at h2
    have : x.2 = y.2 := by
      have hl := (List.getElem?_eq_some_iff.1 h1).1
      exact (List.getElem?_inj hl h.ids_nodup).1 (h1.trans h2.symm)
    exact Prod.ext he this
  · refine List.Nodup.map_on ?_ h.order_nodup
    intro x hx y hy he
    have h1 := h.order_mem x hx
    have h2 := h.order_mem y hy
    rw [← he, h1] at h2
    simp only [Option.some.injEq] at h2
    exact Prod.ext h2 he

theorem batch_spec {p : Params} {vs : List Vertex} (h : WellFormed p vs) (h104 : 104 ≤ p.blockSize)
    {file : List Byte} (hf : createLayout p (streamsOf vs) = some file) {align : Nat}
    (ha : align ∣ p.blockSize) {v : Provider} (hv : PInv p.header p.elemSize v) {ids : List Nat}
    {order : List (Nat × Nat)} (hl : LegalBatch p.numPts ids order) :
    ∃ v', v.batch file align ids order = some v' ∧ BInv p vs ids v' order.reverse := by
  obtain ⟨v1, h1, h2, h3, h4, h5, h6, h7⟩ := load_spec h h104 hf ha hv hl.ids_lt
  have hb : BInv p vs ids v1 [] :=
    ⟨h2, h6, h7, by simp [h3, h4, h5], by intro id; simp [h3], by intro id idx w hm; simp at hm⟩
  have hn := order_nodups hl
  obtain ⟨v2, h8, h9⟩ := BInv.all h order v1 [] hb hl.order_mem
    (fun q hq => hl.ids_lt _ (List.mem_of_getElem? (hl.order_mem q hq)))
    (by simpa using hn.1) (by simpa using hn.2)
  exact ⟨v2, by simp [Provider.batch, h1, h8], by simpa using h9⟩

theorem batches_spec {p : Params} {vs : List Vertex} (h : WellFormed p vs) (h104 : 104 ≤ p.blockSize)
    {file : List Byte} (hf : createLayout p (streamsOf vs) = some file) {align : Nat}
    (ha : align ∣ p.blockSize) (bs : List (List Nat × List (Nat × Nat))) :
    ∀ {v : Provider}, PInv p.header p.elemSize v → (∀ b ∈ bs, LegalBatch p.numPts b.1 b.2) →
      ∃ v', v.batches file align bs = some v' ∧ PInv p.header p.elemSize v' := by
  induction bs with
  | nil => intro v hv _; exact ⟨v, rfl, hv⟩
  | cons b bs ih =>
    intro v hv hl
    obtain ⟨ids, order⟩ := b
    obtain ⟨v1, h1, h2⟩ := batch_spec h h104 hf ha hv (hl _ List.mem_cons_self)
    obtain ⟨v2, h3, h4⟩ := ih h2.pinv (fun b hb => hl b (List.mem_cons_of_mem _ hb))
    exact ⟨v2, by simp [Provider.batches, h1, h3], h4⟩

/-- **C51** (block sizes of at least 104 bytes; the writer accepts 80 and up, see
`C51_header_overlaps_first_vertex`).  For every well-formed index the writer succeeds, the header read
back from the file is the one written, and opening the file and loading vertex `i` — after any number
of earlier batches, in a batch of any legal shape — returns exactly the vector, neighbour list and
associated data the builder supplied for vertex `i`. -/
theorem C51_read_back_partial (p : Params) (vs : List Vertex) (h : WellFormed p vs)
    (hr : p.header.InRange) (h104 : 104 ≤ p.blockSize) (align : Nat) (ha : align ∣ p.blockSize)
    (maxBatch : Nat) (earlier : List (List Nat × List (Nat × Nat)))
    (he : ∀ b ∈ earlier, LegalBatch p.numPts b.1 b.2) (i : Nat) (v : Vertex) (hi : vs[i]? = some v) :
    ∃ file hd v0 v1, createLayout p (streamsOf vs) = some file ∧ getHeader file = some hd ∧
      (Provider.new hd p.elemSize maxBatch).batches file align earlier = some v0 ∧
      v0.batch file align [i] [(i, 0)] = some v1 ∧
      v1.getVector i = some v.vec ∧ v1.getAdj i = some v.nbrs ∧ v1.getAssoc i = some v.assoc := by
  have hcl := createLayout_spec (more := []) h
  have hilt : i < p.numPts := by
    rw [← h.num]; exact (List.getElem?_eq_some_iff.1 hi).1
  have hl : LegalBatch p.numPts [i] [(i, 0)] := by
    refine ⟨?_, by simp, ?_, by simp⟩
    · intro j hj; simp only [List.mem_singleton] at hj; omega
    · intro q hq; simp only [List.mem_singleton] at hq; subst hq; rfl
  obtain ⟨v0, h1, h2⟩ := batches_spec h h104 hcl ha earlier (PInv.new p.header p.elemSize maxBatch) he
  obtain ⟨v1, h3, h4⟩ := batch_spec h h104 hcl ha h2 hl
  obtain ⟨vi, g1, g2, g3, g4⟩ := h4.got i 0 v (by simp) hi
  have hfp : v1.fpVecLen = p.vecLen := h4.pinv.fp
  refine ⟨_, p.header, v0, v1, hcl, ?_, h1, h3, ?_, ?_, ?_⟩
  · unfold getHeader
    have : (writeAt (zeros p.blockSize ++ bodyOf p vs) 0 (headerImage p)).drop 8 =
        p.header.toBytes ++ (zeros p.blockSize ++ bodyOf p vs).drop 104 := by
      simp only [writeAt, List.take_zero, List.nil_append, Nat.zero_add, headerImage_length]
      rw [headerImage, List.append_assoc, List.drop_append, List.drop_of_length_le (by
        simp [leEncode_length]), List.nil_append]
      simp [leEncode_length]
    rw [this]
    exact (C52_round_trip p.header hr _).1
  · simp only [Provider.getVector, g1, hfp, Option.bind_eq_bind, Option.bind_some]; exact g4
  · simp only [Provider.getAdj, g1, Option.bind_eq_bind, Option.bind_some]; exact g2
  · simp only [Provider.getAssoc, g1, Option.bind_eq_bind, Option.bind_some]; exact g3

/-- **C51** The file does not depend on what follows the lists of the points in the graph file. -/
theorem C51_trailing_lists (p : Params) (vs : List Vertex) (h : WellFormed p vs) (more : List Byte) :
    createLayout p (streamsOf vs more) = createLayout p (streamsOf vs) := by
  rw [createLayout_spec h, createLayout_spec h]

/-- **C51** (disjointness): where the reader looks for two different vertices, the records do not
overlap; every record lies inside the file the writer sized, and after the first block. -/
theorem C51_disjoint (p : Params) (hb : p.accepted) (i j : Nat) (hij : i < j) :
    let g := SectorGraph.new p.header
    recordStart g i + p.nodeLen ≤ recordStart g j ∧ p.blockSize ≤ recordStart g i := by
  have hbs : 0 < p.blockSize := by
    simp only [Params.accepted, Metadata.getSize] at hb; omega
  have hbseq : (SectorGraph.new p.header).blockSize = p.blockSize := by
    simp only [SectorGraph.new, Params.header]
    rw [if_neg (by omega)]
  simp only [recordStart, hbseq]
  by_cases hn : p.npb > 0
  · have hs : ∀ k, (SectorGraph.new p.header).sectorIndex k = 1 + k / p.npb := by
      intro k
      simp only [SectorGraph.sectorIndex, SectorGraph.new, Params.header]
      rw [if_pos (by omega)]
    have ho : ∀ k, (SectorGraph.new p.header).nodeOffset k = k % p.npb * p.nodeLen := by
      intro k
      simp only [SectorGraph.nodeOffset, SectorGraph.new, Params.header]
      rw [if_neg (by omega)]
    rw [hs, hs, ho, ho]
    have hi := Nat.div_add_mod i p.npb
    have hj := Nat.div_add_mod j p.npb
    have hmi := Nat.mod_lt i hn
    have hmj := Nat.mod_lt j hn
    have hle := npb_mul_le p
    have hdiv : i / p.npb ≤ j / p.npb := Nat.div_le_div_right (by omega)
    refine ⟨?_, by rw [Nat.add_mul]; omega⟩
    rcases Nat.lt_or_ge (i / p.npb) (j / p.npb) with hlt | hge
    · have h1 : (i % p.npb + 1) * p.nodeLen ≤ p.blockSize :=
        Nat.le_trans (Nat.mul_le_mul_right _ hmi) hle
      have h2 : (1 + i / p.npb + 1) * p.blockSize ≤ (1 + j / p.npb) * p.blockSize :=
        Nat.mul_le_mul_right _ (by omega)
      rw [Nat.add_mul (1 + i / p.npb), Nat.one_mul] at h2
      rw [Nat.add_mul, Nat.one_mul] at h1
      omega
    · have he : i / p.npb = j / p.npb := by omega
      rw [he] at hi
      have hlt : i % p.npb + 1 ≤ j % p.npb := by omega
      have h1 := Nat.mul_le_mul_right p.nodeLen hlt
      rw [Nat.add_mul, Nat.one_mul] at h1
      rw [he]; omega
  · have hn0 : p.npb = 0 := by omega
    have hs : ∀ k, (SectorGraph.new p.header).sectorIndex k = 1 + k * divCeil p.nodeLen p.blockSize := by
      intro k
      simp only [SectorGraph.sectorIndex, SectorGraph.new, Params.header, hn0]
      rw [if_neg (by omega), if_neg (by omega), if_neg (by omega)]
    have ho : ∀ k, (SectorGraph.new p.header).nodeOffset k = 0 := by
      intro k
      simp only [SectorGraph.nodeOffset, SectorGraph.new, Params.header, hn0, if_true]
    rw [hs, hs, ho, ho]
    have hle := le_divCeil_mul p.nodeLen p.blockSize hbs
    refine ⟨?_, by rw [Nat.add_mul]; omega⟩
    have h1 : (i + 1) * divCeil p.nodeLen p.blockSize ≤ j * divCeil p.nodeLen p.blockSize :=
      Nat.mul_le_mul_right _ hij
    have h2 := Nat.mul_le_mul_right p.blockSize h1
    rw [Nat.add_mul, Nat.one_mul, Nat.add_mul] at h2
    rw [Nat.add_mul, Nat.add_mul]
    omega

/-- A tiny index: one `f32` dimension, degree 1, block size 80 (the smallest the writer accepts). -/
def tinyParams : Params :=
  { dims := 1, elemSize := 4, numPts := 1, maxDegree := 1, medoid := 0, frozenNum := 0,
    hasAssoc := false, assocBytes := 0, blockSize := 80 }

def tinyVertex : Vertex := { vec := [1, 2, 3, 4], nbrs := [0], assoc := [] }

theorem tiny_wf : WellFormed tinyParams [tinyVertex] :=
  ⟨rfl, by
    intro v hv
    simp only [List.mem_singleton] at hv
    subst hv
    exact ⟨rfl, by decide, by decide, rfl⟩, by decide, fun _ => rfl, by simp [Params.accepted, Metadata.getSize, tinyParams]⟩

/-- **C51 fails for block sizes 80..103.**  The writer accepts a block of 80 bytes
(`GraphMetadata::get_size`), but the header it writes is 104 bytes long: it overwrites the first
vertex.  Here the stored vector `[1,2,3,4]` and neighbour list `[0]` come back as `[0,0,0,0]` and
`[]` (bytes of the header). -/
theorem C51_header_overlaps_first_vertex :
    ∃ file, WellFormed tinyParams [tinyVertex] ∧ tinyParams.accepted ∧
      createLayout tinyParams (streamsOf [tinyVertex]) = some file ∧
      ((Provider.new tinyParams.header 4 1).batch file 1 [0] [(0, 0)]).map
        (fun v1 => (v1.getVector 0, v1.getAdj 0)) = some (some [0, 0, 0, 0], some []) :=
  ⟨_, tiny_wf, tiny_wf.block, createLayout_spec tiny_wf, by decide +kernel⟩

/-- **C60** (batches of distinct ids).  For every well-formed index file, after any earlier batches,
loading any batch of distinct vertices and processing any subset of them in any completion order
succeeds; every processed vertex is then served with exactly its own vector, neighbours and associated
data, and a vertex that was not processed in this batch is reported as not loaded. -/
theorem C60_batch_partial (p : Params) (vs : List Vertex) (h : WellFormed p vs)
    (h104 : 104 ≤ p.blockSize) (file : List Byte) (hf : createLayout p (streamsOf vs) = some file)
    (align : Nat) (ha : align ∣ p.blockSize) (maxBatch : Nat)
    (earlier : List (List Nat × List (Nat × Nat)))
    (he : ∀ b ∈ earlier, LegalBatch p.numPts b.1 b.2)
    (ids : List Nat) (order : List (Nat × Nat)) (hl : LegalBatch p.numPts ids order) :
    ∃ v0 v1, (Provider.new p.header p.elemSize maxBatch).batches file align earlier = some v0 ∧
      v0.batch file align ids order = some v1 ∧
      (∀ id idx v, (id, idx) ∈ order → vs[id]? = some v →
        v1.getVector id = some v.vec ∧ v1.getAdj id = some v.nbrs ∧ v1.getAssoc id = some v.assoc) ∧
      (∀ id, (∀ idx, (id, idx) ∉ order) →
        v1.getVector id = none ∧ v1.getAdj id = none ∧ v1.getAssoc id = none) := by
  obtain ⟨v0, h1, h2⟩ := batches_spec h h104 hf ha earlier (PInv.new p.header p.elemSize maxBatch) he
  obtain ⟨v1, h3, h4⟩ := batch_spec h h104 hf ha h2 hl
  have hfp : v1.fpVecLen = p.vecLen := h4.pinv.fp
  refine ⟨v0, v1, h1, h3, ?_, ?_⟩
  · intro id idx v hm hv
    obtain ⟨vi, g1, g2, g3, g4⟩ := h4.got id idx v (by simpa using hm) hv
    refine ⟨?_, ?_, ?_⟩
    · simp only [Provider.getVector, g1, hfp, Option.bind_eq_bind, Option.bind_some]; exact g4
    · simp only [Provider.getAdj, g1, Option.bind_eq_bind, Option.bind_some]; exact g2
    · simp only [Provider.getAssoc, g1, Option.bind_eq_bind, Option.bind_some]; exact g3
  · intro id hid
    have := (h4.keys id).2 (by simpa using hid)
    simp [Provider.getVector, Provider.getAdj, Provider.getAssoc, this]

/-- Two vertices with one neighbour each, block size 104. -/
def pairParams : Params :=
  { dims := 1, elemSize := 4, numPts := 2, maxDegree := 1, medoid := 0, frozenNum := 0,
    hasAssoc := true, assocBytes := 1, blockSize := 104 }

def pairVs : List Vertex :=
  [{ vec := [1, 2, 3, 4], nbrs := [1], assoc := [7] }, { vec := [5, 6, 7, 8], nbrs := [0], assoc := [9] }]

theorem pair_wf : WellFormed pairParams pairVs :=
  ⟨rfl, by
    intro v hv
    simp only [pairVs, List.mem_cons, List.not_mem_nil, or_false] at hv
    rcases hv with rfl | rfl <;> exact ⟨rfl, by decide, by decide, rfl⟩, by decide, by decide,
    by simp [Params.accepted, Metadata.getSize, pairParams]⟩

/-- **C60 fails when a batch repeats an id.**  `process_loaded_node` pushes the neighbour list and the
associated data, but records `loaded_nodes.len()` as their position; a repeated id does not grow the
map, so every later vertex is served with the data of an earlier one.  Loading `[0, 0, 1]` returns
vertex 0's neighbours and associated data for vertex 1. -/
theorem C60_repeated_id_misaligns :
    ∃ file, createLayout pairParams (streamsOf pairVs) = some file ∧
      ((Provider.new pairParams.header 4 4).batch file 1 [0, 0, 1] [(0, 0), (0, 1), (1, 2)]).map
        (fun v1 => (v1.getVector 1, v1.getAdj 1, v1.getAssoc 1)) =
        some (some [5, 6, 7, 8], some [1], some [7]) ∧
      pairVs[1]?.map (fun v => (v.vec, v.nbrs, v.assoc)) = some ([5, 6, 7, 8], [0], [9]) :=
  ⟨_, createLayout_spec pair_wf, by decide +kernel, rfl⟩

/-- The hypotheses of C51/C60 are met by a two-vertex index; the batch is completed out of order. -/
example : WellFormed pairParams pairVs ∧ pairParams.header.InRange ∧ 104 ≤ pairParams.blockSize ∧
    (8 : Nat) ∣ pairParams.blockSize ∧ LegalBatch pairParams.numPts [1, 0] [(0, 1), (1, 0)] :=
  ⟨pair_wf, ⟨⟨by decide, by decide, by decide, by decide, by decide, by decide, by decide, by decide,
    by decide⟩, by decide, by decide, by decide⟩, by decide, by decide,
    ⟨by decide, by decide, by decide, by decide⟩⟩

/-- A node larger than a block: dims 40 of `f32` with block size 104 spans two sectors. -/
example : (fun p : Params => (p.npb, p.numBlocks, (SectorGraph.new p.header).sectorIndex 3))
    { dims := 40, elemSize := 4, numPts := 5, maxDegree := 3, medoid := 0, frozenNum := 0,
      hasAssoc := false, assocBytes := 0, blockSize := 104 } = (0, 10, 7) := by decide +kernel

end Verif.Disk
