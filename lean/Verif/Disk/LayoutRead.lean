import Verif.Disk.LayoutLemmas
/-
Lemmas for C51 / C60: the vertex provider reading back.
-/
namespace Verif.Disk

theorem readSectors_spec {file : List Byte} {align bs len : Nat} (halign : len % align = 0)
    (secs : List Nat) :
    ∀ (slot : Nat) (buf : List Byte), (∀ s ∈ secs, s * bs + len ≤ file.length ∧ s * bs % align = 0) →
      (slot + secs.length) * len ≤ buf.length →
      readSectors file align bs len buf slot secs =
        some (buf.take (slot * len) ++
          ((secs.map (fun s => (file.drop (s * bs)).take len)).flatten ++
            buf.drop ((slot + secs.length) * len))) := by
  induction secs with
  | nil => intro slot buf _ _; simp [readSectors]
  | cons s secs ih =>
    intro slot buf hs hlen
    obtain ⟨h1, h2⟩ := hs s List.mem_cons_self
    simp only [readSectors]
    rw [if_neg (by omega)]
    simp only [readExact]
    rw [if_pos h1]
    simp only [Option.bind_eq_bind, Option.bind_some]
    have hbl : ((file.drop (s * bs)).take len).length = len := by
      simp only [List.length_take, List.length_drop]; omega
    simp only [List.length_cons] at hlen ⊢
    have hlen' : slot * len + len + secs.length * len ≤ buf.length := by
      have : (slot + (secs.length + 1)) * len = slot * len + len + secs.length * len := by
        simp only [Nat.add_mul, Nat.one_mul]; omega
      omega
    have hpre : (buf.take (slot * len)).length = slot * len := by
      simp only [List.length_take]; omega
    have hbuf : buf = buf.take (slot * len) ++ ((buf.drop (slot * len)).take len ++
        buf.drop ((slot + 1) * len)) := by
      rw [Nat.add_mul, Nat.one_mul, ← List.drop_drop, List.take_append_drop, List.take_append_drop]
    have hcopy : copyInto? buf (slot * len) ((slot + 1) * len) ((file.drop (s * bs)).take len) =
        some (buf.take (slot * len) ++ ((file.drop (s * bs)).take len ++ buf.drop ((slot + 1) * len))) := by
      conv => lhs; rw [hbuf]
      exact copyInto_append _ _ _ _ _ _ hpre.symm (by rw [hbl, Nat.add_mul, Nat.one_mul])
        (by rw [hbl]; simp only [List.length_take, List.length_drop]; omega)
    rw [hcopy]
    simp only [Option.bind_some]
    rw [ih (slot + 1) _ (fun t ht => hs t (List.mem_cons_of_mem _ ht)) (by
      simp only [List.length_append, hpre, hbl, List.length_drop, Nat.add_mul, Nat.one_mul]; omega)]
    have ht : (buf.take (slot * len) ++ ((file.drop (s * bs)).take len ++
        buf.drop ((slot + 1) * len))).take ((slot + 1) * len) =
        buf.take (slot * len) ++ (file.drop (s * bs)).take len := by
      rw [← List.append_assoc, List.take_append_of_le_length (by
        simp only [List.length_append, hpre, hbl, Nat.add_mul, Nat.one_mul]; omega)]
      exact List.take_of_length_le (by
        simp only [List.length_append, hpre, hbl, Nat.add_mul, Nat.one_mul]; omega)
    have hd : (buf.take (slot * len) ++ ((file.drop (s * bs)).take len ++
        buf.drop ((slot + 1) * len))).drop ((slot + 1 + secs.length) * len) =
        buf.drop ((slot + (secs.length + 1)) * len) := by
      have he : (buf.take (slot * len) ++ (file.drop (s * bs)).take len).length = (slot + 1) * len := by
        simp only [List.length_append, hpre, hbl, Nat.add_mul, Nat.one_mul]
      rw [← List.append_assoc, List.drop_append, he, List.drop_of_length_le (by
        rw [he]; exact Nat.mul_le_mul_right _ (by omega)), List.nil_append, List.drop_drop]
      congr 1
      rw [show slot + 1 + secs.length = (slot + 1) + secs.length from rfl, Nat.add_mul (slot + 1),
        Nat.add_sub_cancel_left, ← Nat.add_mul]
      congr 1; omega
    rw [ht, hd]
    simp only [List.map_cons, List.flatten_cons, List.append_assoc]

/-- The static part of a provider opened on a header, and the sizes of its buffers. -/
structure PInv (h : Header) (elemSize : Nat) (v : Provider) : Prop where
  fp : v.fpVecLen = h.md.dims * elemSize
  as : v.assocSize = h.md.assocLen
  nl : v.nodeLen = h.md.nodeLen
  g : v.graph = SectorGraph.new h
  sec : v.sectors.length = v.maxBatch * v.graph.lenPerNode
  vb : v.vecBuf.length = v.maxBatch * v.fpVecLen

theorem PInv.new (h : Header) (elemSize maxBatch : Nat) : PInv h elemSize (Provider.new h elemSize maxBatch) :=
  ⟨rfl, rfl, rfl, rfl, by simp [Provider.new, SectorGraph.lenPerNode, Nat.mul_assoc], by
    simp [Provider.new]⟩

theorem PInv.clear {h : Header} {e : Nat} {v : Provider} (hv : PInv h e v) : PInv h e v.clear :=
  ⟨hv.fp, hv.as, hv.nl, hv.g, hv.sec, hv.vb⟩

theorem PInv.reconfigure {h : Header} {e : Nat} {v : Provider} (hv : PInv h e v) (n : Nat) :
    PInv h e (v.reconfigure n) := by
  unfold Provider.reconfigure
  split
  · exact ⟨hv.fp, hv.as, hv.nl, hv.g, by simp [Provider.clear, SectorGraph.lenPerNode, Nat.mul_assoc],
      by simp [Provider.clear]⟩
  · exact hv

theorem leU32s_flatten (l : List Nat) (h : ∀ n ∈ l, n < 2 ^ 32) :
    leU32s l.length (l.map (leEncode 4)).flatten = l := by
  induction l with
  | nil => rfl
  | cons a l ih =>
    simp only [List.length_cons, List.map_cons, List.flatten_cons, leU32s]
    rw [List.take_append_of_le_length (by simp [leEncode_length]),
      List.take_of_length_le (by simp [leEncode_length]),
      List.drop_append_of_le_length (by simp [leEncode_length]),
      List.drop_of_length_le (by simp [leEncode_length]), List.nil_append,
      ih (fun n hn => h n (List.mem_cons_of_mem _ hn)), leDecode_leEncode 4]
    have := h a List.mem_cons_self
    have e : (256 : Nat) ^ 4 = 2 ^ 32 := by decide
    omega

theorem load_spec {p : Params} {vs : List Vertex} (h : WellFormed p vs) (h104 : 104 ≤ p.blockSize)
    {file : List Byte} (hf : createLayout p (streamsOf vs) = some file) {align : Nat}
    (ha : align ∣ p.blockSize) {v : Provider} (hv : PInv p.header p.elemSize v) {ids : List Nat}
    (hids : ∀ i ∈ ids, i < p.numPts) :
    ∃ v', v.load file align ids = some v' ∧ PInv p.header p.elemSize v' ∧
      v'.loaded = [] ∧ v'.adj = [] ∧ v'.assoc = [] ∧ ids.length ≤ v'.maxBatch ∧
      ∀ (idx id : Nat) (w : Vertex), ids[idx]? = some id → vs[id]? = some w →
        v'.nodeBuf idx id = some (nodeImage p w) := by
  have hbs := graph_blockSize h
  obtain ⟨v1, hv1⟩ : ∃ v1, v1 = v.clear.reconfigure ids.length := ⟨_, rfl⟩
  have hi1 : PInv p.header p.elemSize v1 := by rw [hv1]; exact hv.clear.reconfigure _
  have hmb : ids.length ≤ v1.maxBatch := by
    rw [hv1, Provider.reconfigure]; split
    · simp
    · omega
  have hcur : v1.curSector = 0 := by
    rw [hv1, Provider.reconfigure]; split <;> rfl
  have hl0 : v1.loaded = [] ∧ v1.adj = [] ∧ v1.assoc = [] := by
    rw [hv1, Provider.reconfigure]; split <;> exact ⟨rfl, rfl, rfl⟩
  have hrec : ∀ (id : Nat), id < p.numPts → ∃ w, vs[id]? = some w := by
    intro id hid
    rw [← h.num] at hid
    exact ⟨vs[id], List.getElem?_eq_getElem hid⟩
  have hpos : 0 < (SectorGraph.new p.header).lenPerNode := by
    rw [SectorGraph.lenPerNode, hbs]
    have hb : 0 < p.blockSize := by omega
    have hn : 0 < p.nodeLen := by
      unfold Params.nodeLen; omega
    refine Nat.mul_pos ?_ hb
    simp only [SectorGraph.new] at hbs ⊢
    split
    · omega
    · rw [hbs]
      have := le_divCeil_mul p.nodeLen p.blockSize hb
      rcases Nat.eq_zero_or_pos (divCeil p.nodeLen p.blockSize) with h0 | h0
      · rw [h0] at this; omega
      · exact h0
  obtain ⟨len, hlen⟩ : ∃ len, len = (SectorGraph.new p.header).lenPerNode := ⟨_, rfl⟩
  have halen : len % align = 0 := by
    rw [hlen, SectorGraph.lenPerNode, hbs]
    exact Nat.mod_eq_zero_of_dvd (Nat.dvd_trans ha (Nat.dvd_mul_left _ _))
  have hsecs : ∀ s ∈ ids.map v1.graph.sectorIndex,
      s * p.blockSize + len ≤ file.length ∧ s * p.blockSize % align = 0 := by
    intro s hs
    obtain ⟨id, hid, rfl⟩ := List.mem_map.1 hs
    obtain ⟨w, hw⟩ := hrec id (hids id hid)
    obtain ⟨blk, _, hre, _⟩ := file_record h h104 hf hw
    rw [hi1.g]
    refine ⟨?_, Nat.mod_eq_zero_of_dvd (Nat.dvd_trans ha (Nat.dvd_mul_left _ _))⟩
    unfold readExact at hre
    split at hre
    · rwa [hlen]
    · simp at hre
  have hsl : (0 + (ids.map v1.graph.sectorIndex).length) * len ≤ v1.sectors.length := by
    rw [hi1.sec, hi1.g, ← hlen, Nat.zero_add, List.length_map]
    exact Nat.mul_le_mul_right _ hmb
  have hrs := readSectors_spec halen (ids.map v1.graph.sectorIndex) 0 v1.sectors hsecs hsl
  unfold Provider.load
  rw [← hv1]
  simp only [hcur, sub?, Option.bind_eq_bind]
  rw [if_pos (Nat.zero_le _)]
  simp only [Option.bind_some, Nat.sub_zero]
  rw [if_neg (by rw [List.length_map]; omega), if_neg (by rw [hi1.g]; omega)]
  rw [hi1.g] at hrs ⊢
  rw [hbs, ← hlen, hrs]
  simp only [Option.bind_some]
  have hbufLen : ((v1.sectors.take (0 * len)) ++ (((ids.map (SectorGraph.new p.header).sectorIndex).map
      (fun s => (file.drop (s * p.blockSize)).take len)).flatten ++
      v1.sectors.drop ((0 + (ids.map (SectorGraph.new p.header).sectorIndex).length) * len))).length =
      v1.sectors.length := by
    rw [hi1.g] at hsecs hsl
    have hL : ∀ x ∈ (ids.map (SectorGraph.new p.header).sectorIndex).map
        (fun s => (file.drop (s * p.blockSize)).take len), x.length = len := by
      intro x hx
      obtain ⟨s, hs, rfl⟩ := List.mem_map.1 hx
      have := (hsecs s hs).1
      simp only [List.length_take, List.length_drop]; omega
    simp only [List.length_append, List.length_take, List.length_drop, flatten_length_const _ hL,
      List.length_map, Nat.zero_add, Nat.zero_mul] at hsl ⊢
    omega
  refine ⟨_, rfl, ⟨hi1.fp, hi1.as, hi1.nl, rfl, ?_, hi1.vb⟩, hl0.1, hl0.2.1, hl0.2.2, hmb, ?_⟩
  · simp only [hbufLen]; rw [hi1.sec, hi1.g]
  · intro idx id w hidx hw
    obtain ⟨blk, hb1, hre, hsl2⟩ := file_record h h104 hf hw
    have hblk : (file.drop ((SectorGraph.new p.header).sectorIndex id * p.blockSize)).take len = blk := by
      unfold readExact at hre
      split at hre
      · simp only [Option.some.injEq, Prod.mk.injEq] at hre
        rw [hlen]; exact hre.1
      · simp at hre
    unfold Provider.nodeBuf
    simp only [hi1.g, ← hlen]
    have hidxlt : idx < ids.length := by
      rcases Nat.lt_or_ge idx ids.length with h | h
      · exact h
      · rw [List.getElem?_eq_none h] at hidx; simp at hidx
    have hL : ∀ x ∈ (ids.map (SectorGraph.new p.header).sectorIndex).map
        (fun s => (file.drop (s * p.blockSize)).take len), x.length = len := by
      intro x hx
      obtain ⟨s, hs, rfl⟩ := List.mem_map.1 hx
      rw [← hi1.g] at hs
      have := (hsecs s hs).1
      simp only [List.length_take, List.length_drop]; omega
    have hchunk := flatten_chunk ((ids.map (SectorGraph.new p.header).sectorIndex).map
        (fun s => (file.drop (s * p.blockSize)).take len)) hL idx blk (by
          rw [List.getElem?_map, List.getElem?_map, hidx]; simp [hblk])
        (v1.sectors.drop ((0 + (ids.map (SectorGraph.new p.header).sectorIndex).length) * len))
    have hbuf1 : slice? ((v1.sectors.take (0 * len)) ++
        (((ids.map (SectorGraph.new p.header).sectorIndex).map
        (fun s => (file.drop (s * p.blockSize)).take len)).flatten ++
        v1.sectors.drop ((0 + (ids.map (SectorGraph.new p.header).sectorIndex).length) * len)))
        (idx * len) ((idx + 1) * len) = some blk := by
      unfold slice?
      have hle : (idx + 1) * len ≤ v1.sectors.length := by
        rw [hi1.sec, hi1.g, ← hlen]
        exact Nat.mul_le_mul_right _ (by omega)
      rw [if_pos ⟨Nat.mul_le_mul_right _ (by omega), by rw [hbufLen]; exact hle⟩]
      rw [Nat.zero_mul, List.take_zero, List.nil_append,
        show (idx + 1) * len - idx * len = len by rw [Nat.add_mul, Nat.one_mul]; omega, hchunk]
    rw [hbuf1]
    simp only [Option.bind_eq_bind, Option.bind_some]
    exact hsl2

theorem process_spec {p : Params} {w : Vertex} (hw : w.Fits p) (hu : p.maxDegree < 2 ^ 32) {v : Provider}
    (hv : PInv p.header p.elemSize v) {idx id : Nat} (hidx : idx < v.maxBatch)
    (hnode : v.nodeBuf idx id = some (nodeImage p w)) :
    v.process id idx = some { v with
      vecBuf := v.vecBuf.take (idx * p.vecLen) ++ (w.vec ++ v.vecBuf.drop ((idx + 1) * p.vecLen)),
      adj := v.adj ++ [w.nbrs], assoc := v.assoc ++ [w.assoc],
      loaded := (id, (v.loaded.length, idx)) :: v.loaded.filter (·.1 ≠ id) } := by
  obtain ⟨hvec, hdeg, hids, has⟩ := hw
  have hfp : v.fpVecLen = p.vecLen := hv.fp
  have hnl : v.nodeLen = p.nodeLen := hv.nl
  have hasz : v.assocSize = p.assocBytes := hv.as
  have hNL : p.nodeLen = (p.maxDegree + 1) * 4 + p.vecLen + p.assocBytes := rfl
  have hn : leDecode (leEncode 4 w.nbrs.length) = w.nbrs.length := leDecode_leEncode 4 _ (by
    have : (256 : Nat) ^ 4 = 2 ^ 32 := by decide
    omega)
  unfold Provider.process
  rw [hnode]
  simp only [Option.bind_eq_bind, Option.bind_some, hfp, hnl, hasz]
  have himg : nodeImage p w = w.vec ++ (leEncode 4 w.nbrs.length ++ ((w.nbrs.map (leEncode 4)).flatten ++
      (zeros ((p.maxDegree - w.nbrs.length) * 4) ++ w.assoc))) := by
    simp only [nodeImage, List.append_assoc]
  obtain ⟨tl, htl⟩ : ∃ tl, tl = leEncode 4 w.nbrs.length ++ ((w.nbrs.map (leEncode 4)).flatten ++
      (zeros ((p.maxDegree - w.nbrs.length) * 4) ++ w.assoc)) := ⟨_, rfl⟩
  rw [← htl] at himg
  have htll : tl.length = (p.maxDegree + 1) * 4 + p.assocBytes := by
    rw [htl]
    simp only [List.length_append, leEncode_length, flatten_enc_length, zeros, List.length_replicate, has]
    omega
  have s1 : slice? (nodeImage p w) 0 p.vecLen = some w.vec := by
    have := slice_append [] w.vec tl 0 p.vecLen rfl (by omega)
    rwa [List.nil_append, ← himg] at this
  have s2 : slice? (nodeImage p w) p.vecLen (nodeImage p w).length = some tl := by
    have := slice_append w.vec tl [] p.vecLen (nodeImage p w).length hvec.symm (by
      rw [himg, List.length_append]; omega)
    rwa [List.append_nil, ← himg] at this
  have s3 : slice? tl 0 4 = some (leEncode 4 w.nbrs.length) := by
    have := slice_append [] (leEncode 4 w.nbrs.length) ((w.nbrs.map (leEncode 4)).flatten ++
      (zeros ((p.maxDegree - w.nbrs.length) * 4) ++ w.assoc)) 0 4 rfl (by rw [leEncode_length])
    rwa [List.nil_append, ← htl] at this
  have s4 : slice? tl 4 (4 + w.nbrs.length * 4) = some (w.nbrs.map (leEncode 4)).flatten := by
    have := slice_append (leEncode 4 w.nbrs.length) ((w.nbrs.map (leEncode 4)).flatten)
      (zeros ((p.maxDegree - w.nbrs.length) * 4) ++ w.assoc) 4 (4 + w.nbrs.length * 4)
      (leEncode_length 4 _).symm (by rw [flatten_enc_length])
    rwa [← htl] at this
  have s5 : slice? tl (p.nodeLen - p.vecLen - p.assocBytes) (p.nodeLen - p.vecLen) = some w.assoc := by
    have := slice_append (leEncode 4 w.nbrs.length ++ ((w.nbrs.map (leEncode 4)).flatten ++
      zeros ((p.maxDegree - w.nbrs.length) * 4))) w.assoc []
      (p.nodeLen - p.vecLen - p.assocBytes) (p.nodeLen - p.vecLen) (by
        simp only [List.length_append, leEncode_length, flatten_enc_length, zeros, List.length_replicate]
        omega) (by omega)
    simp only [List.append_nil, List.append_assoc] at this
    rwa [← htl] at this
  have hvb : v.vecBuf.length = v.maxBatch * p.vecLen := by rw [hv.vb, hfp]
  have hle : idx * p.vecLen + p.vecLen ≤ v.vecBuf.length := by
    rw [hvb]
    calc idx * p.vecLen + p.vecLen = (idx + 1) * p.vecLen := by rw [Nat.add_mul, Nat.one_mul]
      _ ≤ _ := Nat.mul_le_mul_right _ hidx
  have s6 : copyInto? v.vecBuf (idx * p.vecLen) (idx * p.vecLen + p.vecLen) w.vec =
      some (v.vecBuf.take (idx * p.vecLen) ++ (w.vec ++ v.vecBuf.drop ((idx + 1) * p.vecLen))) := by
    unfold copyInto?
    rw [if_pos (by omega), List.append_assoc, Nat.add_mul, Nat.one_mul]
  rw [s1]
  simp only [Option.bind_some]
  rw [s6]
  simp only [Option.bind_some]
  rw [s2]
  simp only [Option.bind_some]
  rw [s3]
  simp only [Option.bind_some, hn]
  rw [s4]
  simp only [Option.bind_some, sub?]
  rw [if_pos (by omega)]
  simp only [Option.bind_some]
  rw [if_pos (by omega)]
  simp only [Option.bind_some]
  rw [s5]
  simp only [Option.bind_some, leU32s_flatten _ hids]

end Verif.Disk
