import Verif.Disk.LayoutSpec
import Verif.Disk.CachedProps
import Verif.Disk.HeaderProps
import Mathlib.Tactic.Common
import Mathlib.Data.List.Nodup
/-
Lemmas for C51 / C60: the bytes of one node record, of a block, of the whole file.
-/
namespace Verif.Disk

abbrev zeros (n : Nat) : List Byte := List.replicate n 0

theorem zeros_add (a b : Nat) : zeros (a + b) = zeros a ++ zeros b := by
  simp [zeros, List.replicate_append_replicate]

/-- The on-disk record of a vertex. -/
def nodeImage (p : Params) (v : Vertex) : List Byte :=
  v.vec ++ leEncode 4 v.nbrs.length ++ (v.nbrs.map (leEncode 4)).flatten ++
    zeros ((p.maxDegree - v.nbrs.length) * 4) ++ v.assoc

theorem flatten_enc_length (l : List Nat) : ((l.map (leEncode 4)).flatten).length = l.length * 4 := by
  induction l with
  | nil => rfl
  | cons a l ih => simp only [List.map_cons, List.flatten_cons, List.length_append, ih, leEncode_length,
      List.length_cons]; omega

theorem nodeImage_length {p : Params} {v : Vertex} (h : v.Fits p) :
    (nodeImage p v).length = p.nodeLen := by
  have := h.vec; have := h.assoc; have := h.deg
  simp only [nodeImage, List.length_append, leEncode_length, flatten_enc_length, zeros,
    List.length_replicate, Params.nodeLen]
  omega

theorem copyInto_append (pre mid post src : List Byte) (a b : Nat) (ha : a = pre.length)
    (hb : b = a + src.length) (hm : mid.length = src.length) :
    copyInto? (pre ++ (mid ++ post)) a b src = some (pre ++ (src ++ post)) := by
  unfold copyInto?
  rw [if_pos (by simp only [List.length_append]; omega)]
  subst ha
  rw [List.take_append_of_le_length (by omega), List.take_of_length_le (by omega), hb,
    List.drop_append, List.drop_of_length_le (by omega), List.nil_append,
    show pre.length + src.length - pre.length = mid.length by omega,
    List.drop_append_of_le_length (by omega), List.drop_of_length_le (by omega), List.nil_append,
    List.append_assoc]

theorem slice_append (pre mid post : List Byte) (a b : Nat) (ha : a = pre.length)
    (hb : b = a + mid.length) : slice? (pre ++ (mid ++ post)) a b = some mid := by
  unfold slice?
  rw [if_pos (by simp only [List.length_append]; omega)]
  subst ha
  rw [List.drop_append_of_le_length (by omega), List.drop_of_length_le (by omega), List.nil_append, hb,
    List.take_append_of_le_length (by omega), List.take_of_length_le (by omega)]

theorem takeN_append (n : Nat) (a b : List Byte) (h : n = a.length) : takeN n (a ++ b) = some (a, b) := by
  unfold takeN
  subst h
  rw [if_pos (by simp)]
  simp

theorem readNeighbors_spec {p : Params} {more : List Byte} {v : Vertex} {vs : List Vertex} {bufLen : Nat}
    (hv : v.Fits p) (hlen : p.nodeLen ≤ bufLen) (hu : p.maxDegree < 2 ^ 32)
    (hassoc : p.hasAssoc = false → p.assocBytes = 0) :
    readNeighbors p bufLen (streamsOf (v :: vs) more) =
      some (nodeImage p v ++ zeros (bufLen - p.nodeLen), streamsOf vs more) := by
  obtain ⟨hvec, hdeg, hids, has⟩ := hv
  have hn : leDecode (leEncode 4 v.nbrs.length) = v.nbrs.length := leDecode_leEncode 4 _ (by
    have : (256 : Nat) ^ 4 = 2 ^ 32 := by decide
    omega)
  have hNL : p.nodeLen = (p.maxDegree + 1) * 4 + p.vecLen + p.assocBytes := rfl
  obtain ⟨rest, hrest⟩ : ∃ rest, rest = bufLen - p.nodeLen := ⟨_, rfl⟩
  obtain ⟨fill, hfill⟩ : ∃ fill, fill = (p.maxDegree - v.nbrs.length) * 4 := ⟨_, rfl⟩
  obtain ⟨nb, hnb⟩ : ∃ nb, nb = v.nbrs.length * 4 := ⟨_, rfl⟩
  obtain ⟨enc, henc⟩ : ∃ enc, enc = (v.nbrs.map (leEncode 4)).flatten := ⟨_, rfl⟩
  have henc_len : enc.length = nb := by rw [henc, flatten_enc_length, hnb]
  have hbuf : zeros bufLen = [] ++ (zeros p.vecLen ++ (zeros 4 ++ (zeros nb ++ (zeros fill ++
      (zeros p.assocBytes ++ zeros rest))))) := by
    rw [List.nil_append, ← zeros_add, ← zeros_add, ← zeros_add, ← zeros_add, ← zeros_add]
    congr 1; omega
  unfold readNeighbors
  simp only [streamsOf, List.map_cons, List.flatten_cons]
  rw [takeN_append _ _ _ hvec.symm]
  simp only [Option.bind_eq_bind, Option.bind_some]
  rw [show List.replicate bufLen (0 : Byte) = zeros bufLen from rfl, hbuf,
    copyInto_append [] (zeros p.vecLen) _ v.vec 0 _ rfl (by simp) (by simp [hvec])]
  simp only [Option.bind_some, List.append_assoc]
  rw [takeN_append 4 _ _ (leEncode_length 4 _).symm]
  simp only [Option.bind_some, hn, List.nil_append]
  rw [copyInto_append v.vec (zeros 4) _ (leEncode 4 v.nbrs.length) _ _ hvec.symm
    (by rw [leEncode_length]) (by simp [leEncode_length])]
  simp only [Option.bind_some]
  rw [← henc, ← hnb, takeN_append nb enc _ henc_len.symm]
  simp only [Option.bind_some]
  rw [← List.append_assoc v.vec, copyInto_append (v.vec ++ leEncode 4 v.nbrs.length) (zeros nb) _ enc
    _ _ (by simp [leEncode_length, hvec]) (by rw [henc_len]) (by simp [henc_len])]
  simp only [Option.bind_some]
  have himg : nodeImage p v = v.vec ++ leEncode 4 v.nbrs.length ++ enc ++ zeros fill ++ v.assoc := by
    rw [nodeImage, ← hfill, ← henc]
  cases hA : p.hasAssoc with
  | true =>
    simp only [if_true, sub?]
    rw [if_pos (show p.assocBytes ≤ p.nodeLen by omega)]
    simp only [Option.bind_some]
    rw [takeN_append p.assocBytes _ _ has.symm]
    simp only [Option.bind_some]
    rw [← List.append_assoc _ enc, ← List.append_assoc _ (zeros fill),
      copyInto_append _ (zeros p.assocBytes) _ v.assoc (p.nodeLen - p.assocBytes) p.nodeLen
        (by simp only [List.length_append, hvec, leEncode_length, henc_len, zeros,
              List.length_replicate]; omega)
        (by omega) (by simp [has])]
    simp only [Option.bind_some, himg, ← hrest, List.append_assoc]
  | false =>
    simp only [Bool.false_eq_true, if_false]
    have h0 : p.assocBytes = 0 := hassoc hA
    have hnil : v.assoc = [] := List.eq_nil_of_length_eq_zero (by omega)
    rw [himg, hnil, ← hrest]
    simp [h0, zeros]

/-- A block holding a chunk of nodes, padded with zeros. -/
def blockImage (p : Params) (chunk : List Vertex) : List Byte :=
  (chunk.map (nodeImage p)).flatten ++ zeros (p.blockSize - chunk.length * p.nodeLen)

theorem images_length {p : Params} {vs : List Vertex} (h : ∀ v ∈ vs, v.Fits p) :
    ((vs.map (nodeImage p)).flatten).length = vs.length * p.nodeLen := by
  induction vs with
  | nil => simp
  | cons v vs ih =>
    simp only [List.map_cons, List.flatten_cons, List.length_append, List.length_cons,
      nodeImage_length (h v List.mem_cons_self), ih (fun w hw => h w (List.mem_cons_of_mem _ hw))]
    rw [Nat.add_mul]; omega

theorem fillBlock_spec {p : Params} {more : List Byte} (hu : p.maxDegree < 2 ^ 32)
    (hassoc : p.hasAssoc = false → p.assocBytes = 0) (m : Nat) :
    ∀ (vs : List Vertex) (cur k R : Nat) (pre : List Byte), (∀ v ∈ vs, v.Fits p) →
      cur + vs.length = p.numPts → pre.length = k * p.nodeLen → m * p.nodeLen ≤ R →
      fillBlock p (streamsOf vs more) cur (pre ++ zeros R) k m =
        some (streamsOf (vs.drop m) more, cur + min m vs.length,
          pre ++ (((vs.take m).map (nodeImage p)).flatten ++
            zeros (R - min m vs.length * p.nodeLen))) := by
  induction m with
  | zero => intro vs cur k R pre _ _ _ _; simp [fillBlock]
  | succ m ih =>
    intro vs cur k R pre hfit hcur hpre hR
    cases vs with
    | nil =>
      simp only [List.length_nil, Nat.add_zero] at hcur
      simp [fillBlock, hcur]
    | cons v vs =>
      simp only [List.length_cons] at hcur
      simp only [fillBlock]
      rw [if_neg (by omega), readNeighbors_spec (hfit v List.mem_cons_self) (Nat.le_refl _) hu hassoc]
      simp only [Option.bind_eq_bind, Option.bind_some, Nat.sub_self]
      have hl := nodeImage_length (hfit v List.mem_cons_self)
      rw [show nodeImage p v ++ zeros 0 = [] ++ (nodeImage p v ++ []) by simp [zeros],
        slice_append [] (nodeImage p v) [] 0 p.nodeLen rfl (by omega)]
      simp only [Option.bind_some]
      rw [Nat.add_mul] at hR
      obtain ⟨R', rfl⟩ : ∃ R', R = p.nodeLen + R' := ⟨R - p.nodeLen, by omega⟩
      rw [zeros_add, copyInto_append pre (zeros p.nodeLen) (zeros R') (nodeImage p v) _ _ hpre.symm
        (by omega) (by simp [hl])]
      simp only [Option.bind_some]
      rw [← List.append_assoc, ih vs (cur + 1) (k + 1) R' (pre ++ nodeImage p v)
        (fun w hw => hfit w (List.mem_cons_of_mem _ hw)) (by omega)
        (by simp only [List.length_append, hpre, hl, Nat.add_mul]; omega) (by omega)]
      have hmin : min (m + 1) (vs.length + 1) = min m vs.length + 1 := by omega
      simp only [List.drop_succ_cons, List.length_cons, hmin, List.take_succ_cons, List.map_cons,
        List.flatten_cons, List.append_assoc]
      rw [show p.nodeLen + R' - (min m vs.length + 1) * p.nodeLen = R' - min m vs.length * p.nodeLen by
        rw [Nat.add_mul]; omega]
      congr 3; omega

/-- The blocks of the multi-node layout. -/
def blocksOf (p : Params) : List Vertex → Nat → List (List Byte)
  | _, 0 => []
  | vs, n + 1 => blockImage p (vs.take p.npb) :: blocksOf p (vs.drop p.npb) n

theorem npb_mul_le (p : Params) : p.npb * p.nodeLen ≤ p.blockSize := Nat.div_mul_le_self _ _

theorem WInv.append {w : Writer} {f bs : List Byte} (h : WInv w f f.length) :
    ∃ w', w.write bs = some w' ∧ WInv w' (f ++ bs) (f ++ bs).length := by
  obtain ⟨w', h1, h2, _⟩ := h.write bs
  refine ⟨w', h1, ?_⟩
  rw [List.take_length, List.drop_of_length_le (by omega), List.append_nil] at h2
  simpa using h2

theorem writeSectors_spec {p : Params} {more : List Byte} (hu : p.maxDegree < 2 ^ 32)
    (hassoc : p.hasAssoc = false → p.assocBytes = 0) (n : Nat) :
    ∀ (vs : List Vertex) (cur : Nat) (w : Writer) (f : List Byte), (∀ v ∈ vs, v.Fits p) →
      cur + vs.length = p.numPts → WInv w f f.length →
      ∃ w', writeSectors p (streamsOf vs more) cur w n = some w' ∧
        WInv w' (f ++ (blocksOf p vs n).flatten) (f ++ (blocksOf p vs n).flatten).length := by
  induction n with
  | zero => intro vs cur w f _ _ hw; exact ⟨w, rfl, by simpa [blocksOf] using hw⟩
  | succ n ih =>
    intro vs cur w f hfit hcur hw
    have hfb := fillBlock_spec (more := more) hu hassoc p.npb vs cur 0 p.blockSize [] hfit hcur (by simp)
      (npb_mul_le p)
    simp only [List.nil_append] at hfb
    simp only [writeSectors]
    rw [show List.replicate p.blockSize (0 : Byte) = zeros p.blockSize from rfl, hfb]
    simp only [Option.bind_eq_bind, Option.bind_some]
    obtain ⟨w1, h1, h2⟩ := hw.append (bs := blockImage p (vs.take p.npb))
    rw [show ((vs.take p.npb).map (nodeImage p)).flatten ++
        zeros (p.blockSize - min p.npb vs.length * p.nodeLen) = blockImage p (vs.take p.npb) by
      simp [blockImage], h1]
    simp only [Option.bind_some]
    obtain ⟨w2, h3, h4⟩ := ih (vs.drop p.npb) (cur + min p.npb vs.length) w1 _
      (fun v hv => hfit v (List.mem_of_mem_drop hv)) (by simp only [List.length_drop]; omega) h2
    exact ⟨w2, h3, by simpa [blocksOf] using h4⟩

/-- The images of the multi-sector layout. -/
def padded (p : Params) (v : Vertex) : List Byte :=
  nodeImage p v ++ zeros (divCeil p.nodeLen p.blockSize * p.blockSize - p.nodeLen)

theorem le_divCeil_mul (a b : Nat) (hb : 0 < b) : a ≤ divCeil a b * b := by
  unfold divCeil
  have := Nat.div_add_mod (a + b - 1) b
  have := Nat.mod_lt (a + b - 1) hb
  rw [Nat.mul_comm]
  omega

theorem divCeil_mul_lt (a b : Nat) (hb : 0 < b) : divCeil a b * b < a + b := by
  unfold divCeil
  have := Nat.div_add_mod (a + b - 1) b
  rw [Nat.mul_comm]
  omega

theorem writeNodes_spec {p : Params} {more : List Byte} (hu : p.maxDegree < 2 ^ 32)
    (hassoc : p.hasAssoc = false → p.assocBytes = 0) (hbs : 0 < p.blockSize) (vs : List Vertex) :
    ∀ (w : Writer) (f : List Byte), (∀ v ∈ vs, v.Fits p) → WInv w f f.length →
      ∃ w', writeNodes p (streamsOf vs more) w vs.length = some w' ∧
        WInv w' (f ++ (vs.map (padded p)).flatten) (f ++ (vs.map (padded p)).flatten).length := by
  induction vs with
  | nil => intro w f _ hw; exact ⟨w, rfl, by simpa using hw⟩
  | cons v vs ih =>
    intro w f hfit hw
    simp only [List.length_cons, writeNodes]
    rw [readNeighbors_spec (hfit v List.mem_cons_self) (le_divCeil_mul _ _ hbs) hu hassoc]
    simp only [Option.bind_eq_bind, Option.bind_some]
    obtain ⟨w1, h1, h2⟩ := hw.append (bs := padded p v)
    rw [show nodeImage p v ++ zeros (divCeil p.nodeLen p.blockSize * p.blockSize - p.nodeLen) =
      padded p v from rfl, h1]
    simp only [Option.bind_some]
    obtain ⟨w2, h3, h4⟩ := ih w1 _ (fun v hv => hfit v (List.mem_cons_of_mem _ hv)) h2
    exact ⟨w2, h3, by simpa using h4⟩

/-- The body of the file: everything after the header block. -/
def bodyOf (p : Params) (vs : List Vertex) : List Byte :=
  if p.npb > 0 then (blocksOf p vs p.numBlocks).flatten else (vs.map (padded p)).flatten

/-- The header as put at the start of the file. -/
def headerImage (p : Params) : List Byte :=
  leEncode 4 p.header.toBytes.length ++ leEncode 4 1 ++ p.header.toBytes

theorem headerImage_length (p : Params) : (headerImage p).length = 104 := by
  simp [headerImage, leEncode_length, Header.toBytes_length]

theorem createLayout_spec {p : Params} {vs : List Vertex} {more : List Byte} (h : WellFormed p vs) :
    createLayout p (streamsOf vs more) =
      some (writeAt (zeros p.blockSize ++ bodyOf p vs) 0 (headerImage p)) := by
  have hbs : 0 < p.blockSize := by
    have := h.block; simp only [Params.accepted, Metadata.getSize] at this; omega
  obtain ⟨w0, hw0⟩ : ∃ w, Writer.new readWriteBlockSize = some w :=
    (C50_new _).2 (by unfold readWriteBlockSize; omega)
  obtain ⟨w1, h1, h2⟩ := (WInv.new hw0).append (bs := zeros p.blockSize)
  simp only [List.nil_append] at h2
  unfold createLayout
  rw [hw0]
  simp only [Option.bind_eq_bind, Option.bind_some]
  rw [show List.replicate p.blockSize (0 : Byte) = zeros p.blockSize from rfl, h1]
  simp only [Option.bind_some]
  have : ∃ w2, (if p.npb > 0 then writeSectors p (streamsOf vs more) 0 w1 p.numBlocks
      else writeNodes p (streamsOf vs more) w1 p.numPts) = some w2 ∧
      WInv w2 (zeros p.blockSize ++ bodyOf p vs) (zeros p.blockSize ++ bodyOf p vs).length := by
    unfold bodyOf
    by_cases hn : p.npb > 0
    · simp only [if_pos hn]
      exact writeSectors_spec h.degU32 h.assoc p.numBlocks vs 0 w1 _ h.fits (by simp [h.num]) h2
    · simp only [if_neg hn]
      rw [← h.num]
      exact writeNodes_spec h.degU32 h.assoc hbs vs w1 _ h.fits h2
  obtain ⟨w2, h3, h4⟩ := this
  obtain ⟨w3, h5, h6, h7, _⟩ := h4.flush
  by_cases hn : p.npb > 0
  · rw [if_pos hn] at h3 ⊢
    rw [h3]
    simp only [Option.bind_some, h5, h7]
    rfl
  · rw [if_neg hn] at h3 ⊢
    rw [h3]
    simp only [Option.bind_some, h5, h7]
    rfl

/-! ### Addressing -/

theorem flatten_chunk {n : Nat} (L : List (List Byte)) (hL : ∀ x ∈ L, x.length = n) (j : Nat)
    (x : List Byte) (hj : L[j]? = some x) (rest : List Byte) :
    ((L.flatten ++ rest).drop (j * n)).take n = x := by
  induction L generalizing j with
  | nil => simp at hj
  | cons y L ih =>
    have hy : y.length = n := hL y List.mem_cons_self
    cases j with
    | zero =>
      simp only [List.getElem?_cons_zero, Option.some.injEq] at hj
      subst hj
      simp only [Nat.zero_mul, List.drop_zero, List.flatten_cons, List.append_assoc]
      rw [List.take_append_of_le_length (by omega), List.take_of_length_le (by omega)]
    | succ j =>
      simp only [List.getElem?_cons_succ] at hj
      rw [Nat.add_mul, Nat.one_mul, Nat.add_comm, ← List.drop_drop, List.flatten_cons,
        List.append_assoc, List.drop_append_of_le_length (by omega),
        show y.drop n = [] from List.drop_of_length_le (by omega), List.nil_append]
      exact ih (fun x hx => hL x (List.mem_cons_of_mem _ hx)) j hj

theorem flatten_length_const {n : Nat} (L : List (List Byte)) (hL : ∀ x ∈ L, x.length = n) :
    L.flatten.length = L.length * n := by
  induction L with
  | nil => simp
  | cons y L ih =>
    simp only [List.flatten_cons, List.length_append, hL y List.mem_cons_self,
      ih (fun x hx => hL x (List.mem_cons_of_mem _ hx)), List.length_cons, Nat.add_mul]
    omega

theorem blockImage_length {p : Params} {chunk : List Vertex} (h : ∀ v ∈ chunk, v.Fits p)
    (hc : chunk.length ≤ p.npb) : (blockImage p chunk).length = p.blockSize := by
  have h1 : chunk.length * p.nodeLen ≤ p.blockSize :=
    Nat.le_trans (Nat.mul_le_mul_right _ hc) (npb_mul_le p)
  simp only [blockImage, List.length_append, images_length h, zeros, List.length_replicate]
  omega

theorem blocksOf_length (p : Params) (vs : List Vertex) (n : Nat) : (blocksOf p vs n).length = n := by
  induction n generalizing vs with
  | zero => rfl
  | succ n ih => simp [blocksOf, ih]

theorem blocksOf_mem_length {p : Params} (n : Nat) : ∀ (vs : List Vertex), (∀ v ∈ vs, v.Fits p) →
    ∀ x ∈ blocksOf p vs n, x.length = p.blockSize := by
  induction n with
  | zero => intro vs _ x hx; simp [blocksOf] at hx
  | succ n ih =>
    intro vs h x hx
    simp only [blocksOf, List.mem_cons] at hx
    rcases hx with rfl | hx
    · exact blockImage_length (fun v hv => h v (List.mem_of_mem_take hv)) (by simp; omega)
    · exact ih _ (fun v hv => h v (List.mem_of_mem_drop hv)) x hx

theorem blocksOf_getElem {p : Params} (n : Nat) : ∀ (vs : List Vertex) (j : Nat), j < n →
    (blocksOf p vs n)[j]? = some (blockImage p ((vs.drop (j * p.npb)).take p.npb)) := by
  induction n with
  | zero => intro vs j hj; omega
  | succ n ih =>
    intro vs j hj
    cases j with
    | zero => simp [blocksOf]
    | succ j =>
      simp only [blocksOf, List.getElem?_cons_succ]
      rw [ih _ j (by omega), List.drop_drop, Nat.add_mul, Nat.one_mul, Nat.add_comm]

theorem lt_divCeil {i n k : Nat} (hk : 0 < k) (h : i < n) : i / k < divCeil n k := by
  unfold divCeil
  rw [Nat.div_lt_iff_lt_mul hk]
  have := le_divCeil_mul n k hk
  unfold divCeil at this
  omega

/-- The bytes of chunk `sec .. sec + lenPerNode` of the body, seen as block of vertex `i`, and the node
inside it. -/
theorem body_record {p : Params} {vs : List Vertex} (h : WellFormed p vs) {i : Nat} {v : Vertex}
    (hi : vs[i]? = some v) :
    ∃ blk : List Byte,
      blk.length = (SectorGraph.new p.header).lenPerNode ∧
      ((bodyOf p vs).drop (((SectorGraph.new p.header).sectorIndex i - 1) * p.blockSize)).take
        (SectorGraph.new p.header).lenPerNode = blk ∧
      ((SectorGraph.new p.header).sectorIndex i - 1) * p.blockSize +
        (SectorGraph.new p.header).lenPerNode ≤ (bodyOf p vs).length ∧
      slice? blk ((SectorGraph.new p.header).nodeOffset i)
        ((SectorGraph.new p.header).nodeOffset i + p.nodeLen) = some (nodeImage p v) := by
  have hbs : 0 < p.blockSize := by
    have := h.block; simp only [Params.accepted, Metadata.getSize] at this; omega
  have hilt : i < vs.length := by
    rcases Nat.lt_or_ge i vs.length with h | h
    · exact h
    · rw [List.getElem?_eq_none h] at hi; simp at hi
  have hv : v.Fits p := h.fits v (List.mem_of_getElem? hi)
  have hbseq : (SectorGraph.new p.header).blockSize = p.blockSize := by
    simp only [SectorGraph.new, Params.header]
    rw [if_neg (by omega)]
  by_cases hn : p.npb > 0
  · have hsec : (SectorGraph.new p.header).sectorIndex i - 1 = i / p.npb := by
      simp only [SectorGraph.sectorIndex, SectorGraph.new, Params.header]
      rw [if_pos (by omega)]; exact Nat.add_sub_cancel_left _ _
    have hoff : (SectorGraph.new p.header).nodeOffset i = i % p.npb * p.nodeLen := by
      simp only [SectorGraph.nodeOffset, SectorGraph.new, Params.header]
      rw [if_neg (by omega)]
    have hlen : (SectorGraph.new p.header).lenPerNode = p.blockSize := by
      rw [SectorGraph.lenPerNode, hbseq]
      simp only [SectorGraph.new, Params.header, if_pos hn, Nat.one_mul]
    rw [hsec, hoff, hlen]
    have hnb : p.numBlocks = divCeil p.numPts p.npb := by rw [Params.numBlocks, if_pos hn]
    have hjlt : i / p.npb < p.numBlocks := by
      rw [hnb]; exact lt_divCeil hn (by rw [← h.num]; exact hilt)
    have hbody : bodyOf p vs = (blocksOf p vs p.numBlocks).flatten := by rw [bodyOf, if_pos hn]
    have hmem := blocksOf_mem_length p.numBlocks vs h.fits
    have hget := blocksOf_getElem (p := p) p.numBlocks vs (i / p.npb) hjlt
    refine ⟨blockImage p ((vs.drop (i / p.npb * p.npb)).take p.npb), ?_, ?_, ?_, ?_⟩
    · exact hmem _ (List.mem_of_getElem? hget)
    · rw [hbody]
      have := flatten_chunk _ hmem _ _ hget []
      rwa [List.append_nil] at this
    · rw [hbody, flatten_length_const _ hmem, blocksOf_length]
      calc i / p.npb * p.blockSize + p.blockSize = (i / p.npb + 1) * p.blockSize := by
            rw [Nat.add_mul, Nat.one_mul]
        _ ≤ p.numBlocks * p.blockSize := Nat.mul_le_mul_right _ hjlt
    · have hmod := Nat.mod_lt i hn
      have hdm := Nat.div_add_mod i p.npb
      rw [Nat.mul_comm] at hdm
      have hcg : ((vs.drop (i / p.npb * p.npb)).take p.npb)[i % p.npb]? = some v := by
        rw [List.getElem?_take, if_pos hmod, List.getElem?_drop, hdm, hi]
      have hfits : ∀ w ∈ (vs.drop (i / p.npb * p.npb)).take p.npb, w.Fits p :=
        fun w hw => h.fits w (List.mem_of_mem_drop (List.mem_of_mem_take hw))
      have hcl : ((vs.drop (i / p.npb * p.npb)).take p.npb).length ≤ p.npb := by simp; omega
      have hbl := blockImage_length hfits hcl
      have hml : (i % p.npb + 1) * p.nodeLen ≤ p.blockSize :=
        Nat.le_trans (Nat.mul_le_mul_right _ hmod) (npb_mul_le p)
      rw [Nat.add_mul, Nat.one_mul] at hml
      unfold slice?
      rw [if_pos (by rw [hbl]; omega), Nat.add_sub_cancel_left]
      unfold blockImage
      congr 1
      refine flatten_chunk _ ?_ _ _ ?_ _
      · intro x hx
        obtain ⟨w, hw, rfl⟩ := List.mem_map.1 hx
        exact nodeImage_length (hfits w hw)
      · rw [List.getElem?_map, hcg]; rfl
  · have hn0 : p.npb = 0 := by omega
    have hsec : (SectorGraph.new p.header).sectorIndex i - 1 = i * divCeil p.nodeLen p.blockSize := by
      simp only [SectorGraph.sectorIndex, SectorGraph.new, Params.header, hn0]
      rw [if_neg (by omega), if_neg (by omega), if_neg (by omega)]; omega
    have hoff : (SectorGraph.new p.header).nodeOffset i = 0 := by
      simp only [SectorGraph.nodeOffset, SectorGraph.new, Params.header, hn0, if_true]
    have hlen : (SectorGraph.new p.header).lenPerNode = divCeil p.nodeLen p.blockSize * p.blockSize := by
      rw [SectorGraph.lenPerNode, hbseq]
      simp only [SectorGraph.new, Params.header, hn0]
      rw [if_neg (by omega), if_neg (by omega)]
    rw [hsec, hoff, hlen]
    have hbody : bodyOf p vs = (vs.map (padded p)).flatten := by rw [bodyOf, if_neg hn]
    have hle := le_divCeil_mul p.nodeLen p.blockSize hbs
    have hmem : ∀ x ∈ vs.map (padded p), x.length = divCeil p.nodeLen p.blockSize * p.blockSize := by
      intro x hx
      obtain ⟨w, hw, rfl⟩ := List.mem_map.1 hx
      simp only [padded, List.length_append, nodeImage_length (h.fits w hw), zeros,
        List.length_replicate]
      omega
    have hget : (vs.map (padded p))[i]? = some (padded p v) := by
      rw [List.getElem?_map, hi]; rfl
    refine ⟨padded p v, hmem _ (List.mem_of_getElem? hget), ?_, ?_, ?_⟩
    · rw [hbody]
      have := flatten_chunk _ hmem _ _ hget []
      rwa [List.append_nil, ← Nat.mul_assoc] at this
    · rw [hbody, flatten_length_const _ hmem, List.length_map, Nat.mul_assoc]
      calc i * (divCeil p.nodeLen p.blockSize * p.blockSize) + divCeil p.nodeLen p.blockSize * p.blockSize
          = (i + 1) * (divCeil p.nodeLen p.blockSize * p.blockSize) := by rw [Nat.add_mul, Nat.one_mul]
        _ ≤ _ := Nat.mul_le_mul_right _ hilt
    · have := slice_append [] (nodeImage p v)
        (zeros (divCeil p.nodeLen p.blockSize * p.blockSize - p.nodeLen)) 0 (0 + p.nodeLen) rfl
        (by rw [nodeImage_length hv])
      simpa [padded] using this

theorem graph_blockSize {p : Params} {vs : List Vertex} (h : WellFormed p vs) :
    (SectorGraph.new p.header).blockSize = p.blockSize := by
  have := h.block
  simp only [Params.accepted, Metadata.getSize] at this
  simp only [SectorGraph.new, Params.header]
  rw [if_neg (by omega)]

/-- What the reader gets for vertex `i` from the finished file, provided the header fits in the first
block. -/
theorem file_record {p : Params} {vs : List Vertex} (h : WellFormed p vs) (h104 : 104 ≤ p.blockSize)
    {file : List Byte} (hf : createLayout p (streamsOf vs) = some file) {i : Nat} {v : Vertex}
    (hi : vs[i]? = some v) :
    ∃ blk : List Byte,
      blk.length = (SectorGraph.new p.header).lenPerNode ∧
      readExact file ((SectorGraph.new p.header).sectorIndex i * p.blockSize)
        (SectorGraph.new p.header).lenPerNode = some (blk,
          (SectorGraph.new p.header).sectorIndex i * p.blockSize +
          (SectorGraph.new p.header).lenPerNode) ∧
      slice? blk ((SectorGraph.new p.header).nodeOffset i)
        ((SectorGraph.new p.header).nodeOffset i + p.nodeLen) = some (nodeImage p v) := by
  rw [createLayout_spec h, Option.some.injEq] at hf
  subst hf
  obtain ⟨blk, h1, h2, h3, h4⟩ := body_record h hi
  have hidx : (SectorGraph.new p.header).sectorIndex i * p.blockSize =
      p.blockSize + ((SectorGraph.new p.header).sectorIndex i - 1) * p.blockSize := by
    have : (SectorGraph.new p.header).sectorIndex i =
        1 + ((SectorGraph.new p.header).sectorIndex i - 1) := by
      simp only [SectorGraph.sectorIndex]; omega
    rw [this, Nat.add_mul, Nat.one_mul, Nat.add_sub_cancel_left]
  refine ⟨blk, h1, ?_, h4⟩
  have hl := headerImage_length p
  have hlen : (writeAt (zeros p.blockSize ++ bodyOf p vs) 0 (headerImage p)).length =
      p.blockSize + (bodyOf p vs).length := by
    rw [writeAt_length _ _ _ (by omega), hl]
    simp only [List.length_append, zeros, List.length_replicate]; omega
  have hdrop : ∀ k, p.blockSize ≤ k →
      (writeAt (zeros p.blockSize ++ bodyOf p vs) 0 (headerImage p)).drop k =
      (bodyOf p vs).drop (k - p.blockSize) := by
    intro k hk
    simp only [writeAt, List.take_zero, List.nil_append, Nat.zero_add, hl]
    rw [List.drop_append, List.drop_of_length_le (by omega), List.nil_append, List.drop_drop, hl,
      List.drop_append, List.drop_of_length_le (by simp [zeros]; omega), List.nil_append]
    congr 1
    simp [zeros]; omega
  unfold readExact
  rw [if_pos (by rw [hlen, hidx]; omega), hdrop _ (by rw [hidx]; omega)]
  rw [show (SectorGraph.new p.header).sectorIndex i * p.blockSize - p.blockSize =
    ((SectorGraph.new p.header).sectorIndex i - 1) * p.blockSize by rw [hidx]; omega, h2]

end Verif.Disk
