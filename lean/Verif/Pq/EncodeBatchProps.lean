import Verif.Pq.EncodeProps

/-! # C79: batches, partial results and ties -/

namespace Verif.Pq

open Verif.Pq.Spec

section

variable {K : Type} [Field K] [LinearOrder K] [IsStrictOrderedRing K] {Q : List (List K)} {o : Offsets}
  (ho : Partition o) (hpos : 0 < Q.length) (hQ : ∀ p ∈ Q, p.length = o.dim) (hsize : (Q.length + 15) * o.dim < 2 ^ 61)

include ho hpos hQ hsize

/-- What `find_closest` returns for a row of the data. -/
theorem near_ok (hn : Q.length < 2 ^ 32) (t : Transposed K)
    (ht : Transposed.fromParts (mat (Q.map fl) o.dim) o = some (some t)) (x : List (Fl K)) (hx : x.length = o.dim)
    {i : Nat} (hi : i < o.len) (hgood : NonFinite (piece o i x) ∨ ∃ y, piece o i x = fl y ∧ Bounded Q o i y) :
    ∃ r, (∀ c v, t.pivots[i]? = some c → ChunkOf c (Q.map fl) o i v →
        c.findClosest (piece o i x) = some r ∧ Good c (Q.map fl) v (piece o i x)) ∧
      (NonFinite (piece o i x) → r = errIndex) ∧
      ∀ y, piece o i x = fl y → Closest Q o i y r ∧ ∀ j, Closest Q o i y j → Before r j := by
  have hT := tableOf ho hpos hQ hsize hn t ht
  obtain ⟨c, v, hc1, hc2⟩ := hT.chunk i hi
  have hlen := ho.piece_len hi x hx
  have hfin : ∀ y : List K, ¬ NonFinite (fl y) := by
    rintro y ⟨e, he, hf⟩
    obtain ⟨a, _, rfl⟩ := List.mem_map.mp he
    simp [Fl.isFinite] at hf
  have hinj : ∀ y y' : List K, fl y = fl y' → y = y' := by
    intro y y' h
    exact List.map_injective_iff.mpr (fun a b hab => by injection hab) h
  rcases hgood with hbad | ⟨y, hy, hb⟩
  · refine ⟨errIndex, fun c' v' h1 h2 => ?_, fun _ => rfl, fun y hy => absurd hbad (by rw [hy]; exact hfin y)⟩
    exact ⟨findClosest_nonFinite h2 (by simpa using hn) _ hlen hbad, Or.inl hbad⟩
  · have hyl : y.length = width o i := by rw [hy] at hlen; simpa [fl] using hlen
    obtain ⟨r, h1, h2, h3⟩ := findClosest_finite hc2 hn hQ ho hi y hyl hb
    refine ⟨r, fun c' v' e1 e2 => ?_, fun hbad => absurd hbad (by rw [hy]; exact hfin y), fun y' hy' => ?_⟩
    · rw [hc1] at e1
      obtain rfl := Option.some.inj e1
      rw [hy]
      exact ⟨h1, Or.inr (good_finite e2 hn hQ ho hi y hyl hb)⟩
    · rw [hy] at hy'
      rw [← hinj _ _ hy']
      exact ⟨h2, h3⟩

/-- **C79.** `compress_batch` calls its delegate for each row and each chunk, chunk by chunk and in the order of the rows, up to
the first error. It passes the index `find_closest` of the single vector search yields for the row: the error marker if the chunk
contains an infinity or NaN, otherwise a closest pivot. -/
theorem C79_batch {σ : Type} (hn : Q.length < 2 ^ 32) (t : Transposed K)
    (ht : Transposed.fromParts (mat (Q.map fl) o.dim) o = some (some t)) (R : List (List (Fl K)))
    (hR : ∀ x ∈ R, x.length = o.dim)
    (hgood : ∀ row i, row < R.length → i < o.len → NonFinite (piece o i (R.getD row [])) ∨
      ∃ y, piece o i (R.getD row []) = fl y ∧ Bounded Q o i y) :
    ∃ near : Nat → Nat → Nat,
      (∀ row i, row < R.length → i < o.len →
        (∃ c, t.pivots[i]? = some c ∧ c.findClosest (piece o i (R.getD row [])) = some (near row i)) ∧
        (NonFinite (piece o i (R.getD row [])) → near row i = errIndex) ∧
        ∀ y, piece o i (R.getD row []) = fl y →
          Closest Q o i y (near row i) ∧ ∀ j, Closest Q o i y j → Before (near row i) j) ∧
      ∀ (f : Delegate σ) (s : σ),
        t.compressBatch (mat R o.dim) f s = some (deliver f near (callOrder R.length o.len) s) := by
  have hT := tableOf ho hpos hQ hsize hn t ht
  have hex : ∀ row i, ∃ r, row < R.length → i < o.len →
      (∀ c v, t.pivots[i]? = some c → ChunkOf c (Q.map fl) o i v →
        c.findClosest (piece o i (R.getD row [])) = some r ∧ Good c (Q.map fl) v (piece o i (R.getD row []))) ∧
      (NonFinite (piece o i (R.getD row [])) → r = errIndex) ∧
      ∀ y, piece o i (R.getD row []) = fl y → Closest Q o i y r ∧ ∀ j, Closest Q o i y j → Before r j := by
    intro row i
    by_cases hr : row < R.length
    · by_cases hi : i < o.len
      · obtain ⟨r, h⟩ := near_ok ho hpos hQ hsize hn t ht _ (getD_mem_len R o.dim hR hr) hi (hgood row i hr hi)
        exact ⟨r, fun _ _ => h⟩
      · exact ⟨0, fun _ h => absurd h hi⟩
    · exact ⟨0, fun h => absurd h hr⟩
  choose near hnear using hex
  refine ⟨near, fun row i hr hi => ?_, fun f s => ?_⟩
  · obtain ⟨h1, h2, h3⟩ := hnear row i hr hi
    obtain ⟨c, v, e1, e2⟩ := hT.chunk i hi
    exact ⟨⟨c, e1, (h1 c v e1 e2).1⟩, h2, h3⟩
  · exact compressBatch_ok ho (by simpa using hn) hR f hT near
      (fun i c v hi e1 e2 row hr => (hnear row i hr hi).1 c v e1 e2) s

omit [Field K] [LinearOrder K] [IsStrictOrderedRing K] ho hpos hQ hsize in
theorem callOrder_mem {rows chunks row i : Nat} : (row, i) ∈ callOrder rows chunks ↔ row < rows ∧ i < chunks := by
  unfold callOrder
  simp only [List.mem_flatMap, List.mem_range, List.mem_map, Prod.mk.injEq]
  constructor
  · rintro ⟨a, ha, b, hb, rfl, rfl⟩; exact ⟨hb, ha⟩
  · rintro ⟨h1, h2⟩; exact ⟨i, h2, row, h1, rfl, rfl⟩

omit [Field K] [LinearOrder K] [IsStrictOrderedRing K] ho hpos hQ hsize in
/-- Delivering codes without errors. -/
theorem deliver_codes (m : Nat) (near : Nat → Nat → Nat) (L : List (Nat × Nat))
    (hL : ∀ p ∈ L, near p.1 p.2 ≠ errIndex ∧ p.2 < m) (dst : List Nat) (hlen : ∀ p ∈ L, p.1 * m + p.2 < dst.length) :
    ∃ d, deliver (codeDelegate m) near L dst = .ok d ∧ d.length = dst.length ∧
      (∀ p ∈ L, d.getD (p.1 * m + p.2) 0 = near p.1 p.2 % 256) ∧
      ∀ j, (∀ p ∈ L, p.1 * m + p.2 ≠ j) → d.getD j 0 = dst.getD j 0 := by
  induction L generalizing dst with
  | nil => exact ⟨dst, rfl, rfl, fun p hp => by simp at hp, fun j _ => rfl⟩
  | cons p L ih =>
    have hp := hL p (by simp)
    obtain ⟨d, h1, h2, h3, h4⟩ := ih (fun q hq => hL q (by simp [hq])) (dst.set (p.1 * m + p.2) (near p.1 p.2 % 256))
      (fun q hq => by rw [List.length_set]; exact hlen q (by simp [hq]))
    refine ⟨d, ?_, by simpa using h2, fun q hq => ?_, fun j hj => ?_⟩
    · unfold deliver codeDelegate
      rw [if_neg hp.1]
      exact h1
    · by_cases hqL : q ∈ L
      · exact h3 q hqL
      · obtain rfl : q = p := by
          rcases List.mem_cons.mp hq with h | h
          · exact h
          · exact absurd h hqL
        by_cases hother : ∃ q' ∈ L, q'.1 * m + q'.2 = q.1 * m + q.2
        · obtain ⟨q', hq', he⟩ := hother
          have hq2 := hL q' (by simp [hq'])
          have e2 : q'.2 = q.2 := by
            have := congrArg (· % m) he
            simpa [Nat.mul_add_mod', Nat.mod_eq_of_lt hq2.2, Nat.mod_eq_of_lt hp.2] using this
          have e1 : q'.1 = q.1 := by
            rw [e2] at he
            exact Nat.eq_of_mul_eq_mul_right (by omega : 0 < m) (by omega)
          exact absurd (Prod.ext e1 e2 ▸ hq') hqL
        · rw [h4 _ (fun q' hq' he => hother ⟨q', hq', he⟩), Vec.getD_set' _ _ _ _ (hlen q (by simp)), if_pos rfl]
    · rw [h4 j (fun q hq => hj q (by simp [hq])), Vec.getD_set' _ _ _ _ (hlen p (by simp)),
        if_neg (fun h => hj p (by simp) h.symm)]

/-- **C79.** Encoding a matrix of finite vectors gives for each row what encoding that row alone gives. -/
theorem C79_matrix (h256 : Q.length ≤ 256) (t : Transposed K)
    (ht : Transposed.fromParts (mat (Q.map fl) o.dim) o = some (some t)) (X : List (List K))
    (hX : ∀ x ∈ X, x.length = o.dim) (hb : ∀ x ∈ X, ∀ i, i < o.len → Bounded Q o i (piece o i x)) (out : List Nat)
    (hout : out.length = X.length * o.len) :
    ∃ codes, t.compressMatrix (mat (X.map fl) o.dim) ⟨out, X.length, o.len⟩ = some (.ok codes) ∧
      codes.length = X.length * o.len ∧
      ∀ row, row < X.length → ∀ dst, dst.length = o.len →
        t.compressInto (fl (X.getD row [])) dst = some (.ok ((codes.drop (row * o.len)).take o.len)) := by
  have hT := tableOf ho hpos hQ hsize (by omega) t ht
  have hR : ∀ x ∈ X.map fl, x.length = o.dim := by
    intro x hx
    obtain ⟨y, hy, rfl⟩ := List.mem_map.mp hx
    unfold fl
    rw [List.length_map]
    exact hX y hy
  have hmem : ∀ row, row < X.length → X.getD row [] ∈ X := by
    intro row hr
    rw [List.getD_eq_getElem?_getD, List.getElem?_eq_getElem hr]
    exact List.getElem_mem hr
  have hpiece : ∀ row i, piece o i ((X.map fl).getD row []) = fl (piece o i (X.getD row [])) := by
    intro row i; rw [getD_map_fl, piece_fl]
  obtain ⟨near, hn1, hn2⟩ := C79_batch (σ := List Nat) ho hpos hQ hsize (by omega) t ht (X.map fl) hR (by
    intro row i hr hi
    rw [List.length_map] at hr
    exact Or.inr ⟨_, hpiece row i, hb _ (hmem row hr) i hi⟩)
  rw [List.length_map] at hn1 hn2
  have hcl : ∀ row i, row < X.length → i < o.len → near row i < Q.length := fun row i hr hi =>
    ((hn1 row i hr hi).2.2 _ (hpiece row i)).1.1
  obtain ⟨d, h1, h2, h3, _⟩ := deliver_codes o.len near (callOrder X.length o.len) (by
      rintro ⟨row, i⟩ hp
      obtain ⟨hr, hi⟩ := callOrder_mem.mp hp
      have := hcl row i hr hi
      exact ⟨by unfold errIndex; simp only; omega, hi⟩) out (by
      rintro ⟨row, i⟩ hp
      obtain ⟨hr, hi⟩ := callOrder_mem.mp hp
      simp only
      have e1 : (row + 1) * o.len ≤ X.length * o.len := Nat.mul_le_mul_right _ hr
      have e2 : (row + 1) * o.len = row * o.len + o.len := by ring
      omega)
  refine ⟨d, ?_, by omega, fun row hr dst hd => ?_⟩
  · unfold Transposed.compressMatrix
    rw [if_neg (by rw [hT.ncenters]; simp; omega), if_neg (by rw [hT.offsets]; simp [mat]),
      if_neg (by rw [hT.offsets]; simp), if_neg (by simp [mat]), hn2, h1]
    rfl
  · obtain ⟨c, e1, e2, e3⟩ := C79_transposed ho hpos hQ hsize h256 t ht (X.getD row []) (hX _ (hmem row hr))
      (hb _ (hmem row hr)) dst hd
    rw [e1]
    congr 2
    have f1 : (row + 1) * o.len ≤ X.length * o.len := Nat.mul_le_mul_right _ hr
    have f2 : (row + 1) * o.len = row * o.len + o.len := by ring
    refine List.ext_getElem? (fun i => ?_)
    by_cases hi : i < o.len
    · rw [List.getElem?_take, if_pos hi, List.getElem?_drop, List.getElem?_eq_getElem (by omega),
        List.getElem?_eq_getElem (by omega)]
      congr 1
      have g1 := h3 (row, i) (callOrder_mem.mpr ⟨hr, hi⟩)
      simp only at g1
      rw [List.getD_eq_getElem?_getD, List.getElem?_eq_getElem (by omega), Option.getD_some,
        Nat.mod_eq_of_lt (by have := hcl row i hr hi; omega)] at g1
      rw [g1]
      have g2 := e3 i hi
      have hci : c.getD i 0 = c[i]'(by omega) := by
        rw [List.getD_eq_getElem?_getD, List.getElem?_eq_getElem (by omega), Option.getD_some]
      rw [hci] at g2
      have g3 := (hn1 row i hr hi).2.2 _ (hpiece row i)
      have a1 := g2.2 _ g3.1
      have a2 := g3.2 _ g2.1
      unfold Before at a1 a2
      omega
    · rw [List.getElem?_eq_none (by omega), List.getElem?_eq_none (by simp; omega)]

omit [Field K] [LinearOrder K] [IsStrictOrderedRing K] ho hpos hQ hsize in
/-- Delivering codes up to the first error. -/
theorem deliver_codes_err (m : Nat) (near : Nat → Nat → Nat) (A B : List (Nat × Nat)) (p : Nat × Nat)
    (hA : ∀ q ∈ A, near q.1 q.2 ≠ errIndex) (hp : near p.1 p.2 = errIndex) (dst : List Nat) :
    deliver (codeDelegate m) near (A ++ p :: B) dst = .error p := by
  induction A generalizing dst with
  | nil =>
    rw [List.nil_append]
    unfold deliver codeDelegate
    rw [if_pos hp]
  | cons q A ih =>
    rw [List.cons_append]
    unfold deliver
    have : codeDelegate m dst q.1 q.2 (near q.1 q.2) = some (dst.set (q.1 * m + q.2) (near q.1 q.2 % 256)) := by
      unfold codeDelegate; rw [if_neg (hA q (by simp))]
    rw [this]
    exact ih (fun q hq => hA q (by simp [hq])) _

omit [Field K] [LinearOrder K] [IsStrictOrderedRing K] ho hpos hQ hsize in
theorem callOrder_split {rows chunks row i : Nat} (hr : row < rows) (hi : i < chunks) :
    ∃ A B, callOrder rows chunks = A ++ (row, i) :: B ∧
      ∀ q ∈ A, q.1 < rows ∧ q.2 < chunks ∧ (q.2 < i ∨ (q.2 = i ∧ q.1 < row)) := by
  have e1 : List.range chunks = List.range i ++ i :: (List.range (chunks - i - 1)).map (fun k => i + 1 + k) := by
    rw [show chunks = i + 1 + (chunks - i - 1) by omega, List.range_add, List.range_succ, List.append_assoc,
      show i + 1 + (chunks - i - 1) - i - 1 = chunks - i - 1 by omega]
    rfl
  have e2 : List.range rows = List.range row ++ row :: (List.range (rows - row - 1)).map (fun k => row + 1 + k) := by
    rw [show rows = row + 1 + (rows - row - 1) by omega, List.range_add, List.range_succ, List.append_assoc,
      show row + 1 + (rows - row - 1) - row - 1 = rows - row - 1 by omega]
    rfl
  refine ⟨(List.range i).flatMap (fun i => (List.range rows).map (fun row => (row, i))) ++
    (List.range row).map (fun row => (row, i)),
    ((List.range (rows - row - 1)).map (fun k => row + 1 + k)).map (fun row => (row, i)) ++
      ((List.range (chunks - i - 1)).map (fun k => i + 1 + k)).flatMap (fun i => (List.range rows).map (fun row => (row, i))),
    ?_, ?_⟩
  · unfold callOrder
    rw [e1, List.flatMap_append, List.flatMap_cons]
    rw [show (List.range rows).map (fun row => (row, i)) = (List.range row).map (fun row => (row, i)) ++
      (row, i) :: ((List.range (rows - row - 1)).map (fun k => row + 1 + k)).map (fun row => (row, i)) by
        conv_lhs => rw [e2]
        rw [List.map_append, List.map_cons]]
    rw [List.append_assoc, List.append_assoc, List.cons_append]
  · intro q hq
    rcases List.mem_append.mp hq with h | h
    · simp only [List.mem_flatMap, List.mem_range, List.mem_map] at h
      obtain ⟨a, ha, b, hb, rfl⟩ := h
      exact ⟨hb, by simp only; omega, Or.inl ha⟩
    · simp only [List.mem_map, List.mem_range] at h
      obtain ⟨b, hb, rfl⟩ := h
      exact ⟨by simp only; omega, hi, Or.inr ⟨rfl, hb⟩⟩

/-- **C79.** If some chunk of some row contains an infinity or NaN, encoding the matrix fails and names the first one, in the
order of the chunks and then of the rows. -/
theorem C79_matrix_nonfinite (h256 : Q.length ≤ 256) (t : Transposed K)
    (ht : Transposed.fromParts (mat (Q.map fl) o.dim) o = some (some t)) (R : List (List (Fl K)))
    (hR : ∀ x ∈ R, x.length = o.dim)
    (hgood : ∀ row i, row < R.length → i < o.len → NonFinite (piece o i (R.getD row [])) ∨
      ∃ y, piece o i (R.getD row []) = fl y ∧ Bounded Q o i y)
    (out : List Nat) (row i : Nat) (hr : row < R.length) (hi : i < o.len) (hbad : NonFinite (piece o i (R.getD row [])))
    (hfirst : ∀ row' i', row' < R.length → i' < o.len → i' < i ∨ (i' = i ∧ row' < row) →
      ¬ NonFinite (piece o i' (R.getD row' []))) :
    t.compressMatrix (mat R o.dim) ⟨out, R.length, o.len⟩ = some (.error (.infinityOrNaN i row)) := by
  have hT := tableOf ho hpos hQ hsize (by omega) t ht
  obtain ⟨near, hn1, hn2⟩ := C79_batch (σ := List Nat) ho hpos hQ hsize (by omega) t ht R hR hgood
  obtain ⟨A, B, hsplit, hA⟩ := callOrder_split hr hi
  have hd := deliver_codes_err o.len near A B (row, i) (by
    rintro ⟨r', i'⟩ hq
    obtain ⟨q1, q2, q3⟩ := hA _ hq
    rcases hgood r' i' q1 q2 with h | ⟨y, hy, _⟩
    · exact absurd h (hfirst r' i' q1 q2 q3)
    · have := ((hn1 r' i' q1 q2).2.2 y hy).1.1
      unfold errIndex
      simp only
      omega) ((hn1 row i hr hi).2.1 hbad) out
  unfold Transposed.compressMatrix
  rw [if_neg (by rw [hT.ncenters]; simp; omega), if_neg (by rw [hT.offsets]; simp [mat]),
    if_neg (by rw [hT.offsets]; simp), if_neg (by simp [mat]), hn2, hsplit, hd]
  rfl

/-- **C79.** `process_into` fills row `i`, column `j` of the table with the squared distance between chunk `i` of the query and
chunk `i` of pivot `j`, or with the negated inner product. -/
theorem C79_process (hn : Q.length < 2 ^ 32) (t : Transposed K)
    (ht : Transposed.fromParts (mat (Q.map fl) o.dim) o = some (some t)) (x : List K) (hx : x.length = o.dim)
    (T : List (List (Fl K))) (hT : T.length = o.len) (hTr : ∀ r ∈ T, r.length = Q.length) :
    (∃ out, t.processInto .squaredL2 (fl x) (mat T Q.length) = some out ∧ out.length = o.len ∧
      ∀ i, i < o.len → (out.getD i []).length = Q.length ∧ ∀ j, j < Q.length →
        (out.getD i []).getD j 0 = .num (dist Q o i (piece o i x) j)) ∧
    (∃ out, t.processInto .innerProduct (fl x) (mat T Q.length) = some out ∧ out.length = o.len ∧
      ∀ i, i < o.len → (out.getD i []).length = Q.length ∧ ∀ j, j < Q.length →
        (out.getD i []).getD j 0 = .num (- Vec.Spec.dot (piece o i x) (piece o i (Q.getD j [])))) := by
  have hTab := tableOf ho hpos hQ hsize hn t ht
  have hfl : (fl x).length = o.dim := by simpa [fl] using hx
  have hgen : ∀ (k : Kernel) (g : K → K → K),
      (∀ a b acc : K, k.step (.num a) (.num b) (.num acc) = .num (g a b + acc)) →
      ∃ out, t.processInto k (fl x) (mat T Q.length) = some out ∧ out.length = o.len ∧
        ∀ i, i < o.len → (out.getD i []).length = Q.length ∧ ∀ j, j < Q.length → (out.getD i []).getD j 0 =
          .num ((((piece o i x).zip (piece o i (Q.getD j []))).map (fun p => g p.1 p.2)).sum) := by
    intro k g hk
    have hrow : ∀ i, ∃ r : List (Fl K), i < o.len → (do
        let c ← t.pivots[i]?
        let out ← (mat T Q.length).row i
        let (a, b) ← t.offsets.range i
        let q ← slice (fl x) a b
        c.processInto k q out) = some r ∧ r.length = Q.length ∧ ∀ j, j < Q.length → r.getD j 0 =
          .num ((((piece o i x).zip (piece o i (Q.getD j []))).map (fun p => g p.1 p.2)).sum) := by
      intro i
      by_cases hi : i < o.len
      · obtain ⟨c, v, hc1, hc2⟩ := hTab.chunk i hi
        have hxl := ho.piece_len hi x hx
        obtain ⟨r, h1, h2, h3⟩ := processInto_ok hc2.holds k (fl (piece o i x))
          (by rw [hc2.ncols]; simpa [fl] using hxl) (T.getD i [])
          (by rw [hc2.nrows, List.length_map]; exact getD_mem_len T Q.length hTr (by omega))
        rw [hc2.nrows, List.length_map] at h2 h3
        refine ⟨r, fun _ => ⟨?_, h2, fun j hj => ?_⟩⟩
        · rw [hc1, mat_row T Q.length hTr (by omega)]
          simp only [Option.bind_eq_bind, Option.bind_some]
          rw [hTab.offsets, (ho.range hi).1]
          simp only [Option.bind_some]
          rw [ho.slice hi _ hfl, piece_fl]
          simp only [Option.bind_some]
          exact h1
        · rw [h3 j hj, laneVal_congr k _ (v.elem j) (fun col => (fl (piece o i (Q.getD j []))).getD col 0)]
          · exact laneVal_num k g hk _ _ (by
              rw [hxl, ho.piece_len hi _ (getD_mem_len Q o.dim hQ hj)])
          · intro col hcol
            rw [hc2.elem j col (by simpa using hj) (by simp [fl] at hcol; omega), getD_map_fl, piece_fl]
      · exact ⟨[], fun h => absurd h hi⟩
    choose F hF using hrow
    refine ⟨(List.range o.len).map F, ?_, by simp, fun i hi => ?_⟩
    · unfold Transposed.processInto
      rw [if_neg (by rw [hfl, hTab.offsets]; simp), if_neg (by rw [hTab.ncenters]; simp [mat]),
        if_neg (by rw [hTab.offsets]; simp [mat, hT]), hTab.len, show (mat T Q.length).nrows = o.len from hT, Nat.min_self]
      exact mapM_some _ F _ (fun i hi => (hF i (List.mem_range.mp hi)).1)
    · rw [List.getD_eq_getElem?_getD, List.getElem?_map, List.getElem?_range hi]
      exact (hF i hi).2
  refine ⟨?_, ?_⟩
  · obtain ⟨out, h1, h2, h3⟩ := hgen .squaredL2 (fun a b => (b - a) * (b - a)) (fun a b acc => by
      show ((Fl.num b : Fl K) - .num a) * (.num b - .num a) + .num acc = _
      simp)
    refine ⟨out, h1, h2, fun i hi => ⟨(h3 i hi).1, fun j hj => ?_⟩⟩
    rw [(h3 i hi).2 j hj]
    unfold dist Vec.Spec.sqDist
    congr 3
    funext p
    ring
  · obtain ⟨out, h1, h2, h3⟩ := hgen .innerProduct (fun a b => -a * b) (fun a b acc => rfl)
    refine ⟨out, h1, h2, fun i hi => ⟨(h3 i hi).1, fun j hj => ?_⟩⟩
    rw [(h3 i hi).2 j hj]
    unfold Vec.Spec.dot
    congr 1
    generalize (piece o i x).zip (piece o i (Q.getD j [])) = L
    induction L with
    | nil => simp
    | cons p L ih => simp only [List.map_cons, List.sum_cons, ih]; ring

end

/-! ## Arbitrary pivots -/

section

variable {K : Type} [Field K] [LinearOrder K] {P : List (List (Fl K))} {o : Offsets}

/-- Codes that name pivots. -/
theorem codeLoop_any (F : Except CompressErr (List Nat) → Nat → Option (Except CompressErr (List Nat)))
    (hE : ∀ e i, F (.error e) i = some (.error e)) (n N : Nat)
    (hF : ∀ i, i < n → ∀ dst : List Nat, F (.ok dst) i = some (.error (.infinityOrNaN i)) ∨
      ∃ r, r < N ∧ F (.ok dst) i = some (.ok (dst.set i r))) (dst : List Nat) (hd : n ≤ dst.length) :
    (∃ i, i < n ∧ (List.range n).foldlM F (.ok dst) = some (.error (.infinityOrNaN i))) ∨
    ∃ d, (List.range n).foldlM F (.ok dst) = some (.ok d) ∧ d.length = dst.length ∧ ∀ i, i < n → d.getD i 0 < N := by
  obtain ⟨s, h1, h2⟩ := Vec.foldlM_inv F (fun m s => (∃ i, i < m ∧ s = .error (.infinityOrNaN i)) ∨
      ∃ d, s = .ok d ∧ d.length = dst.length ∧ ∀ i, i < m → d.getD i 0 < N) n (.ok dst)
    (Or.inr ⟨dst, rfl, rfl, fun i hi => by omega⟩) (by
      rintro i hi s (⟨j, hj, rfl⟩ | ⟨d, rfl, hl, hv⟩)
      · exact ⟨_, hE _ _, Or.inl ⟨j, by omega, rfl⟩⟩
      · rcases hF i hi d with h | ⟨r, hr, h⟩
        · exact ⟨_, h, Or.inl ⟨i, by omega, rfl⟩⟩
        · refine ⟨_, h, Or.inr ⟨_, rfl, by simpa using hl, fun j hj => ?_⟩⟩
          rw [Vec.getD_set' _ _ _ _ (by omega)]
          split
          · exact hr
          · exact hv j (by omega))
  rcases h2 with ⟨i, hi, rfl⟩ | ⟨d, rfl, hl, hv⟩
  · exact Or.inl ⟨i, hi, h1⟩
  · exact Or.inr ⟨d, h1, hl, hv⟩

/-- **C79.** Whatever the pivots and the vector contain, including infinities and NaN, encoding ends with codes that name
existing pivots or with the error for one of the chunks. -/
theorem C79_any (ho : Partition o) (hpos : 0 < P.length) (h256 : P.length ≤ 256) (hP : ∀ p ∈ P, p.length = o.dim)
    (hsize : (P.length + 15) * o.dim < 2 ^ 61) (x : List (Fl K)) (hx : x.length = o.dim) (dst : List Nat)
    (hd : dst.length = o.len) :
    (∃ t, Transposed.fromParts (mat P o.dim) o = some (some t) ∧
      ((∃ i, i < o.len ∧ t.compressInto x dst = some (.error (.infinityOrNaN i))) ∨
        ∃ codes, t.compressInto x dst = some (.ok codes) ∧ codes.length = o.len ∧
          ∀ i, i < o.len → codes.getD i 0 < P.length)) ∧
    (∃ t, Basic.new (mat P o.dim) o = some t ∧
      ((∃ i, i < o.len ∧ t.compressInto x dst = some (.error (.infinityOrNaN i))) ∨
        ∃ codes, t.compressInto x dst = some (.ok codes) ∧ codes.length = o.len ∧
          ∀ i, i < o.len → codes.getD i 0 < P.length)) := by
  refine ⟨?_, ?_⟩
  · obtain ⟨t, h1, hT⟩ := fromParts_ok (P := P) ho ⟨hpos, by omega, hsize, hP⟩
    refine ⟨t, h1, ?_⟩
    unfold Transposed.compressInto
    rw [if_neg (by rw [hT.ncenters]; omega), if_neg (by rw [hx, hT.offsets]; simp),
      if_neg (by rw [hT.offsets, hd]; simp), hT.len, hd, Nat.min_self, ← hd]
    refine codeLoop_any _ (fun e i => rfl) dst.length P.length (fun i hi dst' => ?_) dst (le_refl _)
    have hi' : i < o.len := by omega
    obtain ⟨c, v, hc1, hc2⟩ := hT.chunk i hi'
    obtain ⟨r, e1, e2⟩ := findClosest_any hc2 (by omega) (piece o i x) (ho.piece_len hi' x hx)
    unfold Transposed.chunkStep
    simp only
    rw [hc1, hT.offsets, (ho.range hi').1]
    simp only [Option.bind_eq_bind, Option.bind_some]
    rw [ho.slice hi' x hx]
    simp only [Option.bind_some]
    rw [e1]
    simp only [Option.bind_some]
    rcases e2 with rfl | ⟨hr, _⟩
    · left; rw [if_pos rfl]
    · right
      refine ⟨r, hr, ?_⟩
      rw [if_neg (by unfold errIndex; omega), Nat.mod_eq_of_lt (by omega)]
  · refine ⟨⟨mat P o.dim, o⟩, ?_, ?_⟩
    · unfold Basic.new
      rw [if_neg (by simp [mat]), if_neg (by simp only [mat]; omega)]
    · unfold Basic.compressInto
      rw [if_neg (by simp only [mat]; omega), if_neg (by rw [hx]; simp [mat]), if_neg (by simp only; omega), ← hd]
      refine codeLoop_any _ (fun e i => rfl) dst.length P.length (fun i hi dst' => ?_) dst (le_refl _)
      have hi' : i < o.len := by omega
      obtain ⟨s, e1, e2⟩ := basicFold_any ho hP hi' (piece o i x) (ho.piece_len hi' x hx)
      unfold Basic.chunkStep
      simp only
      rw [(ho.range hi').1]
      simp only [Option.bind_eq_bind, Option.bind_some]
      rw [ho.slice hi' x hx]
      simp only [Option.bind_some]
      rw [show (mat P o.dim).nrows = P.length from rfl, e1]
      simp only [Option.bind_some]
      rcases e2 with rfl | ⟨j, hj, rfl, hf⟩
      · left; rfl
      · right
        refine ⟨j, hj, ?_⟩
        rw [if_neg (by simp only; cases h : sqL2 (piece o i x) (piece o i (P.getD j [])) <;> simp_all [Fl.isFinite, Fl.isInfinite]),
          Nat.mod_eq_of_lt (by omega)]

end

end Verif.Pq
