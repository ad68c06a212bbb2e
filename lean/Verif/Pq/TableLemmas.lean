import Verif.Pq.ClosestLemmas
import Verif.Pq.EncodeSpec
import Verif.Vec.BlockProps

/-! # Lemmas for C79: tables -/

namespace Verif.Pq

open Verif.Vec Verif.Pq.Spec Finset

/-! ## Lists -/

theorem mapM_some {α β : Type} (f : α → Option β) (g : α → β) (L : List α) (h : ∀ a ∈ L, f a = some (g a)) :
    L.mapM f = some (L.map g) := by
  induction L with
  | nil => rfl
  | cons a L ih =>
    rw [List.mapM_cons, h a (by simp), ih (fun b hb => h b (by simp [hb]))]
    rfl

section

variable {T : Type}

theorem flatten_drop (P : List (List T)) (d : Nat) (h : ∀ p ∈ P, p.length = d) (j : Nat) (hj : j ≤ P.length) :
    P.flatten.drop (j * d) = (P.drop j).flatten := by
  induction P generalizing j with
  | nil => simp
  | cons p P ih =>
    cases j with
    | zero => simp
    | succ j =>
      rw [List.flatten_cons, show (j + 1) * d = p.length + j * d by rw [h p (by simp)]; ring, List.drop_append,
        List.drop_eq_nil_of_le (by omega), List.nil_append, List.drop_succ_cons, show p.length + j * d - p.length = j * d by omega,
        ih (fun q hq => h q (by simp [hq])) j (by simpa using hj)]

theorem flatten_len (P : List (List T)) (d : Nat) (h : ∀ p ∈ P, p.length = d) : P.flatten.length = P.length * d := by
  induction P with
  | nil => simp
  | cons p P ih =>
    rw [List.flatten_cons, List.length_append, h p (by simp), ih (fun q hq => h q (by simp [hq])), List.length_cons]; ring

theorem drop_cons_getD (P : List (List T)) (j : Nat) (hj : j < P.length) : P.drop j = P.getD j [] :: P.drop (j + 1) := by
  rw [List.drop_eq_getElem_cons hj, List.getD_eq_getElem?_getD, List.getElem?_eq_getElem hj]; rfl

theorem getD_mem_len (P : List (List T)) (d : Nat) (h : ∀ p ∈ P, p.length = d) {j : Nat} (hj : j < P.length) :
    (P.getD j []).length = d := by
  rw [List.getD_eq_getElem?_getD, List.getElem?_eq_getElem hj]
  exact h _ (List.getElem_mem hj)

theorem flatten_slice (P : List (List T)) (d : Nat) (h : ∀ p ∈ P, p.length = d) {j a w : Nat} (hj : j < P.length)
    (haw : a + w ≤ d) : (P.flatten.drop (j * d + a)).take w = ((P.getD j []).drop a).take w := by
  rw [← List.drop_drop, flatten_drop P d h j (by omega), drop_cons_getD P j hj, List.flatten_cons]
  have hl := getD_mem_len P d h hj
  rw [List.drop_append_of_le_length (by omega), List.take_append_of_le_length (by rw [List.length_drop]; omega)]

theorem slice_flatten (P : List (List T)) (d : Nat) (h : ∀ p ∈ P, p.length = d) {j a w : Nat} (hj : j < P.length)
    (haw : a + w ≤ d) : slice P.flatten (j * d + a) (j * d + a + w) = some (((P.getD j []).drop a).take w) := by
  unfold slice
  have h1 : (j + 1) * d ≤ P.length * d := Nat.mul_le_mul_right _ hj
  have h2 : (j + 1) * d = j * d + d := by ring
  rw [if_pos ⟨by omega, by rw [flatten_len P d h]; omega⟩, show j * d + a + w - (j * d + a) = w by omega,
    flatten_slice P d h hj haw]

end

/-! ## Partitions -/

section

variable {o : Offsets} (ho : Partition o)

include ho

theorem Spec.Partition.range {i : Nat} (hi : i < o.len) :
    o.range i = some (o.offsets.getD i 0, o.offsets.getD i 0 + width o i) ∧ 0 < width o i ∧
      o.offsets.getD i 0 + width o i = o.offsets.getD (i + 1) 0 := by
  have h1 := ho.two
  have h2 : i + 1 < o.offsets.length := by unfold Offsets.len at hi; omega
  have h3 := ho.mono i h2
  unfold Offsets.range width
  rw [if_pos hi]
  refine ⟨?_, by omega, by omega⟩
  rw [show o.offsets.getD i 0 + (o.offsets.getD (i + 1) 0 - o.offsets.getD i 0) = o.offsets.getD (i + 1) 0 by omega]

theorem Spec.Partition.le {i j : Nat} (hij : i ≤ j) (hj : j < o.offsets.length) : o.offsets.getD i 0 ≤ o.offsets.getD j 0 := by
  induction j with
  | zero => rw [Nat.le_zero.mp hij]
  | succ j ih =>
    rcases Nat.lt_or_eq_of_le hij with h | h
    · exact le_trans (ih (by omega) (by omega)) (le_of_lt (ho.mono j hj))
    · rw [h]

theorem Spec.Partition.bound {i : Nat} (hi : i < o.len) : o.offsets.getD i 0 + width o i ≤ o.dim := by
  rw [(ho.range hi).2.2, ← ho.last]
  unfold Offsets.len at hi
  exact ho.le (by omega) (by have := ho.two; omega)

theorem Spec.Partition.len_pos : 0 < o.len := by have := ho.two; unfold Offsets.len; omega

theorem Spec.Partition.width_le {i : Nat} (hi : i < o.len) : width o i ≤ o.dim := by have := ho.bound hi; omega

theorem Spec.Partition.piece_len {T : Type} {i : Nat} (hi : i < o.len) (x : List T) (hx : x.length = o.dim) :
    (piece o i x).length = width o i := by
  have := ho.bound hi
  unfold piece
  rw [List.length_take, List.length_drop]; omega

theorem Spec.Partition.slice {T : Type} {i : Nat} (hi : i < o.len) (x : List T) (hx : x.length = o.dim) :
    Pq.slice x (o.offsets.getD i 0) (o.offsets.getD i 0 + width o i) = some (piece o i x) := by
  have := ho.bound hi
  unfold Pq.slice piece
  rw [if_pos ⟨by omega, by omega⟩, Nat.add_sub_cancel_left]

end

theorem piece_map {T U : Type} (f : T → U) (o : Offsets) (i : Nat) (x : List T) :
    piece o i (x.map f) = (piece o i x).map f := by
  unfold piece; rw [List.map_take, List.map_drop]

section

variable {K : Type} [Field K] [LinearOrder K]

/-! ## Values of the accumulators -/

theorem laneVal_congr (k : Kernel) (x : List (Fl K)) (f g : Nat → Fl K) (h : ∀ i, i < x.length → f i = g i) :
    laneVal k x f = laneVal k x g := by
  unfold laneVal
  have : ∀ L : List Nat, (∀ i ∈ L, i < x.length) → ∀ a, L.foldl (fun acc i => k.step (x.getD i 0) (f i) acc) a =
      L.foldl (fun acc i => k.step (x.getD i 0) (g i) acc) a := by
    intro L
    induction L with
    | nil => intros; rfl
    | cons i L ih =>
      intro hL a
      simp only [List.foldl_cons]
      rw [h i (hL i (by simp)), ih (fun j hj => hL j (by simp [hj]))]
  exact this _ (fun i hi => List.mem_range.mp hi) _

theorem laneVal_num (k : Kernel) (g : K → K → K) (hk : ∀ a b acc : K, k.step (.num a) (.num b) (.num acc) = .num (g a b + acc))
    (x y : List K) (h : x.length = y.length) :
    laneVal k (fl x) (fun i => (fl y).getD i 0) = .num (((x.zip y).map (fun p => g p.1 p.2)).sum) := by
  unfold laneVal fl
  simp only [getD_map_num, List.length_map]
  have : ∀ n, (List.range n).foldl (fun acc i => k.step (.num (x.getD i 0)) (.num (y.getD i 0)) acc) (0 : Fl K) =
      .num (∑ i ∈ range n, g (x.getD i 0) (y.getD i 0)) := by
    intro n
    induction n with
    | zero => rfl
    | succ n ih =>
      rw [List.range_succ, List.foldl_append, ih]
      simp only [List.foldl_cons, List.foldl_nil]
      rw [hk, Finset.sum_range_succ, add_comm]
  rw [this, zip_sum g x y h]

theorem laneVal_nonFinite (x : List (Fl K)) (y : Nat → Fl K) (hx : NonFinite x) :
    (laneVal .mathematical x y).isFinite = false := by
  obtain ⟨e, he, hf⟩ := hx
  obtain ⟨i, hi, rfl⟩ := List.getElem_of_mem he
  unfold laneVal
  have : ∀ n, i < n → ((List.range n).foldl (fun acc i => Kernel.step .mathematical (x.getD i 0) (y i) acc) 0).isFinite
      = false := by
    intro n hn
    induction n with
    | zero => omega
    | succ n ih =>
      rw [List.range_succ, List.foldl_append]
      simp only [List.foldl_cons, List.foldl_nil]
      refine Fl.add_notFinite _ _ ?_
      rcases Nat.lt_succ_iff_lt_or_eq.mp hn with h | h
      · exact Or.inr (ih h)
      · left
        refine Fl.mul_notFinite _ _ (Or.inl ?_)
        rw [← h, List.getD_eq_getElem?_getD, List.getElem?_eq_getElem hi]
        exact hf
  exact this _ hi

theorem squareNorm_some (x : List (Fl K)) : ∃ n, squareNorm x = some n := by
  have hstep : ∀ off s, off + 8 ≤ x.length → ∃ s', sqStep x off s = some s' := by
    intro off s h
    unfold sqStep Vec.load
    rw [if_pos h]; exact ⟨_, rfl⟩
  obtain ⟨q, hq, _⟩ := foldlM_inv (sqMain x) (fun _ _ => True) (x.length / 32)
    ((fun _ => 0 : Lanes (Fl K)), (fun _ => 0 : Lanes (Fl K)), (fun _ => 0 : Lanes (Fl K)), (fun _ => 0 : Lanes (Fl K)))
    trivial (by
      intro i hi s _
      obtain ⟨a, ha⟩ := hstep (32 * i) s.1 (by omega)
      obtain ⟨b, hb⟩ := hstep (32 * i + 8) s.2.1 (by omega)
      obtain ⟨c, hc⟩ := hstep (32 * i + 16) s.2.2.1 (by omega)
      obtain ⟨d, hd⟩ := hstep (32 * i + 24) s.2.2.2 (by omega)
      exact ⟨_, by unfold sqMain; rw [ha, hb, hc, hd]; rfl, trivial⟩)
  unfold squareNorm
  simp only
  rw [hq]
  simp only [Option.bind_eq_bind, Option.bind_some]
  obtain ⟨s, hs, _⟩ := foldlM_inv (fun s j => sqStep x (32 * (x.length / 32) + 8 * j) s) (fun _ _ => True)
    (x.length % 32 / 8) (fun k => (q.1 k + q.2.1 k) + (q.2.2.1 k + q.2.2.2 k)) trivial (by
      intro i hi s _
      obtain ⟨a, ha⟩ := hstep (32 * (x.length / 32) + 8 * i) s (by omega)
      exact ⟨a, ha, trivial⟩)
  rw [hs]
  simp only [Option.bind_some]
  split
  · unfold Vec.loadFirst
    rw [if_pos (by omega)]
    exact ⟨_, rfl⟩
  · exact ⟨_, rfl⟩

/-! ## Chunks of a table -/

/-- The chunk holds part `i` of the pivots. -/
structure ChunkOf (c : Chunk K) (P : List (List (Fl K))) (o : Offsets) (i : Nat) (v : Strided (Fl K)) : Prop where
  holds : c.Holds v
  nrows : v.nrows = P.length
  ncols : v.ncols = width o i
  row : ∀ r, r < P.length → v.row r = some (piece o i (P.getD r []))
  elem : ∀ r col, r < P.length → col < width o i → v.elem r col = (piece o i (P.getD r [])).getD col 0

theorem repr_new_some {n w : Nat} (h : (n + 15) * w < 2 ^ 61) (hn : n < 2 ^ 32) (hw : 0 < w) :
    ∃ r, BRepr.new 16 1 4 n w = some r := by
  have h1 : nextMul n 16 ≤ n + 15 := by unfold nextMul; split <;> omega
  have h2 : nextMul w 1 = w := by unfold nextMul; simp [Nat.mod_one]
  have h3 : nextMul n 16 * w ≤ (n + 15) * w := Nat.mul_le_mul_right _ h1
  have h4 : w ≤ (n + 15) * w := Nat.le_mul_of_pos_left _ (by omega)
  unfold BRepr.new
  simp only [h2]
  rw [if_neg (by omega), if_neg (by omega), if_neg (by omega), if_pos (by omega)]
  exact ⟨_, rfl⟩

/-- The pivots fit: fewer than `2 ^ 32` and together smaller than the address space. -/
structure Fits (P : List (List (Fl K))) (o : Offsets) : Prop where
  pos : 0 < P.length
  count : P.length < 2 ^ 32
  size : (P.length + 15) * o.dim < 2 ^ 61
  rows : ∀ p ∈ P, p.length = o.dim

theorem makeChunk_ok {P : List (List (Fl K))} {o : Offsets} (ho : Partition o) (hP : Fits P o) {i : Nat} (hi : i < o.len) :
    ∃ c v, makeChunk (mat P o.dim) o i = some (some c) ∧ ChunkOf c P o i v := by
  obtain ⟨hr, hw, hnext⟩ := ho.range hi
  have hb := ho.bound hi
  have hfl := flatten_len P o.dim hP.rows
  set a := o.offsets.getD i 0 with ha
  set w := width o i with hwd
  have hd : o.dim ≤ P.length * o.dim := Nat.le_mul_of_pos_left _ hP.pos
  have hslice : Pq.slice (mat P o.dim).data a (mat P o.dim).data.length = some (P.flatten.drop a) := by
    unfold Pq.slice mat
    simp only
    rw [if_pos ⟨by omega, le_refl _⟩, List.take_of_length_le (by simp)]
  obtain ⟨_, _, hst⟩ := C78_strided (P.flatten.drop a) P.length w o.dim
  obtain ⟨hacc, _, hrows⟩ := hst (by omega)
  obtain ⟨v, hv⟩ := hacc.mpr (by
    intro row hrow
    rw [List.length_drop, hfl]
    have h1 : (row + 1) * o.dim ≤ P.length * o.dim := Nat.mul_le_mul_right _ hrow
    have h2 : (row + 1) * o.dim = row * o.dim + o.dim := by ring
    omega)
  obtain ⟨hok, hvr, hvc, _, hvrow⟩ := hrows v (Or.inl hv)
  have hrow : ∀ r, r < P.length → v.row r = some (piece o i (P.getD r [])) := by
    intro r hr'
    rw [(hvrow r hr').1, List.drop_drop, Nat.add_comm a, flatten_slice P o.dim hP.rows hr' hb]
    rfl
  obtain ⟨rp, hrp⟩ := repr_new_some (n := P.length) (w := w)
    (lt_of_le_of_lt (Nat.mul_le_mul_left _ (by omega)) hP.size) hP.count hw
  have hnewarg : BRepr.new 16 1 4 v.nrows v.ncols = some rp := by rw [hvr, hvc]; exact hrp
  obtain ⟨hrpe, m, hm, hmr, hml, hmc⟩ := fromStrided_ok 16 1 4 (by decide) (by decide) v hok rp hnewarg
  have hnorm : ∀ r, r < P.length → (v.row r >>= squareNorm) =
      some ((squareNorm (piece o i (P.getD r []))).getD 0) := by
    intro r hr'
    rw [hrow r hr']
    obtain ⟨n, hn⟩ := squareNorm_some (piece o i (P.getD r []))
    simp only [Option.bind_eq_bind, Option.bind_some, hn, Option.getD_some]
  have hmap := mapM_some (fun i => v.row i >>= squareNorm) (fun r => (squareNorm (piece o i (P.getD r []))).getD 0)
    (List.range P.length) (fun r hr' => hnorm r (List.mem_range.mp hr'))
  refine ⟨⟨m, (List.range P.length).map (fun r => (squareNorm (piece o i (P.getD r []))).getD 0)⟩, v, ?_, ?_⟩
  · unfold makeChunk
    rw [hr]
    simp only [Option.bind_eq_bind, Option.bind_some]
    rw [hslice]
    simp only [Option.bind_some, Nat.add_sub_cancel_left, mat]
    rw [hv]
    simp only [Option.bind_some]
    unfold Chunk.new
    rw [if_neg (by rw [hvc]; omega), if_neg (by rw [hvr]; have := hP.pos; omega), hvr, hmap]
    simp only [Option.bind_eq_bind, Option.bind_some, groupsize]
    rw [hm]
    rfl
  · refine ⟨⟨by rw [hmr, hrpe], by simp only [hml, hmr], fun j hj => by simp only [hmr] at hj ⊢; exact hmc j hj, by simp [hvr],
      fun r hr' => ?_⟩, hvr, hvc, hrow, fun r col hr' hc => ?_⟩
    · rw [hvr] at hr'
      refine ⟨_, hrow r hr', ?_⟩
      obtain ⟨n, hn⟩ := squareNorm_some (piece o i (P.getD r []))
      rw [hn]
      simp only [List.getD_eq_getElem?_getD, List.getElem?_map, List.getElem?_range hr', Option.map_some, Option.getD_some]
      simp only [List.getD_eq_getElem?_getD] at hn
      rw [hn]; rfl
    · rw [(hvrow r hr').2 col hc, ← flatten_slice P o.dim hP.rows hr' hb |> fun h => show
        (P.flatten.drop (r * o.dim + a)).take w = piece o i (P.getD r []) from h]
      rw [List.getD_eq_getElem?_getD, List.getD_eq_getElem?_getD, List.getElem?_drop, List.getElem?_take, if_pos hc,
        List.getElem?_drop]
      congr 2
      ring

theorem makeChunks_ok {P : List (List (Fl K))} {o : Offsets} (ho : Partition o) (hP : Fits P o) (L : List Nat)
    (hL : ∀ i ∈ L, i < o.len) :
    ∃ cs, makeChunks (mat P o.dim) o L = some (some cs) ∧ cs.length = L.length ∧
      ∀ j (hj : j < L.length), ∃ c v, cs[j]? = some c ∧ ChunkOf c P o L[j] v := by
  induction L with
  | nil => exact ⟨[], rfl, rfl, fun j hj => by simp at hj⟩
  | cons i L ih =>
    obtain ⟨c, v, h1, h2⟩ := makeChunk_ok ho hP (hL i (by simp))
    obtain ⟨cs, h3, h4, h5⟩ := ih (fun k hk => hL k (by simp [hk]))
    refine ⟨c :: cs, ?_, by simp [h4], fun j hj => ?_⟩
    · unfold makeChunks
      rw [h1, h3]
      rfl
    · cases j with
      | zero => exact ⟨c, v, rfl, h2⟩
      | succ j =>
        obtain ⟨c', v', h6, h7⟩ := h5 j (by simpa using hj)
        exact ⟨c', v', by simpa using h6, by simpa using h7⟩

/-- The table built from the pivots. -/
structure TableOf (t : Transposed K) (P : List (List (Fl K))) (o : Offsets) : Prop where
  offsets : t.offsets = o
  ncenters : t.ncenters = P.length
  len : t.pivots.length = o.len
  largest : ∀ i, i < o.len → width o i ≤ t.largest
  chunk : ∀ i, i < o.len → ∃ c v, t.pivots[i]? = some c ∧ ChunkOf c P o i v

theorem foldl_max_ge (L : List (Nat × Nat)) (m : Nat) :
    m ≤ L.foldl (fun m r => max m (r.2 - r.1)) m ∧ ∀ r ∈ L, r.2 - r.1 ≤ L.foldl (fun m r => max m (r.2 - r.1)) m := by
  induction L generalizing m with
  | nil => simp
  | cons a L ih =>
    simp only [List.foldl_cons]
    obtain ⟨h1, h2⟩ := ih (max m (a.2 - a.1))
    refine ⟨by omega, fun r hr => ?_⟩
    rcases List.mem_cons.mp hr with rfl | hr
    · omega
    · exact h2 r hr

theorem fromParts_ok {P : List (List (Fl K))} {o : Offsets} (ho : Partition o) (hP : Fits P o) :
    ∃ t, Transposed.fromParts (mat P o.dim) o = some (some t) ∧ TableOf t P o := by
  obtain ⟨cs, h1, h2, h3⟩ := makeChunks_ok ho hP (List.range o.len) (fun i hi => List.mem_range.mp hi)
  have hs := mapM_some (fun i => o.range i) (fun i => (o.offsets.getD i 0, o.offsets.getD i 0 + width o i))
    (List.range o.len) (fun i hi => (ho.range (List.mem_range.mp hi)).1)
  unfold Transposed.fromParts
  rw [if_neg (by simp [mat]), h1]
  simp only [Option.bind_eq_bind, Option.bind_some]
  rw [hs]
  refine ⟨_, rfl, rfl, rfl, by simpa using h2, fun i hi => ?_, fun i hi => ?_⟩
  · have := (foldl_max_ge ((List.range o.len).map (fun i => (o.offsets.getD i 0, o.offsets.getD i 0 + width o i))) 0).2
      (o.offsets.getD i 0, o.offsets.getD i 0 + width o i) (List.mem_map.mpr ⟨i, List.mem_range.mpr hi, rfl⟩)
    simp only [Nat.add_sub_cancel_left] at this
    exact this
  · obtain ⟨c, v, h4, h5⟩ := h3 i (by simpa using hi)
    simp only [List.getElem_range] at h5
    exact ⟨c, v, h4, h5⟩

end

end Verif.Pq
