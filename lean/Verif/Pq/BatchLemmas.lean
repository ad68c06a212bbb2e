import Verif.Pq.CodeLemmas

/-! # Lemmas for C79: batches and tables of partial results -/

namespace Verif.Pq

open Verif.Vec Verif.Pq.Spec Finset

section

variable {K : Type} [Field K] [LinearOrder K] [IsStrictOrderedRing K]

/-- The row is handled alike by the two searches. -/
def Good (c : Chunk K) (P : List (List (Fl K))) (v : Strided (Fl K)) (x : List (Fl K)) : Prop :=
  NonFinite x ∨ ((∀ r, r < P.length → (c.prox v x r).isFinite = true) ∧
      ∃ r, r < P.length ∧ (c.prox v x r).lt (.num f32Max) = true)

variable {P : List (List (Fl K))} {o : Offsets} (ho : Partition o) (hn : P.length < 2 ^ 32)
  {R : List (List (Fl K))} (hR : ∀ x ∈ R, x.length = o.dim)

/-- Calls for rows `0 .. n` of chunk `i`. -/
def rowCalls {σ : Type} (f : Delegate σ) (i : Nat) (near : Nat → Nat) (s : BatchState σ) (n : Nat) : BatchState σ :=
  (List.range n).foldl (fun s row => callDelegate f s row i (near row)) s

theorem rowCalls_err {σ : Type} (f : Delegate σ) (i : Nat) (near : Nat → Nat) (e : Nat × Nat) (n : Nat) :
    rowCalls f i near (.error e) n = .error e := by
  unfold rowCalls
  induction n with
  | zero => rfl
  | succ n ih => rw [List.range_succ, List.foldl_append, ih]; rfl

theorem rowCalls_add {σ : Type} (f : Delegate σ) (i : Nat) (near : Nat → Nat) (s : BatchState σ) (m n : Nat) :
    rowCalls f i near s (m + n) =
      (List.range n).foldl (fun s j => callDelegate f s (m + j) i (near (m + j))) (rowCalls f i near s m) := by
  unfold rowCalls
  rw [List.range_add, List.foldl_append, List.foldl_map]

theorem callDelegate_fold_err {σ : Type} (f : Delegate σ) (i : Nat) (g h : Nat → Nat) (e : Nat × Nat) (n : Nat) :
    (List.range n).foldl (fun s j => callDelegate f s (h j) i (g j)) (.error e) = .error e := by
  induction n with
  | zero => rfl
  | succ n ih => rw [List.range_succ, List.foldl_append, ih]; rfl

theorem foldlM_some {α β : Type} (f : β → α → Option β) (g : β → α → β) (L : List α) (h : ∀ b, ∀ a ∈ L, f b a = some (g b a))
    (b : β) : L.foldlM f b = some (L.foldl g b) := by
  induction L generalizing b with
  | nil => rfl
  | cons a L ih =>
    rw [List.foldlM_cons, h b a (by simp)]
    exact ih (fun b c hc => h b c (by simp [hc])) _

include ho hn hR

theorem batchRows_ok {σ : Type} (f : Delegate σ) {c : Chunk K} {i : Nat} (hi : i < o.len) {v : Strided (Fl K)}
    (hc : ChunkOf c P o i v) (near : Nat → Nat)
    (hnear : ∀ row, row < R.length → c.findClosest (piece o i (R.getD row [])) = some (near row))
    (hgood : ∀ row, row < R.length → Good c P v (piece o i (R.getD row []))) (s : BatchState σ) (b : Nat)
    (hb : 4 * b < R.length) :
    Transposed.batchRows f (mat R o.dim) c i (o.offsets.getD i 0) (o.offsets.getD i 0 + width o i) o.dim s b =
      some ((List.range (min R.length (4 * b + 4) - 4 * b)).foldl
        (fun s j => callDelegate f s (4 * b + j) i (near (4 * b + j))) s) := by
  have hbd := ho.bound hi
  unfold Transposed.batchRows
  cases s with
  | error e => simp only [callDelegate_fold_err]
  | ok st =>
    simp only [mat, batchsize, Nat.add_sub_cancel_left, Nat.mul_comm b 4]
    by_cases hfull : min R.length (4 * b + 4) - 4 * b = 4
    · rw [if_pos hfull, hfull]
      have hrows : (List.range 4).mapM (fun j => slice R.flatten (4 * b * o.dim + o.offsets.getD i 0 + j * o.dim)
          (4 * b * o.dim + o.offsets.getD i 0 + j * o.dim + width o i)) =
          some ((List.range 4).map (fun j => piece o i (R.getD (4 * b + j) []))) := by
        refine mapM_some _ _ _ (fun j hj => ?_)
        have hj4 : j < 4 := List.mem_range.mp hj
        rw [show 4 * b * o.dim + o.offsets.getD i 0 + j * o.dim = (4 * b + j) * o.dim + o.offsets.getD i 0 by ring,
          slice_flatten R o.dim hR (by omega) hbd]
        rfl
      rw [hrows]
      simp only [Option.bind_eq_bind, Option.bind_some]
      have hbatch := findClosestBatch_ok hc hn ((List.range 4).map (fun j => piece o i (R.getD (4 * b + j) [])))
        (by simp)
        (by
          intro x hx
          obtain ⟨j, hj, rfl⟩ := List.mem_map.mp hx
          have hj4 : j < 4 := List.mem_range.mp hj
          exact ho.piece_len hi _ (getD_mem_len R o.dim hR (by omega)))
        (by
          intro x hx
          obtain ⟨j, hj, rfl⟩ := List.mem_map.mp hx
          have hj4 : j < 4 := List.mem_range.mp hj
          exact hgood _ (by omega))
        (fun q => near (4 * b + q))
        (by
          intro q hq
          rw [List.getD_eq_getElem?_getD, List.getElem?_map, List.getElem?_range hq]
          exact hnear _ (by omega))
      unfold batchsize at hbatch
      rw [hbatch]
      simp only [Option.bind_some]
      refine foldlM_some _ _ _ (fun s j hj => ?_) _
      have hj4 : j < 4 := List.mem_range.mp hj
      rw [List.getElem?_map, List.getElem?_range hj4]
      rfl
    · rw [if_neg hfull]
      refine foldlM_some _ _ _ (fun s j hj => ?_) _
      have hj4 : j < min R.length (4 * b + 4) - 4 * b := List.mem_range.mp hj
      cases s with
      | error e => rfl
      | ok st =>
        simp only
        rw [slice_flatten R o.dim hR (by omega) hbd]
        simp only [Option.bind_eq_bind, Option.bind_some]
        rw [show ((R.getD (4 * b + j) []).drop (o.offsets.getD i 0)).take (width o i) = piece o i (R.getD (4 * b + j) []) from rfl,
          hnear _ (by omega)]
        rfl

theorem batchChunk_ok {σ : Type} (f : Delegate σ) {t : Transposed K} (ht : TableOf t P o) {c : Chunk K} {i : Nat}
    (hi : i < o.len) {v : Strided (Fl K)} (htc : t.pivots[i]? = some c) (hc : ChunkOf c P o i v) (near : Nat → Nat)
    (hnear : ∀ row, row < R.length → c.findClosest (piece o i (R.getD row [])) = some (near row))
    (hgood : ∀ row, row < R.length → Good c P v (piece o i (R.getD row []))) (s : BatchState σ) :
    t.batchChunk f (mat R o.dim) s i = some (rowCalls f i near s R.length) := by
  obtain ⟨hr, hw, _⟩ := ho.range hi
  unfold Transposed.batchChunk
  rw [htc]
  simp only [Option.bind_eq_bind, Option.bind_some]
  rw [ht.offsets, hr]
  simp only [Option.bind_some, Nat.add_sub_cancel_left]
  rw [if_neg (by omega), if_neg (by
    have := ht.largest i hi
    unfold batchsize
    omega)]
  have hm : (mat R o.dim).nrows = R.length := rfl
  simp only [hm, batchsize]
  obtain ⟨s', h1, h2⟩ := foldlM_inv
    (Transposed.batchRows f (mat R o.dim) c i (o.offsets.getD i 0) (o.offsets.getD i 0 + width o i) o.dim)
    (fun n s' => s' = rowCalls f i near s (min R.length (4 * n))) ((R.length + 4 - 1) / 4) s
    (by simp [rowCalls]) (by
      rintro b hb _ rfl
      have hb4 : 4 * b < R.length := by omega
      refine ⟨_, batchRows_ok ho hn hR f hi hc near hnear hgood _ b hb4, ?_⟩
      rw [show min R.length (4 * b) = 4 * b by omega, ← rowCalls_add,
        show 4 * b + (min R.length (4 * b + 4) - 4 * b) = min R.length (4 * (b + 1)) by omega])
  rw [h1, h2, show min R.length (4 * ((R.length + 4 - 1) / 4)) = R.length by omega]

omit [Field K] [LinearOrder K] [IsStrictOrderedRing K] ho hn hR in
theorem deliver_eq {σ : Type} (f : Delegate σ) (near : Nat → Nat → Nat) (L : List (Nat × Nat)) (s : BatchState σ) :
    L.foldl (fun s c => callDelegate f s c.1 c.2 (near c.1 c.2)) s =
      match s with
      | .error e => .error e
      | .ok st => deliver f near L st := by
  induction L generalizing s with
  | nil => cases s <;> rfl
  | cons p L ih =>
    rw [List.foldl_cons, ih]
    cases s with
    | error e => rfl
    | ok st =>
      simp only [callDelegate, deliver]
      cases f st p.1 p.2 (near p.1 p.2) <;> rfl

theorem compressBatch_ok {σ : Type} (f : Delegate σ) {t : Transposed K} (ht : TableOf t P o) (near : Nat → Nat → Nat)
    (hnear : ∀ i c v, i < o.len → t.pivots[i]? = some c → ChunkOf c P o i v → ∀ row, row < R.length →
      c.findClosest (piece o i (R.getD row [])) = some (near row i) ∧ Good c P v (piece o i (R.getD row []))) (s : σ) :
    t.compressBatch (mat R o.dim) f s = some (deliver f near (callOrder R.length o.len) s) := by
  unfold Transposed.compressBatch
  rw [if_neg (by rw [ht.offsets]; simp [mat]), ht.len]
  rw [foldlM_some _ (fun s i => rowCalls f i (fun row => near row i) s R.length) _ (fun s i hi => by
    have hi' : i < o.len := List.mem_range.mp hi
    obtain ⟨c, v, h1, h2⟩ := ht.chunk i hi'
    exact batchChunk_ok ho hn hR f ht hi' h1 h2 _ (fun row hr => (hnear i c v hi' h1 h2 row hr).1)
      (fun row hr => (hnear i c v hi' h1 h2 row hr).2) s)]
  congr 1
  have := deliver_eq f near (callOrder R.length o.len) (.ok s)
  rw [← show _ = deliver f near (callOrder R.length o.len) s from this]
  unfold callOrder rowCalls
  rw [List.foldl_flatMap]
  congr 1
  funext s i
  rw [List.foldl_map]

end

/-! ## Partial results -/

section

variable {K : Type} [Field K] [LinearOrder K]

omit [LinearOrder K] in
theorem storeFirst_ok (mem : List (Fl K)) (off n : Nat) (v : Lanes (Fl K)) (h : off + min n 8 ≤ mem.length) :
    ∃ m, storeFirst mem off n v = some m ∧ m.length = mem.length ∧
      ∀ j, m.getD j 0 = if off ≤ j ∧ j < off + min n 8 then v (j - off) else mem.getD j 0 := by
  unfold storeFirst
  rw [if_pos h]
  refine ⟨_, rfl, ?_⟩
  generalize min n 8 = k at *
  induction k with
  | zero => simp
  | succ k ih =>
    obtain ⟨h1, h2⟩ := ih (by omega)
    rw [List.range_succ, List.foldl_append]
    simp only [List.foldl_cons, List.foldl_nil, List.length_set]
    refine ⟨h1, fun j => ?_⟩
    rw [getD_set' _ _ _ _ (by omega), h2 j]
    by_cases hj : j = off + k
    · rw [if_pos hj, if_pos (by omega)]; congr 1; omega
    · rw [if_neg hj]
      by_cases hj' : off ≤ j ∧ j < off + k
      · rw [if_pos hj', if_pos (by omega)]
      · rw [if_neg hj', if_neg (by omega)]

variable {c : Chunk K} {v : Strided (Fl K)} (h : c.Holds v) (k : Kernel) (x : List (Fl K)) (hx : x.length = v.ncols)

include h hx

theorem processBlock_ok (into : List (Fl K)) (hl : into.length = v.nrows) {b : Nat} (hb : b < (v.nrows + 15) / 16)
    (hin : ∀ j, j < 16 * b → into.getD j 0 = laneVal k x (v.elem j)) :
    ∃ out, c.processBlock k x into b = some out ∧ out.length = v.nrows ∧
      ∀ j, j < min v.nrows (16 * (b + 1)) → out.getD j 0 = laneVal k x (v.elem j) := by
  have hnb : c.data.repr.numBlocks = (v.nrows + 15) / 16 := by rw [h.blocks]; split <;> omega
  obtain ⟨d, d1, d2, d3⟩ := computeInBlock_ok h k x hx (b := b) (by rw [hnb]; exact hb)
  have hval1 : ∀ j, 16 * b ≤ j → j < 16 * b + 8 → j < v.nrows → d.1 (j - 16 * b) = laneVal k x (v.elem j) := by
    intro j h1 h2 h3
    rw [d2 _ (by omega), show 16 * b + (j - 16 * b) = j by omega, laneVal_padRow _ _ _ h3]
  have hval2 : ∀ j, 16 * b + 8 ≤ j → j < 16 * b + 16 → j < v.nrows → d.2 (j - (16 * b + 8)) = laneVal k x (v.elem j) := by
    intro j h1 h2 h3
    rw [d3 _ (by omega), show 16 * b + 8 + (j - (16 * b + 8)) = j by omega, laneVal_padRow _ _ _ h3]
  unfold Chunk.processBlock
  rw [d1]
  simp only [Option.bind_eq_bind, Option.bind_some, h.rem, h.full, groupsize]
  by_cases hlast : v.nrows % 16 ≠ 0 ∧ b = v.nrows / 16
  · rw [if_pos hlast]
    obtain ⟨hr, hbe⟩ := hlast
    rw [← hbe]
    obtain ⟨m, m1, m2, m3⟩ := storeFirst_ok into (16 * b) (min (v.nrows % 16) 8) d.1 (by rw [hl]; omega)
    rw [m1]
    simp only [Option.bind_some]
    by_cases hhi : v.nrows % 16 - min (v.nrows % 16) 8 ≠ 0
    · rw [if_pos hhi]
      obtain ⟨m', n1, n2, n3⟩ := storeFirst_ok m (16 * b + 8) (v.nrows % 16 - min (v.nrows % 16) 8) d.2
        (by rw [m2, hl]; omega)
      refine ⟨m', n1, by omega, fun j hj => ?_⟩
      rw [n3 j]
      by_cases hj2 : 16 * b + 8 ≤ j
      · rw [if_pos (by omega)]
        exact hval2 j hj2 (by omega) (by omega)
      · rw [if_neg (by omega), m3 j]
        by_cases hj1 : 16 * b ≤ j
        · rw [if_pos (by omega)]
          exact hval1 j hj1 (by omega) (by omega)
        · rw [if_neg (by omega)]
          exact hin j (by omega)
    · rw [if_neg hhi]
      refine ⟨m, rfl, by omega, fun j hj => ?_⟩
      rw [m3 j]
      by_cases hj1 : 16 * b ≤ j
      · rw [if_pos (by omega)]
        exact hval1 j hj1 (by omega) (by omega)
      · rw [if_neg (by omega)]
        exact hin j (by omega)
  · rw [if_neg hlast]
    have hbf : b < v.nrows / 16 := by
      rcases Nat.lt_or_ge b (v.nrows / 16) with h1 | h1
      · exact h1
      · exact absurd ⟨by omega, by omega⟩ hlast
    obtain ⟨m, m1, m2, m3⟩ := storeFirst_ok into (16 * b) 8 d.1 (by rw [hl]; omega)
    rw [m1]
    simp only [Option.bind_some]
    obtain ⟨m', n1, n2, n3⟩ := storeFirst_ok m (16 * b + 8) 8 d.2 (by rw [m2, hl]; omega)
    refine ⟨m', n1, by omega, fun j hj => ?_⟩
    rw [n3 j]
    by_cases hj2 : 16 * b + 8 ≤ j
    · rw [if_pos (by omega)]
      exact hval2 j hj2 (by omega) (by omega)
    · rw [if_neg (by omega), m3 j]
      by_cases hj1 : 16 * b ≤ j
      · rw [if_pos (by omega)]
        exact hval1 j hj1 (by omega) (by omega)
      · rw [if_neg (by omega)]
        exact hin j (by omega)

theorem processInto_ok (into : List (Fl K)) (hl : into.length = v.nrows) :
    ∃ out, c.processInto k x into = some out ∧ out.length = v.nrows ∧
      ∀ j, j < v.nrows → out.getD j 0 = laneVal k x (v.elem j) := by
  have hnb : c.data.repr.numBlocks = (v.nrows + 15) / 16 := by rw [h.blocks]; split <;> omega
  unfold Chunk.processInto
  rw [if_neg (by rw [hx, h.repr]; simp), if_neg (by rw [hl, h.repr]; simp), hnb]
  obtain ⟨out, h1, h2, h3⟩ := foldlM_inv (c.processBlock k x)
    (fun n out => out.length = v.nrows ∧ ∀ j, j < min v.nrows (16 * n) → out.getD j 0 = laneVal k x (v.elem j))
    ((v.nrows + 15) / 16) into ⟨hl, fun j hj => by omega⟩ (by
      intro b hb s ⟨hs1, hs2⟩
      exact processBlock_ok h k x hx s hs1 hb (fun j hj => hs2 j (by omega)))
  exact ⟨out, h1, h2, fun j hj => h3 j (by omega)⟩

end

end Verif.Pq
