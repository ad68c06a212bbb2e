import Verif.Pq.TableLemmas

/-! # Lemmas for C79: the codes -/

namespace Verif.Pq

open Verif.Vec Verif.Pq.Spec Finset

section

variable {K : Type} [Field K] [LinearOrder K]

theorem getD_map_fl (Q : List (List K)) (r : Nat) : (Q.map fl).getD r [] = fl (Q.getD r []) := by
  rw [List.getD_eq_getElem?_getD, List.getElem?_map, List.getD_eq_getElem?_getD]
  cases Q[r]? <;> rfl

omit [LinearOrder K] in
theorem piece_fl (o : Offsets) (i : Nat) (x : List K) : piece o i (fl x) = fl (piece o i x) := piece_map _ _ _ _

omit [LinearOrder K] in
theorem sqDist_expand (x y : List K) (h : x.length = y.length) :
    Vec.Spec.sqDist x y = Vec.Spec.dot x x + (Vec.Spec.dot y y - (Vec.Spec.dot x y + Vec.Spec.dot x y)) := by
  have h1 : Vec.Spec.sqDist x y = ∑ j ∈ range x.length, (x.getD j 0 - y.getD j 0) * (x.getD j 0 - y.getD j 0) :=
    zip_sum (fun a b => (a - b) * (a - b)) x y h
  have h2 : Vec.Spec.dot x y = ∑ j ∈ range x.length, x.getD j 0 * y.getD j 0 := zip_sum (fun a b => a * b) x y h
  have h3 : Vec.Spec.dot x x = ∑ j ∈ range x.length, x.getD j 0 * x.getD j 0 := zip_sum (fun a b => a * b) x x rfl
  have h4 : Vec.Spec.dot y y = ∑ j ∈ range x.length, y.getD j 0 * y.getD j 0 := by
    rw [h]; exact zip_sum (fun a b => a * b) y y rfl
  rw [h1, h2, h3, h4, ← Finset.sum_add_distrib, ← Finset.sum_sub_distrib, ← Finset.sum_add_distrib]
  refine Finset.sum_congr rfl (fun j _ => ?_)
  ring

theorem dot_self_nonneg [IsStrictOrderedRing K] (x : List K) : 0 ≤ Vec.Spec.dot x x := by
  have h3 : Vec.Spec.dot x x = ∑ j ∈ range x.length, x.getD j 0 * x.getD j 0 := zip_sum (fun a b => a * b) x x rfl
  rw [h3]
  exact Finset.sum_nonneg (fun j _ => mul_self_nonneg _)

/-! ## One chunk -/

section

variable {c : Chunk K} {Q : List (List K)} {o : Offsets} {i : Nat} {v : Strided (Fl K)}
  (hc : ChunkOf c (Q.map fl) o i v)

include hc

theorem prox_num (hQ : ∀ p ∈ Q, p.length = o.dim) (ho : Partition o) (hi : i < o.len) (y : List K)
    (hy : y.length = width o i) {r : Nat} (hr : r < Q.length) :
    c.prox v (fl y) r = .num (dist Q o i y r - Vec.Spec.dot y y) := by
  have hlen : (piece o i (Q.getD r [])).length = width o i :=
    ho.piece_len hi _ (getD_mem_len Q o.dim hQ hr)
  have hr' : r < (Q.map fl).length := by simpa using hr
  unfold Chunk.prox
  rw [if_pos (by rw [hc.nrows]; exact hr')]
  obtain ⟨row, h1, h2⟩ := hc.holds.norm r (by rw [hc.nrows]; exact hr')
  rw [hc.row r hr', Option.some.injEq] at h1
  rw [← h1, getD_map_fl, piece_fl, show fl (piece o i (Q.getD r [])) = (piece o i (Q.getD r [])).map Fl.num from rfl,
    squareNorm_num, Option.some.injEq] at h2
  rw [← h2]
  have h3 : laneVal .mathematical (fl y) (v.elem r) = .num (Vec.Spec.dot y (piece o i (Q.getD r []))) := by
    rw [laneVal_congr _ _ (v.elem r) (fun col => (fl (piece o i (Q.getD r []))).getD col 0)]
    · exact laneVal_num .mathematical (fun a b => a * b) (fun a b acc => rfl) y _ (by omega)
    · intro col hcol
      rw [hc.elem r col hr' (by unfold fl at hcol; simp at hcol; omega), getD_map_fl, piece_fl]
  rw [h3, Fl.num_add, Fl.num_sub]
  congr 1
  unfold dist
  rw [sqDist_expand _ _ (by omega)]
  ring

omit hc in
theorem prox_nonFinite (x : List (Fl K)) (hx : NonFinite x) (r : Nat) : (c.prox v x r).isFinite = false := by
  unfold Chunk.prox
  split
  · exact Fl.sub_notFinite _ _ (Or.inr (Fl.add_notFinite _ _ (Or.inl (laneVal_nonFinite x _ hx))))
  · rfl

omit hc in
theorem prox_pad (x : List (Fl K)) (r : Nat) (hr : v.nrows ≤ r) : c.prox v x r = .inf := by
  unfold Chunk.prox; rw [if_neg (by omega)]

end

section

variable {c : Chunk K} {P : List (List (Fl K))} {o : Offsets} {i : Nat} {v : Strided (Fl K)}
  (hc : ChunkOf c P o i v) (hn : P.length < 2 ^ 32)

include hc hn

theorem findClosest_any (x : List (Fl K)) (hx : x.length = width o i) :
    ∃ r, c.findClosest x = some r ∧ (r = errIndex ∨ (r < P.length ∧ (c.prox v x r).isFinite = true)) := by
  obtain ⟨t, h1, h2⟩ := findClosest_eq hc.holds x (by rw [hx, hc.ncols])
  refine ⟨_, h1, ?_⟩
  refine finish_sound (c.prox v x) P.length hn (fun r hr => by rw [prox_pad x r (by rw [hc.nrows]; exact hr)]; rfl) _ t
    (fun l hl => ?_)
  rw [h2 l hl]
  rcases seqTrack_sound (c.prox v x) (2 * ((v.nrows + 15) / 16)) l with h | ⟨g, _, h⟩
  · exact Or.inl h
  · exact Or.inr ⟨_, h⟩

theorem findClosest_nonFinite (x : List (Fl K)) (hx : x.length = width o i) (hf : NonFinite x) :
    c.findClosest x = some errIndex := by
  obtain ⟨r, h1, h2 | ⟨_, h2⟩⟩ := findClosest_any hc hn x hx
  · rw [h1, h2]
  · rw [prox_nonFinite x hf] at h2
    exact absurd h2 (by simp)

/-- The single search when all values are finite. -/
theorem findClosest_min (x : List (Fl K)) (hx : x.length = width o i)
    (hfin : ∀ r, r < P.length → (c.prox v x r).isFinite = true)
    (hlt : ∃ r, r < P.length ∧ (c.prox v x r).lt (.num f32Max) = true) :
    ∃ r, c.findClosest x = some r ∧ r < P.length ∧ (∀ r', r' < P.length → ¬ (c.prox v x r').lt (c.prox v x r) = true) ∧
      ∀ r', r' < P.length → ¬ (c.prox v x r).lt (c.prox v x r') = true → Before r r' := by
  obtain ⟨t, h1, h2⟩ := findClosest_eq hc.holds x (by rw [hx, hc.ncols])
  exact ⟨_, h1, finish_min (c.prox v x) P.length (2 * ((v.nrows + 15) / 16)) hn (by rw [hc.nrows]; omega) hfin
    (fun r hr => prox_pad x r (by rw [hc.nrows]; exact hr)) _ (by simp) hlt t h2⟩

theorem before_antisymm {r r' : Nat} (h : Before r r') (h' : Before r' r) : r = r' := by
  clear hc hn
  unfold Before at h h'; omega

variable [IsStrictOrderedRing K]

/-- A query of the batch kernel. -/
theorem batchQuery_same {xs : Strided (Fl K)} {q : Nat} (x : List (Fl K)) (hq : xs.rowUnchecked q = some x)
    (hx : x.length = width o i)
    (hgood : NonFinite x ∨ ((∀ r, r < P.length → (c.prox v x r).isFinite = true) ∧
      ∃ r, r < P.length ∧ (c.prox v x r).lt (.num f32Max) = true)) :
    (do let t ← (List.range c.data.repr.numBlocks).foldlM (c.batchBlock xs q) (fun _ => (.inf, errIndex))
        some (finish .inf t)) = c.findClosest x := by
  obtain ⟨t, h1, h2⟩ := batchQuery_eq hc.holds hq (by rw [hx, hc.ncols])
  rw [h1]
  simp only [Option.bind_eq_bind, Option.bind_some]
  rcases hgood with hf | ⟨hfin, hlt⟩
  · rw [findClosest_nonFinite hc hn x hx hf]
    congr 1
    have := finish_sound (c.prox v x) P.length hn
      (fun r hr => by rw [prox_pad x r (by rw [hc.nrows]; exact hr)]; rfl) .inf t (fun l hl => by
        rw [h2 l hl]
        rcases pairTrack_sound (c.prox v x) ((v.nrows + 15) / 16) l hl with h | ⟨r, _, _, h⟩
        · exact Or.inl h
        · exact Or.inr ⟨_, h⟩)
    rcases this with h | ⟨_, h⟩
    · exact h
    · rw [prox_nonFinite x hf] at h
      exact absurd h (by simp)
  · obtain ⟨r, e1, e2, e3, e4⟩ := findClosest_min hc hn x hx hfin hlt
    rw [e1]
    congr 1
    have hp : ∀ r, c.prox v x r ≠ .nan := by
      intro r
      by_cases hr : r < P.length
      · intro h
        have := hfin r hr
        rw [h] at this
        exact absurd this (by simp [Fl.isFinite])
      · rw [prox_pad x r (by rw [hc.nrows]; omega)]; simp
    obtain ⟨m1, m2, m3⟩ := finish_min (c.prox v x) P.length (2 * ((v.nrows + 15) / 16)) hn (by rw [hc.nrows]; omega) hfin
      (fun r hr => prox_pad x r (by rw [hc.nrows]; exact hr)) .inf (by simp)
      (by
        obtain ⟨r, hr, hlt⟩ := hlt
        refine ⟨r, hr, ?_⟩
        have := hfin r hr
        cases hpr : c.prox v x r <;> simp_all [Fl.isFinite, Fl.lt]) t
      (fun l hl => by rw [h2 l hl, pair_eq_seq _ hp])
    exact before_antisymm hc hn (m3 r e2 (e3 _ m1)) (e4 _ m1 (m2 r e2))

/-- The batch kernel agrees with the single search. -/
theorem findClosestBatch_ok (rows : List (List (Fl K))) (h4 : rows.length = 4) (hw : ∀ x ∈ rows, x.length = width o i)
    (hgood : ∀ x ∈ rows, NonFinite x ∨ ((∀ r, r < P.length → (c.prox v x r).isFinite = true) ∧
      ∃ r, r < P.length ∧ (c.prox v x r).lt (.num f32Max) = true)) (near : Nat → Nat)
    (hnear : ∀ q, q < 4 → c.findClosest (rows.getD q []) = some (near q)) :
    c.findClosestBatch ⟨rows.flatten, batchsize, width o i, width o i⟩ = some ((List.range 4).map near) := by
  unfold Chunk.findClosestBatch
  rw [if_neg (by simp), if_neg (by rw [hc.holds.repr]; simp [hc.ncols])]
  refine mapM_some _ _ _ (fun q hq => ?_)
  have hq4 : q < 4 := List.mem_range.mp hq
  have hmem : rows.getD q [] ∈ rows := by
    rw [List.getD_eq_getElem?_getD, List.getElem?_eq_getElem (by omega)]
    exact List.getElem_mem (by omega)
  rw [← hnear q hq4]
  refine batchQuery_same hc hn _ ?_ (hw _ hmem) (hgood _ hmem)
  have hsl := slice_flatten rows (width o i) hw (j := q) (a := 0) (w := width o i) (by omega) (by omega)
  rw [Nat.add_zero, List.drop_zero, List.take_of_length_le (by rw [hw _ hmem])] at hsl
  unfold slice at hsl
  unfold Strided.rowUnchecked
  simp only
  revert hsl
  split
  · next h =>
    intro hsl
    rw [if_pos h.2, ← hsl, Nat.add_sub_cancel_left]
  · intro h; simp at h

end

/-! ## Closest pivots of finite vectors -/

section

variable [IsStrictOrderedRing K] {c : Chunk K} {Q : List (List K)} {o : Offsets} {i : Nat} {v : Strided (Fl K)}
  (hc : ChunkOf c (Q.map fl) o i v) (hn : Q.length < 2 ^ 32) (hQ : ∀ p ∈ Q, p.length = o.dim) (ho : Partition o)
  (hi : i < o.len)

include hc hn hQ ho hi

theorem good_finite (y : List K) (hy : y.length = width o i) (hb : Bounded Q o i y) :
    (∀ r, r < (Q.map fl).length → (c.prox v (fl y) r).isFinite = true) ∧
      ∃ r, r < (Q.map fl).length ∧ (c.prox v (fl y) r).lt (.num f32Max) = true := by
  simp only [List.length_map]
  refine ⟨fun r hr => by rw [prox_num hc hQ ho hi y hy hr]; rfl, ?_⟩
  obtain ⟨j, hj, hlt⟩ := hb
  refine ⟨j, hj, ?_⟩
  rw [prox_num hc hQ ho hi y hy hj]
  simp only [Fl.lt, decide_eq_true_eq]
  have := dot_self_nonneg y
  linarith

theorem findClosest_finite (y : List K) (hy : y.length = width o i) (hb : Bounded Q o i y) :
    ∃ r, c.findClosest (fl y) = some r ∧ Closest Q o i y r ∧ ∀ j, Closest Q o i y j → Before r j := by
  obtain ⟨h1, h2⟩ := good_finite hc hn hQ ho hi y hy hb
  obtain ⟨r, e1, e2, e3, e4⟩ := findClosest_min hc (by simpa using hn) (fl y) (by unfold fl; simpa using hy) h1 h2
  rw [List.length_map] at e2 e3 e4
  refine ⟨r, e1, ⟨e2, fun j hj => ?_⟩, fun j hj => ?_⟩
  · have := e3 j hj
    rw [prox_num hc hQ ho hi y hy hj, prox_num hc hQ ho hi y hy e2] at this
    simp only [Fl.lt, decide_eq_true_eq, not_lt] at this
    linarith
  · refine e4 j hj.1 ?_
    rw [prox_num hc hQ ho hi y hy hj.1, prox_num hc hQ ho hi y hy e2]
    simp only [Fl.lt, decide_eq_true_eq, not_lt]
    have := hj.2 r e2
    linarith

end

/-! ## The loop over the chunks -/

theorem codeLoop_ok (F : Except CompressErr (List Nat) → Nat → Option (Except CompressErr (List Nat))) (g : Nat → Nat)
    (n : Nat) (hF : ∀ i, i < n → ∀ dst, F (.ok dst) i = some (.ok (dst.set i (g i)))) (dst : List Nat) (hd : n ≤ dst.length) :
    ∃ d, (List.range n).foldlM F (.ok dst) = some (.ok d) ∧ d.length = dst.length ∧ ∀ i, i < n → d.getD i 0 = g i := by
  obtain ⟨s, h1, d, h2, h3, h4⟩ := foldlM_inv F (fun m s => ∃ d, s = .ok d ∧ d.length = dst.length ∧
      ∀ i, i < m → d.getD i 0 = g i) n (.ok dst) ⟨dst, rfl, rfl, fun i hi => by omega⟩ (by
    rintro i hi _ ⟨d, rfl, h2, h3⟩
    refine ⟨_, hF i hi d, _, rfl, by simpa using h2, fun j hj => ?_⟩
    rw [getD_set' _ _ _ _ (by omega)]
    split
    · next h => rw [← h]
    · exact h3 j (by omega))
  exact ⟨d, by rw [h1, h2], h3, h4⟩

theorem codeLoop_err (F : Except CompressErr (List Nat) → Nat → Option (Except CompressErr (List Nat)))
    (hE : ∀ e i, F (.error e) i = some (.error e)) (g : Nat → Nat) (n i : Nat) (hi : i < n)
    (hF : ∀ j, j < i → ∀ dst, F (.ok dst) j = some (.ok (dst.set j (g j)))) (e : CompressErr)
    (hfail : ∀ dst, F (.ok dst) i = some (.error e)) (dst : List Nat) :
    (List.range n).foldlM F (.ok dst) = some (.error e) := by
  obtain ⟨s, h1, h2⟩ := foldlM_inv F (fun m s => (m ≤ i ∧ ∃ d, s = .ok d) ∨ (i < m ∧ s = .error e)) n (.ok dst)
      (Or.inl ⟨by omega, dst, rfl⟩) (by
    rintro j hj s (⟨h1, d, rfl⟩ | ⟨h1, rfl⟩)
    · rcases Nat.lt_or_eq_of_le h1 with h | h
      · exact ⟨_, hF j h d, Or.inl ⟨by omega, _, rfl⟩⟩
      · subst h
        exact ⟨_, hfail d, Or.inr ⟨by omega, rfl⟩⟩
    · exact ⟨_, hE e j, Or.inr ⟨by omega, rfl⟩⟩)
  rcases h2 with ⟨h2, _⟩ | ⟨_, h2⟩
  · omega
  · rw [h1, h2]

/-! ## The basic table -/

theorem mat_row {T : Type} (P : List (List T)) (d : Nat) (h : ∀ p ∈ P, p.length = d) {j : Nat} (hj : j < P.length) :
    (mat P d).row j = some (P.getD j []) := by
  have := slice_flatten P d h (a := 0) (w := d) hj (by omega)
  rw [Nat.add_zero, List.drop_zero, List.take_of_length_le (by rw [getD_mem_len P d h hj])] at this
  unfold Mat.row mat
  simp only
  rw [if_pos hj, this]

theorem sqL2_num (x y : List K) : sqL2 (fl x) (fl y) = .num (Vec.Spec.sqDist x y) := by
  have : ∀ (x y : List K) (a : K), ((fl x).zip (fl y)).foldl (fun acc p => let c := p.1 - p.2; c * c + acc) (Fl.num a) =
      .num (Vec.Spec.sqDist x y + a) := by
    intro x
    induction x with
    | nil => intro y a; simp [fl, Vec.Spec.sqDist]
    | cons u x ih =>
      intro y a
      cases y with
      | nil => simp [fl, Vec.Spec.sqDist]
      | cons w y =>
        show ((fl x).zip (fl y)).foldl _ (Fl.num (((u + -w) * (u + -w)) + a)) = _
        rw [ih]
        congr 1
        unfold Vec.Spec.sqDist
        simp only [List.zip_cons_cons, List.map_cons, List.sum_cons]
        ring
  unfold sqL2
  rw [Fl.zero_eq, this, add_zero]

theorem sq_not_ninf (a b : Fl K) (hb : b ≠ .ninf) : a * a + b ≠ .ninf := by
  show Fl.add (Fl.mul a a) b ≠ .ninf
  cases a <;> cases b <;> simp_all [Fl.add, Fl.mul]

theorem sqL2_not_ninf (x y : List (Fl K)) : sqL2 x y ≠ .ninf := by
  have : ∀ (L : List (Fl K × Fl K)) (a : Fl K), a ≠ .ninf →
      L.foldl (fun acc p => let c := p.1 - p.2; c * c + acc) a ≠ .ninf := by
    intro L
    induction L with
    | nil => intro a h; exact h
    | cons p L ih => intro a h; exact ih _ (sq_not_ninf _ _ h)
  exact this _ _ (by rw [Fl.zero_eq]; simp)

theorem sqL2_nonFinite (x y : List (Fl K)) (h : x.length = y.length) (hf : NonFinite x) : (sqL2 x y).isFinite = false := by
  have hstick : ∀ (L : List (Fl K × Fl K)) (a : Fl K), a.isFinite = false →
      (L.foldl (fun acc p => let c := p.1 - p.2; c * c + acc) a).isFinite = false := by
    intro L
    induction L with
    | nil => intro a h; exact h
    | cons p L ih => intro a h; exact ih _ (Fl.add_notFinite _ _ (Or.inr h))
  have : ∀ (x y : List (Fl K)) (a : Fl K), x.length = y.length → NonFinite x →
      ((x.zip y).foldl (fun acc p => let c := p.1 - p.2; c * c + acc) a).isFinite = false := by
    intro x
    induction x with
    | nil => rintro y a _ ⟨e, he, _⟩; simp at he
    | cons u x ih =>
      rintro y a hl ⟨e, he, hf⟩
      cases y with
      | nil => simp at hl
      | cons w y =>
        simp only [List.zip_cons_cons, List.foldl_cons]
        rcases List.mem_cons.mp he with rfl | he
        · exact hstick _ _ (Fl.add_notFinite _ _ (Or.inl (Fl.mul_notFinite _ _ (Or.inl (Fl.sub_notFinite _ _ (Or.inl hf))))))
        · exact ih y _ (by simpa using hl) ⟨e, he, hf⟩
  exact this _ _ _ h hf

theorem not_lt_inf {d : Fl K} (h1 : d.isFinite = false) (h2 : d ≠ .ninf) : d.lt .inf = false := by
  cases d <;> simp_all [Fl.isFinite, Fl.lt]

section

variable {P : List (List (Fl K))} {o : Offsets} (ho : Partition o) (hP : ∀ p ∈ P, p.length = o.dim) {i : Nat}
  (hi : i < o.len)

include ho hP hi

theorem basicStep_eq (x : List (Fl K)) (hx : x.length = width o i) (s : Fl K × Nat) {j : Nat} (hj : j < P.length) :
    basicStep x (o.offsets.getD i 0) (o.offsets.getD i 0 + width o i) (mat P o.dim) s j =
      some (upd s (sqL2 x (piece o i (P.getD j [])), j)) := by
  have hlen := getD_mem_len P o.dim hP hj
  unfold basicStep
  rw [mat_row P o.dim hP hj]
  simp only [Option.bind_eq_bind, Option.bind_some]
  rw [ho.slice hi _ hlen]
  simp only [Option.bind_some]
  rw [if_neg (by rw [ho.piece_len hi _ hlen]; omega)]
  rfl

theorem basicFold_any (x : List (Fl K)) (hx : x.length = width o i) :
    ∃ s, (List.range P.length).foldlM (basicStep x (o.offsets.getD i 0) (o.offsets.getD i 0 + width o i) (mat P o.dim))
        (.inf, 2 ^ 64 - 1) = some s ∧
      (s = (.inf, 2 ^ 64 - 1) ∨ ∃ j, j < P.length ∧ s = (sqL2 x (piece o i (P.getD j [])), j) ∧
        (sqL2 x (piece o i (P.getD j []))).isFinite = true) := by
  obtain ⟨s, h1, h2⟩ := foldlM_inv (basicStep x (o.offsets.getD i 0) (o.offsets.getD i 0 + width o i) (mat P o.dim))
    (fun n s => s = (.inf, 2 ^ 64 - 1) ∨ ∃ j, j < n ∧ s = (sqL2 x (piece o i (P.getD j [])), j) ∧
        (sqL2 x (piece o i (P.getD j []))).isFinite = true) P.length (.inf, 2 ^ 64 - 1) (Or.inl rfl) (by
      intro j hj s hs
      refine ⟨_, basicStep_eq ho hP hi x hx s hj, ?_⟩
      unfold upd
      by_cases hc : (sqL2 x (piece o i (P.getD j []))).lt s.1 = true
      · rw [if_pos hc]
        refine Or.inr ⟨j, by omega, rfl, ?_⟩
        have hns : s.1 = .inf ∨ s.1.isFinite = true := by
          rcases hs with h | ⟨k, _, h, h'⟩
          · left; rw [h]
          · right; rw [h]; exact h'
        have := sqL2_not_ninf x (piece o i (P.getD j []))
        cases hd : sqL2 x (piece o i (P.getD j [])) <;> cases hs1 : s.1 <;> simp_all [Fl.lt, Fl.isFinite]
      · rw [if_neg hc]
        rcases hs with h | ⟨k, h1, h2⟩
        · exact Or.inl h
        · exact Or.inr ⟨k, by omega, h2⟩)
  exact ⟨s, h1, h2⟩

end

section

variable {Q : List (List K)} {o : Offsets} (ho : Partition o) (hQ : ∀ p ∈ Q, p.length = o.dim) {i : Nat}
  (hi : i < o.len)

include ho hQ hi

omit [LinearOrder K] in
theorem rows_fl : ∀ p ∈ Q.map fl, p.length = o.dim := by
  intro p hp
  obtain ⟨q, hq, rfl⟩ := List.mem_map.mp hp
  unfold fl
  rw [List.length_map]
  exact hQ q hq

theorem basicFold_finite (y : List K) (hy : y.length = width o i) (hpos : 0 < Q.length) :
    ∃ j, (List.range (Q.map fl).length).foldlM (basicStep (fl y) (o.offsets.getD i 0) (o.offsets.getD i 0 + width o i)
        (mat (Q.map fl) o.dim)) (.inf, 2 ^ 64 - 1) = some (.num (dist Q o i y j), j) ∧
      Closest Q o i y j ∧ ∀ j', Closest Q o i y j' → j ≤ j' := by
  have hrows := rows_fl ho hQ hi
  have hval : ∀ j, sqL2 (fl y) (piece o i ((Q.map fl).getD j [])) = .num (dist Q o i y j) := by
    intro j
    rw [getD_map_fl, piece_fl, sqL2_num]; rfl
  obtain ⟨s, h1, h2⟩ := foldlM_inv (basicStep (fl y) (o.offsets.getD i 0) (o.offsets.getD i 0 + width o i)
      (mat (Q.map fl) o.dim))
    (fun n s => (n = 0 ∧ s = (.inf, 2 ^ 64 - 1)) ∨ ∃ j, j < n ∧ s = (.num (dist Q o i y j), j) ∧
        (∀ j', j' < n → dist Q o i y j ≤ dist Q o i y j') ∧ ∀ j', j' < j → dist Q o i y j < dist Q o i y j')
    (Q.map fl).length (.inf, 2 ^ 64 - 1) (Or.inl ⟨rfl, rfl⟩) (by
      intro j hj s hs
      refine ⟨_, basicStep_eq ho hrows hi (fl y) (by unfold fl; simpa using hy) s hj, ?_⟩
      rw [hval]
      unfold upd
      rcases hs with ⟨h1, rfl⟩ | ⟨k, h1, rfl, h3, h4⟩
      · subst h1
        exact Or.inr ⟨0, by omega, rfl, fun j' hj' => by rw [show j' = 0 by omega], fun j' hj' => by omega⟩
      · simp only [Fl.lt, decide_eq_true_eq]
        by_cases hc : dist Q o i y j < dist Q o i y k
        · rw [if_pos hc]
          refine Or.inr ⟨j, by omega, rfl, fun j' hj' => ?_, fun j' hj' => ?_⟩
          · rcases Nat.lt_succ_iff_lt_or_eq.mp hj' with h | rfl
            · exact le_of_lt (lt_of_lt_of_le hc (h3 j' h))
            · exact le_refl _
          · exact lt_of_lt_of_le hc (h3 j' hj')
        · rw [if_neg hc]
          refine Or.inr ⟨k, by omega, rfl, fun j' hj' => ?_, h4⟩
          rcases Nat.lt_succ_iff_lt_or_eq.mp hj' with h | rfl
          · exact h3 j' h
          · exact not_lt.mp hc)
  rw [List.length_map] at h2
  rcases h2 with ⟨h, _⟩ | ⟨j, h3, rfl, h5, h6⟩
  · omega
  · refine ⟨j, h1, ⟨h3, h5⟩, fun j' hj' => ?_⟩
    by_contra hc
    exact absurd (hj'.2 j h3) (not_le.mpr (h6 j' (by omega)))

end

end

end Verif.Pq
