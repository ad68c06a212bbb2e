import Verif.Multi.Lemmas
import Verif.Multi.Spec

/-! # From the loops to rows and scores -/

namespace Verif.Multi

open Verif.Vec

section

variable {T K : Type} [CommRing K] [LinearOrder K]

theorem Mat.row_length {m : Mat T} (h : m.Ok) {i : Nat} (hi : i < m.nrows) : (m.row i).length = m.ncols := by
  unfold Mat.Ok at h
  unfold Mat.row
  have := Nat.mul_le_mul_right m.ncols (show i + 1 ≤ m.nrows from hi)
  rw [Nat.succ_mul] at this
  simp
  omega

theorem Mat.row_get {m : Mat T} [Zero T] (h : m.Ok) {i c : Nat} (hi : i < m.nrows) (hc : c < m.ncols) :
    (m.row i)[c]? = some (m.data.getD (i * m.ncols + c) 0) := by
  unfold Mat.Ok at h
  unfold Mat.row
  have := Nat.mul_le_mul_right m.ncols (show i + 1 ≤ m.nrows from hi)
  rw [Nat.succ_mul] at this
  rw [List.getElem?_take, if_pos hc, List.getElem?_drop, List.getD_eq_getElem?_getD,
    List.getElem?_eq_getElem (by omega)]
  rfl

theorem Mat.rows_length (m : Mat T) : m.rows.length = m.nrows := by simp [Mat.rows]

theorem Mat.mem_rows {m : Mat T} {x : List T} : x ∈ m.rows ↔ ∃ i, i < m.nrows ∧ m.row i = x := by
  simp [Mat.rows]

theorem foldl_add_rev (f : Nat → K) (l : List Nat) (s : K) :
    l.foldl (fun acc i => f i + acc) s = (l.map f).sum + s := by
  induction l generalizing s with
  | nil => simp
  | cons a l ih => simp only [List.foldl_cons, List.map_cons, List.sum_cons]; rw [ih]; ring

theorem ipOf_eq_dot [Zero T] (conv : T → K) {k : Nat} (x y : List T) (hx : x.length = k) (hy : y.length = k)
    (av bv : Nat → Nat → K) (i j : Nat) (ha : ∀ c, c < k → x[c]?.map conv = some (av i c))
    (hb : ∀ c, c < k → y[c]?.map conv = some (bv j c)) : ipOf k av bv i j = dot conv x y := by
  unfold ipOf dot
  rw [foldl_add_rev, add_zero]
  congr 1
  refine List.ext_getElem? fun c => ?_
  by_cases hc : c < k
  · have h1 := ha c hc
    have h2 := hb c hc
    rw [List.getElem?_eq_getElem (by omega)] at h1 h2
    simp only [Option.map_some, Option.some.injEq] at h1 h2
    rw [List.getElem?_map, List.getElem?_range hc, List.getElem?_eq_getElem (by simp; omega), List.getElem_zipWith, h1, h2]
    rfl
  · rw [List.getElem?_eq_none (by simp; omega), List.getElem?_eq_none (by simp; omega)]

/-- The score the fallback computes. -/
def scoreOf (conv : T → K) (fmax : K) (q : List T) (docs : List (List T)) : K :=
  docs.foldl (fun m d => min m (-dot conv q d)) fmax

theorem foldl_min_le (f : List T → K) (docs : List (List T)) (v : K) :
    docs.foldl (fun m d => min m (f d)) v ≤ v ∧ (∀ d ∈ docs, docs.foldl (fun m d => min m (f d)) v ≤ f d) ∧
      (docs.foldl (fun m d => min m (f d)) v = v ∨ ∃ d ∈ docs, docs.foldl (fun m d => min m (f d)) v = f d) := by
  induction docs generalizing v with
  | nil => exact ⟨le_refl _, by simp, Or.inl rfl⟩
  | cons d ds ih =>
    obtain ⟨h1, h2, h3⟩ := ih (min v (f d))
    rw [List.foldl_cons]
    refine ⟨le_trans h1 (min_le_left _ _), ?_, ?_⟩
    · intro d' hd'
      rcases List.mem_cons.1 hd' with e | e
      · subst e; exact le_trans h1 (min_le_right _ _)
      · exact h2 d' e
    · rcases h3 with e | ⟨d', hd', e⟩
      · rcases min_choice v (f d) with c | c
        · left; rw [e, c]
        · right; exact ⟨d, by simp, by rw [e, c]⟩
      · right; exact ⟨d', by simp [hd'], e⟩

theorem scoreOf_best (conv : T → K) (fmax : K) (q : List T) (docs : List (List T)) (hne : docs ≠ [])
    (hf : ∀ d ∈ docs, -dot conv q d ≤ fmax) : BestScore conv q docs (scoreOf conv fmax q docs) := by
  obtain ⟨h1, h2, h3⟩ := foldl_min_le (fun d => -dot conv q d) docs fmax
  refine ⟨?_, h2⟩
  rcases h3 with e | h
  · cases docs with
    | nil => exact absurd rfl hne
    | cons d ds =>
      refine ⟨d, by simp, le_antisymm (h2 d (by simp)) ?_⟩
      show _ ≤ scoreOf conv fmax q (d :: ds)
      unfold scoreOf
      rw [e]; exact hf d (by simp)
  · exact h

/-! ## The fallback -/

theorem minLoop_eq (conv : T → K) (q : List T) (docs : List (List T)) (m : K) (h : ∀ d ∈ docs, q.length = d.length) :
    minLoop conv q docs m = some (docs.foldl (fun m d => min m (-dot conv q d)) m) := by
  induction docs generalizing m with
  | nil => rfl
  | cons d ds ih =>
    rw [minLoop, negIp, if_pos (h d (by simp))]
    exact ih _ (fun d' hd' => h d' (by simp [hd']))

/-- The calls `f(i, score)`. -/
def callsFrom (f : List T → K) : Nat → List (List T) → List (Nat × K)
  | _, [] => []
  | i, q :: qs => (i, f q) :: callsFrom f (i + 1) qs

theorem simLoop_eq (conv : T → K) (fmax : K) (docs qs : List (List T)) (i : Nat)
    (h : ∀ q ∈ qs, ∀ d ∈ docs, q.length = d.length) :
    simLoop conv fmax docs i qs = some (callsFrom (fun q => scoreOf conv fmax q docs) i qs) := by
  induction qs generalizing i with
  | nil => rfl
  | cons q qs ih =>
    rw [simLoop, minLoop_eq _ _ _ _ (h q (by simp))]
    dsimp only
    rw [ih _ (fun q' hq' => h q' (by simp [hq']))]
    rfl

theorem callsFrom_set (f : List T → K) (qs : List (List T)) (i : Nat) (s : List K) (h : s.length = i + qs.length) :
    (callsFrom f i qs).foldl (fun s p => s.set p.1 p.2) s = s.take i ++ qs.map f := by
  induction qs generalizing i s with
  | nil => simp [callsFrom]; simp at h; omega
  | cons q qs ih =>
    simp only [callsFrom, List.foldl_cons]
    rw [ih _ _ (by simp at h ⊢; omega)]
    simp only [List.length_cons] at h
    rw [List.take_add_one, List.take_set_of_le (le_refl i), List.getElem?_set_self (by omega)]
    simp

theorem callsFrom_sum (f : List T → K) (qs : List (List T)) (i : Nat) (s : K) :
    (callsFrom f i qs).foldl (fun s p => s + p.2) s = s + (qs.map f).sum := by
  induction qs generalizing i s with
  | nil => simp [callsFrom]
  | cons q qs ih =>
    simp only [callsFrom, List.foldl_cons, List.map_cons, List.sum_cons]
    rw [ih]; ring

variable (conv : T → K) (fmax : K)

theorem lengths {q doc : Mat T} (hq : q.Ok) (hd : doc.Ok) (hk : q.ncols = doc.ncols) :
    ∀ x ∈ q.rows, ∀ d ∈ doc.rows, x.length = d.length := by
  intro x hx d hd'
  obtain ⟨i, hi, rfl⟩ := Mat.mem_rows.1 hx
  obtain ⟨j, hj, rfl⟩ := Mat.mem_rows.1 hd'
  rw [Mat.row_length hq hi, Mat.row_length hd hj, hk]

theorem reference_eq {q doc : Mat T} (hq : q.Ok) (hd : doc.Ok) (hk : q.ncols = doc.ncols) (h0 : 0 < doc.nrows)
    (scores : List K) (hs : scores.length = q.nrows) :
    maxSimEvaluate conv fmax q doc scores = some (.ok (q.rows.map (fun x => scoreOf conv fmax x doc.rows))) := by
  unfold maxSimEvaluate maxSimKernel
  rw [if_neg (by omega), if_neg (by omega), simLoop_eq _ _ _ _ _ (lengths hq hd hk)]
  dsimp only
  rw [callsFrom_set _ _ _ _ (by rw [Mat.rows_length]; omega)]
  rfl

/-! ## The prepared kernel -/

theorem QueryMem.of_prepare [Zero T] {c : Kern} (hc : c.Ok) {elsize : Nat} {q : Mat T} (hq : q.Ok)
    (hr : (BRepr.new c.aPanel 1 elsize q.nrows q.ncols).isSome) :
    ∃ m, prepare c elsize q = some m ∧ m.repr = ⟨c.aPanel, 1, q.nrows, q.ncols⟩ ∧
      QueryMem q.ncols (fun x i => if x < q.nrows then conv (q.data.getD (x * q.ncols + i) 0) else conv 0) conv c.aPanel
        m.mem (divCeil q.nrows c.aPanel) := by
  obtain ⟨r, hr⟩ := Option.isSome_iff_exists.1 hr
  have hv : (⟨q.data, q.nrows, q.ncols, q.ncols⟩ : Strided T).Ok := by
    refine ⟨le_refl _, ?_⟩
    unfold linearLength
    rw [show q.data.length = q.nrows * q.ncols from hq]
    rcases Nat.eq_zero_or_pos q.nrows with h | h
    · simp [h]
    · rw [show max q.nrows 1 - 1 = q.nrows - 1 by omega, show min q.nrows 1 = 1 by omega]
      have : q.nrows = q.nrows - 1 + 1 := by omega
      conv_rhs => rw [this, Nat.succ_mul]
      dsimp only
      omega
  obtain ⟨he, m, h1, h2, h3, h4⟩ := fromStrided_ok c.aPanel 1 elsize hc.aPanel_pos Nat.one_pos _ hv r hr
  dsimp only at he
  have hgr : r.groups = q.ncols := by rw [he]; simp [BRepr.groups, divCeil]; omega
  have hnb : r.numBlocks = divCeil q.nrows c.aPanel := by rw [he]; rfl
  have hg : 0 < r.group := by rw [he]; exact hc.aPanel_pos
  have hp : 0 < r.pack := by rw [he]; exact Nat.one_pos
  have hst : r.storageLen = divCeil q.nrows c.aPanel * c.aPanel * q.ncols := by
    rw [r.storage_eq hg hp, hgr, hnb, he]; ring
  refine ⟨m, h1, by rw [h2, he], by rw [h3, hst], fun p l i hp' hl hi => ?_⟩
  have hpos : p * (c.aPanel * q.ncols) + c.aPanel * i + l = r.pos p i l 0 := by
    unfold BRepr.pos
    rw [hgr, he]; ring
  have hlt := r.pos_lt hg hp (b := p) (c := i) (i := l) (p := 0) (by rw [hnb]; exact hp') (by rw [hgr]; exact hi)
    (by rw [he]; exact hl) hp
  have hval := h4 _ hlt
  rw [r.content_pos _ (by rw [hgr]; exact hi) (by rw [he]; exact hl) hp] at hval
  rw [hpos, List.getElem?_map]
  rw [List.getD_eq_getElem?_getD] at hval
  rw [List.getElem?_eq_getElem (by rw [h3]; exact hlt)] at hval ⊢
  simp only [Option.getD_some] at hval
  rw [hval, he]
  simp only [Option.map_some, Option.some.injEq, Strided.elem, Nat.mul_one, Nat.add_zero]
  by_cases hx : p * c.aPanel + l < q.nrows
  · rw [if_pos ⟨hx, hi⟩, if_pos hx]
  · rw [if_neg (fun h => hx h.1), if_neg hx]

theorem DocMem.of_mat [Zero T] {doc : Mat T} (hd : doc.Ok) :
    DocMem doc.ncols (fun j i => conv (doc.data.getD (j * doc.ncols + i) 0)) conv doc.data doc.nrows := by
  refine ⟨hd, fun j i hj hi => ?_⟩
  unfold Mat.Ok at hd
  have := Nat.mul_le_mul_right doc.ncols (show j + 1 ≤ doc.nrows from hj)
  rw [Nat.succ_mul] at this
  rw [List.getElem?_map, List.getD_eq_getElem?_getD, List.getElem?_eq_getElem (by omega)]
  rfl

theorem foldl_neg [IsOrderedAddMonoid K] (f : Nat → K) (l : List Nat) (v : K) :
    -(l.foldl (fun m j => max m (f j)) v) = l.foldl (fun m j => min m (-f j)) (-v) := by
  induction l generalizing v with
  | nil => rfl
  | cons a l ih => rw [List.foldl_cons, List.foldl_cons, ih, max_neg_neg' ]
where
  max_neg_neg' {a b : K} : -max a b = min (-a) (-b) := by
    rcases le_total a b with h | h
    · rw [max_eq_right h, min_eq_right (neg_le_neg h)]
    · rw [max_eq_left h, min_eq_left (neg_le_neg h)]

theorem foldl_zero (docs : List (List T)) (q : List T) (h0 : 0 ≤ fmax) (hne : docs ≠ []) (hz : ∀ d ∈ docs, dot conv q d = 0) :
    scoreOf conv fmax q docs = 0 := by
  have := scoreOf_best conv fmax q docs hne (fun d hd => by rw [hz d hd, neg_zero]; exact h0)
  obtain ⟨⟨d, hd, e⟩, _⟩ := this
  rw [e, hz d hd, neg_zero]

theorem nextMul_le (n g : Nat) (hg : 0 < g) : nextMul n g = divCeil n g * g := nextMul_eq n g hg

theorem prepared_eq [Zero T] [IsOrderedAddMonoid K] (h0 : 0 ≤ fmax) {c : Kern} (hc : c.Ok) (budget : Budget) {q doc : Mat T}
    (hq : q.Ok) (hd : doc.Ok) (hk : q.ncols = doc.ncols) (hn : 0 < doc.nrows) {m : BMat T}
    (hm : m.repr = ⟨c.aPanel, 1, q.nrows, q.ncols⟩)
    (hQ : QueryMem q.ncols (fun x i => if x < q.nrows then conv (q.data.getD (x * q.ncols + i) 0) else conv 0) conv
      c.aPanel m.mem (divCeil q.nrows c.aPanel)) (scores : List K) (hs : scores.length = q.nrows) :
    preparedCompute conv fmax c budget m doc scores = some (.ok (q.rows.map (fun x => scoreOf conv fmax x doc.rows))) := by
  unfold preparedCompute maxIpKernel
  simp only [hm]
  rw [if_neg (by omega), if_neg (by omega), if_neg (by simp [hk]), if_neg (by simp)]
  have hle := le_nextMul q.nrows c.aPanel
  rcases Nat.eq_zero_or_pos q.ncols with hz | hz
  · unfold tiledReduce
    dsimp only
    rw [if_neg (by rw [nextMul_eq _ _ hc.aPanel_pos]; simp), if_pos hz, if_pos hn, if_pos (by simp)]
    dsimp only
    rw [if_pos (by simpa using hle)]
    congr 2
    have : ∀ x ∈ q.rows, scoreOf conv fmax x doc.rows = 0 := fun x hx => by
      refine foldl_zero conv fmax _ _ h0 ?_ ?_
      · intro e
        have := doc.rows_length
        rw [e] at this; simp at this; omega
      · intro d hd'
        obtain ⟨i, hi, rfl⟩ := Mat.mem_rows.1 hx
        have := Mat.row_length hq hi
        rw [hz] at this
        rw [List.length_eq_zero_iff.1 this]
        simp [dot]
    rw [List.map_congr_left this]
    simp only [List.map_const', Mat.rows_length]
    simp [List.take_append, List.take_replicate, hle]
  · obtain ⟨r', e, hcov⟩ := tiledReduce_ok (conv := conv) hc hz budget hQ (hk ▸ DocMem.of_mat conv hd)
      (List.replicate (nextMul q.nrows c.aPanel) (-fmax)) (by rw [List.length_replicate, nextMul_eq _ _ hc.aPanel_pos])
    rw [nextMul_eq _ _ hc.aPanel_pos] at e hle hcov ⊢
    rw [e]
    dsimp only
    have hlen := hcov.len
    rw [List.length_replicate] at hlen
    rw [if_pos (by omega)]
    congr 2
    refine List.ext_getElem? fun x => ?_
    by_cases hx : x < q.nrows
    · have hv := hcov.val x
      rw [if_pos (by omega)] at hv
      rw [List.getElem?_map, List.getElem?_take, if_pos hx]
      rw [List.getD_eq_getElem?_getD, List.getElem?_eq_getElem (by omega), Option.getD_some] at hv
      rw [List.getElem?_eq_getElem (by omega), hv]
      rw [List.getElem?_map, show q.rows[x]? = some (q.row x) by simp [Mat.rows, hx]]
      simp only [Option.map_some, Option.some.injEq]
      rw [bestOf_range, foldl_neg]
      rw [List.getD_eq_getElem?_getD, List.getElem?_replicate, if_pos (by omega)]
      simp only [Option.getD_some, neg_neg]
      unfold scoreOf Mat.rows
      rw [List.foldl_map]
      refine List.foldl_ext _ _ _ (fun acc j hj => ?_)
      have hj' := List.mem_range.1 hj
      rw [Nat.zero_add, ipOf_eq_dot conv (q.row x) (doc.row j) (Mat.row_length hq hx) (by rw [Mat.row_length hd hj', hk])]
      · intro i hi
        rw [Mat.row_get hq hx hi, if_pos hx]; rfl
      · intro i hi
        rw [Mat.row_get hd hj' (by omega), hk]; rfl
    · rw [List.getElem?_eq_none (by simp; omega), List.getElem?_eq_none (by simp [Mat.rows]; omega)]

end

end Verif.Multi
