import Verif.Vec.BlockLemmas

/-! # C78: block-transposed matrices hold exactly the matrix they were built from

The matrix a strided view stands for is `v.data.getD (row * v.cstride + col)`: `Strided.elem`. -/

namespace Verif.Vec

section

variable {T : Type} [Zero T]

/-! ## Strided views -/

/-- **C78.** A strided view is accepted exactly when the data covers its rows, and then every row is the corresponding
stretch of the data; rows outside panic. -/
theorem C78_strided (data : List T) (nrows ncols cstride : Nat) :
    (Strided.tryShrinkFrom data nrows ncols cstride = none ↔ cstride < ncols) ∧
    (Strided.tryFrom data nrows ncols cstride = none ↔ cstride < ncols) ∧
    (ncols ≤ cstride →
      ((∃ v, Strided.tryShrinkFrom data nrows ncols cstride = some (some v)) ↔
        ∀ row, row < nrows → row * cstride + ncols ≤ data.length) ∧
      ((∃ v, Strided.tryFrom data nrows ncols cstride = some (some v)) ↔
        data.length = if nrows = 0 then 0 else (nrows - 1) * cstride + ncols) ∧
      (∀ v, Strided.tryShrinkFrom data nrows ncols cstride = some (some v) ∨
          Strided.tryFrom data nrows ncols cstride = some (some v) →
        v.Ok ∧ v.nrows = nrows ∧ v.ncols = ncols ∧
        (∀ row, nrows ≤ row → v.row row = none) ∧
        ∀ row, row < nrows → v.row row = some ((data.drop (row * cstride)).take ncols) ∧
          ∀ col, col < ncols → v.elem row col = data.getD (row * cstride + col) 0)) := by
  refine ⟨?_, ?_, fun hs => ⟨?_, ?_, ?_⟩⟩
  · unfold Strided.tryShrinkFrom; simp only; split
    · simp_all
    · split <;> simp_all
  · unfold Strided.tryFrom; simp only; split
    · simp_all
    · split <;> simp_all
  · unfold Strided.tryShrinkFrom
    rw [if_neg (by omega)]
    simp only
    constructor
    · intro ⟨v, h⟩ row hr
      split at h
      · rename_i hl
        exact Strided.Ok.bound (v := ⟨data, nrows, ncols, cstride⟩) ⟨hs, hl⟩ hr
      · simp at h
    · intro h
      rw [if_pos]
      · exact ⟨_, rfl⟩
      · unfold linearLength
        by_cases h0 : nrows = 0
        · subst h0; simp
        · have := h (nrows - 1) (by omega)
          rw [show max nrows 1 - 1 = nrows - 1 by omega, show min nrows 1 = 1 by omega]
          omega
  · have : linearLength nrows ncols cstride = if nrows = 0 then 0 else (nrows - 1) * cstride + ncols := by
      unfold linearLength
      split
      · subst_vars; simp
      · rw [show max nrows 1 - 1 = nrows - 1 by omega, show min nrows 1 = 1 by omega]; omega
    unfold Strided.tryFrom
    rw [if_neg (by omega)]
    simp only
    rw [← this]
    split <;> simp_all
  · intro v hv
    -- both constructors keep at least the required prefix
    have key : v.nrows = nrows ∧ v.ncols = ncols ∧ v.cstride = cstride ∧
        linearLength nrows ncols cstride ≤ v.data.length ∧ v.data = data.take v.data.length := by
      rcases hv with hv | hv
      · unfold Strided.tryShrinkFrom at hv
        rw [if_neg (by omega)] at hv
        simp only at hv
        split at hv
        · simp only [Option.some.injEq] at hv
          subst hv
          rename_i hl
          refine ⟨rfl, rfl, rfl, ?_, ?_⟩
          · rw [List.length_take]; omega
          · simp only
            rw [List.length_take, Nat.min_eq_left hl]
        · simp at hv
      · unfold Strided.tryFrom at hv
        rw [if_neg (by omega)] at hv
        simp only at hv
        split at hv
        · simp only [Option.some.injEq] at hv
          subst hv
          refine ⟨rfl, rfl, rfl, by simp only; omega, by simp⟩
        · simp at hv
    obtain ⟨h1, h2, h3, h4, h5⟩ := key
    have hok : v.Ok := ⟨by omega, by rw [h1, h2, h3]; exact h4⟩
    refine ⟨hok, h1, h2, fun row hr => ?_, fun row hr => ?_⟩
    · unfold Strided.row; rw [if_neg (by omega)]
    · have hb := hok.bound (row := row) (by omega)
      rw [h3, h2] at hb
      constructor
      · unfold Strided.row Strided.rowUnchecked
        simp only
        rw [if_pos (by omega), h3, h2, if_pos hb]
        congr 1
        rw [h5]
        rw [List.drop_take, List.take_take]
        congr 1
        omega
      · intro col hc
        unfold Strided.elem
        rw [h3, h5]
        simp only [List.getD_eq_getElem?_getD, List.getElem?_take]
        rw [if_pos (by omega)]

/-! ## Construction and reading -/

/-- Building from a view succeeds unless the sizes overflow, and reads back the matrix. -/
theorem C78_roundtrip (group pack elsize : Nat) (hg : 0 < group) (hp : 0 < pack) (v : Strided T) (hv : v.Ok)
    (hr : (BRepr.new group pack elsize v.nrows v.ncols).isSome) :
    ∃ m, BMat.fromStrided group pack elsize v = some m ∧
      m.repr.nrows = v.nrows ∧ m.repr.ncols = v.ncols ∧
      (∀ row col, row < v.nrows → col < v.ncols → m.get row col = some (v.elem row col)) ∧
      (∀ row col, ¬ (row < v.nrows ∧ col < v.ncols) → m.get row col = none) ∧
      (∀ row, row < v.nrows → m.rowIter row = v.row row) ∧
      (∀ row col, m.rowGet row col = some (if row < v.nrows ∧ col < v.ncols then some (v.elem row col) else none)) ∧
      (∀ b i j, b * group < v.nrows → i * pack < v.ncols → j < group * pack →
        m.blockGet b i j = some (if b * group + j / pack < v.nrows ∧ i * pack + j % pack < v.ncols then
          v.elem (b * group + j / pack) (i * pack + j % pack) else 0)) := by
  obtain ⟨r, hr⟩ := Option.isSome_iff_exists.1 hr
  obtain ⟨he, m, h1, h2, h3, h4⟩ := fromStrided_ok group pack elsize hg hp v hv r hr
  have hg' : 0 < r.group := by rw [he]; exact hg
  have hp' : 0 < r.pack := by rw [he]; exact hp
  have hn : r.nrows = v.nrows := by rw [he]
  have hc : r.ncols = v.ncols := by rw [he]
  have hG : r.group = group := by rw [he]
  have hP : r.pack = pack := by rw [he]
  -- an element in terms of the memory
  have hpos : ∀ b c i p, b < r.numBlocks → c < r.groups → i < r.group → p < r.pack →
      m.mem[r.pos b c i p]? = some (if b * r.group + i < r.nrows ∧ c * r.pack + p < r.ncols then
        v.elem (b * r.group + i) (c * r.pack + p) else 0) := by
    intro b c i p a1 a2 a3 a4
    have hlt := r.pos_lt hg' hp' a1 a2 a3 a4
    have hd := h4 _ hlt
    rw [r.content_pos v.elem a2 a3 a4, List.getD_eq_getElem?_getD, List.getElem?_eq_getElem (by omega)] at hd
    rw [List.getElem?_eq_getElem (by omega)]
    simpa using hd
  have hlin : ∀ row col, row < r.nrows → col < r.ncols →
      m.mem[r.linearIndex row col]? = some (v.elem row col) := by
    intro row col a1 a2
    rw [r.linearIndex_eq hp', hpos _ _ _ _ (lt_divCeil _ _ _ hg' a1) (lt_divCeil _ _ _ hp' a2)
      (Nat.mod_lt _ hg') (Nat.mod_lt _ hp')]
    have e1 : row / r.group * r.group + row % r.group = row := by rw [Nat.mul_comm]; exact Nat.div_add_mod _ _
    have e2 : col / r.pack * r.pack + col % r.pack = col := by rw [Nat.mul_comm]; exact Nat.div_add_mod _ _
    rw [e1, e2, if_pos ⟨a1, a2⟩]
  have hoff : ∀ row col, r.linearIndex row 0 + r.colOffset col = r.linearIndex row col := by
    intro row col
    unfold BRepr.linearIndex BRepr.colOffset
    simp only [Nat.zero_div, Nat.zero_mod]
    ring
  refine ⟨m, h1, by rw [h2, hn], by rw [h2, hc], fun row col a1 a2 => ?_, fun row col a => ?_, fun row a => ?_,
    fun row col => ?_, fun b i j a1 a2 a3 => ?_⟩
  · unfold BMat.get
    rw [h2, if_pos (by omega)]
    exact hlin row col (by omega) (by omega)
  · unfold BMat.get
    rw [h2, if_neg (by rw [hn, hc]; exact a)]
  · unfold BMat.rowIter Strided.row
    rw [if_pos a, h2]
    obtain ⟨l, l1, l2, l3⟩ := hv.row a
    rw [l1]
    have : ∀ col ∈ List.range r.ncols, m.mem[r.linearIndex row 0 + r.colOffset col]? = some (v.elem row col) := by
      intro col hcol
      rw [List.mem_range] at hcol
      rw [hoff]
      exact hlin row col (by omega) hcol
    have e : (List.range r.ncols).mapM (fun col => m.mem[r.linearIndex row 0 + r.colOffset col]?) =
        some ((List.range r.ncols).map (fun col => v.elem row col)) := by
      generalize List.range r.ncols = L at this
      induction L with
      | nil => rfl
      | cons x xs ih =>
        rw [List.mapM_cons, this x (by simp), ih (fun c hc => this c (by simp [hc]))]; rfl
    rw [e]
    congr 1
    apply List.ext_getElem?
    intro k
    by_cases hk : k < v.ncols
    · rw [l3 k hk, List.getElem?_map, List.getElem?_range (by omega)]; rfl
    · rw [List.getElem?_eq_none (by simp; omega), List.getElem?_eq_none (by omega)]
  · unfold BMat.rowGet
    rw [h2, hn, hc]
    by_cases a1 : row < v.nrows
    · by_cases a2 : col < v.ncols
      · rw [if_pos a1, if_pos a2, if_pos ⟨a1, a2⟩, hoff, hlin row col (by omega) (by omega)]
      · rw [if_pos a1, if_neg a2, if_neg (by tauto)]
    · rw [if_neg a1, if_neg (by tauto)]
  · have hb : b < r.numBlocks := by
      have := lt_divCeil r.nrows r.group (b * r.group) hg' (by rw [hn, hG]; exact a1)
      rwa [Nat.mul_div_cancel _ hg'] at this
    have hi : i < r.groups := by
      have := lt_divCeil r.ncols r.pack (i * r.pack) hp' (by rw [hc, hP]; exact a2)
      rwa [Nat.mul_div_cancel _ hp'] at this
    have hcond : b < r.fullBlocks ∨ (b = r.fullBlocks ∧ r.remainder ≠ 0) := by
      unfold BRepr.numBlocks divCeil at hb
      unfold BRepr.fullBlocks BRepr.remainder
      split at hb
      · left; exact hb
      · by_cases hlt : b < r.nrows / r.group
        · left; exact hlt
        · right; exact ⟨by omega, by assumption⟩
    have hj : j / r.pack < r.group := by
      rw [Nat.div_lt_iff_lt_mul hp', hG, hP]; exact a3
    have hjm : j % r.pack < r.pack := Nat.mod_lt _ hp'
    have hj' : j < r.group * r.pack := by rw [hG, hP]; exact a3
    unfold BMat.blockGet
    rw [h2, if_pos hcond]
    simp only
    have hstride : r.blockStride = r.groups * (r.group * r.pack) := by
      unfold BRepr.blockStride; rw [r.padded_eq hp']; ring
    have hij : i * (r.group * r.pack) + j < r.blockStride := by
      rw [hstride]; exact lt_mix hi hj'
    have hfit : r.blockOffset b + r.blockStride ≤ m.mem.length := by
      rw [h3, r.storage_eq hg' hp']
      unfold BRepr.blockOffset
      have := Nat.mul_le_mul_right r.blockStride hb
      rw [Nat.succ_mul] at this
      refine le_trans this (le_of_eq ?_)
      rw [hstride]; ring
    rw [r.padded_div hp', if_pos ⟨hfit, hstride⟩, if_pos ⟨hi, hj'⟩, List.getElem?_take, if_pos hij, List.getElem?_drop]
    have e : r.blockOffset b + (i * (r.group * r.pack) + j) = r.pos b i (j / r.pack) (j % r.pack) := by
      unfold BRepr.blockOffset BRepr.pos
      rw [hstride]
      have := Nat.div_add_mod j r.pack
      generalize j / r.pack = q at *
      generalize j % r.pack = z at *
      rw [← this]; ring
    rw [e, hpos b i _ _ hb hi hj hjm, hn, hc, hG, hP]

/-- Every element has its own place in the memory, inside it. -/
theorem C78_layout (r : BRepr) (hg : 0 < r.group) (hp : 0 < r.pack) :
    (∀ row col, row < r.nrows → col < r.ncols → r.linearIndex row col < r.storageLen) ∧
    (∀ row col row' col', row < r.nrows → col < r.ncols → row' < r.nrows → col' < r.ncols →
      r.linearIndex row col = r.linearIndex row' col' → row = row' ∧ col = col') := by
  constructor
  · intro row col h1 h2
    rw [r.linearIndex_eq hp]
    exact r.pos_lt hg hp (lt_divCeil _ _ _ hg h1) (lt_divCeil _ _ _ hp h2) (Nat.mod_lt _ hg) (Nat.mod_lt _ hp)
  · intro row col row' col' h1 h2 h3 h4 h
    rw [r.linearIndex_eq hp, r.linearIndex_eq hp] at h
    unfold BRepr.pos at h
    have c1 : col / r.pack < r.groups := lt_divCeil _ _ _ hp h2
    have c2 : col' / r.pack < r.groups := lt_divCeil _ _ _ hp h4
    have e1 := congrArg (· % r.pack) h
    have e2 := congrArg (· / r.pack) h
    simp only [mix_mod _ _ _ (Nat.mod_lt _ hp), mix_div _ _ _ (Nat.mod_lt _ hp)] at e1 e2
    have e3 := congrArg (· % r.group) e2
    have e4 := congrArg (· / r.group) e2
    simp only [mix_mod _ _ _ (Nat.mod_lt _ hg), mix_div _ _ _ (Nat.mod_lt _ hg)] at e3 e4
    have e5 := congrArg (· % r.groups) e4
    have e6 := congrArg (· / r.groups) e4
    simp only [mix_mod _ _ _ c1, mix_mod _ _ _ c2, mix_div _ _ _ c1, mix_div _ _ _ c2] at e5 e6
    constructor
    · rw [← Nat.div_add_mod row r.group, ← Nat.div_add_mod row' r.group, e3, e6]
    · rw [← Nat.div_add_mod col r.pack, ← Nat.div_add_mod col' r.pack, e1, e5]

omit [Zero T] in
/-- Writing one element changes that element and no other. -/
theorem C78_set (m : BMat T) (hg : 0 < m.repr.group) (hp : 0 < m.repr.pack) (hl : m.mem.length = m.repr.storageLen)
    (row col : Nat) (x : T) :
    (row < m.repr.nrows → col < m.repr.ncols → ∃ m', m.rowSet row col x = some m' ∧
      m'.repr = m.repr ∧ m'.mem.length = m.repr.storageLen ∧ m'.get row col = some x ∧
      ∀ row' col', (row', col') ≠ (row, col) → m'.get row' col' = m.get row' col') ∧
    (¬ (row < m.repr.nrows ∧ col < m.repr.ncols) → m.rowSet row col x = none) := by
  have hoff : m.repr.linearIndex row 0 + m.repr.colOffset col = m.repr.linearIndex row col := by
    unfold BRepr.linearIndex BRepr.colOffset
    simp only [Nat.zero_div, Nat.zero_mod]
    ring
  constructor
  · intro h1 h2
    have hlt := (C78_layout m.repr hg hp).1 row col h1 h2
    unfold BMat.rowSet
    rw [if_pos ⟨h1, h2⟩, hoff, if_pos (by omega)]
    refine ⟨_, rfl, rfl, by simp [hl], ?_, fun row' col' hne => ?_⟩
    · unfold BMat.get
      simp only
      rw [if_pos ⟨h1, h2⟩, List.getElem?_set_self (by omega)]
    · unfold BMat.get
      simp only
      split
      · rename_i h
        rw [List.getElem?_set_ne]
        intro he
        obtain ⟨e1, e2⟩ := (C78_layout m.repr hg hp).2 row col row' col' h1 h2 h.1 h.2 he
        exact hne (by rw [e1, e2])
      · rfl
  · intro h
    unfold BMat.rowSet
    rw [if_neg h]

/-- Positions that belong to no element hold zero. -/
theorem C78_padding (group pack elsize : Nat) (hg : 0 < group) (hp : 0 < pack) (v : Strided T) (hv : v.Ok) (m : BMat T)
    (hm : BMat.fromStrided group pack elsize v = some m) (j : Nat) (hj : j < m.mem.length)
    (hno : ∀ row col, row < v.nrows → col < v.ncols → m.repr.linearIndex row col ≠ j) : m.mem.getD j 0 = 0 := by
  have hr : ∃ r, BRepr.new group pack elsize v.nrows v.ncols = some r := by
    unfold BMat.fromStrided at hm
    cases h : BRepr.new group pack elsize v.nrows v.ncols with
    | none => rw [h] at hm; simp at hm
    | some r => exact ⟨r, rfl⟩
  obtain ⟨r, hr⟩ := hr
  obtain ⟨he, m', h1, h2, h3, h4⟩ := fromStrided_ok group pack elsize hg hp v hv r hr
  rw [hm] at h1
  obtain rfl : m = m' := Option.some.inj h1
  have hg' : 0 < r.group := by rw [he]; exact hg
  have hp' : 0 < r.pack := by rw [he]; exact hp
  rw [h4 j (by omega)]
  unfold BRepr.content
  simp only
  split
  · rename_i hin
    have hn : r.nrows = v.nrows := by rw [he]
    have hc : r.ncols = v.ncols := by rw [he]
    rw [hn, hc] at hin
    refine absurd ?_ (hno _ _ hin.1 hin.2)
    rw [h2, r.linearIndex_eq hp']
    unfold BRepr.pos
    rw [mix_div _ _ _ (Nat.mod_lt _ hg'), mix_mod _ _ _ (Nat.mod_lt _ hg'), mix_div _ _ _ (Nat.mod_lt _ hp'),
      mix_mod _ _ _ (Nat.mod_lt _ hp')]
    have e1 := Nat.div_add_mod (j / r.pack / r.group) r.groups
    have e2 := Nat.div_add_mod (j / r.pack) r.group
    have e3 := Nat.div_add_mod j r.pack
    rw [Nat.mul_comm] at e1 e2 e3
    rw [e1, e2, e3]
  · rfl

omit [Zero T] in
/-- Which sizes are accepted: the padded sizes fit in 64 bits and the memory in `isize::MAX` bytes. -/
theorem C78_budget (group pack elsize nrows ncols : Nat) :
    (BRepr.new group pack elsize nrows ncols).isSome ↔
      nextMul nrows group < 2 ^ 64 ∧ nextMul ncols pack < 2 ^ 64 ∧ nextMul nrows group * nextMul ncols pack < 2 ^ 64 ∧
      elsize * (nextMul nrows group * nextMul ncols pack) < 2 ^ 63 := by
  unfold BRepr.new
  simp only
  repeat' split
  all_goals simp
  all_goals omega

end

/-! ## A concrete case: five rows of three columns, groups of four rows, packs of two columns -/

/-- The five by three matrix `10 * row + col` in a view with stride four. -/
def exampleView : Strided Nat := ⟨(List.range 19).map (fun k => 10 * (k / 4) + k % 4), 5, 3, 4⟩

example : exampleView.Ok := ⟨by decide, by decide⟩

example : (BRepr.new 4 2 4 exampleView.nrows exampleView.ncols).isSome = true := by decide

example : (BMat.fromStrided 4 2 4 exampleView).map (·.mem) = some
    [0, 1, 10, 11, 20, 21, 30, 31, 2, 0, 12, 0, 22, 0, 32, 0,
     40, 41, 0, 0, 0, 0, 0, 0, 42, 0, 0, 0, 0, 0, 0, 0] := by decide +kernel

example : ((BMat.fromStrided 4 2 4 exampleView).bind (fun m => m.rowSet 4 2 7)).map (fun m => (m.get 4 2, m.get 4 1)) =
    some (some 7, some 41) := by decide +kernel

end Verif.Vec
