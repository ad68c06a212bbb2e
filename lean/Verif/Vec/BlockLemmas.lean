import Verif.Vec.BlockModel

/-! # Lemmas for C78 -/

namespace Verif.Vec

theorem lt_mix {a b m n : Nat} (h1 : a < m) (h2 : b < n) : a * n + b < m * n := by
  have : (a + 1) * n ≤ m * n := Nat.mul_le_mul_right n h1
  rw [Nat.add_mul] at this
  omega

theorem mix_mod (a b n : Nat) (h : b < n) : (a * n + b) % n = b := by
  rw [Nat.add_comm, Nat.add_mul_mod_self_right, Nat.mod_eq_of_lt h]

theorem mix_div (a b n : Nat) (h : b < n) : (a * n + b) / n = a := by
  rw [Nat.add_comm, Nat.add_mul_div_right _ _ (by omega), Nat.div_eq_of_lt h, Nat.zero_add]

theorem nextMul_eq (n k : Nat) (hk : 0 < k) : nextMul n k = divCeil n k * k := by
  unfold nextMul divCeil
  have e := Nat.div_add_mod n k
  have hm := Nat.mod_lt n hk
  rw [Nat.mul_comm] at e
  split
  · omega
  · rw [Nat.add_mul, Nat.one_mul]; omega

theorem le_nextMul (n k : Nat) : n ≤ nextMul n k := by
  unfold nextMul; split <;> omega

theorem lt_divCeil (n k i : Nat) (hk : 0 < k) (hi : i < n) : i / k < divCeil n k := by
  have h1 := le_nextMul n k
  rw [nextMul_eq n k hk] at h1
  exact (Nat.div_lt_iff_lt_mul hk).2 (by omega)

/-- Number of column groups. -/
def BRepr.groups (r : BRepr) : Nat := divCeil r.ncols r.pack

theorem BRepr.padded_eq (r : BRepr) (hp : 0 < r.pack) : r.paddedNcols = r.groups * r.pack := nextMul_eq _ _ hp

theorem BRepr.padded_div (r : BRepr) (hp : 0 < r.pack) : r.paddedNcols / r.pack = r.groups := by
  rw [r.padded_eq hp, Nat.mul_div_cancel _ hp]

/-- Position of block `b`, column group `c`, row `i` of the block, lane `p`. -/
def BRepr.pos (r : BRepr) (b c i p : Nat) : Nat := ((b * r.groups + c) * r.group + i) * r.pack + p

theorem BRepr.linearIndex_eq (r : BRepr) (hp : 0 < r.pack) (row col : Nat) :
    r.linearIndex row col = r.pos (row / r.group) (col / r.pack) (row % r.group) (col % r.pack) := by
  unfold linearIndex pos
  rw [r.padded_eq hp]
  ring

theorem BRepr.storage_eq (r : BRepr) (hg : 0 < r.group) (hp : 0 < r.pack) :
    r.storageLen = ((r.numBlocks * r.groups) * r.group) * r.pack := by
  unfold storageLen numBlocks
  rw [nextMul_eq _ _ hg, r.padded_eq hp]
  ring

theorem BRepr.pos_lt (r : BRepr) (hg : 0 < r.group) (hp : 0 < r.pack) {b c i p : Nat} (hb : b < r.numBlocks)
    (hc : c < r.groups) (hi : i < r.group) (hp' : p < r.pack) : r.pos b c i p < r.storageLen := by
  rw [r.storage_eq hg hp]
  exact lt_mix (lt_mix (lt_mix hb hc) hi) hp'

/-- What position `j` of the memory holds. -/
def BRepr.content {T : Type} [Zero T] (r : BRepr) (src : Nat → Nat → T) (j : Nat) : T :=
  let p := j % r.pack
  let i := j / r.pack % r.group
  let c := j / r.pack / r.group % r.groups
  let b := j / r.pack / r.group / r.groups
  if b * r.group + i < r.nrows ∧ c * r.pack + p < r.ncols then src (b * r.group + i) (c * r.pack + p) else 0

theorem BRepr.content_pos {T : Type} [Zero T] (r : BRepr) (src : Nat → Nat → T) {b c i p : Nat}
    (hc : c < r.groups) (hi : i < r.group) (hp' : p < r.pack) :
    r.content src (r.pos b c i p) =
      if b * r.group + i < r.nrows ∧ c * r.pack + p < r.ncols then src (b * r.group + i) (c * r.pack + p) else 0 := by
  unfold content pos
  rw [mix_mod _ _ _ hp', mix_div _ _ _ hp', mix_mod _ _ _ hi, mix_div _ _ _ hi, mix_mod _ _ _ hc, mix_div _ _ _ hc]

/-- The first `dst` positions are final, the rest still zero. -/
structure Packed {T : Type} [Zero T] (r : BRepr) (src : Nat → Nat → T) (dst : Nat) (s : Nat × List T) : Prop where
  at_ : s.1 = dst
  len : s.2.length = r.storageLen
  done : ∀ j, j < dst → s.2.getD j 0 = r.content src j
  todo : ∀ j, dst ≤ j → s.2.getD j 0 = 0

theorem getD_set' {T : Type} [Zero T] (l : List T) (i j : Nat) (v : T) (hi : i < l.length) :
    (l.set i v).getD j 0 = if j = i then v else l.getD j 0 := by
  by_cases h : j = i
  · subst h; simp [List.getD, hi]
  · simp [List.getD, List.getElem?_set, h, Ne.symm h]

/-- The rows of a view the constructors accept. -/
structure Strided.Ok {T : Type} (v : Strided T) : Prop where
  stride : v.ncols ≤ v.cstride
  len : linearLength v.nrows v.ncols v.cstride ≤ v.data.length

theorem Strided.Ok.bound {T : Type} {v : Strided T} (h : v.Ok) {row : Nat} (hr : row < v.nrows) :
    row * v.cstride + v.ncols ≤ v.data.length := by
  refine le_trans ?_ h.len
  unfold linearLength
  have h1 : row * v.cstride ≤ (max v.nrows 1 - 1) * v.cstride := Nat.mul_le_mul_right _ (by omega)
  have h2 : min v.nrows 1 = 1 := by omega
  rw [h2]; omega

/-- Element `(row, col)` of a view. -/
def Strided.elem {T : Type} [Zero T] (v : Strided T) (row col : Nat) : T := v.data.getD (row * v.cstride + col) 0

theorem Strided.Ok.row {T : Type} [Zero T] {v : Strided T} (h : v.Ok) {row : Nat} (hr : row < v.nrows) :
    ∃ l, v.rowUnchecked row = some l ∧ l.length = v.ncols ∧ ∀ col, col < v.ncols → l[col]? = some (v.elem row col) := by
  have hb := h.bound hr
  unfold rowUnchecked
  simp only
  rw [if_pos hb]
  refine ⟨_, rfl, by simp; omega, fun col hc => ?_⟩
  unfold elem
  rw [List.getElem?_take, if_pos hc, List.getElem?_drop, List.getD_eq_getElem?_getD,
    List.getElem?_eq_getElem (by omega)]
  rfl

section

variable {T : Type} [Zero T] (r : BRepr) (v : Strided T)

theorem advance_ok {k dst : Nat} {s : Nat × List T} (h : Packed r v.elem dst s) (hd : dst + k ≤ r.storageLen)
    (hz : ∀ j, dst ≤ j → j < dst + k → r.content v.elem j = 0) :
    ∃ s', advance s k = some s' ∧ Packed r v.elem (dst + k) s' := by
  unfold advance
  rw [if_pos (by rw [h.at_, h.len]; exact hd)]
  refine ⟨_, rfl, by simp [h.at_], h.len, fun j hj => ?_, fun j hj => h.todo j (by omega)⟩
  by_cases h' : j < dst
  · exact h.done j h'
  · rw [hz j (by omega) hj]; exact h.todo j (by omega)

theorem packLane_ok (hg : 0 < r.group) (hp : 0 < r.pack) (hn : r.nrows = v.nrows) (hc' : r.ncols = v.ncols)
    {b c i p : Nat} (hb : b < r.numBlocks)
    (hc : c < r.groups) (hi : i < r.group) (hp' : p < r.pack) (hrow : b * r.group + i < r.nrows)
    {l : List T} (hl : ∀ col, col < v.ncols → l[col]? = some (v.elem (b * r.group + i) col))
    {s : Nat × List T} (h : Packed r v.elem (r.pos b c i p) s) :
    ∃ s', packLane v l (c * r.pack) s p = some s' ∧ Packed r v.elem (r.pos b c i p + 1) s' := by
  have hlt := r.pos_lt hg hp hb hc hi hp'
  have hcont := r.content_pos v.elem (b := b) hc hi hp'
  unfold packLane
  simp only
  split
  · rename_i hcol
    rw [hl _ hcol]
    simp only [Option.bind_eq_bind, Option.bind_some]
    rw [if_pos (by rw [h.at_, h.len]; exact hlt)]
    unfold advance
    rw [if_pos (by simp only [List.length_set]; rw [h.at_, h.len]; exact hlt)]
    refine ⟨_, rfl, by simp [h.at_], by simp [h.len], fun j hj => ?_, fun j hj => ?_⟩
    · simp only
      rw [getD_set' _ _ _ _ (by rw [h.at_, h.len]; exact hlt), h.at_]
      by_cases hj' : j = r.pos b c i p
      · rw [if_pos hj', hj', hcont, if_pos ⟨hrow, by rw [hc']; exact hcol⟩]
      · rw [if_neg hj']; exact h.done j (by omega)
    · simp only
      rw [getD_set' _ _ _ _ (by rw [h.at_, h.len]; exact hlt), h.at_, if_neg (by omega)]
      exact h.todo j (by omega)
  · rename_i hcol
    refine advance_ok r v h hlt (fun j h1 h2 => ?_)
    rw [show j = r.pos b c i p by omega, hcont, if_neg]
    rw [hc']; tauto

theorem packRow_ok (hv : v.Ok) (hg : 0 < r.group) (hp : 0 < r.pack) (hn : r.nrows = v.nrows) (hc' : r.ncols = v.ncols)
    {b c i : Nat} (hb : b < r.numBlocks) (hc : c < r.groups) (hi : i < r.group)
    {s : Nat × List T} (h : Packed r v.elem (r.pos b c i 0) s) :
    ∃ s', packRow r v (b * r.group) (c * r.pack) s i = some s' ∧ Packed r v.elem (r.pos b c (i + 1) 0) s' := by
  have e : r.pos b c (i + 1) 0 = r.pos b c i 0 + r.pack := by unfold BRepr.pos; ring
  unfold packRow
  simp only
  split
  · rename_i hrow
    obtain ⟨l, h1, -, h2⟩ := hv.row hrow
    rw [h1]
    simp only [Option.bind_eq_bind, Option.bind_some]
    have := foldlM_inv (packLane v l (c * r.pack)) (fun k s => Packed r v.elem (r.pos b c i k) s) r.pack s h
      (fun p hp' s hs => packLane_ok r v hg hp hn hc' hb hc hi hp' (by omega) h2 hs)
    rw [e]
    have e' : r.pos b c i r.pack = r.pos b c i 0 + r.pack := by unfold BRepr.pos; ring
    rw [e'] at this
    exact this
  · rename_i hrow
    rw [e]
    refine advance_ok r v h ?_ (fun j h1 h2 => ?_)
    · have := r.pos_lt hg hp hb hc hi (show r.pack - 1 < r.pack by omega)
      have e' : r.pos b c i (r.pack - 1) = r.pos b c i 0 + (r.pack - 1) := by unfold BRepr.pos; omega
      omega
    · have e' : j = r.pos b c i (j - r.pos b c i 0) := by
        have : ∀ q, r.pos b c i q = r.pos b c i 0 + q := fun q => by unfold BRepr.pos; omega
        rw [this]; omega
      rw [e', r.content_pos v.elem hc hi (by omega), if_neg (by omega)]

theorem packGroup_ok (hv : v.Ok) (hg : 0 < r.group) (hp : 0 < r.pack) (hn : r.nrows = v.nrows)
    (hc' : r.ncols = v.ncols) {b c : Nat} (hb : b < r.numBlocks) (hc : c < r.groups)
    {s : Nat × List T} (h : Packed r v.elem (r.pos b c 0 0) s) :
    ∃ s', packGroup r v (b * r.group) s c = some s' ∧ Packed r v.elem (r.pos b (c + 1) 0 0) s' := by
  have := foldlM_inv (packRow r v (b * r.group) (c * r.pack)) (fun k s => Packed r v.elem (r.pos b c k 0) s) r.group s h
    (fun i hi s hs => packRow_ok r v hv hg hp hn hc' hb hc hi hs)
  have e : r.pos b c r.group 0 = r.pos b (c + 1) 0 0 := by unfold BRepr.pos; ring
  rw [e] at this
  exact this

theorem packBlock_ok (hv : v.Ok) (hg : 0 < r.group) (hp : 0 < r.pack) (hn : r.nrows = v.nrows)
    (hc' : r.ncols = v.ncols) {b : Nat} (hb : b < r.numBlocks)
    {s : Nat × List T} (h : Packed r v.elem (r.pos b 0 0 0) s) :
    ∃ s', packBlock r v s b = some s' ∧ Packed r v.elem (r.pos (b + 1) 0 0 0) s' := by
  have := foldlM_inv (packGroup r v (b * r.group)) (fun k s => Packed r v.elem (r.pos b k 0 0) s) r.groups s h
    (fun c hc s hs => packGroup_ok r v hv hg hp hn hc' hb hc hs)
  have e : r.pos b r.groups 0 0 = r.pos (b + 1) 0 0 0 := by unfold BRepr.pos; ring
  rw [e] at this
  unfold packBlock
  rw [r.padded_div hp]
  exact this

end

/-- `from_strided` fills the memory. -/
theorem fromStrided_ok {T : Type} [Zero T] (group pack elsize : Nat) (hg : 0 < group) (hp : 0 < pack) (v : Strided T)
    (hv : v.Ok) (r : BRepr) (hr : BRepr.new group pack elsize v.nrows v.ncols = some r) :
    r = ⟨group, pack, v.nrows, v.ncols⟩ ∧
    ∃ m, BMat.fromStrided group pack elsize v = some m ∧ m.repr = r ∧ m.mem.length = r.storageLen ∧
      ∀ j, j < r.storageLen → m.mem.getD j 0 = r.content v.elem j := by
  have hr' : r = ⟨group, pack, v.nrows, v.ncols⟩ := by
    unfold BRepr.new at hr
    simp only at hr
    revert hr
    repeat' split
    all_goals simp
    exact fun h => h.symm
  refine ⟨hr', ?_⟩
  have := foldlM_inv (packBlock r v) (fun k s => Packed r v.elem (r.pos k 0 0 0) s) r.numBlocks
    (0, List.replicate r.storageLen 0)
    ⟨by simp [BRepr.pos], by simp, fun j hj => by simp [BRepr.pos] at hj, fun j hj => by
      rw [List.getD_eq_getElem?_getD, List.getElem?_replicate]; split <;> rfl⟩
    (fun b hb s hs => packBlock_ok r v hv (by rw [hr']; exact hg) (by rw [hr']; exact hp) (by rw [hr']) (by rw [hr'])
      hb hs)
  obtain ⟨s, h1, h2⟩ := this
  refine ⟨⟨r, s.2⟩, ?_, rfl, h2.len, fun j hj => h2.done j ?_⟩
  · unfold BMat.fromStrided
    rw [hr]
    simp only [Option.bind_eq_bind, Option.bind_some]
    rw [h1]; rfl
  · rw [r.storage_eq (by rw [hr']; exact hg) (by rw [hr']; exact hp)] at hj
    unfold BRepr.pos
    simpa using hj

end Verif.Vec
