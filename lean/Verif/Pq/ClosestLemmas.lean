import Verif.Pq.EncodeLemmas
import Verif.Pq.EncodeSpec

/-! # Lemmas for C79: the search for the closest pivot -/

namespace Verif.Pq

open Verif.Vec Verif.Pq.Spec Finset

section

variable {K : Type} [Field K] [LinearOrder K]

/-- The quantity that is minimised: `‖y‖² - 2 ⟨x, y⟩`, infinity in the padding. -/
def Chunk.prox (c : Chunk K) (v : Strided (Fl K)) (x : List (Fl K)) (r : Nat) : Fl K :=
  if r < v.nrows then
    c.norms.getD r 0 - (laneVal .mathematical x (v.elem r) + laneVal .mathematical x (v.elem r))
  else .inf

/-- One lane of `update_tracking`. -/
def upd (a b : Fl K × Nat) : Fl K × Nat := if b.1.lt a.1 then b else a

/-- One lane of the tracking variables after `n` groups of eight pivots. -/
def seqTrack (p : Nat → Fl K) (n l : Nat) : Fl K × Nat :=
  (List.range n).foldl (fun a g => upd a (p (8 * g + l), (8 * g + l) % 2 ^ 32)) (.inf, errIndex)

/-- The same for `find_closest_batch`, after `n` blocks. -/
def pairTrack (p : Nat → Fl K) (n l : Nat) : Fl K × Nat :=
  (List.range n).foldl (fun a b => upd a (upd (p (16 * b + l), (16 * b + l) % 2 ^ 32)
    (p (16 * b + 8 + l), (16 * b + 8 + l) % 2 ^ 32))) (.inf, errIndex)

theorem laneVal_padRow (k : Kernel) (x : List (Fl K)) (v : Strided (Fl K)) {r : Nat} (h : r < v.nrows) :
    laneVal k x (padRow v r) = laneVal k x (v.elem r) := by
  have : padRow v r = v.elem r := by funext i; unfold padRow; rw [if_pos h]
  rw [this]

omit [Field K] in
theorem seqTrack_two (p : Nat → Fl K) (b l : Nat) :
    seqTrack p (2 * (b + 1)) l = upd (upd (seqTrack p (2 * b) l) (p (16 * b + l), (16 * b + l) % 2 ^ 32))
      (p (16 * b + 8 + l), (16 * b + 8 + l) % 2 ^ 32) := by
  unfold seqTrack
  rw [show 2 * (b + 1) = 2 * b + 1 + 1 by ring, List.range_succ, List.foldl_append, List.range_succ, List.foldl_append]
  simp only [List.foldl_cons, List.foldl_nil]
  rw [show 8 * (2 * b) = 16 * b by ring, show 8 * (2 * b + 1) = 16 * b + 8 by ring]

/-- Two registers hold the sixteen values of a block. -/
def TwoHolds (d : Two K) (b : Nat) (p : Nat → Fl K) : Prop :=
  (∀ l, l < 8 → d.1 l = p (16 * b + l)) ∧ (∀ l, l < 8 → d.2 l = p (16 * b + 8 + l))

theorem seqTrack_update {p : Nat → Fl K} {d : Two K} {b : Nat} {t : Track K} (hd : TwoHolds d b p)
    (ht : ∀ l, l < 8 → t l = seqTrack p (2 * b) l) (l : Nat) (hl : l < 8) :
    updateTrackingWith (updateTrackingWith t d.1 (groupsize * b)) d.2 (groupsize * b + 8) l = seqTrack p (2 * (b + 1)) l := by
  rw [seqTrack_two, ← ht l hl, ← hd.1 l hl, ← hd.2 l hl]
  rfl

theorem pairTrack_update {p : Nat → Fl K} {d : Two K} {b : Nat} {t : Track K} (hd : TwoHolds d b p)
    (ht : ∀ l, l < 8 → t l = pairTrack p b l) (l : Nat) (hl : l < 8) :
    updateTracking t (updateTracking (fun l => (d.1 l, indices (groupsize * b) l))
      (fun l => (d.2 l, indices (groupsize * b + 8) l))) l = pairTrack p (b + 1) l := by
  unfold pairTrack
  rw [List.range_succ, List.foldl_append]
  simp only [List.foldl_cons, List.foldl_nil]
  rw [show List.foldl _ _ (List.range b) = pairTrack p b l from rfl, ← ht l hl, ← hd.1 l hl, ← hd.2 l hl]
  rfl

section

variable {c : Chunk K} {v : Strided (Fl K)} (h : c.Holds v)

include h

theorem Chunk.Holds.full : c.data.repr.fullBlocks = v.nrows / 16 := by unfold BRepr.fullBlocks; rw [h.repr]

theorem Chunk.Holds.rem : c.data.repr.remainder = v.nrows % 16 := by unfold BRepr.remainder; rw [h.repr]

theorem Chunk.Holds.blocks :
    c.data.repr.numBlocks = if v.nrows % 16 = 0 then v.nrows / 16 else v.nrows / 16 + 1 := by
  unfold BRepr.numBlocks divCeil; rw [h.repr]

theorem loadNorms_ok {b : Nat} (hb : b < v.nrows / 16) :
    ∃ n, c.loadNorms b = some n ∧ TwoHolds n b (fun r => c.norms.getD r 0) := by
  have := h.nlen
  unfold Chunk.loadNorms Vec.load groupsize
  rw [if_pos (by omega), if_pos (by omega)]
  exact ⟨_, rfl, fun l _ => rfl, fun l _ => rfl⟩

theorem loadRemainderNorms_ok (hr : v.nrows % 16 ≠ 0) :
    ∃ n, c.loadRemainderNorms = some n ∧
      TwoHolds n (v.nrows / 16) (fun r => if r < v.nrows then c.norms.getD r 0 else 0) := by
  have := h.nlen
  unfold Chunk.loadRemainderNorms
  simp only [h.rem, h.full, groupsize]
  by_cases h8 : v.nrows % 16 < 8
  · rw [if_pos h8]
    unfold Vec.loadFirst
    rw [if_pos (by omega)]
    refine ⟨_, rfl, fun l hl => ?_, fun l hl => ?_⟩
    · show (if l < v.nrows % 16 % 8 then c.norms.getD (16 * (v.nrows / 16) + l) 0 else 0) = (if _ then _ else _)
      by_cases hh : l < v.nrows % 16 % 8
      · rw [if_pos hh, if_pos (by omega)]
      · rw [if_neg hh, if_neg (by omega)]
    · show (0 : Fl K) = (if _ then _ else _)
      rw [if_neg (by omega)]
  · rw [if_neg h8]
    unfold Vec.load Vec.loadFirst
    rw [if_pos (by omega), if_pos (by omega)]
    refine ⟨_, rfl, fun l hl => ?_, fun l hl => ?_⟩
    · show c.norms.getD (16 * (v.nrows / 16) + l) 0 = (if _ then _ else _)
      rw [if_pos (by omega)]
    · show (if l < v.nrows % 16 % 8 then c.norms.getD (16 * (v.nrows / 16) + 8 + l) 0 else 0) = (if _ then _ else _)
      by_cases hh : l < v.nrows % 16 % 8
      · rw [if_pos hh, if_pos (by omega)]
      · rw [if_neg hh, if_neg (by omega)]

variable (x : List (Fl K)) (hx : x.length = v.ncols)

include hx

theorem closestBlock_ok {b : Nat} (hb : b < v.nrows / 16) (t : Track K)
    (ht : ∀ l, l < 8 → t l = seqTrack (c.prox v x) (2 * b) l) :
    ∃ t', c.closestBlock x t b = some t' ∧ ∀ l, l < 8 → t' l = seqTrack (c.prox v x) (2 * (b + 1)) l := by
  obtain ⟨d, d1, d2, d3⟩ := computeInBlock_ok h .mathematical x hx (b := b) (by rw [h.blocks]; split <;> omega)
  obtain ⟨n, n1, n2, n3⟩ := loadNorms_ok h hb
  refine ⟨_, by unfold Chunk.closestBlock; rw [d1, n1]; rfl, fun l hl => seqTrack_update ⟨?_, ?_⟩ ht l hl⟩
  · intro l hl
    show n.1 l - (d.1 l + d.1 l) = _
    rw [n2 l hl, d2 l hl, laneVal_padRow _ _ _ (by omega)]
    unfold Chunk.prox
    rw [if_pos (by omega)]
  · intro l hl
    show n.2 l - (d.2 l + d.2 l) = _
    rw [n3 l hl, d3 l hl, laneVal_padRow _ _ _ (by omega)]
    unfold Chunk.prox
    rw [if_pos (by omega)]

theorem computeInRemainder_ok (hr : v.nrows % 16 ≠ 0) :
    ∃ d, c.computeInRemainder .mathematical x = some d ∧ TwoHolds d (v.nrows / 16)
      (fun r => if r < v.nrows then laneVal .mathematical x (v.elem r) else .ninf) := by
  obtain ⟨d, d1, d2, d3⟩ := computeInBlock_ok h .mathematical x hx (b := v.nrows / 16)
    (by rw [h.blocks, if_neg hr]; omega)
  unfold Chunk.computeInRemainder
  rw [h.full, d1]
  simp only [Option.bind_eq_bind, Option.bind_some, h.rem]
  by_cases h8 : v.nrows % 16 < 8
  · rw [if_pos h8]
    refine ⟨_, rfl, fun l hl => ?_, fun l hl => ?_⟩
    · simp only
      by_cases hh : l < v.nrows % 16 % 8
      · rw [if_pos hh, if_pos (by omega), d2 l hl, laneVal_padRow _ _ _ (by omega)]
      · rw [if_neg hh, if_neg (by omega)]; rfl
    · simp only
      rw [if_neg (by omega)]; rfl
  · rw [if_neg h8]
    refine ⟨_, rfl, fun l hl => ?_, fun l hl => ?_⟩
    · simp only
      rw [if_pos (by omega), d2 l hl, laneVal_padRow _ _ _ (by omega)]
    · simp only
      by_cases hh : l < v.nrows % 16 % 8
      · rw [if_pos hh, if_pos (by omega), d3 l hl, laneVal_padRow _ _ _ (by omega)]
      · rw [if_neg hh, if_neg (by omega)]; rfl

omit h hx in
theorem prox_masked (r : Nat) :
    (if r < v.nrows then c.norms.getD r 0 else 0) -
      ((if r < v.nrows then laneVal .mathematical x (v.elem r) else .ninf) +
        (if r < v.nrows then laneVal .mathematical x (v.elem r) else .ninf)) = c.prox v x r := by
  unfold Chunk.prox
  by_cases hr : r < v.nrows
  · simp only [if_pos hr]
  · simp only [if_neg hr]; rfl

/-- `find_closest` reduces the lanes of the sequential scan. -/
theorem findClosest_eq : ∃ t : Track K, c.findClosest x = some (finish (.num f32Max) t) ∧
    ∀ l, l < 8 → t l = seqTrack (c.prox v x) (2 * ((v.nrows + 15) / 16)) l := by
  obtain ⟨t, h1, h2⟩ := foldlM_inv (c.closestBlock x)
    (fun n t => ∀ l, l < 8 → t l = seqTrack (c.prox v x) (2 * n) l) (v.nrows / 16) (fun _ => (.inf, errIndex))
    (fun l _ => rfl) (fun b hb t ht => closestBlock_ok h x hx hb t ht)
  unfold Chunk.findClosest
  rw [if_neg (by rw [hx, h.repr]; simp), h.full, h1]
  simp only [Option.bind_eq_bind, Option.bind_some]
  unfold Chunk.closestRemainder
  simp only [h.rem, h.full]
  by_cases hr : v.nrows % 16 = 0
  · rw [if_neg (by omega)]
    exact ⟨t, rfl, by rw [show (v.nrows + 15) / 16 = v.nrows / 16 by omega]; exact h2⟩
  · rw [if_pos hr]
    obtain ⟨d, d1, d2, d3⟩ := computeInRemainder_ok h x hx hr
    obtain ⟨n, n1, n2, n3⟩ := loadRemainderNorms_ok h hr
    rw [d1, n1]
    refine ⟨_, rfl, fun l hl => ?_⟩
    rw [show (v.nrows + 15) / 16 = v.nrows / 16 + 1 by omega]
    refine seqTrack_update ⟨?_, ?_⟩ h2 l hl
    · intro l hl
      show n.1 l - (d.1 l + d.1 l) = _
      rw [n2 l hl, d2 l hl, prox_masked]
    · intro l hl
      show n.2 l - (d.2 l + d.2 l) = _
      rw [n3 l hl, d3 l hl, prox_masked]

omit x hx

variable [IsStrictOrderedRing K]

theorem batchBlock_ok {xs : Strided (Fl K)} {q : Nat} {x : List (Fl K)} (hq : xs.rowUnchecked q = some x)
    (hx : x.length = v.ncols) {b : Nat} (hb : b < c.data.repr.numBlocks) (t : Track K)
    (ht : ∀ l, l < 8 → t l = pairTrack (c.prox v x) b l) :
    ∃ t', c.batchBlock xs q t b = some t' ∧ ∀ l, l < 8 → t' l = pairTrack (c.prox v x) (b + 1) l := by
  obtain ⟨d, d1, d2, d3⟩ := batchProducts_ok h hq hx hb
  have hb' := hb
  rw [h.blocks] at hb'
  unfold Chunk.batchBlock
  rw [d1]
  simp only [Option.bind_eq_bind, Option.bind_some]
  unfold Chunk.batchNorms
  simp only [h.rem]
  by_cases hr : v.nrows % 16 ≠ 0 ∧ b + 1 = c.data.repr.numBlocks
  · rw [if_pos hr]
    obtain ⟨n, n1, n2, n3⟩ := loadRemainderNorms_ok h hr.1
    have hbb : b = v.nrows / 16 := by
      have := hr.2
      rw [h.blocks, if_neg hr.1] at this
      omega
    have h0 := hr.1
    rw [← hbb] at n2 n3
    rw [n1]
    refine ⟨_, rfl, fun l hl => pairTrack_update ⟨?_, ?_⟩ ht l hl⟩
    · intro l hl
      show n.1 l - .num 2 * (if l < min (v.nrows % 16) 8 then d.1 l else .ninf) = _
      rw [Fl.two_mul', n2 l hl, ← prox_masked]
      by_cases hh : 16 * b + l < v.nrows
      · simp only [if_pos hh]
        rw [if_pos (by omega), d2 l hl, laneVal_padRow _ _ _ hh]
      · simp only [if_neg hh]
        rw [if_neg (by omega)]
    · intro l hl
      show n.2 l - .num 2 * (if l < v.nrows % 16 - min (v.nrows % 16) 8 then d.2 l else .ninf) = _
      rw [Fl.two_mul', n3 l hl, ← prox_masked]
      by_cases hh : 16 * b + 8 + l < v.nrows
      · simp only [if_pos hh]
        rw [if_pos (by omega), d3 l hl, laneVal_padRow _ _ _ hh]
      · simp only [if_neg hh]
        rw [if_neg (by omega)]
  · rw [if_neg hr]
    have hbb : b < v.nrows / 16 := by
      rw [h.blocks] at hr
      revert hr hb'
      split
      · intros; assumption
      · intros; omega
    obtain ⟨n, n1, n2, n3⟩ := loadNorms_ok h hbb
    rw [n1]
    refine ⟨_, rfl, fun l hl => pairTrack_update ⟨?_, ?_⟩ ht l hl⟩
    · intro l hl
      show n.1 l - .num 2 * d.1 l = _
      rw [Fl.two_mul', n2 l hl, d2 l hl, laneVal_padRow _ _ _ (by omega)]
      unfold Chunk.prox
      rw [if_pos (by omega)]
    · intro l hl
      show n.2 l - .num 2 * d.2 l = _
      rw [Fl.two_mul', n3 l hl, d3 l hl, laneVal_padRow _ _ _ (by omega)]
      unfold Chunk.prox
      rw [if_pos (by omega)]

theorem batchQuery_eq {xs : Strided (Fl K)} {q : Nat} {x : List (Fl K)} (hq : xs.rowUnchecked q = some x)
    (hx : x.length = v.ncols) :
    ∃ t : Track K, (List.range c.data.repr.numBlocks).foldlM (c.batchBlock xs q) (fun _ => (.inf, errIndex)) = some t ∧
      ∀ l, l < 8 → t l = pairTrack (c.prox v x) ((v.nrows + 15) / 16) l := by
  have := foldlM_inv (c.batchBlock xs q) (fun n t => ∀ l, l < 8 → t l = pairTrack (c.prox v x) n l)
    c.data.repr.numBlocks (fun _ => (.inf, errIndex)) (fun l _ => rfl)
    (fun b hb t ht => batchBlock_ok h hq hx hb t ht)
  obtain ⟨t, t1, t2⟩ := this
  refine ⟨t, t1, ?_⟩
  have hn : c.data.repr.numBlocks = (v.nrows + 15) / 16 := by rw [h.blocks]; split <;> omega
  rw [← hn]
  exact t2

end

/-! ## Scans -/

section

variable (p : Nat → Fl K)

omit [Field K] in
/-- Without hypotheses: a lane holds nothing, or the value of one of its pivots. -/
theorem seqTrack_sound (n l : Nat) :
    seqTrack p n l = (.inf, errIndex) ∨ ∃ g, g < n ∧ seqTrack p n l = (p (8 * g + l), (8 * g + l) % 2 ^ 32) := by
  induction n with
  | zero => exact Or.inl rfl
  | succ n ih =>
    have : seqTrack p (n + 1) l = upd (seqTrack p n l) (p (8 * n + l), (8 * n + l) % 2 ^ 32) := by
      unfold seqTrack; rw [List.range_succ, List.foldl_append]; rfl
    rw [this]
    unfold upd
    split
    · exact Or.inr ⟨n, by omega, rfl⟩
    · rcases ih with ih | ⟨g, h1, h2⟩
      · exact Or.inl ih
      · exact Or.inr ⟨g, by omega, h2⟩

omit [Field K] in
theorem pairTrack_sound (n l : Nat) (hl : l < 8) :
    pairTrack p n l = (.inf, errIndex) ∨ ∃ r, r < 16 * n ∧ r % 8 = l ∧ pairTrack p n l = (p r, r % 2 ^ 32) := by
  induction n with
  | zero => exact Or.inl rfl
  | succ n ih =>
    have : pairTrack p (n + 1) l = upd (pairTrack p n l) (upd (p (16 * n + l), (16 * n + l) % 2 ^ 32)
        (p (16 * n + 8 + l), (16 * n + 8 + l) % 2 ^ 32)) := by
      unfold pairTrack; rw [List.range_succ, List.foldl_append]; rfl
    have hu : ∀ a b : Fl K × Nat, upd a b = a ∨ upd a b = b := fun a b => by unfold upd; split <;> simp
    rw [this]
    rcases hu (pairTrack p n l) (upd (p (16 * n + l), (16 * n + l) % 2 ^ 32)
        (p (16 * n + 8 + l), (16 * n + 8 + l) % 2 ^ 32)) with h | h <;> rw [h]
    swap
    · rcases hu (p (16 * n + l), (16 * n + l) % 2 ^ 32)
        (p (16 * n + 8 + l), (16 * n + 8 + l) % 2 ^ 32) with h | h <;> rw [h]
      · exact Or.inr ⟨16 * n + l, by omega, by omega, rfl⟩
      · exact Or.inr ⟨16 * n + 8 + l, by omega, by omega, rfl⟩
    · rcases ih with ih | ⟨r, h1, h2, h3⟩
      · exact Or.inl ih
      · exact Or.inr ⟨r, by omega, h2, h3⟩

variable (hp : ∀ r, p r ≠ .nan)

include hp

omit hp [Field K] in
theorem upd_assoc (a b d : Fl K × Nat) (hb : b.1 ≠ .nan) (hd : d.1 ≠ .nan) (ha : a.1 ≠ .nan) :
    upd a (upd b d) = upd (upd a b) d := by
  unfold upd
  by_cases h1 : d.1.lt b.1 = true
  · rw [if_pos h1]
    by_cases h2 : b.1.lt a.1 = true
    · rw [if_pos h2, if_pos (Fl.lt_trans' h1 h2), if_pos h1]
    · rw [if_neg h2]
  · rw [if_neg h1]
    by_cases h2 : b.1.lt a.1 = true
    · rw [if_pos h2, if_neg h1]
    · rw [if_neg h2, if_neg]
      intro h3
      exact h2 (Fl.lt_of_not_lt_of_lt hb hd h1 h3)

omit [Field K] in
theorem seqTrack_ordered (n l : Nat) : (seqTrack p n l).1 ≠ .nan := by
  rcases seqTrack_sound p n l with h | ⟨g, _, h⟩ <;> rw [h]
  · simp
  · exact hp _

omit [Field K] in
theorem pair_eq_seq (n l : Nat) : pairTrack p n l = seqTrack p (2 * n) l := by
  induction n with
  | zero => rfl
  | succ n ih =>
    rw [seqTrack_two, ← upd_assoc _ _ _ (hp _) (hp _) (seqTrack_ordered p hp _ _), ← ih]
    unfold pairTrack; rw [List.range_succ, List.foldl_append]; rfl

omit [Field K] in
/-- Without NaN a lane holds its smallest value, the first one of several. -/
theorem seqTrack_min (n l : Nat) :
    (seqTrack p n l = (.inf, errIndex) ∧ ∀ g, g < n → ¬ (p (8 * g + l)).lt .inf = true) ∨
    ∃ g, g < n ∧ seqTrack p n l = (p (8 * g + l), (8 * g + l) % 2 ^ 32) ∧ (p (8 * g + l)).lt .inf = true ∧
      (∀ g', g' < n → ¬ (p (8 * g' + l)).lt (p (8 * g + l)) = true) ∧
      (∀ g', g' < g → (p (8 * g + l)).lt (p (8 * g' + l)) = true) := by
  induction n with
  | zero => exact Or.inl ⟨rfl, fun g hg => by omega⟩
  | succ n ih =>
    have : seqTrack p (n + 1) l = upd (seqTrack p n l) (p (8 * n + l), (8 * n + l) % 2 ^ 32) := by
      unfold seqTrack; rw [List.range_succ, List.foldl_append]; rfl
    rw [this]
    unfold upd
    rcases ih with ⟨h1, h2⟩ | ⟨g, h1, h2, h3, h4, h5⟩
    · rw [h1]
      by_cases hc : (p (8 * n + l)).lt .inf = true
      · rw [if_pos hc]
        refine Or.inr ⟨n, by omega, rfl, hc, fun g' hg' => ?_, fun g' hg' => ?_⟩
        · rcases Nat.lt_succ_iff_lt_or_eq.mp hg' with h | rfl
          · intro hlt; exact h2 g' h (Fl.lt_trans' hlt hc)
          · exact Fl.lt_irrefl' _
        · exact Fl.lt_of_lt_of_not_lt (by simp) (hp _) hc (h2 g' hg')
      · rw [if_neg hc]
        refine Or.inl ⟨rfl, fun g hg => ?_⟩
        rcases Nat.lt_succ_iff_lt_or_eq.mp hg with h | rfl
        · exact h2 g h
        · exact hc
    · rw [h2]
      by_cases hc : (p (8 * n + l)).lt (p (8 * g + l)) = true
      · rw [if_pos hc]
        refine Or.inr ⟨n, by omega, rfl, Fl.lt_trans' hc h3, fun g' hg' => ?_, fun g' hg' => ?_⟩
        · rcases Nat.lt_succ_iff_lt_or_eq.mp hg' with h | rfl
          · intro hlt; exact h4 g' h (Fl.lt_trans' hlt hc)
          · exact Fl.lt_irrefl' _
        · exact Fl.lt_of_lt_of_not_lt (hp _) (hp _) hc (h4 g' hg')
      · rw [if_neg hc]
        refine Or.inr ⟨g, by omega, rfl, h3, fun g' hg' => ?_, h5⟩
        rcases Nat.lt_succ_iff_lt_or_eq.mp hg' with h | rfl
        · exact h4 g' h
        · exact hc

end

/-! ## Final reduction -/

/-- The reduction after `n` lanes. -/
def reduceLanes (start : Fl K) (t : Track K) (n : Nat) : Fl K × Nat :=
  (List.range n).foldl (fun (m : Fl K × Nat) l => if (t l).1.lt m.1 then t l else m) (start, errIndex)

omit [Field K] in
theorem reduceLanes_sound (start : Fl K) (t : Track K) (n : Nat) :
    reduceLanes start t n = (start, errIndex) ∨ ∃ l, l < n ∧ reduceLanes start t n = t l := by
  induction n with
  | zero => exact Or.inl rfl
  | succ n ih =>
    have : reduceLanes start t (n + 1) =
        if (t n).1.lt (reduceLanes start t n).1 then t n else reduceLanes start t n := by
      unfold reduceLanes; rw [List.range_succ, List.foldl_append]; rfl
    rw [this]
    split
    · exact Or.inr ⟨n, by omega, rfl⟩
    · rcases ih with ih | ⟨l, h1, h2⟩
      · exact Or.inl ih
      · exact Or.inr ⟨l, by omega, h2⟩

omit [Field K] in
theorem reduceLanes_min (start : Fl K) (hs : start ≠ .nan) (t : Track K) (ht : ∀ l, l < 8 → (t l).1 ≠ .nan) (n : Nat)
    (hn : n ≤ 8) :
    (reduceLanes start t n = (start, errIndex) ∧ ∀ l, l < n → ¬ (t l).1.lt start = true) ∨
    ∃ l, l < n ∧ reduceLanes start t n = t l ∧ (t l).1.lt start = true ∧
      (∀ l', l' < n → ¬ (t l').1.lt (t l).1 = true) ∧ (∀ l', l' < l → (t l).1.lt (t l').1 = true) := by
  induction n with
  | zero => exact Or.inl ⟨rfl, fun l hl => by omega⟩
  | succ n ih =>
    have : reduceLanes start t (n + 1) =
        if (t n).1.lt (reduceLanes start t n).1 then t n else reduceLanes start t n := by
      unfold reduceLanes; rw [List.range_succ, List.foldl_append]; rfl
    rw [this]
    rcases ih (by omega) with ⟨h1, h2⟩ | ⟨l, h1, h2, h3, h4, h5⟩
    · rw [h1]
      by_cases hc : (t n).1.lt start = true
      · rw [if_pos hc]
        refine Or.inr ⟨n, by omega, rfl, hc, fun l' hl' => ?_, fun l' hl' => ?_⟩
        · rcases Nat.lt_succ_iff_lt_or_eq.mp hl' with h | rfl
          · intro hlt; exact h2 l' h (Fl.lt_trans' hlt hc)
          · exact Fl.lt_irrefl' _
        · exact Fl.lt_of_lt_of_not_lt hs (ht l' (by omega)) hc (h2 l' hl')
      · rw [if_neg hc]
        refine Or.inl ⟨rfl, fun l hl => ?_⟩
        rcases Nat.lt_succ_iff_lt_or_eq.mp hl with h | rfl
        · exact h2 l h
        · exact hc
    · rw [h2]
      by_cases hc : (t n).1.lt (t l).1 = true
      · rw [if_pos hc]
        refine Or.inr ⟨n, by omega, rfl, Fl.lt_trans' hc h3, fun l' hl' => ?_, fun l' hl' => ?_⟩
        · rcases Nat.lt_succ_iff_lt_or_eq.mp hl' with h | rfl
          · intro hlt; exact h4 l' h (Fl.lt_trans' hlt hc)
          · exact Fl.lt_irrefl' _
        · exact Fl.lt_of_lt_of_not_lt (ht l (by omega)) (ht l' (by omega)) hc (h4 l' hl')
      · rw [if_neg hc]
        refine Or.inr ⟨l, by omega, rfl, h3, fun l' hl' => ?_, h5⟩
        rcases Nat.lt_succ_iff_lt_or_eq.mp hl' with h | rfl
        · exact h4 l' h
        · exact hc

omit [Field K] in
theorem finish_eq (start : Fl K) (t : Track K) :
    finish start t = if (reduceLanes start t 8).1.isFinite then (reduceLanes start t 8).2 else errIndex := rfl

omit [Field K] in
/-- Whatever the inputs, the result is the error or a pivot with a finite value. -/
theorem finish_sound (p : Nat → Fl K) (N : Nat) (hN : N < 2 ^ 32) (hpad : ∀ r, N ≤ r → (p r).isFinite = false)
    (start : Fl K) (t : Track K)
    (ht : ∀ l, l < 8 → t l = (.inf, errIndex) ∨ ∃ r, t l = (p r, r % 2 ^ 32)) :
    finish start t = errIndex ∨ (finish start t < N ∧ (p (finish start t)).isFinite = true) := by
  rw [finish_eq]
  rcases reduceLanes_sound start t 8 with h | ⟨l, hl, h⟩
  · left; rw [h]; simp
  · rw [h]
    rcases ht l hl with h' | ⟨r, h'⟩
    · left; rw [h']; simp [Fl.isFinite]
    · rw [h']
      by_cases hf : (p r).isFinite = true
      · right
        have hr : r < N := by
          by_contra hc
          rw [hpad r (by omega)] at hf
          exact absurd hf (by simp)
        have : r % 2 ^ 32 = r := Nat.mod_eq_of_lt (by omega)
        simp only [hf, if_true, this]
        exact ⟨hr, trivial⟩
      · left; simp only [Bool.not_eq_true] at hf; simp [hf]

omit [Field K] in
/-- With finite values below `start`: the result minimises, and among the minimisers comes first. -/
theorem finish_min (p : Nat → Fl K) (N n : Nat) (hN : N < 2 ^ 32) (hn : N ≤ 8 * n)
    (hfin : ∀ r, r < N → (p r).isFinite = true) (hpad : ∀ r, N ≤ r → p r = .inf) (start : Fl K) (hs : start ≠ .nan)
    (hlt : ∃ r, r < N ∧ (p r).lt start = true) (t : Track K) (ht : ∀ l, l < 8 → t l = seqTrack p n l) :
    finish start t < N ∧ (∀ r, r < N → ¬ (p r).lt (p (finish start t)) = true) ∧
      ∀ r, r < N → ¬ (p (finish start t)).lt (p r) = true → Before (finish start t) r := by
  have hp : ∀ r, p r ≠ .nan := by
    intro r
    by_cases hr : r < N
    · intro h
      have := hfin r hr
      rw [h] at this
      exact absurd this (by simp [Fl.isFinite])
    · rw [hpad r (by omega)]; simp
  have hord : ∀ l, l < 8 → (t l).1 ≠ .nan := fun l hl => by rw [ht l hl]; exact seqTrack_ordered p hp n l
  have hlane : ∀ r, r < N → ¬ (p r).lt (t (r % 8)).1 = true := by
    intro r hr
    have hr8 : r % 8 < 8 := by omega
    have hre : 8 * (r / 8) + r % 8 = r := by omega
    rw [ht _ hr8]
    rcases seqTrack_min p hp n (r % 8) with ⟨h1, h2⟩ | ⟨g, h1, h2, h3, h4, h5⟩
    · rw [h1]
      have := h2 (r / 8) (by omega)
      rwa [hre] at this
    · rw [h2]
      have := h4 (r / 8) (by omega)
      rwa [hre] at this
  rw [finish_eq]
  rcases reduceLanes_min start hs t hord 8 (le_refl _) with ⟨h1, h2⟩ | ⟨l, h1, h2, h3, h4, h5⟩
  · obtain ⟨r, hr, hlt⟩ := hlt
    have hr8 : r % 8 < 8 := by omega
    exact absurd (Fl.lt_of_not_lt_of_lt (hord _ hr8) (hp r) (hlane r hr) hlt) (h2 _ hr8)
  · rw [h2]
    rcases seqTrack_min p hp n l with ⟨e1, e2⟩ | ⟨g, e1, e2, e3, e4, e5⟩
    · obtain ⟨r, hr, hlt⟩ := hlt
      rw [ht l h1, e1] at h3 h4
      have hr8 : r % 8 < 8 := by omega
      have h6 := Fl.lt_of_not_lt_of_lt (hord _ hr8) (hp r) (hlane r hr)
        (show (p r).lt .inf = true by
          have := hfin r hr
          cases hpr : p r <;> simp_all [Fl.isFinite, Fl.lt])
      exact absurd h6 (h4 _ hr8)
    · rw [ht l h1, e2]
      have hgN : 8 * g + l < N := by
        by_contra hc
        rw [hpad _ (by omega)] at e3
        exact absurd e3 (Fl.lt_irrefl' _)
      have hm : (8 * g + l) % 2 ^ 32 = 8 * g + l := Nat.mod_eq_of_lt (by omega)
      simp only [hfin _ hgN, if_true, hm]
      have htl : (t l).1 = p (8 * g + l) := by rw [ht l h1, e2]
      rw [htl] at h4 h5
      refine ⟨hgN, fun r hr hlt => ?_, fun r hr hnl => ?_⟩
      · have hr8 : r % 8 < 8 := by omega
        exact h4 _ hr8 (Fl.lt_of_not_lt_of_lt (hord _ hr8) (hp r) (hlane r hr) hlt)
      · unfold Before
        rw [show (8 * g + l) % 8 = l by omega]
        rcases Nat.lt_trichotomy l (r % 8) with h | h | h
        · exact Or.inl h
        · refine Or.inr ⟨h, ?_⟩
          by_contra hc
          have := e5 (r / 8) (by omega)
          rw [show 8 * (r / 8) + l = r by omega] at this
          exact hnl this
        · exact absurd (Fl.lt_of_lt_of_not_lt (hord _ (by omega)) (hp r) (h5 (r % 8) h) (hlane r hr)) hnl

end

end Verif.Pq
