import Mathlib.Tactic.Ring
import Mathlib.Tactic.Linarith
import Mathlib.Data.List.GetD
import Verif.Vec.BlockProps
import Verif.Multi.Model

/-! # The tiled loops visit every pair once -/

namespace Verif.Multi

open Verif.Vec

theorem foldlM_eq {α β : Type} (f : β → α → Option β) (g : β → α → β) (l : List α)
    (h : ∀ a ∈ l, ∀ b, f b a = some (g b a)) (b : β) : l.foldlM f b = some (l.foldl g b) := by
  induction l generalizing b with
  | nil => rfl
  | cons a l ih =>
    rw [List.foldlM_cons, h a (by simp) b]
    exact ih (fun a' ha' => h a' (by simp [ha'])) _

theorem mapM_eq {α β : Type} (f : α → Option β) (g : α → β) (l : List α) (h : ∀ a ∈ l, f a = some (g a)) :
    l.mapM f = some (l.map g) := by
  induction l with
  | nil => rfl
  | cons a l ih =>
    rw [List.mapM_cons, h a (by simp), ih (fun a' ha' => h a' (by simp [ha']))]
    rfl

section

variable {K : Type} [CommRing K] [LinearOrder K] (k : Nat) (av bv : Nat → Nat → K)

/-- The inner product as the kernel accumulates it. -/
def ipOf (x j : Nat) : K := (List.range k).foldl (fun acc i => av x i * bv j i + acc) 0

/-- The best of `v` and the inner products of row `x` with rows `j0 .. j0 + n`. -/
def bestOf (v : K) (x j0 n : Nat) : K := (List.range' j0 n).foldl (fun m j => max m (ipOf k av bv x j)) v

/-- `r'` is `r` with rows `lo .. hi` merged with the documents `j0 .. j0 + n`. -/
structure Covers (r r' : List K) (lo hi j0 n : Nat) : Prop where
  len : r'.length = r.length
  val : ∀ x, r'.getD x 0 = if lo ≤ x ∧ x < hi then bestOf k av bv (r.getD x 0) x j0 n else r.getD x 0

variable {k av bv}

theorem bestOf_zero (v : K) (x j0 : Nat) : bestOf k av bv v x j0 0 = v := rfl

theorem bestOf_add (v : K) (x j0 n m : Nat) :
    bestOf k av bv (bestOf k av bv v x j0 n) x (j0 + n) m = bestOf k av bv v x j0 (n + m) := by
  unfold bestOf
  rw [← List.foldl_append]
  congr 1
  rw [List.range'_append_1]

theorem Covers.refl_docs (r : List K) (lo hi j0 : Nat) : Covers k av bv r r lo hi j0 0 :=
  ⟨rfl, fun x => by rw [bestOf_zero, ite_self]⟩

theorem Covers.refl_rows (r : List K) (lo j0 n : Nat) : Covers k av bv r r lo lo j0 n :=
  ⟨rfl, fun x => by rw [if_neg (by omega)]⟩

theorem Covers.docs {r r1 r2 : List K} {lo hi j0 n m : Nat} (h1 : Covers k av bv r r1 lo hi j0 n)
    (h2 : Covers k av bv r1 r2 lo hi (j0 + n) m) : Covers k av bv r r2 lo hi j0 (n + m) := by
  refine ⟨h2.len.trans h1.len, fun x => ?_⟩
  rw [h2.val, h1.val]
  split
  · rw [bestOf_add]
  · rfl

theorem Covers.rows {r r1 r2 : List K} {lo mid hi j0 n : Nat} (ha : lo ≤ mid) (hb : mid ≤ hi)
    (h1 : Covers k av bv r r1 lo mid j0 n) (h2 : Covers k av bv r1 r2 mid hi j0 n) :
    Covers k av bv r r2 lo hi j0 n := by
  refine ⟨h2.len.trans h1.len, fun x => ?_⟩
  rw [h2.val, h1.val]
  by_cases c1 : lo ≤ x ∧ x < mid
  · rw [if_neg (by omega), if_pos c1, if_pos (by omega)]
  · by_cases c2 : mid ≤ x ∧ x < hi
    · rw [if_pos c2, if_neg c1, if_pos (by omega)]
    · rw [if_neg c2, if_neg c1, if_neg (by omega)]

/-! ## The micro-kernel -/

/-- A panel of A at `pa` holds rows `row0 ..`. -/
def APanel (k : Nat) (av : Nat → Nat → K) (g : Nat) (a : List K) (pa row0 : Nat) : Prop :=
  ∀ l i, l < g → i < k → a[pa + g * i + l]? = some (av (row0 + l) i)

/-- Rows of B at `pb` from `j0`, `n` of them. -/
def BRows (k : Nat) (bv : Nat → Nat → K) (b : List K) (pb j0 n : Nat) : Prop :=
  ∀ j i, j < n → i < k → b[pb + (i + k * j)]? = some (bv (j0 + j) i)

theorem accum_ok {g : Nat} {a b : List K} {pa pb row0 j0 n l j : Nat} (hA : APanel k av g a pa row0)
    (hB : BRows k bv b pb j0 n) (hl : l < g) (hj : j < n) :
    accum g a b k pa pb l j = some (ipOf k av bv (row0 + l) (j0 + j)) := by
  unfold accum ipOf
  refine foldlM_eq _ _ _ (fun i hi acc => ?_) 0
  have hi' : i < k := List.mem_range.1 hi
  rw [hA l i hl hi', hB j i hj hi']
  rfl

theorem reduceMax_ok (f : Nat → K) (v : K) (n : Nat) (h1 : 1 ≤ n) (h4 : n ≤ 4) :
    ∃ m, reduceMax ((List.range n).map f) = some m ∧ max v m = (List.range n).foldl (fun m j => max m (f j)) v := by
  have : n = 1 ∨ n = 2 ∨ n = 3 ∨ n = 4 := by omega
  rcases this with h | h | h | h <;> subst h <;>
    simp [List.range_succ, reduceMax, max_assoc]

theorem bestOf_range (v : K) (x j0 n : Nat) :
    bestOf k av bv v x j0 n = (List.range n).foldl (fun m j => max m (ipOf k av bv x (j0 + j))) v := by
  unfold bestOf
  rw [List.range'_eq_map_range, List.foldl_map]

theorem regLane_ok {c : Kern} {unroll : Nat} {a b r : List K} {pa pb row0 j0 reg lane : Nat} (h1 : 1 ≤ unroll)
    (h4 : unroll ≤ 4) (hA : APanel k av c.aPanel a pa row0) (hB : BRows k bv b pb j0 unroll) (hreg : reg < c.regs)
    (hlane : lane < c.lanes) (hr : row0 + c.aPanel ≤ r.length) :
    regLane c unroll a b k pa pb r row0 reg lane =
      some (bestOf k av bv (r.getD (row0 + (c.lanes * reg + lane)) 0) (row0 + (c.lanes * reg + lane)) j0 unroll) := by
  have hl : c.lanes * reg + lane < c.aPanel := by
    unfold Kern.aPanel
    have := Nat.mul_le_mul_right c.lanes (show reg + 1 ≤ c.regs from hreg)
    rw [Nat.add_mul] at this
    rw [Nat.mul_comm c.lanes reg]; omega
  unfold regLane
  rw [show c.regs * c.lanes = c.aPanel from rfl, mapM_eq (accum c.aPanel a b k pa pb (c.lanes * reg + lane)) (fun j => ipOf k av bv (row0 + (c.lanes * reg + lane)) (j0 + j)) _ (fun j hj =>
    accum_ok hA hB hl (List.mem_range.1 hj))]
  obtain ⟨m, hm, hv⟩ := reduceMax_ok (fun j => ipOf k av bv (row0 + (c.lanes * reg + lane)) (j0 + j))
    (r.getD (row0 + (c.lanes * reg + lane)) 0) unroll h1 h4
  simp only [Option.bind_eq_bind, Option.bind_some]
  rw [hm]
  have hr' : r[row0 + c.lanes * reg + lane]? = some (r.getD (row0 + (c.lanes * reg + lane)) 0) := by
    rw [Nat.add_assoc, List.getD_eq_getElem?_getD, List.getElem?_eq_getElem (by omega)]; rfl
  simp only [Option.bind_some]
  rw [hr', bestOf_range, ← hv]
  rfl

theorem flatten_range (m n : Nat) (f : Nat → K) :
    (((List.range m).map (fun i => (List.range n).map (fun l => f (n * i + l)))).flatten) = (List.range (m * n)).map f := by
  induction m with
  | zero => simp
  | succ m ih =>
    rw [List.range_succ, List.map_append, List.flatten_append, ih, Nat.succ_mul, List.range_add, List.map_append]
    simp [Function.comp_def, Nat.mul_comm m n]

theorem storeAt_ok (r : List K) (pos g : Nat) (f : Nat → K) (h : pos + g ≤ r.length) :
    ∃ r', storeAt r pos ((List.range g).map f) = some r' ∧ r'.length = r.length ∧
      ∀ x, r'.getD x 0 = if pos ≤ x ∧ x < pos + g then f (x - pos) else r.getD x 0 := by
  unfold storeAt
  rw [if_pos (by simpa using h)]
  refine ⟨_, rfl, by simp; omega, fun x => ?_⟩
  simp only [List.getD_eq_getElem?_getD, List.length_map, List.length_range]
  by_cases c1 : x < pos
  · rw [if_neg (by omega), List.append_assoc, List.getElem?_append_left (by simp; omega), List.getElem?_take, if_pos c1]
  · by_cases c2 : x < pos + g
    · rw [if_pos (by omega), List.getElem?_append_left (by simp; omega), List.getElem?_append_right (by simp; omega)]
      simp only [List.length_take]
      rw [min_eq_left (by omega), List.getElem?_map, List.getElem?_range (by omega)]
      rfl
    · rw [if_neg (by omega), List.getElem?_append_right (by simp; omega), List.getElem?_drop]
      congr 2
      simp
      omega

theorem microkernel_ok {c : Kern} {unroll : Nat} {a b r : List K} {pa pb row0 j0 : Nat} (h1 : 1 ≤ unroll)
    (h4 : unroll ≤ 4) (hA : APanel k av c.aPanel a pa row0) (hB : BRows k bv b pb j0 unroll)
    (hr : row0 + c.aPanel ≤ r.length) :
    ∃ r', microkernel c unroll a b k pa pb r row0 = some r' ∧
      Covers k av bv r r' row0 (row0 + c.aPanel) j0 unroll := by
  unfold microkernel
  rw [mapM_eq _ (fun reg => (List.range c.lanes).map (fun lane =>
    bestOf k av bv (r.getD (row0 + (c.lanes * reg + lane)) 0) (row0 + (c.lanes * reg + lane)) j0 unroll)) _
    (fun reg hreg => mapM_eq _ _ _ (fun lane hl =>
      regLane_ok h1 h4 hA hB (List.mem_range.1 hreg) (List.mem_range.1 hl) hr))]
  simp only [Option.bind_eq_bind, Option.bind_some]
  rw [flatten_range c.regs c.lanes (fun y => bestOf k av bv (r.getD (row0 + y) 0) (row0 + y) j0 unroll)]
  obtain ⟨r', e, hl, hv⟩ := storeAt_ok r row0 (c.regs * c.lanes)
    (fun y => bestOf k av bv (r.getD (row0 + y) 0) (row0 + y) j0 unroll) hr
  refine ⟨r', e, hl, fun x => ?_⟩
  rw [hv]
  unfold Kern.aPanel
  split
  · rename_i h
    rw [show row0 + (x - row0) = x by omega]
  · rfl

/-! ## The loops -/

/-- What the panels of a kernel must satisfy. -/
structure Kern.Ok (c : Kern) : Prop where
  lanes : 0 < c.lanes
  regs : 0 < c.regs
  lo : 1 ≤ c.bPanel
  hi : c.bPanel ≤ 4

theorem Kern.Ok.aPanel_pos {c : Kern} (h : c.Ok) : 0 < c.aPanel := Nat.mul_pos h.regs h.lanes

theorem BRows.mono {b : List K} {pb j0 n m : Nat} (h : BRows k bv b pb j0 n) (hm : m ≤ n) : BRows k bv b pb j0 m :=
  fun j i hj hi => h j i (by omega) hi

theorem BRows.shift {b : List K} {pb j0 n m : Nat} (h : BRows k bv b pb j0 n) (hm : m ≤ n) :
    BRows k bv b (pb + m * k) (j0 + m) (n - m) := fun j i hj hi => by
  have := h (m + j) i (by omega) hi
  rw [show pb + m * k + (i + k * j) = pb + (i + k * (m + j)) by ring, this, Nat.add_assoc]

theorem loop4_ok {c : Kern} (hc : c.Ok) (hk : 0 < k) {a b : List K} {pa row0 n : Nat}
    (hA : APanel k av c.aPanel a pa row0) (fuel pb j0 : Nat) (r : List K) (hf : n < fuel)
    (hB : BRows k bv b pb j0 (n * c.bPanel)) (hr : row0 + c.aPanel ≤ r.length) :
    ∃ r', loop4 c a b k pa row0 (pb + n * (c.bPanel * k)) fuel pb r = some (pb + n * (c.bPanel * k), r') ∧
      Covers k av bv r r' row0 (row0 + c.aPanel) j0 (n * c.bPanel) := by
  induction n generalizing fuel pb j0 r with
  | zero =>
    cases fuel with
    | zero => omega
    | succ f =>
      refine ⟨r, ?_, by rw [Nat.zero_mul]; exact Covers.refl_docs _ _ _ _⟩
      rw [loop4, if_neg (by omega)]
      simp
  | succ n ih =>
    cases fuel with
    | zero => omega
    | succ f =>
      have hpos : 0 < c.bPanel * k := Nat.mul_pos hc.lo hk
      obtain ⟨r1, e1, c1⟩ := microkernel_ok (c := c) (unroll := c.bPanel) hc.lo hc.hi hA
        (hB.mono (Nat.le_mul_of_pos_left _ (Nat.succ_pos n))) hr
      have hB' : BRows k bv b (pb + c.bPanel * k) (j0 + c.bPanel) (n * c.bPanel) := by
        have := hB.shift (m := c.bPanel) (Nat.le_mul_of_pos_left _ (Nat.succ_pos n))
        rw [show (n + 1) * c.bPanel - c.bPanel = n * c.bPanel by rw [Nat.succ_mul]; omega] at this
        exact this
      obtain ⟨r2, e2, c2⟩ := ih f (pb + c.bPanel * k) (j0 + c.bPanel) r1 (by omega) hB' (by rw [c1.len]; exact hr)
      refine ⟨r2, ?_, ?_⟩
      · rw [loop4, if_pos (by rw [Nat.succ_mul]; omega)]
        unfold fullPanel
        rw [e1]
        dsimp only
        rw [show pb + (n + 1) * (c.bPanel * k) = pb + c.bPanel * k + n * (c.bPanel * k) by ring]
        exact e2
      · have := c1.docs c2
        rwa [show c.bPanel + n * c.bPanel = (n + 1) * c.bPanel by ring] at this

theorem remPanel_ok {c : Kern} (hc : c.Ok) {a b r : List K} {pa pb row0 j0 rem : Nat} (hrem : rem < c.bPanel)
    (hA : APanel k av c.aPanel a pa row0) (hB : BRows k bv b pb j0 rem) (hr : row0 + c.aPanel ≤ r.length) :
    ∃ r', remPanel c rem a b k pa pb r row0 = some r' ∧ Covers k av bv r r' row0 (row0 + c.aPanel) j0 rem := by
  unfold remPanel
  by_cases h : 0 < rem
  · rw [if_pos h]
    unfold partialPanel
    rw [if_pos ⟨h, hrem⟩]
    exact microkernel_ok h (by have := hc.hi; omega) hA hB hr
  · rw [if_neg h]
    have : rem = 0 := by omega
    subst this
    exact ⟨r, rfl, Covers.refl_docs _ _ _ _⟩

/-- Panels of an A tile: panel `p` starts at `p * (g * k)` and holds rows `row0 + p * g ..`. -/
def ATile (k : Nat) (av : Nat → Nat → K) (g : Nat) (a : List K) (row0 m : Nat) : Prop :=
  ∀ p, p < m → APanel k av g a (p * (g * k)) (row0 + p * g)

theorem loop3_ok {c : Kern} (hc : c.Ok) (hk : 0 < k) {a b : List K} {row0 m n rem j0 : Nat} (hrem : rem < c.bPanel)
    (hA : ATile k av c.aPanel a row0 m) (hB : BRows k bv b 0 j0 (n * c.bPanel + rem)) (s fuel p : Nat) (r : List K)
    (hs : p + s = m) (hf : s < fuel) (hr : row0 + m * c.aPanel ≤ r.length) :
    ∃ r', loop3 c a b k (m * (c.aPanel * k)) (n * (c.bPanel * k)) rem fuel (p * (c.aPanel * k)) (row0 + p * c.aPanel) r
        = some r' ∧ Covers k av bv r r' (row0 + p * c.aPanel) (row0 + m * c.aPanel) j0 (n * c.bPanel + rem) := by
  have hpos : 0 < c.aPanel * k := Nat.mul_pos hc.aPanel_pos hk
  have hbpos : 0 < c.bPanel * k := Nat.mul_pos hc.lo hk
  induction s generalizing fuel p r with
  | zero =>
    cases fuel with
    | zero => omega
    | succ f =>
      obtain rfl : p = m := by omega
      refine ⟨r, ?_, Covers.refl_rows _ _ _ _⟩
      rw [loop3, if_neg (by omega)]
  | succ s ih =>
    cases fuel with
    | zero => omega
    | succ f =>
      have hp : p < m := by omega
      have hle : (p + 1) * c.aPanel ≤ m * c.aPanel := Nat.mul_le_mul_right _ hp
      rw [Nat.succ_mul] at hle
      have hrow : row0 + p * c.aPanel + c.aPanel ≤ r.length := by omega
      have hnf : n < n * (c.bPanel * k) + 1 := Nat.lt_succ_of_le (Nat.le_mul_of_pos_right _ hbpos)
      obtain ⟨r1, e1, c1⟩ := loop4_ok (n := n) hc hk (hA p hp) (n * (c.bPanel * k) + 1) 0 j0 r hnf
        (hB.mono (by omega)) hrow
      rw [Nat.zero_add] at e1
      have hB' : BRows k bv b (n * (c.bPanel * k)) (j0 + n * c.bPanel) rem := by
        have := hB.shift (m := n * c.bPanel) (by omega)
        rw [Nat.zero_add, Nat.mul_assoc, Nat.add_sub_cancel_left] at this
        exact this
      obtain ⟨r2, e2, c2⟩ := remPanel_ok hc hrem (hA p hp) hB' (r := r1) (by rw [c1.len]; exact hrow)
      obtain ⟨r3, e3, c3⟩ := ih f (p + 1) r2 (by omega) (by omega) (by rw [c2.len, c1.len]; exact hr)
      refine ⟨r3, ?_, ?_⟩
      · rw [loop3, if_pos (Nat.mul_lt_mul_of_pos_right hp hpos), e1]
        dsimp only
        rw [e2]
        dsimp only
        rw [show p * (c.aPanel * k) + c.aPanel * k = (p + 1) * (c.aPanel * k) by ring,
          show row0 + p * c.aPanel + c.aPanel = row0 + (p + 1) * c.aPanel by ring]
        exact e3
      · have hc' := c1.docs c2
        rw [show row0 + (p + 1) * c.aPanel = row0 + p * c.aPanel + c.aPanel by ring] at c3
        exact hc'.rows (by omega) (by omega) c3

variable {T : Type} {conv : T → K}

/-- The documents in memory: row `j` at `j * k`. -/
structure DocMem (k : Nat) (bv : Nat → Nat → K) (conv : T → K) (b : List T) (bRows : Nat) : Prop where
  len : b.length = bRows * k
  val : ∀ j i, j < bRows → i < k → (b.map conv)[j * k + i]? = some (bv j i)

theorem convertTile_ok (cap : Nat) (src : List T) (off rows k : Nat) (hcap : rows ≤ cap)
    (hlen : off + rows * k ≤ src.length) :
    ∃ t, convertTile conv cap src off rows k = some t ∧ ∀ i, i < rows * k → t[i]? = (src.map conv)[off + i]? := by
  unfold convertTile
  rw [if_pos ⟨Nat.mul_le_mul_right _ hcap, hlen⟩]
  refine ⟨_, rfl, fun i hi => ?_⟩
  rw [List.getElem?_map, List.getElem?_take, if_pos hi, List.getElem?_drop, List.getElem?_map]

theorem docTile {b : List T} {bRows : Nat} (hD : DocMem k bv conv b bRows) (cap j0 n : Nat) (hcap : n ≤ cap)
    (hj : j0 + n ≤ bRows) : ∃ t, convertTile conv cap b (j0 * k) n k = some t ∧ BRows k bv t 0 j0 n := by
  have hle : j0 * k + n * k ≤ bRows * k := by rw [← Nat.add_mul]; exact Nat.mul_le_mul_right _ hj
  obtain ⟨t, e, ht⟩ := convertTile_ok (conv := conv) cap b (j0 * k) n k hcap (by rw [hD.len]; exact hle)
  refine ⟨t, e, fun j i hj' hi => ?_⟩
  have hlt : k * j + k ≤ n * k := by
    have := Nat.mul_le_mul_right k (show j + 1 ≤ n from hj')
    rw [Nat.succ_mul, Nat.mul_comm j k] at this
    exact this
  rw [Nat.zero_add, ht _ (by omega), show j0 * k + (i + k * j) = (j0 + j) * k + i by ring, hD.val _ _ (by omega) hi]

theorem loop2_ok {c : Kern} (hc : c.Ok) (hk : 0 < k) {a : List K} {b : List T} {bRows row0 m tp cap full : Nat}
    (hA : ATile k av c.aPanel a row0 m) (hD : DocMem k bv conv b bRows) (hfull : full * c.bPanel ≤ bRows) (htp : 1 ≤ tp)
    (hcap : tp * c.bPanel ≤ bRows → tp * c.bPanel ≤ cap) (s fuel t : Nat) (r : List K) (hs : full < (t + s) * tp)
    (hs2 : t * tp ≤ full) (hf : s ≤ fuel) (hr : row0 + m * c.aPanel ≤ r.length) :
    ∃ t' r', loop2 conv c a b k (m * (c.aPanel * k)) row0 cap (c.bPanel * tp) (full * c.bPanel * k) fuel
        (t * tp * c.bPanel * k) r = some (t' * c.bPanel * k, r') ∧ t * tp ≤ t' ∧ t' ≤ full ∧ full < t' + tp ∧
      Covers k av bv r r' row0 (row0 + m * c.aPanel) (t * tp * c.bPanel) ((t' - t * tp) * c.bPanel) := by
  have hbpos : 0 < c.bPanel * k := Nat.mul_pos hc.lo hk
  induction s generalizing fuel t r with
  | zero => rw [Nat.add_zero] at hs; omega
  | succ s ih =>
    cases fuel with
    | zero => omega
    | succ f =>
      have hcond : (t * tp * c.bPanel * k + c.bPanel * tp * k ≤ full * c.bPanel * k) ↔ t * tp + tp ≤ full := by
        rw [show t * tp * c.bPanel * k + c.bPanel * tp * k = (t * tp + tp) * (c.bPanel * k) by ring, Nat.mul_assoc full]
        exact ⟨fun h => Nat.le_of_mul_le_mul_right h hbpos, fun h => Nat.mul_le_mul_right _ h⟩
      by_cases h : t * tp + tp ≤ full
      · have h2 : (t * tp + tp) * c.bPanel ≤ bRows := le_trans (Nat.mul_le_mul_right _ h) hfull
        rw [Nat.add_mul] at h2
        obtain ⟨bt, e1, hB⟩ := docTile hD cap (t * tp * c.bPanel) (c.bPanel * tp)
          (by rw [Nat.mul_comm]; exact hcap (by omega)) (by rw [Nat.mul_comm c.bPanel]; exact h2)
        obtain ⟨r1, e2, c2⟩ := loop3_ok (n := tp) (rem := 0) hc hk hc.lo hA
          (hB.mono (by rw [Nat.add_zero, Nat.mul_comm])) m (m * (c.aPanel * k) + 1) 0 r (by omega)
          (Nat.lt_succ_of_le (Nat.le_mul_of_pos_right _ (Nat.mul_pos hc.aPanel_pos hk))) hr
        simp only [Nat.zero_mul, Nat.add_zero] at e2 c2
        have hlt : (t + 1) * tp ≤ full := by rw [Nat.succ_mul]; exact h
        obtain ⟨t', r2, e3, a1, a2, a3, c3⟩ := ih f (t + 1) r1 (by rw [show t + 1 + s = t + (s + 1) by omega]; exact hs)
          hlt (by omega) (by rw [c2.len]; exact hr)
        rw [Nat.succ_mul] at a1
        refine ⟨t', r2, ?_, by omega, a2, a3, ?_⟩
        · rw [loop2, if_pos (hcond.2 h), e1]
          dsimp only
          rw [show c.bPanel * tp * k = tp * (c.bPanel * k) by ring, e2]
          dsimp only
          rw [show t * tp * c.bPanel * k + tp * (c.bPanel * k) = (t + 1) * tp * c.bPanel * k by ring]
          exact e3
        · rw [show (t + 1) * tp * c.bPanel = t * tp * c.bPanel + tp * c.bPanel by ring] at c3
          have := c2.docs c3
          rw [← Nat.add_mul] at this
          rw [show tp + (t' - (t + 1) * tp) = t' - t * tp by rw [Nat.succ_mul]; omega] at this
          exact this
      · refine ⟨t * tp, r, ?_, le_refl _, hs2, by omega, ?_⟩
        · rw [loop2, if_neg (fun hh => h (hcond.1 hh))]
        · rw [Nat.sub_self, Nat.zero_mul]; exact Covers.refl_docs _ _ _ _

theorem peeled_ok {c : Kern} (hc : c.Ok) (hk : 0 < k) {a : List K} {b : List T} {bRows row0 m tp cap t : Nat}
    (hA : ATile k av c.aPanel a row0 m) (hD : DocMem k bv conv b bRows) (ht : t ≤ bRows / c.bPanel)
    (ht2 : bRows / c.bPanel < t + tp) (hcap : min (tp * c.bPanel) bRows ≤ cap) (r : List K)
    (hr : row0 + m * c.aPanel ≤ r.length) :
    ∃ r', peeled conv c a b bRows k (m * (c.aPanel * k)) row0 cap (t * c.bPanel * k) r = some r' ∧
      Covers k av bv r r' row0 (row0 + m * c.aPanel) (t * c.bPanel) (bRows - t * c.bPanel) := by
  have hlo := hc.lo
  have hdm := Nat.div_add_mod bRows c.bPanel
  have hml := Nat.mod_lt bRows hc.lo
  have hle : t * c.bPanel ≤ bRows := by
    have := Nat.mul_le_mul_right c.bPanel ht
    rw [Nat.mul_comm c.bPanel] at hdm
    omega
  unfold peeled
  by_cases h : t * c.bPanel * k < bRows * k
  · rw [if_pos h]
    dsimp only
    have hlt : t * c.bPanel < bRows := Nat.lt_of_mul_lt_mul_right h
    rw [Nat.mul_div_cancel _ hk]
    have hrem : bRows - t * c.bPanel = (bRows / c.bPanel - t) * c.bPanel + bRows % c.bPanel := by
      rw [Nat.sub_mul, Nat.mul_comm (bRows / c.bPanel)]
      have := Nat.mul_le_mul_right c.bPanel ht
      rw [Nat.mul_comm (bRows / c.bPanel)] at this
      omega
    have hlt2 : bRows - t * c.bPanel ≤ cap := by
      have h1 : bRows / c.bPanel - t + 1 ≤ tp := by omega
      have h2 := Nat.mul_le_mul_right c.bPanel h1
      rw [Nat.succ_mul] at h2
      refine le_trans (le_min ?_ (Nat.sub_le _ _)) hcap
      rw [hrem]; omega
    obtain ⟨bt, e1, hB⟩ := docTile hD cap (t * c.bPanel) (bRows - t * c.bPanel) hlt2 (by omega)
    rw [e1]
    dsimp only
    have hq : (bRows - t * c.bPanel) / c.bPanel = bRows / c.bPanel - t := by
      rw [hrem, Nat.add_comm, Nat.add_mul_div_right _ _ hc.lo, Nat.div_eq_of_lt hml, Nat.zero_add]
    rw [hq]
    obtain ⟨r1, e2, c2⟩ := loop3_ok (n := bRows / c.bPanel - t) (rem := bRows % c.bPanel) hc hk hml hA
      (hB.mono (le_of_eq hrem.symm)) m (m * (c.aPanel * k) + 1) 0 r (by omega)
      (Nat.lt_succ_of_le (Nat.le_mul_of_pos_right _ (Nat.mul_pos hc.aPanel_pos hk))) hr
    simp only [Nat.zero_mul, Nat.add_zero] at e2 c2
    refine ⟨r1, e2, ?_⟩
    rw [hrem]; exact c2
  · rw [if_neg h]
    have : bRows - t * c.bPanel = 0 := by
      have : ¬ t * c.bPanel < bRows := fun hh => h (Nat.mul_lt_mul_of_pos_right hh hk)
      omega
    rw [this]
    exact ⟨r, rfl, Covers.refl_docs _ _ _ _⟩

/-- The query in memory: panel `p`, column `i`, lane `l` at `p * (g * k) + g * i + l`. -/
structure QueryMem (k : Nat) (av : Nat → Nat → K) (conv : T → K) (g : Nat) (a : List T) (m : Nat) : Prop where
  len : a.length = m * g * k
  val : ∀ p l i, p < m → l < g → i < k → (a.map conv)[p * (g * k) + g * i + l]? = some (av (p * g + l) i)

theorem queryTile {g : Nat} {a : List T} {m : Nat} (hQ : QueryMem k av conv g a m) (cap p0 n : Nat) (hcap : n * g ≤ cap)
    (hp : p0 + n ≤ m) :
    ∃ t, convertTile conv cap a (p0 * g * k) (n * g) k = some t ∧ ATile k av g t (p0 * g) n := by
  have hle : p0 * g * k + n * g * k ≤ m * g * k := by
    rw [← Nat.add_mul, ← Nat.add_mul]; exact Nat.mul_le_mul_right _ (Nat.mul_le_mul_right _ hp)
  obtain ⟨t, e, ht⟩ := convertTile_ok (conv := conv) cap a (p0 * g * k) (n * g) k hcap (by rw [hQ.len]; exact hle)
  refine ⟨t, e, fun p hp' l i hl hi => ?_⟩
  have h1 : (p + 1) * (g * k) ≤ n * (g * k) := Nat.mul_le_mul_right _ hp'
  have h2 : g * (i + 1) ≤ g * k := Nat.mul_le_mul_left _ hi
  rw [Nat.succ_mul] at h1
  rw [Nat.mul_succ] at h2
  rw [ht _ (by rw [Nat.mul_assoc n]; omega),
    show p0 * g * k + (p * (g * k) + g * i + l) = (p0 + p) * (g * k) + g * i + l by ring, hQ.val _ _ _ (by omega) hl hi]
  congr 2
  ring

theorem aTile_ok {c : Kern} (hc : c.Ok) (hk : 0 < k) {a b : List T} {bRows m ap tp aCap p0 n : Nat}
    (hQ : QueryMem k av conv c.aPanel a m) (hD : DocMem k bv conv b bRows) (htp : 1 ≤ tp) (hn : n ≤ ap)
    (hp : p0 + n ≤ m) (hcap : min (c.aPanel * ap) (m * c.aPanel) ≤ aCap) (r : List K) (hr : m * c.aPanel ≤ r.length) :
    ∃ r', aTile conv c a b bRows k aCap (min (c.bPanel * tp) bRows) (c.bPanel * tp) (n * c.aPanel) (p0 * c.aPanel) r
        = some r' ∧ Covers k av bv r r' (p0 * c.aPanel) ((p0 + n) * c.aPanel) 0 bRows := by
  have h1 : n * c.aPanel ≤ aCap := by
    refine le_trans (le_min ?_ ?_) hcap
    · rw [Nat.mul_comm c.aPanel]; exact Nat.mul_le_mul_right _ hn
    · exact Nat.mul_le_mul_right _ (by omega)
  obtain ⟨at', e1, hA⟩ := queryTile hQ aCap p0 n h1 hp
  have hr' : p0 * c.aPanel + n * c.aPanel ≤ r.length := by
    rw [← Nat.add_mul]; exact le_trans (Nat.mul_le_mul_right _ hp) hr
  have hdm := Nat.div_add_mod bRows c.bPanel
  have hfull : bRows / c.bPanel * c.bPanel ≤ bRows := Nat.div_mul_le_self _ _
  have hfend : bRows * k - bRows % c.bPanel * k = bRows / c.bPanel * c.bPanel * k := by
    rw [← Nat.sub_mul]
    congr 1
    rw [Nat.mul_comm]; omega
  obtain ⟨t', r1, e2, a1, a2, a3, c2⟩ := loop2_ok (conv := conv) (full := bRows / c.bPanel)
    (cap := min (c.bPanel * tp) bRows) hc hk hA hD hfull htp
    (fun h => le_min (by rw [Nat.mul_comm]) h) (bRows / c.bPanel + 1) (bRows * k + 1) 0 r
    (by rw [Nat.zero_add]; exact lt_of_lt_of_le (Nat.lt_succ_self _) (Nat.le_mul_of_pos_right _ htp)) (by rw [Nat.zero_mul]; exact Nat.zero_le _)
    (Nat.succ_le_succ (le_trans (Nat.div_le_self bRows c.bPanel) (Nat.le_mul_of_pos_right bRows hk))) hr'
  simp only [Nat.zero_mul, Nat.sub_zero] at e2 c2
  obtain ⟨r2, e3, c3⟩ := peeled_ok (conv := conv) (tp := tp) (cap := min (c.bPanel * tp) bRows) (t := t') hc hk hA hD a2 a3
    (by rw [Nat.mul_comm]) r1 (by rw [c2.len]; exact hr')
  refine ⟨r2, ?_, ?_⟩
  · unfold aTile
    rw [e1]
    dsimp only
    rw [hfend, show n * c.aPanel * k = n * (c.aPanel * k) by ring, e2]
    exact e3
  · have hle : t' * c.bPanel ≤ bRows := le_trans (Nat.mul_le_mul_right _ a2) hfull
    rw [show t' * c.bPanel = 0 + t' * c.bPanel by omega] at c3
    have := c2.docs c3
    rw [show t' * c.bPanel + (bRows - (0 + t' * c.bPanel)) = bRows by omega, ← Nat.add_mul] at this
    exact this

theorem loop1_ok {c : Kern} (hc : c.Ok) (hk : 0 < k) {a b : List T} {bRows m ap tp : Nat}
    (hQ : QueryMem k av conv c.aPanel a m) (hD : DocMem k bv conv b bRows) (htp : 1 ≤ tp) (hap : 1 ≤ ap)
    (s fuel p : Nat) (r : List K) (hs : p ≤ m) (hs2 : m ≤ p + s) (hf : s < fuel) (hr : m * c.aPanel ≤ r.length) :
    ∃ r', loop1 conv c a b (m * c.aPanel) bRows k (min (c.aPanel * ap) (m * c.aPanel)) (min (c.bPanel * tp) bRows)
        (c.aPanel * ap) (c.bPanel * tp) fuel (p * c.aPanel) r = some r' ∧
      Covers k av bv r r' (p * c.aPanel) (m * c.aPanel) 0 bRows := by
  have hpos := hc.aPanel_pos
  induction s generalizing fuel p r with
  | zero =>
    cases fuel with
    | zero => omega
    | succ f =>
      obtain rfl : p = m := by omega
      exact ⟨r, by rw [loop1, if_neg (by omega)], Covers.refl_rows _ _ _ _⟩
  | succ s ih =>
    cases fuel with
    | zero => omega
    | succ f =>
      by_cases h : p < m
      · have hmin : min (c.aPanel * ap) (m * c.aPanel - p * c.aPanel) = min ap (m - p) * c.aPanel := by
          rw [← Nat.sub_mul, Nat.mul_comm c.aPanel]
          exact (Nat.mul_min_mul_right _ _ _)
        obtain ⟨r1, e1, c1⟩ := aTile_ok (conv := conv) (p0 := p) (n := min ap (m - p)) hc hk hQ hD htp (min_le_left _ _)
          (by omega) (le_refl _) r hr
        obtain ⟨r2, e2, c2⟩ := ih f (p + min ap (m - p)) r1 (by omega) (by omega) (by omega) (by rw [c1.len]; exact hr)
        refine ⟨r2, ?_, ?_⟩
        · rw [loop1, if_pos (Nat.mul_lt_mul_of_pos_right h hpos), hmin, e1]
          dsimp only
          rw [← Nat.add_mul]
          exact e2
        · exact c1.rows (Nat.mul_le_mul_right _ (by omega)) (Nat.mul_le_mul_right _ (by omega)) c2
      · obtain rfl : p = m := by omega
        exact ⟨r, by rw [loop1, if_neg (by omega)], Covers.refl_rows _ _ _ _⟩

theorem tiledReduce_ok {c : Kern} (hc : c.Ok) (hk : 0 < k) (budget : Budget) {a b : List T} {bRows m : Nat}
    (hQ : QueryMem k av conv c.aPanel a m) (hD : DocMem k bv conv b bRows) (r : List K) (hr : r.length = m * c.aPanel) :
    ∃ r', tiledReduce conv c budget a (m * c.aPanel) b bRows k r = some r' ∧
      Covers k av bv r r' 0 (m * c.aPanel) 0 bRows := by
  unfold tiledReduce
  dsimp only
  rw [if_neg (by simp), if_neg (by omega)]
  have := loop1_ok (conv := conv) (ap := (Plan.new (k * 4) (k * 4) c.aPanel c.bPanel budget).aPanels)
    (tp := (Plan.new (k * 4) (k * 4) c.aPanel c.bPanel budget).bPanels) hc hk hQ hD (le_max_right _ _) (le_max_right _ _)
    m (m * c.aPanel + 1) 0 r (by omega) (by omega)
    (Nat.lt_succ_of_le (Nat.le_mul_of_pos_right _ hc.aPanel_pos)) (by omega)
  rwa [Nat.zero_mul] at this

end

end Verif.Multi
