import Verif.Spherical.Lemmas

/-! # Lemmas: the walk over the scales -/

namespace Verif.Spherical

section walk
variable {K : Type} [Field K] [LinearOrder K]

/-- Inner product of absolute values and levels. -/
def ipOf (v : List K) (rs : List Nat) : K := (List.zipWith (fun (x : K) (r : Nat) => |x| * ((r : K) - 1 / 2)) v rs).sum

/-- Squared norm of levels. -/
def sqOf (rs : List Nat) : K := (rs.map (fun r : Nat => ((r : K) - 1 / 2) * ((r : K) - 1 / 2))).sum

def simOf (v : List K) (rs : List Nat) : K := ipOf v rs * ipOf v rs / sqOf rs

/-- A relation between components and levels, position by position. -/
def Levels (P : K → Nat → Prop) (v : List K) (rs : List Nat) : Prop :=
  rs.length = v.length ∧ ∀ (i : Nat) (x : K) (r : Nat), v[i]? = some x → rs[i]? = some r → P x r

/-- `r` is the level of a component `x` at scale `s`. -/
def IsLevel (eps : K) (stop : Nat) (s x : K) (r : Nat) : Prop :=
  1 ≤ r ∧ r ≤ stop ∧ (1 < r → (r : K) - 1 + eps ≤ s * |x|) ∧ (r < stop → s * |x| < (r : K) + eps)

/-- The same, with both levels allowed on a boundary. -/
def Near (eps : K) (stop : Nat) (s x : K) (r : Nat) : Prop :=
  1 ≤ r ∧ r ≤ stop ∧ (1 < r → (r : K) - 1 + eps ≤ s * |x|) ∧ (r < stop → s * |x| ≤ (r : K) + eps)

def ones (v : List K) : List Nat := v.map (fun _ => 1)

theorem ipOf_set {v : List K} {rs : List Nat} {i : Nat} {x : K} {r : Nat} (hx : v[i]? = some x) (hr : rs[i]? = some r) :
    ipOf v (rs.set i (r + 1)) = ipOf v rs + |x| := by
  induction v generalizing rs i with
  | nil => simp at hx
  | cons y v ih =>
    cases rs with
    | nil => simp at hr
    | cons q rs =>
      cases i with
      | zero =>
        simp only [List.getElem?_cons_zero, Option.some.injEq] at hx hr
        subst hx hr
        simp only [ipOf, List.set_cons_zero, List.zipWith_cons_cons, List.sum_cons]
        push_cast; ring
      | succ i =>
        simp only [List.getElem?_cons_succ] at hx hr
        have := ih hx hr
        simp only [ipOf, List.set_cons_succ, List.zipWith_cons_cons, List.sum_cons] at this ⊢
        rw [this]; ring

theorem sqOf_set [CharZero K] {rs : List Nat} {i r : Nat} (hr : rs[i]? = some r) :
    sqOf (K := K) (rs.set i (r + 1)) = sqOf rs + ((2 * r : Nat) : K) := by
  induction rs generalizing i with
  | nil => simp at hr
  | cons q rs ih =>
    cases i with
    | zero =>
      simp only [List.getElem?_cons_zero, Option.some.injEq] at hr
      subst hr
      simp only [sqOf, List.set_cons_zero, List.map_cons, List.sum_cons]
      push_cast; ring
    | succ i =>
      simp only [List.getElem?_cons_succ] at hr
      have := ih hr
      simp only [sqOf, List.set_cons_succ, List.map_cons, List.sum_cons] at this ⊢
      rw [this]; ring

structure Basic (eps : K) (stop : Nat) (v : List K) (w : Walk K) : Prop where
  lenR : w.rounded.length = v.length
  lenC : w.crit.length = v.length
  lev : ∀ (i r : Nat), w.rounded[i]? = some r → 1 ≤ r ∧ r ≤ stop
  crit : ∀ (i : Nat) (x : K) (r : Nat), v[i]? = some x → w.rounded[i]? = some r →
    w.crit[i]? = some (if r < stop then critOf eps |x| r else .top)
  ip : w.ip = ipOf v w.rounded
  sq : w.sq = sqOf w.rounded

theorem ones_get {v : List K} {i r : Nat} (h : (ones v)[i]? = some r) : r = 1 := by
  unfold ones at h
  rw [List.getElem?_map] at h
  cases hv : v[i]? with
  | none => rw [hv] at h; simp at h
  | some x => rw [hv] at h; simpa using h.symm

theorem basic_start [CharZero K] {eps : K} {stop : Nat} (hs : 2 ≤ stop) (v : List K) : Basic eps stop v (Walk.start eps v) := by
  refine ⟨by simp [Walk.start], by simp [Walk.start], ?_, ?_, ?_, ?_⟩
  · intro i r h
    have : r = 1 := ones_get h
    omega
  · intro i x r hx h
    have : r = 1 := ones_get h
    subst this
    rw [if_pos (by omega)]
    simp [Walk.start, hx]
  · show 1 / 2 * (v.map (fun x => |x|)).sum = ipOf v (ones v)
    induction v with
    | nil => simp [ipOf, ones]
    | cons y v ih =>
      have h2 : ipOf (y :: v) (ones (y :: v)) = |y| * ((1 : Nat) - 1 / 2) + ipOf v (ones v) := rfl
      rw [h2, ← ih, List.map_cons, List.sum_cons]
      push_cast; ring
  · show 1 / 4 * (v.length : K) = sqOf (ones v)
    induction v with
    | nil => simp [sqOf, ones]
    | cons y v ih =>
      have h2 : sqOf (K := K) (ones (y :: v)) = ((1 : Nat) - 1 / 2) * ((1 : Nat) - 1 / 2) + sqOf (ones v) := rfl
      rw [h2, ← ih, List.length_cons]
      push_cast; ring

theorem basic_advance [CharZero K] {eps : K} {stop : Nat} {v : List K} {w : Walk K} (hb : Basic eps stop v w) {i : Nat} {x : K} {r : Nat}
    (hx : v[i]? = some x) (hr : w.rounded[i]? = some r) (hlt : r < stop) (c : Crit K) :
    Basic eps stop v (w.advance eps stop i |x| r c) := by
  have hi : i < w.rounded.length := (List.getElem?_eq_some_iff.mp hr).1
  have hic : i < w.crit.length := by rw [hb.lenC, ← hb.lenR]; exact hi
  refine ⟨by simp [Walk.advance, hb.lenR], by simp [Walk.advance, hb.lenC], ?_, ?_, ?_, ?_⟩
  · intro j q h
    simp only [Walk.advance] at h
    rw [List.getElem?_set] at h
    split at h
    · have := hb.lev i r hr
      simp only [hi, if_true, Option.some.injEq] at h; omega
    · exact hb.lev j q h
  · intro j y q hy h
    simp only [Walk.advance] at h ⊢
    rw [List.getElem?_set] at h
    by_cases hij : i = j
    · subst hij
      simp only [hi, if_true, Option.some.injEq] at h
      rw [hx] at hy
      simp only [Option.some.injEq] at hy
      subst hy; subst h
      rw [List.getElem?_set_self hic]
    · rw [if_neg hij] at h
      rw [List.getElem?_set_ne hij]
      exact hb.crit j y q hy h
  · show w.ip + |x| = _
    rw [hb.ip]
    exact (ipOf_set hx hr).symm
  · show w.sq + ((2 * r : Nat) : K) = _
    rw [hb.sq]
    exact (sqOf_set hr).symm

/-- How many steps are left at most. -/
def left (stop : Nat) (rs : List Nat) : Nat := (rs.map (fun r => stop - r)).sum

theorem left_set {stop : Nat} {rs : List Nat} {i r : Nat} (hr : rs[i]? = some r) (hlt : r < stop) :
    left stop (rs.set i (r + 1)) + 1 = left stop rs := by
  induction rs generalizing i with
  | nil => simp at hr
  | cons q rs ih =>
    cases i with
    | zero =>
      simp only [List.getElem?_cons_zero, Option.some.injEq] at hr
      subst hr
      simp only [left, List.set_cons_zero, List.map_cons, List.sum_cons]
      omega
    | succ i =>
      simp only [List.getElem?_cons_succ] at hr
      have := ih hr
      simp only [left, List.set_cons_succ, List.map_cons, List.sum_cons] at this ⊢
      omega

/-- The loop ends, and what holds of all its states holds of the last. -/
theorem loop_ends [CharZero K] {eps : K} {stop : Nat} {v : List K} {pick : Nat → List (Crit K) → Nat} (hp : PicksLeast pick)
    (hv : v ≠ []) (P : Walk K → Prop)
    (hP : ∀ (w : Walk K) (i : Nat) (x : K) (r : Nat) (c : Crit K), Basic eps stop v w → P w → v[i]? = some x →
      w.rounded[i]? = some r → w.crit[i]? = some c → r < stop → c = critOf eps |x| r → (∀ d ∈ w.crit, c.le d = true) →
      P (w.advance eps stop i |x| r c)) :
    ∀ (fuel : Nat) (w : Walk K), Basic eps stop v w → P w → left stop w.rounded < fuel →
      ∃ w', Walk.loop eps stop v pick fuel w = some w' ∧ Basic eps stop v w' ∧ P w' ∧
        ∀ d ∈ w'.crit, Crit.le .top d = true := by
  intro fuel
  induction fuel with
  | zero => intro w _ _ h; omega
  | succ fuel ih =>
    intro w hb hw hl
    have hc0 : w.crit ≠ [] := by
      intro h
      have := hb.lenC
      rw [h] at this
      exact hv (List.length_eq_zero_iff.mp this.symm)
    obtain ⟨c, hc, hle⟩ := hp fuel w.crit hc0
    have hi : pick fuel w.crit < v.length := by
      rw [← hb.lenC]; exact (List.getElem?_eq_some_iff.mp hc).1
    have hx : v[pick fuel w.crit]? = some (v[pick fuel w.crit]'hi) := List.getElem?_eq_getElem hi
    have hr : w.rounded[pick fuel w.crit]? = some (w.rounded[pick fuel w.crit]'(by rw [hb.lenR]; exact hi)) :=
      List.getElem?_eq_getElem _
    generalize v[pick fuel w.crit]'hi = x at hx
    generalize w.rounded[pick fuel w.crit]'(by rw [hb.lenR]; exact hi) = r at hr
    have hcr := hb.crit _ x r hx hr
    rw [hc] at hcr
    simp only [Option.some.injEq] at hcr
    rw [Walk.loop]
    by_cases hlt : r < stop
    · rw [if_pos hlt] at hcr
      have hstep : P (w.advance eps stop (pick fuel w.crit) |x| r c) := hP w _ x r c hb hw hx hr hc hlt hcr hle
      have hb' := basic_advance hb hx hr hlt c
      have hl' : left stop (w.advance eps stop (pick fuel w.crit) |x| r c).rounded < fuel := by
        have := left_set hr hlt
        show left stop (w.rounded.set _ (r + 1)) < fuel
        omega
      obtain ⟨w', h1, h2⟩ := ih _ hb' hstep hl'
      refine ⟨w', ?_, h2⟩
      rw [← h1, hc, hx, hr]
      have hnt : c ≠ .top := by rw [hcr]; unfold critOf; split <;> simp
      cases c with
      | top => exact absurd rfl hnt
      | num _ => rfl
      | infinite => rfl
    · rw [if_neg hlt] at hcr
      subst hcr
      exact ⟨w, by rw [hc], hb, hw, hle⟩

end walk

section opt
variable {K : Type} [Field K] [LinearOrder K] [IsStrictOrderedRing K]

theorem Crit.le_num {x : K} {y : K} : Crit.le (.num x) (.num y) = true ↔ x ≤ y := by simp [Crit.le]

theorem Crit.num_le_trans {x y : K} {d : Crit K} (h : x ≤ y) (hd : Crit.le (.num y) d = true) :
    Crit.le (.num x) d = true := by
  cases d with
  | num z => rw [Crit.le_num] at hd ⊢; exact le_trans h hd
  | top => rfl
  | infinite => rfl

theorem level_unique {eps : K} {stop : Nat} {s x : K} {r q : Nat} (hr : IsLevel eps stop s x r)
    (hq : IsLevel eps stop s x q) : r = q := by
  obtain ⟨r1, r2, r3, r4⟩ := hr
  obtain ⟨q1, q2, q3, q4⟩ := hq
  rcases lt_trichotomy r q with h | h | h
  · have h1 := q3 (by omega)
    have h2 := r4 (by omega)
    have : (r : K) + 1 ≤ q := by exact_mod_cast h
    linarith
  · exact h
  · have h1 := r3 (by omega)
    have h2 := q4 (by omega)
    have : (q : K) + 1 ≤ r := by exact_mod_cast h
    linarith

theorem levels_unique {eps : K} {stop : Nat} {s : K} {v : List K} {rs qs : List Nat}
    (hr : Levels (IsLevel eps stop s) v rs) (hq : Levels (IsLevel eps stop s) v qs) : rs = qs := by
  refine List.ext_getElem (by rw [hr.1, hq.1]) (fun i h1 h2 => ?_)
  have hi : i < v.length := by rw [← hr.1]; exact h1
  exact level_unique (hr.2 i _ _ (List.getElem?_eq_getElem hi) (List.getElem?_eq_getElem h1))
    (hq.2 i _ _ (List.getElem?_eq_getElem hi) (List.getElem?_eq_getElem h2))

theorem sqOf_ge (rs : List Nat) (h : ∀ (i r : Nat), rs[i]? = some r → 1 ≤ r) : (rs.length : K) / 4 ≤ sqOf rs := by
  induction rs with
  | nil => simp [sqOf]
  | cons r rs ih =>
    have h1 := ih (fun i q hq => h (i + 1) q (by simpa using hq))
    have h2 : 1 ≤ r := h 0 r (by simp)
    have h3 : (1 : K) ≤ r := by exact_mod_cast h2
    simp only [sqOf, List.map_cons, List.sum_cons, List.length_cons] at h1 ⊢
    push_cast
    nlinarith

theorem sqOf_le (stop : Nat) (rs : List Nat) (h : ∀ (i r : Nat), rs[i]? = some r → 1 ≤ r ∧ r ≤ stop) :
    sqOf rs ≤ (rs.length : K) * (((stop : K) - 1 / 2) * ((stop : K) - 1 / 2)) := by
  induction rs with
  | nil => simp [sqOf]
  | cons r rs ih =>
    have h1 := ih (fun i q hq => h (i + 1) q (by simpa using hq))
    obtain ⟨h2, h2'⟩ := h 0 r (by simp)
    have h3 : (1 : K) ≤ r := by exact_mod_cast h2
    have h4 : (r : K) ≤ stop := by exact_mod_cast h2'
    simp only [sqOf, List.map_cons, List.sum_cons, List.length_cons] at h1 ⊢
    push_cast
    nlinarith

theorem ipOf_nonneg (v : List K) (rs : List Nat) (h : ∀ (i r : Nat), rs[i]? = some r → 1 ≤ r) : 0 ≤ ipOf v rs := by
  induction v generalizing rs with
  | nil => simp [ipOf]
  | cons x v ih => cases rs with
    | nil => simp [ipOf]
    | cons r rs =>
      have h1 := ih rs (fun i q hq => h (i + 1) q (by simpa using hq))
      have h2 : 1 ≤ r := h 0 r (by simp)
      have h3 : (1 : K) ≤ r := by exact_mod_cast h2
      simp only [ipOf, List.zipWith_cons_cons, List.sum_cons] at h1 ⊢
      have := mul_nonneg (abs_nonneg x) (show (0 : K) ≤ (r : K) - 1 / 2 by linarith)
      linarith

theorem ipOf_pos {v : List K} {rs : List Nat} (hl : rs.length = v.length)
    (h : ∀ (i r : Nat), rs[i]? = some r → 1 ≤ r) (hne : ∃ x ∈ v, x ≠ 0) : 0 < ipOf v rs := by
  induction v generalizing rs with
  | nil => simp at hne
  | cons x v ih => cases rs with
    | nil => simp at hl
    | cons r rs =>
      have hn := ipOf_nonneg v rs (fun i q hq => h (i + 1) q (by simpa using hq))
      have h2 : 1 ≤ r := h 0 r (by simp)
      have h3 : (1 : K) ≤ r := by exact_mod_cast h2
      have hm := mul_nonneg (abs_nonneg x) (show (0 : K) ≤ (r : K) - 1 / 2 by linarith)
      simp only [ipOf, List.zipWith_cons_cons, List.sum_cons] at hn ⊢
      by_cases hx : x = 0
      · obtain ⟨y, hy, hy0⟩ := hne
        have hyv : y ∈ v := by
          rcases List.mem_cons.mp hy with e | e
          · exact absurd (e.trans hx) hy0
          · exact e
        have := ih (rs := rs) (by simpa using hl) (fun i q hq => h (i + 1) q (by simpa using hq)) ⟨y, hyv, hy0⟩
        simp only [ipOf] at this
        linarith
      · have := mul_pos (abs_pos.mpr hx) (show (0 : K) < (r : K) - 1 / 2 by linarith)
        linarith

/-- What the walk has covered. -/
structure Cover (eps : K) (stop : Nat) (v : List K) (w : Walk K) : Prop where
  mono : ∀ (i : Nat) (x : K) (r : Nat), v[i]? = some x → w.rounded[i]? = some r → 1 < r →
    x ≠ 0 ∧ ∀ c ∈ w.crit, Crit.le (.num (((r : K) - 1 + eps) / |x|)) c = true
  seen : (∃ b, w.best = some b ∧ simOf v w.rounded ≤ b) ∨ (w.rounded = ones v ∧ w.best = none)
  cover : ∀ (s : K) (rs : List Nat), 0 ≤ s → Levels (IsLevel eps stop s) v rs →
    (∀ c ∈ w.crit, ∀ y, c = .num y → s < y) → (∃ b, w.best = some b ∧ simOf v rs ≤ b) ∨ rs = ones v
  record : ∀ b, w.best = some b → ∃ (s : K) (rs : List Nat), w.scale = some s ∧ 0 < s ∧ Levels (Near eps stop s) v rs ∧
    b = simOf v rs ∧ (s * ipOf v rs ≤ (1 + eps) * sqOf rs ∨ b < simOf v (ones v))

theorem cover_start {eps : K} {stop : Nat} (h0 : 0 ≤ eps) (v : List K) : Cover eps stop v (Walk.start eps v) := by
  refine ⟨?_, Or.inr ⟨rfl, rfl⟩, ?_, ?_⟩
  · intro i x r _ hr h1
    have : r = 1 := ones_get hr
    omega
  · intro s rs _ hl hs
    right
    refine List.ext_getElem (by simp [ones, hl.1]) (fun i h1 h2 => ?_)
    have hi : i < v.length := by rw [← hl.1]; exact h1
    have hlev := hl.2 i _ _ (List.getElem?_eq_getElem hi) (List.getElem?_eq_getElem h1)
    have hone : (ones v)[i] = 1 := ones_get (List.getElem?_eq_getElem h2)
    rw [hone]
    obtain ⟨a, b, c, d⟩ := hlev
    by_contra hne
    have h3 := c (by omega)
    have h2r : (2 : K) ≤ (rs[i] : K) := by exact_mod_cast (by omega : 2 ≤ rs[i])
    by_cases hx : v[i] = 0
    · rw [hx] at h3
      simp only [abs_zero, mul_zero] at h3
      linarith
    · have hm : Crit.num ((1 + eps) / |v[i]|) ∈ (Walk.start eps v).crit := by
        refine List.mem_map.mpr ⟨v[i], List.getElem_mem hi, ?_⟩
        unfold critOf
        rw [if_neg (abs_ne_zero.mpr hx)]
        push_cast; rfl
      have h4 := hs _ hm _ rfl
      have hpos := abs_pos.mpr hx
      rw [lt_div_iff₀ hpos] at h4
      linarith
  · intro b hb
    simp [Walk.start] at hb

theorem cover_advance {eps : K} {stop : Nat} (h0 : 0 < eps) {v : List K} {w : Walk K}
    (hne : ∃ x ∈ v, x ≠ 0) {i : Nat} {x : K} {r : Nat}
    {c : Crit K} (hb : Basic eps stop v w) (hw : Cover eps stop v w) (hx : v[i]? = some x) (hr : w.rounded[i]? = some r)
    (hc : w.crit[i]? = some c) (hlt : r < stop) (hcr : c = critOf eps |x| r) (hle : ∀ d ∈ w.crit, c.le d = true) :
    Cover eps stop v (w.advance eps stop i |x| r c) := by
  have hr1 : 1 ≤ r := (hb.lev i r hr).1
  have hr1' : (1 : K) ≤ r := by exact_mod_cast hr1
  -- the component is not zero
  have hx0 : x ≠ 0 := by
    intro h
    subst h
    have hci : c = .infinite := by rw [hcr]; unfold critOf; simp
    obtain ⟨y, hy, hy0⟩ := hne
    obtain ⟨j, hj, rfl⟩ := List.getElem_of_mem hy
    have hrj : j < w.rounded.length := by rw [hb.lenR]; exact hj
    have h1 := hb.crit j _ _ (List.getElem?_eq_getElem hj) (List.getElem?_eq_getElem hrj)
    have h2 := hle _ (List.mem_of_getElem? h1)
    rw [hci] at h2
    split at h2
    · unfold critOf at h2
      rw [if_neg (abs_ne_zero.mpr hy0)] at h2
      simp [Crit.le] at h2
    · simp [Crit.le] at h2
  have hap : 0 < |x| := abs_pos.mpr hx0
  set y := ((r : K) + eps) / |x| with hy
  have hcy : c = .num y := by rw [hcr]; unfold critOf; rw [if_neg hap.ne']
  have hyp : 0 < y := div_pos (by linarith) hap
  have hya : y * |x| = (r : K) + eps := by rw [hy]; field_simp
  have hi : i < w.rounded.length := (List.getElem?_eq_some_iff.mp hr).1
  have hic : i < w.crit.length := by rw [hb.lenC, ← hb.lenR]; exact hi
  have hb' := basic_advance hb hx hr hlt c
  -- every critical value of the new state is at least y
  have hle' : ∀ d ∈ (w.advance eps stop i |x| r c).crit, Crit.le (.num y) d = true := by
    intro d hd
    simp only [Walk.advance] at hd
    rcases List.mem_or_eq_of_mem_set hd with h | h
    · rw [← hcy]; exact hle d h
    · rw [h]
      split
      · unfold critOf
        rw [if_neg hap.ne', Crit.le_num, hy]
        apply div_le_div_of_nonneg_right _ hap.le
        push_cast; linarith
      · rfl
  -- every threshold passed is at most y
  have hpass : ∀ (j : Nat) (z : K) (q : Nat), v[j]? = some z → (w.advance eps stop i |x| r c).rounded[j]? = some q →
      1 < q → z ≠ 0 ∧ ((q : K) - 1 + eps) / |z| ≤ y := by
    intro j z q hz hq h1
    simp only [Walk.advance] at hq
    by_cases hij : i = j
    · subst hij
      rw [List.getElem?_set_self hi] at hq
      rw [hx] at hz
      simp only [Option.some.injEq] at hz hq
      subst hz; subst hq
      refine ⟨hx0, ?_⟩
      rw [hy]
      push_cast
      rw [add_sub_cancel_right]
    · rw [List.getElem?_set_ne hij] at hq
      obtain ⟨h2, h3⟩ := hw.mono j z q hz hq h1
      refine ⟨h2, ?_⟩
      have := h3 c (List.mem_of_getElem? hc)
      rw [hcy, Crit.le_num] at this
      exact this
  have hpass' : ∀ (s : K) (j : Nat) (z : K) (q : Nat), y ≤ s → v[j]? = some z →
      (w.advance eps stop i |x| r c).rounded[j]? = some q → 1 < q → (q : K) - 1 + eps ≤ s * |z| := by
    intro s j z q hs hz hq h1
    obtain ⟨h2, h3⟩ := hpass j z q hz hq h1
    have hp := abs_pos.mpr h2
    rw [div_le_iff₀ hp] at h3
    calc _ ≤ y * |z| := h3
      _ ≤ s * |z| := mul_le_mul_of_nonneg_right hs hp.le
  set w' := w.advance eps stop i |x| r c with hw'
  have hcur : w'.ip * w'.ip / w'.sq = simOf v w'.rounded := by rw [hb'.ip, hb'.sq, simOf]
  have hbest : w'.best = if better w.best (simOf v w'.rounded) then some (simOf v w'.rounded) else w.best := by
    rw [← hcur]; rfl
  have hscale : w'.scale = if better w.best (simOf v w'.rounded) then some y else w.scale := by
    rw [← hcur, hw']
    show (if better w.best _ then c.value else w.scale) = _
    rw [hcy]; rfl
  have hseen : ∃ b, w'.best = some b ∧ simOf v w'.rounded ≤ b := by
    rw [hbest]
    cases hbw : w.best with
    | none => exact ⟨_, by simp [better], le_refl _⟩
    | some b0 =>
      by_cases hbb : b0 < simOf v w'.rounded
      · exact ⟨_, by simp [better, hbb], le_refl _⟩
      · exact ⟨b0, by simp [better, hbb], not_lt.mp hbb⟩
  have hup : ∀ b, w.best = some b → ∃ b', w'.best = some b' ∧ b ≤ b' := by
    intro b hbw
    rw [hbest, hbw]
    by_cases hbb : b < simOf v w'.rounded
    · exact ⟨_, by simp [better, hbb], hbb.le⟩
    · exact ⟨b, by simp [better, hbb], le_refl _⟩
  refine ⟨?_, Or.inl hseen, ?_, ?_⟩
  · intro j z q hz hq h1
    obtain ⟨h2, h3⟩ := hpass j z q hz hq h1
    exact ⟨h2, fun d hd => Crit.num_le_trans h3 (hle' d hd)⟩
  · intro s rs hs0 hl hs
    by_cases hsy : s < y
    · have hold : ∀ d ∈ w.crit, ∀ z, d = .num z → s < z := by
        intro d hd z hdz
        have := hle d hd
        rw [hcy, hdz, Crit.le_num] at this
        linarith
      rcases hw.cover s rs hs0 hl hold with ⟨b, h1, h2⟩ | h
      · obtain ⟨b', h3, h4⟩ := hup b h1
        exact Or.inl ⟨b', h3, le_trans h2 h4⟩
      · exact Or.inr h
    · have hys : y ≤ s := not_lt.mp hsy
      left
      have hlev : Levels (IsLevel eps stop s) v w'.rounded := by
        refine ⟨hb'.lenR, fun j z q hz hq => ?_⟩
        obtain ⟨h1, h2⟩ := hb'.lev j q hq
        refine ⟨h1, h2, fun h => hpass' s j z q hys hz hq h, fun h => ?_⟩
        have hcj := hb'.crit j z q hz hq
        rw [if_pos h] at hcj
        by_cases hz0 : z = 0
        · have : (1 : K) ≤ q := by exact_mod_cast h1
          rw [hz0, abs_zero, mul_zero]; linarith
        · unfold critOf at hcj
          rw [if_neg (abs_ne_zero.mpr hz0)] at hcj
          have := hs _ (List.mem_of_getElem? hcj) _ rfl
          rwa [lt_div_iff₀ (abs_pos.mpr hz0)] at this
      rw [levels_unique hl hlev]
      exact hseen
  · intro b hbb
    rw [hbest] at hbb
    by_cases hbet : better w.best (simOf v w'.rounded) = true
    · rw [if_pos hbet] at hbb
      rw [if_pos hbet] at hscale
      simp only [Option.some.injEq] at hbb
      refine ⟨y, w'.rounded, hscale, hyp, ⟨hb'.lenR, fun j z q hz hq => ?_⟩, hbb.symm, ?_⟩
      · obtain ⟨h1, h2⟩ := hb'.lev j q hq
        refine ⟨h1, h2, fun h => hpass' y j z q (le_refl _) hz hq h, fun h => ?_⟩
        have hcj := hb'.crit j z q hz hq
        rw [if_pos h] at hcj
        by_cases hz0 : z = 0
        · have : (1 : K) ≤ q := by exact_mod_cast h1
          rw [hz0, abs_zero, mul_zero]; linarith
        · unfold critOf at hcj
          rw [if_neg (abs_ne_zero.mpr hz0)] at hcj
          have := hle' _ (List.mem_of_getElem? hcj)
          rwa [Crit.le_num, le_div_iff₀ (abs_pos.mpr hz0)] at this
      · -- not worse than the state before
        have key : simOf v w.rounded ≤ simOf v w'.rounded → y * ipOf v w'.rounded ≤ (1 + eps) * sqOf w'.rounded := by
          intro hprev
          have hip : ipOf v w'.rounded = ipOf v w.rounded + |x| := ipOf_set hx hr
          have hsq : sqOf (K := K) w'.rounded = sqOf w.rounded + ((2 * r : Nat) : K) := sqOf_set hr
          have hn0 : 0 < sqOf (K := K) w.rounded := by
            have h1 := sqOf_ge (K := K) w.rounded (fun i q hq => (hb.lev i q hq).1)
            have h2 : (0 : K) < (w.rounded.length : K) := by exact_mod_cast (by omega : 0 < w.rounded.length)
            linarith
          have hi0 : 0 ≤ ipOf v w.rounded := ipOf_nonneg v w.rounded (fun i q hq => (hb.lev i q hq).1)
          have h2r : (((2 * r : Nat) : K)) = 2 * (r : K) := by push_cast; ring
          rw [h2r] at hsq
          have hn1 : 0 < sqOf (K := K) w'.rounded := by rw [hsq]; linarith
          unfold simOf at hprev
          rw [div_le_div_iff₀ hn0 hn1] at hprev
          have h3 : ipOf v w.rounded = ipOf v w'.rounded - |x| := by rw [hip]; ring
          have h4 : sqOf (K := K) w.rounded = sqOf w'.rounded - 2 * (r : K) := by rw [hsq]; ring
          rw [h3, h4] at hprev
          set P := ipOf v w'.rounded
          set N := sqOf (K := K) w'.rounded
          have hP : 0 < P := by rw [hip]; linarith
          -- r P ≤ |x| N
          have h5 : (r : K) * P ≤ |x| * N := by
            by_contra hcon
            have hcon := not_le.mp hcon
            have h6 : |x| * N * P < (r : K) * P * P := mul_lt_mul_of_pos_right hcon hP
            have h7 : 0 ≤ |x| * |x| * N := mul_nonneg (mul_self_nonneg _) hn1.le
            nlinarith
          -- multiply by y
          have h6 : (r : K) * (y * P) ≤ ((r : K) + eps) * N := by
            calc (r : K) * (y * P) = y * ((r : K) * P) := by ring
              _ ≤ y * (|x| * N) := mul_le_mul_of_nonneg_left h5 hyp.le
              _ = (y * |x|) * N := by ring
              _ = _ := by rw [hya]
          have h7 : ((r : K) + eps) * N ≤ (r : K) * ((1 + eps) * N) := by
            have : eps * N ≤ (r : K) * (eps * N) := by
              have := mul_nonneg h0.le hn1.le
              nlinarith
            linarith
          exact le_of_mul_le_mul_left (le_trans h6 h7) (by linarith)
        rcases hw.seen with ⟨b0, h1, h2⟩ | ⟨h1, _⟩
        · left
          apply key
          rw [h1] at hbet
          simp only [better, decide_eq_true_eq] at hbet
          exact le_trans h2 hbet.le
        · rw [← hbb, ← h1]
          rcases le_or_gt (simOf v w.rounded) (simOf v w'.rounded) with h | h
          · exact Or.inl (key h)
          · exact Or.inr h
    · rw [if_neg hbet] at hbb hscale
      obtain ⟨s, rs, h1, h2⟩ := hw.record b hbb
      exact ⟨s, rs, by rw [hscale, h1], h2⟩

/-- The result of the walk on a vector that is not zero. -/
theorem walk_result {eps : K} {stop : Nat} (h0 : 0 < eps) (hs2 : 2 ≤ stop) {v : List K} (hne : ∃ x ∈ v, x ≠ 0)
    {pick : Nat → List (Crit K) → Nat} (hp : PicksLeast pick) :
    ∃ w', Walk.loop eps stop v pick (v.length * stop + 1) (Walk.start eps v) = some w' ∧
      ∃ (s : K) (rs : List Nat), w'.scale = some s ∧ 0 < s ∧ Levels (Near eps stop s) v rs ∧
        s * ipOf v rs ≤ (1 + eps) * sqOf rs ∧
        ∀ (s' : K) (rs' : List Nat), 0 ≤ s' → Levels (IsLevel eps stop s') v rs' → simOf v rs' ≤ simOf v rs := by
  have hv : v ≠ [] := by rintro rfl; simp at hne
  have hleft : left stop (Walk.start eps v).rounded < v.length * stop + 1 := by
    show left stop (ones v) < _
    have : left stop (ones v) = v.length * (stop - 1) := by simp [left, ones]
    rw [this]
    have := Nat.mul_le_mul_left v.length (Nat.sub_le stop 1)
    omega
  obtain ⟨w, h1, hb, hw, hend⟩ := loop_ends hp hv (Cover eps stop v)
    (fun w i x r c hb hw hx hr hc hlt hcr hle => cover_advance h0 hne hb hw hx hr hc hlt hcr hle) _ _
    (basic_start hs2 v) (cover_start h0.le v) hleft
  refine ⟨w, h1, ?_⟩
  -- in the last state every component that is not zero is at the top
  have htop : ∀ (i : Nat) (x : K) (r : Nat), v[i]? = some x → w.rounded[i]? = some r → x ≠ 0 → r = stop := by
    intro i x r hx hr hx0
    by_contra hne
    have hlt : r < stop := by have := (hb.lev i r hr).2; omega
    have hc := hb.crit i x r hx hr
    rw [if_pos hlt] at hc
    have := hend _ (List.mem_of_getElem? hc)
    unfold critOf at this
    rw [if_neg (abs_ne_zero.mpr hx0)] at this
    simp [Crit.le] at this
  have hlen : ((ones v).length : K) = (w.rounded.length : K) := by rw [hb.lenR]; simp [ones]
  have hsK : (2 : K) ≤ stop := by exact_mod_cast hs2
  -- and its similarity is at least the first
  have hfin : simOf v (ones v) ≤ simOf v w.rounded := by
    have hip : ∀ (v : List K) (rs : List Nat), rs.length = v.length →
        (∀ (i : Nat) (x : K) (r : Nat), v[i]? = some x → rs[i]? = some r → x ≠ 0 → r = stop) →
        ipOf v rs = (2 * (stop : K) - 1) * ipOf v (ones v) := by
      intro v
      induction v with
      | nil => intro rs _ _; simp [ipOf]
      | cons x v ih =>
        intro rs hl hr
        cases rs with
        | nil => simp at hl
        | cons r rs =>
          have h2 := ih rs (by simpa using hl) (fun i y q hy hq => hr (i + 1) y q (by simpa using hy) (by simpa using hq))
          have e1 : ipOf (x :: v) (r :: rs) = |x| * ((r : K) - 1 / 2) + ipOf v rs := rfl
          have e2 : ipOf (x :: v) (ones (x :: v)) = |x| * (((1 : Nat) : K) - 1 / 2) + ipOf v (ones v) := rfl
          rw [e1, e2, h2]
          by_cases hx : x = 0
          · rw [hx, abs_zero]; ring
          · rw [hr 0 x r (by simp) (by simp) hx]; push_cast; ring
    have h2 := hip v w.rounded hb.lenR htop
    have hq1 : sqOf (ones v) = ((ones v).length : K) / 4 := by
      clear hne hv hleft h1 hb hw hend htop hlen hip h2
      induction v with
      | nil => simp [sqOf, ones]
      | cons x v ih =>
        have e : sqOf (K := K) (ones (x :: v)) = (((1 : Nat) : K) - 1 / 2) * (((1 : Nat) : K) - 1 / 2) + sqOf (ones v) := rfl
        rw [e, ih]
        simp only [ones, List.map_cons, List.length_cons, List.length_map]
        push_cast; ring
    have hq2 := sqOf_le (K := K) stop w.rounded hb.lev
    have hL : (0 : K) < (w.rounded.length : K) := by
      rw [hb.lenR]
      exact_mod_cast List.length_pos_of_ne_nil hv
    have hq3 := sqOf_ge (K := K) w.rounded (fun i q hq => (hb.lev i q hq).1)
    unfold simOf
    rw [div_le_div_iff₀ (by rw [hq1, hlen]; linarith) (by linarith), h2, hq1, hlen]
    have hsq := mul_self_nonneg (ipOf v (ones v))
    calc ipOf v (ones v) * ipOf v (ones v) * sqOf w.rounded
        ≤ ipOf v (ones v) * ipOf v (ones v) * ((w.rounded.length : K) * (((stop : K) - 1 / 2) * ((stop : K) - 1 / 2))) :=
          mul_le_mul_of_nonneg_left hq2 hsq
      _ = _ := by ring
  have hbest : ∃ b, w.best = some b ∧ simOf v (ones v) ≤ b := by
    rcases hw.seen with ⟨b, h2, h3⟩ | ⟨h2, _⟩
    · exact ⟨b, h2, le_trans hfin h3⟩
    · exfalso
      obtain ⟨y, hy, hy0⟩ := hne
      obtain ⟨j, hj, rfl⟩ := List.getElem_of_mem hy
      have hrj : j < w.rounded.length := by rw [hb.lenR]; exact hj
      have h3 := htop j _ _ (List.getElem?_eq_getElem hj) (List.getElem?_eq_getElem hrj) hy0
      have h4 : w.rounded[j]? = some w.rounded[j] := List.getElem?_eq_getElem hrj
      have h5 : (ones v)[j]? = some w.rounded[j] := (congrArg (fun l : List Nat => l[j]?) h2).symm.trans h4
      have := ones_get h5
      omega
  obtain ⟨b, hb1, hb2⟩ := hbest
  obtain ⟨s, rs, g1, g2, g3, g4, g5⟩ := hw.record b hb1
  refine ⟨s, rs, g1, g2, g3, ?_, ?_⟩
  · rcases g5 with h | h
    · exact h
    · exact absurd h (not_lt.mpr hb2)
  · intro s' rs' hs' hl
    rw [← g4]
    have hcl : ∀ c ∈ w.crit, ∀ y, c = .num y → s' < y := by
      intro c hc z hz
      have := hend c hc
      rw [hz] at this
      simp [Crit.le] at this
    rcases hw.cover s' rs' hs' hl hcl with ⟨b', h2, h3⟩ | h
    · rw [hb1] at h2
      simp only [Option.some.injEq] at h2
      rw [h2]; exact h3
    · rw [h]; exact hb2

end opt

end Verif.Spherical
