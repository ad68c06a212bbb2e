import Verif.Config.Spec
import Verif.Graph.HistoryProps

/-!
# C102: configurations of a graph index, and insertions with retries

The specification is in `Spec.lean`: `Says b c` reads the settings, `Valid c` are the bounds a configuration keeps.
-/

namespace Verif.Config

open Verif.Graph

/-! ## Builder -/

theorem nonZero_ok {p : Param} {limit n m : Nat} : nonZero p limit n = .ok m ↔ (0 < n ∧ n < limit) ∧ m = n := by
  unfold nonZero
  split
  · rename_i h; simp [h, eq_comm]
  · rename_i h; simp [h]

theorem resolveMax_ok {pruned m : Nat} {d : MaxDegree} (hp : Pos32 pruned) :
    resolveMax pruned d = .ok m ↔ MaxIs pruned d m ∧ Pos32 m := by
  unfold Pos32 at *
  match d with
  | .value n =>
    simp only [resolveMax, MaxIs, nonZero_ok]
    constructor
    · rintro ⟨h, rfl⟩; exact ⟨rfl, by omega⟩
    · rintro ⟨rfl, h⟩; exact ⟨by omega, rfl⟩
  | .slack none => simp [resolveMax, MaxIs]
  | .slack (some s) =>
    simp only [resolveMax, MaxIs]
    split
    · rename_i h
      simp only [reduceCtorEq, false_iff, not_and]
      rintro ⟨q, e, hq, -⟩
      cases e
      exact absurd hq (not_le.2 h)
    · rename_i h
      rw [nonZero_ok]
      constructor
      · rintro ⟨h1, rfl⟩; exact ⟨⟨s, rfl, not_lt.1 h, rfl⟩, by omega⟩
      · rintro ⟨⟨q, e, hq, rfl⟩, h1⟩; cases e; exact ⟨by omega, rfl⟩
  | .same =>
    simp only [resolveMax, MaxIs, Except.ok.injEq]
    constructor
    · rintro rfl; exact ⟨rfl, hp⟩
    · rintro ⟨rfl, -⟩; rfl

theorem resolveBack_ok {pruned m : Nat} {d : Option Backedges} (hp : Pos32 pruned) :
    resolveBack pruned d = .ok m ↔ BackIs pruned d m ∧ Pos32 m := by
  unfold Pos32 at *
  match d with
  | some (.amount n) =>
    simp only [resolveBack, BackIs, nonZero_ok]
    constructor
    · rintro ⟨h, rfl⟩; exact ⟨rfl, by omega⟩
    · rintro ⟨rfl, h⟩; exact ⟨by omega, rfl⟩
  | some (.ratio none) => simp [resolveBack, BackIs]
  | some (.ratio (some r)) =>
    simp only [resolveBack, BackIs]
    split
    · rename_i h
      simp only [reduceCtorEq, false_iff, not_and]
      rintro ⟨q, e, h0, h1, -⟩
      cases e
      rcases h with h | h
      · exact absurd h0 (not_lt.2 h)
      · exact absurd h1 (not_le.2 h)
    · rename_i h
      rw [nonZero_ok]
      constructor
      · rintro ⟨h1, rfl⟩
        exact ⟨⟨r, rfl, not_le.1 fun x => h (.inl x), not_lt.1 fun x => h (.inr x), rfl⟩, by omega⟩
      · rintro ⟨⟨q, e, -, -, rfl⟩, h1⟩; cases e; exact ⟨by omega, rfl⟩
  | none =>
    simp only [resolveBack, BackIs, Except.ok.injEq]
    constructor
    · rintro rfl; exact ⟨rfl, hp⟩
    · rintro ⟨rfl, -⟩; rfl

theorem resolveOr_ok {p : Param} {limit dflt m : Nat} {o : Option Nat} (hd : 0 < dflt ∧ dflt < limit) :
    resolveOr p limit dflt o = .ok m ↔ m = o.getD dflt ∧ 0 < m ∧ m < limit := by
  cases o with
  | some n =>
    simp only [resolveOr, nonZero_ok, Option.getD_some]
    constructor
    · rintro ⟨h, rfl⟩; exact ⟨rfl, h⟩
    · rintro ⟨rfl, h⟩; exact ⟨h, rfl⟩
  | none =>
    simp only [resolveOr, Except.ok.injEq, Option.getD_none]
    constructor
    · rintro rfl; exact ⟨rfl, hd⟩
    · rintro ⟨rfl, -⟩; rfl

theorem bind_ok {α β : Type} {x : Except Err α} {f : α → Except Err β} {b : β} :
    (x >>= f) = .ok b ↔ ∃ a, x = .ok a ∧ f a = .ok b := by
  cases x with
  | error e => simp [bind, Except.bind]
  | ok a => simp [bind, Except.bind]

/-- The builder accepts exactly the settings that can be read as a configuration within the bounds, and returns that
configuration. -/
theorem C102_build (b : Builder) (c : Cfg) : b.build = .ok c ↔ Says b c ∧ Valid c := by
  unfold Builder.build
  simp only [bind_ok, nonZero_ok]
  constructor
  · rintro ⟨p, ⟨hp, rfl⟩, m, hm, h⟩
    have hp' : Pos32 b.prunedDegree := ⟨hp.1, by omega⟩
    rw [resolveMax_ok hp'] at hm
    by_cases h1 : m < b.prunedDegree
    · simp [h1, throw, throwThe, MonadExceptOf.throw, bind, Except.bind] at h
    · rw [if_neg h1] at h
      simp only [bind_ok, nonZero_ok, pure_bind, resolveOr_ok (show 0 < 750 ∧ 750 < 2 ^ 16 by decide)] at h
      obtain ⟨l, ⟨hl, rfl⟩, o, ⟨rfl, ho⟩, k, hk, h⟩ := h
      rw [resolveBack_ok hp'] at hk
      by_cases h2 : b.prunedDegree < k
      · simp [h2, throw, throwThe, MonadExceptOf.throw, bind, Except.bind] at h
      · rw [if_neg h2] at h
        simp only [bind_ok, pure_bind, resolveOr_ok (show 0 < 1 ∧ 1 < 2 ^ 32 by decide)] at h
        obtain ⟨q, ⟨rfl, hq⟩, h⟩ := h
        simp only [pure, Except.pure, Except.ok.injEq] at h
        subst h
        refine ⟨⟨rfl, hm.1, hk.1, rfl, rfl, rfl, rfl, rfl, rfl, rfl, rfl⟩, ⟨hp', hm.2, by dsimp only; omega, ?_, ?_, hk.2, ?_, ?_⟩⟩
        · exact ⟨hl.1, by dsimp only; omega⟩
        · exact ⟨ho.1, by dsimp only; omega⟩
        · dsimp only; omega
        · exact ⟨hq.1, by dsimp only; omega⟩
  · rintro ⟨hs, hv⟩
    have v1 := hv.pruned; have v2 := hv.max; have v3 := hv.le; have v4 := hv.lBuild
    have v5 := hv.occlusion; have v6 := hv.back; have v7 := hv.backLe; have v8 := hv.minibatch
    rw [hs.pruned] at v1 v3 v7
    rw [hs.lBuild] at v4
    rw [hs.occlusion] at v5
    rw [hs.minibatch] at v8
    refine ⟨b.prunedDegree, ⟨⟨v1.1, by have := v1.2; omega⟩, rfl⟩, c.maxDegree, (resolveMax_ok v1).2 ⟨hs.max, v2⟩, ?_⟩
    rw [if_neg (by omega)]
    simp only [bind_ok, nonZero_ok, pure_bind, resolveOr_ok (show 0 < 750 ∧ 750 < 2 ^ 16 by decide)]
    refine ⟨b.lBuild, ⟨⟨v4.1, by have := v4.2; omega⟩, rfl⟩, _, ⟨rfl, v5.1, by have := v5.2; omega⟩, c.maxBackedges,
      (resolveBack_ok v1).2 ⟨hs.back, v6⟩, ?_⟩
    rw [if_neg (by omega)]
    simp only [bind_ok, pure_bind, resolveOr_ok (show 0 < 1 ∧ 1 < 2 ^ 32 by decide)]
    refine ⟨_, ⟨rfl, v8.1, by have := v8.2; omega⟩, ?_⟩
    simp only [pure, Except.pure, Except.ok.injEq]
    obtain ⟨s1, s2, s3, s4, s5, s6, s7, s8, s9, s10, s11⟩ := hs
    cases c
    simp_all

example : (Builder.new 10 (.value 13) 20 .occluding).build = .ok
    { prunedDegree := 10, maxDegree := 13, lBuild := 20, alpha := some defaultAlpha, kind := .occluding
      maxOcclusion := 750, maxBackedges := 10, minibatch := 1, intra := .all, saturate := false, retry := none } := by
  decide +kernel

/-- A builder never says yes and no: what it refuses, cannot be read as a configuration within the bounds. -/
theorem C102_refused (b : Builder) (e : Err) (h : b.build = .error e) : ¬∃ c, Says b c ∧ Valid c := by
  rintro ⟨c, hc⟩
  rw [(C102_build b c).2 hc] at h
  cases h

example : (Builder.new 10 (.value 9) 20 .occluding).build = .error (.degrees 9 10) ∧
    ((Builder.new 10 .same 20 .occluding).set (.maxBackedges 11)).build = .error (.backedges 11 10) ∧
    (Builder.new 0 .same 20 .occluding).build = .error (.parameter .prunedDegree 0) ∧
    (Builder.new 10 .same 4294967296 .occluding).build = .error (.parameter .lBuild 4294967296) := by
  decide +kernel

/-- Which setting a field comes from. -/
def Setting.field : Setting → Nat
  | .alpha _ => 0
  | .lBuild _ => 1
  | .maxOcclusion _ => 2
  | .backedgeRatio _ => 3
  | .maxBackedges _ => 3
  | .minibatch _ => 4
  | .intra _ => 5
  | .saturate _ => 6
  | .retry _ => 7

/-- Settings of different fields commute, and of two settings of the same field the later one counts; a ratio and an
amount of back-edges are settings of the same field. -/
theorem C102_settings (b : Builder) (x y : Setting) :
    (x.field ≠ y.field → (b.set x).set y = (b.set y).set x) ∧ (x.field = y.field → (b.set x).set y = b.set y) := by
  cases x <;> cases y <;> simp [Setting.field, Builder.set]

example : (Setting.backedgeRatio (some 1)).field = (Setting.maxBackedges 4).field ∧
    (Setting.alpha none).field ≠ (Setting.lBuild 4).field := by decide

/-! ## Relative degrees -/

theorem toUsize_eq {x : Rat} {n : Nat} (h : ⌊x⌋ = n) (hn : n < 2 ^ 64) : toUsize x = n := by
  unfold toUsize
  rw [h]
  simp; omega

/-- A slack of at least one on a pruned degree of at most 24 bits, if the product does not exceed 24 bits either, is
always accepted: the maximum degree is the exact product cut off or rounded up, and not below the pruned degree. -/
theorem C102_slack_partial (p : Nat) (s : Rat) (hp : 0 < p) (hp24 : p ≤ 2 ^ 24) (hs : 1 ≤ s) (hsp : s * p ≤ 2 ^ 24) :
    ∃ m, resolveMax p (.slack (some s)) = .ok m ∧ p ≤ m ∧ ((m : Int) = ⌊s * p⌋ ∨ (m : Int) = ⌈s * p⌉) := by
  have hpq : (0 : Rat) < p := by exact_mod_cast hp
  have h1 : F32.rnd (p : Rat) = p := F32.rnd_float (F32.isFloat_nat hp24)
  have hpos : (0 : Rat) ≤ s * p := by positivity
  have hfc := F32.rnd_floor_ceil (x := s * p) (by rw [abs_of_nonneg hpos]; exact hsp)
  have hge : (p : Rat) ≤ F32.rnd (s * p) := by
    rw [← h1]
    refine F32.rnd_mono ?_
    rw [h1]
    nlinarith
  have hsc : scaled s p = F32.rnd (s * p) := by unfold scaled; rw [h1]
  have f1 : ⌊s * p⌋ ≤ ⌊F32.rnd (s * p)⌋ := by rw [Int.le_floor]; exact hfc.1
  have f2 : ⌊F32.rnd (s * p)⌋ ≤ ⌈s * p⌉ := by
    have := (Int.floor_le (F32.rnd (s * p))).trans hfc.2
    exact_mod_cast this
  have f3 : (p : Int) ≤ ⌊F32.rnd (s * p)⌋ := by rw [Int.le_floor]; exact_mod_cast hge
  have f4 : ⌈s * p⌉ ≤ ⌊s * p⌋ + 1 := Int.ceil_le_floor_add_one _
  have f5 : ⌈s * p⌉ ≤ 2 ^ 24 := by rw [Int.ceil_le]; push_cast; exact hsp
  obtain ⟨m, hm⟩ : ∃ m : Nat, ⌊F32.rnd (s * p)⌋ = m := ⟨_, (Int.toNat_of_nonneg (by omega)).symm⟩
  refine ⟨m, ?_, by omega, by omega⟩
  rw [resolveMax_ok ⟨hp, by omega⟩]
  refine ⟨⟨s, rfl, hs, ?_⟩, by omega, by omega⟩
  rw [hsc, toUsize_eq hm (by omega)]

example : (0 < 100 ∧ 100 ≤ 2 ^ 24) ∧ 1 ≤ defaultSlack ∧ defaultSlack * 100 ≤ 2 ^ 24 := by
  unfold defaultSlack; norm_num

/-- A ratio in `(0, 1]` on a pruned degree of at most 24 bits is always accepted: the number of back-edges is the exact
product rounded up or cut off, at least one and at most the pruned degree. -/
theorem C102_ratio_partial (p : Nat) (r : Rat) (hp : 0 < p) (hp24 : p ≤ 2 ^ 24) (hr : F32.IsFloat r) (h0 : 0 < r) (h1 : r ≤ 1) :
    ∃ m, resolveBack p (some (.ratio (some r))) = .ok m ∧ 0 < m ∧ m ≤ p ∧
      ((m : Int) = ⌈r * p⌉ ∨ (m : Int) = ⌊r * p⌋) := by
  have hpq : (0 : Rat) < p := by exact_mod_cast hp
  have hp1 : (1 : Rat) ≤ p := by exact_mod_cast hp
  have hpp : (p : Rat) ≤ 2 ^ 24 := by exact_mod_cast hp24
  have e1 : F32.rnd (p : Rat) = p := F32.rnd_float (F32.isFloat_nat hp24)
  have hpos : (0 : Rat) < r * p := by positivity
  have hle : r * p ≤ p := by nlinarith
  have hfc := F32.rnd_floor_ceil (x := r * p) (by rw [abs_of_nonneg hpos.le]; linarith)
  have hle' : F32.rnd (r * p) ≤ p := by rw [← e1]; refine F32.rnd_mono ?_; rw [e1]; exact hle
  have hgt : 0 < F32.rnd (r * p) := by
    refine lt_of_lt_of_le h0 ?_
    conv_lhs => rw [← F32.rnd_float hr]
    refine F32.rnd_mono ?_
    nlinarith
  have hsc : scaled r p = F32.rnd (r * p) := by unfold scaled; rw [e1]
  have f1 : ⌊r * p⌋ ≤ ⌈F32.rnd (r * p)⌉ := by
    have := hfc.1.trans (Int.le_ceil _)
    exact_mod_cast this
  have f2 : ⌈F32.rnd (r * p)⌉ ≤ ⌈r * p⌉ := by rw [Int.ceil_le]; exact hfc.2
  have f3 : ⌈F32.rnd (r * p)⌉ ≤ p := by rw [Int.ceil_le]; exact_mod_cast hle'
  have f4 : 0 < ⌈F32.rnd (r * p)⌉ := Int.ceil_pos.2 hgt
  have f5 : ⌈r * p⌉ ≤ ⌊r * p⌋ + 1 := Int.ceil_le_floor_add_one _
  obtain ⟨m, hm⟩ : ∃ m : Nat, ⌈F32.rnd (r * p)⌉ = m := ⟨_, (Int.toNat_of_nonneg (by omega)).symm⟩
  refine ⟨m, ?_, by omega, by omega, by omega⟩
  rw [resolveBack_ok ⟨hp, by omega⟩]
  refine ⟨⟨r, rfl, h0, h1, ?_⟩, by omega, by omega⟩
  rw [hsc, toUsize_eq (n := m) (by rw [hm]; simp) (by omega)]

example : F32.IsFloat (1 / 4) ∧ (0 : Rat) < 1 / 4 ∧ (1 / 4 : Rat) ≤ 1 := by
  refine ⟨⟨1, -2, by norm_num, by norm_num, by norm_num⟩, by norm_num, by norm_num⟩

/-- The next `f32` below and above, around a number that is nearer to `y` than to anything else. -/
theorem rnd_eq_of_near {x y d : Rat} (hy : F32.IsFloat y) (hxy : |y - x| < d)
    (hn : ∀ z, F32.IsFloat z → z ≠ y → d ≤ |z - x|) : F32.rnd x = y := by
  by_contra h
  have h1 := hn _ (F32.rnd_isFloat x) h
  have h2 := F32.rnd_nearest x hy
  linarith

/-- Two `f32` values of at least `2 ^ k` times 24 bits differ by the last bit. -/
theorem float_multiple {z : Rat} {k : Int} (hz : F32.IsFloat z) (hk : 2 ^ 23 * (2 : Rat) ^ k < z) :
    ∃ n : Int, z = n * (2 : Rat) ^ k := by
  obtain ⟨m, e, hm, he, rfl⟩ := hz
  by_cases hle : k ≤ e
  · obtain ⟨j, rfl⟩ : ∃ j : Nat, e = k + j := ⟨(e - k).toNat, by omega⟩
    refine ⟨m * 2 ^ j, ?_⟩
    rw [zpow_add₀ (by norm_num), zpow_natCast]
    push_cast; ring
  · exfalso
    have h1 : (m : Rat) ≤ 2 ^ 24 := by exact_mod_cast (abs_le.1 hm).2
    have h2 : (m : Rat) * (2 : Rat) ^ e ≤ 2 ^ 24 * (2 : Rat) ^ e :=
      mul_le_mul_of_nonneg_right h1 (F32.two_zpow_pos e).le
    have h3 : (2 : Rat) ^ (e + 1) ≤ (2 : Rat) ^ k := zpow_le_zpow_right₀ (by norm_num : (1 : Rat) ≤ 2) (by omega)
    rw [zpow_add₀ (by norm_num), zpow_one] at h3
    linarith

/-- "The true max degree will be calculated as `floor(pruned_degree * slack)`" fails: with the default slack, 1.3 as
`f32`, and a pruned degree of 30 the product is below 39, and the maximum degree is 39. -/
theorem C102_slack_not_floor :
    resolveMax 30 (.slack (some defaultSlack)) = .ok 39 ∧ ⌊defaultSlack * 30⌋ = 38 := by
  have hfl : ⌊defaultSlack * 30⌋ = 38 := by
    unfold defaultSlack
    rw [Int.floor_eq_iff]; norm_num
  refine ⟨?_, hfl⟩
  have h30 : F32.rnd ((30 : Nat) : Rat) = 30 := by
    rw [F32.rnd_float (F32.isFloat_nat (by norm_num))]; norm_num
  have hr : F32.rnd (defaultSlack * 30) = 39 := by
    refine rnd_eq_of_near (d := 1 / 2 ^ 19) ⟨39, 0, by norm_num, by norm_num, by norm_num⟩ ?_ ?_
    · unfold defaultSlack
      rw [abs_lt]; norm_num
    · intro z hz hne
      by_cases hbig : 2 ^ 23 * (2 : Rat) ^ (-18 : Int) < z
      · obtain ⟨n, rfl⟩ := float_multiple hz hbig
        have e : ((2 : Rat) ^ (-18 : Int)) = 1 / 2 ^ 18 := by norm_num
        rw [e] at hne ⊢
        have hn : n ≠ 39 * 2 ^ 18 := by
          rintro rfl
          apply hne; push_cast; norm_num
        unfold defaultSlack
        rcases lt_or_gt_of_ne hn with h | h
        · have : (n : Rat) ≤ 39 * 2 ^ 18 - 1 := by exact_mod_cast (by omega : n ≤ 39 * 2 ^ 18 - 1)
          rw [abs_sub_comm]
          refine le_trans ?_ (le_abs_self _)
          norm_num at this ⊢
          linarith
        · have : (39 * 2 ^ 18 + 1 : Rat) ≤ n := by exact_mod_cast (by omega : 39 * 2 ^ 18 + 1 ≤ n)
          refine le_trans ?_ (le_abs_self _)
          norm_num at this ⊢
          linarith
      · have hz' : z ≤ 32 := by
          have := not_lt.1 hbig
          norm_num at this ⊢
          linarith
        rw [abs_sub_comm]
        refine le_trans ?_ (le_abs_self _)
        unfold defaultSlack
        norm_num
        linarith
  rw [resolveMax_ok ⟨by norm_num, by norm_num⟩]
  refine ⟨⟨_, rfl, by unfold defaultSlack; norm_num, ?_⟩, by norm_num, by norm_num⟩
  unfold scaled
  rw [h30, hr]
  exact (toUsize_eq (by norm_num) (by norm_num)).symm

/-- The `f32` nearest to a number between `2 ^ 25` and `2 ^ 26` that is one away from a multiple of four. -/
theorem rnd_above {n : Int} {x : Rat} (h1 : 2 ^ 23 ≤ n) (h2 : n < 2 ^ 24) (hx : |((n : Rat) * 4) - x| = 1)
    (hb : 2 ^ 25 < x) : F32.rnd x = n * 4 := by
  refine rnd_eq_of_near (d := 3) ⟨n, 2, by rw [abs_of_nonneg (by omega)]; omega, by norm_num, by norm_num⟩
    (by rw [hx]; norm_num) ?_
  intro z hz hne
  have hx' := abs_eq (by norm_num : (0 : Rat) ≤ 1) |>.1 hx
  by_cases hbig : 2 ^ 23 * (2 : Rat) ^ (2 : Int) < z
  · obtain ⟨k, rfl⟩ := float_multiple hz hbig
    have e : ((2 : Rat) ^ (2 : Int)) = 4 := by norm_num
    rw [e] at hne ⊢
    have hn : k ≠ n := by rintro rfl; exact hne rfl
    rcases lt_or_gt_of_ne hn with h | h
    · have : (k : Rat) ≤ n - 1 := by exact_mod_cast (by omega : k ≤ n - 1)
      rw [abs_sub_comm]
      refine le_trans ?_ (le_abs_self _)
      rcases hx' with h | h <;> linarith
    · have : (n + 1 : Rat) ≤ k := by exact_mod_cast (by omega : n + 1 ≤ k)
      refine le_trans ?_ (le_abs_self _)
      rcases hx' with h | h <;> linarith
  · have hz' : z ≤ 2 ^ 25 := by
      have := not_lt.1 hbig
      norm_num at this ⊢
      linarith
    have hn2 : (2 ^ 23 : Rat) ≤ n := by exact_mod_cast h1
    rw [abs_sub_comm]
    rcases hx' with h | h
    · -- `x` is below the multiple, so that is not the smallest one
      have hn3 : (2 ^ 23 + 1 : Rat) ≤ n := by
        by_contra hc
        have : n ≤ 2 ^ 23 := by
          by_contra hc'
          exact hc (by exact_mod_cast (by omega : (2 ^ 23 + 1 : Int) ≤ n))
        have : (n : Rat) ≤ 2 ^ 23 := by exact_mod_cast this
        norm_num at *
        linarith
      refine le_trans ?_ (le_abs_self _)
      norm_num at *
      linarith
    · by_cases hz2 : z = 2 ^ 25
      · have hn3 : (2 ^ 23 + 1 : Rat) ≤ n := by
          have : n ≠ 2 ^ 23 := by
            rintro rfl
            apply hne; rw [hz2]; norm_num
          exact_mod_cast (by omega : (2 ^ 23 + 1 : Int) ≤ n)
        refine le_trans ?_ (le_abs_self _)
        norm_num at *
        linarith
      · obtain ⟨k, hk⟩ : ∃ k : Int, z = k * (2 : Rat) ^ (1 : Int) ∨ z ≤ 2 ^ 24 := by
          by_cases hb1 : 2 ^ 23 * (2 : Rat) ^ (1 : Int) < z
          · obtain ⟨k, hk⟩ := float_multiple hz hb1
            exact ⟨k, .inl hk⟩
          · refine ⟨0, .inr ?_⟩
            have := not_lt.1 hb1
            norm_num at this ⊢
            linarith
        have hz3 : z ≤ 2 ^ 25 - 2 := by
          rcases hk with hk | hk
          · have : k < 2 ^ 24 := by
              by_contra hc
              have h5 : (2 ^ 24 : Rat) ≤ k := by exact_mod_cast not_lt.1 hc
              apply hz2
              rw [hk] at hz' ⊢
              norm_num at *
              linarith
            have : (k : Rat) ≤ 2 ^ 24 - 1 := by exact_mod_cast (by omega : k ≤ 2 ^ 24 - 1)
            rw [hk]; norm_num at *; linarith
          · norm_num at *; linarith
        refine le_trans ?_ (le_abs_self _)
        norm_num at *
        linarith

/-- A slack of one is refused for a pruned degree of `2 ^ 25 + 1`: as `f32` that is `2 ^ 25`. -/
theorem C102_slack_one_refused (l : Nat) (k : PruneKind) :
    (Builder.new (2 ^ 25 + 1) (.slack (some 1)) l k).build = .error (.degrees (2 ^ 25) (2 ^ 25 + 1)) := by
  have hr : F32.rnd (((2 ^ 25 + 1 : Nat)) : Rat) = 2 ^ 25 := by
    have := rnd_above (n := 2 ^ 23) (x := ((2 ^ 25 + 1 : Nat) : Rat)) (by norm_num) (by norm_num) (by norm_num) (by norm_num)
    rw [this]; norm_num
  have hs : scaled 1 (2 ^ 25 + 1) = 2 ^ 25 := by
    unfold scaled
    rw [hr, one_mul]
    exact F32.rnd_float ⟨1, 25, by norm_num, by norm_num, by norm_num⟩
  have hm : resolveMax (2 ^ 25 + 1) (.slack (some 1)) = .ok (2 ^ 25) := by
    rw [resolveMax_ok ⟨by norm_num, by norm_num⟩]
    refine ⟨⟨1, rfl, le_rfl, ?_⟩, by norm_num, by norm_num⟩
    rw [hs]
    exact (toUsize_eq (by norm_num) (by norm_num)).symm
  unfold Builder.build Builder.new
  have hz : nonZero .prunedDegree (2 ^ 32) (2 ^ 25 + 1) = .ok (2 ^ 25 + 1) := by rw [nonZero_ok]; norm_num
  simp only [hz, hm, bind, Except.bind]
  rfl

/-- A ratio of one is refused for a pruned degree of `2 ^ 25 + 3`: as `f32` that is `2 ^ 25 + 4`. -/
theorem C102_ratio_one_refused (l : Nat) (hl : 0 < l) (hl32 : l < 2 ^ 32) (k : PruneKind) :
    ((Builder.new (2 ^ 25 + 3) .same l k).set (.backedgeRatio (some 1))).build =
      .error (.backedges (2 ^ 25 + 4) (2 ^ 25 + 3)) := by
  have hr : F32.rnd (((2 ^ 25 + 3 : Nat)) : Rat) = 2 ^ 25 + 4 := by
    have := rnd_above (n := 2 ^ 23 + 1) (x := ((2 ^ 25 + 3 : Nat) : Rat)) (by norm_num) (by norm_num) (by norm_num)
      (by norm_num)
    rw [this]; norm_num
  have hs : scaled 1 (2 ^ 25 + 3) = 2 ^ 25 + 4 := by
    unfold scaled
    rw [hr, one_mul]
    exact F32.rnd_float ⟨2 ^ 23 + 1, 2, by norm_num, by norm_num, by norm_num⟩
  have hm : resolveBack (2 ^ 25 + 3) (some (.ratio (some 1))) = .ok (2 ^ 25 + 4) := by
    rw [resolveBack_ok ⟨by norm_num, by norm_num⟩]
    refine ⟨⟨1, rfl, by norm_num, le_rfl, ?_⟩, by norm_num, by norm_num⟩
    rw [hs]
    refine (toUsize_eq ?_ (by norm_num)).symm
    rw [show (2 ^ 25 + 4 : Rat) = ((2 ^ 25 + 4 : Int) : Rat) by norm_num, Int.ceil_intCast, Int.floor_intCast]
    norm_num
  unfold Builder.build Builder.new Builder.set
  have hz : nonZero .prunedDegree (2 ^ 32) (2 ^ 25 + 3) = .ok (2 ^ 25 + 3) := by rw [nonZero_ok]; norm_num
  have hz' : nonZero .lBuild (2 ^ 32) l = .ok l := by rw [nonZero_ok]; exact ⟨⟨hl, hl32⟩, rfl⟩
  simp only [hz, hz', hm, bind, Except.bind, resolveMax, resolveOr]
  rfl

/-- "Parameter `size` must be non-zero and not exceed `u32::MAX`" fails: sizes of more than 16 bits are refused. -/
theorem C102_occlusion_limit (b : Builder) (n : Nat) (h : 2 ^ 16 ≤ n) (c : Cfg) :
    (b.set (.maxOcclusion n)).build ≠ .ok c := by
  intro h1
  obtain ⟨hs, hv⟩ := (C102_build _ _).1 h1
  have h2 := hv.occlusion.2
  have h3 : c.maxOcclusion = n := hs.occlusion
  omega

example : ((Builder.new 10 .same 20 .occluding).set (.maxOcclusion 65536)).build =
    .error (.parameter .maxOcclusion 65536) := by decide +kernel

/-- Any `alpha` is accepted, also one that is not finite or below one. -/
theorem C102_alpha_not_checked (b : Builder) (c : Cfg) (h : b.build = .ok c) (a : F) :
    (b.set (.alpha a)).build = .ok { c with alpha := a } := by
  rw [C102_build] at h ⊢
  obtain ⟨⟨s1, s2, s3, s4, s5, s6, s7, s8, s9, s10, s11⟩, ⟨v1, v2, v3, v4, v5, v6, v7, v8⟩⟩ := h
  exact ⟨⟨s1, s2, s3, s4, rfl, s6, s7, s8, s9, s10, s11⟩, ⟨v1, v2, v3, v4, v5, v6, v7, v8⟩⟩

example : ((Builder.new 10 .same 20 .occluding).set (.alpha none)).build.toOption.map (·.alpha) = some none := by
  decide +kernel

end Verif.Config
