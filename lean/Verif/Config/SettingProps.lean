import Verif.Config.Props

/-!
# C102: what the setters, the defaults and the errors of the builder say
-/

namespace Verif.Config

open Verif.Graph

/-! ## Setters -/

/-- The configuration has what the setting asks for. -/
def Holds (c : Cfg) : Setting → Prop
  | .alpha a => c.alpha = a
  | .lBuild n => c.lBuild = n
  | .maxOcclusion n => c.maxOcclusion = n
  | .backedgeRatio r => BackIs c.prunedDegree (some (.ratio r)) c.maxBackedges
  | .maxBackedges n => c.maxBackedges = n
  | .minibatch n => c.minibatch = n
  | .intra i => c.intra = i
  | .saturate s => c.saturate = s
  | .retry r => c.retry = some r

theorem set_last (x : Setting) (ys : List Setting) (hy : ∀ y ∈ ys, y.field ≠ x.field) (b : Builder) :
    ys.foldl Builder.set (b.set x) = (ys.foldl Builder.set b).set x := by
  induction ys generalizing b with
  | nil => rfl
  | cons y ys ih =>
    rw [List.foldl_cons, List.foldl_cons, (C102_settings b x y).1 fun e => hy y (by simp) e.symm,
      ih fun z hz => hy z (by simp [hz])]

/-- Whatever settings are made before, and whatever settings of other fields are made after it, a setting is in the
configuration. -/
theorem C102_setting_counts (b : Builder) (xs ys : List Setting) (x : Setting) (hy : ∀ y ∈ ys, y.field ≠ x.field)
    (c : Cfg) (h : ((xs ++ x :: ys).foldl Builder.set b).build = .ok c) : Holds c x := by
  rw [List.foldl_append, List.foldl_cons, set_last x ys hy] at h
  generalize ys.foldl Builder.set (xs.foldl Builder.set b) = b' at h
  have hs := ((C102_build _ c).1 h).1
  cases x with
  | alpha a => exact hs.alpha
  | lBuild n => exact hs.lBuild
  | maxOcclusion n => exact hs.occlusion
  | backedgeRatio r => have := hs.back; rw [← hs.pruned] at this; exact this
  | maxBackedges n => exact hs.back
  | minibatch n => exact hs.minibatch
  | intra i => exact hs.intra
  | saturate s => exact hs.saturate
  | retry r => exact hs.retry

example : ((([.maxBackedges 4] ++ .backedgeRatio (some (1 / 2)) :: [.saturate true, .lBuild 7] : List Setting)).foldl Builder.set
    (Builder.new 10 .same 20 .occluding)).build = .ok
      { prunedDegree := 10, maxDegree := 10, lBuild := 7, alpha := some defaultAlpha, kind := .occluding
        maxOcclusion := 750, maxBackedges := 5, minibatch := 1, intra := .all, saturate := true, retry := none } := by
  decide +kernel

theorem untouched {α : Type} (get : Builder → α) (f : Nat) (hg : ∀ b y, y.field ≠ f → get (b.set y) = get b)
    (xs : List Setting) (hx : ∀ y ∈ xs, y.field ≠ f) (b : Builder) : get (xs.foldl Builder.set b) = get b := by
  induction xs generalizing b with
  | nil => rfl
  | cons y ys ih => rw [List.foldl_cons, ih fun z hz => hx z (by simp [hz])]; exact hg b y (hx y (by simp))

theorem field_lt (y : Setting) : y.field ≠ 8 := by cases y <;> simp [Setting.field]

/-- What is not set (the numbers of the fields are those of `Setting.field`): the degrees and the prune are those the builder was made with, as is the window; alpha is 1.2
rounded to `f32`, at most 750 candidates are occluded, every neighbour gets a back-edge, batches are of one vector, all
vectors of a batch are candidates for each other, lists are not saturated and insertions not retried. -/
theorem C102_not_set (p l : Nat) (m : MaxDegree) (k : PruneKind) (xs : List Setting) (c : Cfg)
    (h : (xs.foldl Builder.set (Builder.new p m l k)).build = .ok c) :
    c.prunedDegree = p ∧ MaxIs p m c.maxDegree ∧ c.kind = k ∧
    ((∀ y ∈ xs, y.field ≠ 0) → c.alpha = some (F32.rnd (6 / 5))) ∧
    ((∀ y ∈ xs, y.field ≠ 1) → c.lBuild = l) ∧
    ((∀ y ∈ xs, y.field ≠ 2) → c.maxOcclusion = 750) ∧
    ((∀ y ∈ xs, y.field ≠ 3) → c.maxBackedges = p) ∧
    ((∀ y ∈ xs, y.field ≠ 4) → c.minibatch = 1) ∧
    ((∀ y ∈ xs, y.field ≠ 5) → c.intra = .all) ∧
    ((∀ y ∈ xs, y.field ≠ 6) → c.saturate = false) ∧
    ((∀ y ∈ xs, y.field ≠ 7) → c.retry = none) := by
  have hs := ((C102_build _ c).1 h).1
  have u := fun {α : Type} (get : Builder → α) f hg hx => untouched (α := α) get f hg xs hx (Builder.new p m l k)
  have u8 : ∀ y ∈ xs, y.field ≠ 8 := fun y _ => field_lt y
  have hp := u (·.prunedDegree) 8 (fun b y _ => by cases y <;> rfl) u8
  have hm := u (·.maxDegree) 8 (fun b y _ => by cases y <;> rfl) u8
  have hk := u (·.kind) 8 (fun b y _ => by cases y <;> rfl) u8
  have ha : defaultAlpha = F32.rnd (6 / 5) := by decide +kernel
  refine ⟨hs.pruned.trans hp, ?_, hs.kind.trans hk, fun hx => ?_, fun hx => ?_, fun hx => ?_, fun hx => ?_, fun hx => ?_,
    fun hx => ?_, fun hx => ?_, fun hx => ?_⟩
  · have := hs.max; rw [hp, hm] at this; exact this
  · have e := u (·.alpha) 0 (fun b y hy => by cases y <;> first | rfl | exact absurd rfl hy) hx
    rw [hs.alpha, e, ← ha]; rfl
  · have e := u (·.lBuild) 1 (fun b y hy => by cases y <;> first | rfl | exact absurd rfl hy) hx
    exact hs.lBuild.trans e
  · have e := u (·.maxOcclusion) 2 (fun b y hy => by cases y <;> first | rfl | exact absurd rfl hy) hx
    rw [hs.occlusion, e]; rfl
  · have e := u (·.backedges) 3 (fun b y hy => by cases y <;> first | rfl | exact absurd rfl hy) hx
    have := hs.back
    rw [hp, e] at this
    exact this
  · have e := u (·.minibatch) 4 (fun b y hy => by cases y <;> first | rfl | exact absurd rfl hy) hx
    rw [hs.minibatch, e]; rfl
  · have e := u (·.intra) 5 (fun b y hy => by cases y <;> first | rfl | exact absurd rfl hy) hx
    rw [hs.intra, e]; rfl
  · have e := u (·.saturate) 6 (fun b y hy => by cases y <;> first | rfl | exact absurd rfl hy) hx
    rw [hs.saturate, e]; rfl
  · have e := u (·.retry) 7 (fun b y hy => by cases y <;> first | rfl | exact absurd rfl hy) hx
    rw [hs.retry, e]; rfl

example : ((([.saturate true, .lBuild 7] : List Setting).foldl Builder.set
    (Builder.new 10 .same 20 .occluding)).build.toOption.map (·.alpha)) = some (some (F32.rnd (6 / 5))) := by decide +kernel

/-! ## Rounding -/

/-- What relative degrees are rounded with: the result is one of the finite `f32` values, none is closer, and halfway
between two neighbours it is the one with the even mantissa. -/
theorem C102_rounding (x : Rat) :
    F32.IsFloat (F32.rnd x) ∧ (∀ y, F32.IsFloat y → |F32.rnd x - x| ≤ |y - x|) ∧
    ∀ m e : Int, 2 ^ 23 ≤ m → m < 2 ^ 24 → -149 ≤ e → x = ((m : Rat) + 1 / 2) * (2 : Rat) ^ e →
      ∃ k : Int, (k = m ∨ k = m + 1) ∧ k % 2 = 0 ∧ F32.rnd x = k * (2 : Rat) ^ e := by
  refine ⟨F32.rnd_isFloat x, fun y hy => F32.rnd_nearest x hy, fun m e h1 h2 he hx => ?_⟩
  refine ⟨if m % 2 = 0 then m else m + 1, ?_, ?_, ?_⟩
  · split <;> simp
  · split <;> omega
  · rw [hx, F32.rnd_tie m e h1 h2 he]

example : F32.rnd 16777217 = 16777216 ∧ F32.rnd 16777219 = 16777220 ∧
    (16777219 : Rat) = (((8388609 : Int) : Rat) + 1 / 2) * (2 : Rat) ^ (1 : Int) := by
  refine ⟨by decide +kernel, by decide +kernel, by norm_num⟩

/-! ## Errors -/

/-- The error names a setting that was made, or one that it led to, with its number, and this is out of bounds. -/
def Blames (b : Builder) : Err → Prop
  | .parameter .prunedDegree v => v = b.prunedDegree ∧ ¬Pos32 v
  | .parameter .maxDegree v => b.maxDegree = .value v ∧ ¬Pos32 v
  | .parameter .slackDegree v => (∃ s, b.maxDegree = .slack s) ∧ MaxIs b.prunedDegree b.maxDegree v ∧ ¬Pos32 v
  | .parameter .lBuild v => v = b.lBuild ∧ ¬Pos32 v
  | .parameter .maxOcclusion v => b.maxOcclusion = some v ∧ ¬Pos16 v
  | .parameter .ratioBackedges v => (∃ r, b.backedges = some (.ratio r)) ∧ BackIs b.prunedDegree b.backedges v ∧ ¬Pos32 v
  | .parameter .maxBackedges v => b.backedges = some (.amount v) ∧ ¬Pos32 v
  | .parameter .minibatch v => b.minibatch = some v ∧ ¬Pos32 v
  | .slack s => b.maxDegree = .slack s ∧ ¬∃ q, s = some q ∧ 1 ≤ q
  | .ratio r => b.backedges = some (.ratio r) ∧ ¬∃ q, r = some q ∧ 0 < q ∧ q ≤ 1
  | .degrees m p => p = b.prunedDegree ∧ MaxIs p b.maxDegree m ∧ m < p
  | .backedges m p => p = b.prunedDegree ∧ BackIs p b.backedges m ∧ p < m

theorem nonZero_error {p : Param} {limit n : Nat} {e : Err} (h : nonZero p limit n = .error e) :
    e = .parameter p n ∧ ¬(0 < n ∧ n < limit) := by
  unfold nonZero at h
  split at h
  · cases h
  · rename_i hn; cases h; exact ⟨rfl, hn⟩

theorem not_pos32 {n : Nat} (h : ¬(0 < n ∧ n < 2 ^ 32)) : ¬Pos32 n := fun hp => h ⟨hp.1, by have := hp.2; omega⟩

theorem not_pos16 {n : Nat} (h : ¬(0 < n ∧ n < 2 ^ 16)) : ¬Pos16 n := fun hp => h ⟨hp.1, by have := hp.2; omega⟩

theorem resolveMax_error (b : Builder) {e : Err} (h : resolveMax b.prunedDegree b.maxDegree = .error e) : Blames b e := by
  match hd : b.maxDegree with
  | .value n =>
    rw [hd] at h
    obtain ⟨rfl, hn⟩ := nonZero_error h
    exact ⟨hd, not_pos32 hn⟩
  | .slack none =>
    rw [hd] at h
    cases h
    exact ⟨hd, fun ⟨q, e, _⟩ => by cases e⟩
  | .slack (some s) =>
    rw [hd] at h
    simp only [resolveMax] at h
    split at h
    · rename_i hs
      cases h
      exact ⟨hd, fun ⟨q, e, hq⟩ => by cases e; exact absurd hq (not_le.2 hs)⟩
    · rename_i hs
      obtain ⟨rfl, hn⟩ := nonZero_error h
      refine ⟨⟨_, hd⟩, ?_, not_pos32 hn⟩
      rw [hd]
      exact ⟨s, rfl, not_lt.1 hs, rfl⟩
  | .same => rw [hd] at h; cases h

theorem resolveBack_error (b : Builder) {e : Err} (h : resolveBack b.prunedDegree b.backedges = .error e) : Blames b e := by
  match hd : b.backedges with
  | some (.amount n) =>
    rw [hd] at h
    obtain ⟨rfl, hn⟩ := nonZero_error h
    exact ⟨hd, not_pos32 hn⟩
  | some (.ratio none) =>
    rw [hd] at h
    cases h
    exact ⟨hd, fun ⟨q, e, _⟩ => by cases e⟩
  | some (.ratio (some r)) =>
    rw [hd] at h
    simp only [resolveBack] at h
    split at h
    · rename_i hs
      cases h
      refine ⟨hd, fun ⟨q, e, h0, h1⟩ => ?_⟩
      cases e
      rcases hs with hs | hs
      · exact absurd h0 (not_lt.2 hs)
      · exact absurd h1 (not_le.2 hs)
    · rename_i hs
      obtain ⟨rfl, hn⟩ := nonZero_error h
      refine ⟨⟨_, hd⟩, ?_, not_pos32 hn⟩
      rw [hd]
      exact ⟨r, rfl, not_le.1 fun x => hs (.inl x), not_lt.1 fun x => hs (.inr x), rfl⟩
  | none => rw [hd] at h; cases h

theorem resolveOr_error {p : Param} {limit dflt : Nat} {o : Option Nat} {e : Err}
    (h : resolveOr p limit dflt o = .error e) : ∃ n, o = some n ∧ e = .parameter p n ∧ ¬(0 < n ∧ n < limit) := by
  cases o with
  | none => cases h
  | some n => exact ⟨n, rfl, nonZero_error h⟩

theorem bind_error {α β : Type} {x : Except Err α} {f : α → Except Err β} {e : Err} :
    (x >>= f) = .error e ↔ x = .error e ∨ ∃ a, x = .ok a ∧ f a = .error e := by
  cases x with
  | error e => simp [bind, Except.bind]
  | ok a => simp [bind, Except.bind]

/-- An error is never mistaken: it names a setting, the number it stands for, and this number is out of the bounds of
that setting. -/
theorem C102_error (b : Builder) (e : Err) (h : b.build = .error e) : Blames b e := by
  unfold Builder.build at h
  rw [bind_error] at h
  rcases h with h | ⟨p, hp, h⟩
  · obtain ⟨rfl, hn⟩ := nonZero_error h
    exact ⟨rfl, not_pos32 hn⟩
  obtain ⟨hp0, rfl⟩ := nonZero_ok.1 hp
  have hp' : Pos32 b.prunedDegree := ⟨hp0.1, by omega⟩
  rw [bind_error] at h
  rcases h with h | ⟨m, hm, h⟩
  · exact resolveMax_error b h
  rw [resolveMax_ok hp'] at hm
  by_cases h1 : m < b.prunedDegree
  · simp only [if_pos h1, throw, throwThe, MonadExceptOf.throw, bind, Except.bind, Except.error.injEq] at h
    subst h
    exact ⟨rfl, hm.1, h1⟩
  rw [if_neg h1] at h
  simp only [pure_bind] at h
  rw [bind_error] at h
  rcases h with h | ⟨l, hl, h⟩
  · obtain ⟨rfl, hn⟩ := nonZero_error h
    exact ⟨rfl, not_pos32 hn⟩
  rw [bind_error] at h
  rcases h with h | ⟨o, ho, h⟩
  · obtain ⟨n, e1, rfl, hn⟩ := resolveOr_error h
    exact ⟨e1, not_pos16 hn⟩
  rw [bind_error] at h
  rcases h with h | ⟨k, hk, h⟩
  · exact resolveBack_error b h
  rw [resolveBack_ok hp'] at hk
  by_cases h2 : b.prunedDegree < k
  · simp only [if_pos h2, throw, throwThe, MonadExceptOf.throw, bind, Except.bind, Except.error.injEq] at h
    subst h
    exact ⟨rfl, hk.1, h2⟩
  rw [if_neg h2] at h
  rw [bind_error] at h
  rcases h with h | ⟨q, hq, h⟩
  · obtain ⟨n, e1, rfl, hn⟩ := resolveOr_error h
    exact ⟨e1, not_pos32 hn⟩
  · simp [pure, Except.pure] at h

example : (Builder.new 10 (.slack (some (2 ^ 40))) 20 .occluding).build =
    .error (.parameter .slackDegree (10 * 2 ^ 40)) ∧
    ((Builder.new 10 .same 20 .occluding).set (.minibatch 0)).build = .error (.parameter .minibatch 0) := by
  decide +kernel

end Verif.Config
