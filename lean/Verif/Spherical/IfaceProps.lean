import Verif.Spherical.IfaceModel
import Verif.Quant.CanonProps
import Verif.Spherical.Inst
import Mathlib.Tactic.Ring
import Mathlib.Data.Rat.Floor

/-!
# The spherical quantizer behind an interface: theorems
-/

namespace Verif.Spherical.Iface

open Verif.Spherical Verif.Quant Verif.Quant.Canon

section

variable {K : Type} [Field K] [LinearOrder K] [FloorRing K]

/-! ## Specification -/

/-- The widths the interface is implemented for. -/
def Impl.Valid (m : Impl K) : Prop := m.bits = 1 ∨ m.bits = 2 ∨ m.bits = 4 ∨ m.bits = 8

/-- The buffer sizes of vectors of this dimension fit a machine word. -/
def Impl.Fits (m : Impl K) : Prop := 8 * m.q.outDim + 1024 < 2 ^ 64

/-- What each reader of a buffer finds has `dim` components. -/
def Shaped (dim : Nat) (b : Buf K) : Prop :=
  (∀ n, ∃ d : Data K, b.reads (.data n) = .data d ∧ d.codes.length = dim) ∧
    (∀ n, ∃ u : Query K, b.reads (.query n) = .query u ∧ u.codes.length = dim) ∧
    (∃ u : Query K, b.reads .transposed = .query u ∧ u.codes.length = dim) ∧
    ∃ f : Full K, b.reads .full = .full f ∧ f.data.length = dim

/-- A buffer of the described size at a multiple of the described alignment. -/
def Matches (d : Nat × Nat) (b : Buf K) : Prop := d.2 ∣ b.addr ∧ b.len = d.1

/-! ## Lemmas -/

theorem accepts_iff (dim : Nat) (k : Kind) (b : Buf K) :
    accepts dim k b = true ↔ k.align ∣ b.addr ∧ b.len = k.size dim := by
  unfold accepts
  cases k with
  | full =>
    simp only [Kind.align, Kind.size]
    unfold fromCanonical
    simp only
    split
    · rename_i h
      simp only [Except.isOk, Except.toBool, Bool.false_eq_true, false_iff, not_and]
      exact fun hd => absurd (Nat.mod_eq_zero_of_dvd hd) h
    · rename_i h
      split
      · rename_i h2
        simp only [Except.isOk, Except.toBool, Bool.false_eq_true, false_iff, not_and]
        exact fun _ => h2
      · rename_i h2
        simp only [Except.isOk, Except.toBool, true_iff]
        exact ⟨Nat.dvd_of_mod_eq_zero (by omega), by omega⟩
  | data n => simp [Kind.align]
  | transposed => simp [Kind.align]
  | query n => simp [Kind.align]

theorem describe_eq (m : Impl K) (l : Layout) :
    describe m l = match queryComputer m l with
      | .ok k => .ok (k.size m.q.outDim, k.align)
      | .error e => .error e := by
  unfold describe queryComputer
  by_cases h : m.bits = 1
  · cases l <;> simp only [h, ↓reduceIte] <;> rfl
  · cases l <;> simp only [h, ↓reduceIte] <;> rfl

theorem compressFinish_eq (env : Env K) (m : Impl K) (l : Layout) (v : List (Option K)) (b : Buf K) :
    compressFinish env m l v b = match queryComputer m l with
      | .ok k => compressArm env m k v b
      | .error e => some (.error e) := by
  unfold compressFinish queryComputer
  by_cases h : m.bits = 1
  · cases l <;> simp only [h, ↓reduceIte]
  · cases l <;> simp only [h, ↓reduceIte]

theorem fusedFinish_eq (env : Env K) (m : Impl K) (l : Layout) (v : List (Option K)) :
    fusedFinish env m l v = match queryComputer m l with
      | .ok k => fusedArm env m k v
      | .error e => some (.error e) := by
  unfold fusedFinish queryComputer
  by_cases h : m.bits = 1
  · cases l <;> simp only [h, ↓reduceIte]
  · cases l <;> simp only [h, ↓reduceIte]

/-- The vector that is compressed. -/
def input (env : Env K) (m : Impl K) (x : List (Option K)) (allowRescale : Bool) : List (Option K) :=
  if allowRescale && m.q.metric == .innerProduct then rescale env m.q x else x

theorem compressQuery_eq (env : Env K) (m : Impl K) (x : List (Option K)) (l : Layout) (r : Bool) (b : Buf K) :
    compressQuery env m x l r b = match queryComputer m l with
      | .ok k => compressArm env m k (input env m x r) b
      | .error e => some (.error e) := by
  unfold compressQuery input
  split <;> exact compressFinish_eq _ _ _ _ _

theorem fused_eq (env : Env K) (m : Impl K) (x : List (Option K)) (l : Layout) (r : Bool) :
    fusedQueryComputer env m x l r = match queryComputer m l with
      | .ok k => fusedArm env m k (input env m x r)
      | .error e => some (.error e) := by
  unfold fusedQueryComputer input
  split <;> exact fusedFinish_eq _ _ _ _

theorem compressAs_error (env : Env K) (m : Impl K) (k : Kind) (x : List (Option K)) (old : List Nat) (e : QErr)
    (h : compressAs env m k x old = some (.error e)) : ∃ c, e = .compression c := by
  unfold compressAs at h
  split at h
  · split at h <;> simp at h
    exact ⟨_, h.symm⟩
  · split at h <;> simp at h
    exact ⟨_, h.symm⟩
  · split at h <;> simp at h
    exact ⟨_, h.symm⟩

theorem compressArm_error (env : Env K) (m : Impl K) (k : Kind) (x : List (Option K)) (b : Buf K) (e : QErr)
    (h : compressArm env m k x b = some (.error e)) : e = .notCanonical ∨ ∃ c, e = .compression c := by
  unfold compressArm at h
  split at h
  · split at h
    · simp at h
    · rename_i e' he
      simp at h
      subst h
      exact .inr (compressAs_error _ _ _ _ _ _ he)
    · simp at h
  · simp at h
    exact .inl h.symm

theorem fusedArm_error (env : Env K) (m : Impl K) (k : Kind) (x : List (Option K)) (e : QErr)
    (h : fusedArm env m k x = some (.error e)) : ∃ c, e = .compression c := by
  unfold fusedArm at h
  split at h
  · simp at h
  · rename_i e' he
    simp at h
    subst h
    exact compressAs_error _ _ _ _ _ _ he
  · simp at h

theorem compressArm_notCanonical (env : Env K) (m : Impl K) (k : Kind) (x : List (Option K)) (b : Buf K) :
    compressArm env m k x b = some (.error .notCanonical) ↔ accepts m.q.outDim k b = false := by
  constructor
  · intro h
    by_contra hc
    rw [Bool.not_eq_false] at hc
    unfold compressArm at h
    rw [if_pos hc] at h
    split at h
    · simp at h
    · rename_i e he
      simp at h
      obtain ⟨c, hcc⟩ := compressAs_error _ _ _ _ _ _ he
      rw [h] at hcc
      cases hcc
    · simp at h
  · intro h
    unfold compressArm
    rw [h]
    rfl

theorem queryComputer_supports (m : Impl K) (l : Layout) :
    (supports m.bits l = true → ∃ k, queryComputer m l = .ok k ∧ k.report = l) ∧
      (supports m.bits l = false → queryComputer m l = .error (.unsupported l)) := by
  unfold supports queryComputer
  by_cases h : m.bits = 1
  · cases l <;> simp [h, Kind.report]
  · cases l <;> simp [h, Kind.report]

/-! ## Which query forms are supported -/

/-- C126: `is_supported` tells the truth about every operation: a form it refuses is refused by all of them, whatever the
other arguments, and a form it admits is never refused as unsupported. -/
theorem C126_supported (env : Env K) (m : Impl K) (l : Layout) :
    (supports m.bits l = true → (∃ d, describe m l = .ok d) ∧ (∃ k, queryComputer m l = .ok k) ∧
      ∀ x r b l', compressQuery env m x l r b ≠ some (.error (.unsupported l')) ∧
        fusedQueryComputer env m x l r ≠ some (.error (.unsupported l'))) ∧
    (supports m.bits l = false → describe m l = .error (.unsupported l) ∧ queryComputer m l = .error (.unsupported l) ∧
      ∀ x r b, compressQuery env m x l r b = some (.error (.unsupported l)) ∧
        fusedQueryComputer env m x l r = some (.error (.unsupported l))) := by
  constructor
  · intro h
    obtain ⟨k, hk, _⟩ := (queryComputer_supports m l).1 h
    refine ⟨⟨_, by rw [describe_eq, hk]⟩, ⟨k, hk⟩, fun x r b l' => ⟨fun hc => ?_, fun hc => ?_⟩⟩
    · rw [compressQuery_eq, hk] at hc
      rcases compressArm_error _ _ _ _ _ _ hc with e | ⟨c, e⟩ <;> cases e
    · rw [fused_eq, hk] at hc
      obtain ⟨c, e⟩ := fusedArm_error _ _ _ _ _ hc
      cases e
  · intro h
    have hk := (queryComputer_supports m l).2 h
    refine ⟨by rw [describe_eq, hk], hk, fun x r b => ⟨by rw [compressQuery_eq, hk], by rw [fused_eq, hk]⟩⟩

/-- C126: which forms those are. -/
theorem C126_supported_forms (m : Impl K) (l : Layout) :
    supports m.bits l = true ↔ l = .sameAsData ∨ l = .fullPrecision ∨ (l = .fourBitTransposed ∧ m.bits = 1) ∨
      (l = .scalarQuantized ∧ m.bits ≠ 1) := by
  unfold supports
  by_cases h : m.bits = 1 <;> cases l <;> simp [h]

/-- C126: a computer reports the form it was asked for. -/
theorem C126_layout (env : Env K) (m : Impl K) (l : Layout) :
    (∀ k, queryComputer m l = .ok k → k.report = l) ∧
    (∀ x r c, fusedQueryComputer env m x l r = some (.ok c) → c.kind.report = l) ∧
    (distanceComputer m).report = .sameAsData ∧ queryComputer m .sameAsData = .ok (distanceComputer m) := by
  have hq : ∀ k, queryComputer m l = .ok k → k.report = l := by
    intro k hk
    by_cases h : supports m.bits l = true
    · obtain ⟨k', hk', hr⟩ := (queryComputer_supports m l).1 h
      rw [hk'] at hk
      simp only [Except.ok.injEq] at hk
      rw [← hk]
      exact hr
    · rw [(queryComputer_supports m l).2 (by simpa using h)] at hk
      simp at hk
  refine ⟨hq, fun x r c hc => ?_, rfl, ?_⟩
  · rw [fused_eq] at hc
    split at hc
    · rename_i k hk
      unfold fusedArm at hc
      split at hc
      · simp at hc
      · simp at hc
      · simp only [Option.some.injEq, Except.ok.injEq] at hc
        rw [← hc]
        exact hq k hk
    · simp at hc
  · unfold queryComputer distanceComputer
    split
    · rename_i h
      rw [h]
    · rfl

/-! ## Buffers -/

/-- C126: the described buffer is exactly what is needed: a query is refused as malformed — when it is written and when it
is read — exactly when its buffer does not have the described size and alignment. -/
theorem C126_buffer (env : Env K) (m : Impl K) (l : Layout) (d : Nat × Nat) (hd : describe m l = .ok d) (b : Buf K) :
    (∀ x r, compressQuery env m x l r b = some (.error .notCanonical) ↔ ¬ Matches d b) ∧
      ∀ k, queryComputer m l = .ok k → ∀ y, (evaluate m k b y = .error .queryReify ↔ ¬ Matches d b) := by
  rw [describe_eq] at hd
  split at hd
  · rename_i k hk
    simp only [Except.ok.injEq] at hd
    have ha : accepts m.q.outDim k b = false ↔ ¬ Matches d b := by
      rw [← Bool.not_eq_true, accepts_iff, ← hd]
      rfl
    refine ⟨fun x r => ?_, fun k' hk' y => ?_⟩
    · rw [compressQuery_eq, hk, ← ha]
      exact compressArm_notCanonical _ _ _ _ _
    · rw [hk] at hk'
      simp only [Except.ok.injEq] at hk'
      subst hk'
      rw [← ha]
      unfold evaluate
      cases accepts m.q.outDim k b with
      | false => simp
      | true =>
        simp only [↓reduceIte, Bool.true_eq_false, iff_false]
        split
        · split <;> simp
        · simp
  · simp at hd

/-- C126: data vectors are refused exactly when they do not have the length `bytes`, at any address; that is also the
description of a query in the form of the data. -/
theorem C126_data (env : Env K) (m : Impl K) (b : Buf K) :
    describe m .sameAsData = .ok (bytes m, 1) ∧
    (∀ x, compressData env m x b = some (.error .notCanonical) ↔ b.len ≠ bytes m) ∧
    (∀ c : Fused K, c.evaluate m b = .error .xReify ↔ b.len ≠ bytes m) ∧
    (∀ k q, evaluate m k q b = .error .xReify → b.len ≠ bytes m) ∧
    (∀ k q, evaluate m k q b ≠ .error .queryReify → b.len ≠ bytes m → evaluate m k q b = .error .xReify) := by
  have ha : accepts m.q.outDim (.data m.bits) b = false ↔ b.len ≠ bytes m := by
    rw [← Bool.not_eq_true, accepts_iff]
    simp [Kind.align, Kind.size, bytes]
  refine ⟨?_, fun x => ?_, fun c => ?_, fun k q h => ?_, fun k q h hb => ?_⟩
  · rw [describe_eq, (C126_layout env m .sameAsData).2.2.2]
    rfl
  · rw [← ha]
    exact compressArm_notCanonical _ _ _ _ _
  · rw [← ha]
    unfold Fused.evaluate
    cases accepts m.q.outDim (.data m.bits) b with
    | false => simp
    | true =>
      simp only [↓reduceIte, Bool.true_eq_false, iff_false]
      split <;> simp
  · rw [← ha]
    unfold evaluate at h
    split at h
    · split at h
      · split at h <;> simp at h
      · rename_i hx
        simpa using hx
    · simp at h
  · rw [← ha] at hb
    unfold evaluate at h ⊢
    rw [hb] at h ⊢
    split
    · rfl
    · rename_i hc
      rw [if_neg hc] at h
      exact absurd rfl h

/-- C126: a distance between well-formed buffers is the distance of `Spherical/Model` (C92, C93) between what they hold,
with codes of the width of the data. -/
theorem C126_evaluate (m : Impl K) (l : Layout) (k : Kind) (hk : queryComputer m l = .ok k) (d : Nat × Nat)
    (hd : describe m l = .ok d) (q x : Buf K) (hq : Matches d q) (hx : x.len = bytes m) (y : Data K)
    (hy : x.reads (.data m.bits) = .data y) :
    (∀ a r, q.reads k = .data a → distData m.q m.bits a y = some r → evaluate m k q x = .ok (some r)) ∧
    (∀ u r, q.reads k = .query u → distQuery m.q m.bits u y = some r → evaluate m k q x = .ok r) ∧
    (∀ f r, q.reads k = .full f → distFull m.q m.bits f y = some r → evaluate m k q x = .ok (some r)) := by
  have hn : evaluate m k q x ≠ .error .queryReify := by
    intro h
    exact ((C126_buffer ⟨fun _ => 0, fun _ => none, fun _ _ => 0, 0, fun _ s _ => s⟩ m l d hd q).2 k hk x).1 h hq
  have ha : accepts m.q.outDim k q = true := by
    by_contra hc
    apply hn
    unfold evaluate
    rw [if_neg hc]
  have hb : accepts m.q.outDim (.data m.bits) x = true := by
    rw [accepts_iff]
    exact ⟨one_dvd _, hx⟩
  unfold evaluate
  rw [if_pos ha, if_pos hb, hy]
  refine ⟨fun a r h h' => ?_, fun a r h h' => ?_, fun a r h h' => ?_⟩ <;> simp only [h, dist, h', Option.map_some]

/-- C126: two well-formed arguments are never refused for unequal lengths. -/
theorem C126_no_unequal (m : Impl K) (l : Layout) (k : Kind) (hk : queryComputer m l = .ok k) (q x : Buf K)
    (hq : Shaped m.q.outDim q) (hx : Shaped m.q.outDim x) : evaluate m k q x ≠ .error .unequal := by
  obtain ⟨y, hy, hyl⟩ := hx.1 m.bits
  have hd : ∃ r, dist m (q.reads k) (x.reads (.data m.bits)) = some r := by
    rw [hy]
    cases k with
    | data n =>
      obtain ⟨a, e, el⟩ := hq.1 n
      rw [e]
      unfold dist distData l2Data ipData
      simp only [el, hyl]
      cases m.q.metric <;> exact ⟨_, rfl⟩
    | query n =>
      obtain ⟨a, e, el⟩ := hq.2.1 n
      rw [e]
      unfold dist distQuery l2Query ipQuery
      simp only [el, hyl]
      cases m.q.metric <;> exact ⟨_, rfl⟩
    | transposed =>
      obtain ⟨a, e, el⟩ := hq.2.2.1
      rw [e]
      unfold dist distQuery l2Query ipQuery
      simp only [el, hyl]
      cases m.q.metric <;> exact ⟨_, rfl⟩
    | full =>
      obtain ⟨a, e, el⟩ := hq.2.2.2
      rw [e]
      unfold dist distFull l2Full ipFull
      simp only [el, hyl]
      cases m.q.metric <;> exact ⟨_, rfl⟩
  obtain ⟨r, hr⟩ := hd
  unfold evaluate
  split
  · split
    · rw [hr]
      simp
    · simp
  · simp

/-- C126: what a successful compression leaves: a data vector with codes of the width, a query with four-bit codes in the
transposed form, with codes of the width in the scalar form, and in full precision; address and length stay. -/
theorem C126_contents (env : Env K) (m : Impl K) (l : Layout) (x : List (Option K)) (r : Bool) (b b' : Buf K)
    (h : compressQuery env m x l r b = some (.ok b')) :
    b'.addr = b.addr ∧ b'.len = b.len ∧
    (l = .sameAsData → ∃ v, b'.reads (.data m.bits) = .data v ∧
      compress env.norm env.f16 env.pick m.q m.bits (input env m x r) (b.reads (.data m.bits)).codes = some (.ok v)) ∧
    (l = .fourBitTransposed → ∃ u, b'.reads .transposed = .query u ∧
      Spherical.compressQuery env.norm env.top m.q 4 (input env m x r) (b.reads .transposed).codes = .ok u) ∧
    (l = .scalarQuantized → ∃ u, b'.reads (.query m.bits) = .query u ∧
      Spherical.compressQuery env.norm env.top m.q m.bits (input env m x r) (b.reads (.query m.bits)).codes = .ok u) ∧
    (l = .fullPrecision → ∃ f, b'.reads .full = .full f ∧
      compressFull env.norm m.q (input env m x r) m.q.outDim = .ok f) := by
  rw [compressQuery_eq] at h
  split at h
  · rename_i k hk
    unfold compressArm at h
    split at h
    · split at h
      · simp at h
      · simp at h
      · rename_i s hs
        simp only [Option.some.injEq, Except.ok.injEq] at h
        subst h
        have hw : (b.write env k s).reads k = s := by simp [Buf.write]
        refine ⟨rfl, rfl, ?_, ?_, ?_, ?_⟩
        · rintro rfl
          rw [(C126_layout env m .sameAsData).2.2.2] at hk
          simp only [Except.ok.injEq] at hk
          subst hk
          unfold distanceComputer at hs hw ⊢
          simp only [compressAs] at hs
          split at hs
          · simp at hs
          · simp at hs
          · rename_i v hv
            simp only [Option.some.injEq, Except.ok.injEq] at hs
            exact ⟨v, by rw [hw, hs], hv⟩
        · rintro rfl
          have : k = .transposed := by
            unfold queryComputer at hk
            split at hk <;> simp at hk
            exact hk.symm
          subst this
          simp only [compressAs] at hs
          split at hs
          · simp at hs
          · rename_i v hv
            simp only [Option.some.injEq, Except.ok.injEq] at hs
            exact ⟨v, by rw [hw, hs], hv⟩
        · rintro rfl
          have : k = .query m.bits := by
            unfold queryComputer at hk
            split at hk <;> simp at hk
            exact hk.symm
          subst this
          simp only [compressAs] at hs
          split at hs
          · simp at hs
          · rename_i v hv
            simp only [Option.some.injEq, Except.ok.injEq] at hs
            exact ⟨v, by rw [hw, hs], hv⟩
        · rintro rfl
          have : k = .full := by
            unfold queryComputer at hk
            split at hk <;> simp at hk <;> exact hk.symm
          subst this
          simp only [compressAs] at hs
          split at hs
          · simp at hs
          · rename_i v hv
            simp only [Option.some.injEq, Except.ok.injEq] at hs
            exact ⟨v, by rw [hw, hs], hv⟩
    · simp at h
  · simp at h

/-- C126: the same for data vectors. -/
theorem C126_data_contents (env : Env K) (m : Impl K) (x : List (Option K)) (b b' : Buf K)
    (h : compressData env m x b = some (.ok b')) :
    b'.addr = b.addr ∧ b'.len = b.len ∧ ∃ v, b'.reads (.data m.bits) = .data v ∧
      compress env.norm env.f16 env.pick m.q m.bits x (b.reads (.data m.bits)).codes = some (.ok v) := by
  have h' : compressQuery env m x .sameAsData false b = some (.ok b') := by
    rw [compressQuery_eq, (C126_layout env m .sameAsData).2.2.2]
    exact h
  obtain ⟨h1, h2, h3, _⟩ := C126_contents env m .sameAsData x false b b' h'
  exact ⟨h1, h2, h3 rfl⟩

/-! ## One step or two -/

/-- Two stored queries that every distance treats alike. -/
def Alike (m : Impl K) (a b : Stored K) : Prop := ∀ y, dist m a y = dist m b y

theorem alike_data (m : Impl K) (a b : List Nat) (h : a.length = b.length) :
    Alike m (.data ⟨a, Meta.zero⟩) (.data ⟨b, Meta.zero⟩) := by
  intro y
  cases y with
  | data y =>
    unfold dist distData l2Data ipData kernel Meta.zero
    simp only [h, zero_mul]
  | query _ => rfl
  | full _ => rfl

theorem alike_query (m : Impl K) (a b : List Nat) (h : a.length = b.length) :
    Alike m (.query ⟨a, 0, some 0, some 0, 0⟩) (.query ⟨b, 0, some 0, some 0, 0⟩) := by
  intro y
  cases y with
  | data y =>
    unfold dist distQuery l2Query ipQuery queryKernel
    simp only [h, mul_zero, zero_mul]
  | query _ => rfl
  | full _ => rfl

/-- What a compression leaves depends on the old codes only up to distances. -/
theorem compressAs_old (env : Env K) (m : Impl K) (k : Kind) (x : List (Option K)) (old old' : List Nat)
    (h : old.length = old'.length) :
    (compressAs env m k x old = none ∧ compressAs env m k x old' = none) ∨
    (∃ e, compressAs env m k x old = some (.error e) ∧ compressAs env m k x old' = some (.error e)) ∨
    ∃ s s', compressAs env m k x old = some (.ok s) ∧ compressAs env m k x old' = some (.ok s') ∧ Alike m s s' := by
  have hq : ∀ n, (∃ e, Spherical.compressQuery env.norm env.top m.q n x old = .error e ∧
      Spherical.compressQuery env.norm env.top m.q n x old' = .error e) ∨
      ∃ u u', Spherical.compressQuery env.norm env.top m.q n x old = .ok u ∧
        Spherical.compressQuery env.norm env.top m.q n x old' = .ok u' ∧ Alike m (.query u) (.query u') := by
    intro n
    unfold Spherical.compressQuery
    rw [h]
    split
    · rename_i e _
      exact .inl ⟨e, rfl, rfl⟩
    · split
      · exact .inl ⟨_, rfl, rfl⟩
      · rename_i v _
        refine .inr ⟨_, _, rfl, rfl, ?_⟩
        unfold compressQueryFinite
        split
        · exact alike_query m old old' h
        · exact fun _ => rfl
  have hd : ∀ n, compress env.norm env.f16 env.pick m.q n x old = compress env.norm env.f16 env.pick m.q n x old' ∨
      ∃ a b, compress env.norm env.f16 env.pick m.q n x old = some (.ok a) ∧
        compress env.norm env.f16 env.pick m.q n x old' = some (.ok b) ∧ Alike m (.data a) (.data b) := by
    intro n
    unfold compress
    rw [h]
    split
    · exact .inl rfl
    · split
      · exact .inl rfl
      · unfold compressFinite
        split
        · exact .inr ⟨_, _, rfl, rfl, alike_data m old old' h⟩
        · exact .inl rfl
  cases k with
  | data n =>
    unfold compressAs
    rcases hd n with e | ⟨a, b, e1, e2, e3⟩
    · simp only [e]
      generalize compress env.norm env.f16 env.pick m.q n x old' = r
      rcases r with _ | (e | d)
      · exact .inl ⟨rfl, rfl⟩
      · exact .inr (.inl ⟨_, rfl, rfl⟩)
      · exact .inr (.inr ⟨_, _, rfl, rfl, fun _ => rfl⟩)
    · simp only [e1, e2]
      exact .inr (.inr ⟨_, _, rfl, rfl, e3⟩)
  | full =>
    unfold compressAs
    simp only
    generalize compressFull env.norm m.q x m.q.outDim = r
    rcases r with e | d
    · exact .inr (.inl ⟨_, rfl, rfl⟩)
    · exact .inr (.inr ⟨_, _, rfl, rfl, fun _ => rfl⟩)
  | transposed =>
    unfold compressAs
    rcases hq Kind.transposed.codeBits with ⟨e, e1, e2⟩ | ⟨a, b, e1, e2, e3⟩
    · simp only [e1, e2]
      exact .inr (.inl ⟨_, rfl, rfl⟩)
    · simp only [e1, e2]
      exact .inr (.inr ⟨_, _, rfl, rfl, e3⟩)
  | query n =>
    unfold compressAs
    rcases hq (Kind.query n).codeBits with ⟨e, e1, e2⟩ | ⟨a, b, e1, e2, e3⟩
    · simp only [e1, e2]
      exact .inr (.inl ⟨_, rfl, rfl⟩)
    · simp only [e1, e2]
      exact .inr (.inr ⟨_, _, rfl, rfl, e3⟩)

theorem compressAs_full (env : Env K) (m : Impl K) (x : List (Option K)) (old old' : List Nat) :
    compressAs env m .full x old = compressAs env m .full x old' := rfl

/-- C126: compressing a query into a buffer of the described shape, whatever it held, and evaluating with the computer for
that form is the same as the fused computer: the same errors, and the same distance to every data vector. -/
theorem C126_fused (env : Env K) (m : Impl K) (l : Layout) (d : Nat × Nat) (hd : describe m l = .ok d) (b : Buf K)
    (hb : Matches d b) (hs : Shaped m.q.outDim b) (x : List (Option K)) (r : Bool) :
    (compressQuery env m x l r b = none ↔ fusedQueryComputer env m x l r = none) ∧
    (∀ e, compressQuery env m x l r b = some (.error e) ↔ fusedQueryComputer env m x l r = some (.error e)) ∧
    (∀ c, fusedQueryComputer env m x l r = some (.ok c) → ∃ b' k, compressQuery env m x l r b = some (.ok b') ∧
      Matches d b' ∧ queryComputer m l = .ok k ∧ ∀ y, evaluate m k b' y = c.evaluate m y) := by
  rw [describe_eq] at hd
  split at hd
  · rename_i k hk
    simp only [Except.ok.injEq] at hd
    have ha : accepts m.q.outDim k b = true := by
      rw [accepts_iff]
      rw [← hd] at hb
      exact hb
    rw [compressQuery_eq, fused_eq, hk]
    simp only
    unfold compressArm fusedArm
    rw [if_pos ha]
    have hcase : (compressAs env m k (input env m x r) (b.reads k).codes = none ∧
        compressAs env m k (input env m x r) (List.replicate m.q.outDim 0) = none) ∨
      (∃ e, compressAs env m k (input env m x r) (b.reads k).codes = some (.error e) ∧
        compressAs env m k (input env m x r) (List.replicate m.q.outDim 0) = some (.error e)) ∨
      ∃ s s', compressAs env m k (input env m x r) (b.reads k).codes = some (.ok s) ∧
        compressAs env m k (input env m x r) (List.replicate m.q.outDim 0) = some (.ok s') ∧ Alike m s s' := by
      cases k with
      | full =>
        rw [compressAs_full env m _ (b.reads .full).codes (List.replicate m.q.outDim 0)]
        exact compressAs_old env m .full _ _ _ rfl
      | data n =>
        apply compressAs_old
        obtain ⟨a, e, el⟩ := hs.1 n
        rw [e]
        simpa [Stored.codes] using el
      | query n =>
        apply compressAs_old
        obtain ⟨a, e, el⟩ := hs.2.1 n
        rw [e]
        simpa [Stored.codes] using el
      | transposed =>
        apply compressAs_old
        obtain ⟨a, e, el⟩ := hs.2.2.1
        rw [e]
        simpa [Stored.codes] using el
    rcases hcase with ⟨e1, e2⟩ | ⟨e, e1, e2⟩ | ⟨s, s', e1, e2, e3⟩
    · simp only [e1, e2]
      exact ⟨by simp, by simp, by simp⟩
    · simp only [e1, e2]
      exact ⟨by simp, fun e' => by simp, by simp⟩
    · simp only [e1, e2]
      refine ⟨by simp, by simp, ?_⟩
      intro c hc
      simp only [Option.some.injEq, Except.ok.injEq] at hc
      subst hc
      refine ⟨_, k, rfl, hb, rfl, fun y => ?_⟩
      have ha' : accepts m.q.outDim k (b.write env k s) = true := by
        rw [accepts_iff] at ha ⊢
        exact ha
      unfold evaluate Fused.evaluate
      rw [if_pos ha']
      have : (b.write env k s).reads k = s := by simp [Buf.write]
      rw [this, e3]
  · simp at hd

/-! ## Rescaling -/

/-- C126: rescaling is only for inner products. -/
theorem C126_rescale_ignored (env : Env K) (m : Impl K) (hm : m.q.metric ≠ .innerProduct) (x : List (Option K)) (l : Layout)
    (b : Buf K) : compressQuery env m x l true b = compressQuery env m x l false b ∧
      fusedQueryComputer env m x l true = fusedQueryComputer env m x l false := by
  have : (m.q.metric == Metric.innerProduct) = false := by simpa using hm
  unfold compressQuery fusedQueryComputer
  simp [this]

theorem finite_map (x : List K) : finite (x.map some) = some x := by
  induction x with
  | nil => rfl
  | cons a x ih => simp [finite, ih]

/-- C126: for inner products it scales the query to the mean norm of the training data. -/
theorem C126_rescale_partial (env : Env K) (m : Impl K) (hm : m.q.metric = .innerProduct) (x : List K) (hx : env.norm x ≠ 0)
    (l : Layout) (b : Buf K) :
    compressQuery env m (x.map some) l true b =
        compressQuery env m (x.map (fun a => some (m.q.meanNorm / env.norm x * a))) l false b ∧
      fusedQueryComputer env m (x.map some) l true =
        fusedQueryComputer env m (x.map (fun a => some (m.q.meanNorm / env.norm x * a))) l false := by
  unfold compressQuery fusedQueryComputer rescale
  simp [hm, finite_map, hx]

theorem finite_none (x : List K) (h : x ≠ []) : finite (x.map (fun _ => (none : Option K))) = none := by
  cases x with
  | nil => exact absurd rfl h
  | cons a x => rfl

/-- C126 (refuted: a vector without NaN is compressed): with rescaling, the zero query is refused for containing a NaN, in
every supported form; the same query without rescaling is accepted in full precision. -/
theorem C126_zero_query_refuted (env : Env K) (m : Impl K) (hm : m.q.metric = .innerProduct) (hn : m.q.shift ≠ [])
    (h0 : env.norm (List.replicate m.q.shift.length 0) = 0) (l : Layout) (hl : supports m.bits l = true) :
    fusedQueryComputer env m (List.replicate m.q.shift.length (some 0)) l true = some (.error (.compression .nan)) ∧
      ∃ c, fusedQueryComputer env m (List.replicate m.q.shift.length (some 0)) .fullPrecision false = some (.ok c) := by
  have hlen : 0 < m.q.shift.length := List.length_pos_iff.2 hn
  have hrep : (List.replicate m.q.shift.length (some (0 : K))) = (List.replicate m.q.shift.length 0).map some := by simp
  constructor
  · obtain ⟨k, hk, _⟩ := (queryComputer_supports m l).1 hl
    rw [fused_eq, hk]
    have hin : input env m (List.replicate m.q.shift.length (some 0)) true = List.replicate m.q.shift.length none := by
      unfold input rescale
      rw [hrep, finite_map]
      simp [hm, h0]
    have hfin : finite (List.replicate m.q.shift.length (none : Option K)) = none := by
      obtain ⟨n, hn⟩ : ∃ n, m.q.shift.length = n + 1 := ⟨m.q.shift.length - 1, by omega⟩
      rw [hn, List.replicate_succ]
      rfl
    rw [hin]
    have hcd : checkDims m.q m.q.shift.length m.q.outDim = none := by simp [checkDims]
    simp only
    unfold fusedArm compressAs
    cases k <;>
      simp [compress, compressFull, Spherical.compressQuery, hcd, hfin]
  · have hk : queryComputer m .fullPrecision = .ok .full := by
      unfold queryComputer
      split <;> rfl
    have hcd : checkDims m.q m.q.shift.length m.q.outDim = none := by simp [checkDims]
    rw [fused_eq, hk]
    have hin : input env m (List.replicate m.q.shift.length (some 0)) false =
        (List.replicate m.q.shift.length 0).map some := by
      unfold input
      simp
    rw [hin]
    simp only
    unfold fusedArm compressAs compressFull
    simp only [List.length_map, List.length_replicate, hcd, finite_map]
    exact ⟨_, rfl⟩

/-! ## Mistaking one form for another -/

theorem size_data (m : Impl K) (hf : m.Fits) (hb : m.bits ≤ 8) (b : Nat) (hbb : b ≤ 8) :
    (Kind.data b).size m.q.outDim = 6 + codeBytes b m.q.outDim := by
  have : b * m.q.outDim ≤ 8 * m.q.outDim := Nat.mul_le_mul_right _ hbb
  unfold Impl.Fits at hf
  exact canonicalBytes_eq (by omega) (by decide)

theorem size_query (m : Impl K) (hf : m.Fits) (b : Nat) (hbb : b ≤ 8) :
    (Kind.query b).size m.q.outDim = 16 + codeBytes b m.q.outDim := by
  have : b * m.q.outDim ≤ 8 * m.q.outDim := Nat.mul_le_mul_right _ hbb
  unfold Impl.Fits at hf
  exact canonicalBytes_eq (by omega) (by decide)

theorem size_full (m : Impl K) (hf : m.Fits) : Kind.full.size m.q.outDim = 12 + 4 * m.q.outDim := by
  unfold Impl.Fits at hf
  have hmb : metadataBytes f32Ty fullMeta = 12 := by decide
  show (metadataBytes f32Ty fullMeta + 4 * m.q.outDim % usizeMod) % usizeMod = _
  unfold usizeMod
  rw [hmb, Nat.mod_eq_of_lt (a := 4 * m.q.outDim) (by omega), Nat.mod_eq_of_lt (by omega)]

theorem size_transposed (m : Impl K) (hf : m.Fits) :
    Kind.transposed.size m.q.outDim = 16 + 32 * ((m.q.outDim + 63) / 64) := by
  unfold Impl.Fits at hf
  have hr : divRoundUp m.q.outDim 64 = (m.q.outDim + 63) / 64 := by
    unfold divRoundUp
    split <;> omega
  show (32 * divRoundUp m.q.outDim 64 % usizeMod + 16) % usizeMod = _
  unfold usizeMod
  rw [hr, Nat.mod_eq_of_lt (a := 32 * ((m.q.outDim + 63) / 64)) (by omega), Nat.mod_eq_of_lt (by omega), Nat.add_comm]

/-- C126: a query compressed in one form is always refused by a computer for another form, except for one bit per
dimension and nine dimensions, between the transposed and the full-precision form. -/
theorem C126_confusion_partial (m : Impl K) (hv : m.Valid) (hf : m.Fits) (l l' : Layout) (hll : l ≠ l') (d d' : Nat × Nat)
    (hd : describe m l = .ok d) (hd' : describe m l' = .ok d') :
    d.1 = d'.1 ↔ m.bits = 1 ∧ m.q.outDim = 9 ∧
      ((l = .fourBitTransposed ∧ l' = .fullPrecision) ∨ (l = .fullPrecision ∧ l' = .fourBitTransposed)) := by
  have hb : m.bits ≤ 8 := by rcases hv with h | h | h | h <;> omega
  have s1 := size_data m hf hb m.bits hb
  have s2 := size_query m hf m.bits hb
  have s3 := size_full m hf
  have s4 := size_transposed m hf
  have s5 := size_data m hf hb 1 (by omega)
  unfold codeBytes at s1 s2 s5
  rw [describe_eq] at hd hd'
  unfold queryComputer at hd hd'
  rcases hv with h | h | h | h <;> rw [h] at s1 s2 <;>
    simp only [h, ↓reduceIte, show ¬ (2 : Nat) = 1 by decide, show ¬ (4 : Nat) = 1 by decide,
      show ¬ (8 : Nat) = 1 by decide] at hd hd' ⊢ <;>
    cases l <;> cases l' <;>
    first
      | exact absurd rfl hll
      | (simp at hd; done)
      | (simp at hd'; done)
      | (simp only [Except.ok.injEq] at hd hd'
         subst hd
         subst hd'
         simp only [s1, s2, s3, s4, s5, reduceCtorEq, and_false, false_and, or_false, false_or, and_true, true_and, or_self,
           iff_false]
         omega)

/-- C126 (refuted: a query in another form is refused): with one bit and nine dimensions a query compressed in the
transposed form is accepted by the computer for full precision. -/
theorem C126_confusion_refuted (m : Impl K) (hb : m.bits = 1) (hdim : m.q.outDim = 9) (b : Buf K) (hal : 4 ∣ b.addr)
    (d : Nat × Nat) (hd : describe m .fourBitTransposed = .ok d) (hm : Matches d b) :
    ∃ k, queryComputer m .fullPrecision = .ok k ∧ ∀ y, evaluate m k b y ≠ .error .queryReify := by
  have hf : m.Fits := by unfold Impl.Fits; omega
  have hv : m.Valid := .inl hb
  have hk : queryComputer m .fullPrecision = .ok .full := by
    unfold queryComputer
    split <;> rfl
  refine ⟨.full, hk, fun y hc => ?_⟩
  obtain ⟨d', hd'⟩ : ∃ d', describe m .fullPrecision = .ok d' := by
    rw [describe_eq, hk]
    exact ⟨_, rfl⟩
  have hs := (C126_confusion_partial m hv hf .fourBitTransposed .fullPrecision (by simp) d d' hd hd').2
    ⟨hb, hdim, .inl ⟨rfl, rfl⟩⟩
  have := ((C126_buffer ⟨fun _ => 0, fun _ => none, fun _ _ => 0, 0, fun _ s _ => s⟩ m .fullPrecision d' hd' b).2 .full hk y).1 hc
  apply this
  refine ⟨?_, by rw [hm.2, hs]⟩
  rw [describe_eq, hk] at hd'
  simp only [Except.ok.injEq] at hd'
  rw [← hd']
  exact hal

/-! ## Serialization -/

/-- C126: a serialized quantizer is read back with the same width, by the general function and by the one for its width. -/
theorem C126_round_trip {P E : Type} (pack : Quantizer K → P) (unpack : P → Except E (Quantizer K))
    (hp : ∀ q, unpack (pack q) = .ok q) (m : Impl K) (hv : m.Valid) :
    tryDeserialize unpack (serialize pack m) = .ok m ∧ tryDeserializeAs unpack m.bits (serialize pack m) = .ok m := by
  obtain ⟨q, bits⟩ := m
  unfold Impl.Valid at hv
  simp only at hv
  constructor
  · rcases hv with h | h | h | h <;> subst h <;> simp [tryDeserialize, serialize, unpackBits, hp]
  · simp [tryDeserializeAs, serialize, unpackBits, hp]

/-- C126: what is read has a supported width, namely the one in the file; another width is an error. -/
theorem C126_deserialize_width {P E : Type} (unpack : P → Except E (Quantizer K)) (f : File P) (m : Impl K) :
    (tryDeserialize unpack f = .ok m → m.Valid ∧ f.identifier = true ∧ ∃ p, f.root = some (m.bits, p)) ∧
    (∀ bits, tryDeserializeAs unpack bits f = .ok m → m.bits = bits ∧ f.identifier = true ∧ ∃ p, f.root = some (bits, p)) := by
  have hu : ∀ bits p, unpackBits unpack bits p = .ok m → m.bits = bits := by
    intro bits p h
    unfold unpackBits at h
    split at h
    · simp at h
    · simp only [Except.ok.injEq] at h
      rw [← h]
  constructor
  · intro h
    unfold tryDeserialize at h
    split at h
    · simp at h
    · rename_i hi
      have hi' : f.identifier = true := by simpa using hi
      split at h
      · simp at h
      · rename_i p hr
        have := hu _ _ h
        exact ⟨.inl this, hi', p, by rw [hr, this]⟩
      · rename_i p hr
        have := hu _ _ h
        exact ⟨.inr (.inl this), hi', p, by rw [hr, this]⟩
      · rename_i p hr
        have := hu _ _ h
        exact ⟨.inr (.inr (.inl this)), hi', p, by rw [hr, this]⟩
      · rename_i p hr
        have := hu _ _ h
        exact ⟨.inr (.inr (.inr this)), hi', p, by rw [hr, this]⟩
      · simp at h
  · intro bits h
    unfold tryDeserializeAs at h
    split at h
    · simp at h
    · rename_i hi
      split at h
      · simp at h
      · rename_i n p hr
        split at h
        · rename_i hn
          exact ⟨hu _ _ h, by simpa using hi, p, by rw [hr, hn]⟩
        · simp at h

/-- C126: which error a file gets. -/
theorem C126_deserialize_errors {P E : Type} (unpack : P → Except E (Quantizer K)) (f : File P) :
    (f.identifier = false → tryDeserialize unpack f = .error .invalidIdentifier ∧
      ∀ bits, tryDeserializeAs unpack bits f = .error .invalidIdentifier) ∧
    (f.identifier = true → f.root = none → tryDeserialize unpack f = .error .invalidFlatBuffer ∧
      ∀ bits, tryDeserializeAs unpack bits f = .error .invalidFlatBuffer) ∧
    (∀ n p, f.identifier = true → f.root = some (n, p) →
      (n ≠ 1 → n ≠ 2 → n ≠ 4 → n ≠ 8 → tryDeserialize unpack f = .error (.unsupportedBitWidth n)) ∧
      (∀ bits, bits ≠ n → tryDeserializeAs unpack bits f = .error (.unsupportedBitWidth n)) ∧
      ∀ e, unpack p = .error e → tryDeserializeAs unpack n f = .error (.invalidQuantizer e) ∧
        (n = 1 ∨ n = 2 ∨ n = 4 ∨ n = 8 → tryDeserialize unpack f = .error (.invalidQuantizer e))) := by
  refine ⟨fun h => ?_, fun h hr => ?_, fun n p h hr => ⟨fun h1 h2 h4 h8 => ?_, fun bits hb => ?_, fun e he => ⟨?_, fun hn => ?_⟩⟩⟩
  · simp [tryDeserialize, tryDeserializeAs, h]
  · simp [tryDeserialize, tryDeserializeAs, h, hr]
  · unfold tryDeserialize
    rw [h, hr]
    simp only [Bool.not_true, Bool.false_eq_true, ↓reduceIte]
  · have : ¬ n = bits := fun e => hb e.symm
    simp [tryDeserializeAs, h, hr, this]
  · simp [tryDeserializeAs, h, hr, unpackBits, he]
  · unfold tryDeserialize
    rw [h, hr]
    rcases hn with rfl | rfl | rfl | rfl <;> simp [unpackBits, he]

end

/-! ## Concrete cases -/

/-- Two bits, inner product, two dimensions around the origin. -/
def exImpl : Impl Rat := ⟨plain 2 .innerProduct 1, 2⟩

def exEnv : Env Rat := ⟨ratNorm, some, firstLeast, 1000, fun _ s _ => s⟩

def exBuf (addr len : Nat) : Buf Rat :=
  ⟨addr, len, fun k => match k with
    | .data _ => .data ⟨[0, 0], Meta.zero⟩
    | .transposed => .query ⟨[0, 0], 0, some 0, some 0, 0⟩
    | .query _ => .query ⟨[0, 0], 0, some 0, some 0, 0⟩
    | .full => .full ⟨[0, 0], 0, 0, 0⟩⟩

example : exImpl.Valid ∧ exImpl.Fits := ⟨.inr (.inl rfl), by unfold Impl.Fits; decide⟩

example (a n : Nat) : Shaped 2 (exBuf a n) := ⟨fun _ => ⟨_, rfl, rfl⟩, fun _ => ⟨_, rfl, rfl⟩, ⟨_, rfl, rfl⟩, _, rfl, rfl⟩

/-- One byte of codes and the metadata; four bytes for each component. -/
example : describe exImpl .scalarQuantized = .ok (17, 1) ∧ describe exImpl .fullPrecision = .ok (20, 4) ∧
    describe exImpl .fourBitTransposed = .error (.unsupported .fourBitTransposed) ∧ bytes exImpl = 7 :=
  ⟨rfl, rfl, rfl, rfl⟩

example : Matches (20, 4) (exBuf 64 20) ∧ ¬ Matches (20, 4) (exBuf 66 20) := by
  constructor
  · exact ⟨by decide, rfl⟩
  · rintro ⟨h, _⟩
    exact absurd h (by decide)

/-- The full-precision form of a query of norm five, with rescaling to the mean norm one. -/
example : ∃ c, fusedQueryComputer exEnv exImpl [some 3, some 4] .fullPrecision true = some (.ok c) := by
  obtain ⟨_, h⟩ := C126_rescale_partial exEnv exImpl rfl [3, 4] (by decide +kernel) .fullPrecision (exBuf 0 0)
  have h2 : fusedQueryComputer exEnv exImpl [some 3, some 4] .fullPrecision true =
    fusedQueryComputer exEnv exImpl ([3, 4].map some) .fullPrecision true := rfl
  rw [h2, h]
  exact ⟨_, rfl⟩

/-- The hypotheses of the refutation of the zero query. -/
example : exEnv.norm (List.replicate exImpl.q.shift.length 0) = 0 ∧ exImpl.q.shift ≠ [] ∧
    supports exImpl.bits .scalarQuantized = true := by
  refine ⟨by decide +kernel, by simp [exImpl, plain], rfl⟩

/-- Nine dimensions, one bit. -/
example : describe (⟨plain 9 .squaredL2 1, 1⟩ : Impl Rat) .fourBitTransposed = .ok (48, 1) ∧
    describe (⟨plain 9 .squaredL2 1, 1⟩ : Impl Rat) .fullPrecision = .ok (48, 4) := ⟨rfl, rfl⟩

end Verif.Spherical.Iface
