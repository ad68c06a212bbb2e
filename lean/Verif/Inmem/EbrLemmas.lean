import Verif.Inmem.EbrModel
import Mathlib.Tactic.Common

/-! # Invariants of the concurrent store -/

namespace Verif.Inmem

theorem upd_apply {α : Type} (f : Nat → α) (k : Nat) (v : α) (x : Nat) :
    upd f k v x = if x = k then v else f x := rfl

@[simp] theorem upd_self {α : Type} (f : Nat → α) (k : Nat) (v : α) : upd f k v k = v := by
  simp [upd]

theorem upd_ne {α : Type} {f : Nat → α} {k : Nat} {v : α} {x : Nat} (h : x ≠ k) : upd f k v x = f x := by
  simp [upd, h]

/-- Registration slot occupied by an actor. -/
def slotOf : PC → Option Nat
  | .gCheck _ j _ _ => some j
  | .gStore _ j _ => some j
  | .reader j _ _ => some j
  | .rCas _ _ j _ => some j
  | .rMirror _ j _ => some j
  | .rPush _ j _ => some j
  | .rDrop j => some j
  | _ => none

/-- Actors whose guard epoch is settled: slot and epoch. -/
def heldAt : PC → Option (Nat × Nat)
  | .gStore _ j e => some (j, e)
  | .reader j e _ => some (j, e)
  | .rCas _ _ j e => some (j, e)
  | .rMirror _ j e => some (j, e)
  | .rPush _ j e => some (j, e)
  | _ => none

/-- Actors inside `try_advance`/`try_drain`. -/
def advancing : PC → Bool
  | .aEpoch => true
  | .aScan _ _ _ => true
  | .aInc _ => true
  | .aDrain _ => true
  | .aMirror _ _ => true
  | .aTag _ _ => true
  | .panicked => true
  | _ => false

/-- Actors draining a queue. -/
def drainingQ : PC → Option Nat
  | .aDrain q => some q
  | .aMirror q _ => some q
  | .aTag q _ => some q
  | _ => none

theorem lastQueue_eq (c : Nat) (h : c < 2 ^ 64) : lastQueue c = (c + 2) % 4 := by
  unfold lastQueue queueOf; omega

/-- The registry part of the invariant. -/
structure InvE (cfg : Config) (s : State) : Prop where
  ep1 : 1 ≤ s.epoch
  epMax : s.epoch ≤ 2 ^ 64 - 1
  loaded : ∀ a p e, s.pcs a = .gLoaded p e → 1 ≤ e ∧ e ≤ s.epoch
  check : ∀ a p j e r, s.pcs a = .gCheck p j e r → s.guards j ≤ e ∧ e ≤ s.epoch
  heldE : ∀ a j e, heldAt (s.pcs a) = some (j, e) → s.guards j ≤ e ∧ e ≤ s.epoch ∧ s.epoch ≤ e + 1
  slotNZ : ∀ a j, slotOf (s.pcs a) = some j → j < cfg.guardSlots ∧ s.guards j ≠ 0
  slotUniq : ∀ a b j, slotOf (s.pcs a) = some j → slotOf (s.pcs b) = some j → a = b
  slotBack : ∀ j, s.guards j ≠ 0 → ∃ a, slotOf (s.pcs a) = some j
  lockIff : ∀ a, s.lock = some a ↔ advancing (s.pcs a) = true
  scan : ∀ a cur k m, s.pcs a = .aScan cur k m → cur = s.epoch ∧ m ≤ cur ∧
    ∀ b j e, heldAt (s.pcs b) = some (j, e) → j < k → m ≤ e
  inc : ∀ a cur, s.pcs a = .aInc cur → cur = s.epoch ∧ cur < 2 ^ 64 - 1 ∧
    ∀ b j e, heldAt (s.pcs b) = some (j, e) → cur ≤ e
  drain : ∀ a q, drainingQ (s.pcs a) = some q → 2 ≤ s.epoch ∧ q = (s.epoch + 1) % 4

theorem heldAt_slot {pc : PC} {j e : Nat} (h : heldAt pc = some (j, e)) : slotOf pc = some j := by
  cases pc <;> simp_all [heldAt, slotOf]

theorem init_invE (cfg : Config) (data : Nat → Nat) : InvE cfg (State.init cfg data) := by
  constructor <;> simp [State.init, heldAt, slotOf, advancing, drainingQ]

/-- Local steps: only the actor's program counter changes, and it keeps its registration slot and lock. -/
theorem InvE.frame {cfg : Config} {s : State} (h : InvE cfg s) (a : Nat) (pc' : PC)
    (hl : ∀ p e, pc' = .gLoaded p e → 1 ≤ e ∧ e ≤ s.epoch)
    (hc : ∀ p j e r, pc' = .gCheck p j e r → s.guards j ≤ e ∧ e ≤ s.epoch)
    (hh : ∀ j e, heldAt pc' = some (j, e) → heldAt (s.pcs a) = some (j, e) ∨ (s.guards j ≤ e ∧ e = s.epoch))
    (hs : slotOf pc' = slotOf (s.pcs a)) (ha : advancing pc' = advancing (s.pcs a))
    (hsc : ∀ cur k m, pc' = .aScan cur k m → cur = s.epoch ∧ m ≤ cur ∧
      ∀ b j e, heldAt (s.pcs b) = some (j, e) → j < k → m ≤ e)
    (hi : ∀ cur, pc' = .aInc cur → cur = s.epoch ∧ cur < 2 ^ 64 - 1 ∧
      ∀ b j e, heldAt (s.pcs b) = some (j, e) → cur ≤ e)
    (hd : ∀ q, drainingQ pc' = some q → drainingQ (s.pcs a) = some q)
    (t m d : Nat → Nat) (q : Nat → List Nat) :
    InvE cfg { s with pcs := upd s.pcs a pc', tags := t, mirror := m, queues := q, data := d } := by
  have hheld : ∀ b j e, heldAt (upd s.pcs a pc' b) = some (j, e) →
      heldAt (s.pcs b) = some (j, e) ∨ (b = a ∧ s.guards j ≤ e ∧ e = s.epoch) := by
    intro b j e hb
    rcases eq_or_ne b a with rfl | hne
    · rw [upd_self] at hb
      rcases hh j e hb with h | h
      · exact Or.inl h
      · exact Or.inr ⟨rfl, h⟩
    · rw [upd_ne hne] at hb; exact Or.inl hb
  have hslot : ∀ b, slotOf (upd s.pcs a pc' b) = slotOf (s.pcs b) := by
    intro b
    rcases eq_or_ne b a with rfl | hne
    · rw [upd_self, hs]
    · rw [upd_ne hne]
  constructor <;> simp only
  · exact h.ep1
  · exact h.epMax
  · intro b p e hb
    rcases eq_or_ne b a with rfl | hne
    · rw [upd_self] at hb; exact hl p e hb
    · rw [upd_ne hne] at hb; exact h.loaded b p e hb
  · intro b p j e r hb
    rcases eq_or_ne b a with rfl | hne
    · rw [upd_self] at hb; exact hc p j e r hb
    · rw [upd_ne hne] at hb; exact h.check b p j e r hb
  · intro b j e hb
    rcases hheld b j e hb with hb | ⟨-, h1, h2⟩
    · exact h.heldE b j e hb
    · omega
  · intro b j hb
    rw [hslot] at hb; exact h.slotNZ b j hb
  · intro b c j hb hc
    rw [hslot] at hb hc; exact h.slotUniq b c j hb hc
  · intro j hj
    obtain ⟨b, hb⟩ := h.slotBack j hj
    exact ⟨b, by rw [hslot]; exact hb⟩
  · intro b
    rw [h.lockIff b]
    rcases eq_or_ne b a with rfl | hne
    · rw [upd_self, ha]
    · rw [upd_ne hne]
  · intro b cur k m hb
    have h2 : cur = s.epoch ∧ m ≤ cur ∧ ∀ b j e, heldAt (s.pcs b) = some (j, e) → j < k → m ≤ e := by
      rcases eq_or_ne b a with rfl | hne
      · rw [upd_self] at hb; exact hsc cur k m hb
      · rw [upd_ne hne] at hb; exact h.scan b cur k m hb
    refine ⟨h2.1, h2.2.1, ?_⟩
    intro c j e hc hjk
    rcases hheld c j e hc with hc | ⟨-, h3, h4⟩
    · exact h2.2.2 c j e hc hjk
    · omega
  · intro b cur hb
    have h2 : cur = s.epoch ∧ cur < 2 ^ 64 - 1 ∧ ∀ b j e, heldAt (s.pcs b) = some (j, e) → cur ≤ e := by
      rcases eq_or_ne b a with rfl | hne
      · rw [upd_self] at hb; exact hi cur hb
      · rw [upd_ne hne] at hb; exact h.inc b cur hb
    refine ⟨h2.1, h2.2.1, ?_⟩
    intro c j e hc
    rcases hheld c j e hc with hc | ⟨-, h3, h4⟩
    · exact h2.2.2 c j e hc
    · omega
  · intro b q hb
    rcases eq_or_ne b a with rfl | hne
    · rw [upd_self] at hb; exact h.drain b q (hd q hb)
    · rw [upd_ne hne] at hb; exact h.drain b q hb

/-- Leaving the registry: the actor frees its registration slot and no longer holds a guard. -/
theorem InvE.release {cfg : Config} {s : State} (h : InvE cfg s) (a j : Nat)
    (hs : slotOf (s.pcs a) = some j) (ha : advancing (s.pcs a) = false) :
    InvE cfg { s with guards := upd s.guards j 0, pcs := upd s.pcs a .idle } := by
  have hheld : ∀ b j' e, heldAt (upd s.pcs a .idle b) = some (j', e) →
      heldAt (s.pcs b) = some (j', e) ∧ j' ≠ j := by
    intro b j' e hb
    rcases eq_or_ne b a with rfl | hne
    · rw [upd_self] at hb; cases hb
    · rw [upd_ne hne] at hb
      refine ⟨hb, ?_⟩
      rintro rfl
      exact hne (h.slotUniq b a _ (heldAt_slot hb) hs)
  have hslot : ∀ b j', slotOf (upd s.pcs a .idle b) = some j' → slotOf (s.pcs b) = some j' ∧ j' ≠ j := by
    intro b j' hb
    rcases eq_or_ne b a with rfl | hne
    · rw [upd_self] at hb; cases hb
    · rw [upd_ne hne] at hb
      refine ⟨hb, ?_⟩
      rintro rfl
      exact hne (h.slotUniq b a _ hb hs)
  have hother : ∀ b pc, upd s.pcs a .idle b = pc → pc ≠ .idle → s.pcs b = pc ∧ b ≠ a := by
    intro b pc hb hpc
    rcases eq_or_ne b a with rfl | hne
    · rw [upd_self] at hb; exact absurd hb.symm hpc
    · rw [upd_ne hne] at hb; exact ⟨hb, hne⟩
  constructor <;> simp only
  · exact h.ep1
  · exact h.epMax
  · intro b p e hb
    exact h.loaded b p e (hother b _ hb (by simp)).1
  · intro b p j' e r hb
    obtain ⟨h1, h2⟩ := hother b _ hb (by simp)
    have hsl : slotOf (s.pcs b) = some j' := by rw [h1]; rfl
    have : j' ≠ j := by
      rintro rfl; exact h2 (h.slotUniq b a _ hsl hs)
    rw [upd_ne this]
    exact h.check b p j' e r h1
  · intro b j' e hb
    obtain ⟨h1, h2⟩ := hheld b j' e hb
    rw [upd_ne h2]; exact h.heldE b j' e h1
  · intro b j' hb
    obtain ⟨h1, h2⟩ := hslot b j' hb
    rw [upd_ne h2]; exact h.slotNZ b j' h1
  · intro b c j' hb hc
    exact h.slotUniq b c j' (hslot b j' hb).1 (hslot c j' hc).1
  · intro j' hj
    rcases eq_or_ne j' j with rfl | hne
    · rw [upd_self] at hj; exact absurd rfl hj
    · rw [upd_ne hne] at hj
      obtain ⟨b, hb⟩ := h.slotBack j' hj
      refine ⟨b, ?_⟩
      rw [upd_ne]; · exact hb
      rintro rfl
      rw [hs] at hb; exact hne (Option.some.inj hb).symm
  · intro b
    rw [h.lockIff b]
    rcases eq_or_ne b a with rfl | hne
    · rw [upd_self, ha]; rfl
    · rw [upd_ne hne]
  · intro b cur k m hb
    have h2 := h.scan b cur k m (hother b _ hb (by simp)).1
    exact ⟨h2.1, h2.2.1, fun c j' e hc => h2.2.2 c j' e (hheld c j' e hc).1⟩
  · intro b cur hb
    have h2 := h.inc b cur (hother b _ hb (by simp)).1
    exact ⟨h2.1, h2.2.1, fun c j' e hc => h2.2.2 c j' e (hheld c j' e hc).1⟩
  · intro b q hb
    rcases eq_or_ne b a with rfl | hne
    · rw [upd_self] at hb; cases hb
    · rw [upd_ne hne] at hb; exact h.drain b q hb

/-- The registration CAS. -/
theorem InvE.register {cfg : Config} {s : State} (h : InvE cfg s) (a j : Nat) (p : Purpose) (e : Nat)
    (hpc : s.pcs a = .gLoaded p e) (hj : j < cfg.guardSlots) (h0 : s.guards j = 0) :
    InvE cfg { s with guards := upd s.guards j e, pcs := upd s.pcs a (.gCheck p j e false) } := by
  obtain ⟨he1, he2⟩ := h.loaded a p e hpc
  have hnone : ∀ b, slotOf (s.pcs b) ≠ some j := fun b hb => (h.slotNZ b j hb).2 h0
  have hheld : ∀ b j' e', heldAt (upd s.pcs a (.gCheck p j e false) b) = some (j', e') →
      heldAt (s.pcs b) = some (j', e') ∧ j' ≠ j := by
    intro b j' e' hb
    rcases eq_or_ne b a with rfl | hne
    · rw [upd_self] at hb; cases hb
    · rw [upd_ne hne] at hb
      refine ⟨hb, ?_⟩
      rintro rfl
      exact hnone b (heldAt_slot hb)
  have hslot : ∀ b j', slotOf (upd s.pcs a (.gCheck p j e false) b) = some j' →
      (b = a ∧ j' = j) ∨ (slotOf (s.pcs b) = some j' ∧ j' ≠ j) := by
    intro b j' hb
    rcases eq_or_ne b a with rfl | hne
    · rw [upd_self] at hb; left; exact ⟨rfl, (Option.some.inj hb).symm⟩
    · rw [upd_ne hne] at hb
      right
      refine ⟨hb, ?_⟩
      rintro rfl
      exact hnone b hb
  constructor <;> simp only
  · exact h.ep1
  · exact h.epMax
  · intro b p' e' hb
    rcases eq_or_ne b a with rfl | hne
    · rw [upd_self] at hb; cases hb
    · rw [upd_ne hne] at hb; exact h.loaded b p' e' hb
  · intro b p' j' e' r hb
    rcases eq_or_ne b a with rfl | hne
    · rw [upd_self] at hb
      simp only [PC.gCheck.injEq] at hb
      obtain ⟨-, rfl, rfl, -⟩ := hb
      rw [upd_self]; omega
    · rw [upd_ne hne] at hb
      have : j' ≠ j := by
        rintro rfl; exact hnone b (by rw [hb]; rfl)
      rw [upd_ne this]
      exact h.check b p' j' e' r hb
  · intro b j' e' hb
    obtain ⟨h1, h2⟩ := hheld b j' e' hb
    rw [upd_ne h2]; exact h.heldE b j' e' h1
  · intro b j' hb
    rcases hslot b j' hb with ⟨rfl, rfl⟩ | ⟨h1, h2⟩
    · rw [upd_self]; exact ⟨hj, by omega⟩
    · rw [upd_ne h2]; exact h.slotNZ b j' h1
  · intro b c j' hb hc
    rcases hslot b j' hb with ⟨rfl, rfl⟩ | ⟨h1, h2⟩ <;> rcases hslot c j' hc with ⟨rfl, h4⟩ | ⟨h3, h4⟩
    · rfl
    · exact absurd rfl h4
    · exact absurd h4 h2
    · exact h.slotUniq b c j' h1 h3
  · intro j' hj'
    rcases eq_or_ne j' j with rfl | hne
    · exact ⟨a, by rw [upd_self]; rfl⟩
    · rw [upd_ne hne] at hj'
      obtain ⟨b, hb⟩ := h.slotBack j' hj'
      refine ⟨b, ?_⟩
      rw [upd_ne]; · exact hb
      rintro rfl
      rw [hpc] at hb; cases hb
  · intro b
    rw [h.lockIff b]
    rcases eq_or_ne b a with rfl | hne
    · rw [upd_self, hpc]; rfl
    · rw [upd_ne hne]
  · intro b cur k m hb
    rcases eq_or_ne b a with rfl | hne
    · rw [upd_self] at hb; cases hb
    · rw [upd_ne hne] at hb
      have h2 := h.scan b cur k m hb
      exact ⟨h2.1, h2.2.1, fun c j' e hc => h2.2.2 c j' e (hheld c j' e hc).1⟩
  · intro b cur hb
    rcases eq_or_ne b a with rfl | hne
    · rw [upd_self] at hb; cases hb
    · rw [upd_ne hne] at hb
      have h2 := h.inc b cur hb
      exact ⟨h2.1, h2.2.1, fun c j' e hc => h2.2.2 c j' e (hheld c j' e hc).1⟩
  · intro b q hb
    rcases eq_or_ne b a with rfl | hne
    · rw [upd_self] at hb; cases hb
    · rw [upd_ne hne] at hb; exact h.drain b q hb

/-- The final store of guard acquisition. -/
theorem InvE.store {cfg : Config} {s : State} (h : InvE cfg s) (a j : Nat) (p : Purpose) (e : Nat)
    (hpc : s.pcs a = .gStore p j e) :
    InvE cfg { s with guards := upd s.guards j e, pcs := upd s.pcs a (held p j e) } := by
  have hheldA : heldAt (s.pcs a) = some (j, e) := by rw [hpc]; rfl
  have hsA := heldAt_slot hheldA
  have hnz := (h.slotNZ a j hsA)
  have hE := h.heldE a j e hheldA
  have hk : slotOf (held p j e) = some j ∧ heldAt (held p j e) = some (j, e) ∧
      advancing (held p j e) = false ∧ drainingQ (held p j e) = none ∧
      (∀ p' e', held p j e ≠ .gLoaded p' e') ∧ (∀ p' j' e' r, held p j e ≠ .gCheck p' j' e' r) ∧
      (∀ c k m, held p j e ≠ .aScan c k m) ∧ (∀ c, held p j e ≠ .aInc c) := by
    cases p <;> simp [held, slotOf, heldAt, advancing, drainingQ]
  obtain ⟨k1, k2, k3, k4, k5, k6, k7, k8⟩ := hk
  have hheld : ∀ b j' e', heldAt (upd s.pcs a (held p j e) b) = some (j', e') → heldAt (s.pcs b) = some (j', e') := by
    intro b j' e' hb
    rcases eq_or_ne b a with rfl | hne
    · rw [upd_self, k2] at hb; rw [hheldA]; exact hb
    · rw [upd_ne hne] at hb; exact hb
  have hslot : ∀ b, slotOf (upd s.pcs a (held p j e) b) = slotOf (s.pcs b) := by
    intro b
    rcases eq_or_ne b a with rfl | hne
    · rw [upd_self, k1, hsA]
    · rw [upd_ne hne]
  constructor <;> simp only
  · exact h.ep1
  · exact h.epMax
  · intro b p' e' hb
    rcases eq_or_ne b a with rfl | hne
    · rw [upd_self] at hb; exact absurd hb (k5 _ _)
    · rw [upd_ne hne] at hb; exact h.loaded b p' e' hb
  · intro b p' j' e' r hb
    rcases eq_or_ne b a with rfl | hne
    · rw [upd_self] at hb; exact absurd hb (k6 _ _ _ _)
    · rw [upd_ne hne] at hb
      have : j' ≠ j := by
        rintro rfl
        exact hne (h.slotUniq b a _ (by rw [hb]; rfl) hsA)
      rw [upd_ne this]
      exact h.check b p' j' e' r hb
  · intro b j' e' hb
    have h1 := hheld b j' e' hb
    have h2 := h.heldE b j' e' h1
    rcases eq_or_ne j' j with rfl | hne
    · have hba := h.slotUniq b a _ (heldAt_slot h1) hsA
      subst hba
      rw [hheldA] at h1
      simp only [Option.some.injEq, Prod.mk.injEq, true_and] at h1
      subst h1
      rw [upd_self]; omega
    · rw [upd_ne hne]; exact h2
  · intro b j' hb
    rw [hslot] at hb
    have h2 := h.slotNZ b j' hb
    refine ⟨h2.1, ?_⟩
    rcases eq_or_ne j' j with rfl | hne
    · rw [upd_self]; omega
    · rw [upd_ne hne]; exact h2.2
  · intro b c j' hb hc
    rw [hslot] at hb hc; exact h.slotUniq b c j' hb hc
  · intro j' hj'
    rcases eq_or_ne j' j with rfl | hne
    · exact ⟨a, by rw [hslot]; exact hsA⟩
    · rw [upd_ne hne] at hj'
      obtain ⟨b, hb⟩ := h.slotBack j' hj'
      exact ⟨b, by rw [hslot]; exact hb⟩
  · intro b
    rw [h.lockIff b]
    rcases eq_or_ne b a with rfl | hne
    · rw [upd_self, hpc, k3]; rfl
    · rw [upd_ne hne]
  · intro b cur k m hb
    rcases eq_or_ne b a with rfl | hne
    · rw [upd_self] at hb; exact absurd hb (k7 _ _ _)
    · rw [upd_ne hne] at hb
      have h2 := h.scan b cur k m hb
      exact ⟨h2.1, h2.2.1, fun c j' e hc => h2.2.2 c j' e (hheld c j' e hc)⟩
  · intro b cur hb
    rcases eq_or_ne b a with rfl | hne
    · rw [upd_self] at hb; exact absurd hb (k8 _)
    · rw [upd_ne hne] at hb
      have h2 := h.inc b cur hb
      exact ⟨h2.1, h2.2.1, fun c j' e hc => h2.2.2 c j' e (hheld c j' e hc)⟩
  · intro b q hb
    rcases eq_or_ne b a with rfl | hne
    · rw [upd_self, k4] at hb; cases hb
    · rw [upd_ne hne] at hb; exact h.drain b q hb

/-- Taking or giving back the drain lock. -/
theorem InvE.relock {cfg : Config} {s : State} (h : InvE cfg s) (a : Nat) (pc' : PC) (l : Option Nat)
    (h0 : slotOf (s.pcs a) = none) (h1 : pc' = .idle ∨ pc' = .overflowed ∨ pc' = .aEpoch)
    (hl : (s.lock = none ∧ l = some a ∧ pc' = .aEpoch) ∨ (s.lock = some a ∧ l = none ∧ pc' ≠ .aEpoch)) :
    InvE cfg { s with lock := l, pcs := upd s.pcs a pc' } := by
  have hk : slotOf pc' = none ∧ heldAt pc' = none ∧ drainingQ pc' = none ∧
      (∀ p' e', pc' ≠ .gLoaded p' e') ∧ (∀ p' j' e' r, pc' ≠ .gCheck p' j' e' r) ∧
      (∀ c k m, pc' ≠ .aScan c k m) ∧ (∀ c, pc' ≠ .aInc c) := by
    rcases h1 with rfl | rfl | rfl <;> simp [slotOf, heldAt, drainingQ]
  obtain ⟨k1, k2, k4, k5, k6, k7, k8⟩ := hk
  have hheld : ∀ b j' e', heldAt (upd s.pcs a pc' b) = some (j', e') → heldAt (s.pcs b) = some (j', e') := by
    intro b j' e' hb
    rcases eq_or_ne b a with rfl | hne
    · rw [upd_self, k2] at hb; cases hb
    · rw [upd_ne hne] at hb; exact hb
  have hslot : ∀ b, slotOf (upd s.pcs a pc' b) = slotOf (s.pcs b) := by
    intro b
    rcases eq_or_ne b a with rfl | hne
    · rw [upd_self, k1, h0]
    · rw [upd_ne hne]
  constructor <;> simp only
  · exact h.ep1
  · exact h.epMax
  · intro b p' e' hb
    rcases eq_or_ne b a with rfl | hne
    · rw [upd_self] at hb; exact absurd hb (k5 _ _)
    · rw [upd_ne hne] at hb; exact h.loaded b p' e' hb
  · intro b p' j' e' r hb
    rcases eq_or_ne b a with rfl | hne
    · rw [upd_self] at hb; exact absurd hb (k6 _ _ _ _)
    · rw [upd_ne hne] at hb
      exact h.check b p' j' e' r hb
  · intro b j' e' hb
    exact h.heldE b j' e' (hheld b j' e' hb)
  · intro b j' hb
    rw [hslot] at hb; exact h.slotNZ b j' hb
  · intro b c j' hb hc
    rw [hslot] at hb hc; exact h.slotUniq b c j' hb hc
  · intro j' hj'
    obtain ⟨b, hb⟩ := h.slotBack j' hj'
    exact ⟨b, by rw [hslot]; exact hb⟩
  · intro b
    have hb := h.lockIff b
    rcases hl with ⟨hl, rfl, rfl⟩ | ⟨hl, rfl, hne'⟩
    · rcases eq_or_ne b a with rfl | hne
      · simp [advancing]
      · rw [upd_ne hne, ← hb, hl]; simp [Ne.symm hne]
    · rcases eq_or_ne b a with rfl | hne
      · rcases h1 with rfl | rfl | rfl
        · simp [advancing]
        · simp [advancing]
        · exact absurd rfl hne'
      · rw [upd_ne hne, ← hb, hl]; simp [Ne.symm hne]
  · intro b cur k m hb
    rcases eq_or_ne b a with rfl | hne
    · rw [upd_self] at hb; exact absurd hb (k7 _ _ _)
    · rw [upd_ne hne] at hb
      have h2 := h.scan b cur k m hb
      exact ⟨h2.1, h2.2.1, fun c j' e hc => h2.2.2 c j' e (hheld c j' e hc)⟩
  · intro b cur hb
    rcases eq_or_ne b a with rfl | hne
    · rw [upd_self] at hb; exact absurd hb (k8 _)
    · rw [upd_ne hne] at hb
      have h2 := h.inc b cur hb
      exact ⟨h2.1, h2.2.1, fun c j' e hc => h2.2.2 c j' e (hheld c j' e hc)⟩
  · intro b q hb
    rcases eq_or_ne b a with rfl | hne
    · rw [upd_self, k4] at hb; cases hb
    · rw [upd_ne hne] at hb; exact h.drain b q hb

/-- Advancing the epoch. -/
theorem InvE.advance {cfg : Config} {s : State} (h : InvE cfg s) (a : Nat) (hpc : s.pcs a = .aInc s.epoch) :
    InvE cfg { s with epoch := s.epoch + 1, pcs := upd s.pcs a (.aDrain (lastQueue s.epoch)) } := by
  obtain ⟨-, hmax, hinc⟩ := h.inc a _ hpc
  have hla : s.lock = some a := (h.lockIff a).mpr (by rw [hpc]; rfl)
  have hother : ∀ b, advancing (s.pcs b) = true → b = a := by
    intro b hb
    have := (h.lockIff b).mpr hb
    rw [hla] at this; exact (Option.some.inj this).symm
  have hheld : ∀ b j' e', heldAt (upd s.pcs a (.aDrain (lastQueue s.epoch)) b) = some (j', e') →
      heldAt (s.pcs b) = some (j', e') := by
    intro b j' e' hb
    rcases eq_or_ne b a with rfl | hne
    · rw [upd_self] at hb; cases hb
    · rw [upd_ne hne] at hb; exact hb
  have hslot : ∀ b, slotOf (upd s.pcs a (.aDrain (lastQueue s.epoch)) b) = slotOf (s.pcs b) := by
    intro b
    rcases eq_or_ne b a with rfl | hne
    · rw [upd_self, hpc]; rfl
    · rw [upd_ne hne]
  have hep := h.ep1
  constructor <;> simp only
  · omega
  · omega
  · intro b p' e' hb
    rcases eq_or_ne b a with rfl | hne
    · rw [upd_self] at hb; cases hb
    · rw [upd_ne hne] at hb
      have := h.loaded b p' e' hb
      omega
  · intro b p' j' e' r hb
    rcases eq_or_ne b a with rfl | hne
    · rw [upd_self] at hb; cases hb
    · rw [upd_ne hne] at hb
      have := h.check b p' j' e' r hb
      omega
  · intro b j' e' hb
    have h1 := h.heldE b j' e' (hheld b j' e' hb)
    have h2 := hinc b j' e' (hheld b j' e' hb)
    omega
  · intro b j' hb
    rw [hslot] at hb; exact h.slotNZ b j' hb
  · intro b c j' hb hc
    rw [hslot] at hb hc; exact h.slotUniq b c j' hb hc
  · intro j' hj'
    obtain ⟨b, hb⟩ := h.slotBack j' hj'
    exact ⟨b, by rw [hslot]; exact hb⟩
  · intro b
    rw [h.lockIff b]
    rcases eq_or_ne b a with rfl | hne
    · rw [upd_self, hpc]; rfl
    · rw [upd_ne hne]
  · intro b cur k m hb
    rcases eq_or_ne b a with rfl | hne
    · rw [upd_self] at hb; cases hb
    · rw [upd_ne hne] at hb
      exact absurd (hother b (by rw [hb]; rfl)) hne
  · intro b cur hb
    rcases eq_or_ne b a with rfl | hne
    · rw [upd_self] at hb; cases hb
    · rw [upd_ne hne] at hb
      exact absurd (hother b (by rw [hb]; rfl)) hne
  · intro b q hb
    rcases eq_or_ne b a with rfl | hne
    · rw [upd_self] at hb
      simp only [drainingQ, Option.some.injEq] at hb
      rw [← hb, lastQueue_eq _ (by omega)]
      exact ⟨by omega, by congr 1⟩
    · rw [upd_ne hne] at hb
      have : advancing (s.pcs b) = true := by
        revert hb; cases s.pcs b <;> simp [drainingQ, advancing]
      exact absurd (hother b this) hne

theorem held_facts (p : Purpose) (j e : Nat) : slotOf (held p j e) = some j ∧
    heldAt (held p j e) = some (j, e) ∧
    advancing (held p j e) = false ∧ drainingQ (held p j e) = none ∧
    (∀ p' e', held p j e ≠ .gLoaded p' e') ∧ (∀ p' j' e' r, held p j e ≠ .gCheck p' j' e' r) ∧
    (∀ c k m, held p j e ≠ .aScan c k m) ∧ (∀ c, held p j e ≠ .aInc c) := by
  cases p <;> simp [held, slotOf, heldAt, advancing, drainingQ]

/-- Discharge a step that only moves the actor. -/
macro "invE_local" h:ident hact:ident hpc:ident : tactic => `(tactic|
  (simp only [Option.some.injEq, Prod.mk.injEq] at $hact:ident
   obtain ⟨hx1, hx2⟩ := $hact:ident
   subst hx1; subst hx2
   exact InvE.frame $h _ _ (by simp) (by simp) (by simp [heldAt, $hpc:ident]) (by simp [slotOf, $hpc:ident])
     (by simp [advancing, $hpc:ident]) (by simp) (by simp) (by simp [drainingQ, $hpc:ident]) _ _ _ _))

/-- Every step preserves the registry invariant. -/
theorem act_invE {cfg : Config} {s s' : State} {a : Nat} {c : Choice} {ev : Option Event}
    (h : InvE cfg s) (hact : act cfg a c s = some (s', ev)) : InvE cfg s' := by
  have hep := h.ep1
  unfold act at hact
  simp only at hact
  split at hact <;> rename_i hpc
  · -- startRead
    simp only [Option.some.injEq, Prod.mk.injEq] at hact
    obtain ⟨rfl, rfl⟩ := hact
    exact h.frame a _ (by simp; omega) (by simp) (by simp [heldAt]) (by simp [slotOf, hpc])
      (by simp [advancing, hpc]) (by simp) (by simp) (by simp [drainingQ]) _ _ _ _
  · -- startRetire
    split at hact
    · split at hact <;> invE_local h hact hpc
    · invE_local h hact hpc
  · -- rGuard
    simp only [Option.some.injEq, Prod.mk.injEq] at hact
    obtain ⟨rfl, rfl⟩ := hact
    exact h.frame a _ (by simp; omega) (by simp) (by simp [heldAt]) (by simp [slotOf, hpc])
      (by simp [advancing, hpc]) (by simp) (by simp) (by simp [drainingQ]) _ _ _ _
  · -- slot
    rename_i p e j
    split at hact
    · rename_i hj
      simp only [Option.some.injEq, Prod.mk.injEq] at hact
      obtain ⟨rfl, rfl⟩ := hact
      exact h.register a j p e hpc hj.1 hj.2
    · simp only [Option.some.injEq, Prod.mk.injEq] at hact
      obtain ⟨rfl, rfl⟩ := hact
      have := h.loaded a p e hpc
      exact h.frame a _ (by simp; omega) (by simp) (by simp [heldAt]) (by simp [slotOf, hpc])
        (by simp [advancing, hpc]) (by simp) (by simp) (by simp [drainingQ]) _ _ _ _
  · invE_local h hact hpc
  · -- gCheck
    rename_i p j e reset
    have hck := h.check a p j e reset hpc
    split at hact
    · rename_i he
      split at hact
      · simp only [Option.some.injEq, Prod.mk.injEq] at hact
        obtain ⟨rfl, rfl⟩ := hact
        refine h.frame a _ (by simp) (by simp) ?_ (by simp [slotOf, hpc])
          (by simp [advancing, hpc]) (by simp) (by simp) (by simp [drainingQ]) _ _ _ _
        intro j' e' hh
        simp only [heldAt, Option.some.injEq, Prod.mk.injEq] at hh
        obtain ⟨rfl, rfl⟩ := hh
        right; omega
      · simp only [Option.some.injEq, Prod.mk.injEq] at hact
        obtain ⟨rfl, rfl⟩ := hact
        obtain ⟨k1, k2, k3, k4, k5, k6, k7, k8⟩ := held_facts p j e
        refine h.frame a _ (fun _ _ hx => absurd hx (k5 _ _)) (fun _ _ _ _ hx => absurd hx (k6 _ _ _ _)) ?_
          (by rw [k1, hpc]; rfl) (by rw [k3, hpc]; rfl) (fun _ _ _ hx => absurd hx (k7 _ _ _))
          (fun _ hx => absurd hx (k8 _)) (by rw [k4]; simp) _ _ _ _
        intro j' e' hh
        rw [k2] at hh
        simp only [Option.some.injEq, Prod.mk.injEq] at hh
        obtain ⟨rfl, rfl⟩ := hh
        right; omega
    · simp only [Option.some.injEq, Prod.mk.injEq] at hact
      obtain ⟨rfl, rfl⟩ := hact
      refine h.frame a _ (by simp) ?_ (by simp [heldAt]) (by simp [slotOf, hpc])
        (by simp [advancing, hpc]) (by simp) (by simp) (by simp [drainingQ]) _ _ _ _
      intro p' j' e' r' hx
      simp only [PC.gCheck.injEq] at hx
      obtain ⟨rfl, rfl, rfl, rfl⟩ := hx
      omega
  · -- gStore
    simp only [Option.some.injEq, Prod.mk.injEq] at hact
    obtain ⟨rfl, rfl⟩ := hact
    exact h.store a _ _ _ hpc
  · -- readAt
    split at hact
    · invE_local h hact hpc
    · simp only [Option.some.injEq, Prod.mk.injEq] at hact
      obtain ⟨rfl, rfl⟩ := hact
      exact h
  · -- reader finish
    simp only [Option.some.injEq, Prod.mk.injEq] at hact
    obtain ⟨rfl, rfl⟩ := hact
    exact h.release a _ (by rw [hpc]; rfl) (by rw [hpc]; rfl)
  · split at hact <;> invE_local h hact hpc
  · invE_local h hact hpc
  · invE_local h hact hpc
  · -- rDrop
    simp only [Option.some.injEq, Prod.mk.injEq] at hact
    obtain ⟨rfl, rfl⟩ := hact
    exact h.release a _ (by rw [hpc]; rfl) (by rw [hpc]; rfl)
  · split at hact <;> invE_local h hact hpc
  · invE_local h hact hpc
  · invE_local h hact hpc
  · invE_local h hact hpc
  · invE_local h hact hpc
  · invE_local h hact hpc
  · -- startDrain
    split at hact
    · rename_i hl
      simp only [Option.some.injEq, Prod.mk.injEq] at hact
      obtain ⟨rfl, rfl⟩ := hact
      exact h.relock a .aEpoch (some a) (by rw [hpc]; rfl) (by simp) (Or.inl ⟨hl, rfl, rfl⟩)
    · invE_local h hact hpc
  · -- aEpoch
    simp only [Option.some.injEq, Prod.mk.injEq] at hact
    obtain ⟨rfl, rfl⟩ := hact
    refine h.frame a _ (by simp) (by simp) (by simp [heldAt]) (by simp [slotOf, hpc])
      (by simp [advancing, hpc]) ?_ (by simp) (by simp [drainingQ]) _ _ _ _
    intro cur k m hx
    simp only [PC.aScan.injEq] at hx
    obtain ⟨rfl, rfl, rfl⟩ := hx
    exact ⟨rfl, Nat.le_refl _, fun _ _ _ _ hj => absurd hj (Nat.not_lt_zero _)⟩
  · -- aScan
    rename_i cur k m
    obtain ⟨h1, h2, h3⟩ := h.scan a cur k m hpc
    split at hact
    · simp only [Option.some.injEq, Prod.mk.injEq] at hact
      obtain ⟨rfl, rfl⟩ := hact
      refine h.frame a _ (by simp) (by simp) (by simp [heldAt]) (by simp [slotOf, hpc])
        (by simp [advancing, hpc]) ?_ (by simp) (by simp [drainingQ]) _ _ _ _
      intro cur' k' m' hx
      simp only [PC.aScan.injEq] at hx
      obtain ⟨rfl, rfl, rfl⟩ := hx
      refine ⟨h1, ?_, ?_⟩
      · split <;> omega
      · intro b j e hb hj
        have hbe := h.heldE b j e hb
        have hnz := (h.slotNZ b j (heldAt_slot hb)).2
        by_cases hjk : j < k
        · have := h3 b j e hb hjk
          split <;> omega
        · have : j = k := by omega
          subst this
          rw [if_pos hnz]; omega
    · rename_i hk
      have hlock : s.lock = some a := (h.lockIff a).mpr (by rw [hpc]; rfl)
      split at hact
      · simp only [Option.some.injEq, Prod.mk.injEq] at hact
        obtain ⟨rfl, rfl⟩ := hact
        exact h.relock a .overflowed none (by rw [hpc]; rfl) (by simp) (Or.inr ⟨hlock, rfl, by simp⟩)
      · rename_i hmx
        split at hact
        · rename_i hm
          simp only [Option.some.injEq, Prod.mk.injEq] at hact
          obtain ⟨rfl, rfl⟩ := hact
          refine h.frame a _ (by simp) (by simp) (by simp [heldAt]) (by simp [slotOf, hpc])
            (by simp [advancing, hpc]) (by simp) ?_ (by simp [drainingQ]) _ _ _ _
          intro cur' hx
          simp only [PC.aInc.injEq] at hx
          subst hx
          have := h.epMax
          refine ⟨h1, by omega, ?_⟩
          intro b j e hb
          have hjN := (h.slotNZ b j (heldAt_slot hb)).1
          have := h3 b j e hb (by omega)
          omega
        · simp only [Option.some.injEq, Prod.mk.injEq] at hact
          obtain ⟨rfl, rfl⟩ := hact
          exact h.relock a .idle none (by rw [hpc]; rfl) (by simp) (Or.inr ⟨hlock, rfl, by simp⟩)
  · -- aInc
    obtain ⟨h1, h2, h3⟩ := h.inc a _ hpc
    split at hact
    · simp only [Option.some.injEq, Prod.mk.injEq] at hact
      obtain ⟨rfl, rfl⟩ := hact
      subst h1
      exact h.advance a hpc
    · invE_local h hact hpc
  · -- aDrain
    have hlock : s.lock = some a := (h.lockIff a).mpr (by rw [hpc]; rfl)
    split at hact
    · simp only [Option.some.injEq, Prod.mk.injEq] at hact
      obtain ⟨rfl, rfl⟩ := hact
      exact h.relock a .idle none (by rw [hpc]; rfl) (by simp) (Or.inr ⟨hlock, rfl, by simp⟩)
    · split at hact <;> invE_local h hact hpc
  · split at hact <;> invE_local h hact hpc
  · split at hact <;> invE_local h hact hpc
  · cases hact

end Verif.Inmem
