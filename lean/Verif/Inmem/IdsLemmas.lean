import Verif.Inmem.IdsModel
import Verif.Inmem.EbrLemmas
import Mathlib.Tactic.Common

/-! # Invariant of the provider's id map and slots -/

namespace Verif.Inmem

/-- Backward entry of `i`, ignoring bounds. -/
def Maps.B (m : Maps) (i : Nat) : Option Nat := m.backward (shardOf i).1 (shardOf i).2

theorem shardOf_inj {i j : Nat} (h : shardOf i = shardOf j) : i = j := by
  simp only [shardOf, SHARD_SIZE, Prod.mk.injEq] at h
  omega

theorem B_setBack (m : Maps) (i : Nat) (v : Option Nat) (j : Nat) :
    (m.setBack i v).B j = if j = i then v else m.B j := by
  by_cases h : j = i
  · subst h; simp [Maps.B, Maps.setBack, upd_apply]
  · rw [if_neg h]
    simp only [Maps.B, Maps.setBack, upd_apply]
    by_cases h1 : (shardOf j).1 = (shardOf i).1
    · have h2 : (shardOf j).2 ≠ (shardOf i).2 := fun h2 => h (shardOf_inj (Prod.ext h1 h2))
      rw [if_pos h1, upd_ne h2, h1]
    · rw [if_neg h1]

theorem B_setBack_fun (m : Maps) (i : Nat) (v : Option Nat) : (m.setBack i v).B = upd m.B i v := by
  funext j; rw [B_setBack]; rfl

theorem back_eq (m : Maps) {i : Nat} (h : i < m.capacity) : m.back i = some (m.B i) := by
  unfold Maps.back
  rw [if_pos ?_]; · rfl
  simp only [shardOf, Maps.numShards, SHARD_SIZE]
  omega

/-- The external key whose `DashMap` entry lock a call holds between steps. -/
def HoldsKey : PPC → Nat → Prop
  | .delEntry e _, k => e = k
  | .delRetired e _, k => e = k
  | _, _ => False

/-- The backward shard whose write lock a call holds between steps. -/
def HoldsShard : PPC → Nat → Prop
  | .delEntry _ i, k => (shardOf i).1 = k
  | .delRetired _ i, k => (shardOf i).1 = k
  | .delForward _ i, k => (shardOf i).1 = k
  | _, _ => False

/-- Slot owned by a `set_element` call. -/
def Owns : PPC → Nat → Prop
  | .setOwned _ j, i => j = i
  | .setEncoded _ j, i => j = i
  | .setMapped _ j, i => j = i
  | _, _ => False

/-- Slot whose deletion is past the point of no return. -/
def Dying : PPC → Nat → Prop
  | .delRetired _ j, i => j = i
  | .delForward _ j, i => j = i
  | _, _ => False

/-- Id and slot of a delete that has removed only the forward mapping. -/
def HalfDel : PPC → Nat → Nat → Prop
  | .delForward x j, e, i => x = e ∧ j = i
  | _, _, _ => False

/-- Id and slot of an insert that is mapped but unpublished. -/
def HalfSet : PPC → Nat → Nat → Prop
  | .setMapped x j, e, i => x = e ∧ j = i
  | _, _, _ => False

/-- Id and slot of a delete holding its entry. -/
def EntryOf : PPC → Nat → Nat → Prop
  | .delEntry x j, e, i => x = e ∧ j = i
  | .delRetired x j, e, i => x = e ∧ j = i
  | _, _, _ => False

/-- `f x = some y`, as a relation. -/
def Rel (f : Nat → Option Nat) (x y : Nat) : Prop := f x = some y

@[grind =] theorem rel_upd (f : Nat → Option Nat) (k : Nat) (v : Option Nat) (x y : Nat) :
    Rel (upd f k v) x y ↔ if x = k then v = some y else Rel f x y := by
  unfold Rel upd; split <;> simp

theorem not_rel {f : Nat → Option Nat} {x : Nat} (h : f x = none) (y : Nat) : ¬ Rel f x y := by
  unfold Rel; rw [h]; simp

structure PInv (cap : Nat) (s : PState) : Prop where
  capEq : s.maps.capacity = cap
  fb : ∀ e i, Rel s.maps.forward e i → i < cap ∧ Rel s.maps.B i e ∧ ∀ a, ¬ HalfDel (s.pcs a) e i
  bf : ∀ e i, Rel s.maps.B i e → Rel s.maps.forward e i ∨ ∃ a, HalfDel (s.pcs a) e i
  own : ∀ a i, Owns (s.pcs a) i → s.tags i = OWNED ∧ i < cap
  ownUniq : ∀ a b i, Owns (s.pcs a) i → Owns (s.pcs b) i → a = b
  ownBack : ∀ i, s.tags i = OWNED → ∃ a, Owns (s.pcs a) i
  mapped : ∀ a e i, HalfSet (s.pcs a) e i → Rel s.maps.forward e i ∧ ∀ b, ¬ Dying (s.pcs b) i
  pub : ∀ i, s.tags i = PUBLISHED → (∃ e, Rel s.maps.forward e i) ∧ ∀ b, ¬ Dying (s.pcs b) i
  bt : ∀ e i, Rel s.maps.B i e → s.tags i = PUBLISHED ∨ (∃ a, HalfSet (s.pcs a) e i) ∨ ∃ a, Dying (s.pcs a) i
  entry : ∀ a e i, EntryOf (s.pcs a) e i → Rel s.maps.forward e i
  half : ∀ a e i, HalfDel (s.pcs a) e i → Rel s.maps.B i e
  key : ∀ a e, HoldsKey (s.pcs a) e ↔ Rel s.keyLock e a
  shard : ∀ a k, HoldsShard (s.pcs a) k ↔ Rel s.shardLock k a
  tagCases : ∀ i, s.tags i = AVAILABLE ∨ s.tags i = OWNED ∨ s.tags i = PUBLISHED ∨ s.tags i = RETIRING
  noPanic : ∀ a, s.pcs a ≠ .panicked

theorem init_pinv (cap : Nat) : PInv cap (PState.init cap) := by
  constructor <;> simp [PState.init, Maps.new, Maps.B, HalfDel, Owns, HalfSet, EntryOf, HoldsKey, HoldsShard,
    Rel, AVAILABLE, OWNED, PUBLISHED]

@[grind =] theorem updEq {α : Type} (f : Nat → α) (k : Nat) (v : α) (x : Nat) :
    upd f k v x = if x = k then v else f x := rfl

theorem insert_cases (m : Maps) {e i : Nat} (h : i < m.capacity) :
    (m.forward e ≠ none ∧ m.insert e i = some (m, .error .externalExists)) ∨
    (m.forward e = none ∧ m.B i ≠ none ∧ m.insert e i = some (m, .error .internalExists)) ∨
    (m.forward e = none ∧ m.B i = none ∧ m.insert e i =
      some ({ m.setBack i (some e) with forward := upd m.forward e (some i) }, .ok ())) := by
  unfold Maps.insert
  rw [if_neg (by omega)]
  cases hf : m.forward e with
  | some j => left; simp
  | none =>
    right
    rw [back_eq m h]
    cases hb : m.B i with
    | some e' => left; simp
    | none => right; simp [Maps.setBack, hf]

theorem ex_upd {α : Type} (p : α → Prop) (f : Nat → α) (a : Nat) (v : α) :
    (∃ b, p (upd f a v b)) ↔ p v ∨ ∃ b, b ≠ a ∧ p (f b) := by
  constructor
  · rintro ⟨b, hb⟩
    rcases eq_or_ne b a with rfl | hne
    · left; rwa [upd_self] at hb
    · right; rw [upd_ne hne] at hb; exact ⟨b, hne, hb⟩
  · rintro (h | ⟨b, hne, hb⟩)
    · exact ⟨a, by rwa [upd_self]⟩
    · exact ⟨b, by rwa [upd_ne hne]⟩

theorem all_upd {α : Type} (p : α → Prop) (f : Nat → α) (a : Nat) (v : α) :
    (∀ b, ¬ p (upd f a v b)) ↔ ¬ p v ∧ ∀ b, b ≠ a → ¬ p (f b) := by
  have := ex_upd p f a v
  grind

theorem ex_halfDel (f : Nat → PPC) (a : Nat) (v : PPC) (e i : Nat) :
    (∃ b, HalfDel (upd f a v b) e i) ↔ HalfDel v e i ∨ ∃ b, b ≠ a ∧ HalfDel (f b) e i :=
  ex_upd (fun x => HalfDel x e i) f a v
theorem ex_halfSet (f : Nat → PPC) (a : Nat) (v : PPC) (e i : Nat) :
    (∃ b, HalfSet (upd f a v b) e i) ↔ HalfSet v e i ∨ ∃ b, b ≠ a ∧ HalfSet (f b) e i :=
  ex_upd (fun x => HalfSet x e i) f a v
theorem ex_owns (f : Nat → PPC) (a : Nat) (v : PPC) (i : Nat) :
    (∃ b, Owns (upd f a v b) i) ↔ Owns v i ∨ ∃ b, b ≠ a ∧ Owns (f b) i :=
  ex_upd (fun x => Owns x i) f a v
theorem ex_dying (f : Nat → PPC) (a : Nat) (v : PPC) (i : Nat) :
    (∃ b, Dying (upd f a v b) i) ↔ Dying v i ∨ ∃ b, b ≠ a ∧ Dying (f b) i :=
  ex_upd (fun x => Dying x i) f a v
theorem all_halfDel (f : Nat → PPC) (a : Nat) (v : PPC) (e i : Nat) :
    (∀ b, ¬ HalfDel (upd f a v b) e i) ↔ ¬ HalfDel v e i ∧ ∀ b, b ≠ a → ¬ HalfDel (f b) e i :=
  all_upd (fun x => HalfDel x e i) f a v
theorem all_dying (f : Nat → PPC) (a : Nat) (v : PPC) (i : Nat) :
    (∀ b, ¬ Dying (upd f a v b) i) ↔ ¬ Dying v i ∧ ∀ b, b ≠ a → ¬ Dying (f b) i :=
  all_upd (fun x => Dying x i) f a v

theorem ex_rel (f : Nat → Option Nat) (k : Nat) (v : Option Nat) (y : Nat) :
    (∃ x, Rel (upd f k v) x y) ↔ v = some y ∨ ∃ x, x ≠ k ∧ Rel f x y := by
  constructor
  · rintro ⟨x, hx⟩
    rw [rel_upd] at hx
    split at hx
    · exact Or.inl hx
    · rename_i h; exact Or.inr ⟨x, h, hx⟩
  · rintro (h | ⟨x, h1, h2⟩)
    · exact ⟨k, by rw [rel_upd, if_pos rfl]; exact h⟩
    · exact ⟨x, by rw [rel_upd, if_neg h1]; exact h2⟩

theorem removeForward_forward (m : Maps) (e : Nat) : (m.removeForward e).forward = upd m.forward e none := rfl
theorem setBack_forward (m : Maps) (i : Nat) (v : Option Nat) : (m.setBack i v).forward = m.forward := rfl

theorem dying_shard {p : PPC} {i : Nat} (h : Dying p i) : HoldsShard p (shardOf i).1 := by
  cases p <;> simp_all [Dying, HoldsShard]

theorem halfSet_owns {p : PPC} {e i : Nat} (h : HalfSet p e i) : Owns p i := by
  cases p <;> simp_all [HalfSet, Owns]

theorem halfDel_dying {p : PPC} {e i : Nat} (h : HalfDel p e i) : Dying p i := by
  cases p <;> simp_all [HalfDel, Dying]

theorem rel_uniq {f : Nat → Option Nat} {x y z : Nat} (h : Rel f x y) (h' : Rel f x z) : y = z := by
  unfold Rel at h h'; rw [h] at h'; simpa using h'

theorem entry_key {p : PPC} {e i : Nat} (h : EntryOf p e i) : HoldsKey p e := by
  cases p <;> simp_all [EntryOf, HoldsKey]

theorem entry_shard {p : PPC} {e i : Nat} (h : EntryOf p e i) : HoldsShard p (shardOf i).1 := by
  cases p <;> simp_all [EntryOf, HoldsShard]

attribute [local grind] HalfDel Owns HalfSet EntryOf HoldsKey HoldsShard Dying

/-- Close every clause of the invariant by congruence and case analysis. -/
macro "pinv_auto" : tactic => `(tactic|
  (constructor <;> simp only [ex_halfDel, ex_halfSet, ex_owns, ex_dying, all_halfDel, all_dying,
    removeForward_forward, setBack_forward, ex_rel] <;> grind))

set_option maxHeartbeats 8000000 in
/-- Every step preserves the invariant. -/
theorem pact_pinv {cap : Nat} {s s' : PState} {a : Nat} {c : PChoice} {ev : Option PEvent} (h : PInv cap s)
    (hact : pact a c s = some (s', ev)) : PInv cap s' := by
  obtain ⟨hcap, fb, bf, own, ownUniq, ownBack, mapped, pub, bt, entry, half, key, shard, tagCases, noPanic⟩ := h
  have hT : AVAILABLE ≠ OWNED ∧ AVAILABLE ≠ PUBLISHED ∧ AVAILABLE ≠ RETIRING ∧ OWNED ≠ PUBLISHED ∧
    OWNED ≠ RETIRING ∧ PUBLISHED ≠ RETIRING := by decide
  obtain ⟨t1, t2, t3, t4, t5, t6⟩ := hT
  have hso : ∀ b e i, HalfSet (s.pcs b) e i → Owns (s.pcs b) i := fun b e i => halfSet_owns
  have hhd : ∀ b e i, HalfDel (s.pcs b) e i → Dying (s.pcs b) i := fun b e i => halfDel_dying
  have hfn : ∀ x y z, Rel s.maps.forward x y → Rel s.maps.forward x z → y = z := fun x y z => rel_uniq
  have hbn : ∀ x y z, Rel s.maps.B x y → Rel s.maps.B x z → y = z := fun x y z => rel_uniq
  unfold pact at hact
  simp only at hact
  split at hact <;> rename_i hpc
  · -- reclaim
    split at hact
    · rename_i hi
      simp only [Option.some.injEq, Prod.mk.injEq] at hact
      obtain ⟨rfl, rfl⟩ := hact
      pinv_auto
    · cases hact
  · -- set
    split at hact
    · rename_i hi
      simp only [Option.some.injEq, Prod.mk.injEq] at hact
      obtain ⟨rfl, rfl⟩ := hact
      pinv_auto
    · cases hact
  · -- setNoSlot
    simp only [Option.some.injEq, Prod.mk.injEq] at hact
    obtain ⟨rfl, rfl⟩ := hact
    pinv_auto
  · -- encode
    split at hact
    all_goals
      simp only [Option.some.injEq, Prod.mk.injEq] at hact
      obtain ⟨rfl, rfl⟩ := hact
      pinv_auto
  · -- insert
    rename_i e i
    split at hact
    · rename_i hl
      have hk := not_rel hl.1
      have hs := not_rel hl.2
      have hd : ∀ b, ¬ Dying (s.pcs b) i := fun b hb => hs b ((shard b _).mp (dying_shard hb))
      have hcapi : i < s.maps.capacity := by rw [hcap]; exact (own a i (by rw [hpc]; rfl)).2
      rcases insert_cases s.maps (e := e) hcapi with ⟨h1, h2⟩ | ⟨h1, h2, h3⟩ | ⟨h1, h2, h3⟩
      · rw [h2] at hact
        simp only [Option.some.injEq, Prod.mk.injEq] at hact
        obtain ⟨rfl, rfl⟩ := hact
        pinv_auto
      · rw [h3] at hact
        simp only [Option.some.injEq, Prod.mk.injEq] at hact
        obtain ⟨rfl, rfl⟩ := hact
        pinv_auto
      · rw [h3] at hact
        simp only [Option.some.injEq, Prod.mk.injEq] at hact
        obtain ⟨rfl, rfl⟩ := hact
        have hf := not_rel h1
        have hb := not_rel h2
        have hB : Maps.B { s.maps.setBack i (some e) with forward := upd s.maps.forward e (some i) } =
          upd s.maps.B i (some e) := B_setBack_fun s.maps i (some e)
        have hC : (s.maps.setBack i (some e)).capacity = s.maps.capacity := rfl
        pinv_auto
    · cases hact
  · -- publish
    rename_i e i
    have hm := mapped a e i (by rw [hpc]; exact ⟨rfl, rfl⟩)
    have ho := own a i (by rw [hpc]; rfl)
    simp only [Option.some.injEq, Prod.mk.injEq] at hact
    obtain ⟨rfl, rfl⟩ := hact
    pinv_auto
  · -- delete
    rename_i e
    split at hact
    · rename_i hl
      have hk := not_rel hl
      cases hf : s.maps.forward e with
      | none =>
        simp only [Maps.occupiedEntry, hf, Option.some.injEq, Prod.mk.injEq] at hact
        obtain ⟨rfl, rfl⟩ := hact
        pinv_auto
      | some i =>
        obtain ⟨hic, hBi, -⟩ := fb e i hf
        simp only [Maps.occupiedEntry, hf, back_eq s.maps (hcap ▸ hic), show s.maps.B i = some e from hBi] at hact
        split at hact
        · rename_i hl2
          have hs := not_rel hl2
          have hf' : Rel s.maps.forward e i := hf
          simp only [Option.some.injEq, Prod.mk.injEq] at hact
          obtain ⟨rfl, rfl⟩ := hact
          pinv_auto
        · cases hact
    · cases hact
  · -- retire
    rename_i e i _
    have he := entry a e i (by rw [hpc]; exact ⟨rfl, rfl⟩)
    have hk := (key a e).mp (by rw [hpc]; rfl)
    have hku : ∀ b, HoldsKey (s.pcs b) e → b = a := fun b hb => rel_uniq ((key b _).mp hb) hk
    have heu : ∀ b j, EntryOf (s.pcs b) e j → b = a := fun b j hb => hku b (entry_key hb)
    have hs := (shard a (shardOf i).1).mp (by rw [hpc]; rfl)
    have hsu : ∀ b, HoldsShard (s.pcs b) (shardOf i).1 → b = a := fun b hb => rel_uniq ((shard b _).mp hb) hs
    have hdu : ∀ b, Dying (s.pcs b) i → b = a := fun b hb => hsu b (dying_shard hb)
    split at hact
    all_goals
      rename_i hi
      simp only [Option.some.injEq, Prod.mk.injEq] at hact
      obtain ⟨rfl, rfl⟩ := hact
      pinv_auto
  · -- removeForward
    rename_i e i
    have he := entry a e i (by rw [hpc]; exact ⟨rfl, rfl⟩)
    have hk := (key a e).mp (by rw [hpc]; rfl)
    have hku : ∀ b, HoldsKey (s.pcs b) e → b = a := fun b hb => rel_uniq ((key b _).mp hb) hk
    have heu : ∀ b j, EntryOf (s.pcs b) e j → b = a := fun b j hb => hku b (entry_key hb)
    have hs := (shard a (shardOf i).1).mp (by rw [hpc]; rfl)
    have hsu : ∀ b, HoldsShard (s.pcs b) (shardOf i).1 → b = a := fun b hb => rel_uniq ((shard b _).mp hb) hs
    have hdu : ∀ b, Dying (s.pcs b) i → b = a := fun b hb => hsu b (dying_shard hb)
    simp only [Option.some.injEq, Prod.mk.injEq] at hact
    obtain ⟨rfl, rfl⟩ := hact
    have hB : Maps.B (s.maps.removeForward e) = s.maps.B := rfl
    have hC : (s.maps.removeForward e).capacity = s.maps.capacity := rfl
    have hF : (s.maps.removeForward e).forward = upd s.maps.forward e none := rfl
    pinv_auto
  · -- clear backward
    rename_i e i
    have he := half a e i (by rw [hpc]; exact ⟨rfl, rfl⟩)
    have hs := (shard a (shardOf i).1).mp (by rw [hpc]; rfl)
    have hsu : ∀ b, HoldsShard (s.pcs b) (shardOf i).1 → b = a := fun b hb => rel_uniq ((shard b _).mp hb) hs
    have hdu : ∀ b, Dying (s.pcs b) i → b = a := fun b hb => hsu b (dying_shard hb)
    simp only [Option.some.injEq, Prod.mk.injEq] at hact
    obtain ⟨rfl, rfl⟩ := hact
    have hC : (s.maps.setBack i none).capacity = s.maps.capacity := rfl
    have hF : (s.maps.setBack i none).forward = s.maps.forward := rfl
    have hB : (s.maps.setBack i none).B = upd s.maps.B i none := B_setBack_fun s.maps i none
    pinv_auto
  · cases hact

end Verif.Inmem
