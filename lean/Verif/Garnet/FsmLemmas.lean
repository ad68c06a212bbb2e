import Verif.Garnet.FsmModel
import Mathlib.Tactic.Common
import Mathlib.Data.List.Nodup
/-
Lemmas about the free space map: bit operations, and the inductive invariant.
-/
namespace Verif.Garnet

/-- The bit operations, over all bytes and bit positions. -/
theorem bitUsed_update : ∀ (b : BitVec 8) (i j : Fin 8) (u : Bool),
    bitUsed (updateStatus u b i).1 j = if i = j then u else bitUsed b j := by decide +kernel

theorem changed_update : ∀ (b : BitVec 8) (i : Fin 8) (u : Bool),
    (updateStatus u b i).2 = (bitUsed b i != u) := by decide +kernel

theorem bitUsed_ff : ∀ (i : Fin 8), bitUsed 0xff#8 i = true := by decide +kernel

theorem bitUsed_zero : ∀ (i : Fin 8), bitUsed 0#8 i = false := by decide +kernel

/-- All stored blocks have the block size. -/
def Store.WF (s : Store) : Prop := ∀ b blk, s b = some blk → blk.length = blockBytes

theorem byteOf_lt (id : Nat) : byteOf id < blockBytes := by
  unfold byteOf blockIds blockBytes; omega

theorem bitOf_lt (id : Nat) : bitOf id < 8 := by unfold bitOf; omega

theorem id_ext {a b : Nat} (h1 : blockOf a = blockOf b) (h2 : byteOf a = byteOf b)
    (h3 : bitOf a = bitOf b) : a = b := by
  unfold blockOf byteOf bitOf blockIds at *; omega

theorem zeroBlock_get (i : Nat) (h : i < blockBytes) : zeroBlock[i]? = some 0#8 := by
  unfold zeroBlock
  rw [List.getElem?_replicate, if_pos h]

theorem zeroBlock_length : zeroBlock.length = blockBytes := List.length_replicate

theorem used_none {s : Store} {id : Nat} (h : s (blockOf id) = none) : s.used id = false := by
  unfold Store.used; rw [h]

theorem mark_spec {s : Store} (h : s.WF) (id : Nat) (u : Bool) :
    ∃ s', s.mark id u = some (s', s.used id != u) ∧ s'.WF ∧
      (∀ j, s'.used j = if j = id then u else s.used j) ∧
      (∀ b, s' b = none ↔ s b = none ∧ b ≠ blockOf id) := by
  obtain ⟨blk, hblk⟩ : ∃ blk, blk = (s (blockOf id)).getD zeroBlock := ⟨_, rfl⟩
  have hlen : blk.length = blockBytes := by
    rw [hblk]
    cases hs : s (blockOf id) with
    | none => exact zeroBlock_length
    | some b => exact h _ _ hs
  have hget : ∀ j, blockOf j = blockOf id → s.used j = (match blk[byteOf j]? with
      | none => false | some b => bitUsed b (bitOf j)) := by
    intro j hj
    unfold Store.used
    rw [hj, hblk]
    cases hs : s (blockOf id) with
    | none =>
      simp only [Option.getD_none, zeroBlock_get _ (byteOf_lt j)]
      exact (bitUsed_zero ⟨bitOf j, bitOf_lt j⟩).symm
    | some b => rfl
  have hlt : byteOf id < blk.length := by rw [hlen]; exact byteOf_lt id
  have hb : blk[byteOf id]? = some blk[byteOf id] := List.getElem?_eq_getElem hlt
  obtain ⟨b, hb⟩ : ∃ b, blk[byteOf id]? = some b := ⟨_, hb⟩
  have hch := changed_update b ⟨bitOf id, bitOf_lt id⟩ u
  have hbu := fun j : Fin 8 => bitUsed_update b ⟨bitOf id, bitOf_lt id⟩ j u
  simp only at hch hbu
  have hid : s.used id = bitUsed b (bitOf id) := by rw [hget id rfl, hb]
  refine ⟨s.put (blockOf id) (blk.set (byteOf id) (updateStatus u b (bitOf id)).1), ?_, ?_, ?_, ?_⟩
  · unfold Store.mark
    simp only [← hblk, hb]
    rw [hch, hid]
  · intro k x hx
    unfold Store.put at hx
    split at hx
    · simp only [Option.some.injEq] at hx
      rw [← hx, List.length_set]; exact hlen
    · exact h k x hx
  · intro j
    by_cases hj : blockOf j = blockOf id
    · have hput : (s.put (blockOf id) (blk.set (byteOf id) (updateStatus u b (bitOf id)).1)).used j =
          (match (blk.set (byteOf id) (updateStatus u b (bitOf id)).1)[byteOf j]? with
            | none => false | some b => bitUsed b (bitOf j)) := by
        conv_lhs => unfold Store.used Store.put
        rw [hj]; simp only [if_true]; rfl
      rw [hput]
      by_cases hbyte : byteOf j = byteOf id
      · rw [hbyte, List.getElem?_set_self (by simpa using hlt)]
        simp only
        have := hbu ⟨bitOf j, bitOf_lt j⟩
        simp only [Fin.mk.injEq] at this
        rw [this]
        by_cases hbit : bitOf id = bitOf j
        · rw [if_pos hbit, if_pos (id_ext hj hbyte hbit.symm)]
        · rw [if_neg hbit, if_neg (by rintro rfl; exact hbit rfl), hget j hj, hbyte, hb]
      · rw [List.getElem?_set_ne (Ne.symm hbyte), if_neg (by rintro rfl; exact hbyte rfl), hget j hj]
    · rw [if_neg (by rintro rfl; exact hj rfl)]
      unfold Store.used Store.put
      rw [if_neg hj]
  · intro k
    unfold Store.put
    by_cases hk : k = blockOf id
    · subst hk; simp
    · simp [hk]

theorem put_zero_spec {s : Store} (h : s.WF) (k : Nat) :
    (s.put k zeroBlock).WF ∧ (∀ j, (s.put k zeroBlock).used j = if blockOf j = k then false else s.used j) ∧
    (∀ b, s.put k zeroBlock b = none ↔ s b = none ∧ b ≠ k) := by
  refine ⟨?_, ?_, ?_⟩
  · intro b x hx
    unfold Store.put at hx
    split at hx
    · simp only [Option.some.injEq] at hx; rw [← hx]; exact zeroBlock_length
    · exact h b x hx
  · intro j
    unfold Store.used Store.put
    by_cases hj : blockOf j = k
    · rw [if_pos hj, if_pos hj]
      simp only [zeroBlock_get _ (byteOf_lt j)]
      exact bitUsed_zero ⟨bitOf j, bitOf_lt j⟩
    · rw [if_neg hj, if_neg hj]
  · intro b
    unfold Store.put
    by_cases hk : b = k
    · simp [hk]
    · simp [hk]

end Verif.Garnet
