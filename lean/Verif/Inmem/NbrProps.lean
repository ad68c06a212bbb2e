import Verif.Inmem.NbrSpec
import Verif.Inmem.EbrLemmas
import Mathlib.Tactic.Common

/-! # C25: the adjacency store is linearizable, bounded and memory safe -/

namespace Verif.Inmem

structure NInv (cfg : NbrConfig) (s : NState) (A : Nat → List Nat) : Prop where
  ub : s.ub = false
  len : ∀ i < cfg.entries, s.mem (cfg.row i) = (A i).length ∧ (A i).length ≤ cfg.maxLen
  cell : ∀ i < cfg.entries, (∀ a ap off l k, s.pcs a ≠ .writing i ap off l k) →
    ∀ j (h : j < (A i).length), s.mem (cfg.row i + 1 + j) = (A i)[j]
  wr : ∀ a i ap off l k, s.pcs a = .writing i ap off l k → i < cfg.entries ∧ k ≤ l.length ∧
    off + l.length ≤ cfg.maxLen ∧ off = (if ap then (A i).length else 0) ∧
    (∀ j (h : j < (A i).length), j < off → s.mem (cfg.row i + 1 + j) = (A i)[j]) ∧
    ∀ j (h : j < l.length), j < k → s.mem (cfg.row i + off + 1 + j) = l[j]
  rd : ∀ a i len acc, s.pcs a = .reading i len acc → i < cfg.entries ∧ len = (A i).length ∧
    acc = (A i).take acc.length ∧ acc.length ≤ len
  excl : ∀ a b g, (s.pcs a).holdsWrite g → a ≠ b → ¬ (s.pcs b).holdsWrite g ∧ ¬ (s.pcs b).holdsRead g

theorem row_ne {cfg : NbrConfig} {i i' j j' : Nat} (h : i ≠ i') (hj : j ≤ cfg.maxLen) (hj' : j' ≤ cfg.maxLen) :
    cfg.row i + j ≠ cfg.row i' + j' := by
  unfold NbrConfig.row NbrConfig.stride
  intro he
  apply h
  have h1 : (j + (cfg.maxLen + 1) * i) / (cfg.maxLen + 1) = i := by
    rw [Nat.add_mul_div_left _ _ (by omega), Nat.div_eq_of_lt (by omega)]; omega
  have h2 : (j' + (cfg.maxLen + 1) * i') / (cfg.maxLen + 1) = i' := by
    rw [Nat.add_mul_div_left _ _ (by omega), Nat.div_eq_of_lt (by omega)]; omega
  rw [← h1, ← h2]
  congr 1
  omega

theorem row_lt {cfg : NbrConfig} {i j : Nat} (h : i < cfg.entries) (hj : j ≤ cfg.maxLen) :
    cfg.row i + j < cfg.cells := by
  unfold NbrConfig.row NbrConfig.cells NbrConfig.stride
  have : (cfg.maxLen + 1) * (i + 1) ≤ (cfg.maxLen + 1) * cfg.entries := Nat.mul_le_mul_left _ h
  rw [Nat.mul_add] at this
  omega

theorem NInv.touch {cfg : NbrConfig} {s : NState} {A : Nat → List Nat} (h : NInv cfg s A) {c : Nat}
    (hc : c < cfg.cells) : s.touch cfg c = s := by
  unfold NState.touch
  have : decide (cfg.cells ≤ c) = false := by simp; omega
  rw [this, Bool.or_false]

theorem holdsWrite_iff {pc : NPC} {g : Nat} : pc.holdsWrite g ↔ ∃ i ap off l k, pc = .writing i ap off l k ∧ lockIndex i = g := by
  cases pc <;> simp [NPC.holdsWrite]

theorem holdsRead_iff {pc : NPC} {g : Nat} : pc.holdsRead g ↔ ∃ i len acc, pc = .reading i len acc ∧ lockIndex i = g := by
  cases pc <;> simp [NPC.holdsRead]

/-- Changing only a program counter. -/
theorem NInv.goto {cfg : NbrConfig} {s : NState} {A : Nat → List Nat} (h : NInv cfg s A) (a : Nat) (pc : NPC)
    (hcell : ∀ i ap off l k, s.pcs a = .writing i ap off l k → ∃ ap' off' l' k', pc = .writing i ap' off' l' k')
    (hwr : ∀ i ap off l k, pc = .writing i ap off l k → i < cfg.entries ∧ k ≤ l.length ∧
      off + l.length ≤ cfg.maxLen ∧ off = (if ap then (A i).length else 0) ∧
      (∀ j (h : j < (A i).length), j < off → s.mem (cfg.row i + 1 + j) = (A i)[j]) ∧
      ∀ j (h : j < l.length), j < k → s.mem (cfg.row i + off + 1 + j) = l[j])
    (hrd : ∀ i len acc, pc = .reading i len acc → i < cfg.entries ∧ len = (A i).length ∧
      acc = (A i).take acc.length ∧ acc.length ≤ len)
    (hex : ∀ g, (pc.holdsWrite g → ∀ b, b ≠ a → ¬ (s.pcs b).holdsWrite g ∧ ¬ (s.pcs b).holdsRead g) ∧
      (pc.holdsRead g → ∀ b, b ≠ a → ¬ (s.pcs b).holdsWrite g)) :
    NInv cfg (s.goto a pc) A := by
  refine ⟨h.ub, h.len, ?_, ?_, ?_, ?_⟩
  · intro i hi hno
    apply h.cell i hi
    intro b ap off l k hb
    by_cases hba : b = a
    · subst hba
      obtain ⟨ap', off', l', k', hpc⟩ := hcell i ap off l k hb
      exact hno b ap' off' l' k' (by simp [NState.goto, hpc])
    · exact hno b ap off l k (by simp [NState.goto, upd_ne hba, hb])
  · intro b i ap off l k hb
    simp only [NState.goto, upd_apply] at hb
    split at hb
    · exact hwr i ap off l k hb
    · exact h.wr b i ap off l k hb
  · intro b i len acc hb
    simp only [NState.goto, upd_apply] at hb
    split at hb
    · exact hrd i len acc hb
    · exact h.rd b i len acc hb
  · intro b c g hb hbc
    simp only [NState.goto, upd_apply] at hb ⊢
    split at hb
    · rename_i hba
      rw [if_neg (by rw [← hba]; exact fun hh => hbc hh.symm)]
      exact (hex g).1 hb c (by rw [← hba]; exact fun hh => hbc hh.symm)
    · rename_i hba
      split
      · rename_i hca
        constructor
        · intro hw; exact ((hex g).1 hw b hba).1 hb
        · intro hr; exact (hex g).2 hr b hba hb
      · exact h.excl b c g hb hbc

theorem entries_of_early {cfg : NbrConfig} {i : Nat} (h : earlyError cfg (.get i) = none) : i < cfg.entries := by
  simp only [earlyError] at h; split at h
  · simp at h
  · omega

/-- Every step preserves the invariant and returns a right result. -/
theorem nstep_inv {cfg : NbrConfig} {s s' : NState} {A : Nat → List Nat} {e : Option NEv} (h : NInv cfg s A)
    (st : NStep cfg s s' e) : ∃ A', (∀ ev, e = some ev → specNbr cfg.entries cfg.maxLen A ev = some A') ∧
      (e = none → A' = A) ∧ NInv cfg s' A' := by
  cases st with
  | reject a op ev hpc hev =>
    refine ⟨A, ?_, by simp, h⟩
    rintro ev' ⟨⟩
    cases op with
    | get i =>
      simp only [earlyError] at hev
      split at hev
      · cases hev; simp [specNbr]; omega
      · simp at hev
    | append i l =>
      simp only [earlyError] at hev
      split at hev
      · cases hev; simp [specNbr]; omega
      · simp at hev
    | set i l =>
      simp only [earlyError] at hev
      split at hev
      · cases hev; simp [specNbr]; omega
      · split at hev
        · cases hev; simp [specNbr]; omega
        · simp at hev
  | getLock a i hpc hev hl =>
    have hi := entries_of_early hev
    rw [h.touch (c := cfg.row i) (row_lt (j := 0) hi (by omega))]
    refine ⟨A, by simp, fun _ => rfl, ?_⟩
    obtain ⟨h1, h2⟩ := h.len i hi
    apply h.goto
    · intro i' ap off l k hh; rw [hpc] at hh; simp at hh
    · intro i' ap off l k hh; simp at hh
    · intro i' len acc hh
      simp only [NPC.reading.injEq] at hh
      obtain ⟨rfl, rfl, rfl⟩ := hh
      refine ⟨hi, by rw [h1]; omega, by simp, by simp⟩
    · intro g
      refine ⟨by simp [NPC.holdsWrite], ?_⟩
      intro hg b hb
      simp only [NPC.holdsRead] at hg
      subst hg
      exact hl b
  | getCopy a i len acc hpc hlt =>
    obtain ⟨r1, r2, r3, r4⟩ := h.rd a i len acc hpc
    obtain ⟨h1, h2⟩ := h.len i r1
    rw [h.touch (by rw [Nat.add_assoc]; exact row_lt r1 (by omega))]
    refine ⟨A, by simp, fun _ => rfl, ?_⟩
    have hno : ∀ b ap off l k, s.pcs b ≠ .writing i ap off l k := by
      intro b ap off l k hb
      by_cases hba : b = a
      · subst hba; rw [hpc] at hb; simp at hb
      · have := (h.excl b a (lockIndex i) (by rw [hb]; rfl) hba).2
        apply this; rw [hpc]; rfl
    apply h.goto
    · intro i' ap off l k hh; rw [hpc] at hh; simp at hh
    · intro i' ap off l k hh; simp at hh
    · intro i' len' acc' hh
      simp only [NPC.reading.injEq] at hh
      obtain ⟨rfl, rfl, rfl⟩ := hh
      refine ⟨r1, r2, ?_, by simp; omega⟩
      have hc := h.cell i r1 hno acc.length (by omega)
      rw [hc]
      simp only [List.length_append, List.length_singleton]
      rw [List.take_add_one, List.getElem?_eq_getElem (by omega), Option.toList_some, ← r3]
    · intro g
      refine ⟨by simp [NPC.holdsWrite], ?_⟩
      intro hg b hb hw
      exact (h.excl b a g hw hb).2 (by rw [hpc]; exact hg)
  | getDone a i len acc hpc hle =>
    obtain ⟨r1, r2, r3, r4⟩ := h.rd a i len acc hpc
    refine ⟨A, ?_, by simp, ?_⟩
    · rintro ev ⟨⟩
      have : acc = A i := by
        rw [r3, List.take_of_length_le (by omega)]
      simp [specNbr, r1, this]
    · apply h.goto
      · intro i' ap off l k hh; rw [hpc] at hh; simp at hh
      · intro i' ap off l k hh; simp at hh
      · intro i' len' acc' hh; simp at hh
      · intro g; simp [NPC.holdsWrite, NPC.holdsRead]
  | setLock a i l hpc hev hl =>
    have hi : i < cfg.entries ∧ l.length ≤ cfg.maxLen := by
      simp only [earlyError] at hev
      split at hev
      · simp at hev
      · split at hev
        · simp at hev
        · omega
    refine ⟨A, by simp, fun _ => rfl, ?_⟩
    apply h.goto
    · intro i' ap off l k hh; rw [hpc] at hh; simp at hh
    · intro i' ap off l' k hh
      simp only [NPC.writing.injEq] at hh
      obtain ⟨rfl, rfl, rfl, rfl, rfl⟩ := hh
      refine ⟨hi.1, by omega, by omega, by simp, by intro j h1 h2; omega, by intro j h1 h2; omega⟩
    · intro i' len' acc' hh; simp at hh
    · intro g
      refine ⟨?_, by simp [NPC.holdsRead]⟩
      intro hg b hb
      simp only [NPC.holdsWrite] at hg
      subst hg
      exact hl b
  | appendLock a i l hpc hev hl hlen =>
    have hi := entries_of_early (cfg := cfg) (i := i) hev
    obtain ⟨h1, h2⟩ := h.len i hi
    rw [h.touch (c := cfg.row i) (row_lt (j := 0) hi (by omega))]
    refine ⟨A, by simp, fun _ => rfl, ?_⟩
    have hm : min (s.mem (cfg.row i)) cfg.maxLen = (A i).length := by omega
    have hno : ∀ b ap off l k, s.pcs b ≠ .writing i ap off l k := by
      intro b ap off l k hb
      apply (hl b).1; rw [hb]; rfl
    rw [hm] at hlen ⊢
    apply h.goto
    · intro i' ap off l k hh; rw [hpc] at hh; simp at hh
    · intro i' ap off l' k hh
      simp only [NPC.writing.injEq] at hh
      obtain ⟨rfl, rfl, rfl, rfl, rfl⟩ := hh
      refine ⟨hi, by omega, by omega, by simp, ?_, by intro j h1 h2; omega⟩
      intro j hj _
      exact h.cell i hi hno j hj
    · intro i' len' acc' hh; simp at hh
    · intro g
      refine ⟨?_, by simp [NPC.holdsRead]⟩
      intro hg b hb
      simp only [NPC.holdsWrite] at hg
      subst hg
      exact hl b
  | appendTooLong a i l hpc hev hl hlen =>
    have hi := entries_of_early (cfg := cfg) (i := i) hev
    obtain ⟨h1, h2⟩ := h.len i hi
    rw [h.touch (c := cfg.row i) (row_lt (j := 0) hi (by omega))]
    refine ⟨A, ?_, by simp, h⟩
    rintro ev ⟨⟩
    have hm : min (s.mem (cfg.row i)) cfg.maxLen = (A i).length := by omega
    rw [hm] at hlen
    simp only [specNbr]
    rw [if_pos ⟨hi, hlen⟩]
  | copy a i ap off l k hk hpc =>
    obtain ⟨w1, w2, w3, w4, w5, w6⟩ := h.wr a i ap off l k hpc
    refine ⟨A, by simp, fun _ => rfl, ?_⟩
    have hcell : cfg.row i + off + 1 + k < cfg.cells := by
      have := row_lt (cfg := cfg) (j := off + 1 + k) w1 (by omega)
      omega
    have hother : ∀ i' j, i' ≠ i → j ≤ cfg.maxLen → cfg.row i' + j ≠ cfg.row i + off + 1 + k := by
      intro i' j hne hj
      have := row_ne (cfg := cfg) (j := j) (j' := off + 1 + k) hne hj (by omega)
      omega
    -- first the program counter and memory together
    have hwuniq : ∀ b i' ap' off' l' k', b ≠ a → s.pcs b = .writing i' ap' off' l' k' → i' ≠ i := by
      intro b i' ap' off' l' k' hba hb he
      subst he
      exact (h.excl b a (lockIndex i') (by rw [hb]; rfl) hba).1 (by rw [hpc]; rfl)
    unfold NState.write
    rw [h.touch hcell]
    refine ⟨h.ub, ?_, ?_, ?_, ?_, ?_⟩
    · intro i' hi'
      simp only [NState.goto]
      obtain ⟨g1, g2⟩ := h.len i' hi'
      refine ⟨?_, g2⟩
      rw [upd_ne ?_]
      · exact g1
      · by_cases hii : i' = i
        · subst hii; omega
        · have := hother i' 0 hii (by omega); omega
    · intro i' hi' hno j hj
      simp only [NState.goto] at hno ⊢
      have hii : i' ≠ i := by
        rintro rfl
        exact hno a ap off l (k + 1) (by simp)
      have hlen := (h.len i' hi').2
      rw [upd_ne (by rw [Nat.add_assoc]; exact hother i' (1 + j) hii (by omega))]
      apply h.cell i' hi' ?_ j hj
      intro b ap' off' l' k' hb
      by_cases hba : b = a
      · subst hba; rw [hpc] at hb; simp only [NPC.writing.injEq] at hb; exact hii hb.1.symm
      · exact hno b ap' off' l' k' (by rw [upd_ne hba]; exact hb)
    · intro b i' ap' off' l' k' hb
      simp only [NState.goto] at hb ⊢
      by_cases hba : b = a
      · subst hba
        rw [upd_self] at hb
        simp only [NPC.writing.injEq] at hb
        obtain ⟨rfl, rfl, rfl, rfl, rfl⟩ := hb
        refine ⟨w1, by omega, w3, w4, ?_, ?_⟩
        · intro j hj hjo
          rw [upd_ne (by omega)]
          exact w5 j hj hjo
        · intro j hj hjk
          by_cases hjk2 : j = k
          · subst hjk2; rw [upd_self]
          · rw [upd_ne (by omega)]
            exact w6 j hj (by omega)
      · rw [upd_ne hba] at hb
        have hii := hwuniq b i' ap' off' l' k' hba hb
        obtain ⟨v1, v2, v3, v4, v5, v6⟩ := h.wr b i' ap' off' l' k' hb
        have hlen := (h.len i' v1).2
        refine ⟨v1, v2, v3, v4, ?_, ?_⟩
        · intro j hj hjo
          rw [upd_ne (by rw [Nat.add_assoc]; exact hother i' (1 + j) hii (by omega))]
          exact v5 j hj hjo
        · intro j hj hjk
          have := hother i' (off' + 1 + j) hii (by omega)
          rw [upd_ne (by omega)]
          exact v6 j hj hjk
    · intro b i' len acc hb
      simp only [NState.goto] at hb
      by_cases hba : b = a
      · subst hba; rw [upd_self] at hb; simp at hb
      · rw [upd_ne hba] at hb; exact h.rd b i' len acc hb
    · intro b c g hb hbc
      simp only [NState.goto] at hb ⊢
      have hb' : (s.pcs b).holdsWrite g := by
        rw [upd_apply] at hb; split at hb
        · rename_i hba; rw [hba, hpc]; exact hb
        · exact hb
      have := h.excl b c g hb' hbc
      rw [upd_apply]; split
      · rename_i hca
        rw [hca, hpc] at this
        exact this
      · exact this
  | finish a i ap off l k hpc hk =>
    obtain ⟨w1, w2, w3, w4, w5, w6⟩ := h.wr a i ap off l k hpc
    have hwuniq : ∀ b i' ap' off' l' k', b ≠ a → s.pcs b = .writing i' ap' off' l' k' → i' ≠ i := by
      intro b i' ap' off' l' k' hba hb he
      subst he
      exact (h.excl b a (lockIndex i') (by rw [hb]; rfl) hba).1 (by rw [hpc]; rfl)
    have hruniq : ∀ b i' len acc, s.pcs b = .reading i' len acc → i' ≠ i := by
      intro b i' len acc hb he
      subst he
      have hba : a ≠ b := by rintro rfl; rw [hpc] at hb; simp at hb
      exact (h.excl a b (lockIndex i') (by rw [hpc]; rfl) hba).2 (by rw [hb]; rfl)
    have hcell : cfg.row i < cfg.cells := row_lt (cfg := cfg) (j := 0) w1 (by omega)
    have hother : ∀ i' j, i' ≠ i → j ≤ cfg.maxLen → cfg.row i' + j ≠ cfg.row i := by
      intro i' j hne hj
      exact row_ne (cfg := cfg) (j := j) (j' := 0) hne hj (by omega)
    obtain ⟨hlen1, hlen2⟩ := h.len i w1
    -- the new list
    have hA : ∃ T : List Nat, T.length = off + l.length ∧
        specNbr cfg.entries cfg.maxLen A (if ap then .append i l else .set i l) = some (upd A i T) ∧
        ∀ j (hj : j < T.length), s.mem (cfg.row i + 1 + j) = T[j] := by
      cases ap with
      | true =>
        simp only [if_true] at w4 ⊢
        subst w4
        refine ⟨A i ++ l, by simp, by simp only [specNbr]; rw [if_pos ⟨w1, w3⟩], ?_⟩
        intro j hj
        rw [List.length_append] at hj
        by_cases hjo : j < (A i).length
        · rw [List.getElem_append_left hjo]; exact w5 j hjo hjo
        · rw [List.getElem_append_right (by omega)]
          have := w6 (j - (A i).length) (by omega) (by omega)
          rw [← this]
          congr 1; omega
      | false =>
        simp only [Bool.false_eq_true, if_false] at w4 ⊢
        subst w4
        refine ⟨l, by simp, by simp only [specNbr]; rw [if_pos ⟨w1, by omega⟩], ?_⟩
        intro j hj
        have := w6 j hj (by omega)
        rw [← this]
    obtain ⟨T, hT1, hT2, hT3⟩ := hA
    refine ⟨upd A i T, by rintro ev ⟨⟩; exact hT2, by simp, ?_⟩
    unfold NState.write
    rw [h.touch hcell]
    refine ⟨h.ub, ?_, ?_, ?_, ?_, ?_⟩
    · intro i' hi'
      simp only [NState.goto]
      by_cases hii : i' = i
      · subst hii; rw [upd_self, upd_self]; omega
      · rw [upd_ne hii, upd_ne (by have := hother i' 0 hii (by omega); omega)]
        exact h.len i' hi'
    · intro i' hi' hno j hj
      simp only [NState.goto] at hno hj ⊢
      by_cases hii : i' = i
      · subst hii
        simp only [upd_self] at hj ⊢
        rw [upd_ne (by omega)]
        exact hT3 j hj
      · simp only [upd_ne hii] at hj ⊢
        have hlen := (h.len i' hi').2
        rw [upd_ne (by rw [Nat.add_assoc]; exact hother i' (1 + j) hii (by omega))]
        apply h.cell i' hi' ?_ j hj
        intro b ap' off' l' k' hb
        by_cases hba : b = a
        · subst hba; rw [hpc] at hb; simp only [NPC.writing.injEq] at hb; exact hii hb.1.symm
        · exact hno b ap' off' l' k' (by rw [upd_ne hba]; exact hb)
    · intro b i' ap' off' l' k' hb
      simp only [NState.goto] at hb ⊢
      by_cases hba : b = a
      · subst hba; rw [upd_self] at hb; simp at hb
      · rw [upd_ne hba] at hb
        have hii := hwuniq b i' ap' off' l' k' hba hb
        obtain ⟨v1, v2, v3, v4, v5, v6⟩ := h.wr b i' ap' off' l' k' hb
        have hlen := (h.len i' v1).2
        simp only [upd_ne hii]
        refine ⟨v1, v2, v3, v4, ?_, ?_⟩
        · intro j hj hjo
          rw [upd_ne (by rw [Nat.add_assoc]; exact hother i' (1 + j) hii (by omega))]
          exact v5 j hj hjo
        · intro j hj hjk
          have := hother i' (off' + 1 + j) hii (by omega)
          rw [upd_ne (by omega)]
          exact v6 j hj hjk
    · intro b i' len acc hb
      simp only [NState.goto] at hb
      by_cases hba : b = a
      · subst hba; rw [upd_self] at hb; simp at hb
      · rw [upd_ne hba] at hb
        have hii := hruniq b i' len acc hb
        rw [upd_ne hii]
        exact h.rd b i' len acc hb
    · intro b c g hb hbc
      simp only [NState.goto] at hb ⊢
      rw [upd_apply] at hb ⊢
      split at hb
      · simp [NPC.holdsWrite] at hb
      · have := h.excl b c g hb hbc
        split
        · simp [NPC.holdsWrite, NPC.holdsRead]
        · exact this

theorem nrun_inv {cfg : NbrConfig} {s : NState} {tr : List NEv} (r : NRun cfg s tr) :
    ∃ A, specNbrRun cfg.entries cfg.maxLen tr = some A ∧ NInv cfg s A := by
  induction r with
  | init =>
    refine ⟨fun _ => [], rfl, rfl, by simp [NState.init], ?_, ?_, ?_, ?_⟩
    · intro i _ _ j hj; simp at hj
    · intro a i ap off l k hh; simp [NState.init] at hh
    · intro a i len acc hh; simp [NState.init] at hh
    · intro a b g hh; simp [NState.init, NPC.holdsWrite] at hh
  | step r st ih =>
    rename_i s1 s2 tr e
    obtain ⟨A, hA, hI⟩ := ih
    obtain ⟨A', h1, h2, h3⟩ := nstep_inv hI st
    refine ⟨A', ?_, h3⟩
    cases e with
    | none => simp only [Option.toList_none, List.append_nil]; rw [h2 rfl]; exact hA
    | some ev =>
      simp only [Option.toList_some]
      unfold specNbrRun at hA ⊢
      rw [List.foldl_append, hA]
      exact h1 ev rfl

/-- Linearizability: in every execution, with any number of threads interleaving their cell accesses, the results
returned so far are, in the order the operations returned, exactly the results a plain map from vertex to
neighbour list would give. In particular a read returns what was last written to that vertex (never a mixture),
writing one vertex changes no other, and rejected writes change nothing. -/
theorem C25_linearizable (cfg : NbrConfig) (s : NState) (tr : List NEv) (r : NRun cfg s tr) :
    (specNbrRun cfg.entries cfg.maxLen tr).isSome := by
  obtain ⟨A, h, -⟩ := nrun_inv r
  rw [h]; rfl

/-- No execution touches memory outside the allocation. -/
theorem C25_memory_safe (cfg : NbrConfig) (s : NState) (tr : List NEv) (r : NRun cfg s tr) : s.ub = false := by
  obtain ⟨A, -, h⟩ := nrun_inv r
  exact h.ub

/-- Stored lists never exceed the configured length. -/
theorem C25_bounded (cfg : NbrConfig) (s : NState) (tr : List NEv) (r : NRun cfg s tr) (A : Nat → List Nat)
    (hA : specNbrRun cfg.entries cfg.maxLen tr = some A) (i : Nat) (hi : i < cfg.entries) :
    (A i).length ≤ cfg.maxLen ∧ s.mem (cfg.row i) = (A i).length := by
  obtain ⟨A', h, hI⟩ := nrun_inv r
  rw [hA] at h; cases h
  exact ⟨(hI.len i hi).2, (hI.len i hi).1⟩

/-- No two threads are ever inside conflicting critical sections of the same lock group. -/
theorem C25_exclusion (cfg : NbrConfig) (s : NState) (tr : List NEv) (r : NRun cfg s tr) (a b i i' : Nat)
    (ap : Bool) (off : Nat) (l : List Nat) (k : Nat) (ha : s.pcs a = .writing i ap off l k) (hab : a ≠ b)
    (hg : i / 16 = i' / 16) :
    (∀ ap' off' l' k', s.pcs b ≠ .writing i' ap' off' l' k') ∧ ∀ len acc, s.pcs b ≠ .reading i' len acc := by
  obtain ⟨A, -, hI⟩ := nrun_inv r
  have := hI.excl a b (lockIndex i) (by rw [ha]; rfl) hab
  refine ⟨?_, ?_⟩
  · intro ap' off' l' k' hb
    exact this.1 (by rw [hb]; exact hg.symm)
  · intro len acc hb
    exact this.2 (by rw [hb]; exact hg.symm)

/-- The specification tells right from wrong: a read returning a torn list is rejected. -/
example : (specNbrRun 2 3 [.set 0 [5, 6], .append 0 [7], .get 0 [5, 6, 7], .get 1 [], .appendTooLong 0 [8]]).isSome ∧
    ¬ (specNbrRun 2 3 [.set 0 [5, 6], .get 0 [5, 7]]).isSome ∧
    ¬ (specNbrRun 2 3 [.set 0 [5, 6], .append 0 [7, 8]]).isSome := by decide

/-- A concrete execution: thread 0 sets row 0, thread 1 reads it. -/
example : ∃ s, NRun ⟨2, 3⟩ s [.set 0 [7], .get 0 [7]] := by
  have r0 := NRun.init (cfg := ⟨2, 3⟩)
  have r1 := r0.step (.setLock 0 0 [7] rfl rfl (fun b => by simp [NState.init, NPC.holdsWrite, NPC.holdsRead]))
  have r2 := r1.step (.copy 0 0 false 0 [7] 0 (by decide) rfl)
  have r3 := r2.step (.finish 0 0 false 0 [7] 1 rfl (by decide))
  have r4 := r3.step (.getLock 1 0 rfl rfl (fun b => by
    by_cases hb : b = 0
    · subst hb; simp [NState.goto, NState.write, NState.touch, NPC.holdsWrite]
    · simp [NState.goto, NState.write, NState.touch, upd_ne hb, NState.init, NPC.holdsWrite]))
  have r5 := r4.step (.getCopy 1 0 1 [] rfl (by decide))
  have r6 := r5.step (.getDone 1 0 1 [7] rfl (by decide))
  exact ⟨_, r6⟩

end Verif.Inmem
