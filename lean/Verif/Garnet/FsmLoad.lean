import Verif.Garnet.FsmLog
/-
Reloading the allocator, and visiting the used ids.
-/
namespace Verif.Garnet

structure ScanInv (used : Nat → Bool) (m n : Nat) (a : Scan) : Prop where
  le : m ≤ n
  total : a.total = ((List.range' m (n - m)).filter used).length
  lastNone : a.last = none → ∀ id, m ≤ id → id < n → used id = false
  lastSome : ∀ l, a.last = some l → used l = true ∧ m ≤ l ∧ l < n ∧
    ∀ id, m ≤ id → id < n → used id = true → id ≤ l
  queue : ∀ id ∈ a.queue, used id = false ∧ m ≤ id ∧ ∃ l, a.last = some l ∧ id < l
  nodup : a.queue.Nodup
  full : ∀ id, m ≤ id → used id = false → (∃ l, a.last = some l ∧ id < l) →
    id ∈ a.queue ∨ fastSize ≤ a.queue.length

theorem used_in_block {s : Store} {bid k : Nat} {blk : List Byte} (hb : s bid = some blk) (hk : k < blockIds) :
    s.used (bid * blockIds + k) =
      blkBit blk k := by
  have h1 : blockOf (bid * blockIds + k) = bid := by unfold blockOf blockIds at *; omega
  have h2 : byteOf (bid * blockIds + k) = k / 8 := by unfold byteOf blockIds at *; omega
  have h3 : bitOf (bid * blockIds + k) = k % 8 := by unfold bitOf blockIds at *; omega
  unfold Store.used blkBit
  rw [h1, h2, h3, hb]

theorem Scan.visit_inv {s : Store} {bid k n : Nat} {blk : List Byte} {a : Scan} (hb : s bid = some blk)
    (hk : k < blockIds) (h : ScanInv s.used (bid * blockIds + k + 1) n a) :
    ScanInv s.used (bid * blockIds + k) n (Scan.visit blk bid a k) := by
  have hu := used_in_block hb hk
  have hle := h.le
  have hr : List.range' (bid * blockIds + k) (n - (bid * blockIds + k)) =
      (bid * blockIds + k) :: List.range' (bid * blockIds + k + 1) (n - (bid * blockIds + k + 1)) := by
    have : n - (bid * blockIds + k) = (n - (bid * blockIds + k + 1)) + 1 := by omega
    rw [this, List.range'_succ]
  simp only [Scan.visit]
  rw [← hu]
  generalize bid * blockIds + k = x at *
  cases hux : s.used x with
  | true =>
    simp only [if_true]
    refine ⟨by omega, ?_, ?_, ?_, ?_, h.nodup, ?_⟩
    · simp only; rw [hr, List.filter_cons, if_pos hux, List.length_cons, h.total]
    · intro hc; simp at hc
    · intro l hl
      simp only [Option.some.injEq] at hl
      cases hal : a.last with
      | none =>
        rw [hal] at hl
        simp only [Option.getD_none, Nat.zero_max] at hl
        subst hl
        refine ⟨hux, Nat.le_refl _, by omega, ?_⟩
        intro id h1 h2 h3
        rcases Nat.lt_or_ge x id with h4 | h4
        · rw [h.lastNone hal id h4 h2] at h3; simp at h3
        · exact h4
      | some l0 =>
        rw [hal] at hl
        simp only [Option.getD_some] at hl
        obtain ⟨g1, g2, g3, g4⟩ := h.lastSome l0 hal
        have : l = l0 := by omega
        subst this
        refine ⟨g1, by omega, g3, ?_⟩
        intro id h1 h2 h3
        rcases Nat.lt_or_ge x id with h4 | h4
        · exact g4 id h4 h2 h3
        · omega
    · intro id hid
      obtain ⟨g1, g2, l, g3, g4⟩ := h.queue id hid
      refine ⟨g1, by omega, _, rfl, ?_⟩
      rw [g3]; simp only [Option.getD_some]; omega
    · rintro id h1 h2 ⟨l, h3, h4⟩
      simp only [Option.some.injEq] at h3
      cases hal : a.last with
      | none =>
        rw [hal] at h3
        simp only [Option.getD_none, Nat.zero_max] at h3
        omega
      | some l0 =>
        rw [hal] at h3
        simp only [Option.getD_some] at h3
        have hne : id ≠ x := fun e => by rw [e, hux] at h2; simp at h2
        obtain ⟨g1, g2, g3, g4⟩ := h.lastSome l0 hal
        exact h.full id (by omega) h2 ⟨l0, hal, by omega⟩
  | false =>
    simp only [Bool.false_eq_true, if_false]
    have key : ∀ q : List Nat, (∀ id ∈ q, s.used id = false ∧ x ≤ id ∧ ∃ l, a.last = some l ∧ id < l) →
        q.Nodup → (∀ id, x ≤ id → s.used id = false → (∃ l, a.last = some l ∧ id < l) →
          id ∈ q ∨ fastSize ≤ q.length) →
        ScanInv s.used x n { a with queue := q } := by
      intro q hq hqn hqf
      refine ⟨by omega, ?_, ?_, ?_, hq, hqn, hqf⟩
      · simp only; rw [hr, List.filter_cons, if_neg (by simp [hux]), h.total]
      · intro hc id h1 h2
        rcases Nat.lt_or_ge x id with h4 | h4
        · exact h.lastNone hc id h4 h2
        · have : id = x := by omega
          subst this; exact hux
      · intro l hl
        obtain ⟨g1, g2, g3, g4⟩ := h.lastSome l hl
        refine ⟨g1, by omega, g3, ?_⟩
        intro id h1 h2 h3
        rcases Nat.lt_or_ge x id with h4 | h4
        · exact g4 id h4 h2 h3
        · omega
    have hold : ∀ id ∈ a.queue, s.used id = false ∧ x ≤ id ∧ ∃ l, a.last = some l ∧ id < l := by
      intro id hid
      obtain ⟨g1, g2, g3⟩ := h.queue id hid
      exact ⟨g1, by omega, g3⟩
    have hfull : ∀ id, x ≤ id → id ≠ x → s.used id = false → (∃ l, a.last = some l ∧ id < l) →
        id ∈ a.queue ∨ fastSize ≤ a.queue.length := fun id h1 h2 h3 h4 => h.full id (by omega) h3 h4
    cases hal : a.last with
    | none =>
      simp only [Bool.false_eq_true, if_false]
      refine key a.queue hold h.nodup ?_
      rintro id _ _ ⟨l, hl, _⟩
      rw [hal] at hl; cases hl
    | some l =>
      simp only [decide_eq_true_eq]
      split
      · rename_i hc
        rw [← hal]
        split
        · apply key
          · intro id hid
            rcases List.mem_append.1 hid with hid | hid
            · exact hold id hid
            · simp only [List.mem_singleton] at hid
              subst hid
              exact ⟨hux, Nat.le_refl _, l, hal, hc⟩
          · rw [List.nodup_append]
            refine ⟨h.nodup, by simp, ?_⟩
            intro c hc' d hd hcd
            simp only [List.mem_singleton] at hd
            subst hd; subst hcd
            have := (h.queue c hc').2.1
            omega
          · intro id h1 h2 h3
            rcases Nat.eq_or_lt_of_le h1 with h4 | h4
            · left; rw [← h4]; simp
            · rcases hfull id h1 (by omega) h2 h3 with h5 | h5
              · left; exact List.mem_append_left _ h5
              · right; rw [List.length_append]; omega
        · rename_i hq
          refine key a.queue hold h.nodup ?_
          intro id _ _ _
          right; omega
      · rename_i hc
        refine key a.queue hold h.nodup ?_
        intro id h1 h2 h3
        obtain ⟨l', hl', hlt⟩ := h3
        rw [hal] at hl'
        cases hl'
        exact hfull id h1 (by rintro rfl; exact hc hlt) h2 ⟨l, hal, hlt⟩

theorem Scan.fold_inv {s : Store} {bid n : Nat} {blk : List Byte} (hb : s bid = some blk) :
    ∀ (K : Nat) (a : Scan), K ≤ blockIds → ScanInv s.used (bid * blockIds + K) n a →
      ScanInv s.used (bid * blockIds) n ((List.range K).reverse.foldl (Scan.visit blk bid) a) := by
  intro K
  induction K with
  | zero => intro a _ h; simpa using h
  | succ K ih =>
    intro a hK h
    rw [List.range_succ, List.reverse_append]
    simp only [List.reverse_cons, List.reverse_nil, List.nil_append, List.cons_append, List.foldl_cons]
    have h' : ScanInv s.used (bid * blockIds + K + 1) n a := by rw [Nat.add_assoc]; exact h
    exact ih _ (by omega) (Scan.visit_inv hb (by omega) h')

theorem Scan.blocks_inv {s : Store} {n : Nat} : ∀ (k : Nat) (a : Scan), (∀ b, b < k → s b ≠ none) →
    ScanInv s.used (k * blockIds) n a → ScanInv s.used 0 n (Scan.blocks s k a) := by
  intro k
  induction k with
  | zero => intro a _ h; simpa [Scan.blocks] using h
  | succ k ih =>
    intro a hex h
    cases hb : s k with
    | none => exact absurd hb (hex k (by omega))
    | some blk =>
      simp only [Scan.blocks, hb]
      apply ih _ (fun b hb => hex b (by omega))
      unfold Scan.block
      apply Scan.fold_inv hb blockIds a (Nat.le_refl _)
      rw [Nat.succ_mul] at h; exact h

/-- The free list a reload builds. -/
theorem load_free {s : Store} {n : Nat} (hex : ∀ b, b < n → s b ≠ none) (quant reuse : Bool) :
    (∀ id, id < (St.load s s n quant reuse).next → s.used id = false →
      id ∈ (St.load s s n quant reuse).queue ∨ fastSize ≤ (St.load s s n quant reuse).queue.length) ∧
    (∀ id ∈ (St.load s s n quant reuse).queue, id < (St.load s s n quant reuse).next ∧ s.used id = false) ∧
    (St.load s s n quant reuse).queue.Nodup ∧
    ((St.load s s n quant reuse).hasFree = true ↔
      ∃ id, id < (St.load s s n quant reuse).next ∧ s.used id = false) := by
  have h0 : ScanInv s.used (n * blockIds) (n * blockIds) ⟨none, 0, []⟩ := by
    refine ⟨Nat.le_refl _, ?_, ?_, ?_, ?_, ?_, ?_⟩
    · simp
    · intro _ id h1 h2; omega
    · intro l hl; simp at hl
    · intro id hid; simp at hid
    · simp
    · rintro id _ _ ⟨l, hl, _⟩; simp at hl
  have h := Scan.blocks_inv n _ hex h0
  unfold St.load
  dsimp only
  generalize Scan.blocks s n ⟨none, 0, []⟩ = a at h
  have h1 : ∀ id, id < (match a.last with | none => 0 | some l => l + 1) → s.used id = false →
      id ∈ a.queue ∨ fastSize ≤ a.queue.length := by
    intro id hid hu
    cases hal : a.last with
    | none => rw [hal] at hid; simp at hid
    | some l =>
      rw [hal] at hid
      have : id ≠ l := fun e => by rw [e, (h.lastSome l hal).1] at hu; simp at hu
      exact h.full id (Nat.zero_le _) hu ⟨l, hal, by simp only at hid; omega⟩
  have h2 : ∀ id ∈ a.queue, id < (match a.last with | none => 0 | some l => l + 1) ∧ s.used id = false := by
    intro id hid
    obtain ⟨g1, -, l, g3, g4⟩ := h.queue id hid
    rw [g3]
    exact ⟨by simp only; omega, g1⟩
  refine ⟨h1, h2, h.nodup, ?_⟩
  cases hq : a.queue with
  | nil =>
    simp only [List.isEmpty_nil, Bool.not_true, Bool.false_eq_true, false_iff]
    rintro ⟨id, h3, h4⟩
    rcases h1 id h3 h4 with h5 | h5
    · rw [hq] at h5; simp at h5
    · rw [hq] at h5; revert h5; decide
  | cons x q =>
    simp only [List.isEmpty_cons, Bool.not_false, true_iff]
    exact ⟨x, h2 x (by rw [hq]; simp)⟩

/-- Everything a reload of a well-formed store yields. -/
theorem load_start {s : Store} {n : Nat} (hwf : s.WF) (hex : ∀ b, b < n → s b ≠ none) (hn : 0 < n)
    (hclear : ∀ id, n ≤ blockOf id → s.used id = false) (quant reuse : Bool) :
    Start ((List.range' 0 (n * blockIds)).filter s.used) (St.load s s n quant reuse) := by
  have h0 : ScanInv s.used (n * blockIds) (n * blockIds) ⟨none, 0, []⟩ := by
    refine ⟨Nat.le_refl _, ?_, ?_, ?_, ?_, ?_, ?_⟩
    · simp
    · intro _ id h1 h2; omega
    · intro l hl; simp at hl
    · intro id hid; simp at hid
    · simp
    · rintro id _ _ ⟨l, hl, _⟩; simp at hl
  have h := Scan.blocks_inv n _ hex h0
  obtain ⟨a, ha⟩ : ∃ a, a = Scan.blocks s n ⟨none, 0, []⟩ := ⟨_, rfl⟩
  rw [← ha] at h
  have hlt : ∀ id, s.used id = true → id < n * blockIds := by
    intro id hid
    rcases Nat.lt_or_ge id (n * blockIds) with h1 | h1
    · exact h1
    · rw [hclear id ((Nat.le_div_iff_mul_le (by decide)).2 h1)] at hid; simp at hid
  have hmem : ∀ id, id ∈ (List.range' 0 (n * blockIds)).filter s.used ↔ s.used id = true := by
    intro id
    rw [List.mem_filter, List.mem_range'_1]
    exact ⟨fun x => x.2, fun x => ⟨⟨Nat.zero_le _, by have := hlt id x; omega⟩, x⟩⟩
  have hnext : ∀ l, a.last = some l → (St.load s s n quant reuse).next = l + 1 := by
    intro l hl; simp only [St.load, ← ha, hl]
  have hblk : ∀ id, id < n * blockIds → blockOf id ≤ n - 1 := by
    intro id hid
    have : blockOf id < n := (Nat.div_lt_iff_lt_mul (by decide)).2 hid
    omega
  refine ⟨fun _ => rfl, rfl, rfl, rfl, hwf, fun id => (hmem id).symm, ?_, ?_, ?_, ?_, ?_, ?_⟩
  · exact (List.nodup_range' ).filter _
  · simp only [St.load, ← ha, h.total, Nat.sub_zero]
  · intro id hid
    have hu := (hmem id).1 hid
    cases hal : a.last with
    | none => rw [h.lastNone hal id (Nat.zero_le _) (hlt id hu)] at hu; simp at hu
    | some l =>
      rw [hnext l hal]
      have := (h.lastSome l hal).2.2.2 id (Nat.zero_le _) (hlt id hu) hu
      omega
  · refine ⟨n - 1, rfl, fun b hb => hex b (by omega), ?_⟩
    intro id hid
    exact hblk id (hlt id ((hmem id).1 hid))
  · intro id hid
    have hid' : id ∈ a.queue := by simpa only [St.load, ← ha] using hid
    obtain ⟨g1, g2, l, g3, g4⟩ := h.queue id hid'
    rw [hnext l g3]
    exact ⟨by omega, by rw [hmem, g1]; simp⟩
  · intro id hid mb hmb
    have hid' : id ∈ a.queue := by simpa only [St.load, ← ha] using hid
    obtain ⟨g1, g2, l, g3, g4⟩ := h.queue id hid'
    have := (h.lastSome l g3).2.2.1
    simp only [St.load, Option.some.injEq] at hmb
    rw [← hmb]
    exact hblk id (by omega)

/-- From a start state the invariants hold. -/
theorem Start.core {U0 : List Nat} {s : St} (h : Start U0 s) : ∃ mb, Core s mb s.next := by
  obtain ⟨mb, h1, h2, h3⟩ := h.blocks
  have hf : ∀ id, id ∉ U0 → s.store.used id = false := by
    intro id hid
    cases hu : s.store.used id with
    | false => rfl
    | true => exact absurd ((h.used id).1 hu) hid
  refine ⟨mb, h.sizes, h1, h2, ?_, ?_, Nat.le_refl _, fun _ => rfl, ?_, ?_⟩
  · intro id hid
    exact hf id (fun hm => by have := h3 id hm; omega)
  · intro id hid
    exact hf id (fun hm => by have := h.above id hm; omega)
  · intro id hid
    exact ⟨(h.queue id hid).1, h.queueBlocks id hid mb h1⟩
  · intro t; rw [h.idle t]; trivial

theorem Start.logInv {U0 : List Nat} {s : St} (h : Start U0 s) : LogInv U0 s := by
  have hl := h.log
  refine ⟨?_, ?_, ?_, ?_, ?_, ?_, ?_⟩
  · intro id; rw [hl]; exact h.used id
  · rw [hl]; exact h.nodup
  · rw [hl]; trivial
  · intro t; rw [h.idle t]; trivial
  · refine ⟨[], [], List.nodup_nil, List.nodup_nil, ?_, ?_, ?_⟩
    · intro t; rw [h.idle t]; simp [PC.adding]
    · intro t; rw [h.idle t]; simp [PC.subbing]
    · rw [hl]; simp [inUse, h.total]
  · intro id hid; rw [hl] at hid; simp [acqIds] at hid
  · intro _ t id hid; rw [hl] at hid; simp at hid

theorem Start.reuseInv {U0 : List Nat} {s : St} (h : Start U0 s) : ReuseInv s.next s := by
  have hl := h.log
  refine ⟨?_, ?_, ?_, Nat.le_refl _, ?_⟩
  · intro t; rw [h.idle t]; trivial
  · rw [hl]; exact List.Pairwise.nil
  · intro id hid; rw [hl] at hid; simp [acqIds] at hid
  · intro t id hid; rw [h.idle t] at hid; simp at hid

theorem reach_inv {U0 : List Nat} {s0 s : St} (h : Start U0 s0) (hs : Steps s0 s) :
    (∃ mb L, Core s mb L) ∧ LogInv U0 s := by
  induction hs with
  | refl => obtain ⟨mb, hc⟩ := h.core; exact ⟨⟨mb, _, hc⟩, h.logInv⟩
  | step _ h2 ih =>
    obtain ⟨⟨mb, L, hc⟩, hl⟩ := ih
    exact ⟨hc.step h2, hl.step hc h2⟩

theorem reach_reuse {U0 : List Nat} {s0 s : St} (h : Start U0 s0) (hs : Steps s0 s) (hr : s.reuse = false) :
    ReuseInv s0.next s := by
  induction hs with
  | refl => exact h.reuseInv
  | step h1 h2 ih =>
    obtain ⟨⟨mb, L, hc⟩, hl⟩ := reach_inv h h1
    exact (ih (h2.reuse_mono hr)).step hc hl h2 hr

/-! `visit_used` -/

theorem filterMap_range8 (b : Byte) (id : Nat) :
    (List.range 8).filterMap (fun i => if bitUsed b i then some (id + i) else none) =
      (List.range' id 8).filter (fun j => bitUsed b (j - id)) := by
  rw [List.range'_eq_map_range, List.filter_map]
  have : ((fun j => bitUsed b (j - id)) ∘ fun x => id + x) = fun x => bitUsed b x := by
    funext x; simp
  rw [this]
  generalize List.range 8 = l
  induction l with
  | nil => rfl
  | cons x l ih =>
    simp only [List.filterMap_cons, List.filter_cons]
    split <;> simp_all

theorem visitBytes_spec (f : Nat → Bool) : ∀ (bs : List Byte) (id : Nat),
    (∀ k, k < 8 * bs.length → f (id + k) = blkBit bs k) →
    visitBytes bs id = ((List.range' id (8 * bs.length)).filter f, id + 8 * bs.length) := by
  intro bs
  induction bs with
  | nil => intro id _; simp [visitBytes]
  | cons b bs ih =>
    intro id hf
    have h1 := ih (id + 8) (by
      intro k hk
      have := hf (k + 8) (by simp only [List.length_cons]; omega)
      unfold blkBit at this ⊢
      rw [show id + (k + 8) = id + 8 + k by omega, show (k + 8) / 8 = k / 8 + 1 by omega,
        show (k + 8) % 8 = k % 8 by omega, List.getElem?_cons_succ] at this
      exact this)
    have h8 : ∀ i, i < 8 → f (id + i) = bitUsed b i := by
      intro i hi
      have := hf i (by simp only [List.length_cons]; omega)
      unfold blkBit at this
      rw [show i / 8 = 0 by omega, show i % 8 = i by omega] at this
      simpa using this
    have hsplit : List.range' id (8 * (b :: bs).length) =
        List.range' id 8 ++ List.range' (id + 8) (8 * bs.length) := by
      rw [List.length_cons, show 8 * (bs.length + 1) = 8 + 8 * bs.length by omega]
      rw [← List.range'_append_1]
    have hfirst : (List.range' id 8).filter f = (List.range' id 8).filter (fun j => bitUsed b (j - id)) := by
      apply List.filter_congr
      intro j hj
      rw [List.mem_range'_1] at hj
      have := h8 (j - id) (by omega)
      rw [show id + (j - id) = j by omega] at this
      exact this
    simp only [visitBytes, h1]
    rw [hsplit, List.filter_append, hfirst]
    split
    · rename_i hb
      subst hb
      have : (List.range' id 8).filter (fun j => bitUsed 0#8 (j - id)) = [] := by
        apply List.filter_eq_nil_iff.2
        intro j hj
        rw [List.mem_range'_1] at hj
        rw [bitUsed_zero ⟨j - id, by omega⟩]; simp
      rw [this]
      simp only [List.nil_append, List.length_cons, Prod.mk.injEq, true_and]; omega
    · rw [filterMap_range8]
      simp only [List.length_cons, Prod.mk.injEq, true_and]; omega

theorem visitBlocks_spec {s : Store} (hwf : s.WF) : ∀ (n k : Nat), (∀ b, k ≤ b → b < k + n → s b ≠ none) →
    visitBlocks s k n (k * blockIds) = some ((List.range' (k * blockIds) (n * blockIds)).filter s.used) := by
  intro n
  induction n with
  | zero => intro k _; simp [visitBlocks]
  | succ n ih =>
    intro k hex
    cases hb : s k with
    | none => exact absurd hb (hex k (Nat.le_refl _) (by omega))
    | some blk =>
      have hlen := hwf k blk hb
      have h8 : 8 * blk.length = blockIds := by rw [hlen]; rfl
      have h1 := visitBytes_spec s.used blk (k * blockIds) (by
        intro i hi
        rw [h8] at hi
        exact used_in_block hb hi)
      rw [h8] at h1
      have h2 := ih (k + 1) (fun b h1 h2 => hex b (by omega) (by omega))
      rw [Nat.succ_mul] at h2
      simp only [visitBlocks, hb, h1, h2]
      rw [← List.filter_append, Nat.succ_mul, Nat.add_comm (n * blockIds), ← List.range'_append_1]

end Verif.Garnet
