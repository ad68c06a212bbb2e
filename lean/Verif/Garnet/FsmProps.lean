import Verif.Garnet.FsmLoad
/-
Properties of the persistent id allocator.
C31: ids handed out are not in use, the count is right; C32: restart; C62: quantization handover.
-/
namespace Verif.Garnet

/-- C31: in every interleaving, with storage failures anywhere, every id handed out was not in use at that
moment, every id released was; no id is in use twice; and the persisted bitmaps say exactly which ids are in
use. -/
theorem C31_no_double_allocation {U0 : List Nat} {s0 s : St} (h0 : Start U0 s0) (hs : Steps s0 s) :
    Valid U0 s.log ∧ (inUse U0 s.log).Nodup ∧ ∀ id, s.store.used id = true ↔ id ∈ inUse U0 s.log := by
  obtain ⟨_, h⟩ := reach_inv h0 hs
  exact ⟨h.valid, h.nodup, h.used⟩

/-- C31: the id a caller holds is the one it acquired last (so it was free when the caller took it). -/
theorem C31_holder_acquired {U0 : List Nat} {s0 s : St} (h0 : Start U0 s0) (hs : Steps s0 s) (t id : Nat)
    (hp : s.pc t = .hold id) : ∃ q, lastAcq t s.log = some (id, q) := by
  have := (reach_inv h0 hs).2.pcs t
  rw [hp] at this
  exact ⟨_, this⟩

/-- C31: whenever no call is running, the in-use count equals the number of ids in use. -/
theorem C31_count {U0 : List Nat} {s0 s : St} (h0 : Start U0 s0) (hs : Steps s0 s)
    (hq : ∀ t, s.pc t = .idle ∨ ∃ id, s.pc t = .hold id) : s.total = (inUse U0 s.log).length := by
  obtain ⟨A, B, _, _, hA, hB, hc⟩ := (reach_inv h0 hs).2.count
  have hA' : A = [] := List.eq_nil_iff_forall_not_mem.2 (by
    intro t ht
    rw [hA] at ht
    rcases hq t with h | ⟨id, h⟩ <;> rw [h] at ht <;> simp [PC.adding] at ht)
  have hB' : B = [] := List.eq_nil_iff_forall_not_mem.2 (by
    intro t ht
    rw [hB] at ht
    rcases hq t with h | ⟨id, h⟩ <;> rw [h] at ht <;> simp [PC.subbing] at ht)
  subst hA' hB'
  simpa using hc

/-- C31: at every moment the count is off by exactly the calls between their bitmap update and their counter
update. -/
theorem C31_count_any_time {U0 : List Nat} {s0 s : St} (h0 : Start U0 s0) (hs : Steps s0 s) :
    ∃ A B : List Nat, A.Nodup ∧ B.Nodup ∧
      (∀ t, t ∈ A ↔ ∃ id, s.pc t = .nAdd id ∨ s.pc t = .mint3 id) ∧ (∀ t, t ∈ B ↔ ∃ id, s.pc t = .fSub id) ∧
      s.total + (A.length : Int) = ((inUse U0 s.log).length : Int) + (B.length : Int) := by
  obtain ⟨A, B, h1, h2, hA, hB, hc⟩ := (reach_inv h0 hs).2.count
  refine ⟨A, B, h1, h2, ?_, ?_, hc⟩
  · intro t
    rw [hA]
    cases s.pc t <;> simp [PC.adding]
  · intro t
    rw [hB]
    cases s.pc t <;> simp [PC.subbing]

/-- C31: an id taken from the free list is always in range, so an allocation never fails with
`IdOutOfRange` on that path, and no storage update is ever out of bounds. -/
theorem C31_no_spurious_failure {U0 : List Nat} {s0 s : St} (h0 : Start U0 s0) (hs : Steps s0 s) :
    (∀ t id, s.pc t = .nCheck id → id < s.next) ∧ (∀ id u, s.store.mark id u ≠ none) := by
  obtain ⟨⟨mb, L, hc⟩, _⟩ := reach_inv h0 hs
  constructor
  · intro t id hp
    have := hc.pcs t
    rw [hp] at this
    exact Nat.lt_of_lt_of_le this.1 hc.lim
  · intro id u hn
    obtain ⟨s', h1, _⟩ := mark_spec hc.wf id u
    rw [h1] at hn; simp at hn

/-- C31: visiting the used ids yields exactly the ids in use, each once, in increasing order. -/
theorem C31_visit_used {U0 : List Nat} {s0 s : St} (h0 : Start U0 s0) (hs : Steps s0 s) :
    ∃ mb l, s.maxBlock = some mb ∧ visitUsed s.store mb = some l ∧ l.Pairwise (· < ·) ∧
      ∀ id, id ∈ l ↔ id ∈ inUse U0 s.log := by
  obtain ⟨⟨mb, L, hc⟩, hl⟩ := reach_inv h0 hs
  refine ⟨mb, (List.range' 0 ((mb + 1) * blockIds)).filter s.store.used, hc.maxb, ?_, ?_, ?_⟩
  · have := visitBlocks_spec hc.wf (mb + 1) 0 (fun b _ hb => hc.exist b (by omega))
    rw [Nat.zero_mul] at this
    exact this
  · exact List.Pairwise.filter _ (List.pairwise_lt_range' (s := 0))
  · intro id
    rw [List.mem_filter, List.mem_range'_1, hl.used]
    refine ⟨fun h => h.2, fun h => ⟨⟨Nat.zero_le _, ?_⟩, h⟩⟩
    rcases Nat.lt_or_ge id (0 + (mb + 1) * blockIds) with h1 | h1
    · exact h1
    · have hb : mb < blockOf id := (Nat.le_div_iff_mul_le (by decide)).2 (by rw [Nat.zero_add] at h1; exact h1)
      have := hc.clear id hb
      rw [← hl.used, this] at h
      simp at h

/-- The freshly created allocator is a start state with nothing in use. -/
theorem fresh_start (quant reuse : Bool) : Start [] (St.fresh quant reuse) := by
  have hwf : Store.WF (fun _ => none) := by intro b blk h; simp at h
  obtain ⟨h1, h2, h3⟩ := put_zero_spec hwf 0
  refine ⟨fun _ => rfl, rfl, rfl, rfl, h1, ?_, List.nodup_nil, rfl, by simp, ?_, by simp [St.fresh],
    by simp [St.fresh]⟩
  · intro id
    simp only [St.fresh, h2, List.not_mem_nil, iff_false]
    split
    · simp
    · simp [Store.used]
  · refine ⟨0, rfl, ?_, by simp⟩
    intro b hb
    have : b = 0 := by omega
    subst this
    simp [St.fresh, Store.put]

/-- A concrete history from the fresh allocator: thread 0 acquires id 0 and holds it. -/
theorem fresh_first (quant : Bool) : ∃ s, Steps (St.fresh quant false) s ∧ s.pc 0 = .hold 0 ∧
    s.log = [.acq 0 0 quant] ∧ s.total = 1 ∧ s.next = 1 ∧ s.reuse = false ∧ s.minter = none ∧
    s.store.contiguous 1 ∧ ∀ t, t ≠ 0 → s.pc t = .idle := by
  have hwf : Store.WF (St.fresh quant false).store := (fresh_start quant false).sizes
  obtain ⟨st', m1, m2, m3, m4⟩ := mark_spec hwf 0 true
  have hu : (St.fresh quant false).store.used 0 = false := by
    have := (fresh_start quant false).used 0
    cases h : (St.fresh quant false).store.used 0
    · rfl
    · rw [h] at this; simp at this
  rw [hu] at m1
  refine ⟨_, .step (.step (.step (.step (.step (.step .refl (.callNext _ 0 rfl)) (.reuseOff _ 0 rfl rfl))
    (.mintLock _ 0 rfl rfl)) (.expand _ 0 0 (St.fresh quant false).store (some 0) rfl ?_))
    (.mintChanged _ 0 0 st' rfl ?_)) (.mintAdd _ 0 0 rfl), rfl, rfl, rfl, rfl, rfl, rfl, ⟨?_, ?_⟩, ?_⟩
  · simp [expandTo, St.fresh, blockOf]
  · exact m1
  · intro b hb
    have : b = 0 := by omega
    subst this
    show (st' 0).isSome
    cases h : st' 0
    · exact absurd ((m4 0).1 h).2 (by simp [blockOf])
    · rfl
  · show st' 1 = none
    rw [m4]; simp [St.fresh, Store.put, blockOf]
  · intro t ht
    simp [upd, ht, St.fresh]

example : ∃ s, Steps (St.fresh false false) s ∧ inUse [] s.log = [0] ∧ s.total = 1 := by
  obtain ⟨s, h1, h2, h3, h4, h5⟩ := fresh_first false
  exact ⟨s, h1, by rw [h3]; rfl, h4⟩

/-! ## Restart -/

/-- C32, when every block read of the reload succeeds: whatever the moment of the restart, the reloaded
allocator is a start state whose in-use set is exactly the one before the restart, so the count is right, the
next fresh id is above every id in use, and every id on its free list is free.  Missing: read failures, which
the code swallows (see `C32_read_failure`). -/
theorem C32_restart_partial {U0 : List Nat} {s0 s : St} (h0 : Start U0 s0) (hs : Steps s0 s) (n : Nat)
    (hn : s.store.contiguous n) (quant reuse : Bool) :
    ∃ U, Start U (St.load s.store s.store n quant reuse) ∧ (∀ id, id ∈ U ↔ id ∈ inUse U0 s.log) ∧
      (St.load s.store s.store n quant reuse).total = (inUse U0 s.log).length := by
  obtain ⟨⟨mb, L, hc⟩, hl⟩ := reach_inv h0 hs
  have hmb : mb < n := by
    rcases Nat.lt_or_ge mb n with h | h
    · exact h
    · exact absurd hn.2 (hc.exist n h)
  have hclear : ∀ id, n ≤ blockOf id → s.store.used id = false := fun id hid => hc.clear id (by omega)
  have hst := load_start hc.wf (fun b hb hx => by have := hn.1 b hb; rw [hx] at this; simp at this)
    (by omega) hclear quant reuse
  have hmem : ∀ id, id ∈ (List.range' 0 (n * blockIds)).filter s.store.used ↔ id ∈ inUse U0 s.log := by
    intro id
    rw [← hl.used]
    exact (hst.used id).symm
  refine ⟨_, hst, hmem, ?_⟩
  rw [hst.total]
  exact congrArg _ (List.Perm.length_eq ((List.perm_ext_iff_of_nodup hst.nodup hl.nodup).2 hmem))

/-- C32, reuse after a restart: the reloaded free list holds only ids that are free and below the next fresh
id, none twice, and all of them unless it is full (1024 entries); and the allocator knows that there is
something to reuse exactly when there is. -/
theorem C32_restart_free_list {U0 : List Nat} {s0 s : St} (h0 : Start U0 s0) (hs : Steps s0 s) (n : Nat)
    (hn : s.store.contiguous n) (quant reuse : Bool) :
    ∃ r, r = St.load s.store s.store n quant reuse ∧
      (∀ id ∈ r.queue, id < r.next ∧ id ∉ inUse U0 s.log) ∧ r.queue.Nodup ∧
      (∀ id, id < r.next → id ∉ inUse U0 s.log → id ∈ r.queue ∨ 1024 ≤ r.queue.length) ∧
      (r.hasFree = true ↔ ∃ id, id < r.next ∧ id ∉ inUse U0 s.log) := by
  obtain ⟨-, hl⟩ := reach_inv h0 hs
  have hu : ∀ id, s.store.used id = false ↔ id ∉ inUse U0 s.log := by
    intro id; rw [← hl.used]; simp
  obtain ⟨a, b, c, d⟩ := load_free (s := s.store) (n := n)
    (fun b hb hx => by have := hn.1 b hb; rw [hx] at this; simp at this) quant reuse
  refine ⟨_, rfl, ?_, c, ?_, ?_⟩
  · intro id hid; rw [← hu]; exact b id hid
  · intro id h1 h2; exact a id h1 ((hu id).2 h2)
  · rw [d]; simp only [hu]

/-- Restarting after the first acquisition: the hypotheses are met. -/
example : ∃ s U n, Steps (St.fresh false false) s ∧ s.store.contiguous n ∧
    Start U (St.load s.store s.store n false true) ∧ 0 ∈ U := by
  obtain ⟨s, h1, h2, h3, h4, h5, h6, h7, h8, h9⟩ := fresh_first false
  obtain ⟨U, hU, hm, _⟩ := C32_restart_partial (fresh_start false false) h1 1 h8 false true
  exact ⟨s, U, 1, h1, h8, hU, by rw [hm, h3]; simp [inUse]⟩

example : ∃ s n, Steps (St.fresh false false) s ∧ s.store.contiguous n ∧ inUse [] s.log = [0] := by
  obtain ⟨s, h1, h2, h3, h4, h5, h6, h7, h8, h9⟩ := fresh_first false
  exact ⟨s, 1, h1, h8, by rw [h3]; rfl⟩

/-- C32 fails when a block read fails during the reload: the loop just stops.  Here one id is in use, the
restart cannot read its block, the reload still succeeds, and the next allocation hands the same id out
again. -/
theorem C32_read_failure : ∃ (s s' : St), Steps (St.fresh false false) s ∧ inUse [] s.log = [0] ∧
    s.store.contiguous 1 ∧
    Steps (St.load s.store (fun _ => none) 1 false false) s' ∧ s'.log = [.acq 0 0 false] ∧
    s'.pc 0 = .hold 0 := by
  obtain ⟨s, h1, h2, h3, h4, h5, h6, h7, h8, h9⟩ := fresh_first false
  obtain ⟨⟨mb, L, hc⟩, hl⟩ := reach_inv (fresh_start false false) h1
  have hu : s.store.used 0 = true := (hl.used 0).2 (by rw [h3]; simp [inUse])
  obtain ⟨st', m1, m2, m3, m4⟩ := mark_spec hc.wf 0 true
  rw [hu] at m1
  refine ⟨s, _, h1, by rw [h3]; rfl, h8, .step (.step (.step (.step (.step .refl (.callNext _ 0 rfl))
    (.reuseOff _ 0 rfl rfl)) (.mintLock _ 0 rfl rfl)) (.expand _ 0 0 s.store (some 0) rfl ?_))
    (.mintSame _ 0 0 st' rfl ?_), rfl, rfl⟩
  · simp [expandTo, St.load, blockOf]
  · exact m1

/-! ## Quantization handover -/

/-- C62: once quantization is enabled, every id that was ever handed out for an unquantized insert is at most
the recorded backfill limit, and nobody still holds one; and ids held now were acquired with the current
flag. -/
theorem C62_handover {U0 : List Nat} {s0 s : St} (h0 : Start U0 s0) (hs : Steps s0 s)
    (hq : s.quant = true) :
    (∀ t id, Ev.acq t id false ∈ s.log → id ≤ s.maxBackfill) ∧
    (∀ t id, s.pc t = .hold id → lastAcq t s.log = some (id, true)) := by
  have h := (reach_inv h0 hs).2
  refine ⟨h.handover hq, ?_⟩
  intro t id hp
  have := h.pcs t
  rw [hp, hq] at this
  exact this

/-- C62: while reuse is disabled every id handed out is fresh: larger than every id handed out before, and
than every id in use at the start. -/
theorem C62_no_reuse_before_enabled {U0 : List Nat} {s0 s : St} (h0 : Start U0 s0) (hs : Steps s0 s)
    (hr : s.reuse = false) :
    (acqIds s.log).Pairwise (· > ·) ∧ (∀ id ∈ acqIds s.log, s0.next ≤ id) ∧
    ∀ id ∈ acqIds s.log, id ∉ U0 := by
  have h := reach_reuse h0 hs hr
  refine ⟨h.dec, h.ge, ?_⟩
  intro id hid hm
  have := h.ge id hid
  have := h0.above id hm
  omega

/-- An unquantized acquisition, its guard dropped, then the switch: the hypotheses are met. -/
example : ∃ s, Steps (St.fresh false false) s ∧ s.quant = true ∧ s.reuse = false ∧
    Ev.acq 0 0 false ∈ s.log ∧ s.maxBackfill = 0 := by
  obtain ⟨s, h1, h2, h3, h4, h5, h6, h7, h8, h9⟩ := fresh_first false
  refine ⟨_, .step (.step h1 (.drop s 0 0 h2)) (.enableQuant _ ?_ h7), rfl, ?_, ?_, ?_⟩
  · intro t
    simp only [upd]
    split
    · exact id
    · rename_i ht; rw [h9 t ht]; exact id
  · exact h6
  · simp [h3]
  · simp [h5]

end Verif.Garnet
