import Verif.Inmem.AllocAcquire

/-! # C24: slot allocation -/

namespace Verif.Inmem

/-! ## Minting -/

/-- Whatever the interleaving of threads asking for fresh ids, every id is handed out at most once, all of them are
below the limit, and the ids handed out are exactly the ones below the counter: none is skipped. -/
theorem C24_mint_unique (max : Nat) (sched : List Nat) :
    let s := mintRun max MintState.init sched
    s.minted.Nodup ∧ (∀ i, i ∈ s.minted ↔ i < s.next) ∧ s.next ≤ max := by
  intro s
  obtain ⟨h1, h2⟩ := mint_inv max sched MintState.init ⟨rfl, Nat.zero_le _⟩
  refine ⟨?_, ?_, h2⟩
  · rw [h1, List.nodup_reverse]; exact List.nodup_range
  · intro i; rw [h1]; simp [s]

/-- Three threads racing on the first id. -/
example : (mintRun 2 MintState.init [0, 1, 2, 1, 0, 2, 0]).minted = [1, 0] := by decide

/-! ## Acquire -/

/-- For every history of operations on a fresh store, `acquire` returns (it neither panics nor loops). If it
returns a slot, that slot is writable, was available or waiting to be reclaimed, and is now owned by the caller;
no other slot changes except by becoming available after having been retired. -/
theorem C24_acquire_sound (max rc : Nat) (hrc : 1 ≤ rc) (ops : List AOp) :
    ∃ s r s', (Alloc.init max rc).run ops = some s ∧ s.acquire = some (r, s') ∧
      (∀ i, r = some i → i < max ∧ (s.tags i = AVAILABLE ∨ s.tags i = RETIRING) ∧ s'.tags i = OWNED) ∧
      ∀ j, r ≠ some j → s'.tags j = s.tags j ∨ (s.tags j = RETIRING ∧ s'.tags j = AVAILABLE) := by
  obtain ⟨s, e1, e2, e3⟩ := run_wfa ops _ (init_wfa max rc hrc)
  obtain ⟨r, s', f1, f2, f3, t, f4, f5, f6⟩ := acquireLoop_spec RETRY_LIMIT s e2
  refine ⟨s, r, s', e1, f1, ?_, ?_⟩
  · rintro i hi
    obtain ⟨a, b, c⟩ := f6 i hi
    refine ⟨by rw [e3] at b; exact b, ?_, by rw [c]; simp⟩
    rcases f4 i with h | ⟨h, -⟩
    · left; rw [← h]; exact a
    · right; exact h
  · intro j hj
    cases r with
    | none => rw [f5 rfl]; exact f4 j
    | some i =>
      obtain ⟨a, b, c⟩ := f6 i rfl
      rw [c, upd_ne (by rintro rfl; exact hj rfl)]
      exact f4 j

/-- Two live acquisitions never share a slot: a slot somebody owns or has published is never handed out. -/
theorem C24_acquire_exclusive (max rc : Nat) (hrc : 1 ≤ rc) (ops : List AOp) (s s' : Alloc) (i : Nat)
    (hs : (Alloc.init max rc).run ops = some s) (ha : s.acquire = some (some i, s')) :
    s.tags i ≠ OWNED ∧ s.tags i ≠ PUBLISHED ∧ s.tags i ≠ FROZEN := by
  obtain ⟨t, r, t', e1, e2, e3, -⟩ := C24_acquire_sound max rc hrc ops
  rw [hs] at e1; cases e1
  rw [ha] at e2; cases e2
  obtain ⟨-, h, -⟩ := e3 i rfl
  rcases h with h | h <;> rw [h] <;> decide

/-- Completeness, as long as the 32-bit scan counter does not wrap inside a round of buckets (or the number of
buckets divides `2^32`): for every history, `acquire` reports exhaustion only if no writable slot is available or
waiting to be reclaimed. Missing: counters that wrap; see `C24_acquire_incomplete`. -/
theorem C24_acquire_complete_partial (max rc : Nat) (hrc : 1 ≤ rc) (ops : List AOp) (s s' : Alloc)
    (hs : (Alloc.init max rc).run ops = some s)
    (hw : (max + 255) / 256 ∣ 2 ^ 32 ∨ s.scanBucket + (max + 255) / 256 ≤ 2 ^ 32)
    (ha : s.acquire = some (none, s')) : ∀ i < max, s.tags i ≠ AVAILABLE ∧ s.tags i ≠ RETIRING := by
  obtain ⟨t, e1, e2, e3⟩ := run_wfa ops _ (init_wfa max rc hrc)
  rw [hs] at e1; cases e1
  have hm : s.max = max := e3
  intro i hi
  refine acquire_none s s' e2 ?_ ha i (by omega)
  unfold NoWrap numBuckets
  rw [hm]; exact hw

private theorem wrap_misses (j i : Nat) (hj : j < 20) (a : 256 * ((4294967284 + j) % 2 ^ 32 % 20) ≤ i)
    (b : i < 256 * ((4294967284 + j) % 2 ^ 32 % 20) + 256) : i ≠ 4096 := by
  have hk : (4294967284 + j) % 2 ^ 32 % 20 < 16 := by
    have : ∀ j < 20, (4294967284 + j) % 2 ^ 32 % 20 < 16 := by decide
    exact this j hj
  intro h
  generalize (4294967284 + j) % 2 ^ 32 % 20 = k at *
  omega

/-- Without that restriction completeness fails: a store of 5120 slots, all taken, on which `acquire` has failed
429496729 times (the scan counter is then at `2^32 - 12`) and whose owner of slot 4096 then gives it back, still
reports exhaustion although slot 4096 is available. -/
theorem C24_acquire_incomplete : ∃ ops s s', (Alloc.init 5120 1024).run ops = some s ∧
    s.tags 4096 = AVAILABLE ∧ s.acquire = some (none, s') := by
  have hw0 := init_wfa 5120 1024 (by decide)
  have h1 := run_fresh 5120 1024 5120 (Nat.le_refl _)
  obtain ⟨s1, hs1⟩ : ∃ s1 : Alloc, s1 = { Alloc.init 5120 1024 with
      next := 5120, tags := fun i => if i < 5120 then OWNED else (Alloc.init 5120 1024).tags i } := ⟨_, rfl⟩
  rw [← hs1] at h1
  obtain ⟨s1', e1, e2, -⟩ := run_wfa (List.replicate 5120 .acquire) _ hw0
  rw [h1] at e1; cases e1
  have ht1 : ∀ i, s1.tags i ≠ AVAILABLE := by
    intro i
    rw [hs1]
    simp only [Alloc.init]
    split
    · decide
    · decide
  have h2 := run_full 429496729 s1 e2 (by rw [hs1]; rfl) (by rw [hs1]) (by rw [hs1]; rfl) (by rw [hs1]; intro q; rfl) ht1
  obtain ⟨s2, hs2⟩ : ∃ s2 : Alloc, s2 = { s1 with
      scanBucket := (s1.scanBucket + 20 * 429496729) % 2 ^ 32, epoch := s1.epoch + 20 * 429496729 } := ⟨_, rfl⟩
  rw [← hs2] at h2
  obtain ⟨s2', f1, f2, -⟩ := run_wfa (List.replicate 429496729 .acquire) _ e2
  rw [h2] at f1; cases f1
  have hsb : s2.scanBucket = 4294967284 := by rw [hs2, hs1]; rfl
  have ht2 : ∀ i, s2.tags i ≠ AVAILABLE := by rw [hs2]; exact ht1
  have hown : s2.tags 4096 = OWNED := by
    rw [hs2, hs1]; simp only; rw [if_pos (by decide)]
  obtain ⟨s3, hs3⟩ : ∃ s3 : Alloc, s3 = { s2 with tags := upd s2.tags 4096 AVAILABLE } := ⟨_, rfl⟩
  have h3 : s2.apply (.abandon 4096) = some s3 := by
    simp only [Alloc.apply, hown, if_true, hs3]
  obtain ⟨s3', g1, g2, -⟩ := apply_wfa s2 f2 (.abandon 4096)
  rw [h3] at g1; cases g1
  have hskip := acquire_skip 20 s3 g2 (by rw [hs3, hs2, hs1]; rfl) (by rw [hs3, hs2, hs1])
    (by rw [hs3, hs2, hs1]; rfl) (by rw [hs3, hs2, hs1]; intro q; rfl) (by
      intro j hj i a b
      have hb : s3.scanBucket = 4294967284 := by rw [hs3]; exact hsb
      rw [hb] at a b
      have hne : i ≠ 4096 := wrap_misses j i hj a b
      rw [hs3]
      show upd s2.tags 4096 AVAILABLE i ≠ AVAILABLE
      rw [upd_ne hne]
      exact ht2 i)
  refine ⟨List.replicate 5120 .acquire ++ (List.replicate 429496729 .acquire ++ [.abandon 4096]), s3, _, ?_, ?_, hskip⟩
  · rw [run_append, h1]
    show s1.run (List.replicate 429496729 .acquire ++ [.abandon 4096]) = some s3
    rw [run_append, h2]
    show s2.run [.abandon 4096] = some s3
    unfold Alloc.run
    rw [h3]; rfl
  · rw [hs3]; simp

/-- A store of three slots: fill it, see it exhausted, retire one slot; the next `acquire` reclaims it. -/
example : (((Alloc.init 3 2).run [.acquire, .acquire, .acquire, .publish 1]).bind (fun s =>
    s.acquire.map Prod.fst)) = some none := by decide +kernel

example : (((Alloc.init 3 2).run [.acquire, .acquire, .acquire, .publish 1, .retire 1]).bind (fun s =>
    s.acquire.map Prod.fst)) = some (some 1) := by decide +kernel

/-- An abandoned slot is found by the scan. -/
example : (((Alloc.init 600 2).run (List.replicate 600 .acquire ++ [.abandon 300])).map (fun s => s.scanBucket))
    = some 0 := by decide +kernel

example : (((Alloc.init 3 2).run [.acquire, .acquire, .acquire, .abandon 2]).bind (fun s =>
    s.acquire.map Prod.fst)) = some (some 2) := by decide +kernel

end Verif.Inmem
