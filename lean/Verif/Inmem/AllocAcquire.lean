import Verif.Inmem.AllocLemmas
import Mathlib.Algebra.BigOperators.Intervals
import Mathlib.Algebra.Order.BigOperators.Group.Finset
import Mathlib.Data.Int.ModEq

/-! # Completeness of `acquire` -/

namespace Verif.Inmem

theorem scanAcquire_spec (s : Alloc) (h : WFA s) (hx : s.next = s.max) (hr : s.recycled = []) :
    (∃ k, s.scanAcquire = some (none, { s with scanBucket := (s.scanBucket + k) % 2 ^ 32 }) ∧
      (s.max + RETRY_LIMIT - 1) / RETRY_LIMIT ≤ cover s.max s.scanBucket k ∧ NoneIn s s.scanBucket k) ∨
    ∃ i s', s.scanAcquire = some (some i, s') ∧ s.tags i = AVAILABLE ∧ WFA s' ∧
      s'.tags = upd s.tags i OWNED ∧ s'.max = s.max := by
  unfold Alloc.scanAcquire
  by_cases hpos : 0 < s.max
  · rcases scanLoop_spec ((s.max + RETRY_LIMIT - 1) / RETRY_LIMIT) s ((s.max + RETRY_LIMIT - 1) / RETRY_LIMIT) 0 h hx hr hpos
      (Nat.le_refl _) with ⟨k, e1, e2, -, e4⟩ | hf
    · exact Or.inl ⟨k, e1, e2, e4⟩
    · exact Or.inr hf
  · left
    have : s.max = 0 := by omega
    have hsb := h.sb
    have h0 : (s.max + RETRY_LIMIT - 1) / RETRY_LIMIT = 0 := by rw [this]; decide
    refine ⟨0, ?_, by rw [h0]; simp, by intro j hj; omega⟩
    simp only [h0]
    unfold scanLoop
    simp only [Nat.add_zero, Nat.mod_eq_of_lt hsb]

/-- How tags may have moved during an `acquire`: only from retiring to available. -/
def Moved (t t' : Nat → Nat) : Prop := ∀ i, t' i = t i ∨ (t i = RETIRING ∧ t' i = AVAILABLE)

theorem Moved.refl (t : Nat → Nat) : Moved t t := fun _ => Or.inl rfl

theorem Moved.trans {t t' t'' : Nat → Nat} (h : Moved t t') (h' : Moved t' t'') : Moved t t'' := by
  have hd := tags_distinct.2.2.1
  intro i
  rcases h i with a | ⟨a, b⟩ <;> rcases h' i with c | ⟨c, d⟩
  · left; rw [c, a]
  · right; exact ⟨a ▸ c, d⟩
  · right; exact ⟨a, c ▸ b⟩
  · exact absurd (b.symm.trans c) hd

/-- What a finished `acquireLoop` looks like. -/
theorem acquireLoop_spec (n : Nat) (s : Alloc) (h : WFA s) :
    ∃ r s', acquireLoop n s = some (r, s') ∧ WFA s' ∧ s'.max = s.max ∧
      ∃ t, Moved s.tags t ∧
        (r = none → s'.tags = t) ∧ (∀ i, r = some i → t i = AVAILABLE ∧ i < s.max ∧ s'.tags = upd t i OWNED) := by
  induction n generalizing s with
  | zero => exact ⟨none, s, rfl, h, rfl, s.tags, Moved.refl _, fun _ => rfl, by simp⟩
  | succ n ih =>
    have hmax : ∀ i, s.tags i = AVAILABLE → i < s.max := by
      intro i hi; by_contra hh
      exact tags_distinct.2.2.2.2.2.2.1 ((h.out i (by omega)).symm.trans hi)
    rcases h.pop with ⟨id, s', e1, e2, e3, e4, e5, e6, e7, e8⟩ | ⟨e1, e2, e3⟩
    · refine ⟨some id, { s' with tags := upd s'.tags id OWNED }, ?_, e2.take (by rw [e3]; exact e5) e7 e8, e4, s.tags,
        Moved.refl _, by simp, ?_⟩
      · unfold acquireLoop Alloc.slot
        simp only [e1, e3, e5, if_true]
      · rintro i ⟨⟩
        exact ⟨e5, e6, by simp only [e3]⟩
    · rcases scanAcquire_spec s h e3 e2 with ⟨k, f1, f2, f3⟩ | ⟨i, s', f1, f2, f3, f4, f5⟩
      · have h' : WFA { s with scanBucket := (s.scanBucket + k) % 2 ^ 32 } := h.setBucket _
        obtain ⟨s1, g1, g2, g3, g4, g5, g6, g7, g8, g9⟩ := tryDrain_spec _ h'
        obtain ⟨r, s', i1, i2, i3, t, i4, i5, i6⟩ := ih s1 g2
        refine ⟨r, s', ?_, i2, i3.trans g3, t, Moved.trans ?_ i4, i5, ?_⟩
        · unfold acquireLoop
          simp only [e1, f1, g1, i1]
        · intro i
          rw [g7]
          split
          · rename_i hi; right; exact ⟨(h.queued _ i hi).1, rfl⟩
          · left; rfl
        · intro i hi
          obtain ⟨a, b, c⟩ := i6 i hi
          exact ⟨a, by rw [g3] at b; exact b, c⟩
      · refine ⟨some i, s', ?_, f3, f5, s.tags, Moved.refl _, by simp, ?_⟩
        · unfold acquireLoop
          simp only [e1, f1]
        · rintro j ⟨⟩
          exact ⟨f2, hmax _ f2, f4⟩

/-- A failing `acquireLoop` scanned enough and found every queue it drained (but the last) empty. -/
theorem acquireLoop_none (n : Nat) (s s' : Alloc) (h : WFA s) (hf : acquireLoop (n + 1) s = some (none, s')) :
    s.recycled = [] ∧ s.next = s.max ∧ (∀ j < n, s.queues ((s.epoch + j + 2) % 4) = []) ∧
    ∃ k, (n + 1) * ((s.max + RETRY_LIMIT - 1) / RETRY_LIMIT) ≤ cover s.max s.scanBucket k ∧
      NoneIn s s.scanBucket k := by
  induction n generalizing s with
  | zero =>
    rcases h.pop with ⟨id, s1, e1, e2, e3, e4, e5, e6, e7, e8⟩ | ⟨e1, e2, e3⟩
    · unfold acquireLoop Alloc.slot at hf
      simp [e1, e3, e5] at hf
    · rcases scanAcquire_spec s h e3 e2 with ⟨k, f1, f2, f3⟩ | ⟨i, s1, f1, f2, f3, f4, f5⟩
      · exact ⟨e2, e3, by simp, k, by simpa using f2, f3⟩
      · unfold acquireLoop at hf
        simp [e1, f1] at hf
  | succ n ih =>
    rcases h.pop with ⟨id, s1, e1, e2, e3, e4, e5, e6, e7, e8⟩ | ⟨e1, e2, e3⟩
    · unfold acquireLoop Alloc.slot at hf
      simp [e1, e3, e5] at hf
    · rcases scanAcquire_spec s h e3 e2 with ⟨k, f1, f2, f3⟩ | ⟨i, s1, f1, f2, f3, f4, f5⟩
      · have h' : WFA { s with scanBucket := (s.scanBucket + k) % 2 ^ 32 } := h.setBucket _
        obtain ⟨s1, g1, g2, g3, g4, g5, g6, g7, g8, g9⟩ := tryDrain_spec _ h'
        unfold acquireLoop at hf
        simp only [e1, f1, g1] at hf
        obtain ⟨i1, i2, i3, k', i4, i5⟩ := ih s1 g2 hf
        have hq : s.queues ((s.epoch + 2) % 4) = [] := by
          by_contra hc
          exact g8 hc i1
        have hs1 := g9 hq
        refine ⟨e2, e3, ?_, k + k', ?_, ?_⟩
        · intro j hj
          cases j with
          | zero => exact hq
          | succ j =>
            have := i3 j (by omega)
            rw [hs1] at this
            simp only at this
            rw [show s.epoch + (j + 1) + 2 = s.epoch + 1 + j + 2 by omega]
            exact this
        · rw [cover_add]
          rw [hs1] at i4
          simp only [cover_mod] at i4
          have : (n + 1 + 1) * ((s.max + RETRY_LIMIT - 1) / RETRY_LIMIT) =
            (s.max + RETRY_LIMIT - 1) / RETRY_LIMIT + (n + 1) * ((s.max + RETRY_LIMIT - 1) / RETRY_LIMIT) := by
            rw [Nat.succ_mul (n + 1), Nat.add_comm]
          omega
        · intro j hj i
          by_cases hjk : j < k
          · exact f3 j hjk i
          · have := i5 (j - k) (by omega) i
            rw [hs1] at this
            simp only [bidx_mod] at this
            rw [show s.scanBucket + k + (j - k) = s.scanBucket + j by omega] at this
            exact this
      · unfold acquireLoop at hf
        simp [e1, f1] at hf

/-! ## Covering all buckets -/

/-- The counter does not wrap in the middle of a round, or wrapping keeps the round intact. -/
def NoWrap (max x : Nat) : Prop := numBuckets max ∣ 2 ^ 32 ∨ x + numBuckets max ≤ 2 ^ 32

theorem bidx_inj {max x : Nat} (hw : NoWrap max x) {j j' : Nat} (hj : j < numBuckets max)
    (hj' : j' < numBuckets max) (he : bidx max (x + j) = bidx max (x + j')) : j = j' := by
  have hm : (x + j) % numBuckets max = (x + j') % numBuckets max := by
    unfold bidx at he
    rcases hw with hd | hw
    · rwa [Nat.mod_mod_of_dvd _ hd, Nat.mod_mod_of_dvd _ hd] at he
    · rwa [Nat.mod_eq_of_lt (show x + j < 2 ^ 32 by omega), Nat.mod_eq_of_lt (show x + j' < 2 ^ 32 by omega)] at he
  have h1 : Nat.ModEq (numBuckets max) j j' := Nat.ModEq.add_left_cancel' x hm
  have := h1
  unfold Nat.ModEq at this
  rwa [Nat.mod_eq_of_lt hj, Nat.mod_eq_of_lt hj'] at this

theorem cover_eq_sum (max x k : Nat) : cover max x k = ∑ j ∈ Finset.range k, blen max (bidx max (x + j)) := by
  induction k with
  | zero => rfl
  | succ k ih => rw [Finset.sum_range_succ, ← ih]; rfl

theorem sum_blen (max m : Nat) : ∑ b ∈ Finset.range m, blen max b = min (m * SCAN_SIZE) max := by
  induction m with
  | zero => simp
  | succ m ih =>
    rw [Finset.sum_range_succ, ih]
    simp only [blen, bucketStop, bucketStart, SCAN_SIZE]
    omega

theorem sum_blen_all (max : Nat) : ∑ b ∈ Finset.range (numBuckets max), blen max b = max := by
  rw [sum_blen]
  simp only [numBuckets, SCAN_SIZE]
  omega

theorem image_sub {max x k : Nat} (hpos : 0 < max) :
    (Finset.range k).image (fun j => bidx max (x + j)) ⊆ Finset.range (numBuckets max) := by
  intro b hb
  rw [Finset.mem_image] at hb
  obtain ⟨j, -, rfl⟩ := hb
  exact Finset.mem_range.mpr (bidx_lt hpos _)

theorem cover_lt {max x k : Nat} (hpos : 0 < max) (hw : NoWrap max x) (hk : k < numBuckets max) :
    cover max x k < max := by
  have hinj : ∀ j ∈ Finset.range k, ∀ j' ∈ Finset.range k, bidx max (x + j) = bidx max (x + j') → j = j' := by
    intro j hj j' hj' he
    rw [Finset.mem_range] at hj hj'
    exact bidx_inj hw (by omega) (by omega) he
  have hs : cover max x k = ∑ b ∈ (Finset.range k).image (fun j => bidx max (x + j)), blen max b := by
    rw [cover_eq_sum, Finset.sum_image hinj]
  have hcard : ((Finset.range k).image (fun j => bidx max (x + j))).card = k := by
    rw [Finset.card_image_of_injOn, Finset.card_range]
    intro j hj j' hj' he
    exact hinj j (by simpa using hj) j' (by simpa using hj') he
  have hsub := image_sub (k := k) (x := x) hpos
  obtain ⟨b, hb, hnb⟩ : ∃ b ∈ Finset.range (numBuckets max),
      b ∉ (Finset.range k).image (fun j => bidx max (x + j)) := by
    by_contra hc
    push Not at hc
    have := Finset.card_le_card (s := Finset.range (numBuckets max))
      (t := (Finset.range k).image (fun j => bidx max (x + j))) hc
    rw [hcard, Finset.card_range] at this
    omega
  have hlt := Finset.sum_lt_sum_of_subset (f := blen max) hsub hb hnb
    (blen_pos (Finset.mem_range.mp hb)) (fun _ _ _ => Nat.zero_le _)
  rw [sum_blen_all, ← hs] at hlt
  exact hlt

theorem visits_all {max x k b : Nat} (hpos : 0 < max) (hw : NoWrap max x) (hk : max ≤ cover max x k)
    (hb : b < numBuckets max) : ∃ j < k, bidx max (x + j) = b := by
  have hkn : numBuckets max ≤ k := by
    by_contra hc
    have := cover_lt (k := k) hpos hw (by omega)
    omega
  have hcard : ((Finset.range (numBuckets max)).image (fun j => bidx max (x + j))).card = numBuckets max := by
    rw [Finset.card_image_of_injOn, Finset.card_range]
    intro j hj j' hj' he
    exact bidx_inj hw (by simpa using hj) (by simpa using hj') he
  have heq := Finset.eq_of_subset_of_card_le (image_sub (k := numBuckets max) (x := x) hpos)
    (by rw [hcard, Finset.card_range])
  have : b ∈ (Finset.range (numBuckets max)).image (fun j => bidx max (x + j)) := by
    rw [heq]; exact Finset.mem_range.mpr hb
  rw [Finset.mem_image] at this
  obtain ⟨j, hj, he⟩ := this
  exact ⟨j, by rw [Finset.mem_range] at hj; omega, he⟩

/-- A failing `acquire` looked everywhere. -/
theorem acquire_none (s s' : Alloc) (h : WFA s) (hw : NoWrap s.max s.scanBucket)
    (hf : s.acquire = some (none, s')) : ∀ i < s.max, s.tags i ≠ AVAILABLE ∧ s.tags i ≠ RETIRING := by
  obtain ⟨h1, h2, h3, k, h4, h5⟩ := acquireLoop_none 19 s s' h hf
  intro i hi
  constructor
  · have hk : s.max ≤ cover s.max s.scanBucket k := by
      refine Nat.le_trans ?_ h4
      simp only [RETRY_LIMIT]; omega
    obtain ⟨j, hj, he⟩ := visits_all (b := i / SCAN_SIZE) (by omega) hw hk (by simp only [numBuckets, SCAN_SIZE]; omega)
    apply h5 j hj i
    · rw [he]; simp only [bucketStart, SCAN_SIZE]; omega
    · rw [he]; simp only [bucketStop, SCAN_SIZE]; omega
  · intro hr
    obtain ⟨q, hq⟩ := h.ret i hr
    have hq4 := (h.queued q i hq).2.2
    have : s.queues q = [] := by
      have := h3 ((q + 4 - (s.epoch + 2) % 4) % 4) (by omega)
      rwa [show (s.epoch + (q + 4 - (s.epoch + 2) % 4) % 4 + 2) % 4 = q by omega] at this
    rw [this] at hq; simp at hq

/-! ## Every operation preserves the invariant -/

theorem apply_wfa (s : Alloc) (h : WFA s) (op : AOp) : ∃ s', s.apply op = some s' ∧ WFA s' ∧ s'.max = s.max := by
  obtain ⟨t1, t2, t3, t4, t5, t6, t7, t8, t9, t10⟩ := tags_distinct
  cases op with
  | acquire =>
    obtain ⟨r, s', e1, e2, e3, -⟩ := acquireLoop_spec RETRY_LIMIT s h
    refine ⟨s', ?_, e2, e3⟩
    unfold Alloc.apply Alloc.acquire
    simp only [e1, Option.map_some]
  | drain =>
    obtain ⟨s', e1, e2, e3, -⟩ := tryDrain_spec s h
    exact ⟨s', e1, e2, e3⟩
  | publish i =>
    unfold Alloc.apply
    refine ⟨_, rfl, ?_⟩
    split
    · rename_i ho
      refine ⟨⟨h.recNodup, ?_, h.recCap, h.cap1, h.nextLe, ?_, ?_, h.qdisj, h.qnodup, ?_, ?_, h.sb⟩, rfl⟩
      · intro x hx
        have := h.recAvail x hx
        refine ⟨this.1, ?_⟩
        show upd s.tags i PUBLISHED x = _
        rw [upd_ne (by rintro rfl; exact t1 (this.2.symm.trans ho))]; exact this.2
      · intro x a b
        have := h.unminted x a b
        refine ⟨?_, this.2⟩
        show upd s.tags i PUBLISHED x = _
        rw [upd_ne (by rintro rfl; exact t1 (this.1.symm.trans ho))]; exact this.1
      · intro q x hx
        have := h.queued q x hx
        refine ⟨?_, this.2⟩
        show upd s.tags i PUBLISHED x = _
        rw [upd_ne (by rintro rfl; exact t5 (ho.symm.trans this.1))]; exact this.1
      · intro x hx
        have hx : upd s.tags i PUBLISHED x = RETIRING := hx
        rw [upd_apply] at hx
        split at hx
        · exact absurd hx t6
        · exact h.ret x hx
      · intro x hx
        show upd s.tags i PUBLISHED x = _
        have := h.out x hx
        rw [upd_ne (by rintro rfl; exact t10 (this.symm.trans ho))]; exact this
    · exact ⟨h, rfl⟩
  | abandon i =>
    unfold Alloc.apply
    refine ⟨_, rfl, ?_⟩
    split
    · rename_i ho
      refine ⟨⟨h.recNodup, ?_, h.recCap, h.cap1, h.nextLe, ?_, ?_, h.qdisj, h.qnodup, ?_, ?_, h.sb⟩, rfl⟩
      · intro x hx
        have := h.recAvail x hx
        refine ⟨this.1, ?_⟩
        show upd s.tags i AVAILABLE x = _
        rw [upd_ne (by rintro rfl; exact t1 (this.2.symm.trans ho))]; exact this.2
      · intro x a b
        have := h.unminted x a b
        refine ⟨?_, this.2⟩
        show upd s.tags i AVAILABLE x = _
        rw [upd_ne (by rintro rfl; exact t1 (this.1.symm.trans ho))]; exact this.1
      · intro q x hx
        have := h.queued q x hx
        refine ⟨?_, this.2⟩
        show upd s.tags i AVAILABLE x = _
        rw [upd_ne (by rintro rfl; exact t5 (ho.symm.trans this.1))]; exact this.1
      · intro x hx
        have hx : upd s.tags i AVAILABLE x = RETIRING := hx
        rw [upd_apply] at hx
        split at hx
        · exact absurd hx t3
        · exact h.ret x hx
      · intro x hx
        show upd s.tags i AVAILABLE x = _
        have := h.out x hx
        rw [upd_ne (by rintro rfl; exact t10 (this.symm.trans ho))]; exact this
    · exact ⟨h, rfl⟩
  | retire i =>
    unfold Alloc.apply
    refine ⟨_, rfl, ?_⟩
    split
    · rename_i ho
      have hnq : ∀ q, i ∉ s.queues q := fun q hq => t6 (ho.symm.trans (h.queued q i hq).1)
      have hmax : i < s.max := by
        by_contra hh
        exact t9 ((h.out i (by omega)).symm.trans ho)
      refine ⟨⟨h.recNodup, ?_, h.recCap, h.cap1, h.nextLe, ?_, ?_, ?_, ?_, ?_, ?_, h.sb⟩, rfl⟩
      · intro x hx
        have := h.recAvail x hx
        refine ⟨this.1, ?_⟩
        show upd s.tags i RETIRING x = _
        rw [upd_ne (by rintro rfl; exact t2 (this.2.symm.trans ho))]; exact this.2
      · intro x a b
        have := h.unminted x a b
        refine ⟨?_, this.2⟩
        show upd s.tags i RETIRING x = _
        rw [upd_ne (by rintro rfl; exact t2 (this.1.symm.trans ho))]; exact this.1
      · intro q x hx
        have hx : x ∈ upd s.queues (queueOf s.epoch) (s.queues (queueOf s.epoch) ++ [i]) q := hx
        show upd s.tags i RETIRING x = _ ∧ x < s.max ∧ q < 4
        rw [upd_apply] at hx ⊢
        split at hx
        · rename_i hq
          rcases List.mem_append.mp hx with hx | hx
          · have := h.queued _ x hx
            rw [hq]
            refine ⟨?_, this.2⟩
            split
            · rfl
            · exact this.1
          · simp only [List.mem_singleton] at hx
            subst hx
            refine ⟨by simp, hmax, ?_⟩
            rw [hq]; unfold queueOf; omega
        · have := h.queued _ x hx
          refine ⟨?_, this.2⟩
          split
          · rfl
          · exact this.1
      · intro q q' x hx hx'
        have hx : x ∈ upd s.queues (queueOf s.epoch) (s.queues (queueOf s.epoch) ++ [i]) q := hx
        have hx' : x ∈ upd s.queues (queueOf s.epoch) (s.queues (queueOf s.epoch) ++ [i]) q' := hx'
        by_cases hxi : x = i
        · subst hxi
          rw [upd_apply] at hx hx'
          split at hx
          · split at hx'
            · omega
            · exact absurd hx' (hnq _)
          · exact absurd hx (hnq _)
        · have key : ∀ q, x ∈ upd s.queues (queueOf s.epoch) (s.queues (queueOf s.epoch) ++ [i]) q → x ∈ s.queues q := by
            intro q hq
            rw [upd_apply] at hq
            split at hq
            · rename_i hqq
              rw [hqq]
              rcases List.mem_append.mp hq with hq | hq
              · exact hq
              · simp only [List.mem_singleton] at hq; exact absurd hq hxi
            · exact hq
          exact h.qdisj q q' x (key q hx) (key q' hx')
      · intro q
        show (upd s.queues (queueOf s.epoch) (s.queues (queueOf s.epoch) ++ [i]) q).Nodup
        rw [upd_apply]
        split
        · rw [List.nodup_append]
          refine ⟨h.qnodup _, by simp, ?_⟩
          intro x hx y hy hxy
          simp only [List.mem_singleton] at hy
          subst hxy; subst hy; exact hnq _ hx
        · exact h.qnodup q
      · intro x hx
        have hx : upd s.tags i RETIRING x = RETIRING := hx
        show ∃ q, x ∈ upd s.queues (queueOf s.epoch) (s.queues (queueOf s.epoch) ++ [i]) q
        rw [upd_apply] at hx
        split at hx
        · rename_i hxi
          exact ⟨queueOf s.epoch, by simp [hxi]⟩
        · obtain ⟨q, hq⟩ := h.ret x hx
          refine ⟨q, ?_⟩
          rw [upd_apply]
          split
          · rename_i hqq; rw [← hqq]; exact List.mem_append_left _ hq
          · exact hq
      · intro x hx
        show upd s.tags i RETIRING x = _
        have := h.out x hx
        rw [upd_ne (by rintro rfl; exact t9 (this.symm.trans ho))]; exact this
    · exact ⟨h, rfl⟩

theorem run_wfa (ops : List AOp) (s : Alloc) (h : WFA s) : ∃ s', s.run ops = some s' ∧ WFA s' ∧ s'.max = s.max := by
  induction ops generalizing s with
  | nil => exact ⟨s, rfl, h, rfl⟩
  | cons op ops ih =>
    obtain ⟨s1, e1, e2, e3⟩ := apply_wfa s h op
    obtain ⟨s2, f1, f2, f3⟩ := ih s1 e2
    exact ⟨s2, by unfold Alloc.run; simp only [e1, f1], f2, f3.trans e3⟩

/-! ## Minting -/

theorem mint_inv (max : Nat) (sched : List Nat) (s : MintState) (h : s.minted = (List.range s.next).reverse ∧ s.next ≤ max) :
    (mintRun max s sched).minted = (List.range (mintRun max s sched).next).reverse ∧ (mintRun max s sched).next ≤ max := by
  induction sched generalizing s with
  | nil => exact h
  | cons a sched ih =>
    apply ih (mintStep max a s)
    unfold mintStep
    split
    · exact h
    · split
      · split
        · rename_i hlt heq
          refine ⟨?_, by simp only; omega⟩
          simp only [h.1, heq, List.range_succ, List.reverse_append, List.reverse_cons, List.reverse_nil,
            List.nil_append, List.cons_append]
        · exact h
      · exact h

/-! ## A store of 5120 slots (20 buckets) whose scan counter wraps -/

/-- Rounds that look at buckets without an available slot fail and only move the counters. -/
theorem acquire_skip (n : Nat) (s : Alloc) (h : WFA s) (hm : s.max = 5120) (hx : s.next = 5120)
    (hr : s.recycled = []) (hq : ∀ q, s.queues q = [])
    (hn : ∀ j < n, ∀ i, 256 * ((s.scanBucket + j) % 2 ^ 32 % 20) ≤ i → i < 256 * ((s.scanBucket + j) % 2 ^ 32 % 20) + 256 →
      s.tags i ≠ AVAILABLE) :
    acquireLoop n s = some (none, { s with scanBucket := (s.scanBucket + n) % 2 ^ 32, epoch := s.epoch + n }) := by
  induction n generalizing s with
  | zero =>
    have := h.sb
    simp only [acquireLoop, Nat.add_zero, Nat.mod_eq_of_lt this]
  | succ n ih =>
    have hsb := h.sb
    have hpop : s.pop = (none, s) := by
      unfold Alloc.pop; simp only [hr]; rw [if_neg (by omega)]
    have hscan : s.scan = ((bucketStart (s.scanBucket % 20), bucketStop 5120 (s.scanBucket % 20)),
        { s with scanBucket := (s.scanBucket + 1) % 2 ^ 32 }) := by
      unfold Alloc.scan; rw [if_neg (by omega), hm]; rfl
    have hstop : bucketStop 5120 (s.scanBucket % 20) - bucketStart (s.scanBucket % 20) = 256 := by
      simp only [bucketStop, bucketStart, SCAN_SIZE]; omega
    have h1 : WFA { s with scanBucket := (s.scanBucket + 1) % 2 ^ 32 } := h.setBucket _
    have hc : scanChunk { s with scanBucket := (s.scanBucket + 1) % 2 ^ 32 } none
        (List.range' (bucketStart (s.scanBucket % 20)) 256) =
        (none, { s with scanBucket := (s.scanBucket + 1) % 2 ^ 32 }) := by
      rcases scanChunk_none (List.range' (bucketStart (s.scanBucket % 20)) 256)
          { s with scanBucket := (s.scanBucket + 1) % 2 ^ 32 } h1 (by simp only [hx, hm]) hr List.nodup_range'
          (fun i hi => by
            rw [List.mem_range'_1] at hi
            simp only [bucketStart, SCAN_SIZE, hm] at *
            omega) with ⟨-, hc⟩ | ⟨i, s', hi, ha, -⟩
      · exact hc
      · exfalso
        rw [List.mem_range'_1] at hi
        simp only [bucketStart, SCAN_SIZE] at hi
        refine hn 0 (by omega) i ?_ ?_ ha
        · have : (s.scanBucket + 0) % 2 ^ 32 = s.scanBucket := Nat.mod_eq_of_lt hsb
          rw [this]; omega
        · have : (s.scanBucket + 0) % 2 ^ 32 = s.scanBucket := Nat.mod_eq_of_lt hsb
          rw [this]; omega
    have hsa : s.scanAcquire = some (none, { s with scanBucket := (s.scanBucket + 1) % 2 ^ 32 }) := by
      unfold Alloc.scanAcquire
      rw [show (s.max + RETRY_LIMIT - 1) / RETRY_LIMIT = 256 by rw [hm]; rfl]
      show scanLoop (255 + 1) s (255 + 1) 0 = _
      unfold scanLoop
      simp only [hscan, hstop, hc]
      rw [if_neg (by decide)]
      unfold scanLoop
      rfl
    obtain ⟨s1, g1, g2, g3, g4, g5, g6, g7, g8, g9⟩ := tryDrain_spec _ h1
    have hs1 := g9 (hq _)
    have hrec := ih s1 g2 (by rw [g3]; exact hm) (by rw [g4]; exact hx) (by rw [hs1]; exact hr)
      (by rw [hs1]; exact hq) (by
        intro j hj i a b
        rw [g6] at a b
        simp only [Nat.mod_add_mod] at a b
        rw [hs1]
        refine hn (j + 1) (by omega) i ?_ ?_
        · rw [show s.scanBucket + (j + 1) = s.scanBucket + 1 + j by omega]; exact a
        · rw [show s.scanBucket + (j + 1) = s.scanBucket + 1 + j by omega]; exact b)
    unfold acquireLoop
    simp only [hpop, hsa, g1, hrec]
    simp only [hs1, Nat.mod_add_mod]
    rw [show s.scanBucket + 1 + n = s.scanBucket + (n + 1) by omega, show s.epoch + 1 + n = s.epoch + (n + 1) by omega]

/-- `k` acquires of a fresh store hand out the slots in order. -/
theorem run_fresh (max rc : Nat) (k : Nat) (hk : k ≤ max) :
    (Alloc.init max rc).run (List.replicate k .acquire) = some { Alloc.init max rc with
      next := k, tags := fun i => if i < k then OWNED else (Alloc.init max rc).tags i } := by
  suffices H : ∀ m j, j + m ≤ max → ({ Alloc.init max rc with
      next := j, tags := fun i => if i < j then OWNED else (Alloc.init max rc).tags i } : Alloc).run
        (List.replicate m .acquire) = some { Alloc.init max rc with
      next := j + m, tags := fun i => if i < j + m then OWNED else (Alloc.init max rc).tags i } by
    have := H k 0 (by omega)
    simp only [Nat.zero_add, Nat.not_lt_zero, if_false] at this
    exact this
  intro m
  induction m with
  | zero => intro j hj; rfl
  | succ m ih =>
    intro j hj
    have hstep : ({ Alloc.init max rc with
        next := j, tags := fun i => if i < j then OWNED else (Alloc.init max rc).tags i } : Alloc).apply .acquire =
        some { Alloc.init max rc with
          next := j + 1, tags := fun i => if i < j + 1 then OWNED else (Alloc.init max rc).tags i } := by
      unfold Alloc.apply Alloc.acquire
      show (acquireLoop (19 + 1) _).map Prod.snd = _
      unfold acquireLoop Alloc.pop
      simp only [Alloc.init]
      have hjm : j < max := by omega
      simp only [Alloc.slot, hjm, if_true, Nat.lt_irrefl, if_false]
      simp only [Option.map_some, Option.some.injEq, Alloc.mk.injEq, true_and, and_true]
      funext i
      rw [upd_apply]
      by_cases h1 : i = j
      · subst h1; simp
      · rw [if_neg h1]
        by_cases h2 : i < j
        · rw [if_pos h2, if_pos (by omega)]
        · rw [if_neg h2, if_neg (show ¬ i < j + 1 by omega)]
    rw [List.replicate_succ]
    unfold Alloc.run
    rw [hstep]
    simp only
    rw [ih (j + 1) (by omega), show j + 1 + m = j + (m + 1) by omega]

theorem run_append (a b : List AOp) (s : Alloc) : s.run (a ++ b) = (s.run a).bind (fun s => s.run b) := by
  induction a generalizing s with
  | nil => rfl
  | cons op a ih =>
    simp only [List.cons_append, Alloc.run]
    cases s.apply op with
    | none => rfl
    | some s => exact ih s

/-- Failing acquires of a store with no available slot only move the counters. -/
theorem run_full (m : Nat) (s : Alloc) (h : WFA s) (hm : s.max = 5120) (hx : s.next = 5120)
    (hr : s.recycled = []) (hq : ∀ q, s.queues q = []) (hn : ∀ i, s.tags i ≠ AVAILABLE) :
    s.run (List.replicate m .acquire) =
      some { s with scanBucket := (s.scanBucket + 20 * m) % 2 ^ 32, epoch := s.epoch + 20 * m } := by
  induction m generalizing s with
  | zero =>
    have := h.sb
    simp only [List.replicate_zero, Alloc.run, Nat.mul_zero, Nat.add_zero, Nat.mod_eq_of_lt this]
  | succ m ih =>
    have h1 : s.apply .acquire = some { s with scanBucket := (s.scanBucket + 20) % 2 ^ 32, epoch := s.epoch + 20 } := by
      unfold Alloc.apply Alloc.acquire
      simp only [RETRY_LIMIT]
      rw [acquire_skip 20 s h hm hx hr hq (fun j _ i _ _ => hn i)]
      rfl
    have hw : WFA { s with scanBucket := (s.scanBucket + 20) % 2 ^ 32, epoch := s.epoch + 20 } :=
      ⟨h.recNodup, h.recAvail, h.recCap, h.cap1, h.nextLe, h.unminted, h.queued, h.qdisj, h.qnodup, h.ret, h.out,
        Nat.mod_lt _ (by decide)⟩
    rw [List.replicate_succ]
    unfold Alloc.run
    rw [h1]
    simp only
    rw [ih _ hw hm hx hr hq hn]
    simp only [Nat.mod_add_mod]
    rw [show s.scanBucket + 20 + 20 * m = s.scanBucket + 20 * (m + 1) by omega,
      show s.epoch + 20 + 20 * m = s.epoch + 20 * (m + 1) by omega]

end Verif.Inmem
