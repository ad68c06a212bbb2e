import Verif.Inmem.AllocModel
import Verif.Inmem.EbrLemmas
import Mathlib.Tactic.Common
import Mathlib.Data.List.Nodup

/-! # Invariant of the slot allocator -/

namespace Verif.Inmem

theorem tags_distinct : AVAILABLE ≠ OWNED ∧ AVAILABLE ≠ PUBLISHED ∧ AVAILABLE ≠ RETIRING ∧ OWNED ≠ PUBLISHED ∧
    OWNED ≠ RETIRING ∧ PUBLISHED ≠ RETIRING ∧ FROZEN ≠ AVAILABLE ∧ FROZEN ≠ RETIRING ∧ FROZEN ≠ PUBLISHED ∧
    FROZEN ≠ OWNED := by decide

structure WFA (s : Alloc) : Prop where
  recNodup : s.recycled.Nodup
  recAvail : ∀ i ∈ s.recycled, i < s.max ∧ s.tags i = AVAILABLE
  recCap : s.recycled.length ≤ s.recycleCap
  cap1 : 1 ≤ s.recycleCap
  nextLe : s.next ≤ s.max
  unminted : ∀ i, s.next ≤ i → i < s.max → s.tags i = AVAILABLE ∧ i ∉ s.recycled
  queued : ∀ q i, i ∈ s.queues q → s.tags i = RETIRING ∧ i < s.max ∧ q < 4
  qdisj : ∀ q q' i, i ∈ s.queues q → i ∈ s.queues q' → q = q'
  qnodup : ∀ q, (s.queues q).Nodup
  ret : ∀ i, s.tags i = RETIRING → ∃ q, i ∈ s.queues q
  out : ∀ i, s.max ≤ i → s.tags i = FROZEN
  sb : s.scanBucket < 2 ^ 32

theorem init_wfa (max rc : Nat) (h : 1 ≤ rc) : WFA (Alloc.init max rc) := by
  constructor <;> simp [Alloc.init, h]
  · intro i h1 h2; exact absurd h1 (by omega)
  · intro i hi
    split at hi
    · exact absurd hi (by decide)
    · exact absurd hi (by decide)
  · intro i h1 h2; omega

theorem push_fields (s : Alloc) (i : Nat) : (s.push i).tags = s.tags ∧ (s.push i).max = s.max ∧
    (s.push i).next = s.next ∧ (s.push i).queues = s.queues ∧ (s.push i).epoch = s.epoch ∧
    (s.push i).scanBucket = s.scanBucket ∧ (s.push i).recycleCap = s.recycleCap ∧
    ((s.push i).recycled = s.recycled ∨ (s.push i).recycled = s.recycled ++ [i] ∧ s.recycled.length < s.recycleCap) := by
  unfold Alloc.push
  split
  · split
    · refine ⟨rfl, rfl, rfl, rfl, rfl, rfl, rfl, Or.inr ⟨rfl, by assumption⟩⟩
    · exact ⟨rfl, rfl, rfl, rfl, rfl, rfl, rfl, Or.inl rfl⟩
  · exact ⟨rfl, rfl, rfl, rfl, rfl, rfl, rfl, Or.inl rfl⟩

theorem WFA.push {s : Alloc} (h : WFA s) {i : Nat} (ht : s.tags i = AVAILABLE)
    (hn : i ∉ s.recycled) (hx : i < s.next) : WFA (s.push i) := by
  unfold Alloc.push
  split
  · rename_i hi
    split
    · rename_i hlen
      refine ⟨?_, ?_, ?_, h.cap1, h.nextLe, ?_, h.queued, h.qdisj, h.qnodup, h.ret, h.out, h.sb⟩
      · rw [List.nodup_append]
        refine ⟨h.recNodup, by simp, ?_⟩
        intro x hx' y hy hxy
        simp only [List.mem_singleton] at hy
        subst hxy; subst hy; exact hn hx'
      · intro x hx'
        rcases List.mem_append.mp hx' with h1 | h1
        · exact h.recAvail x h1
        · simp only [List.mem_singleton] at h1; subst h1; exact ⟨hi, ht⟩
      · simp; omega
      · intro x h1 h2
        obtain ⟨h3, h4⟩ := h.unminted x h1 h2
        refine ⟨h3, ?_⟩
        simp only [List.mem_append, List.mem_singleton, not_or]
        refine ⟨h4, ?_⟩
        rintro rfl
        have : s.next ≤ x := h1
        omega
    · exact h
  · exact h

/-- Taking an available slot that the free list does not know about. -/
theorem WFA.take {s : Alloc} (h : WFA s) {i : Nat} (ht : s.tags i = AVAILABLE) (hn : i ∉ s.recycled)
    (hx : i < s.next) : WFA { s with tags := upd s.tags i OWNED } := by
  obtain ⟨t1, t2, t3, t4, t5, t6, t7, t8, t9, t10⟩ := tags_distinct
  refine ⟨h.recNodup, ?_, h.recCap, h.cap1, h.nextLe, ?_, ?_, h.qdisj, h.qnodup, ?_, ?_, h.sb⟩
  · intro x hx'
    have hne : x ≠ i := fun hh => hn (hh ▸ hx')
    simp only [upd_ne hne]
    exact h.recAvail x hx'
  · intro x h1 h2
    have hne : x ≠ i := by
      rintro rfl
      have : s.next ≤ x := h1
      omega
    simp only [upd_ne hne]
    exact h.unminted x h1 h2
  · intro q x hxq
    have hne : x ≠ i := by
      rintro rfl
      have := (h.queued q x hxq).1
      rw [ht] at this; exact t3 this
    simp only [upd_ne hne]
    exact h.queued q x hxq
  · intro x hxr
    simp only [upd_apply] at hxr
    split at hxr
    · exact absurd hxr t5
    · exact h.ret x hxr
  · intro x hxm
    have hne : x ≠ i := by
      rintro rfl
      have := h.out x hxm
      rw [ht] at this; exact t7 this.symm
    simp only [upd_ne hne]
    exact h.out x hxm

/-- Popping an id: it is available, unknown to the remaining free list, and minted. -/
theorem WFA.pop {s : Alloc} (h : WFA s) : (∃ id s', s.pop = (some id, s') ∧ WFA s' ∧ s'.tags = s.tags ∧
      s'.max = s.max ∧ s.tags id = AVAILABLE ∧ id < s.max ∧ id ∉ s'.recycled ∧ id < s'.next) ∨
    (s.pop = (none, s) ∧ s.recycled = [] ∧ s.next = s.max) := by
  unfold Alloc.pop
  cases hr : s.recycled with
  | cons id rest =>
    left
    have hn := h.recNodup
    rw [hr, List.nodup_cons] at hn
    have hid := h.recAvail id (by rw [hr]; simp)
    refine ⟨id, _, rfl, ⟨hn.2, ?_, ?_, h.cap1, h.nextLe, ?_, h.queued, h.qdisj, h.qnodup, h.ret, h.out, h.sb⟩,
      rfl, rfl, hid.2, hid.1, hn.1, ?_⟩
    · intro x hx; exact h.recAvail x (by rw [hr]; exact List.mem_cons_of_mem _ hx)
    · have := h.recCap; rw [hr] at this; simp at this ⊢; omega
    · intro x h1 h2
      obtain ⟨h3, h4⟩ := h.unminted x h1 h2
      refine ⟨h3, fun hx => h4 ?_⟩
      rw [hr]; exact List.mem_cons_of_mem _ hx
    · by_contra hlt
      have := (h.unminted id (by simpa using hlt) hid.1).2
      rw [hr] at this; simp at this
  | nil =>
    by_cases hlt : s.next < s.max
    · left
      rw [if_pos hlt]
      have hu := h.unminted s.next (Nat.le_refl _) hlt
      refine ⟨s.next, _, rfl, ⟨by simp, by simp, by simp, h.cap1, ?_, ?_, h.queued, h.qdisj, h.qnodup, h.ret,
        h.out, h.sb⟩, rfl, rfl, hu.1, hlt, ?_, ?_⟩
      · simp only; omega
      · intro x h1 h2
        refine ⟨(h.unminted x (by have : s.next + 1 ≤ x := h1; omega) h2).1, by simp⟩
      · simp
      · simp
    · right
      rw [if_neg hlt]
      have := h.nextLe
      exact ⟨rfl, rfl, by omega⟩

/-! ## Scanning -/

theorem scanChunk_some (l : List Nat) (s : Alloc) (j : Nat) (h : WFA s) (hx : s.next = s.max) (hnd : l.Nodup)
    (hl : ∀ i ∈ l, i < s.max ∧ i ∉ s.recycled) :
    ∃ s', scanChunk s (some j) l = (some j, s') ∧ WFA s' ∧ s'.tags = s.tags ∧ s'.max = s.max ∧ s'.epoch = s.epoch := by
  induction l generalizing s with
  | nil => exact ⟨s, rfl, h, rfl, rfl, rfl⟩
  | cons i rest ih =>
    rw [List.nodup_cons] at hnd
    unfold scanChunk
    obtain ⟨hi, hir⟩ := hl i (by simp)
    split
    · rename_i ht
      obtain ⟨p1, p2, p3, p4, p5, p6, p7, p8⟩ := push_fields s i
      have hl' : ∀ i' ∈ rest, i' < (s.push i).max ∧ i' ∉ (s.push i).recycled := by
        intro x hx'
        obtain ⟨h1, h2⟩ := hl x (List.mem_cons_of_mem _ hx')
        refine ⟨by rw [p2]; exact h1, ?_⟩
        rcases p8 with p8 | ⟨p8, -⟩ <;> rw [p8]
        · exact h2
        · simp only [List.mem_append, List.mem_singleton, not_or]
          exact ⟨h2, fun hh => hnd.1 (hh ▸ hx')⟩
      obtain ⟨s', e1, e2, e3, e4, e5⟩ := ih (s.push i) (h.push ht hir (by omega)) (by rw [p3, p2, hx]) hnd.2 hl'
      exact ⟨s', e1, e2, by rw [e3, p1], by rw [e4, p2], by rw [e5, p5]⟩
    · exact ih s h hx hnd.2 (fun x hx' => hl x (List.mem_cons_of_mem _ hx'))

theorem scanChunk_none (l : List Nat) (s : Alloc) (h : WFA s) (hx : s.next = s.max) (hr : s.recycled = [])
    (hnd : l.Nodup) (hl : ∀ i ∈ l, i < s.max) :
    ((∀ i ∈ l, s.tags i ≠ AVAILABLE) ∧ scanChunk s none l = (none, s)) ∨
    ∃ i s', i ∈ l ∧ s.tags i = AVAILABLE ∧ scanChunk s none l = (some i, s') ∧ WFA s' ∧
      s'.tags = upd s.tags i OWNED ∧ s'.max = s.max := by
  induction l with
  | nil => left; exact ⟨by simp, rfl⟩
  | cons i rest ih =>
    rw [List.nodup_cons] at hnd
    have hi := hl i (by simp)
    unfold scanChunk
    split
    · rename_i ht
      right
      have h' := h.take ht (by simp [hr]) (by omega)
      obtain ⟨s', e1, e2, e3, e4, -⟩ := scanChunk_some rest { s with tags := upd s.tags i OWNED } i h' hx hnd.2
        (fun x hx' => ⟨hl x (List.mem_cons_of_mem _ hx'), by simp [hr]⟩)
      exact ⟨i, s', by simp, ht, e1, e2, e3, e4⟩
    · rename_i ht
      rcases ih hnd.2 (fun x hx' => hl x (List.mem_cons_of_mem _ hx')) with ⟨h1, h2⟩ | ⟨j, s', h1, h2, h3, h4⟩
      · left
        refine ⟨?_, h2⟩
        intro x hx'
        rcases List.mem_cons.mp hx' with rfl | hx'
        · exact ht
        · exact h1 x hx'
      · right
        exact ⟨j, s', List.mem_cons_of_mem _ h1, h2, h3, h4⟩

/-- Length of bucket `b`. -/
def blen (max b : Nat) : Nat := bucketStop max b - bucketStart b

/-- Bucket index for (unbounded) counter value `x`. -/
def bidx (max x : Nat) : Nat := x % 2 ^ 32 % numBuckets max

/-- Number of entries looked at by `k` scans starting at counter value `x`. -/
def cover (max x : Nat) : Nat → Nat
  | 0 => 0
  | k + 1 => cover max x k + blen max (bidx max (x + k))

theorem cover_add (max x k l : Nat) : cover max x (k + l) = cover max x k + cover max (x + k) l := by
  induction l with
  | zero => rfl
  | succ l ih =>
    rw [← Nat.add_assoc]
    simp only [cover]
    rw [ih, Nat.add_assoc, Nat.add_assoc x]

theorem bidx_lt {max : Nat} (h : 0 < max) (x : Nat) : bidx max x < numBuckets max := by
  apply Nat.mod_lt
  simp only [numBuckets, SCAN_SIZE]; omega

theorem blen_pos {max b : Nat} (h : b < numBuckets max) : 0 < blen max b := by
  simp only [numBuckets, SCAN_SIZE, blen, bucketStop, bucketStart] at *
  omega

theorem bidx_mod (max x y : Nat) : bidx max (x % 2 ^ 32 + y) = bidx max (x + y) := by
  unfold bidx; rw [Nat.mod_add_mod]

theorem cover_mod (max x k : Nat) : cover max (x % 2 ^ 32) k = cover max x k := by
  induction k with
  | zero => rfl
  | succ k ih => simp only [cover, ih, bidx_mod]

/-- No available slot in the buckets visited by `k` scans from counter `x`. -/
def NoneIn (s : Alloc) (x k : Nat) : Prop :=
  ∀ j < k, ∀ i, bucketStart (bidx s.max (x + j)) ≤ i → i < bucketStop s.max (bidx s.max (x + j)) →
    s.tags i ≠ AVAILABLE

theorem WFA.setBucket {s : Alloc} (h : WFA s) (k : Nat) : WFA { s with scanBucket := k % 2 ^ 32 } :=
  ⟨h.recNodup, h.recAvail, h.recCap, h.cap1, h.nextLe, h.unminted, h.queued, h.qdisj, h.qnodup, h.ret, h.out,
    Nat.mod_lt _ (by decide)⟩

theorem scanLoop_spec (fuel : Nat) (s : Alloc) (rem since : Nat) (h : WFA s) (hx : s.next = s.max)
    (hr : s.recycled = []) (hpos : 0 < s.max) (hf : rem ≤ fuel) :
    (∃ k, scanLoop fuel s rem since = some (none, { s with scanBucket := (s.scanBucket + k) % 2 ^ 32 }) ∧
      rem ≤ cover s.max s.scanBucket k ∧ (∀ k', k = k' + 1 → cover s.max s.scanBucket k' < rem) ∧
      NoneIn s s.scanBucket k) ∨
    ∃ i s', scanLoop fuel s rem since = some (some i, s') ∧ s.tags i = AVAILABLE ∧ WFA s' ∧
      s'.tags = upd s.tags i OWNED ∧ s'.max = s.max := by
  induction fuel generalizing s rem since with
  | zero =>
    left
    obtain rfl : rem = 0 := by omega
    have := h.sb
    refine ⟨0, ?_, by simp, by simp, by intro j hj; omega⟩
    unfold scanLoop
    simp only [Nat.add_zero, Nat.mod_eq_of_lt this]
  | succ fuel ih =>
    cases rem with
    | zero =>
      left
      have := h.sb
      refine ⟨0, ?_, by simp, by simp, by intro j hj; omega⟩
      unfold scanLoop
      simp only [Nat.add_zero, Nat.mod_eq_of_lt this]
    | succ r =>
      have hsb := h.sb
      have hbi : s.scanBucket % numBuckets s.max = bidx s.max s.scanBucket := by
        unfold bidx; rw [Nat.mod_eq_of_lt hsb]
      have hblt := bidx_lt hpos s.scanBucket
      have hbpos := blen_pos hblt
      have hscan : s.scan = ((bucketStart (bidx s.max s.scanBucket), bucketStop s.max (bidx s.max s.scanBucket)),
          { s with scanBucket := (s.scanBucket + 1) % 2 ^ 32 }) := by
        unfold Alloc.scan; rw [if_neg (by omega)]; simp only [hbi]
      have h1 : WFA { s with scanBucket := (s.scanBucket + 1) % 2 ^ 32 } := h.setBucket _
      have hstop : bucketStop s.max (bidx s.max s.scanBucket) ≤ s.max := Nat.min_le_right _ _
      have hmem : ∀ i, i ∈ List.range' (bucketStart (bidx s.max s.scanBucket))
          (bucketStop s.max (bidx s.max s.scanBucket) - bucketStart (bidx s.max s.scanBucket)) ↔
          bucketStart (bidx s.max s.scanBucket) ≤ i ∧ i < bucketStop s.max (bidx s.max s.scanBucket) := by
        intro i; rw [List.mem_range'_1]
        have : bucketStart (bidx s.max s.scanBucket) < bucketStop s.max (bidx s.max s.scanBucket) := by
          unfold blen at hbpos; omega
        constructor
        · rintro ⟨a, b⟩; exact ⟨a, by omega⟩
        · rintro ⟨a, b⟩; exact ⟨a, by omega⟩
      rcases scanChunk_none (List.range' (bucketStart (bidx s.max s.scanBucket))
          (bucketStop s.max (bidx s.max s.scanBucket) - bucketStart (bidx s.max s.scanBucket)))
          { s with scanBucket := (s.scanBucket + 1) % 2 ^ 32 } h1 hx hr List.nodup_range'
          (fun i hi => by have := ((hmem i).mp hi).2; exact Nat.lt_of_lt_of_le this hstop) with
        ⟨hn, hc⟩ | ⟨i, s', hi1, hi2, hi3, hi4, hi5, hi6⟩
      · -- nothing in this chunk
        have hrec := ih { s with scanBucket := (s.scanBucket + 1) % 2 ^ 32 }
          (r + 1 - (bucketStop s.max (bidx s.max s.scanBucket) - bucketStart (bidx s.max s.scanBucket)))
        have hloop : ∃ since', scanLoop (fuel + 1) s (r + 1) since =
            scanLoop fuel { s with scanBucket := (s.scanBucket + 1) % 2 ^ 32 }
              (r + 1 - (bucketStop s.max (bidx s.max s.scanBucket) - bucketStart (bidx s.max s.scanBucket))) since' := by
          conv => enter [1, s']; lhs; unfold scanLoop
          simp only [hscan, hc]
          simp only [hr]
          split
          · exact ⟨0, rfl⟩
          · exact ⟨since + 1, rfl⟩
        obtain ⟨since', hloop⟩ := hloop
        rw [hloop]
        rcases hrec since' h1 hx hr hpos (by unfold blen at hbpos; omega) with ⟨k, e1, e2, e3, e4⟩ | hfound
        · left
          refine ⟨k + 1, ?_, ?_, ?_, ?_⟩
          · rw [e1]
            simp only [Nat.mod_add_mod]
            rw [show s.scanBucket + 1 + k = s.scanBucket + (k + 1) by omega]
          · rw [show k + 1 = 1 + k by omega, cover_add]
            simp only [cover_mod] at e2
            have : cover s.max s.scanBucket 1 = blen s.max (bidx s.max s.scanBucket) := by simp [cover]
            rw [this]
            unfold blen
            omega
          · rintro k' hk'
            obtain rfl : k' = k := by omega
            cases k' with
            | zero => simp [cover]
            | succ k'' =>
              have := e3 k'' rfl
              simp only [cover_mod] at this
              rw [show k'' + 1 = 1 + k'' by omega, cover_add]
              have h2 : cover s.max s.scanBucket 1 = blen s.max (bidx s.max s.scanBucket) := by simp [cover]
              rw [h2]; unfold blen
              omega
          · intro j hj i hi1 hi2
            cases j with
            | zero => exact hn i ((hmem i).mpr ⟨hi1, hi2⟩)
            | succ j =>
              have := e4 j (by omega) i
              simp only [bidx_mod] at this
              rw [show s.scanBucket + (j + 1) = s.scanBucket + 1 + j by omega] at hi1 hi2
              exact this hi1 hi2
        · right
          obtain ⟨i, s', e1, e2, e3, e4, e5⟩ := hfound
          exact ⟨i, s', e1, e2, e3, e4, e5⟩
      · right
        refine ⟨i, s', ?_, hi2, hi4, hi5, hi6⟩
        unfold scanLoop
        simp only [hscan, hi3]

/-! ## Draining -/

theorem drainAll_spec (l : List Nat) (q : Nat) (s : Alloc) (hq : s.queues q = [])
    (h : WFA { s with queues := upd s.queues q l }) :
    ∃ s', drainAll s l = some s' ∧ WFA s' ∧ (∀ i, s'.tags i = if i ∈ l then AVAILABLE else s.tags i) ∧
      s'.max = s.max ∧ s'.next = s.next ∧ s'.epoch = s.epoch ∧ s'.queues = s.queues ∧
      s'.scanBucket = s.scanBucket ∧ (l ≠ [] → s'.recycled ≠ []) ∧ (l = [] → s' = s) ∧
      (s.recycled ≠ [] → s'.recycled ≠ []) := by
  obtain ⟨t1, t2, t3, t4, t5, t6, t7, t8, t9, t10⟩ := tags_distinct
  induction l generalizing s with
  | nil =>
    refine ⟨s, rfl, ?_, by simp, rfl, rfl, rfl, rfl, rfl, by simp, fun _ => rfl, id⟩
    have : upd s.queues q [] = s.queues := by
      funext x; rw [upd_apply]; split
      · rename_i hx; rw [hx, hq]
      · rfl
    rw [this] at h; exact h
  | cons i rest ih =>
    have hi := h.queued q i (by simp)
    have hnd := h.qnodup q
    simp only [upd_self, List.nodup_cons] at hnd
    unfold drainAll
    rw [if_pos hi.1]
    have hnr : i ∉ s.recycled := fun hh => t3 ((h.recAvail i hh).2.symm.trans hi.1)
    have hlt : i < s.next := by
      by_contra hh
      exact t3 ((h.unminted i (by simpa using hh) hi.2.1).1.symm.trans hi.1)
    have hir : i < s.max := hi.2.1
    have h1 : WFA { s with tags := upd s.tags i AVAILABLE, queues := upd s.queues q rest } := by
      refine ⟨h.recNodup, ?_, h.recCap, h.cap1, h.nextLe, ?_, ?_, ?_, ?_, ?_, ?_, h.sb⟩
      · intro x hx
        refine ⟨(h.recAvail x hx).1, ?_⟩
        show upd s.tags i AVAILABLE x = _
        rw [upd_apply]; split
        · rfl
        · exact (h.recAvail x hx).2
      · intro x a b
        refine ⟨?_, (h.unminted x a b).2⟩
        show upd s.tags i AVAILABLE x = _
        rw [upd_apply]; split
        · rfl
        · exact (h.unminted x a b).1
      · intro q' x hx
        have hx2 : x ∈ upd s.queues q (i :: rest) q' := by
          simp only [upd_apply] at hx ⊢
          split at hx
          · rename_i hqq; rw [if_pos hqq]; exact List.mem_cons_of_mem _ hx
          · rename_i hqq; rw [if_neg hqq]; exact hx
        have hne : x ≠ i := by
          rintro rfl
          have := h.qdisj q' q x hx2 (by simp)
          subst this
          simp only [upd_self] at hx
          exact hnd.1 hx
        have := h.queued q' x hx2
        refine ⟨?_, this.2⟩
        show upd s.tags i AVAILABLE x = _
        rw [upd_ne hne]; exact this.1
      · intro q1 q2 x hx1 hx2
        apply h.qdisj q1 q2 x
        · simp only [upd_apply] at hx1 ⊢
          split at hx1
          · rename_i hqq; rw [if_pos hqq]; exact List.mem_cons_of_mem _ hx1
          · rename_i hqq; rw [if_neg hqq]; exact hx1
        · simp only [upd_apply] at hx2 ⊢
          split at hx2
          · rename_i hqq; rw [if_pos hqq]; exact List.mem_cons_of_mem _ hx2
          · rename_i hqq; rw [if_neg hqq]; exact hx2
      · intro q'
        have := h.qnodup q'
        simp only [upd_apply] at this ⊢
        split
        · exact hnd.2
        · rename_i hqq; rw [if_neg hqq] at this; exact this
      · intro x hx
        have hx : upd s.tags i AVAILABLE x = RETIRING := hx
        rw [upd_apply] at hx
        split at hx
        · exact absurd hx t3
        · rename_i hne
          obtain ⟨q', hq'⟩ := h.ret x hx
          refine ⟨q', ?_⟩
          simp only [upd_apply] at hq' ⊢
          split
          · rename_i hqq
            rw [if_pos hqq] at hq'
            rcases List.mem_cons.mp hq' with hh | hh
            · exact absurd hh hne
            · exact hh
          · rename_i hqq; rw [if_neg hqq] at hq'; exact hq'
      · intro x hx
        show upd s.tags i AVAILABLE x = _
        have hxm : s.max ≤ x := hx
        rw [upd_ne (by omega)]; exact h.out x hx
    have h2 := h1.push (i := i) (by simp) hnr hlt
    obtain ⟨p1, p2, p3, p4, p5, p6, p7, p8⟩ := push_fields { s with tags := upd s.tags i AVAILABLE } i
    have hcomm : Alloc.push { s with tags := upd s.tags i AVAILABLE, queues := upd s.queues q rest } i =
        { Alloc.push { s with tags := upd s.tags i AVAILABLE } i with
          queues := upd (Alloc.push { s with tags := upd s.tags i AVAILABLE } i).queues q rest } := by
      unfold Alloc.push
      simp only [if_pos hir]
      split <;> rfl
    rw [hcomm] at h2
    obtain ⟨s', e1, e2, e3, e4, e5, e6, e7, e8, e9, e10, e11⟩ :=
      ih (Alloc.push { s with tags := upd s.tags i AVAILABLE } i) (by rw [p4]; exact hq) h2
    have hne : (Alloc.push { s with tags := upd s.tags i AVAILABLE } i).recycled ≠ [] := by
      unfold Alloc.push
      simp only [if_pos hir]
      split
      · simp
      · rename_i hh
        have := h.cap1
        intro hc
        simp only at this hc hh
        rw [hc] at hh
        simp at hh; omega
    refine ⟨s', e1, e2, ?_, by rw [e4, p2], by rw [e5, p3], by rw [e6, p5], by rw [e7, p4], by rw [e8, p6],
      fun _ => e11 hne, by simp, fun _ => e11 hne⟩
    intro x
    rw [e3, p1]
    simp only [upd_apply, List.mem_cons]
    by_cases hx1 : x ∈ rest
    · simp [hx1]
    · by_cases hx2 : x = i <;> simp [hx1, hx2]

theorem lastQueue_any (e : Nat) : lastQueue e = (e + 2) % 4 := by
  unfold lastQueue queueOf; omega

/-- Draining never panics, releases exactly the queue two epochs back, and refills the free list if there was
anything to release. -/
theorem tryDrain_spec (s : Alloc) (h : WFA s) :
    ∃ s', s.tryDrain = some s' ∧ WFA s' ∧ s'.max = s.max ∧ s'.next = s.next ∧ s'.epoch = s.epoch + 1 ∧
      s'.scanBucket = s.scanBucket ∧
      (∀ i, s'.tags i = if i ∈ s.queues ((s.epoch + 2) % 4) then AVAILABLE else s.tags i) ∧
      (s.queues ((s.epoch + 2) % 4) ≠ [] → s'.recycled ≠ []) ∧
      (s.queues ((s.epoch + 2) % 4) = [] → s' = { s with epoch := s.epoch + 1 }) := by
  unfold Alloc.tryDrain
  rw [lastQueue_any]
  have hu : upd (upd s.queues ((s.epoch + 2) % 4) []) ((s.epoch + 2) % 4) (s.queues ((s.epoch + 2) % 4)) =
      s.queues := by
    funext x; simp only [upd_apply]; split
    · rename_i hx; rw [hx]
    · rfl
  obtain ⟨s', e1, e2, e3, e4, e5, e6, e7, e8, e9, e10, e11⟩ := drainAll_spec (s.queues ((s.epoch + 2) % 4))
    ((s.epoch + 2) % 4) { s with epoch := s.epoch + 1, queues := upd s.queues ((s.epoch + 2) % 4) [] } (by simp)
    (by
      simp only [hu]
      exact ⟨h.recNodup, h.recAvail, h.recCap, h.cap1, h.nextLe, h.unminted, h.queued, h.qdisj, h.qnodup, h.ret, h.out,
        h.sb⟩)
  refine ⟨s', e1, e2, e4, e5, e6, e8, e3, e9, ?_⟩
  intro hq
  rw [e10 hq]
  have : upd s.queues ((s.epoch + 2) % 4) [] = s.queues := by
    funext x; simp only [upd_apply]; split
    · rename_i hx; rw [hx, hq]
    · rfl
  rw [this]

end Verif.Inmem
