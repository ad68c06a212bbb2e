import Verif.Garnet.FsmInv
import Mathlib.Data.List.Perm.Basic
/-
Invariants relating the event log to the state.
-/
namespace Verif.Garnet

/-- A thread that owns an id acquired it last, with the current quantization flag. -/
def PClog (quant : Bool) (log : List Ev) (t : Nat) : PC → Prop
  | .nAdd id | .mint3 id | .hold id => lastAcq t log = some (id, quant)
  | _ => True

/-- About to increment, about to decrement the counter. -/
def PC.adding : PC → Bool
  | .nAdd _ | .mint3 _ => true
  | _ => false
def PC.subbing : PC → Bool
  | .fSub _ => true
  | _ => false

structure LogInv (U0 : List Nat) (s : St) : Prop where
  used : ∀ id, s.store.used id = true ↔ id ∈ inUse U0 s.log
  nodup : (inUse U0 s.log).Nodup
  valid : Valid U0 s.log
  pcs : ∀ t, PClog s.quant s.log t (s.pc t)
  count : ∃ A B : List Nat, A.Nodup ∧ B.Nodup ∧ (∀ t, t ∈ A ↔ (s.pc t).adding = true) ∧
    (∀ t, t ∈ B ↔ (s.pc t).subbing = true) ∧
    s.total + (A.length : Int) = ((inUse U0 s.log).length : Int) + (B.length : Int)
  below : ∀ id ∈ acqIds s.log, id < s.next
  handover : s.quant = true → ∀ t id, Ev.acq t id false ∈ s.log → id ≤ s.maxBackfill

/-- Steps that neither log nor count. -/
theorem LogInv.same {U0 : List Nat} {s s' : St} (h : LogInv U0 s) (t : Nat) (p : PC)
    (hpc : s'.pc = upd s.pc t p) (hu : ∀ id, s'.store.used id = s.store.used id) (hl : s'.log = s.log)
    (hq : s'.quant = s.quant) (ht : s'.total = s.total) (hm : s'.maxBackfill = s.maxBackfill)
    (hn : s.next ≤ s'.next) (ha : p.adding = (s.pc t).adding) (hb : p.subbing = (s.pc t).subbing)
    (hp : PClog s.quant s.log t p) : LogInv U0 s' := by
  refine ⟨?_, by rw [hl]; exact h.nodup, by rw [hl]; exact h.valid, ?_, ?_, ?_, ?_⟩
  · intro id; rw [hu, hl]; exact h.used id
  · intro t'
    rw [hpc, hl, hq]
    unfold upd
    split
    · rename_i he; subst he; exact hp
    · exact h.pcs t'
  · obtain ⟨A, B, h1, h2, h3, h4, h5⟩ := h.count
    refine ⟨A, B, h1, h2, ?_, ?_, by rw [ht, hl]; exact h5⟩
    · intro t'
      rw [h3, hpc]; unfold upd
      split
      · rename_i he; subst he; rw [ha]
      · rfl
    · intro t'
      rw [h4, hpc]; unfold upd
      split
      · rename_i he; subst he; rw [hb]
      · rfl
  · intro id hid
    rw [hl] at hid
    exact Nat.lt_of_lt_of_le (h.below id hid) hn
  · rw [hq, hl, hm]; exact h.handover

theorem PClog.other {quant : Bool} {log : List Ev} {t t' id : Nat} {q : Bool} {p : PC} (hne : t' ≠ t)
    (h : PClog quant log t' p) : PClog quant (.acq t id q :: log) t' p := by
  have : lastAcq t' (.acq t id q :: log) = lastAcq t' log := by
    simp only [lastAcq]; rw [if_neg (Ne.symm hne)]
  cases p <;> simp only [PClog, this] at h ⊢ <;> exact h

theorem PClog.rel {quant : Bool} {log : List Ev} {t' id : Nat} {p : PC}
    (h : PClog quant log t' p) : PClog quant (.rel id :: log) t' p := by
  cases p <;> simp only [PClog, lastAcq] at h ⊢ <;> exact h

/-- Acquisition steps. -/
theorem LogInv.acquire {U0 : List Nat} {s s' : St} (h : LogInv U0 s) (t : Nat) (p : PC) {id : Nat}
    (hpc : s'.pc = upd s.pc t p) (hfree : s.store.used id = false)
    (hu : ∀ j, s'.store.used j = if j = id then true else s.store.used j)
    (hl : s'.log = .acq t id s.quant :: s.log)
    (hq : s'.quant = s.quant) (ht : s'.total = s.total) (hm : s'.maxBackfill = s.maxBackfill)
    (hn : s'.next = s.next) (hid : id < s.next) (ha0 : (s.pc t).adding = false) (ha : p.adding = true)
    (hb0 : (s.pc t).subbing = false) (hb : p.subbing = false)
    (hp : PClog s.quant s'.log t p) : LogInv U0 s' := by
  have hnot : id ∉ inUse U0 s.log := by
    intro hmem
    rw [← h.used, hfree] at hmem; simp at hmem
  refine ⟨?_, ?_, ?_, ?_, ?_, ?_, ?_⟩
  · intro j
    rw [hu, hl]
    simp only [inUse, List.mem_cons]
    rw [← h.used j]
    by_cases hj : j = id
    · simp [hj]
    · simp [hj]
  · rw [hl]; exact List.nodup_cons.2 ⟨hnot, h.nodup⟩
  · rw [hl]; exact ⟨hnot, h.valid⟩
  · intro t'
    rw [hpc, hq]
    unfold upd
    split
    · rename_i he; subst he; exact hp
    · rename_i hne; rw [hl]; exact (h.pcs t').other hne
  · obtain ⟨A, B, h1, h2, h3, h4, h5⟩ := h.count
    have htA : t ∉ A := by rw [h3, ha0]; simp
    refine ⟨t :: A, B, List.nodup_cons.2 ⟨htA, h1⟩, h2, ?_, ?_, ?_⟩
    · intro t'
      rw [hpc]; unfold upd
      split
      · rename_i he; subst he; simp [ha]
      · rename_i hne; simp [hne, h3]
    · intro t'
      rw [h4, hpc]; unfold upd
      split
      · rename_i he; subst he; rw [hb0, hb]
      · rfl
    · rw [ht, hl]; simp only [inUse, List.length_cons]; push_cast; omega
  · intro j hj
    rw [hl] at hj
    simp only [acqIds, List.mem_cons] at hj
    rw [hn]
    rcases hj with rfl | hj
    · exact hid
    · exact h.below j hj
  · intro hqt t' j hj
    rw [hq] at hqt
    rw [hl, hm] at *
    rcases List.mem_cons.1 hj with he | hj
    · simp only [Ev.acq.injEq] at he
      rw [hqt] at he; simp at he
    · exact h.handover hqt t' j hj

/-- Counting steps. -/
theorem LogInv.added {U0 : List Nat} {s s' : St} (h : LogInv U0 s) (t : Nat) (p : PC)
    (hpc : s'.pc = upd s.pc t p) (hst : s'.store = s.store) (hl : s'.log = s.log)
    (hq : s'.quant = s.quant) (ht : s'.total = s.total + 1) (hm : s'.maxBackfill = s.maxBackfill)
    (hn : s'.next = s.next) (ha0 : (s.pc t).adding = true) (ha : p.adding = false)
    (hb0 : (s.pc t).subbing = false) (hb : p.subbing = false)
    (hp : PClog s.quant s.log t p) : LogInv U0 s' := by
  refine ⟨by rw [hst, hl]; exact h.used, by rw [hl]; exact h.nodup, by rw [hl]; exact h.valid, ?_, ?_,
    by rw [hl, hn]; exact h.below, by rw [hq, hl, hm]; exact h.handover⟩
  · intro t'
    rw [hpc, hl, hq]
    unfold upd
    split
    · rename_i he; subst he; exact hp
    · exact h.pcs t'
  · obtain ⟨A, B, h1, h2, h3, h4, h5⟩ := h.count
    have htA : t ∈ A := by rw [h3, ha0]
    refine ⟨A.erase t, B, h1.erase t, h2, ?_, ?_, ?_⟩
    · intro t'
      rw [h1.mem_erase_iff, hpc]; unfold upd
      split
      · rename_i he; subst he; simp [ha]
      · rename_i hne; simp [hne, h3]
    · intro t'
      rw [h4, hpc]; unfold upd
      split
      · rename_i he; subst he; rw [hb0, hb]
      · rfl
    · rw [ht, hl, List.length_erase_of_mem htA]
      have : 0 < A.length := List.length_pos_of_mem htA
      omega

theorem LogInv.subbed {U0 : List Nat} {s s' : St} (h : LogInv U0 s) (t : Nat) (p : PC)
    (hpc : s'.pc = upd s.pc t p) (hst : s'.store = s.store) (hl : s'.log = s.log)
    (hq : s'.quant = s.quant) (ht : s'.total = s.total - 1) (hm : s'.maxBackfill = s.maxBackfill)
    (hn : s'.next = s.next) (ha0 : (s.pc t).adding = false) (ha : p.adding = false)
    (hb0 : (s.pc t).subbing = true) (hb : p.subbing = false)
    (hp : PClog s.quant s.log t p) : LogInv U0 s' := by
  refine ⟨by rw [hst, hl]; exact h.used, by rw [hl]; exact h.nodup, by rw [hl]; exact h.valid, ?_, ?_,
    by rw [hl, hn]; exact h.below, by rw [hq, hl, hm]; exact h.handover⟩
  · intro t'
    rw [hpc, hl, hq]
    unfold upd
    split
    · rename_i he; subst he; exact hp
    · exact h.pcs t'
  · obtain ⟨A, B, h1, h2, h3, h4, h5⟩ := h.count
    have htB : t ∈ B := by rw [h4, hb0]
    refine ⟨A, B.erase t, h1, h2.erase t, ?_, ?_, ?_⟩
    · intro t'
      rw [h3, hpc]; unfold upd
      split
      · rename_i he; subst he; rw [ha0, ha]
      · rfl
    · intro t'
      rw [h2.mem_erase_iff, hpc]; unfold upd
      split
      · rename_i he; subst he; simp [hb]
      · rename_i hne; simp [hne, h4]
    · rw [ht, hl, List.length_erase_of_mem htB]
      have : 0 < B.length := List.length_pos_of_mem htB
      omega

/-- Release steps. -/
theorem LogInv.release {U0 : List Nat} {s s' : St} (h : LogInv U0 s) (t : Nat) (p : PC) {id : Nat}
    (hpc : s'.pc = upd s.pc t p) (hused : s.store.used id = true)
    (hu : ∀ j, s'.store.used j = if j = id then false else s.store.used j)
    (hl : s'.log = .rel id :: s.log)
    (hq : s'.quant = s.quant) (ht : s'.total = s.total) (hm : s'.maxBackfill = s.maxBackfill)
    (hn : s'.next = s.next) (ha0 : (s.pc t).adding = false) (ha : p.adding = false)
    (hb0 : (s.pc t).subbing = false) (hb : p.subbing = true)
    (hp : PClog s.quant s'.log t p) : LogInv U0 s' := by
  have hmem : id ∈ inUse U0 s.log := by rw [← h.used]; exact hused
  refine ⟨?_, ?_, ?_, ?_, ?_, ?_, ?_⟩
  · intro j
    rw [hu, hl]
    simp only [inUse]
    rw [h.nodup.mem_erase_iff, ← h.used j]
    by_cases hj : j = id
    · simp [hj]
    · simp [hj]
  · rw [hl]; exact h.nodup.erase id
  · rw [hl]; exact ⟨hmem, h.valid⟩
  · intro t'
    rw [hpc, hq]
    unfold upd
    split
    · rename_i he; subst he; exact hp
    · rw [hl]; exact (h.pcs t').rel
  · obtain ⟨A, B, h1, h2, h3, h4, h5⟩ := h.count
    have htB : t ∉ B := by rw [h4, hb0]; simp
    refine ⟨A, t :: B, h1, List.nodup_cons.2 ⟨htB, h2⟩, ?_, ?_, ?_⟩
    · intro t'
      rw [h3, hpc]; unfold upd
      split
      · rename_i he; subst he; rw [ha0, ha]
      · rfl
    · intro t'
      rw [hpc]; unfold upd
      split
      · rename_i he; subst he; simp [hb]
      · rename_i hne; simp [hne, h4]
    · rw [ht, hl]; simp only [inUse, List.length_cons]
      rw [List.length_erase_of_mem hmem]
      have : 0 < (inUse U0 s.log).length := List.length_pos_of_mem hmem
      push_cast; omega
  · intro j hj
    rw [hl] at hj
    rw [hn]; exact h.below j hj
  · intro hqt t' j hj
    rw [hq] at hqt
    rw [hl, hm] at *
    rcases List.mem_cons.1 hj with he | hj
    · simp at he
    · exact h.handover hqt t' j hj

theorem mem_acqIds {log : List Ev} {t id : Nat} {q : Bool} (h : Ev.acq t id q ∈ log) : id ∈ acqIds log := by
  induction log with
  | nil => simp at h
  | cons e l ih =>
    rcases List.mem_cons.1 h with rfl | h'
    · simp [acqIds]
    · cases e <;> simp [acqIds, ih h']

theorem LogInv.step {U0 : List Nat} {s s' : St} {mb L : Nat} (hc : Core s mb L) (h : LogInv U0 s)
    (hs : Step s s') : LogInv U0 s' := by
  cases hs
  case markChanged t id st' hp hm =>
    have hq := hc.pcs t
    rw [hp] at hq
    obtain ⟨m1, m2, m3, m4⟩ := mark_of hc.wf hm
    have hf : s.store.used id = false := by
      cases hu : s.store.used id <;> simp [hu] at m1 ⊢
    exact h.acquire t (.nAdd id) rfl hf m3 rfl rfl rfl rfl rfl (Nat.lt_of_lt_of_le hq.1 hc.lim)
      (by rw [hp]; rfl) rfl (by rw [hp]; rfl) rfl (by simp [PClog, lastAcq])
  case mintChanged t id st' hp hm =>
    have hq := hc.pcs t
    rw [hp] at hq
    obtain ⟨m1, m2, m3, m4⟩ := mark_of hc.wf hm
    have hf : s.store.used id = false := by
      cases hu : s.store.used id <;> simp [hu] at m1 ⊢
    exact h.acquire t (.mint3 id) rfl hf m3 rfl rfl rfl rfl rfl (by have := hq.2.2.1; omega)
      (by rw [hp]; rfl) rfl (by rw [hp]; rfl) rfl (by simp [PClog, lastAcq])
  case mintSame t id st' hp hm =>
    have hq := hc.pcs t
    rw [hp] at hq
    obtain ⟨m1, m2, m3, m4⟩ := mark_of hc.wf hm
    rw [hc.fresh id (by have := hq.2.1; omega)] at m1
    simp at m1
  case freeChanged t id st' hp hm =>
    obtain ⟨m1, m2, m3, m4⟩ := mark_of hc.wf hm
    have hf : s.store.used id = true := by
      cases hu : s.store.used id <;> simp [hu] at m1 ⊢
    exact h.release t (.fSub id) rfl hf m3 rfl rfl rfl rfl rfl
      (by rw [hp]; rfl) rfl (by rw [hp]; rfl) rfl trivial
  case add t id hp =>
    have hq := h.pcs t
    rw [hp] at hq
    exact h.added t (.hold id) rfl rfl rfl rfl rfl rfl rfl (by rw [hp]; rfl) rfl (by rw [hp]; rfl) rfl hq
  case mintAdd t id hp =>
    have hq := h.pcs t
    rw [hp] at hq
    exact h.added t (.hold id) rfl rfl rfl rfl rfl rfl rfl (by rw [hp]; rfl) rfl (by rw [hp]; rfl) rfl hq
  case sub t id hp =>
    exact h.subbed t (.fPush id) rfl rfl rfl rfl rfl rfl rfl (by rw [hp]; rfl) rfl (by rw [hp]; rfl) rfl
      trivial
  case markSame t id st' hp hm =>
    obtain ⟨m1, m2, m3, m4⟩ := mark_of hc.wf hm
    have hf : s.store.used id = true := by
      cases hu : s.store.used id <;> simp [hu] at m1 ⊢
    refine h.same t .nPop rfl ?_ rfl rfl rfl rfl (Nat.le_refl _) (by rw [hp]; rfl) (by rw [hp]; rfl) trivial
    intro j
    simp only; rw [m3]; split
    · rename_i he; rw [he, hf]
    · rfl
  case freeSame t id st' hp hm =>
    obtain ⟨m1, m2, m3, m4⟩ := mark_of hc.wf hm
    have hf : s.store.used id = false := by
      cases hu : s.store.used id <;> simp [hu] at m1 ⊢
    refine h.same t .idle rfl ?_ rfl rfl rfl rfl (Nat.le_refl _) (by rw [hp]; rfl) (by rw [hp]; rfl) trivial
    intro j
    simp only; rw [m3]; split
    · rename_i he; rw [he, hf]
    · rfl
  case expand t id st' mb' hp he =>
    rw [hc.maxb] at he
    obtain ⟨m, e1, e2, e3, e4, e5, e6, e7⟩ := expand_spec hc.wf he hc.exist hc.clear
    exact h.same t (.mint2 id) rfl e5 rfl rfl rfl rfl (Nat.le_refl _) (by rw [hp]; rfl) (by rw [hp]; rfl)
      trivial
  case mintLock t hp hm =>
    exact h.same t (.mint1 s.next) rfl (fun _ => rfl) rfl rfl rfl rfl (Nat.le_succ _) (by rw [hp]; rfl)
      (by rw [hp]; rfl) trivial
  case enableReuse => exact ⟨h.used, h.nodup, h.valid, h.pcs, h.count, h.below, h.handover⟩
  case enableQuant hb hm =>
    refine ⟨h.used, h.nodup, h.valid, ?_, h.count, h.below, ?_⟩
    · intro t
      have hnb := hb t
      simp only
      cases hpt : s.pc t <;> simp only [PClog] <;> rw [hpt] at hnb <;>
        exact absurd trivial hnb
    · intro _ t id hmem
      have := h.below id (mem_acqIds hmem)
      simp only; omega
  all_goals
    exact h.same _ _ rfl (fun _ => rfl) rfl rfl rfl rfl (Nat.le_refl _)
      (by simp only [*]; rfl) (by simp only [*]; rfl) trivial

/-- While reuse is disabled every id is fresh. -/
def PCmint : PC → Prop
  | .nFlag | .nPop | .nPop2 | .nCheck _ | .nMark _ | .nAdd _ | .rLock | .rCheck | .rRead
  | .rScan .. | .rPush .. | .rFin _ => False
  | _ => True

structure ReuseInv (n0 : Nat) (s : St) : Prop where
  pcs : ∀ t, PCmint (s.pc t)
  dec : (acqIds s.log).Pairwise (· > ·)
  ge : ∀ id ∈ acqIds s.log, n0 ≤ id
  next : n0 ≤ s.next
  mint : ∀ t id, s.pc t = .mint1 id ∨ s.pc t = .mint2 id → n0 ≤ id ∧ ∀ j ∈ acqIds s.log, j < id

theorem Step.reuse_mono {s s' : St} (hs : Step s s') (h : s'.reuse = false) : s.reuse = false := by
  cases hs <;> first | exact h | simp at h

theorem ReuseInv.same {n0 : Nat} {s s' : St} (h : ReuseInv n0 s) (t : Nat) (p : PC)
    (hpc : s'.pc = upd s.pc t p) (hl : s'.log = s.log) (hn : s.next ≤ s'.next) (hp : PCmint p)
    (hm : ∀ id, p = .mint1 id ∨ p = .mint2 id → n0 ≤ id ∧ ∀ j ∈ acqIds s.log, j < id) :
    ReuseInv n0 s' := by
  refine ⟨?_, by rw [hl]; exact h.dec, by rw [hl]; exact h.ge, Nat.le_trans h.next hn, ?_⟩
  · intro t'
    rw [hpc]; unfold upd
    split
    · exact hp
    · exact h.pcs t'
  · intro t' id hid
    rw [hpc] at hid; rw [hl]; unfold upd at hid
    split at hid
    · exact hm id hid
    · exact h.mint t' id hid

theorem ReuseInv.no {n0 : Nat} {s : St} (h : ReuseInv n0 s) {t : Nat} {p : PC} (hp : s.pc t = p)
    (hn : PCmint p → False) : False := hn (by rw [← hp]; exact h.pcs t)

theorem ReuseInv.step {U0 : List Nat} {n0 : Nat} {s s' : St} {mb L : Nat} (hc : Core s mb L)
    (hlog : LogInv U0 s) (h : ReuseInv n0 s) (hs : Step s s') (hr : s'.reuse = false) : ReuseInv n0 s' := by
  have hr0 := hs.reuse_mono hr
  cases hs
  case mintLock t hp hm =>
    refine h.same t _ rfl rfl (Nat.le_succ _) trivial ?_
    rintro id (he | he)
    · simp only [PC.mint1.injEq] at he
      subst he
      exact ⟨h.next, hlog.below⟩
    · simp at he
  case expand t id st' mb' hp he =>
    refine h.same t _ rfl rfl (Nat.le_refl _) trivial ?_
    rintro j (hj | hj)
    · simp at hj
    · simp only [PC.mint2.injEq] at hj
      subst hj
      exact h.mint t id (Or.inl hp)
  case mintChanged t id st' hp hm =>
    have hmi := h.mint t id (Or.inr hp)
    have hq := hc.pcs t
    rw [hp] at hq
    refine ⟨?_, ?_, ?_, h.next, ?_⟩
    · intro t'
      simp only; unfold upd
      split
      · trivial
      · exact h.pcs t'
    · simp only [acqIds]
      exact List.pairwise_cons.2 ⟨hmi.2, h.dec⟩
    · intro j hj
      simp only [acqIds, List.mem_cons] at hj
      rcases hj with rfl | hj
      · exact hmi.1
      · exact h.ge j hj
    · intro t' id' hid'
      exfalso
      simp only at hid'; unfold upd at hid'
      split at hid'
      · rcases hid' with h1 | h1 <;> simp at h1
      · rename_i hne
        have hq' := hc.pcs t'
        rcases hid' with h1 | h1 <;> rw [h1] at hq' <;> have := hq'.1 <;> rw [hq.1] at this <;>
          simp only [Option.some.injEq] at this <;> exact hne this.symm
  case mintSame t id st' hp hm =>
    have hq := hc.pcs t
    rw [hp] at hq
    obtain ⟨m1, m2, m3, m4⟩ := mark_of hc.wf hm
    rw [hc.fresh id (by have := hq.2.1; omega)] at m1
    simp at m1
  case freeChanged t id st' hp hm =>
    refine ⟨?_, h.dec, h.ge, h.next, ?_⟩
    · intro t'
      simp only; unfold upd
      split
      · trivial
      · exact h.pcs t'
    · intro t' id' hid'
      simp only at hid'; unfold upd at hid'
      split at hid'
      · rcases hid' with h1 | h1 <;> simp at h1
      · exact h.mint t' id' hid'
  case enableQuant hb hm => exact ⟨h.pcs, h.dec, h.ge, h.next, h.mint⟩
  case reuseOn t hp hr' => rw [hr0] at hr'; simp at hr'
  case enableReuse => simp at hr
  all_goals
    first
    | exact h.same _ _ rfl rfl (Nat.le_refl _) trivial (by rintro id (h1 | h1) <;> simp at h1)
    | exact (h.no ‹s.pc _ = _› id).elim

end Verif.Garnet
