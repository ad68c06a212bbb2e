import Verif.Garnet.FsmLemmas
import Verif.Garnet.FsmSpec
/-
The inductive invariant of the allocator.
-/
namespace Verif.Garnet

/-- What a thread at a program point relies on.  `L` bounds the ids that have been handed out: it is
`next`, or `next - 1` while a minted id is not marked yet. -/
def PCok (minter : Option Nat) (next mb L t : Nat) : PC → Prop
  | .nCheck id | .nMark id | .fSub id | .fPush id | .nAdd id | .hold id => id < L ∧ blockOf id ≤ mb
  | .mint1 id => minter = some t ∧ L = id ∧ next = id + 1
  | .mint2 id => minter = some t ∧ L = id ∧ next = id + 1 ∧ blockOf id ≤ mb
  | .mint3 id => minter = some t ∧ L = next ∧ id < L ∧ blockOf id ≤ mb
  | .fMark id => id < L
  | .rScan nx m id _ blk => nx ≤ L ∧ m ≤ mb ∧ (blk ≠ none → blockOf id ≤ m)
  | .rPush nx m id _ => nx ≤ L ∧ m ≤ mb ∧ blockOf id ≤ m ∧ id < nx
  | _ => True

structure Core (s : St) (mb L : Nat) : Prop where
  wf : s.store.WF
  maxb : s.maxBlock = some mb
  exist : ∀ b, b ≤ mb → s.store b ≠ none
  clear : ∀ id, mb < blockOf id → s.store.used id = false
  fresh : ∀ id, L ≤ id → s.store.used id = false
  lim : L ≤ s.next
  lim' : s.minter = none → L = s.next
  queue : ∀ id ∈ s.queue, id < L ∧ blockOf id ≤ mb
  pcs : ∀ t, PCok s.minter s.next mb L t (s.pc t)

theorem Core.of {s s' : St} {mb L mb' L' : Nat} (h : Core s mb L) (t : Nat) (p : PC)
    (hpc : s'.pc = upd s.pc t p) (wf : s'.store.WF) (maxb : s'.maxBlock = some mb')
    (exist : ∀ b, b ≤ mb' → s'.store b ≠ none) (clear : ∀ id, mb' < blockOf id → s'.store.used id = false)
    (fresh : ∀ id, L' ≤ id → s'.store.used id = false) (lim : L' ≤ s'.next)
    (lim' : s'.minter = none → L' = s'.next) (hL : L ≤ L') (hmb : mb ≤ mb')
    (queue : ∀ id ∈ s'.queue, id < L' ∧ blockOf id ≤ mb')
    (hp : PCok s'.minter s'.next mb' L' t p)
    (hother : (s'.minter = s.minter ∧ s'.next = s.next ∧ L' = L) ∨ s.minter = none ∨ s.minter = some t) :
    Core s' mb' L' := by
  refine ⟨wf, maxb, exist, clear, fresh, lim, lim', queue, ?_⟩
  intro t'
  rw [hpc]
  unfold upd
  split
  · rename_i he; subst he; exact hp
  · rename_i hne
    have hq := h.pcs t'
    have hlock : s.minter = some t' → s'.minter = s.minter ∧ s'.next = s.next ∧ L' = L := by
      intro hm
      rcases hother with h1 | h1 | h1
      · exact h1
      · rw [hm] at h1; simp at h1
      · rw [hm] at h1; simp only [Option.some.injEq] at h1; exact absurd h1 hne
    cases hpt : s.pc t' with
    | mint1 id =>
      rw [hpt] at hq
      obtain ⟨e1, e2, e3⟩ := hlock hq.1
      exact ⟨by rw [e1]; exact hq.1, by rw [e3]; exact hq.2.1, by rw [e2]; exact hq.2.2⟩
    | mint2 id =>
      rw [hpt] at hq
      obtain ⟨e1, e2, e3⟩ := hlock hq.1
      exact ⟨by rw [e1]; exact hq.1, by rw [e3]; exact hq.2.1, by rw [e2]; exact hq.2.2.1,
        Nat.le_trans hq.2.2.2 hmb⟩
    | mint3 id =>
      rw [hpt] at hq
      obtain ⟨e1, e2, e3⟩ := hlock hq.1
      exact ⟨by rw [e1]; exact hq.1, by rw [e2, e3]; exact hq.2.1, by rw [e3]; exact hq.2.2.1,
        Nat.le_trans hq.2.2.2 hmb⟩
    | rScan nx m id has blk =>
      rw [hpt] at hq
      exact ⟨Nat.le_trans hq.1 hL, Nat.le_trans hq.2.1 hmb, hq.2.2⟩
    | rPush nx m id blk =>
      rw [hpt] at hq
      exact ⟨Nat.le_trans hq.1 hL, Nat.le_trans hq.2.1 hmb, hq.2.2⟩
    | fMark id => rw [hpt] at hq; exact Nat.lt_of_lt_of_le hq hL
    | nCheck id => rw [hpt] at hq; exact ⟨Nat.lt_of_lt_of_le hq.1 hL, Nat.le_trans hq.2 hmb⟩
    | nMark id => rw [hpt] at hq; exact ⟨Nat.lt_of_lt_of_le hq.1 hL, Nat.le_trans hq.2 hmb⟩
    | fSub id => rw [hpt] at hq; exact ⟨Nat.lt_of_lt_of_le hq.1 hL, Nat.le_trans hq.2 hmb⟩
    | fPush id => rw [hpt] at hq; exact ⟨Nat.lt_of_lt_of_le hq.1 hL, Nat.le_trans hq.2 hmb⟩
    | nAdd id => rw [hpt] at hq; exact ⟨Nat.lt_of_lt_of_le hq.1 hL, Nat.le_trans hq.2 hmb⟩
    | hold id => rw [hpt] at hq; exact ⟨Nat.lt_of_lt_of_le hq.1 hL, Nat.le_trans hq.2 hmb⟩
    | _ => trivial

theorem keepBlk_one {id : Nat} {blk : Option (List Byte)} {m : Nat} (h : blockOf id ≤ m)
    (hk : keepBlk (id + 1) blk ≠ none) : blockOf (id + 1) ≤ m := by
  unfold keepBlk at hk
  split at hk
  · exact absurd rfl hk
  · unfold blockOf blockIds at *; omega

theorem keepBlk_eight {id : Nat} {blk : Option (List Byte)} {m : Nat} (h : blockOf id ≤ m)
    (h0 : bitOf id = 0) (hk : keepBlk (id + 8) blk ≠ none) : blockOf (id + 8) ≤ m := by
  unfold keepBlk at hk
  split at hk
  · exact absurd rfl hk
  · unfold blockOf bitOf blockIds at *; omega

/-- What the steps do to the store. -/
theorem expand_spec {s : Store} (h : s.WF) {mb id : Nat} {st' : Store} {mb' : Option Nat}
    (he : expandTo s (some mb) id = some (st', mb')) (hex : ∀ b, b ≤ mb → s b ≠ none)
    (hclear : ∀ j, mb < blockOf j → s.used j = false) :
    ∃ m, mb' = some m ∧ mb ≤ m ∧ blockOf id ≤ m ∧ st'.WF ∧ (∀ j, st'.used j = s.used j) ∧
      (∀ b, b ≤ m → st' b ≠ none) ∧ (∀ j, m < blockOf j → st'.used j = false) := by
  unfold expandTo at he
  simp only at he
  split at he
  · rename_i hb
    simp only [Option.some.injEq, Prod.mk.injEq] at he
    obtain ⟨rfl, rfl⟩ := he
    obtain ⟨h1, h2, h3⟩ := put_zero_spec h (blockOf id)
    have hu : ∀ j, (s.put (blockOf id) zeroBlock).used j = s.used j := by
      intro j
      rw [h2]
      split
      · rename_i hj; exact (hclear j (by omega)).symm
      · rfl
    refine ⟨mb + 1, rfl, by omega, by omega, h1, hu, ?_, ?_⟩
    · intro b hb' hn
      rw [h3] at hn
      rcases Nat.lt_or_ge mb b with hlt | hge
      · exact hn.2 (by omega)
      · exact hex b hge hn.1
    · intro j hj
      rw [hu]; exact hclear j (by omega)
  · split at he
    · simp at he
    · simp only [Option.some.injEq, Prod.mk.injEq] at he
      obtain ⟨rfl, rfl⟩ := he
      exact ⟨mb, rfl, Nat.le_refl _, by omega, h, fun _ => rfl, hex, hclear⟩

theorem mark_of {s : Store} (h : s.WF) {id : Nat} {u c : Bool} {st' : Store}
    (hm : s.mark id u = some (st', c)) : c = (s.used id != u) ∧ st'.WF ∧
      (∀ j, st'.used j = if j = id then u else s.used j) ∧ (∀ b, s b ≠ none → st' b ≠ none) := by
  obtain ⟨s', h1, h2, h3, h4⟩ := mark_spec h id u
  rw [hm] at h1
  simp only [Option.some.injEq, Prod.mk.injEq] at h1
  obtain ⟨rfl, rfl⟩ := h1
  exact ⟨rfl, h2, h3, fun b hb hn => hb ((h4 b).1 hn).1⟩

/-- Steps that leave the store, the lock and the counters alone. -/
theorem Core.same {s s' : St} {mb L : Nat} (h : Core s mb L) (t : Nat) (p : PC)
    (hpc : s'.pc = upd s.pc t p) (e1 : s'.store = s.store) (e2 : s'.maxBlock = s.maxBlock)
    (e3 : s'.next = s.next) (e4 : s'.minter = s.minter)
    (queue : ∀ id ∈ s'.queue, id < L ∧ blockOf id ≤ mb) (hp : PCok s.minter s.next mb L t p) :
    Core s' mb L :=
  h.of t p hpc (by rw [e1]; exact h.wf) (by rw [e2]; exact h.maxb) (by rw [e1]; exact h.exist)
    (by rw [e1]; exact h.clear) (by rw [e1]; exact h.fresh) (by rw [e3]; exact h.lim)
    (by rw [e3, e4]; exact h.lim') (Nat.le_refl _) (Nat.le_refl _) queue (by rw [e3, e4]; exact hp)
    (Or.inl ⟨e4, e3, rfl⟩)

/-- Steps that mark an id below the limit. -/
theorem Core.marked {s s' : St} {mb L : Nat} (h : Core s mb L) (t : Nat) (p : PC) {id : Nat} {u c : Bool}
    (hm : s.store.mark id u = some (s'.store, c)) (hid : id < L) (hb : u = true → blockOf id ≤ mb)
    (hpc : s'.pc = upd s.pc t p) (e2 : s'.maxBlock = s.maxBlock)
    (e3 : s'.next = s.next) (e4 : s'.minter = s.minter) (e5 : s'.queue = s.queue)
    (hp : PCok s.minter s.next mb L t p) :
    Core s' mb L := by
  obtain ⟨m1, m2, m3, m4⟩ := mark_of h.wf hm
  refine h.of t p hpc m2 (by rw [e2]; exact h.maxb) (fun b hb => m4 b (h.exist b hb)) ?_ ?_
    (by rw [e3]; exact h.lim) (by rw [e3, e4]; exact h.lim') (Nat.le_refl _) (Nat.le_refl _)
    (by rw [e5]; exact h.queue) (by rw [e3, e4]; exact hp) (Or.inl ⟨e4, e3, rfl⟩)
  · intro j hj
    rw [m3]
    split
    · rename_i he
      subst he
      cases u
      · rfl
      · exact absurd (hb rfl) (by omega)
    · exact h.clear j hj
  · intro j hj
    rw [m3, if_neg (by omega)]; exact h.fresh j hj

theorem Core.step {s s' : St} {mb L : Nat} (h : Core s mb L) (hs : Step s s') :
    ∃ mb' L', Core s' mb' L' := by
  cases hs
  case mintLock t hp hm =>
    refine ⟨mb, L, h.of t (.mint1 s.next) rfl h.wf h.maxb h.exist h.clear h.fresh ?_ ?_ (Nat.le_refl _)
      (Nat.le_refl _) h.queue ⟨rfl, h.lim' hm, rfl⟩ (Or.inr (Or.inl hm))⟩
    · have := h.lim; simp only; omega
    · intro hc; simp at hc
  case expand t id st' mb' hp he =>
    have hq := h.pcs t
    rw [hp] at hq
    rw [h.maxb] at he
    obtain ⟨m, e1, e2, e3, e4, e5, e6, e7⟩ := expand_spec h.wf he h.exist h.clear
    exact ⟨m, L, h.of t (.mint2 id) rfl e4 e1 e6 e7 (fun j hj => by simp only; rw [e5]; exact h.fresh j hj) h.lim
      h.lim' (Nat.le_refl _) e2 (fun i hi => ⟨(h.queue i hi).1, Nat.le_trans (h.queue i hi).2 e2⟩)
      ⟨hq.1, hq.2.1, hq.2.2, e3⟩ (Or.inl ⟨rfl, rfl, rfl⟩)⟩
  case expandFail t id hp =>
    have hq := h.pcs t
    rw [hp] at hq
    have hl := h.lim
    exact ⟨mb, s.next, h.of t .idle rfl h.wf h.maxb h.exist h.clear
      (fun j hj => h.fresh j (Nat.le_trans hl hj)) (Nat.le_refl _) (fun _ => rfl) hl (Nat.le_refl _)
      (fun i hi => ⟨Nat.lt_of_lt_of_le (h.queue i hi).1 hl, (h.queue i hi).2⟩) trivial
      (Or.inr (Or.inr hq.1))⟩
  case mintFail t id hp =>
    have hq := h.pcs t
    rw [hp] at hq
    have hl := h.lim
    exact ⟨mb, s.next, h.of t .idle rfl h.wf h.maxb h.exist h.clear
      (fun j hj => h.fresh j (Nat.le_trans hl hj)) (Nat.le_refl _) (fun _ => rfl) hl (Nat.le_refl _)
      (fun i hi => ⟨Nat.lt_of_lt_of_le (h.queue i hi).1 hl, (h.queue i hi).2⟩) trivial
      (Or.inr (Or.inr hq.1))⟩
  case mintChanged t id st' hp hm =>
    have hq := h.pcs t
    rw [hp] at hq
    obtain ⟨q1, q2, q3, q4⟩ := hq
    obtain ⟨m1, m2, m3, m4⟩ := mark_of h.wf hm
    have hl := h.lim
    refine ⟨mb, s.next, h.of t (.mint3 id) rfl m2 h.maxb (fun b hb => m4 b (h.exist b hb)) ?_ ?_
      (Nat.le_refl _) (fun _ => rfl) hl (Nat.le_refl _)
      (fun i hi => ⟨Nat.lt_of_lt_of_le (h.queue i hi).1 hl, (h.queue i hi).2⟩) ⟨q1, rfl, ?_, q4⟩
      (Or.inr (Or.inr q1))⟩
    · intro j hj
      simp only
      rw [m3, if_neg (by rintro rfl; omega)]; exact h.clear j hj
    · intro j hj
      simp only
      rw [m3, if_neg (by omega)]; exact h.fresh j (by omega)
    · omega
  case mintSame t id st' hp hm =>
    have hq := h.pcs t
    rw [hp] at hq
    obtain ⟨q1, q2, q3, q4⟩ := hq
    obtain ⟨m1, m2, m3, m4⟩ := mark_of h.wf hm
    rw [h.fresh id (by omega)] at m1
    simp at m1
  case mintAdd t id hp =>
    have hq := h.pcs t
    rw [hp] at hq
    obtain ⟨q1, q2, q3, q4⟩ := hq
    exact ⟨mb, L, h.of t (.hold id) rfl h.wf h.maxb h.exist h.clear h.fresh h.lim (fun _ => q2) (Nat.le_refl _)
      (Nat.le_refl _) h.queue ⟨q3, q4⟩ (Or.inr (Or.inr q1))⟩
  case markChanged t id st' hp hm =>
    have hq := h.pcs t
    rw [hp] at hq
    exact ⟨mb, L, h.marked t (.nAdd id) hm hq.1 (fun _ => hq.2) rfl rfl rfl rfl rfl hq⟩
  case markSame t id st' hp hm =>
    have hq := h.pcs t
    rw [hp] at hq
    exact ⟨mb, L, h.marked t .nPop hm hq.1 (fun _ => hq.2) rfl rfl rfl rfl rfl trivial⟩
  case freeChanged t id st' hp hm =>
    have hq := h.pcs t
    rw [hp] at hq
    obtain ⟨m1, m2, m3, m4⟩ := mark_of h.wf hm
    have hu : s.store.used id = true := by
      cases hu : s.store.used id <;> simp [hu] at m1 ⊢
    have hb : blockOf id ≤ mb := by
      rcases Nat.lt_or_ge mb (blockOf id) with hlt | hge
      · rw [h.clear id hlt] at hu; simp at hu
      · exact hge
    exact ⟨mb, L, h.marked t (.fSub id) hm hq (by simp) rfl rfl rfl rfl rfl ⟨hq, hb⟩⟩
  case freeSame t id st' hp hm =>
    have hq := h.pcs t
    rw [hp] at hq
    exact ⟨mb, L, h.marked t .idle hm hq (by simp) rfl rfl rfl rfl rfl trivial⟩
  case popSome t id q hp hqu =>
    have hq := h.queue id (by rw [hqu]; exact List.mem_cons_self)
    exact ⟨mb, L, h.same t (.nCheck id) rfl rfl rfl rfl rfl
      (fun i hi => h.queue i (by rw [hqu]; exact List.mem_cons_of_mem _ hi)) hq⟩
  case pop2Some t id q hp hqu =>
    have hq := h.queue id (by rw [hqu]; exact List.mem_cons_self)
    exact ⟨mb, L, h.same t (.nCheck id) rfl rfl rfl rfl rfl
      (fun i hi => h.queue i (by rw [hqu]; exact List.mem_cons_of_mem _ hi)) hq⟩
  case scanFullByte t nx m id has blk b hp hlt hbit hb hff =>
    have hq := h.pcs t
    rw [hp] at hq
    exact ⟨mb, L, h.same t _ rfl rfl rfl rfl rfl h.queue
      ⟨hq.1, hq.2.1, keepBlk_eight (hq.2.2 (by simp)) hbit⟩⟩
  case scanUsed t nx m id has blk b hp hlt hb hu =>
    have hq := h.pcs t
    rw [hp] at hq
    exact ⟨mb, L, h.same t _ rfl rfl rfl rfl rfl h.queue
      ⟨hq.1, hq.2.1, keepBlk_one (hq.2.2 (by simp))⟩⟩
  case scanFree t nx m id has blk b hp hlt hb hu =>
    have hq := h.pcs t
    rw [hp] at hq
    exact ⟨mb, L, h.same t _ rfl rfl rfl rfl rfl h.queue
      ⟨hq.1, hq.2.1, hq.2.2 (by simp), hlt⟩⟩
  case scanLoad t nx m id has blk hp hlt hb hsb =>
    have hq := h.pcs t
    rw [hp] at hq
    exact ⟨mb, L, h.same t _ rfl rfl rfl rfl rfl h.queue ⟨hq.1, hq.2.1, fun _ => hb⟩⟩
  case scanPush t nx m id blk hp hlen =>
    have hq := h.pcs t
    rw [hp] at hq
    obtain ⟨q1, q2, q3, q4⟩ := hq
    refine ⟨mb, L, h.same t _ rfl rfl rfl rfl rfl ?_ ⟨q1, q2, keepBlk_one q3⟩⟩
    intro i hi
    simp only [List.mem_append, List.mem_singleton] at hi
    rcases hi with hi | rfl
    · exact h.queue i hi
    · exact ⟨by omega, by omega⟩
  case push t id hp hlen =>
    have hq := h.pcs t
    rw [hp] at hq
    refine ⟨mb, L, h.same t _ rfl rfl rfl rfl rfl ?_ trivial⟩
    intro i hi
    simp only [List.mem_append, List.mem_singleton] at hi
    rcases hi with hi | rfl
    · exact h.queue i hi
    · exact hq
  case refillRead t m hp hm hmb =>
    have : m = mb := by have := h.maxb; rw [hmb] at this; simpa using this
    subst this
    exact ⟨m, L, h.same t _ rfl rfl rfl rfl rfl h.queue ⟨Nat.le_of_eq (h.lim' hm).symm, Nat.le_refl _, by simp⟩⟩
  case fCheckOk t id hp hm hlt =>
    exact ⟨mb, L, h.same t (.fMark id) rfl rfl rfl rfl rfl h.queue (by rw [PCok, h.lim' hm]; exact hlt)⟩
  case enableQuant hb hm => exact ⟨mb, L, ⟨h.wf, h.maxb, h.exist, h.clear, h.fresh, h.lim, h.lim', h.queue, h.pcs⟩⟩
  case enableReuse => exact ⟨mb, L, ⟨h.wf, h.maxb, h.exist, h.clear, h.fresh, h.lim, h.lim', h.queue, h.pcs⟩⟩
  case checkOk t id hp hm hlt =>
    have hq := h.pcs t
    rw [hp] at hq
    exact ⟨mb, L, h.same t (.nMark id) rfl rfl rfl rfl rfl h.queue hq⟩
  case add t id hp =>
    have hq := h.pcs t
    rw [hp] at hq
    exact ⟨mb, L, h.same t (.hold id) rfl rfl rfl rfl rfl h.queue hq⟩
  case sub t id hp =>
    have hq := h.pcs t
    rw [hp] at hq
    exact ⟨mb, L, h.same t (.fPush id) rfl rfl rfl rfl rfl h.queue hq⟩
  all_goals exact ⟨mb, L, h.same _ _ rfl rfl rfl rfl rfl h.queue trivial⟩

end Verif.Garnet
