import Verif.Harness.Spec
import Verif.Build.Lemmas
import Mathlib.Tactic.Ring

/-! # Lemmas for C103 -/

namespace Verif.Harness

open Verif.AsyncTools

/-! ## Dynamic balancing -/

section Dynamic

variable {O : Type}

/-- The first `k` batches. -/
def firsts (max b k : Nat) : List Rng := (List.range k).map fun i => (i * b, min ((i + 1) * b) max)

theorem cut_eq (max b : Nat) : cut max b = firsts max b ((max + b - 1) / b) := rfl

theorem firsts_succ (max b k : Nat) : firsts max b (k + 1) = firsts max b k ++ [(k * b, min ((k + 1) * b) max)] := by
  simp [firsts, List.range_succ]

theorem ceil_le {max b k : Nat} (hb : 0 < b) (h : max ≤ k * b) : (max + b - 1) / b ≤ k := by
  rw [← Nat.lt_succ_iff, Nat.div_lt_iff_lt_mul hb, Nat.succ_mul]; omega

theorem le_ceil {max b k : Nat} (hb : 0 < b) (h : k = 0 ∨ (k - 1) * b < max) : k ≤ (max + b - 1) / b := by
  rw [Nat.le_div_iff_mul_le hb]
  rcases h with rfl | h
  · simp
  · rcases k with _ | k
    · simp
    · simp only [Nat.add_sub_cancel] at h
      rw [Nat.succ_mul]; omega

theorem firsts_take {max b k : Nat} (hk : k ≤ (max + b - 1) / b) : firsts max b k = (cut max b).take k := by
  rw [cut_eq, firsts, firsts, ← List.map_take, List.take_range, min_eq_left hk]

/-- The points of a task's results. -/
def Worker.len (w : Worker O) : Nat := (w.results.map fun r => r.1.2 - r.1.1).sum

structure WInv (max head : Nat) (w : Worker O) : Prop where
  le : ∀ st, w.pc = .loaded st → st ≤ head
  fin : w.pc = .done → head = max
  ord : w.started.Pairwise fun a b => a.2 ≤ b.1
  bnd : ∀ r ∈ w.started, r.2 ≤ head

structure Inv (max b : Nat) (s : Dyn O) (k : Nat) : Prop where
  head : s.head = min (k * b) max
  small : k = 0 ∨ (k - 1) * b < max
  perm : (s.workers.flatMap Worker.started).Perm (firsts max b k)
  ws : ∀ w ∈ s.workers, WInv max s.head w
  prog : s.progress = (s.workers.map Worker.len).sum

theorem inv_new (max b n : Nat) : Inv max b (Dyn.new O n) 0 := by
  refine ⟨by simp [Dyn.new], Or.inl rfl, ?_, ?_, ?_⟩
  · have : (Dyn.new O n).workers.flatMap Worker.started = [] := by
      rw [List.flatMap_eq_nil_iff]
      intro w hw
      rw [List.eq_of_mem_replicate hw]; rfl
    rw [this]; simp [firsts]
  · intro w hw
    rw [List.eq_of_mem_replicate hw]
    exact ⟨by simp, by simp, by simp [Worker.started], by simp [Worker.started]⟩
  · simp [Dyn.new, Worker.len]

theorem WInv.mono {max h h' : Nat} {w : Worker O} (hw : WInv max h w) (hh : h ≤ h') (hm : h' ≤ max) : WInv max h' w :=
  ⟨fun st e => (hw.le st e).trans hh, fun e => by have := hw.fin e; omega, hw.ord, fun r hr => (hw.bnd r hr).trans hh⟩

theorem inv_step {max b : Nat} (hb : 0 < b) (hmax : max < 2 ^ 64) {s : Dyn O} {k : Nat} (h : Inv max b s k)
    (x : Nat × Option O) : ∃ k', k ≤ k' ∧ Inv max b (s.step max b x) k' := by
  unfold Dyn.step
  match hx : s.workers[x.1]? with
  | none => exact ⟨k, le_rfl, h⟩
  | some w =>
    simp only
    obtain ⟨as, bs, e, -, hset⟩ := Build.split_at hx
    obtain ⟨hhead, hsmall, hperm, hws, hprog⟩ := h
    have hw : WInv max s.head w := hws w (by rw [e]; simp)
    have hws' : ∀ v, v ∈ as ∨ v ∈ bs → WInv max s.head v := by
      intro v hv; apply hws; rw [e]; simp; tauto
    have hm : s.head ≤ max := by omega
    rw [e] at hperm hprog
    -- replacing a task by one with the same claims
    have same : ∀ (w' : Worker O) (p : Nat), w'.started = w.started → p + w.len = s.progress + w'.len →
        WInv max s.head w' → Inv max b ⟨s.head, s.workers.set x.1 w', p⟩ k := by
      intro w' p h1 h2 h3
      refine ⟨hhead, hsmall, ?_, ?_, ?_⟩
      · simpa [hset, h1] using hperm
      · intro v hv
        simp only [hset, List.mem_append, List.mem_cons] at hv
        rcases hv with hv | rfl | hv
        · exact hws' v (Or.inl hv)
        · exact h3
        · exact hws' v (Or.inr hv)
      · simp only [List.map_append, List.map_cons, List.sum_append, List.sum_cons] at hprog
        simp only [hset, List.map_append, List.map_cons, List.sum_append, List.sum_cons]
        omega
    unfold Dyn.move
    match hpc : w.pc with
    | .idle =>
      refine ⟨k, le_rfl, same _ _ (by simp [Worker.started, hpc]) (by simp [Worker.len]) ?_⟩
      refine ⟨by rintro st ⟨⟩; exact le_rfl, by simp, ?_, ?_⟩
      · simpa [Worker.started, hpc] using hw.ord
      · have := hw.bnd; simpa [Worker.started, hpc] using this
    | .done => exact ⟨k, le_rfl, ⟨hhead, hsmall, by rwa [e], hws, by rwa [e]⟩⟩
    | .failed r => exact ⟨k, le_rfl, ⟨hhead, hsmall, by rwa [e], hws, by rwa [e]⟩⟩
    | .building r =>
      match x.2 with
      | none =>
        refine ⟨k, le_rfl, same _ _ (by simp [Worker.started, hpc]) (by simp [Worker.len]) ?_⟩
        refine ⟨by simp, by simp, ?_, ?_⟩
        · simpa [Worker.started, hpc] using hw.ord
        · have := hw.bnd; simpa [Worker.started, hpc] using this
      | some o =>
        refine ⟨k, le_rfl, same _ _ (by simp [Worker.started, hpc]) (by simp [Worker.len]; omega) ?_⟩
        refine ⟨by simp, by simp, ?_, ?_⟩
        · simpa [Worker.started, hpc] using hw.ord
        · have := hw.bnd; simpa [Worker.started, hpc] using this
    | .loaded st =>
      have hst := hw.le st hpc
      simp only
      split
      · rename_i hn
        refine ⟨k, le_rfl, same _ _ (by simp [Worker.started, hpc]) (by simp [Worker.len]) ?_⟩
        refine ⟨by simp, fun _ => by omega, ?_, ?_⟩
        · simpa [Worker.started, hpc] using hw.ord
        · have := hw.bnd; simpa [Worker.started, hpc] using this
      · rename_i hn
        split
        · rename_i hh
          have hlt : s.head < max := by omega
          have hk : st = k * b := by omega
          have hn' : min (min (st + b) (2 ^ 64 - 1)) max = min ((k + 1) * b) max := by
            rw [Nat.succ_mul, ← hk]; omega
          rw [hn']
          have hge : s.head ≤ min ((k + 1) * b) max := by rw [Nat.succ_mul]; omega
          refine ⟨k + 1, by omega, rfl, Or.inr (by simp; omega), ?_, ?_, ?_⟩
          · rw [firsts_succ, hset]
            have e2 : Worker.started { w with pc := Pc.building (st, min ((k + 1) * b) max) }
                = w.started ++ [(k * b, min ((k + 1) * b) max)] := by
              simp [Worker.started, hpc, hk]
            simp only [List.flatMap_append, List.flatMap_cons, e2]
            refine List.Perm.trans ?_ (List.Perm.append_right _ hperm)
            simp only [List.flatMap_append, List.flatMap_cons, List.append_assoc]
            refine List.Perm.append_left _ (List.Perm.append_left _ ?_)
            exact List.perm_append_comm
          · intro v hv
            simp only [hset, List.mem_append, List.mem_cons] at hv
            rcases hv with hv | rfl | hv
            · exact (hws' v (Or.inl hv)).mono hge (by simp)
            · refine ⟨by simp, by simp, ?_, ?_⟩
              · have := hw.ord
                have hb' := hw.bnd
                simp only [Worker.started, hpc, List.append_nil] at this hb'
                simp only [Worker.started, List.pairwise_append]
                refine ⟨this, by simp, ?_⟩
                intro a ha c hc
                simp only [List.mem_singleton] at hc
                subst hc
                have := hb' a ha
                simpa [hh] using this
              · have hb' := hw.bnd
                simp only [Worker.started, hpc, List.append_nil] at hb'
                intro r hr
                simp only [Worker.started, List.mem_append, List.mem_singleton] at hr
                rcases hr with hr | rfl
                · exact (hb' r hr).trans hge
                · exact le_rfl
            · exact (hws' v (Or.inr hv)).mono hge (by simp)
          · simpa [hset, Worker.len] using hprog
        · refine ⟨k, le_rfl, same _ _ (by simp [Worker.started, hpc]) (by simp [Worker.len]) ?_⟩
          refine ⟨by rintro st ⟨⟩; exact le_rfl, by simp, ?_, ?_⟩
          · simpa [Worker.started, hpc] using hw.ord
          · have := hw.bnd; simpa [Worker.started, hpc] using this

theorem inv_run {max b : Nat} (hb : 0 < b) (hmax : max < 2 ^ 64) (sched : List (Nat × Option O)) :
    ∀ {s : Dyn O} {k : Nat}, Inv max b s k → ∃ k', Inv max b (s.run max b sched) k' := by
  induction sched with
  | nil => intro s k h; exact ⟨k, h⟩
  | cons x xs ih =>
    intro s k h
    obtain ⟨k', -, h'⟩ := inv_step hb hmax h x
    exact ih h'

theorem workers_step {max b : Nat} (s : Dyn O) (x : Nat × Option O) :
    (s.step max b x).workers.length = s.workers.length := by
  unfold Dyn.step
  split
  · rfl
  · unfold Dyn.move
    split
    · simp
    · dsimp only
      split
      · simp
      · split <;> simp
    · split <;> simp
    · rfl
    · rfl

theorem workers_run {max b : Nat} (sched : List (Nat × Option O)) :
    ∀ s : Dyn O, (s.run max b sched).workers.length = s.workers.length := by
  induction sched with
  | nil => intro s; rfl
  | cons x xs ih => intro s; exact (ih _).trans (workers_step s x)

/-! ### The end -/

/-- Steps a task still needs while the counter stays. -/
def Worker.weight (head : Nat) (w : Worker O) : Nat :=
  match w.pc with
  | .idle => 3
  | .loaded st => if st = head then 1 else 2
  | .building _ => 4
  | .done => 0
  | .failed _ => 0

/-- A bound of the steps left. -/
def Dyn.left (max : Nat) (s : Dyn O) : Nat :=
  (max - s.head) * (s.workers.length + 4) + (s.workers.map (Worker.weight s.head)).sum

theorem weight_head (h h' : Nat) (w : Worker O) : w.weight h' ≤ w.weight h + 1 := by
  unfold Worker.weight
  split <;> (repeat' split) <;> omega

theorem weights_head (h h' : Nat) (ws : List (Worker O)) :
    (ws.map (Worker.weight h')).sum ≤ (ws.map (Worker.weight h)).sum + ws.length := by
  induction ws with
  | nil => simp
  | cons w ws ih =>
    have := weight_head h h' w
    simp only [List.map_cons, List.sum_cons, List.length_cons]; omega

theorem left_step {max b : Nat} (hb : 0 < b) (hmax : max < 2 ^ 64) {s : Dyn O} {k : Nat} (h : Inv max b s k)
    {x : Nat × Option O} {w : Worker O} (hx : s.workers[x.1]? = some w) (hbusy : w.busy) :
    (s.step max b x).left max < s.left max := by
  unfold Dyn.step
  rw [hx]
  simp only
  obtain ⟨as, bs, e, -, hset⟩ := Build.split_at hx
  have hw : WInv max s.head w := h.ws w (by rw [e]; simp)
  have hm : s.head ≤ max := by rw [h.head]; omega
  have same : ∀ (w' : Worker O) (p : Nat), w'.weight s.head < w.weight s.head →
      Dyn.left max ⟨s.head, s.workers.set x.1 w', p⟩ < s.left max := by
    intro w' p hlt
    simp only [Dyn.left, List.length_set]
    rw [hset, e]
    simp only [List.map_append, List.map_cons, List.sum_append, List.sum_cons]
    omega
  obtain ⟨h1, h2⟩ := hbusy
  unfold Dyn.move
  match hpc : w.pc with
  | .idle => exact same _ _ (by simp [Worker.weight, hpc])
  | .done => exact absurd hpc h1
  | .failed r => exact absurd hpc (h2 r)
  | .building r =>
    match x.2 with
    | none => exact same _ _ (by simp [Worker.weight, hpc])
    | some o => exact same _ _ (by simp [Worker.weight, hpc])
  | .loaded st =>
    have hst := hw.le st hpc
    simp only
    split
    · exact same _ _ (by simp only [Worker.weight, hpc]; split <;> omega)
    · rename_i hn
      split
      · rename_i hh
        generalize hnx : min (min (st + b) (2 ^ 64 - 1)) max = nx at hn ⊢
        have hlt : s.head < nx ∧ nx ≤ max := by omega
        simp only [Dyn.left, List.length_set]
        rw [hset, e]
        simp only [List.map_append, List.map_cons, List.sum_append, List.sum_cons, List.length_append,
          List.length_cons]
        have ea := weights_head s.head nx as
        have eb := weights_head s.head nx bs
        have ew : Worker.weight nx { w with pc := Pc.building (st, nx) } = 4 := rfl
        have ew' : w.weight s.head = 1 := by simp [Worker.weight, hpc, hh]
        rw [ew, ew']
        have : (max - nx) * (as.length + (bs.length + 1) + 4) + (as.length + (bs.length + 1) + 4)
            ≤ (max - s.head) * (as.length + (bs.length + 1) + 4) := by
          rw [← Nat.succ_mul]
          exact Nat.mul_le_mul_right _ (by omega)
        omega
      · rename_i hh
        exact same _ _ (by
          simp only [Worker.weight, hpc, if_neg (Ne.symm hh)]
          simp)

theorem effective_bound {max b : Nat} (hb : 0 < b) (hmax : max < 2 ^ 64) (sched : List (Nat × Option O)) :
    ∀ {s : Dyn O} {k : Nat}, Inv max b s k → Effective max b s sched → sched.length ≤ s.left max := by
  induction sched with
  | nil => intro s k _ _; simp
  | cons x xs ih =>
    intro s k h he
    obtain ⟨⟨w, hx, hw⟩, he'⟩ := he
    obtain ⟨k', -, h'⟩ := inv_step hb hmax h x
    have := ih h' he'
    have := left_step hb hmax h hx hw
    simp only [List.length_cons]; omega

/-! ### Errors -/

theorem error_step {max b : Nat} (s : Dyn O) (x : Nat × Option O) :
    (s.step max b x).error ↔ s.error ∨ (x.2 = none ∧ ∃ w, s.workers[x.1]? = some w ∧ ∃ r, w.pc = .building r) := by
  unfold Dyn.step
  match hx : s.workers[x.1]? with
  | none => simp
  | some w =>
    simp only
    obtain ⟨as, bs, e, -, hset⟩ := Build.split_at hx
    have base : s.error ↔ (∃ v, (v ∈ as ∨ v ∈ bs) ∧ ∃ r, v.pc = .failed r) ∨ ∃ r, w.pc = .failed r := by
      unfold Dyn.error
      rw [e]
      simp only [List.mem_append, List.mem_cons]
      constructor
      · rintro ⟨v, hv | rfl | hv, hr⟩
        · exact Or.inl ⟨v, Or.inl hv, hr⟩
        · exact Or.inr hr
        · exact Or.inl ⟨v, Or.inr hv, hr⟩
      · rintro (⟨v, hv | hv, hr⟩ | hr)
        · exact ⟨v, Or.inl hv, hr⟩
        · exact ⟨v, Or.inr (Or.inr hv), hr⟩
        · exact ⟨w, Or.inr (Or.inl rfl), hr⟩
    have upd : ∀ (h p : Nat) (w' : Worker O), (Dyn.error ⟨h, s.workers.set x.1 w', p⟩ ↔
        (∃ v, (v ∈ as ∨ v ∈ bs) ∧ ∃ r, v.pc = .failed r) ∨ ∃ r, w'.pc = .failed r) := by
      intro h p w'
      unfold Dyn.error
      simp only [hset, List.mem_append, List.mem_cons]
      constructor
      · rintro ⟨v, hv | rfl | hv, hr⟩
        · exact Or.inl ⟨v, Or.inl hv, hr⟩
        · exact Or.inr hr
        · exact Or.inl ⟨v, Or.inr hv, hr⟩
      · rintro (⟨v, hv | hv, hr⟩ | hr)
        · exact ⟨v, Or.inl hv, hr⟩
        · exact ⟨v, Or.inr (Or.inr hv), hr⟩
        · exact ⟨w', Or.inr (Or.inl rfl), hr⟩
    unfold Dyn.move
    match hpc : w.pc with
    | .idle => simp only [upd]; rw [base]; simp [hpc]
    | .done => simp [hpc]
    | .failed r => simp [hpc]
    | .building r =>
      match hx2 : x.2 with
      | none =>
        simp only [upd]
        exact ⟨fun _ => Or.inr ⟨trivial, w, rfl, r, hpc⟩, fun _ => Or.inr ⟨r, rfl⟩⟩
      | some o => simp only [upd]; rw [base]; simp [hpc]
    | .loaded st =>
      simp only
      split
      · simp only [upd]; rw [base]; simp [hpc]
      · split
        · simp only [upd]; rw [base]; simp [hpc]
        · simp only [upd]; rw [base]; simp [hpc]

theorem error_run {max b : Nat} (sched : List (Nat × Option O)) : ∀ s : Dyn O,
    ((s.run max b sched).error ↔ s.error ∨ ∃ p j q, sched = p ++ (j, none) :: q ∧
      ∃ w, (s.run max b p).workers[j]? = some w ∧ ∃ r, w.pc = .building r) := by
  induction sched with
  | nil => intro s; simp [Dyn.run]
  | cons x xs ih =>
    intro s
    have : s.run max b (x :: xs) = (s.step max b x).run max b xs := rfl
    rw [this, ih, error_step]
    constructor
    · rintro ((h | ⟨h1, h2⟩) | ⟨p, j, q, h1, h2⟩)
      · exact Or.inl h
      · exact Or.inr ⟨[], x.1, xs, by rw [← h1]; rfl, h2⟩
      · exact Or.inr ⟨x :: p, j, q, by rw [h1]; rfl, h2⟩
    · rintro (h | ⟨p, j, q, h1, h2⟩)
      · exact Or.inl (Or.inl h)
      · rcases p with _ | ⟨y, p⟩
        · simp only [List.nil_append, List.cons.injEq] at h1
          exact Or.inl (Or.inr ⟨by rw [h1.1], by rw [h1.1]; exact h2⟩)
        · simp only [List.cons_append, List.cons.injEq] at h1
          exact Or.inr ⟨p, j, q, h1.2, by rw [h1.1]; exact h2⟩

/-! ### Outputs -/

theorem flatten_snd (tasks : List (List (Rng × O))) : (flatten tasks).map (·.2) = tasks.flatten := by
  unfold flatten
  rw [List.map_flatMap]
  simp only [List.map_map]
  have : ∀ t : Nat × List (Rng × O), List.map ((fun x : Nat × Rng × O => x.2) ∘ fun r => (t.1, r)) t.2 = t.2 := by
    intro t; simp [Function.comp_def]
  simp only [this]
  rw [List.flatMap_def]
  congr 1
  exact List.map_snd_zip (by simp)

theorem flatten_mem (tasks : List (List (Rng × O))) (t : Nat) (x : Rng × O) :
    (t, x) ∈ flatten tasks ↔ ∃ l, tasks[t]? = some l ∧ x ∈ l := by
  unfold flatten
  simp only [List.mem_flatMap, List.mem_map, Prod.mk.injEq]
  constructor
  · rintro ⟨p, hp, y, hy, rfl, rfl⟩
    obtain ⟨i, hi, e⟩ := List.mem_iff_getElem.1 hp
    simp only [List.getElem_zip, List.getElem_range] at e
    subst e
    simp only [List.length_zip, List.length_range, min_self] at hi
    exact ⟨_, by simp [hi], hy⟩
  · rintro ⟨l, hl, hx⟩
    obtain ⟨ht, rfl⟩ := List.getElem?_eq_some_iff.1 hl
    refine ⟨(t, tasks[t]), ?_, x, hx, rfl, rfl⟩
    rw [List.mem_iff_getElem]
    exact ⟨t, by simp [ht], by simp⟩

end Dynamic

/-! ## Cutting -/

theorem cut_zero {b : Nat} (hb : 0 < b) : cut 0 b = [] := by
  rw [cut_eq]
  have : (0 + b - 1) / b = 0 := Nat.div_eq_of_lt (by omega)
  rw [this]; rfl

theorem cut_cons {n b : Nat} (hb : 0 < b) (hn : 0 < n) :
    cut n b = (0, min b n) :: (cut (n - b) b).map fun r => (b + r.1, b + r.2) := by
  have e : (n + b - 1) / b = (n - b + b - 1) / b + 1 := by
    rw [← Nat.add_div_right _ hb]
    by_cases h : b ≤ n
    · congr 1; omega
    · have h1 : n - b = 0 := by omega
      rw [h1]
      have : (n + b - 1) / b = 1 := by
        rw [Nat.div_eq_iff hb]; omega
      rw [this, zero_add]
      symm
      rw [Nat.div_eq_iff hb]; omega
  unfold cut
  rw [e, List.range_succ_eq_map]
  simp only [List.map_cons, List.map_map, zero_mul, zero_add, one_mul]
  congr 1
  apply List.map_congr_left
  intro k hk
  simp only [Function.comp_apply, Prod.mk.injEq]
  refine ⟨by rw [Nat.succ_mul]; ring, ?_⟩
  have h1 : (k.succ + 1) * b = b + (k + 1) * b := by simp; ring
  rw [h1]
  have hk' := List.mem_range.1 hk
  have hnb : b ≤ n := by
    by_contra h
    have h1 : n - b = 0 := by omega
    rw [h1, Nat.div_eq_of_lt (by omega)] at hk'
    omega
  omega

theorem cutFrom_cons {lo hi b : Nat} (hb : 0 < b) (h : lo < hi) :
    cutFrom lo hi b = (lo, min (lo + b) hi) :: cutFrom (min (lo + b) hi) hi b := by
  unfold cutFrom
  rw [cut_cons hb (by omega)]
  simp only [List.map_cons, List.map_map, add_zero]
  have e1 : lo + min b (hi - lo) = min (lo + b) hi := by omega
  rw [e1]
  congr 1
  have e2 : hi - min (lo + b) hi = hi - lo - b := by omega
  rw [e2]
  apply List.map_congr_left
  intro r hr
  have : 0 < hi - lo - b := by
    rcases Nat.eq_zero_or_pos (hi - lo - b) with h0 | h0
    · rw [h0, cut_zero hb] at hr; simp at hr
    · exact h0
  simp only [Function.comp_apply, Prod.mk.injEq]
  omega

theorem cutFrom_nil {lo hi b : Nat} (hb : 0 < b) (h : hi ≤ lo) : cutFrom lo hi b = [] := by
  unfold cutFrom
  rw [Nat.sub_eq_zero_of_le h, cut_zero hb]; rfl

theorem chunks_eq {b hi : Nat} (hb : 0 < b) (hmax : hi + b ≤ 2 ^ 64) : ∀ (fuel cur : Nat), hi - cur < fuel →
    chunks b hi fuel cur = some (cutFrom cur hi b) := by
  intro fuel
  induction fuel with
  | zero => intro cur h; omega
  | succ fuel ih =>
    intro cur h
    unfold chunks
    split
    · rename_i hc; rw [cutFrom_nil hb hc]
    · rename_i hc
      have hlt : cur < hi := by omega
      rw [if_pos (by omega), ih _ (by omega), cutFrom_cons hb hlt]
      rfl

theorem points_cutFrom {b : Nat} (hb : 0 < b) (hi : Nat) : ∀ (m lo : Nat), hi - lo ≤ m → lo ≤ hi →
    points (cutFrom lo hi b) = List.range' lo (hi - lo) := by
  intro m
  induction m with
  | zero =>
    intro lo h h'
    rw [cutFrom_nil hb (by omega), Nat.sub_eq_zero_of_le (by omega)]; rfl
  | succ m ih =>
    intro lo h h'
    rcases Nat.lt_or_ge lo hi with hl | hl
    · rw [cutFrom_cons hb hl]
      have := ih (min (lo + b) hi) (by omega) (by omega)
      unfold points at this ⊢
      rw [List.flatMap_cons, this]
      simp only
      have e := List.range'_append (s := lo) (m := min (lo + b) hi - lo) (n := hi - min (lo + b) hi) (step := 1)
      have e1 : lo + 1 * (min (lo + b) hi - lo) = min (lo + b) hi := by omega
      have e2 : min (lo + b) hi - lo + (hi - min (lo + b) hi) = hi - lo := by omega
      rw [e1, e2] at e
      exact e
    · rw [cutFrom_nil hb hl, Nat.sub_eq_zero_of_le hl]; rfl

theorem cutFrom_mem {b lo hi : Nat} (hb : 0 < b) {r : Rng} (h : r ∈ cutFrom lo hi b) :
    lo ≤ r.1 ∧ r.1 < r.2 ∧ r.2 ≤ hi ∧ r.2 - r.1 ≤ b := by
  simp only [cutFrom, cut, List.map_map, List.mem_map, List.mem_range, Function.comp_apply] at h
  obtain ⟨k, hk, rfl⟩ := h
  have h1 : k * b < hi - lo := by
    have := (Nat.le_div_iff_mul_le hb).1 hk
    rw [Nat.succ_mul] at this; omega
  have h2 : (k + 1) * b = k * b + b := Nat.succ_mul k b
  simp only
  omega

theorem cutFrom_zero (max b : Nat) : cutFrom 0 max b = cut max b := by
  unfold cutFrom
  conv_rhs => rw [← List.map_id (cut max b)]
  simp

/-! ## Fixed parts -/

section Fixed

variable {O : Type}

theorem collect_eq {α β : Type} (f : α → Option β) (l : List α) :
    (∀ r, collect f l = some r ↔ List.Forall₂ (fun a b => f a = some b) l r) ∧
    (collect f l = none ↔ ∃ a ∈ l, f a = none) := by
  induction l with
  | nil => simp [collect, eq_comm]
  | cons a l ih =>
    unfold collect
    match ha : f a with
    | none =>
      simp [List.forall₂_cons_left_iff, ha]
    | some b =>
      simp only [Option.map_eq_some_iff, Option.map_eq_none_iff, ih.1, ih.2, List.forall₂_cons_left_iff, ha]
      constructor
      · intro r
        constructor
        · rintro ⟨u, hu, rfl⟩; exact ⟨b, u, rfl, hu, rfl⟩
        · rintro ⟨c, u, hc, hu, rfl⟩
          cases hc; exact ⟨u, hu, rfl⟩
      · simp [ha]

theorem runBatches_eq (out : Rng → Option O) (rs : List Rng) :
    runBatches out rs = (collect out rs).map fun os => rs.zip os := by
  induction rs with
  | nil => rfl
  | cons r rs ih =>
    simp only [runBatches, collect]
    match out r with
    | none => rfl
    | some o => rw [ih]; simp [Option.map_map, Function.comp_def]

end Fixed

/-! ## Buffers and aggregation -/

section Search

variable {I O : Type}

theorem slice_write (b : Slice I) (w : Write I) (hb : b.written ≤ b.slots.length) :
    (b.write w).slots.length = b.slots.length ∧ (b.write w).written ≤ b.slots.length ∧
    (b.write w).slots.take (b.write w).written = (b.slots.take b.written ++ w.ids).take b.slots.length := by
  cases w with
  | push id =>
    simp only [Slice.write, Write.ids]
    split
    · rename_i h
      refine ⟨by simp, h, ?_⟩
      simp only
      rw [List.set_eq_take_append_cons_drop, if_pos h]
      rw [List.take_append, List.take_append]
      simp only [List.take_take, List.length_take]
      have h1 : min b.written b.slots.length = b.written := by omega
      rw [h1]
      have h2 : b.written + 1 - b.written = 1 := by omega
      have h3 : min (b.written + 1) b.written = b.written := by omega
      have h4 : min b.slots.length b.written = b.written := by omega
      rw [h2, h3, h4]
      congr 1
      rw [List.take_of_length_le (l := [id]) (by simp; omega)]
      simp
    · rename_i h
      have : b.written = b.slots.length := by omega
      refine ⟨rfl, hb, ?_⟩
      rw [this]
      simp
  | extend ids =>
    simp only [Slice.write, Write.ids]
    have h1 : min b.written b.slots.length = b.written := by omega
    refine ⟨by simp; omega, by omega, ?_⟩
    rw [List.take_append_of_le_length (by simp; omega)]
    rw [List.take_of_length_le (by simp)]
    rw [List.take_append (l₁ := b.slots.take b.written)]
    simp only [List.take_take, List.length_take]
    have h4 : min b.slots.length b.written = b.written := by omega
    rw [h1, h4]
    congr 1
    rcases Nat.le_total (b.slots.length - b.written) ids.length with h | h
    · rw [min_eq_left h]
    · rw [min_eq_right h, List.take_of_length_le le_rfl, List.take_of_length_le h]

theorem slice_writes (n : Nat) (ws : List (Write I)) : ∀ (b : Slice I), b.slots.length = n → b.written ≤ n →
    (ws.foldl Slice.write b).slots.length = n ∧
    (ws.foldl Slice.write b).slots.take (ws.foldl Slice.write b).written
      = (b.slots.take b.written ++ ws.flatMap Write.ids).take n := by
  induction ws with
  | nil =>
    intro b h1 h2
    refine ⟨h1, ?_⟩
    simp [List.take_take, min_eq_right h2]
  | cons w ws ih =>
    intro b h1 h2
    obtain ⟨e1, e2, e3⟩ := slice_write b w (by omega)
    obtain ⟨e4, e5⟩ := ih (b.write w) (by omega) (by omega)
    refine ⟨e4, ?_⟩
    rw [List.foldl_cons, e5, e3, h1, List.flatMap_cons, ← List.append_assoc]
    generalize b.slots.take b.written ++ w.ids = p
    generalize ws.flatMap Write.ids = q
    rw [List.take_append, List.take_append, List.take_take, min_self]
    congr 1
    rw [List.length_take]
    rcases Nat.le_total n p.length with h | h
    · rw [min_eq_left h, Nat.sub_self, Nat.sub_eq_zero_of_le h]
    · rw [min_eq_right h]

theorem vec_writes (ws : List (Write I)) : ∀ v : List I, ws.foldl vecWrite v = v ++ ws.flatMap Write.ids := by
  induction ws with
  | nil => simp
  | cons w ws ih =>
    intro v
    rw [List.foldl_cons, ih, List.flatMap_cons, ← List.append_assoc]
    cases w <;> rfl

theorem copyRows_eq {c : Nat} : ∀ (rows : List (List I)) (dst : List (List I)) (i : Nat),
    dst.length = i + rows.length → (∀ r ∈ dst, r.length = c) → (∀ r ∈ rows, r.length = c) →
    copyRows dst i rows = some (dst.take i ++ rows) := by
  intro rows
  induction rows with
  | nil =>
    intro dst i h _ _
    simp only [copyRows, List.append_nil]
    rw [List.take_of_length_le (by simp at h; omega)]
  | cons row rows ih =>
    intro dst i h hd hr
    simp only [List.length_cons] at h
    have hi : i < dst.length := by omega
    unfold copyRows
    rw [List.getElem?_eq_getElem hi]
    simp only
    rw [if_pos (by rw [hd _ (List.getElem_mem hi), hr row (by simp)])]
    rw [ih (dst.set i row) (i + 1) (by simp; omega) ?_ (fun r h => hr r (by simp [h]))]
    · congr 1
      rw [List.set_eq_take_append_cons_drop, if_pos hi]
      rw [List.take_append]
      simp only [List.length_take, min_eq_left hi.le]
      rw [List.take_of_length_le (by simp)]
      simp
    · intro r h'
      rcases List.mem_or_eq_of_mem_set h' with h' | rfl
      · exact hd r h'
      · exact hr r (by simp)

/-- What an aggregator holds. -/
def Agg.holds : Agg I → List (Ids I) → Prop
  | .empty, parts => parts = []
  | .fixed ps len cols, parts => ps ≠ [] ∧ parts = ps.map (fun p => .fixed cols p.1 p.2) ∧
      len = (ps.flatMap (·.1)).length
  | .dynamic ps, parts => parts = ps ∧ ps ≠ [] ∧ ¬ ∃ c, ∀ p ∈ ps, ∃ r l, p = .fixed c r l

theorem holds_push (a : Agg I) (parts : List (Ids I)) (x : Ids I) (h : a.holds parts) (hx : x.ok) :
    (a.push x).holds (parts ++ [x]) := by
  cases a with
  | empty =>
    simp only [Agg.holds] at h
    subst h
    cases x with
    | fixed c rows lengths => simp [Agg.push, Agg.holds]
    | dynamic rows => simp [Agg.push, Agg.holds]
  | fixed ps len cols =>
    obtain ⟨h0, h1, h2⟩ := h
    subst h1 h2
    cases x with
    | fixed c rows lengths =>
      simp only [Agg.push]
      split
      · rename_i hc
        subst hc
        simp only [Ids.ok] at hx
        refine ⟨by simp, by simp, ?_⟩
        simp [hx.1]
      · rename_i hc
        refine ⟨by simp, by simp, ?_⟩
        rintro ⟨c', hc'⟩
        obtain ⟨p, ps', rfl⟩ := List.exists_cons_of_ne_nil h0
        obtain ⟨r, l, e⟩ := hc' (.fixed cols p.1 p.2) (by simp)
        obtain ⟨r', l', e'⟩ := hc' (.fixed c rows lengths) (by simp)
        cases e; cases e'
        exact hc rfl
    | dynamic rows =>
      refine ⟨by simp, by simp, ?_⟩
      rintro ⟨c', hc'⟩
      obtain ⟨r, l, e⟩ := hc' (.dynamic rows) (by simp)
      cases e
  | dynamic ps =>
    obtain ⟨rfl, h0, h1⟩ := h
    refine ⟨rfl, by simp, ?_⟩
    rintro ⟨c', hc'⟩
    exact h1 ⟨c', fun p hp => hc' p (by simp [hp])⟩

theorem holds_fold (parts : List (Ids I)) : ∀ (a : Agg I) (pre : List (Ids I)), a.holds pre → (∀ p ∈ parts, p.ok) →
    (parts.foldl Agg.push a).holds (pre ++ parts) := by
  induction parts with
  | nil => intro a pre h _; simpa using h
  | cons p ps ih =>
    intro a pre h hp
    have := ih (a.push p) (pre ++ [p]) (holds_push a pre p h (hp p (by simp))) (fun q hq => hp q (by simp [hq]))
    simpa using this

theorem zipWith_flat (ps : List (List (List I) × List Nat)) (h : ∀ p ∈ ps, p.1.length = p.2.length) :
    List.zipWith (fun (row : List I) n => row.take n) (ps.flatMap (·.1)) (ps.flatMap (·.2))
      = ps.flatMap fun p => List.zipWith (fun (row : List I) n => row.take n) p.1 p.2 := by
  induction ps with
  | nil => rfl
  | cons p ps ih =>
    simp only [List.flatMap_cons]
    rw [List.zipWith_append (h p (by simp)), ih (fun q hq => h q (by simp [hq]))]

end Search

end Verif.Harness
