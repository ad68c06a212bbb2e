import Verif.Garnet.StartModel
/-
C107: the start point of a Garnet vector set is set once.
-/
namespace Verif.Garnet.Start

/-! ### The gate -/

/-- A thread is inside: it runs `init` or has run it and not yet published the outcome. -/
def inside : Pc → Bool
  | .init => true
  | .store _ => true
  | _ => false

/-- The outcome a thread still has to publish. -/
def pending : Pc → Option Bool
  | .store b => some b
  | _ => none

structure GateInv (w : World) : Prop where
  /-- the gate is closed exactly while a thread is inside -/
  closed : w.gate = .setting ↔ ∃ (t : Nat) (p : Pc), w.pcs[t]? = some p ∧ inside p = true
  one : ∀ (t u : Nat) (p r : Pc), w.pcs[t]? = some p → w.pcs[u]? = some r → inside p = true → inside r = true → t = u
  log : ∀ (t : Nat) (b : Bool), w.pcs[t]? = some (.store b) → w.log.head? = some b
  /-- successes are the latest outcome only -/
  succ : ∀ (k : Nat) (b : Bool), w.log[k]? = some b → b = true → k = 0
  open_ : w.gate = .noStart → true ∉ w.log
  init : ∀ (t : Nat), w.pcs[t]? = some .init → true ∉ w.log
  passed : ∀ (t : Nat), w.pcs[t]? = some .passed → w.gate = .ready

theorem get_set {α : Type} (l : List α) (t u : Nat) (x y : α) (h : l[t]? = some y) :
    (l.set t x)[u]? = if u = t then some x else l[u]? := by
  have ht : t < l.length := by
    rw [List.getElem?_eq_some_iff] at h; exact h.1
  rw [List.getElem?_set]
  by_cases hut : u = t
  · subst hut; simp [ht]
  · simp [hut, Ne.symm hut]

/-- Moving a thread that is outside to another place outside, with the gate as it is. -/
theorem inv_outside {w : World} (h : GateInv w) (t : Nat) (p p' : Pc) (hp : w.pcs[t]? = some p)
    (hi : inside p = false) (hi' : inside p' = false) (hpass : p' = .passed → w.gate = .ready) :
    GateInv { w with pcs := w.pcs.set t p' } := by
  have hg := get_set w.pcs t
  constructor
  · show w.gate = .setting ↔ _
    rw [h.closed]
    constructor
    · rintro ⟨u, r, hu, hr⟩
      refine ⟨u, r, ?_, hr⟩
      show (w.pcs.set t p')[u]? = some r
      rw [hg u p' p hp, if_neg]
      · exact hu
      · rintro rfl
        rw [hp] at hu
        cases hu
        simp [hi] at hr
    · rintro ⟨u, r, hu, hr⟩
      have hu' : (w.pcs.set t p')[u]? = some r := hu
      rw [hg u p' p hp] at hu'
      split at hu'
      · cases hu'; simp [hi'] at hr
      · exact ⟨u, r, hu', hr⟩
  · intro a b x y hx hy hix hiy
    have hx' : (w.pcs.set t p')[a]? = some x := hx
    have hy' : (w.pcs.set t p')[b]? = some y := hy
    rw [hg a p' p hp] at hx'
    rw [hg b p' p hp] at hy'
    split at hx'
    · cases hx'; simp [hi'] at hix
    · split at hy'
      · cases hy'; simp [hi'] at hiy
      · exact h.one a b x y hx' hy' hix hiy
  · intro u b hu
    have hu' : (w.pcs.set t p')[u]? = some (.store b) := hu
    rw [hg u p' p hp] at hu'
    split at hu'
    · cases hu'; simp [inside] at hi'
    · exact h.log u b hu'
  · exact h.succ
  · exact h.open_
  · intro u hu
    have hu' : (w.pcs.set t p')[u]? = some .init := hu
    rw [hg u p' p hp] at hu'
    split at hu'
    · cases hu'; simp [inside] at hi'
    · exact h.init u hu'
  · intro u hu
    have hu' : (w.pcs.set t p')[u]? = some .passed := hu
    rw [hg u p' p hp] at hu'
    split at hu'
    · cases hu'; exact hpass rfl
    · exact h.passed u hu'

theorem inv_gate_step {w : World} (h : GateInv w) (t : Nat) (ok : Bool) : GateInv (step w t ok) := by
  unfold step
  split
  · rename_i hp
    split
    · rename_i hgt
      exact inv_outside h t _ _ hp rfl rfl (fun _ => hgt)
    · exact h
    · exact inv_outside h t _ _ hp rfl rfl (fun hc => by cases hc)
  · rename_i hp
    have hg := get_set w.pcs t
    split
    · rename_i hgt
      have hno : ∀ (u : Nat) (r : Pc), w.pcs[u]? = some r → inside r = false := by
        intro u r hu
        cases hr : inside r with
        | false => rfl
        | true =>
          have := h.closed.2 ⟨u, r, hu, hr⟩
          rw [hgt] at this; cases this
      constructor
      · constructor
        · intro _; exact ⟨t, .init, by show (w.pcs.set t .init)[t]? = _; rw [hg t _ _ hp]; simp, rfl⟩
        · intro _; rfl
      · intro a b x y hx hy hix hiy
        have hx' : (w.pcs.set t .init)[a]? = some x := hx
        have hy' : (w.pcs.set t .init)[b]? = some y := hy
        rw [hg a _ _ hp] at hx'
        rw [hg b _ _ hp] at hy'
        split at hx'
        · split at hy'
          · simp [*]
          · have := hno b y hy'; simp [this] at hiy
        · have := hno a x hx'; simp [this] at hix
      · intro u b hu
        have hu' : (w.pcs.set t .init)[u]? = some (.store b) := hu
        rw [hg u _ _ hp] at hu'
        split at hu'
        · cases hu'
        · exact h.log u b hu'
      · exact h.succ
      · intro hc; cases hc
      · intro u _; exact h.open_ hgt
      · intro u hu
        have hu' : (w.pcs.set t .init)[u]? = some .passed := hu
        rw [hg u _ _ hp] at hu'
        split at hu'
        · cases hu'
        · have := h.passed u hu'; rw [hgt] at this; cases this
    · exact inv_outside h t _ _ hp rfl rfl (fun hc => by cases hc)
  · rename_i hp
    have hg := get_set w.pcs t
    have hset : w.gate = .setting := h.closed.2 ⟨t, _, hp, rfl⟩
    have honly : ∀ (u : Nat) (r : Pc), w.pcs[u]? = some r → inside r = true → u = t := fun u r hu hr => h.one u t r _ hu hp hr rfl
    constructor
    · show w.gate = .setting ↔ _
      constructor
      · intro _; exact ⟨t, .store ok, by show (w.pcs.set t _)[t]? = _; rw [hg t _ _ hp]; simp, rfl⟩
      · intro _; exact hset
    · intro a b x y hx hy hix hiy
      have hx' : (w.pcs.set t (.store ok))[a]? = some x := hx
      have hy' : (w.pcs.set t (.store ok))[b]? = some y := hy
      rw [hg a _ _ hp] at hx'
      rw [hg b _ _ hp] at hy'
      split at hx'
      · split at hy'
        · simp [*]
        · rename_i hb; exact absurd (honly b y hy' hiy) hb
      · rename_i ha; exact absurd (honly a x hx' hix) ha
    · intro u b hu
      have hu' : (w.pcs.set t (.store ok))[u]? = some (.store b) := hu
      rw [hg u _ _ hp] at hu'
      split at hu'
      · cases hu'; rfl
      · rename_i hut; exact absurd (honly u _ hu' rfl) hut
    · intro k b hk hb
      have hk' : (ok :: w.log)[k]? = some b := hk
      cases k with
      | zero => rfl
      | succ k =>
        subst hb
        have : true ∈ w.log := List.mem_of_getElem? (by simpa using hk')
        exact absurd this (h.init t hp)
    · intro hc; have : w.gate = .noStart := hc; rw [hset] at this; cases this
    · intro u hu
      have hu' : (w.pcs.set t (.store ok))[u]? = some .init := hu
      rw [hg u _ _ hp] at hu'
      split at hu'
      · cases hu'
      · rename_i hut; exact absurd (honly u _ hu' rfl) hut
    · intro u hu
      have hu' : (w.pcs.set t (.store ok))[u]? = some .passed := hu
      rw [hg u _ _ hp] at hu'
      split at hu'
      · cases hu'
      · have := h.passed u hu'; rw [hset] at this; cases this
  · rename_i hp
    have hg := get_set w.pcs t
    have honly : ∀ (u : Nat) (r : Pc), w.pcs[u]? = some r → inside r = true → u = t := fun u r hu hr => h.one u t r _ hu hp hr rfl
    have hnone : ∀ (u : Nat) (r : Pc), (w.pcs.set t .passed)[u]? = some r → inside r = false := by
      intro u r hu
      rw [hg u _ _ hp] at hu
      split at hu
      · cases hu; rfl
      · rename_i hut
        cases hr : inside r with
        | false => rfl
        | true => exact absurd (honly u r hu hr) hut
    constructor
    · constructor
      · intro hc; cases hc
      · rintro ⟨u, r, hu, hr⟩; have := hnone u r hu; simp [this] at hr
    · intro a b x y hx hy hix hiy; have := hnone a x hx; simp [this] at hix
    · intro u b hu; have := hnone u _ hu; simp [inside] at this
    · exact h.succ
    · intro hc; cases hc
    · intro u hu; have := hnone u _ hu; simp [inside] at this
    · intro u hu; rfl
  · rename_i hp
    have hg := get_set w.pcs t
    have hset : w.gate = .setting := h.closed.2 ⟨t, _, hp, rfl⟩
    have honly : ∀ (u : Nat) (r : Pc), w.pcs[u]? = some r → inside r = true → u = t := fun u r hu hr => h.one u t r _ hu hp hr rfl
    have hnone : ∀ (u : Nat) (r : Pc), (w.pcs.set t .failed)[u]? = some r → inside r = false := by
      intro u r hu
      rw [hg u _ _ hp] at hu
      split at hu
      · cases hu; rfl
      · rename_i hut
        cases hr : inside r with
        | false => rfl
        | true => exact absurd (honly u r hu hr) hut
    have hlog : true ∉ w.log := by
      intro hm
      obtain ⟨k, hk⟩ := List.mem_iff_getElem?.1 hm
      have hk0 := h.succ k true hk rfl
      subst hk0
      have := h.log t false hp
      rw [List.head?_eq_getElem?, hk] at this
      cases this
    constructor
    · constructor
      · intro hc; cases hc
      · rintro ⟨u, r, hu, hr⟩; have := hnone u r hu; simp [this] at hr
    · intro a b x y hx hy hix hiy; have := hnone a x hx; simp [this] at hix
    · intro u b hu; have := hnone u _ hu; simp [inside] at this
    · exact h.succ
    · intro _; exact hlog
    · intro u hu; have := hnone u _ hu; simp [inside] at this
    · intro u hu
      have hu' : (w.pcs.set t .failed)[u]? = some .passed := hu
      rw [hg u _ _ hp] at hu'
      split at hu'
      · cases hu'
      · have := h.passed u hu'; rw [hset] at this; cases this
  · exact h

theorem inv_gate_run {w : World} (h : GateInv w) (sched : List (Nat × Bool)) : GateInv (runGate w sched) := by
  unfold runGate
  induction sched generalizing w with
  | nil => exact h
  | cons p sched ih => exact ih (inv_gate_step h p.1 p.2)

theorem inv_gate_new (b : Bool) (n : Nat) : GateInv (World.new b n) := by
  have hl : ∀ (u : Nat) (r : Pc), (List.replicate n Pc.load)[u]? = some r → r = .load := by
    intro u r hu
    have := List.mem_of_getElem? hu
    exact List.eq_of_mem_replicate this
  constructor
  · constructor
    · intro hc; cases b <;> simp [World.new] at hc
    · rintro ⟨u, r, hu, hr⟩; cases hl u r hu; simp [inside] at hr
  · intro a b x y hx _ hix _; cases hl a x hx; simp [inside] at hix
  · intro u b hu; cases hl u _ hu
  · intro k b hk; simp [World.new] at hk
  · intro _; simp [World.new]
  · intro u hu; cases hl u _ hu
  · intro u hu; cases hl u _ hu

/-- Whatever the schedule and the number of threads: at most one thread is setting the start point at any time,
it is set successfully at most once, nothing is attempted after that, and none is attempted if there was one
already. -/
theorem C107_once (hasStart : Bool) (n : Nat) (sched : List (Nat × Bool)) :
    let w := runGate (World.new hasStart n) sched
    (∀ t u : Nat, w.pcs[t]? = some .init → w.pcs[u]? = some .init → t = u) ∧
    w.log.count true ≤ 1 ∧
    (∀ k : Nat, w.log[k]? = some true → k = 0) ∧
    (hasStart = true → w.log = []) := by
  have h := inv_gate_run (inv_gate_new hasStart n) sched
  refine ⟨fun t u ht hu => h.one t u _ _ ht hu rfl rfl, ?_, fun k hk => h.succ k true hk rfl, ?_⟩
  · have : ∀ l : List Bool, (∀ (k : Nat) (b : Bool), l[k]? = some b → b = true → k = 0) → l.count true ≤ 1 := by
      intro l hl
      cases l with
      | nil => simp
      | cons b l =>
        have hz : true ∉ l := by
          intro hm
          obtain ⟨k, hk⟩ := List.mem_iff_getElem?.1 hm
          have := hl (k + 1) true (by simpa using hk) rfl
          omega
        rw [List.count_cons, List.count_eq_zero.2 hz]
        split <;> omega
    exact this _ h.succ
  · rintro rfl
    have key : ∀ (sched : List (Nat × Bool)) (w : World), w.gate = .ready → w.log = [] →
        (∀ p ∈ w.pcs, p = .load ∨ p = .passed) → (runGate w sched).log = [] := by
      intro sched
      induction sched with
      | nil => intro w _ hl _; exact hl
      | cons p sched ih =>
        intro w hgt hl hp
        have : (step w p.1 p.2).gate = .ready ∧ (step w p.1 p.2).log = [] ∧
            ∀ r ∈ (step w p.1 p.2).pcs, r = .load ∨ r = .passed := by
          unfold step
          cases hq : w.pcs[p.1]? with
          | none => exact ⟨hgt, hl, hp⟩
          | some q =>
            rcases hp q (List.mem_of_getElem? hq) with rfl | rfl
            · simp only [hgt]
              refine ⟨trivial, hl, ?_⟩
              intro r hr
              rcases List.mem_or_eq_of_mem_set hr with hr | rfl
              · exact hp r hr
              · exact Or.inr rfl
            · exact ⟨hgt, hl, hp⟩
        exact ih _ this.1 this.2.1 this.2.2
    refine key sched _ rfl rfl ?_
    intro p hp
    exact Or.inl (List.eq_of_mem_replicate hp)

/-- A thread gets past the gate only if the start point existed or was set successfully, and from then on the gate
stays open for every thread. -/
theorem C107_passed (hasStart : Bool) (n : Nat) (sched : List (Nat × Bool)) (t : Nat)
    (h : (runGate (World.new hasStart n) sched).pcs[t]? = some .passed) :
    (hasStart = true ∨ true ∈ (runGate (World.new hasStart n) sched).log) ∧
    ∀ more, (runGate (World.new hasStart n) (sched ++ more)).gate = .ready := by
  have hinv := inv_gate_run (inv_gate_new hasStart n) sched
  have hready := hinv.passed t h
  have hsuc : ∀ (sched : List (Nat × Bool)) (w : World), GateInv w → (w.gate = .ready → hasStart = true ∨ true ∈ w.log) →
      ((runGate w sched).gate = .ready → hasStart = true ∨ true ∈ (runGate w sched).log) := by
    intro sched
    induction sched with
    | nil => intro w _ hw; exact hw
    | cons p sched ih =>
      intro w hw hr
      refine ih _ (inv_gate_step hw p.1 p.2) ?_
      show (step w p.1 p.2).gate = .ready → hasStart = true ∨ true ∈ (step w p.1 p.2).log
      unfold step
      split
      · split
        · exact hr
        · exact hr
        · exact hr
      · split
        · intro hc; cases hc
        · exact hr
      · intro hc
        rcases hr hc with h1 | h1
        · exact Or.inl h1
        · exact Or.inr (List.mem_cons_of_mem _ h1)
      · rename_i hp
        intro _
        right
        have := hw.log p.1 true hp
        exact List.mem_of_mem_head? (by simp [this])
      · intro hc; cases hc
      · exact hr
  refine ⟨hsuc sched _ (inv_gate_new hasStart n) ?_ hready, ?_⟩
  · intro hc; cases hasStart
    · simp [World.new] at hc
    · exact Or.inl rfl
  · intro more
    have key : ∀ (more : List (Nat × Bool)) (w : World), GateInv w → w.gate = .ready → (runGate w more).gate = .ready := by
      intro more
      induction more with
      | nil => intro w _ hw; exact hw
      | cons p more ih =>
        intro w hi hw
        refine ih _ (inv_gate_step hi p.1 p.2) ?_
        have hno : ∀ r, w.pcs[p.1]? = some r → inside r = false := by
          intro r hr
          cases hx : inside r with
          | false => rfl
          | true => have := hi.closed.2 ⟨p.1, r, hr, hx⟩; rw [hw] at this; cases this
        show (step w p.1 p.2).gate = .ready
        unfold step
        cases hq : w.pcs[p.1]? with
        | none => exact hw
        | some q =>
          have := hno q hq
          cases q with
          | load => simp only [hw]
          | swap => simp only [hw]
          | init => simp [inside] at this
          | store b => simp [inside] at this
          | passed => exact hw
          | failed => exact hw
    have happ : runGate (World.new hasStart n) (sched ++ more) = runGate (runGate (World.new hasStart n) sched) more := by
      simp [runGate, List.foldl_append]
    rw [happ]
    exact key more _ hinv hready

/-- A thread fails only if it set the start point itself and that failed; the start point can then be set by
another thread: the gate is not left closed. -/
theorem C107_failed_reopens (hasStart : Bool) (n : Nat) (sched : List (Nat × Bool)) :
    let w := runGate (World.new hasStart n) sched
    (w.pcs.count .failed ≤ w.log.count false) ∧
    ((∀ p ∈ w.pcs, p ≠ .init ∧ p ≠ .store true ∧ p ≠ .store false) → w.gate ≠ .setting) := by
  intro w
  have hinv := inv_gate_run (inv_gate_new hasStart n) sched
  constructor
  · have key : ∀ (sched : List (Nat × Bool)) (w : World),
        w.pcs.count .failed + w.pcs.count (.store false) ≤ w.log.count false →
        (runGate w sched).pcs.count .failed + (runGate w sched).pcs.count (.store false)
          ≤ (runGate w sched).log.count false := by
      intro sched
      induction sched with
      | nil => intro w hw; exact hw
      | cons p sched ih =>
        intro w hw
        refine ih _ ?_
        have hset : ∀ (q x : Pc) (y : Pc), w.pcs[p.1]? = some q →
            (w.pcs.set p.1 x).count y = w.pcs.count y - (if q = y then 1 else 0) + (if x = y then 1 else 0) := by
          intro q x y hq
          rw [List.getElem?_eq_some_iff] at hq
          obtain ⟨hlt, hq⟩ := hq
          rw [List.count_set hlt, hq]
          simp
        have hpos : ∀ q, w.pcs[p.1]? = some q → 0 < w.pcs.count q := by
          intro q hq
          exact List.count_pos_iff.2 (List.mem_of_getElem? hq)
        show (step w p.1 p.2).pcs.count .failed + (step w p.1 p.2).pcs.count (.store false)
          ≤ (step w p.1 p.2).log.count false
        unfold step
        cases hq : w.pcs[p.1]? with
        | none => exact hw
        | some q =>
          cases q with
          | load =>
            cases hgt : w.gate <;> simp only [hgt]
            · rw [hset _ _ _ hq, hset _ _ _ hq]; simpa using hw
            · exact hw
            · rw [hset _ _ _ hq, hset _ _ _ hq]; simpa using hw
          | swap =>
            cases hgt : w.gate <;> simp only [hgt] <;> rw [hset _ _ _ hq, hset _ _ _ hq] <;> simpa using hw
          | init =>
            simp only []
            rw [hset _ _ _ hq, hset _ _ _ hq]
            cases p.2 <;> simp <;> omega
          | store b =>
            have hp0 := hpos _ hq
            cases b
            · simp only []
              rw [hset _ _ _ hq, hset _ _ _ hq]
              simp
              omega
            · simp only []
              rw [hset _ _ _ hq, hset _ _ _ hq]; simpa using hw
          | passed => exact hw
          | failed => exact hw
    have := key sched (World.new hasStart n) (by simp [World.new, List.count_replicate])
    show (runGate (World.new hasStart n) sched).pcs.count .failed ≤ (runGate (World.new hasStart n) sched).log.count false
    omega
  · intro hall hc
    obtain ⟨t, p, hp, hi⟩ := hinv.closed.1 hc
    have := hall p (List.mem_of_getElem? hp)
    cases p with
    | init => exact this.1 rfl
    | store b => cases b
                 · exact this.2.2 rfl
                 · exact this.2.1 rfl
    | _ => simp [inside] at hi

/-- No deadlock: while a thread is not done, some thread can be moved that is not merely spinning. -/
theorem C107_progress (hasStart : Bool) (n : Nat) (sched : List (Nat × Bool)) (t : Nat) (p : Pc)
    (h : (runGate (World.new hasStart n) sched).pcs[t]? = some p) (hp : p ≠ .passed ∧ p ≠ .failed) :
    ∃ u, ∀ ok, step (runGate (World.new hasStart n) sched) u ok ≠ runGate (World.new hasStart n) sched := by
  generalize hw : runGate (World.new hasStart n) sched = w at h ⊢
  have hinv : GateInv w := hw ▸ inv_gate_run (inv_gate_new hasStart n) sched
  have moved : ∀ (u : Nat) (q x : Pc) (g : Gate) (l : List Bool), w.pcs[u]? = some q → x ≠ q →
      (⟨g, w.pcs.set u x, l⟩ : World) ≠ w := by
    intro u q x g l hq hx hc
    have := congrArg World.pcs hc
    have h2 : (w.pcs.set u x)[u]? = w.pcs[u]? := by rw [show w.pcs.set u x = w.pcs from this]
    rw [get_set _ _ _ _ _ hq] at h2
    simp only [if_true] at h2
    rw [hq] at h2
    exact hx (Option.some.inj h2)
  by_cases hset : w.gate = .setting
  · obtain ⟨u, q, hq, hi⟩ := hinv.closed.1 hset
    refine ⟨u, fun ok => ?_⟩
    unfold step
    rw [hq]
    cases q with
    | init => exact moved u _ _ _ _ hq (by simp)
    | store b => cases b
                 · exact moved u _ _ _ _ hq (by simp)
                 · exact moved u _ _ _ _ hq (by simp)
    | _ => simp [inside] at hi
  · refine ⟨t, fun ok => ?_⟩
    unfold step
    rw [h]
    cases p with
    | load =>
      cases hgt : w.gate with
      | noStart => exact moved t _ _ _ _ h (by simp)
      | setting => exact absurd hgt hset
      | ready => exact moved t _ _ _ _ h (by simp)
    | swap =>
      cases hgt : w.gate with
      | noStart => exact moved t _ _ _ _ h (by simp)
      | setting => exact absurd hgt hset
      | ready => exact moved t _ _ _ _ h (by simp)
    | init => exact moved t _ _ _ _ h (by simp)
    | store b => cases b
                 · exact moved t _ _ _ _ h (by simp)
                 · exact moved t _ _ _ _ h (by simp)
    | passed => exact absurd rfl hp.1
    | failed => exact absurd rfl hp.2

/-- Three threads: the first one's attempt fails, the second one's succeeds, the third one waits for it. -/
example :
    let w := runGate (World.new false 3)
      [(0, true), (1, true), (0, true), (1, true), (0, false), (0, true), (1, true), (1, true), (2, true), (1, true),
       (1, true), (2, true)]
    w.pcs = [.failed, .passed, .passed] ∧ w.log = [true, false] ∧ w.gate = .ready := by decide

/-! ### The records -/

variable {V C : Type}

/-- A start point that was set: stored with its neighbours, id zero in use. -/
structure Set (p : V) (s : Rec V C) : Prop where
  vec : s.vec = some p
  nbrs : s.nbrs.isSome
  used : s.used 0 = true
  cache : ∀ v, s.cacheVec = some v → v = p

theorem set_next {p : V} {s : Rec V C} (h : Set p s) (e : Event V C) : (ha : Allowed s e) → Set p (next s e).1 := by
  intro ha
  cases e with
  | attempt q v a f =>
    show Set p (attempt q s v a f).1
    unfold attempt
    rw [h.vec]
    obtain ⟨ns, hns⟩ := Option.isSome_iff_exists.1 h.nbrs
    simp only [hns]
    cases q with
    | none => exact ⟨rfl, rfl, h.used, fun v hv => (Option.some.inj hv).symm⟩
    | some k =>
      cases hc : s.code with
      | none => exact h
      | some c => exact ⟨rfl, rfl, h.used, fun v hv => (Option.some.inj hv).symm⟩
  | create n =>
    show Set p (create s n).1
    unfold create
    rw [h.vec]
    obtain ⟨ns, hns⟩ := Option.isSome_iff_exists.1 h.nbrs
    simp only [hns]
    exact ⟨rfl, rfl, h.used, fun v hv => (Option.some.inj hv).symm⟩
  | take i =>
    refine ⟨h.vec, h.nbrs, ?_, h.cache⟩
    show (if 0 = i then true else s.used 0) = true
    simp [h.used]
  | free i =>
    refine ⟨h.vec, h.nbrs, ?_, h.cache⟩
    show (if 0 = i then false else s.used 0) = true
    rw [if_neg (Ne.symm ha)]; exact h.used
  | neighbors ns =>
    show Set p (if s.nbrs.isSome then _ else _ : Rec V C × Bool).1
    rw [if_pos h.nbrs]
    exact ⟨h.vec, rfl, h.used, h.cache⟩
  | backfill c => exact ⟨h.vec, h.nbrs, h.used, h.cache⟩

/-- The first attempt on an empty store, if nothing fails, sets the start point: it is stored and cached, with no
neighbours, its code too if the index is quantized, and id zero is in use.  Missing: attempts after a failed one,
which never succeed (see `C107_failed_for_ever`). -/
theorem C107_set_partial (q : Option (V → Option C)) (p : V) (f : Faults) (hf : f.vec ∧ f.code ∧ f.nbrs)
    (hq : ∀ k, q = some k → (k p).isSome) :
    (attempt q (Rec.empty : Rec V C) p (.gives 0) f).2 = true ∧
    (let s := (attempt q (Rec.empty : Rec V C) p (.gives 0) f).1
     s.vec = some p ∧ s.cacheVec = some p ∧ s.nbrs = some [] ∧ s.cacheNbrs = some [] ∧ s.used 0 = true ∧
     s.exists? = true ∧ (∀ k, q = some k → s.code = k p ∧ s.cacheCode = k p)) := by
  obtain ⟨h1, h2, h3⟩ := hf
  cases q with
  | none => simp [attempt, Rec.empty, Rec.take, h1, h3, Rec.exists?]
  | some k =>
    obtain ⟨c, hc⟩ := Option.isSome_iff_exists.1 (hq k rfl)
    simp [attempt, Rec.empty, Rec.take, h1, h2, h3, hc, Rec.exists?]

/-- The first start point stays: after an attempt that succeeded on an empty store with vector `p`, and any
further attempts with other vectors, restarts, changes of its neighbours and other uses of ids, the stored
vector is `p`, and so is the cached one; every restart creates an index that has it; and every attempt of a set
that is not quantized succeeds. -/
theorem C107_first_stays (q : Option (V → Option C)) (p : V) (a : Alloc) (f : Faults)
    (hok : (attempt q (Rec.empty : Rec V C) p a f).2 = true) {es : List (Event V C × Bool)} {t : Rec V C}
    (hrun : Run (attempt q (Rec.empty : Rec V C) p a f).1 es t) :
    t.vec = some p ∧ (∀ v, t.cacheVec = some v → v = p) ∧ t.used 0 = true ∧
    (∀ n, (create t n).2 = true ∧ (create t n).1.cacheVec = some p ∧ (create t n).1.exists? = true) ∧
    (∀ p' a' f', (attempt none t p' a' f').2 = true ∧ (attempt none t p' a' f').1.cacheVec = some p) := by
  have hset : Set p (attempt q (Rec.empty : Rec V C) p a f).1 := by
    revert hok
    unfold attempt
    cases a with
    | fails m => simp [Rec.empty]
    | gives i =>
      by_cases hi : i = 0
      · subst hi
        cases hv : f.vec with
        | false => simp [Rec.empty, Rec.take]
        | true =>
          cases q with
          | none =>
            cases hn : f.nbrs with
            | false => simp [Rec.empty, Rec.take]
            | true => intro _; constructor <;> simp [Rec.empty, Rec.take]
          | some k =>
            cases hk : k p with
            | none => simp [Rec.empty, Rec.take, hk]
            | some c =>
              cases hcd : f.code with
              | false => simp [Rec.empty, Rec.take, hk, hcd]
              | true =>
                cases hn : f.nbrs with
                | false => simp [Rec.empty, Rec.take, hk, hcd, hn]
                | true => intro _; constructor <;> simp [Rec.empty, Rec.take, hk, hcd, hn]
      · cases f.free <;> simp [Rec.empty, hi]
  have ht : Set p t := by
    clear hok
    generalize (attempt q (Rec.empty : Rec V C) p a f).1 = s at hrun hset
    induction hrun with
    | nil s => exact hset
    | cons ha _ ih => exact ih (set_next hset _ ha)
  obtain ⟨ns, hns⟩ := Option.isSome_iff_exists.1 ht.nbrs
  refine ⟨ht.vec, ht.cache, ht.used, ?_, ?_⟩
  · intro n
    simp [create, ht.vec, hns, Rec.exists?]
  · intro p' a' f'
    simp [attempt, ht.vec, hns]

/-- Id zero is taken but the start point is incomplete: no vector, or no neighbours. -/
structure Stuck (s : Rec V C) : Prop where
  used : s.used 0 = true
  nbrs : s.nbrs = none

theorem stuck_next {s : Rec V C} (h : Stuck s) (e : Event V C) (ha : Allowed s e) :
    Stuck (next s e).1 ∧ (∀ q p a f, e = .attempt q p a f → (next s e).2 = false) := by
  cases e with
  | attempt q v a f =>
    have : Stuck (attempt q s v a f).1 ∧ (attempt q s v a f).2 = false := by
      unfold attempt
      cases hv : s.vec with
      | some w => simp only [h.nbrs]; exact ⟨h, trivial⟩
      | none =>
        cases a with
        | fails m => cases m <;> exact ⟨⟨h.used, h.nbrs⟩, rfl⟩
        | gives i =>
          have hi : i ≠ 0 := by
            rintro rfl
            have := ha.1
            simp [h.used] at this
          simp only [if_pos hi]
          cases f.free
          · refine ⟨⟨?_, h.nbrs⟩, rfl⟩
            show (if 0 = i then true else s.used 0) = true
            simp [h.used]
          · refine ⟨⟨?_, h.nbrs⟩, rfl⟩
            show (if 0 = i then false else if 0 = i then true else s.used 0) = true
            rw [if_neg (Ne.symm hi), if_neg (Ne.symm hi)]; exact h.used
    exact ⟨this.1, fun _ _ _ _ _ => this.2⟩
  | create n =>
    refine ⟨?_, by intro _ _ _ _ hc; cases hc⟩
    show Stuck (create s n).1
    unfold create
    rw [h.nbrs]
    cases s.vec <;> exact ⟨h.used, rfl⟩
  | take i =>
    refine ⟨⟨?_, h.nbrs⟩, by intro _ _ _ _ hc; cases hc⟩
    show (if 0 = i then true else s.used 0) = true
    simp [h.used]
  | free i =>
    refine ⟨⟨?_, h.nbrs⟩, by intro _ _ _ _ hc; cases hc⟩
    show (if 0 = i then false else s.used 0) = true
    rw [if_neg (Ne.symm ha)]; exact h.used
  | neighbors ns =>
    refine ⟨?_, by intro _ _ _ _ hc; cases hc⟩
    show Stuck (if s.nbrs.isSome then _ else _ : Rec V C × Bool).1
    rw [h.nbrs]
    exact h
  | backfill c => exact ⟨⟨h.used, h.nbrs⟩, by intro _ _ _ _ hc; cases hc⟩

/-- Refutation of retrying: if the first attempt on an empty store got id zero and failed, for whatever reason, no
later attempt ever succeeds, over all further calls and restarts: the set cannot be used any more.  (If the
failure came after the vector was written, no index can even be created: see the next theorem.) -/
theorem C107_failed_for_ever (q : Option (V → Option C)) (p : V) (f : Faults)
    (hfail : (attempt q (Rec.empty : Rec V C) p (.gives 0) f).2 = false) {es : List (Event V C × Bool)} {t : Rec V C}
    (hrun : Run (attempt q (Rec.empty : Rec V C) p (.gives 0) f).1 es t) :
    ∀ q' p' a' f' ans, (Event.attempt q' p' a' f', ans) ∈ es → ans = false := by
  have hst : Stuck (attempt q (Rec.empty : Rec V C) p (.gives 0) f).1 := by
    revert hfail
    unfold attempt
    cases hv : f.vec with
    | false => intro _; constructor <;> simp [Rec.empty, Rec.take]
    | true =>
      cases q with
      | none =>
        cases hn : f.nbrs with
        | false => intro _; constructor <;> simp [Rec.empty, Rec.take]
        | true => simp [Rec.empty, Rec.take]
      | some k =>
        cases hk : k p with
        | none => intro _; constructor <;> simp [Rec.empty, Rec.take, hk]
        | some c =>
          cases hcd : f.code with
          | false => intro _; constructor <;> simp [Rec.empty, Rec.take, hk, hcd]
          | true =>
            cases hn : f.nbrs with
            | false => intro _; constructor <;> simp [Rec.empty, Rec.take, hk, hcd, hn]
            | true => simp [Rec.empty, Rec.take, hk, hcd, hn]
  clear hfail
  generalize (attempt q (Rec.empty : Rec V C) p (.gives 0) f).1 = s at hrun hst
  induction hrun with
  | nil s => intro _ _ _ _ _ hm; cases hm
  | @cons s e es t ha _ ih =>
    obtain ⟨h1, h2⟩ := stuck_next hst e ha
    intro q' p' a' f' ans hm
    rcases List.mem_cons.1 hm with hm | hm
    · cases hm
      exact h2 _ _ _ _ rfl
    · exact ih h1 q' p' a' f' ans hm

/-- Refutation for restarts: a failure after the vector was written makes every later restart fail. -/
theorem C107_no_index_refuted (p : V) (f : Faults) (hv : f.vec = true) (hn : f.nbrs = false)
    {es : List (Event V C × Bool)} {t : Rec V C}
    (hrun : Run (attempt none (Rec.empty : Rec V C) p (.gives 0) f).1 es t) (n : Nat) : (create t n).2 = false := by
  have h0 : (attempt none (Rec.empty : Rec V C) p (.gives 0) f).1.vec = some p ∧
      Stuck (attempt none (Rec.empty : Rec V C) p (.gives 0) f).1 := by
    refine ⟨by simp [attempt, Rec.empty, Rec.take, hv, hn], ?_, ?_⟩ <;>
      simp [attempt, Rec.empty, Rec.take, hv, hn]
  have key : t.vec = some p ∧ Stuck t := by
    generalize (attempt none (Rec.empty : Rec V C) p (.gives 0) f).1 = s at hrun h0
    induction hrun with
    | nil s => exact h0
    | @cons s e es t ha _ ih =>
      refine ih ⟨?_, (stuck_next h0.2 e ha).1⟩
      cases e with
      | attempt q v a f =>
        show (attempt q s v a f).1.vec = some p
        unfold attempt
        rw [h0.1]; simp only [h0.2.nbrs]; exact h0.1
      | create n =>
        show (create s n).1.vec = some p
        unfold create
        rw [h0.1, h0.2.nbrs]
      | take i => exact h0.1
      | free i => exact h0.1
      | neighbors ns =>
        show (if s.nbrs.isSome then _ else _ : Rec V C × Bool).1.vec = some p
        rw [h0.2.nbrs]; exact h0.1
      | backfill c => exact h0.1
  simp [create, key.1, key.2.nbrs]

/-- A first attempt whose write of the vector fails, a second attempt that gets id one, a restart, a third one. -/
example : Run (attempt none (Rec.empty : Rec Nat Nat) 5 (.gives 0) ⟨true, false, true, true⟩).1
    [(.attempt none 5 (.gives 1) ⟨true, true, true, true⟩, false), (.create 1, true),
     (.attempt none 6 (.gives 1) ⟨true, true, true, true⟩, false)]
    (next (next (next (attempt none (Rec.empty : Rec Nat Nat) 5 (.gives 0) ⟨true, false, true, true⟩).1
      (.attempt none 5 (.gives 1) ⟨true, true, true, true⟩)).1 (.create 1)).1
      (.attempt none 6 (.gives 1) ⟨true, true, true, true⟩)).1 := by
  refine .cons ⟨by decide, by decide⟩ (.cons ?_ (.cons ⟨by decide, by decide⟩ (.nil _)))
  intro i hi
  by_cases h1 : i = 0
  · omega
  · exfalso
    revert hi
    by_cases h2 : i = 1
    · subst h2; decide
    · simp [next, attempt, Rec.empty, Rec.take, Rec.free, h1, h2]

/-- A successful first attempt, a second one with another vector, and a restart. -/
example : (attempt none (Rec.empty : Rec Nat Nat) 5 (.gives 0) ⟨true, true, true, true⟩).2 = true ∧
    Run (attempt none (Rec.empty : Rec Nat Nat) 5 (.gives 0) ⟨true, true, true, true⟩).1
      [(.attempt none 6 (.gives 1) ⟨true, true, true, true⟩, true), (.neighbors [3], true)]
      (next (next (attempt none (Rec.empty : Rec Nat Nat) 5 (.gives 0) ⟨true, true, true, true⟩).1
        (.attempt none 6 (.gives 1) ⟨true, true, true, true⟩)).1 (.neighbors [3])).1 :=
  ⟨by decide, .cons ⟨by decide, by decide⟩ (.cons trivial (.nil _))⟩

end Verif.Garnet.Start
