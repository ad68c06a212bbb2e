import Verif.Inmem.EbrSlots
import Mathlib.Data.List.Nodup

/-! # C19, C20, C21: safety of the concurrent vector store

`Run cfg data s es` : state `s` is reachable, with any number of actors and any interleaving of their atomic
steps, and `es` is the sequence of observable events so far. -/

namespace Verif.Inmem

variable {cfg : Config} {data : Nat → Nat} {s s' : State} {es : List Event}

theorem lifeAfter_append (f : Nat → Life) (es : List Event) (ev : Option Event) :
    lifeAfter f (es ++ ev.toList) = applyEv (lifeAfter f es) ev := by
  cases ev <;> simp [lifeAfter, applyEv]

theorem legal_append (f : Nat → Life) (es : List Event) (e : Event) (h : Legal f es)
    (he : e.ok (lifeAfter f es)) : Legal f (es ++ [e]) := by
  induction es generalizing f with
  | nil => exact ⟨he, trivial⟩
  | cons x xs ih => exact ⟨h.1, ih _ h.2 he⟩

/-- Data changes only under an owner. -/
theorem act_data {a : Nat} {c : Choice} {ev : Option Event} (h : act cfg a c s = some (s', ev)) (i : Nat) :
    s'.data i = s.data i ∨ s.pcs a = .own i := by
  unfold act at h
  simp only at h
  split at h
  case h_15 =>
    rename_i i' v hpc
    simp only [Option.some.injEq, Prod.mk.injEq] at h
    obtain ⟨rfl, rfl⟩ := h
    rcases eq_or_ne i i' with rfl | hne
    · exact Or.inr hpc
    · left; simp only; rw [upd_ne hne]
  all_goals left; repeat' split at h
  all_goals first
    | (simp only [Option.some.injEq, Prod.mk.injEq] at h; obtain ⟨rfl, rfl⟩ := h; rfl)
    | cases h

/-- Everything the proofs know about a reachable state. -/
theorem Run.inv (h : Run cfg data s es) :
    InvE cfg s ∧ (∃ tok, InvS cfg s tok (lifeAfter (initialLife cfg data) es)) ∧
    Legal (initialLife cfg data) es ∧
    ∀ i, cfg.unfrozen ≤ i → i < cfg.total → s.data i = data i ∧
      ∀ e ∈ es, e ≠ .retired i ∧ e ≠ .reclaimed i ∧ (∀ v, e ≠ .published i v) ∧
        ∀ r, e = .read i r → r = some (data i) := by
  induction h with
  | start => exact ⟨init_invE cfg data, ⟨_, init_invS cfg data⟩, trivial, fun i _ _ => ⟨rfl, by simp⟩⟩
  | @step s s' es ev a c _ hact ih =>
    obtain ⟨hE, ⟨tok, hS⟩, hL, hF⟩ := ih
    obtain ⟨tok', hS', hok⟩ := act_invS hE hS hact
    refine ⟨act_invE hE hact, ⟨tok', by rw [lifeAfter_append]; exact hS'⟩, ?_, ?_⟩
    · cases ev with
      | none => simpa using hL
      | some e => exact legal_append _ _ _ hL (hok e rfl)
    · intro i h1 h2
      obtain ⟨hd, hev⟩ := hF i h1 h2
      have hfz : tok i = .frozen := (hS.frozenIff i).mpr ⟨h1, h2⟩
      have hfz' : tok' i = .frozen := (hS'.frozenIff i).mpr ⟨h1, h2⟩
      have hd' : s'.data i = data i := by
        rcases act_data hact i with h | h
        · rw [h, hd]
        · have := (hS.claimIff a i .owner).mp (by rw [h]; rfl)
          rw [hfz] at this; cases this
      refine ⟨hd', ?_⟩
      intro e he
      rcases List.mem_append.mp he with he | he
      · exact hev e he
      · have hev' : ev = some e := by cases ev <;> simp_all
        have hl := hS.life i
        rw [hfz] at hl
        have hl' := hS'.life i
        rw [hfz', hev'] at hl'
        have ho := hok e hev'
        simp only [lifeVal] at hl hl'
        refine ⟨?_, ?_, ?_, ?_⟩
        · rintro rfl; simp [applyEv, Event.effect, upd_self] at hl'
        · rintro rfl; simp [applyEv, Event.effect, upd_self] at hl'
        · rintro v rfl
          simp only [Event.ok] at ho
          rw [hl] at ho; cases ho
        · rintro r rfl
          simp only [Event.ok] at ho
          rw [ho, hl, hd]; rfl

/-! ## C19 -/

/-- C19: as long as a reader is active, every slot it has successfully read still holds exactly the value it
saw, is not available for acquisition, and is not owned (being written) by anyone. -/
theorem C19_read_slots_stay_intact (h : Run cfg data s es) {a j e : Nat} {reads : List (Nat × Nat)}
    (ha : s.pcs a = .reader j e reads) {i v : Nat} (hi : (i, v) ∈ reads) :
    s.data i = v ∧ s.tags i ≠ AVAILABLE ∧ ∀ b, s.pcs b ≠ .own i := by
  obtain ⟨-, ⟨tok, hS⟩, -, -⟩ := h.inv
  obtain ⟨h1, h2⟩ := hS.readers a j e reads ha i v hi
  refine ⟨h1, ?_, ?_⟩
  · intro ht
    rw [hS.tag] at ht
    rw [tagVal_avail ht] at h2
    exact h2
  · intro b hb
    have := (hS.claimIff b i .owner).mp (by rw [hb]; rfl)
    rw [this] at h2
    simp [readOK, isPub, hb] at h2

/-- C19: the bookkeeping in the previous theorem is honest: a successful read is recorded in the reader, and
stays recorded through every step of every actor until the reader itself leaves. -/
theorem C19_reads_are_recorded_until_leaving {b : Nat} {c : Choice} {ev : Option Event}
    (hact : act cfg b c s = some (s', ev)) {a j e : Nat} {reads : List (Nat × Nat)}
    (ha : s.pcs a = .reader j e reads) :
    (∃ reads', s'.pcs a = .reader j e reads' ∧ reads ⊆ reads' ∧
      ∀ i v, b = a → ev = some (.read i (some v)) → (i, v) ∈ reads') ∨ (b = a ∧ c = .finish) := by
  rcases eq_or_ne b a with rfl | hne
  · unfold act at hact
    simp only at hact
    rw [ha] at hact
    split at hact
    all_goals try (rename_i hpc; cases hpc)
    · split at hact
      · simp only [Option.some.injEq, Prod.mk.injEq] at hact
        obtain ⟨rfl, rfl⟩ := hact
        refine Or.inl ⟨_, upd_self _ _ _, List.subset_cons_self _ _, ?_⟩
        rintro i v - ⟨⟩
        simp
      · simp only [Option.some.injEq, Prod.mk.injEq] at hact
        obtain ⟨rfl, rfl⟩ := hact
        exact Or.inl ⟨_, ha, List.Subset.refl _, by simp⟩
    · exact Or.inr ⟨rfl, rfl⟩
    · cases hact
  · left
    refine ⟨reads, ?_, List.Subset.refl _, fun i v h => absurd h hne⟩
    have hpcs : s'.pcs a = s.pcs a := by
      unfold act at hact
      simp only at hact
      split at hact
      all_goals repeat' split at hact
      all_goals first
        | (simp only [Option.some.injEq, Prod.mk.injEq] at hact; obtain ⟨rfl, rfl⟩ := hact
           first | rfl | (simp only; rw [upd_ne (Ne.symm hne)]))
        | cases hact
    rw [hpcs, ha]

/-- C19: the store is linearizable: for every interleaving, the observable events are ones an atomic store
could produce — reads return exactly the value published last and nothing once the slot is retired; slots are
only published when free and only reclaimed when retired. -/
theorem C19_atomic_store (h : Run cfg data s es) : Legal (initialLife cfg data) es := h.inv.2.2.1

/-! ## C20 -/

/-- C20: the "concurrency violation" assertions never fire. -/
theorem C20_assertions_never_fire (h : Run cfg data s es) (a : Nat) : s.pcs a ≠ .panicked := by
  obtain ⟨-, ⟨tok, hS⟩, -, -⟩ := h.inv
  exact hS.noPanic a

/-- C20: no two actors ever own the same slot; in particular two concurrent inserts never write to it. -/
theorem C20_single_owner (h : Run cfg data s es) {a b i : Nat} (ha : s.pcs a = .own i) (hb : s.pcs b = .own i) :
    a = b := by
  obtain ⟨-, ⟨tok, hS⟩, -, -⟩ := h.inv
  have h1 := (hS.claimIff a i .owner).mp (by rw [ha]; rfl)
  have h2 := (hS.claimIff b i .owner).mp (by rw [hb]; rfl)
  rw [h1] at h2
  simp only [Token.held.injEq, true_and] at h2
  exact h2

theorem legal_counts (f : Nat → Life) (es : List Event) (h : Legal f es) (i : Nat) :
    es.count (.reclaimed i) ≤ es.count (.retired i) + (if f i = .retired then 1 else 0) := by
  induction es generalizing f with
  | nil => simp
  | cons x xs ih =>
    obtain ⟨h1, h2⟩ := h
    have := ih _ h2
    have hu : ∀ (k : Nat) (v : Life), upd f k v i = if i = k then v else f i := fun k v => rfl
    cases x with
    | published k v =>
      simp only [Event.effect, hu, Event.ok] at this h1
      simp only [List.count_cons, reduceCtorEq, beq_iff_eq, if_false, Nat.add_zero]
      by_cases hk : i = k
      · subst hk; simp_all
      · simpa [hk] using this
    | retired k =>
      obtain ⟨v, hv⟩ := h1
      simp only [Event.effect, hu] at this
      simp only [List.count_cons, reduceCtorEq, beq_iff_eq, if_false, Nat.add_zero, Event.retired.injEq]
      by_cases hk : i = k
      · subst hk; simp [hv] at this ⊢; exact this
      · have hk' : ¬ k = i := fun h => hk h.symm
        simpa [hk, hk'] using this
    | reclaimed k =>
      simp only [Event.effect, hu, Event.ok] at this h1
      simp only [List.count_cons, reduceCtorEq, beq_iff_eq, if_false, Nat.add_zero, Event.reclaimed.injEq]
      by_cases hk : i = k
      · subst hk; simp [h1] at this ⊢; exact this
      · have hk' : ¬ k = i := fun h => hk h.symm
        simpa [hk, hk'] using this
    | read k r =>
      simp only [Event.effect] at this
      simp only [List.count_cons, reduceCtorEq, beq_iff_eq, if_false, Nat.add_zero]
      exact this

/-- C20: each retirement is reclaimed at most once, at every moment of every execution. -/
theorem C20_reclaimed_at_most_once (h : Run cfg data s es) (i : Nat) :
    es.count (.reclaimed i) ≤ es.count (.retired i) := by
  have := legal_counts _ _ (C19_atomic_store h) i
  have h0 : initialLife cfg data i ≠ .retired := by
    unfold initialLife; split <;> simp
  rwa [if_neg h0, Nat.add_zero] at this

/-- C20: no retired slot is lost: when it is not in some call's hands it sits in exactly one retire queue,
once. -/
theorem C20_retired_not_lost (h : Run cfg data s es) {i : Nat} (hi : s.tags i = RETIRING) :
    (∃ a j e, s.pcs a = .rMirror i j e ∨ s.pcs a = .rPush i j e) ∨
    (∃ a q, s.pcs a = .aMirror q i ∨ s.pcs a = .aTag q i) ∨
    ∃ q, q < 4 ∧ (s.queues q).count i = 1 ∧ ∀ q', q' ≠ q → i ∉ s.queues q' := by
  obtain ⟨-, ⟨tok, hS⟩, -, -⟩ := h.inv
  have htg := hS.tag i
  rw [hi] at htg
  have hcases : (∃ a, tok i = .held .retirer a) ∨ (∃ a, tok i = .held .drainer a) ∨ ∃ g, tok i = .queued g := by
    rcases ht : tok i with _ | _ | _ | g | ⟨k, b⟩ <;> rw [ht] at htg
    case held => cases k <;> simp_all [tagVal, RETIRING, OWNED]
    all_goals simp_all [tagVal, RETIRING, AVAILABLE, PUBLISHED, FROZEN]
  rcases hcases with ⟨a, ha⟩ | ⟨a, ha⟩ | ⟨g, hg⟩
  · have hc := (hS.claimIff a i .retirer).mpr ha
    left
    cases hp : s.pcs a <;> rw [hp] at hc <;> simp [claim] at hc <;> subst hc
    · exact ⟨a, _, _, Or.inl hp⟩
    · exact ⟨a, _, _, Or.inr hp⟩
  · have hc := (hS.claimIff a i .drainer).mpr ha
    right; left
    cases hp : s.pcs a <;> rw [hp] at hc <;> simp [claim] at hc <;> subst hc
    · exact ⟨a, _, Or.inl hp⟩
    · exact ⟨a, _, Or.inr hp⟩
  · right; right
    refine ⟨g % 4, Nat.mod_lt _ (by omega), ?_, ?_⟩
    · exact List.count_eq_one_of_mem (hS.nodup _) ((hS.queue _ _).mpr ⟨g, hg, rfl⟩)
    · intro q' hq' hm
      obtain ⟨g', hg', hq⟩ := (hS.queue _ _).mp hm
      rw [hg] at hg'
      simp only [Token.queued.injEq] at hg'
      subst hg'
      exact hq' hq

/-- C20: guard registration slots are not leaked: a non-zero registration always belongs to exactly one
running call or live reader. -/
theorem C20_registrations_not_leaked (h : Run cfg data s es) {j : Nat} (hj : s.guards j ≠ 0) :
    ∃ a, slotOf (s.pcs a) = some j ∧ ∀ b, slotOf (s.pcs b) = some j → b = a := by
  obtain ⟨hE, -, -, -⟩ := h.inv
  obtain ⟨a, ha⟩ := hE.slotBack j hj
  exact ⟨a, ha, fun b hb => hE.slotUniq b a j hb ha⟩

/-! ## C21 -/

/-- C21: the frozen start points are readable with their initial contents in every reachable state: no
operation acquires, retires, reclaims or overwrites them. -/
theorem C21_frozen_forever (h : Run cfg data s es) {i : Nat} (h1 : cfg.unfrozen ≤ i) (h2 : i < cfg.total) :
    s.tags i = FROZEN ∧ s.mirror i = FROZEN ∧ s.data i = data i ∧ (∀ a, s.pcs a ≠ .own i) ∧
    ∀ q, i ∉ s.queues q := by
  obtain ⟨-, ⟨tok, hS⟩, -, hF⟩ := h.inv
  have hfz : tok i = .frozen := (hS.frozenIff i).mpr ⟨h1, h2⟩
  refine ⟨by rw [hS.tag, hfz]; rfl, by rw [hS.mir, hfz]; rfl, (hF i h1 h2).1, ?_, ?_⟩
  · intro a ha
    have := (hS.claimIff a i .owner).mp (by rw [ha]; rfl)
    rw [hfz] at this; cases this
  · intro q hq
    obtain ⟨g, hg, -⟩ := (hS.queue _ _).mp hq
    rw [hfz] at hg; cases hg

/-- C21: no execution contains an event that publishes, retires or reclaims a frozen slot, and every read of
one returns its initial contents. -/
theorem C21_frozen_events (h : Run cfg data s es) {i : Nat} (h1 : cfg.unfrozen ≤ i) (h2 : i < cfg.total)
    {e : Event} (he : e ∈ es) :
    e ≠ .retired i ∧ e ≠ .reclaimed i ∧ (∀ v, e ≠ .published i v) ∧ ∀ r, e = .read i r → r = some (data i) :=
  (h.inv.2.2.2 i h1 h2).2 e he

/-! ## A concrete execution

Two slots plus one frozen start point. Actor 0 publishes slot 0; reader 1 reads it; actor 2 retires it while
the reader is still there; drains by actor 3 cannot reclaim it until reader 1 leaves; afterwards they do. -/

theorem Run.of_schedule {s : State} {es : List Event} (h : Run cfg data s es) (l : List (Nat × Choice))
    {r : State × List Event} (hr : runSchedule cfg s l = some r) : Run cfg data r.1 (es ++ r.2) := by
  induction l generalizing s es r with
  | nil => simp only [runSchedule, Option.some.injEq] at hr; subst hr; simpa using h
  | cons x xs ih =>
    obtain ⟨a, c⟩ := x
    simp only [runSchedule] at hr
    split at hr
    · cases hr
    · rename_i s1 ev hact
      rw [Option.map_eq_some_iff] at hr
      obtain ⟨r1, h1, rfl⟩ := hr
      have := ih (Run.step a c h hact) h1
      simpa [List.append_assoc] using this

def exCfg : Config := ⟨2, 2, 3⟩

/-- One complete uncontended drain by actor `a`. -/
def exDrain (a drained : Nat) : List (Nat × Choice) :=
  (a, .startDrain) :: List.replicate (6 + 3 * drained) (a, .go)

def exPrefix : List (Nat × Choice) :=
  [(0, .acquire 0), (0, .write 7), (0, .finish), (0, .go),
   (1, .startRead), (1, .slot 0), (1, .go), (1, .readAt 0), (1, .readAt 2),
   (2, .startRetire 0), (2, .go), (2, .slot 1), (2, .go), (2, .go), (2, .go), (2, .go), (2, .go)]

/-- The reader blocks: the first drain advances, the second gives up, and slot 0 is still intact. -/
def exBlocked : List (Nat × Choice) :=
  exPrefix ++ exDrain 3 0 ++ [(3, .startDrain), (3, .go), (3, .go), (3, .go), (3, .go)]

example : (runSchedule exCfg (State.init exCfg fun i => 100 + i) exBlocked).map
    (fun r => (r.1.pcs 1, r.1.tags 0, r.1.data 0, r.2)) =
    some (.reader 0 1 [(2, 102), (0, 7)], RETIRING, 7,
      [.published 0 7, .read 0 (some 7), .read 2 (some 102), .retired 0]) := by decide +kernel

/-- Once the reader has left, two more drains reclaim the slot and it can be reused. -/
example : (runSchedule exCfg (State.init exCfg fun i => 100 + i)
    (exBlocked ++ [(1, .finish)] ++ exDrain 3 0 ++ exDrain 3 1 ++ [(4, .acquire 0), (4, .write 8), (4, .finish)])).map
    (fun r => (r.1.epoch, r.1.pcs 4, r.2)) =
    some (4, .pub 0, [.published 0 7, .read 0 (some 7), .read 2 (some 102), .retired 0, .reclaimed 0,
      .published 0 8]) := by decide +kernel

/-- The hypotheses of the theorems above are met in that execution. -/
example : ∃ s es, Run exCfg (fun i => 100 + i) s es ∧ s.pcs 1 = .reader 0 1 [(2, 102), (0, 7)] ∧
    s.tags 0 = RETIRING ∧ s.guards 0 ≠ 0 := by
  have h : (runSchedule exCfg (State.init exCfg fun i => 100 + i) exBlocked).isSome = true := by decide +kernel
  obtain ⟨r, hr⟩ := Option.isSome_iff_exists.mp h
  have hd : (runSchedule exCfg (State.init exCfg fun i => 100 + i) exBlocked).map
    (fun r => (r.1.pcs 1, r.1.tags 0, r.1.guards 0)) = some (.reader 0 1 [(2, 102), (0, 7)], RETIRING, 1) := by
    decide +kernel
  rw [hr] at hd
  simp only [Option.map_some, Option.some.injEq, Prod.mk.injEq] at hd
  exact ⟨_, _, Run.of_schedule .start _ hr, hd.1, hd.2.1, by rw [hd.2.2]; simp⟩

end Verif.Inmem
