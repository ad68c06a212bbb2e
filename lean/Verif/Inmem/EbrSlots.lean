import Verif.Inmem.EbrLemmas
import Verif.Inmem.EbrSpec

/-! # Slot invariant of the concurrent store -/

namespace Verif.Inmem

/-- Roles in which an actor has exclusive control of a slot. -/
inductive Kind
  | owner
  | retirer
  | drainer
deriving DecidableEq

/-- Who is responsible for a slot (proof device). -/
inductive Token
  | avail
  | published
  | frozen
  | queued (g : Nat)
  | held (k : Kind) (a : Nat)

/-- The slot an actor controls. -/
def claim : PC → Option (Nat × Kind)
  | .own i => some (i, .owner)
  | .pub i => some (i, .owner)
  | .unown i => some (i, .owner)
  | .rMirror i _ _ => some (i, .retirer)
  | .rPush i _ _ => some (i, .retirer)
  | .aMirror _ i => some (i, .drainer)
  | .aTag _ i => some (i, .drainer)
  | _ => none

/-- The slot and tag value a `retire` call is about to work on. -/
def target : PC → Option (Nat × Nat)
  | .rGuard i cur => some (i, cur)
  | .gLoaded (.retire i cur) _ => some (i, cur)
  | .gCheck (.retire i cur) _ _ _ => some (i, cur)
  | .gStore (.retire i cur) _ _ => some (i, cur)
  | .rCas i cur _ _ => some (i, cur)
  | _ => none

def tagVal : Token → Nat
  | .avail => AVAILABLE
  | .published => PUBLISHED
  | .frozen => FROZEN
  | .queued _ => RETIRING
  | .held .owner _ => OWNED
  | .held .retirer _ => RETIRING
  | .held .drainer _ => RETIRING

def pcMirror : PC → Nat
  | .pub _ => PUBLISHED
  | .rMirror _ _ _ => PUBLISHED
  | .rPush _ _ _ => RETIRING
  | .aMirror _ _ => RETIRING
  | _ => AVAILABLE

def mirrorVal (pcs : Nat → PC) : Token → Nat
  | .avail => AVAILABLE
  | .published => PUBLISHED
  | .frozen => FROZEN
  | .queued _ => RETIRING
  | .held _ b => pcMirror (pcs b)

def pcLife (d : Nat) : PC → Life
  | .pub _ => .live d
  | .rMirror _ _ _ => .live d
  | .rPush _ _ _ => .retired
  | .aMirror _ _ => .retired
  | .aTag _ _ => .retired
  | _ => .free

def lifeVal (pcs : Nat → PC) (d : Nat) : Token → Life
  | .avail => .free
  | .published => .live d
  | .frozen => .live d
  | .queued _ => .retired
  | .held _ b => pcLife d (pcs b)

def isPub : PC → Bool
  | .pub _ => true
  | _ => false

/-- A reader that entered at epoch `e` may still be looking at the slot. -/
def readOK (pcs : Nat → PC) (e : Nat) : Token → Prop
  | .published => True
  | .frozen => True
  | .queued g => e ≤ g + 1
  | .held .retirer _ => True
  | .held .owner b => isPub (pcs b) = true
  | .held .drainer _ => False
  | .avail => False

/-- The slot part of the invariant. -/
structure InvS (cfg : Config) (s : State) (tok : Nat → Token) (hist : Nat → Life) : Prop where
  tag : ∀ i, s.tags i = tagVal (tok i)
  mir : ∀ i, s.mirror i = mirrorVal s.pcs (tok i)
  life : ∀ i, hist i = lifeVal s.pcs (s.data i) (tok i)
  claimIff : ∀ a i k, claim (s.pcs a) = some (i, k) ↔ tok i = .held k a
  queue : ∀ i q, i ∈ s.queues q ↔ ∃ g, tok i = .queued g ∧ q = g % 4
  nodup : ∀ q, (s.queues q).Nodup
  qe : ∀ i g, tok i = .queued g → g ≤ s.epoch ∧ s.epoch ≤ g + 3 ∧
    (s.epoch = g + 3 → ∃ a, drainingQ (s.pcs a) ≠ none)
  bound : ∀ i, tok i ≠ .avail → i < cfg.total
  frozenIff : ∀ i, tok i = .frozen ↔ cfg.unfrozen ≤ i ∧ i < cfg.total
  targets : ∀ a i cur, target (s.pcs a) = some (i, cur) → cur = PUBLISHED ∧ i < cfg.total
  noPanic : ∀ a, s.pcs a ≠ .panicked
  readers : ∀ a j e rs, s.pcs a = .reader j e rs → ∀ i v, (i, v) ∈ rs →
    s.data i = v ∧ readOK s.pcs e (tok i)

theorem init_invS (cfg : Config) (data : Nat → Nat) :
    InvS cfg (State.init cfg data)
      (fun i => if cfg.unfrozen ≤ i ∧ i < cfg.total then .frozen else .avail) (initialLife cfg data) := by
  constructor <;> try simp only [State.init]
  · intro i; split <;> rfl
  · intro i; split <;> rfl
  · intro i; unfold initialLife; split <;> rfl
  · intro a i k; split <;> simp [claim]
  · intro i q; split <;> simp
  · simp
  · intro i g; split <;> simp
  · intro i; split
    · rename_i h; intro; exact h.2
    · simp
  · intro i; split
    · rename_i h; simp [h]
    · rename_i h; simp [h]
  · simp [target]
  · simp
  · simp

/-- Moving an actor that controls no slot. -/
theorem InvS.frame {cfg : Config} {s : State} {tok : Nat → Token} {hist : Nat → Life}
    (h : InvS cfg s tok hist) (a : Nat) (pc' : PC)
    (hc : claim (s.pcs a) = none) (hc' : claim pc' = none)
    (ht : ∀ i cur, target pc' = some (i, cur) → cur = PUBLISHED ∧ i < cfg.total)
    (hp : pc' ≠ .panicked)
    (hd : drainingQ (s.pcs a) = none ∨ drainingQ pc' ≠ none ∨ ∀ i g, tok i = .queued g → s.epoch ≠ g + 3)
    (hr : ∀ j e rs, pc' = .reader j e rs → ∀ i v, (i, v) ∈ rs → s.data i = v ∧ readOK s.pcs e (tok i))
    (g : Nat → Nat) (l : Option Nat) :
    InvS cfg { s with pcs := upd s.pcs a pc', guards := g, lock := l } tok hist := by
  have hheld : ∀ i k b, tok i = .held k b → b ≠ a := by
    rintro i k b hb rfl
    rw [(h.claimIff b i k).mpr hb] at hc; cases hc
  have hread : ∀ i e, readOK s.pcs e (tok i) → readOK (upd s.pcs a pc') e (tok i) := by
    intro i e hre
    cases ht : tok i with
    | held k b =>
      rw [ht] at hre
      cases k with
      | owner => simp only [readOK] at hre ⊢; rw [upd_ne (hheld i _ b ht)]; exact hre
      | retirer => trivial
      | drainer => exact hre
    | _ => rw [ht] at hre; exact hre
  constructor <;> try simp only
  · exact h.tag
  · intro i
    rw [h.mir]
    cases ht : tok i with
    | held k b => simp only [mirrorVal]; rw [upd_ne (hheld i k b ht)]
    | _ => rfl
  · intro i
    rw [h.life]
    cases ht : tok i with
    | held k b => simp only [lifeVal]; rw [upd_ne (hheld i k b ht)]
    | _ => rfl
  · intro b i k
    rcases eq_or_ne b a with rfl | hne
    · rw [upd_self, hc']
      constructor
      · intro hx; cases hx
      · intro hx; exact absurd rfl (hheld i k b hx)
    · rw [upd_ne hne]; exact h.claimIff b i k
  · exact h.queue
  · exact h.nodup
  · intro i g' hg
    obtain ⟨h1, h2, h3⟩ := h.qe i g' hg
    refine ⟨h1, h2, ?_⟩
    intro hE
    obtain ⟨b, hb⟩ := h3 hE
    rcases eq_or_ne b a with rfl | hne
    · rcases hd with hd | hd | hd
      · exact absurd hd hb
      · exact ⟨b, by rw [upd_self]; exact hd⟩
      · exact absurd hE (hd i g' hg)
    · exact ⟨b, by rw [upd_ne hne]; exact hb⟩
  · exact h.bound
  · exact h.frozenIff
  · intro b i cur hb
    rcases eq_or_ne b a with rfl | hne
    · rw [upd_self] at hb; exact ht i cur hb
    · rw [upd_ne hne] at hb; exact h.targets b i cur hb
  · intro b
    rcases eq_or_ne b a with rfl | hne
    · rw [upd_self]; exact hp
    · rw [upd_ne hne]; exact h.noPanic b
  · intro b j e rs hb i v hv
    have : s.data i = v ∧ readOK s.pcs e (tok i) := by
      rcases eq_or_ne b a with rfl | hne
      · rw [upd_self] at hb; exact hr j e rs hb i v hv
      · rw [upd_ne hne] at hb; exact h.readers b j e rs hb i v hv
    exact ⟨this.1, hread i e this.2⟩

/-- A step that changes the state of one slot, controlled (before, after, or both) by the acting actor. -/
theorem InvS.move {cfg : Config} {s : State} {tok : Nat → Token} {hist : Nat → Life}
    (hE : InvE cfg s) (h : InvS cfg s tok hist) (a : Nat) (pc' : PC) (i : Nat) (t' : Token)
    (tags' mirror' data' : Nat → Nat) (queues' : Nat → List Nat) (hist' : Nat → Life)
    (hold : ∀ i' k, claim (s.pcs a) = some (i', k) → i' = i)
    (htok : ∀ k b, tok i = .held k b → b = a)
    (hnew : ∀ i' k, claim pc' = some (i', k) ↔ i' = i ∧ t' = .held k a)
    (hnew' : ∀ k b, t' = .held k b → b = a)
    (htag : tags' = upd s.tags i (tagVal t'))
    (hmir : mirror' = upd s.mirror i (mirrorVal (upd s.pcs a pc') t'))
    (hdata : data' = upd s.data i (data' i))
    (hhist : hist' = upd hist i (lifeVal (upd s.pcs a pc') (data' i) t'))
    (hq : ∀ i' q, i' ∈ queues' q ↔ ∃ g, upd tok i t' i' = .queued g ∧ q = g % 4)
    (hqn : ∀ q, (queues' q).Nodup)
    (hqe : ∀ g, t' = .queued g → g ≤ s.epoch ∧ s.epoch ≤ g + 2)
    (hib : i < cfg.total) (hnf : tok i ≠ .frozen) (hnf' : t' ≠ .frozen)
    (htg : ∀ i' cur, target pc' ≠ some (i', cur))
    (hp : pc' ≠ .panicked) (hnr : ∀ j e rs, pc' ≠ .reader j e rs)
    (hd : drainingQ (s.pcs a) = none ∨ drainingQ pc' ≠ none)
    (hread : ∀ e, e ≤ s.epoch → s.epoch ≤ e + 1 → readOK s.pcs e (tok i) →
      data' i = s.data i ∧ readOK (upd s.pcs a pc') e t') :
    InvS cfg { s with pcs := upd s.pcs a pc', tags := tags', mirror := mirror', data := data', queues := queues' }
      (upd tok i t') hist' := by
  have hheld : ∀ i' k b, i' ≠ i → tok i' = .held k b → b ≠ a := by
    rintro i' k b hne hb rfl
    exact hne (hold i' k ((h.claimIff b i' k).mpr hb))
  constructor <;> try simp only
  · intro i'
    rcases eq_or_ne i' i with rfl | hne
    · rw [htag, upd_self, upd_self]
    · rw [htag, upd_ne hne, upd_ne hne]; exact h.tag i'
  · intro i'
    rcases eq_or_ne i' i with rfl | hne
    · rw [hmir, upd_self, upd_self]
    · rw [hmir, upd_ne hne, upd_ne hne, h.mir]
      cases ht : tok i' with
      | held k b => simp only [mirrorVal]; rw [upd_ne (hheld i' k b hne ht)]
      | _ => rfl
  · intro i'
    rcases eq_or_ne i' i with rfl | hne
    · rw [hhist, upd_self, upd_self]
    · have hdi : data' i' = s.data i' := by rw [hdata, upd_ne hne]
      rw [hhist, upd_ne hne, upd_ne hne, h.life, hdi]
      cases ht : tok i' with
      | held k b => simp only [lifeVal]; rw [upd_ne (hheld i' k b hne ht)]
      | _ => rfl
  · intro b i' k
    rcases eq_or_ne b a with rfl | hba
    · rw [upd_self, hnew]
      rcases eq_or_ne i' i with rfl | hne
      · rw [upd_self]; simp
      · rw [upd_ne hne]
        constructor
        · intro hx; exact absurd hx.1 hne
        · intro hx; exact absurd rfl (hheld i' k b hne hx)
    · rw [upd_ne hba, h.claimIff]
      rcases eq_or_ne i' i with rfl | hne
      · rw [upd_self]
        constructor
        · intro hx; exact absurd (htok k b hx) hba
        · intro hx; exact absurd (hnew' k b hx) hba
      · rw [upd_ne hne]
  · exact hq
  · exact hqn
  · intro i' g hg
    rcases eq_or_ne i' i with rfl | hne
    · rw [upd_self] at hg
      have := hqe g hg
      exact ⟨this.1, by omega, fun h => by omega⟩
    · rw [upd_ne hne] at hg
      obtain ⟨h1, h2, h3⟩ := h.qe i' g hg
      refine ⟨h1, h2, ?_⟩
      intro hE
      obtain ⟨b, hb⟩ := h3 hE
      rcases eq_or_ne b a with rfl | hba
      · rcases hd with hd | hd
        · exact absurd hd hb
        · exact ⟨b, by rw [upd_self]; exact hd⟩
      · exact ⟨b, by rw [upd_ne hba]; exact hb⟩
  · intro i' hi'
    rcases eq_or_ne i' i with rfl | hne
    · exact hib
    · rw [upd_ne hne] at hi'; exact h.bound i' hi'
  · intro i'
    rcases eq_or_ne i' i with rfl | hne
    · rw [upd_self, ← h.frozenIff]
      exact ⟨fun hx => absurd hx hnf', fun hx => absurd hx hnf⟩
    · rw [upd_ne hne]; exact h.frozenIff i'
  · intro b i' cur hb
    rcases eq_or_ne b a with rfl | hba
    · rw [upd_self] at hb; exact absurd hb (htg i' cur)
    · rw [upd_ne hba] at hb; exact h.targets b i' cur hb
  · intro b
    rcases eq_or_ne b a with rfl | hba
    · rw [upd_self]; exact hp
    · rw [upd_ne hba]; exact h.noPanic b
  · intro b j e rs hb i' v hv
    rcases eq_or_ne b a with rfl | hba
    · rw [upd_self] at hb; exact absurd hb (hnr _ _ _)
    · rw [upd_ne hba] at hb
      obtain ⟨h1, h2⟩ := h.readers b j e rs hb i' v hv
      have hbe := hE.heldE b j e (by rw [hb]; rfl)
      rcases eq_or_ne i' i with rfl | hne
      · obtain ⟨h3, h4⟩ := hread e hbe.2.1 hbe.2.2 h2
        rw [upd_self, h3]
        exact ⟨h1, h4⟩
      · rw [upd_ne hne]
        refine ⟨by rw [hdata, upd_ne hne]; exact h1, ?_⟩
        cases ht : tok i' with
        | held k b' =>
          rw [ht] at h2
          cases k with
          | owner => simp only [readOK] at h2 ⊢; rw [upd_ne (hheld i' _ b' hne ht)]; exact h2
          | retirer => trivial
          | drainer => exact h2
        | _ => rw [ht] at h2; exact h2

/-- Advancing the epoch does not touch the slots. -/
theorem InvS.advance {cfg : Config} {s : State} {tok : Nat → Token} {hist : Nat → Life}
    (hE : InvE cfg s) (h : InvS cfg s tok hist) (a : Nat) (q : Nat) (hpc : s.pcs a = .aInc s.epoch) :
    InvS cfg { s with epoch := s.epoch + 1, pcs := upd s.pcs a (.aDrain q) } tok hist := by
  have hla : s.lock = some a := (hE.lockIff a).mpr (by rw [hpc]; rfl)
  have hother : ∀ b, advancing (s.pcs b) = true → b = a := by
    intro b hb
    have := (hE.lockIff b).mpr hb
    rw [hla] at this; exact (Option.some.inj this).symm
  have hnd : ∀ b, drainingQ (s.pcs b) = none := by
    intro b
    by_contra hb
    have hba : b = a := hother b (by revert hb; cases s.pcs b <;> simp [drainingQ, advancing])
    subst hba
    rw [hpc] at hb; exact hb rfl
  have hf := h.frame a (.aDrain q) (by rw [hpc]; rfl) rfl (by simp [target]) (by simp) (Or.inl (hnd a)) (by simp)
    s.guards s.lock
  exact { hf with
    qe := by
      intro i g hg
      obtain ⟨h1, h2, h3⟩ := h.qe i g hg
      have : s.epoch ≠ g + 3 := by
        intro hE'
        obtain ⟨b, hb⟩ := h3 hE'
        exact hb (hnd b)
      simp only
      exact ⟨by omega, by omega, fun _ => ⟨a, by rw [upd_self]; simp [drainingQ]⟩⟩ }

theorem upd_same {α : Type} {f : Nat → α} {k : Nat} {v : α} (h : f k = v) : f = upd f k v := by
  funext x
  rcases eq_or_ne x k with rfl | hne
  · rw [upd_self, h]
  · rw [upd_ne hne]

theorem tagVal_avail {t : Token} (h : tagVal t = AVAILABLE) : t = .avail := by
  rcases t with _ | _ | _ | _ | ⟨k, _⟩
  case held => cases k <;> simp_all [tagVal, AVAILABLE, OWNED, RETIRING]
  all_goals simp_all [tagVal, AVAILABLE, RETIRING, PUBLISHED, FROZEN]

theorem tagVal_published {t : Token} (h : tagVal t = PUBLISHED) : t = .published := by
  rcases t with _ | _ | _ | _ | ⟨k, _⟩
  case held => cases k <;> simp_all [tagVal, PUBLISHED, OWNED, RETIRING]
  all_goals simp_all [tagVal, AVAILABLE, RETIRING, PUBLISHED, FROZEN]

theorem tagVal_unreserved {t : Token} (h : isReserved (tagVal t) = false) : tagVal t = PUBLISHED ∧ t ≠ .avail := by
  rcases t with _ | _ | _ | _ | ⟨k, _⟩
  case held => cases k <;> simp_all [tagVal, isReserved, OWNED, RETIRING]
  all_goals simp_all [tagVal, isReserved, AVAILABLE, RETIRING, PUBLISHED, FROZEN]

theorem mirror_readable {pcs : Nat → PC} {t : Token} (d e : Nat)
    (hc : ∀ k b, t = .held k b → ∃ i, claim (pcs b) = some (i, k)) :
    (canRead (mirrorVal pcs t) = true → (lifeVal pcs d t).visible = some d ∧ readOK pcs e t ∨ ∃ g, t = .queued g) ∧
    (canRead (mirrorVal pcs t) = false → (lifeVal pcs d t).visible = none) := by
  rcases t with _ | _ | _ | g | ⟨k, b⟩
  · simp [mirrorVal, canRead, AVAILABLE, PUBLISHED, lifeVal, Life.visible]
  · simp [mirrorVal, canRead, PUBLISHED, lifeVal, Life.visible, readOK]
  · simp [mirrorVal, canRead, FROZEN, PUBLISHED, lifeVal, Life.visible, readOK]
  · simp [mirrorVal, canRead, RETIRING, PUBLISHED, lifeVal, Life.visible]
  · obtain ⟨i, hi⟩ := hc k b rfl
    cases hp : pcs b <;> rw [hp] at hi <;> simp [claim] at hi <;>
      obtain ⟨rfl, rfl⟩ := hi <;>
      simp [mirrorVal, pcMirror, hp, canRead, AVAILABLE, RETIRING, PUBLISHED, lifeVal, pcLife, Life.visible, readOK, isPub]

theorem InvS.queue_same {cfg : Config} {s : State} {tok : Nat → Token} {hist : Nat → Life}
    (h : InvS cfg s tok hist) (i : Nat) (t' : Token) (h1 : ∀ g, tok i ≠ .queued g) (h2 : ∀ g, t' ≠ .queued g)
    (i' q : Nat) : i' ∈ s.queues q ↔ ∃ g, upd tok i t' i' = .queued g ∧ q = g % 4 := by
  rw [h.queue]
  rcases eq_or_ne i' i with rfl | hne
  · rw [upd_self]
    constructor
    · rintro ⟨g, hg, -⟩; exact absurd hg (h1 g)
    · rintro ⟨g, hg, -⟩; exact absurd hg (h2 g)
  · rw [upd_ne hne]

/-- Effect of the emitted event, if any. -/
def applyEv (hist : Nat → Life) : Option Event → (Nat → Life)
  | none => hist
  | some e => e.effect hist

/-- Discharge a step that does not concern any slot. -/
macro "invS_local" h:ident hact:ident hpc:ident : tactic => `(tactic|
  (simp only [Option.some.injEq, Prod.mk.injEq] at $hact:ident
   obtain ⟨hx1, hx2⟩ := $hact:ident
   subst hx1; subst hx2
   exact ⟨_, InvS.frame $h _ _ (by simp [claim, $hpc:ident]) (by simp [claim]) (by simp [target]) (by simp)
     (Or.inl (by simp [drainingQ, $hpc:ident])) (by simp) _ _, by simp⟩))

theorem held_facts' (p : Purpose) (j e : Nat) : claim (held p j e) = none ∧ held p j e ≠ .panicked ∧
    (∀ i cur, target (held p j e) = some (i, cur) → p = .retire i cur) ∧
    (∀ j' e' rs, held p j e = .reader j' e' rs → rs = []) := by
  cases p <;> simp [held, claim, target]

/-- Every step preserves the slot invariant and emits only events the atomic store allows. -/
theorem act_invS {cfg : Config} {s s' : State} {a : Nat} {c : Choice} {ev : Option Event}
    {tok : Nat → Token} {hist : Nat → Life} (hE : InvE cfg s) (h : InvS cfg s tok hist)
    (hact : act cfg a c s = some (s', ev)) :
    ∃ tok', InvS cfg s' tok' (applyEv hist ev) ∧ ∀ e, ev = some e → e.ok hist := by
  have hself : ∀ {k i}, claim (s.pcs a) = some (i, k) →
      tok i = .held k a ∧ (∀ i' k', claim (s.pcs a) = some (i', k') → i' = i) ∧ i < cfg.total ∧ tok i ≠ .frozen ∧
      (∀ k' b, tok i = .held k' b → b = a) ∧ ∀ g, tok i ≠ .queued g := by
    intro k i hc
    have ht := (h.claimIff a i k).mp hc
    refine ⟨ht, ?_, h.bound i (by rw [ht]; simp), by rw [ht]; simp, ?_, by rw [ht]; simp⟩
    · intro i' k' hc'; rw [hc] at hc'; simp only [Option.some.injEq, Prod.mk.injEq] at hc'; exact hc'.1.symm
    · intro k' b hb; rw [ht] at hb; simp only [Token.held.injEq] at hb; exact hb.2.symm
  have hheldclaim : ∀ i k b, tok i = .held k b → ∃ i', claim (s.pcs b) = some (i', k) :=
    fun i k b hb => ⟨i, (h.claimIff b i k).mpr hb⟩
  unfold act at hact
  simp only at hact
  split at hact <;> rename_i hpc
  · -- startRead
    invS_local h hact hpc
  · -- startRetire
    rename_i i
    split at hact
    · rename_i hi
      split at hact
      · invS_local h hact hpc
      · rename_i hres
        simp only [Option.some.injEq, Prod.mk.injEq] at hact
        obtain ⟨rfl, rfl⟩ := hact
        rw [Bool.not_eq_true, h.tag] at hres
        have hu := tagVal_unreserved hres
        refine ⟨_, h.frame a _ (by simp [claim, hpc]) (by simp [claim]) ?_ (by simp)
          (Or.inl (by simp [drainingQ, hpc])) (by simp) _ _, by simp⟩
        intro i' cur ht
        simp only [target, Option.some.injEq, Prod.mk.injEq] at ht
        obtain ⟨rfl, rfl⟩ := ht
        exact ⟨by rw [h.tag]; exact hu.1, hi⟩
    · invS_local h hact hpc
  · -- rGuard
    rename_i i cur
    have htg := h.targets a i cur (by rw [hpc]; rfl)
    simp only [Option.some.injEq, Prod.mk.injEq] at hact
    obtain ⟨rfl, rfl⟩ := hact
    refine ⟨_, h.frame a _ (by simp [claim, hpc]) (by simp [claim]) ?_ (by simp)
      (Or.inl (by simp [drainingQ, hpc])) (by simp) _ _, by simp⟩
    intro i' cur' ht
    simp only [target, Option.some.injEq, Prod.mk.injEq] at ht
    obtain ⟨rfl, rfl⟩ := ht
    exact htg
  · -- slot
    rename_i p e j
    have htg : ∀ i cur, p = .retire i cur → cur = PUBLISHED ∧ i < cfg.total := by
      rintro i cur rfl; exact h.targets a i cur (by rw [hpc]; rfl)
    split at hact
    · simp only [Option.some.injEq, Prod.mk.injEq] at hact
      obtain ⟨rfl, rfl⟩ := hact
      refine ⟨_, h.frame a _ (by simp [claim, hpc]) (by simp [claim]) ?_ (by simp)
        (Or.inl (by simp [drainingQ, hpc])) (by simp) _ _, by simp⟩
      intro i' cur' ht
      cases p with
      | read => cases ht
      | retire i cur =>
        simp only [target, Option.some.injEq, Prod.mk.injEq] at ht
        obtain ⟨rfl, rfl⟩ := ht
        exact htg _ _ rfl
    · simp only [Option.some.injEq, Prod.mk.injEq] at hact
      obtain ⟨rfl, rfl⟩ := hact
      refine ⟨_, h.frame a _ (by simp [claim, hpc]) (by simp [claim]) ?_ (by simp)
        (Or.inl (by simp [drainingQ, hpc])) (by simp) _ _, by simp⟩
      intro i' cur' ht
      cases p with
      | read => cases ht
      | retire i cur =>
        simp only [target, Option.some.injEq, Prod.mk.injEq] at ht
        obtain ⟨rfl, rfl⟩ := ht
        exact htg _ _ rfl
  · invS_local h hact hpc
  · -- gCheck
    rename_i p j e reset
    have htg : ∀ i cur, p = .retire i cur → cur = PUBLISHED ∧ i < cfg.total := by
      rintro i cur rfl; exact h.targets a i cur (by rw [hpc]; rfl)
    have htg2 : ∀ i cur, target (.gStore p j e) = some (i, cur) → p = .retire i cur := by
      intro i cur ht
      cases p with
      | read => cases ht
      | retire i' cur' =>
        simp only [target, Option.some.injEq, Prod.mk.injEq] at ht
        obtain ⟨rfl, rfl⟩ := ht; rfl
    have htg3 : ∀ e i cur, target (.gCheck p j e true) = some (i, cur) → p = .retire i cur := by
      intro e i cur ht
      cases p with
      | read => cases ht
      | retire i' cur' =>
        simp only [target, Option.some.injEq, Prod.mk.injEq] at ht
        obtain ⟨rfl, rfl⟩ := ht; rfl
    split at hact
    · split at hact
      · simp only [Option.some.injEq, Prod.mk.injEq] at hact
        obtain ⟨rfl, rfl⟩ := hact
        exact ⟨_, h.frame a _ (by simp [claim, hpc]) (by simp [claim]) (fun i cur ht => htg i cur (htg2 i cur ht))
          (by simp) (Or.inl (by simp [drainingQ, hpc])) (by simp) _ _, by simp⟩
      · simp only [Option.some.injEq, Prod.mk.injEq] at hact
        obtain ⟨rfl, rfl⟩ := hact
        obtain ⟨k1, k2, k3, k4⟩ := held_facts' p j e
        refine ⟨_, h.frame a _ (by simp [claim, hpc]) k1 (fun i cur ht => htg i cur (k3 i cur ht))
          k2 (Or.inl (by simp [drainingQ, hpc])) ?_ _ _, by simp⟩
        intro j' e' rs hrs i v hv
        rw [k4 j' e' rs hrs] at hv; cases hv
    · simp only [Option.some.injEq, Prod.mk.injEq] at hact
      obtain ⟨rfl, rfl⟩ := hact
      exact ⟨_, h.frame a _ (by simp [claim, hpc]) (by simp [claim]) (fun i cur ht => htg i cur (htg3 _ i cur ht))
        (by simp) (Or.inl (by simp [drainingQ, hpc])) (by simp) _ _, by simp⟩
  · -- gStore
    rename_i p j e
    have htg : ∀ i cur, p = .retire i cur → cur = PUBLISHED ∧ i < cfg.total := by
      rintro i cur rfl; exact h.targets a i cur (by rw [hpc]; rfl)
    simp only [Option.some.injEq, Prod.mk.injEq] at hact
    obtain ⟨rfl, rfl⟩ := hact
    obtain ⟨k1, k2, k3, k4⟩ := held_facts' p j e
    refine ⟨_, h.frame a _ (by simp [claim, hpc]) k1 (fun i cur ht => htg i cur (k3 i cur ht))
      k2 (Or.inl (by simp [drainingQ, hpc])) ?_ _ _, by simp⟩
    intro j' e' rs hrs i v hv
    rw [k4 j' e' rs hrs] at hv; cases hv
  · -- readAt
    rename_i j e rs i
    have hmr := mirror_readable (t := tok i) (s.data i) e (hheldclaim i)
    rw [← h.mir, ← h.life] at hmr
    split at hact
    · rename_i hi
      simp only [Option.some.injEq, Prod.mk.injEq] at hact
      obtain ⟨rfl, rfl⟩ := hact
      have hread := hmr.1 hi.2
      have hnq : ∀ g, tok i ≠ .queued g := by
        intro g hg
        have := h.mir i
        rw [hg] at this
        rw [this] at hi
        simp [mirrorVal, canRead, RETIRING, PUBLISHED] at hi
      have hread' : (hist i).visible = some (s.data i) ∧ readOK s.pcs e (tok i) := by
        rcases hread with h | ⟨g, hg⟩
        · exact h
        · exact absurd hg (hnq g)
      refine ⟨_, h.frame a _ (by simp [claim, hpc]) (by simp [claim]) (by simp [target]) (by simp)
        (Or.inl (by simp [drainingQ, hpc])) ?_ _ _, ?_⟩
      · intro j' e' rs' hrs i' v hv
        simp only [PC.reader.injEq] at hrs
        obtain ⟨rfl, rfl, rfl⟩ := hrs
        rcases List.mem_cons.mp hv with hv | hv
        · simp only [Prod.mk.injEq] at hv
          obtain ⟨rfl, rfl⟩ := hv
          exact ⟨rfl, hread'.2⟩
        · exact h.readers a _ _ _ hpc i' v hv
      · rintro e ⟨⟩
        simp only [Event.ok]
        exact hread'.1.symm
    · rename_i hi
      simp only [Option.some.injEq, Prod.mk.injEq] at hact
      obtain ⟨rfl, rfl⟩ := hact
      refine ⟨tok, h, ?_⟩
      rintro e ⟨⟩
      simp only [Event.ok]
      by_cases hit : i < cfg.total
      · have : canRead (s.mirror i) = false := by
          rw [← Bool.not_eq_true]; intro hc; exact hi ⟨hit, hc⟩
        exact (hmr.2 this).symm
      · have : tok i = .avail := by
          by_contra hne; exact hit (h.bound i hne)
        rw [h.life, this]; rfl
  · -- reader finish
    invS_local h hact hpc
  · -- rCas
    rename_i i cur j e
    obtain ⟨rfl, hib⟩ := h.targets a i cur (by rw [hpc]; rfl)
    split at hact
    · rename_i hcas
      simp only [Option.some.injEq, Prod.mk.injEq] at hact
      obtain ⟨rfl, rfl⟩ := hact
      have ht : tok i = .published := tagVal_published (by rw [← h.tag]; exact hcas)
      refine ⟨_, InvS.move hE h a (.rMirror i j e) i (.held .retirer a) _ s.mirror s.data s.queues hist
        (by simp [claim, hpc]) (by simp [ht]) (by simp [claim, eq_comm]) (by simp [eq_comm]) rfl
        (upd_same ?_) (upd_same rfl) (upd_same ?_) (h.queue_same i _ (by simp [ht]) (by simp)) h.nodup
        (by simp) hib (by simp [ht]) (by simp) (by simp [target]) (by simp) (by simp)
        (Or.inl (by simp [drainingQ, hpc])) (fun _ _ _ _ => ⟨rfl, trivial⟩), by simp⟩
      · rw [h.mir, ht]; simp [mirrorVal, pcMirror]
      · rw [h.life, ht]; simp [lifeVal, pcLife]
    · invS_local h hact hpc
  · -- rMirror
    rename_i i j e
    obtain ⟨ht, hold, hib, hnf, htok, hnq⟩ := hself (k := .retirer) (i := i) (by rw [hpc]; rfl)
    simp only [Option.some.injEq, Prod.mk.injEq] at hact
    obtain ⟨rfl, rfl⟩ := hact
    refine ⟨_, InvS.move hE h a (.rPush i j e) i (.held .retirer a) s.tags _ s.data s.queues _
      hold htok (by simp [claim, eq_comm]) (by simp [eq_comm]) (upd_same ?_)
      (by simp [mirrorVal, pcMirror]) (upd_same rfl) (by simp [applyEv, Event.effect, lifeVal, pcLife])
      (h.queue_same i _ hnq (by simp)) h.nodup
      (by simp) hib hnf (by simp) (by simp [target]) (by simp) (by simp)
      (Or.inl (by simp [drainingQ, hpc])) (fun _ _ _ _ => ⟨rfl, trivial⟩), ?_⟩
    · rw [h.tag, ht]
    · rintro e ⟨⟩
      exact ⟨s.data i, by rw [h.life, ht]; simp [lifeVal, pcLife, hpc]⟩
  · -- rPush
    rename_i i j e
    obtain ⟨ht, hold, hib, hnf, htok, hnq⟩ := hself (k := .retirer) (i := i) (by rw [hpc]; rfl)
    obtain ⟨-, he1, he2⟩ := hE.heldE a j e (by rw [hpc]; rfl)
    simp only [Option.some.injEq, Prod.mk.injEq] at hact
    obtain ⟨rfl, rfl⟩ := hact
    refine ⟨_, InvS.move hE h a (.rDrop j) i (.queued e) s.tags s.mirror s.data _ hist
      hold htok (by simp [claim]) (by simp) (upd_same ?_)
      (upd_same ?_) (upd_same rfl) (upd_same ?_) ?_ ?_
      ?_ hib hnf (by simp) (by simp [target]) (by simp) (by simp)
      (Or.inl (by simp [drainingQ, hpc])) ?_, by simp⟩
    · rw [h.tag, ht]; rfl
    · rw [h.mir, ht]; simp [mirrorVal, pcMirror, hpc]
    · rw [h.life, ht]; simp [lifeVal, pcLife, hpc]
    · intro i' q
      have hq := h.queue i' q
      rcases eq_or_ne q (queueOf e) with rfl | hqe
      · rw [upd_self, List.mem_append, List.mem_singleton]
        rcases eq_or_ne i' i with rfl | hne
        · simp [queueOf]
        · rw [upd_ne hne, ← hq]; simp [hne]
      · rw [upd_ne hqe]
        rcases eq_or_ne i' i with rfl | hne
        · rw [upd_self, hq]
          constructor
          · rintro ⟨g, hg, -⟩; exact absurd hg (hnq g)
          · rintro ⟨g, hg, hgq⟩
            simp only [Token.queued.injEq] at hg
            subst hg
            exact absurd hgq hqe
        · rw [upd_ne hne, ← hq]
    · intro q
      rcases eq_or_ne q (queueOf e) with rfl | hqe
      · rw [upd_self, List.nodup_append]
        refine ⟨h.nodup _, by simp, ?_⟩
        intro x hx y hy hxy
        simp only [List.mem_singleton] at hy
        subst hxy; subst hy
        obtain ⟨g, hg, -⟩ := (h.queue _ _).mp hx
        exact hnq g hg
      · rw [upd_ne hqe]; exact h.nodup q
    · intro g hg
      simp only [Token.queued.injEq] at hg
      omega
    · intro e' h1 h2 _
      refine ⟨rfl, ?_⟩
      simp only [readOK]
      omega
  · invS_local h hact hpc
  · -- acquire
    rename_i i
    split at hact
    · rename_i hi
      simp only [Option.some.injEq, Prod.mk.injEq] at hact
      obtain ⟨rfl, rfl⟩ := hact
      have ht : tok i = .avail := tagVal_avail (by rw [← h.tag]; exact hi.2)
      refine ⟨_, InvS.move hE h a (.own i) i (.held .owner a) _ s.mirror s.data s.queues hist
        (by simp [claim, hpc]) (by simp [ht]) (by simp [claim, eq_comm]) (by simp [eq_comm]) rfl
        (upd_same ?_) (upd_same rfl) (upd_same ?_) (h.queue_same i _ (by simp [ht]) (by simp)) h.nodup
        (by simp) hi.1 (by simp [ht]) (by simp) (by simp [target]) (by simp) (by simp)
        (Or.inl (by simp [drainingQ, hpc])) ?_, by simp⟩
      · rw [h.mir, ht]; simp [mirrorVal, pcMirror]
      · rw [h.life, ht]; simp [lifeVal, pcLife]
      · intro e _ _ hr; rw [ht] at hr; exact hr.elim
    · invS_local h hact hpc
  · -- write
    rename_i i v
    obtain ⟨ht, hold, hib, hnf, htok, hnq⟩ := hself (k := .owner) (i := i) (by rw [hpc]; rfl)
    simp only [Option.some.injEq, Prod.mk.injEq] at hact
    obtain ⟨rfl, rfl⟩ := hact
    refine ⟨_, InvS.move hE h a (.own i) i (.held .owner a) s.tags s.mirror _ s.queues hist
      hold htok (by simp [claim, eq_comm]) (by simp [eq_comm]) (upd_same ?_)
      (upd_same ?_) (by simp) (upd_same ?_) (h.queue_same i _ hnq (by simp)) h.nodup
      (by simp) hib hnf (by simp) (by simp [target]) (by simp) (by simp)
      (Or.inl (by simp [drainingQ, hpc])) ?_, by simp⟩
    · rw [h.tag, ht]
    · rw [h.mir, ht]; simp [mirrorVal, pcMirror, hpc]
    · rw [h.life, ht]; simp [lifeVal, pcLife, hpc]
    · intro e _ _ hr
      rw [ht] at hr
      simp [readOK, isPub, hpc] at hr
  · -- publish
    rename_i i
    obtain ⟨ht, hold, hib, hnf, htok, hnq⟩ := hself (k := .owner) (i := i) (by rw [hpc]; rfl)
    simp only [Option.some.injEq, Prod.mk.injEq] at hact
    obtain ⟨rfl, rfl⟩ := hact
    refine ⟨_, InvS.move hE h a (.pub i) i (.held .owner a) s.tags _ s.data s.queues _
      hold htok (by simp [claim, eq_comm]) (by simp [eq_comm]) (upd_same ?_)
      (by simp [mirrorVal, pcMirror]) (upd_same rfl) (by simp [applyEv, Event.effect, lifeVal, pcLife])
      (h.queue_same i _ hnq (by simp)) h.nodup
      (by simp) hib hnf (by simp) (by simp [target]) (by simp) (by simp)
      (Or.inl (by simp [drainingQ, hpc])) ?_, ?_⟩
    · rw [h.tag, ht]
    · intro e _ _ _; simp [readOK, isPub]
    · rintro e ⟨⟩
      simp only [Event.ok]
      rw [h.life, ht]; simp [lifeVal, pcLife, hpc]
  · -- pub
    rename_i i
    obtain ⟨ht, hold, hib, hnf, htok, hnq⟩ := hself (k := .owner) (i := i) (by rw [hpc]; rfl)
    simp only [Option.some.injEq, Prod.mk.injEq] at hact
    obtain ⟨rfl, rfl⟩ := hact
    refine ⟨_, InvS.move hE h a .idle i .published _ s.mirror s.data s.queues hist
      hold htok (by simp [claim]) (by simp) rfl
      (upd_same ?_) (upd_same rfl) (upd_same ?_) (h.queue_same i _ hnq (by simp)) h.nodup
      (by simp) hib hnf (by simp) (by simp [target]) (by simp) (by simp)
      (Or.inl (by simp [drainingQ, hpc])) (fun _ _ _ _ => ⟨rfl, trivial⟩), by simp⟩
    · rw [h.mir, ht]; simp [mirrorVal, pcMirror, hpc]
    · rw [h.life, ht]; simp [lifeVal, pcLife, hpc]
  · -- abandon
    rename_i i
    obtain ⟨ht, hold, hib, hnf, htok, hnq⟩ := hself (k := .owner) (i := i) (by rw [hpc]; rfl)
    simp only [Option.some.injEq, Prod.mk.injEq] at hact
    obtain ⟨rfl, rfl⟩ := hact
    refine ⟨_, InvS.move hE h a (.unown i) i (.held .owner a) s.tags _ s.data s.queues hist
      hold htok (by simp [claim, eq_comm]) (by simp [eq_comm]) (upd_same ?_)
      (by simp [mirrorVal, pcMirror]) (upd_same rfl) (upd_same ?_)
      (h.queue_same i _ hnq (by simp)) h.nodup
      (by simp) hib hnf (by simp) (by simp [target]) (by simp) (by simp)
      (Or.inl (by simp [drainingQ, hpc])) ?_, by simp⟩
    · rw [h.tag, ht]
    · rw [h.life, ht]; simp [lifeVal, pcLife, hpc]
    · intro e _ _ hr
      rw [ht] at hr
      simp [readOK, isPub, hpc] at hr
  · -- unown
    rename_i i
    obtain ⟨ht, hold, hib, hnf, htok, hnq⟩ := hself (k := .owner) (i := i) (by rw [hpc]; rfl)
    simp only [Option.some.injEq, Prod.mk.injEq] at hact
    obtain ⟨rfl, rfl⟩ := hact
    refine ⟨_, InvS.move hE h a .idle i .avail _ s.mirror s.data s.queues hist
      hold htok (by simp [claim]) (by simp) rfl
      (upd_same ?_) (upd_same rfl) (upd_same ?_) (h.queue_same i _ hnq (by simp)) h.nodup
      (by simp) hib hnf (by simp) (by simp [target]) (by simp) (by simp)
      (Or.inl (by simp [drainingQ, hpc])) ?_, by simp⟩
    · rw [h.mir, ht]; simp [mirrorVal, pcMirror, hpc]
    · rw [h.life, ht]; simp [lifeVal, pcLife, hpc]
    · intro e _ _ hr
      rw [ht] at hr
      simp [readOK, isPub, hpc] at hr
  · -- startDrain
    split at hact <;> invS_local h hact hpc
  · invS_local h hact hpc
  · -- aScan
    split at hact
    · invS_local h hact hpc
    · split at hact
      · invS_local h hact hpc
      · split at hact <;> invS_local h hact hpc
  · -- aInc
    obtain ⟨h1, h2, h3⟩ := hE.inc a _ hpc
    subst h1
    rw [if_pos rfl] at hact
    simp only [Option.some.injEq, Prod.mk.injEq] at hact
    obtain ⟨rfl, rfl⟩ := hact
    exact ⟨_, h.advance hE a _ hpc, by simp⟩
  · -- aDrain
    rename_i q
    obtain ⟨hd1, hd2⟩ := hE.drain a q (by rw [hpc]; rfl)
    have hqg : ∀ i g, tok i = .queued g → q = g % 4 → s.epoch = g + 3 := by
      intro i g hg hq
      obtain ⟨h1, h2, -⟩ := h.qe i g hg
      omega
    split at hact
    · rename_i hempty
      simp only [Option.some.injEq, Prod.mk.injEq] at hact
      obtain ⟨rfl, rfl⟩ := hact
      refine ⟨_, h.frame a _ (by simp [claim, hpc]) (by simp [claim]) (by simp [target]) (by simp)
        (Or.inr (Or.inr ?_)) (by simp) _ _, by simp⟩
      intro i g hg hep
      have : i ∈ s.queues q := (h.queue i q).mpr ⟨g, hg, by omega⟩
      rw [hempty] at this; cases this
    · rename_i i rest hqs
      have hmem : i ∈ s.queues q := by rw [hqs]; simp
      obtain ⟨g, hg, hgq⟩ := (h.queue i q).mp hmem
      have hib := h.bound i (by rw [hg]; simp)
      have hep := hqg i g hg hgq
      have hnd := h.nodup q
      rw [hqs, List.nodup_cons] at hnd
      rw [if_pos hib] at hact
      simp only [Option.some.injEq, Prod.mk.injEq] at hact
      obtain ⟨rfl, rfl⟩ := hact
      refine ⟨_, InvS.move hE h a (.aMirror q i) i (.held .drainer a) s.tags s.mirror s.data _ hist
        (by simp [claim, hpc]) (by simp [hg]) (by simp [claim, eq_comm]) (by simp [eq_comm]) (upd_same ?_)
        (upd_same ?_) (upd_same rfl) (upd_same ?_) ?_ ?_
        (by simp) hib (by simp [hg]) (by simp) (by simp [target]) (by simp) (by simp)
        (Or.inr (by simp [drainingQ])) ?_, by simp⟩
      · rw [h.tag, hg]; rfl
      · rw [h.mir, hg]; simp [mirrorVal, pcMirror]
      · rw [h.life, hg]; simp [lifeVal, pcLife]
      · intro i' q'
        have hq := h.queue i' q'
        rcases eq_or_ne q' q with rfl | hqe
        · rw [upd_self]
          rcases eq_or_ne i' i with rfl | hne
          · rw [upd_self]; simp [hnd.1]
          · rw [upd_ne hne, ← hq, hqs]; simp [hne]
        · rw [upd_ne hqe]
          rcases eq_or_ne i' i with rfl | hne
          · rw [upd_self, hq]
            constructor
            · rintro ⟨g', hg', hq'⟩
              rw [hg] at hg'
              simp only [Token.queued.injEq] at hg'
              omega
            · rintro ⟨g', hg', -⟩; cases hg'
          · rw [upd_ne hne, ← hq]
      · intro q'
        rcases eq_or_ne q' q with rfl | hqe
        · rw [upd_self]; exact hnd.2
        · rw [upd_ne hqe]; exact h.nodup q'
      · intro e he1 he2 hr
        rw [hg] at hr
        simp only [readOK] at hr
        omega
  · -- aMirror
    rename_i q i
    obtain ⟨ht, hold, hib, hnf, htok, hnq⟩ := hself (k := .drainer) (i := i) (by rw [hpc]; rfl)
    have hm : s.mirror i = RETIRING := by rw [h.mir, ht]; simp [mirrorVal, pcMirror, hpc]
    rw [if_pos hm] at hact
    simp only [Option.some.injEq, Prod.mk.injEq] at hact
    obtain ⟨rfl, rfl⟩ := hact
    refine ⟨_, InvS.move hE h a (.aTag q i) i (.held .drainer a) s.tags _ s.data s.queues hist
      hold htok (by simp [claim, eq_comm]) (by simp [eq_comm]) (upd_same ?_)
      (by simp [mirrorVal, pcMirror]) (upd_same rfl) (upd_same ?_)
      (h.queue_same i _ hnq (by simp)) h.nodup
      (by simp) hib hnf (by simp) (by simp [target]) (by simp) (by simp)
      (Or.inr (by simp [drainingQ])) ?_, by simp⟩
    · rw [h.tag, ht]
    · rw [h.life, ht]; simp [lifeVal, pcLife, hpc]
    · intro e _ _ hr; rw [ht] at hr; exact hr.elim
  · -- aTag
    rename_i q i
    obtain ⟨ht, hold, hib, hnf, htok, hnq⟩ := hself (k := .drainer) (i := i) (by rw [hpc]; rfl)
    have hm : s.tags i = RETIRING := by rw [h.tag, ht]; rfl
    rw [if_pos hm] at hact
    simp only [Option.some.injEq, Prod.mk.injEq] at hact
    obtain ⟨rfl, rfl⟩ := hact
    refine ⟨_, InvS.move hE h a (.aDrain q) i .avail _ s.mirror s.data s.queues _
      hold htok (by simp [claim]) (by simp) rfl
      (upd_same ?_) (upd_same rfl) (by simp [applyEv, Event.effect, lifeVal])
      (h.queue_same i _ hnq (by simp)) h.nodup
      (by simp) hib hnf (by simp) (by simp [target]) (by simp) (by simp)
      (Or.inr (by simp [drainingQ])) ?_, ?_⟩
    · rw [h.mir, ht]; simp [mirrorVal, pcMirror, hpc]
    · intro e _ _ hr; rw [ht] at hr; exact hr.elim
    · rintro e ⟨⟩
      simp only [Event.ok]
      rw [h.life, ht]; simp [lifeVal, pcLife, hpc]
  · cases hact

end Verif.Inmem
