import Verif.Record.SaveModel
import Mathlib.Tactic.Common
/-
Invariant of interleaved saves.
-/
namespace Verif.Record

theorem fset_same {α β : Type} [DecidableEq α] (f : α → β) (a : α) (b : β) : fset f a b a = b := by
  simp [fset]

theorem fset_ne {α β : Type} [DecidableEq α] (f : α → β) {a x : α} (b : β) (h : x ≠ a) :
    fset f a b x = f x := by simp [fset, h]

/-- Its artifacts are in place. -/
def Pc.live : Pc → Bool
  | .opn | .writing _ | .committed => true
  | _ => false

/-- What holds of one save. -/
structure SOk (enc : Nat → List Nat → List Nat) (excl : Bool) (dir : Path → Option Nat) (data : Nat → List Nat)
    (next : Nat) (own : Nat → Own) (s : Nat) (x : Save) : Prop where
  art : ∀ a ∈ x.arts, a.ino < next ∧ own a.ino = .art s
  uniq : ∀ a ∈ x.arts, ∀ b ∈ x.arts, a.ino = b.ino → a = b
  names : (x.arts.map Art.name).Nodup
  live : x.pc.live = true → ∀ a ∈ x.arts, dir (.art a.name) = some a.ino
  fin : ∀ a ∈ x.arts, ∀ c, a.fin = some c → data a.ino = c
  drop : ∀ todo, x.pc = .dropping todo → todo.Nodup ∧
    ∀ n ∈ todo, ∃ a ∈ x.arts, a.name = n ∧ dir (.art n) = some a.ino
  tmp : ∀ m, x.pc = .writing m → x.tino < next ∧ own x.tino = .tmp s ∧
    data x.tino = (enc s (x.arts.map Art.name)).take m ∧ (∀ a ∈ x.arts, a.fin.isSome = true) ∧
    (excl = true → dir (.tmp x.key) = some x.tino)
  com : x.pc = .committed → x.tino < next ∧ own x.tino = .tmp s ∧
    data x.tino = enc s (x.arts.map Art.name) ∧ (∀ a ∈ x.arts, a.fin.isSome = true)

theorem SOk.frame {enc : Nat → List Nat → List Nat} {excl : Bool} {dir dir' : Path → Option Nat}
    {data data' : Nat → List Nat} {next next' : Nat} {own own' : Nat → Own} {s : Nat} {x : Save}
    (h : SOk enc excl dir data next own s x)
    (hdir : ∀ n i, dir (.art n) = some i → own i = .art s → dir' (.art n) = some i)
    (htmp : excl = true → x.pc.active = true → dir' (.tmp x.key) = dir (.tmp x.key))
    (hdata : ∀ i, i < next → own i = .art s ∨ own i = .tmp s → data' i = data i)
    (hnext : next ≤ next') (hown : ∀ i, i < next → own' i = own i) :
    SOk enc excl dir' data' next' own' s x where
  art := fun a ha => by
    obtain ⟨h1, h2⟩ := h.art a ha
    exact ⟨Nat.lt_of_lt_of_le h1 hnext, by rw [hown _ h1]; exact h2⟩
  uniq := h.uniq
  names := h.names
  live := fun hl a ha => hdir _ _ (h.live hl a ha) (h.art a ha).2
  fin := fun a ha c hc => by
    rw [hdata _ (h.art a ha).1 (Or.inl (h.art a ha).2)]; exact h.fin a ha c hc
  drop := fun todo ht => by
    obtain ⟨h1, h2⟩ := h.drop todo ht
    refine ⟨h1, fun n hn => ?_⟩
    obtain ⟨a, ha, hna, hda⟩ := h2 n hn
    exact ⟨a, ha, hna, hdir _ _ hda (h.art a ha).2⟩
  tmp := fun m hm => by
    obtain ⟨h1, h2, h3, h4, h5⟩ := h.tmp m hm
    refine ⟨Nat.lt_of_lt_of_le h1 hnext, by rw [hown _ h1]; exact h2,
      by rw [hdata _ h1 (Or.inr h2)]; exact h3, h4, fun he => ?_⟩
    rw [htmp he (by rw [hm]; rfl)]; exact h5 he
  com := fun hc => by
    obtain ⟨h1, h2, h3, h4⟩ := h.com hc
    exact ⟨Nat.lt_of_lt_of_le h1 hnext, by rw [hown _ h1]; exact h2,
      by rw [hdata _ h1 (Or.inr h2)]; exact h3, h4⟩

/-- The invariant. -/
structure SInv (enc : Nat → List Nat → List Nat) (excl : Bool) (d : Disk0) (st : SaveSt) : Prop where
  nx : d.next ≤ st.next
  dirlt : ∀ p i, st.dir p = some i → i < st.next
  old : ∀ i, i < d.next → st.data i = d.data i ∧ st.own i = .before
  pre : ∀ n i, d.dir (.art n) = some i → st.dir (.art n) = some i
  ok : ∀ s, SOk enc excl st.dir st.data st.next st.own s (st.sv s)
  ex : excl = true → ∀ s s', (st.sv s).pc.active = true → (st.sv s').pc.active = true →
    (st.sv s).key = (st.sv s').key → s = s'
  lastN : ∀ k, st.last k = none → st.dir (.man k) = d.dir (.man k)
  lastS : ∀ k s, st.last k = some s → (st.sv s).pc = .committed ∧ (st.sv s).key = k ∧
    (excl = true → st.dir (.man k) = some (st.sv s).tino)

variable {enc : Nat → List Nat → List Nat} {excl : Bool} {d : Disk0}

theorem SInv.init : SInv enc excl d d.init where
  nx := Nat.le_refl _
  dirlt := d.bound
  old := fun _ _ => ⟨rfl, rfl⟩
  pre := fun _ _ h => h
  ok := fun s => by
    refine ⟨?_, ?_, ?_, ?_, ?_, ?_, ?_, ?_⟩ <;> simp [Disk0.init, Pc.live]
  ex := fun _ s s' h => by simp [Disk0.init, Pc.active] at h
  lastN := fun _ _ => rfl
  lastS := fun k s h => by simp [Disk0.init] at h

/-- Only the record of a save that is not committed changes. -/
theorem SInv.setSave {st : SaveSt} (h : SInv enc excl d st) {s : Nat} {x : Save}
    (hnc : (st.sv s).pc ≠ .committed)
    (hx : SOk enc excl st.dir st.data st.next st.own s x)
    (hex : excl = true → x.pc.active = true → ∀ s', s' ≠ s → (st.sv s').pc.active = true →
      (st.sv s').key ≠ x.key) : SInv enc excl d (st.setSave s x) where
  nx := h.nx
  dirlt := h.dirlt
  old := h.old
  pre := h.pre
  ok := fun s' => by
    show SOk enc excl st.dir st.data st.next st.own s' (fset st.sv s x s')
    by_cases hs : s' = s
    · subst hs; rw [fset_same]; exact hx
    · rw [fset_ne _ _ hs]; exact h.ok s'
  ex := fun he a b ha hb hab => by
    simp only [SaveSt.setSave] at ha hb hab
    by_cases h1 : a = s <;> by_cases h2 : b = s
    · rw [h1, h2]
    · subst h1
      rw [fset_same] at ha hab
      rw [fset_ne _ _ h2] at hb hab
      exact absurd hab.symm (hex he ha b h2 hb)
    · subst h2
      rw [fset_same] at hb hab
      rw [fset_ne _ _ h1] at ha hab
      exact absurd hab (hex he hb a h1 ha)
    · rw [fset_ne _ _ h1] at ha hab
      rw [fset_ne _ _ h2] at hb hab
      exact h.ex he a b ha hb hab
  lastN := h.lastN
  lastS := fun k s' hl => by
    obtain ⟨h1, h2, h3⟩ := h.lastS k s' hl
    have hs : s' ≠ s := by rintro rfl; exact hnc h1
    simp only [SaveSt.setSave]
    rw [fset_ne _ _ hs]
    exact ⟨h1, h2, h3⟩

/-- An active save keeps its place. -/
theorem SInv.ex_self {st : SaveSt} (h : SInv enc excl d st) {s : Nat} (ha : (st.sv s).pc.active = true) :
    excl = true → ∀ s', s' ≠ s → (st.sv s').pc.active = true → (st.sv s').key ≠ (st.sv s).key :=
  fun he s' hs h1 h2 => hs (h.ex he s' s h1 ha h2)

/-- Entering `Drop`. -/
theorem SOk.toDrop {st : SaveSt} {s : Nat} {x : Save}
    (h : SOk enc excl st.dir st.data st.next st.own s x) (hl : x.pc.live = true) :
    SOk enc excl st.dir st.data st.next st.own s { x with pc := .dropping (x.arts.map Art.name) } where
  art := h.art
  uniq := h.uniq
  names := h.names
  live := fun h' => by simp [Pc.live] at h'
  fin := h.fin
  drop := fun todo ht => by
    simp only [Pc.dropping.injEq] at ht
    subst ht
    refine ⟨h.names, fun n hn => ?_⟩
    obtain ⟨a, ha, rfl⟩ := List.mem_map.1 hn
    exact ⟨a, ha, rfl, h.live hl a ha⟩
  tmp := fun m hm => by simp at hm
  com := fun hc => by simp at hc

theorem SInv.setDrop {st : SaveSt} (h : SInv enc excl d st) {s : Nat}
    (hl : (st.sv s).pc.live = true) (hnc : (st.sv s).pc ≠ .committed) :
    SInv enc excl d (st.setPc s (.dropping ((st.sv s).arts.map Art.name))) := by
  have ha : (st.sv s).pc.active = true := by
    revert hl hnc
    cases (st.sv s).pc <;> simp [Pc.live, Pc.active]
  exact h.setSave hnc ((h.ok s).toDrop hl) (fun he _ => h.ex_self ha he)

theorem SInv.crash {st st' : SaveSt} (h : SInv enc excl d st) {s : Nat} (hs : stepCrash st s = some st') :
    SInv enc excl d st' := by
  unfold stepCrash at hs
  split at hs
  · rename_i ha
    simp only [Option.some.injEq] at hs
    subst hs
    refine h.setSave (fun hc => by rw [hc] at ha; simp [Pc.active] at ha) ?_ (fun _ h' => by simp [Pc.active] at h')
    exact ⟨(h.ok s).art, (h.ok s).uniq, (h.ok s).names, fun h' => by simp [Pc.live] at h', (h.ok s).fin,
      fun _ h' => by simp at h', fun _ h' => by simp at h', fun h' => by simp at h'⟩
  · simp at hs

theorem SInv.start {st st' : SaveSt} (h : SInv enc excl d st) {s k : Nat} (hf : excl = true → st.free k)
    (hs : stepStart st s k = some st') : SInv enc excl d st' := by
  unfold stepStart at hs
  split at hs
  · rename_i hp
    simp only [Option.some.injEq] at hs
    subst hs
    refine h.setSave (by rw [hp]; simp) ?_ (fun he _ s' _ ha => hf he s' ha)
    refine ⟨?_, ?_, ?_, ?_, ?_, ?_, ?_, ?_⟩ <;> simp
  · simp at hs

theorem SInv.abort {st st' : SaveSt} (h : SInv enc excl d st) {s : Nat} (hs : stepAbort st s = some st') :
    SInv enc excl d st' := by
  unfold stepAbort at hs
  split at hs
  · rename_i hp
    simp only [Option.some.injEq] at hs
    subst hs
    exact h.setDrop (by rw [hp]; rfl) (by rw [hp]; simp)
  · rename_i hp
    simp only [Option.some.injEq] at hs
    subst hs
    exact h.setDrop (by rw [hp]; rfl) (by rw [hp]; simp)
  · simp at hs

theorem SInv.write {st st' : SaveSt} (h : SInv enc excl d st) {s : Nat} {a : Art} {c : List Nat}
    (hs : stepWrite st s a c = some st') : SInv enc excl d st' := by
  unfold stepWrite at hs
  split at hs
  · rename_i hc
    obtain ⟨hp, ha, hf⟩ := hc
    simp only [Option.some.injEq] at hs
    subst hs
    obtain ⟨hlt, how⟩ := (h.ok s).art a ha
    refine { h with old := fun i hi => ?_, ok := fun s' => ?_ }
    · have : i ≠ a.ino := by
        rintro rfl
        rw [(h.old _ hi).2] at how
        simp at how
      exact ⟨(fset_ne _ _ this).trans (h.old i hi).1, (h.old i hi).2⟩
    · by_cases hs : s' = s
      · subst hs
        have hx := h.ok s'
        exact { hx with
          fin := fun b hb c' hc' => by
            have : b.ino ≠ a.ino := fun he => by
              rw [hx.uniq b hb a ha he, hf] at hc'
              simp at hc'
            exact (fset_ne _ _ this).trans (hx.fin b hb c' hc')
          tmp := fun m hm => by rw [hp] at hm; simp at hm
          com := fun hc => by rw [hp] at hc; simp at hc }
      · refine (h.ok s').frame (fun _ _ h1 _ => h1) (fun _ _ => rfl) (fun i _ hi => ?_) (Nat.le_refl _) (fun _ _ => rfl)
        apply fset_ne
        rintro rfl
        rw [how] at hi
        rcases hi with hi | hi
        · simp only [Own.art.injEq] at hi; exact hs hi.symm
        · simp at hi
  · simp at hs

theorem SInv.finishArt {st st' : SaveSt} (h : SInv enc excl d st) {s : Nat} {a : Art}
    (hs : stepFinishArt st s a = some st') : SInv enc excl d st' := by
  unfold stepFinishArt at hs
  split at hs
  · rename_i hc
    obtain ⟨hp, ha, hf⟩ := hc
    simp only [Option.some.injEq] at hs
    subst hs
    have hx := h.ok s
    refine h.setSave (by rw [hp]; simp) ?_ (fun he _ => h.ex_self (by rw [hp]; rfl) he)
    have hmem : ∀ b ∈ ((st.sv s).arts.map (fun b => if b = a then { a with fin := some (st.data a.ino) } else b)),
        ∃ b0 ∈ (st.sv s).arts, b.ino = b0.ino ∧ b.name = b0.name ∧
          b = (if b0 = a then { a with fin := some (st.data a.ino) } else b0) := by
      intro b hb
      obtain ⟨b0, h0, rfl⟩ := List.mem_map.1 hb
      refine ⟨b0, h0, ?_, ?_, rfl⟩ <;> (split <;> simp_all)
    have hnames : ((st.sv s).arts.map (fun b => if b = a then { a with fin := some (st.data a.ino) } else b)).map
        Art.name = (st.sv s).arts.map Art.name := by
      rw [List.map_map]
      apply List.map_congr_left
      intro b _
      simp only [Function.comp]
      split <;> simp_all
    exact {
      art := fun b hb => by
        obtain ⟨b0, h0, h1, _, _⟩ := hmem b hb
        rw [h1]; exact hx.art b0 h0
      uniq := fun b hb b' hb' he => by
        obtain ⟨b0, h0, h1, _, h3⟩ := hmem b hb
        obtain ⟨b0', h0', h1', _, h3'⟩ := hmem b' hb'
        rw [h1, h1'] at he
        have := hx.uniq b0 h0 b0' h0' he
        rw [h3, h3', this]
      names := by rw [hnames]; exact hx.names
      live := fun hl b hb => by
        obtain ⟨b0, h0, h1, h2, _⟩ := hmem b hb
        rw [h1, h2]; exact hx.live hl b0 h0
      fin := fun b hb c hc => by
        obtain ⟨b0, h0, h1, _, h3⟩ := hmem b hb
        by_cases he : b0 = a
        · rw [if_pos he] at h3
          rw [h3] at hc ⊢
          simpa using hc
        · rw [if_neg he] at h3
          rw [h3] at hc ⊢
          exact hx.fin b0 h0 c hc
      drop := fun todo ht => by
        have ht' : (st.sv s).pc = .dropping todo := ht
        rw [hp] at ht'; simp at ht'
      tmp := fun m hm => by
        have hm' : (st.sv s).pc = .writing m := hm
        rw [hp] at hm'; simp at hm'
      com := fun hc => by
        have hc' : (st.sv s).pc = .committed := hc
        rw [hp] at hc'; simp at hc' }
  · simp at hs

/-- A new inode is linked at an unused path that is not a manifest, for save `s`, whose record becomes
`x`. -/
theorem SInv.newInode {st : SaveSt} (h : SInv enc excl d st) {s : Nat} {x : Save} {p : Path} {o : Own}
    (hfree : st.dir p = none) (hp : ∀ k, p ≠ .man k) (hnc : (st.sv s).pc ≠ .committed)
    (hkey : x.key = (st.sv s).key) (hact : (st.sv s).pc.active = true)
    (hx : SOk enc excl (fset st.dir p (some st.next)) (fset st.data st.next []) (st.next + 1)
      (fset st.own st.next o) s x)
    (htmp : excl = true → ∀ k, p = .tmp k → k = (st.sv s).key) :
    SInv enc excl d { st.setSave s x with
        dir := fset st.dir p (some st.next)
        data := fset st.data st.next []
        own := fset st.own st.next o
        next := st.next + 1 } where
  nx := Nat.le_succ_of_le h.nx
  dirlt := fun q i hq => by
    simp only [fset] at hq
    show i < st.next + 1
    split at hq
    · simp only [Option.some.injEq] at hq; omega
    · have := h.dirlt q i hq; omega
  old := fun i hi => by
    have : i ≠ st.next := by have := h.nx; omega
    constructor
    · exact (fset_ne _ _ this).trans (h.old i hi).1
    · exact (fset_ne _ _ this).trans (h.old i hi).2
  pre := fun n i hn => by
    have h1 := h.pre n i hn
    have : Path.art n ≠ p := by
      rintro rfl
      rw [hfree] at h1; simp at h1
    exact (fset_ne _ _ this).trans h1
  ok := fun s' => by
    show SOk enc excl (fset st.dir p (some st.next)) (fset st.data st.next []) (st.next + 1)
      (fset st.own st.next o) s' (fset st.sv s x s')
    by_cases hs : s' = s
    · subst hs; rw [fset_same]; exact hx
    · rw [fset_ne _ _ hs]
      refine (h.ok s').frame (fun n i h1 _ => ?_) (fun he ha => ?_) (fun i hi _ => ?_) (Nat.le_succ _)
        (fun i hi => ?_)
      · have : Path.art n ≠ p := by
          rintro rfl
          rw [hfree] at h1; simp at h1
        rw [fset_ne _ _ this]; exact h1
      · apply fset_ne
        intro hpk
        exact hs (h.ex he s' s ha hact (htmp he _ hpk.symm))
      · exact fset_ne _ _ (by omega)
      · exact fset_ne _ _ (by omega)
  ex := fun he a b ha hb hab => by
    have key : ∀ c, (fset st.sv s x c).pc.active = true →
        (st.sv c).pc.active = true ∧ (st.sv c).key = (fset st.sv s x c).key := by
      intro c hc
      by_cases h1 : c = s
      · subst h1; rw [fset_same] at hc ⊢; exact ⟨hact, hkey.symm⟩
      · rw [fset_ne _ _ h1] at hc ⊢; exact ⟨hc, rfl⟩
    obtain ⟨h1, h2⟩ := key a ha
    obtain ⟨h3, h4⟩ := key b hb
    exact h.ex he a b h1 h3 (by rw [h2, h4]; exact hab)
  lastN := fun k hk => by
    exact (fset_ne _ _ (fun e => hp k e.symm)).trans (h.lastN k hk)
  lastS := fun k s' hl => by
    obtain ⟨h1, h2, h3⟩ := h.lastS k s' hl
    have hs : s' ≠ s := by rintro rfl; exact hnc h1
    show (fset st.sv s x s').pc = _ ∧ (fset st.sv s x s').key = _ ∧
      (_ → fset st.dir p (some st.next) (.man k) = some (fset st.sv s x s').tino)
    rw [fset_ne _ _ hs, fset_ne _ _ (fun e => hp k e.symm)]
    exact ⟨h1, h2, h3⟩

theorem SInv.create {st st' : SaveSt} (h : SInv enc excl d st) {s n : Nat}
    (hs : stepCreate st s n = some st') : SInv enc excl d st' := by
  unfold stepCreate at hs
  split at hs
  · rename_i hp
    split at hs
    · simp only [Option.some.injEq] at hs; subst hs; exact h
    · rename_i hfree
      simp only [Option.some.injEq] at hs
      subst hs
      have hx := h.ok s
      have hnew : ∀ a ∈ (st.sv s).arts, a.ino ≠ st.next ∧ a.name ≠ n := by
        intro a ha
        refine ⟨by have := (hx.art a ha).1; omega, ?_⟩
        rintro rfl
        rw [hx.live (by rw [hp]; rfl) a ha] at hfree
        simp at hfree
      refine h.newInode hfree (by simp) (by rw [hp]; simp) rfl (by rw [hp]; rfl) ?_ (fun _ k hk => by simp at hk)
      have hcases : ∀ a ∈ (st.sv s).arts ++ [(⟨n, st.next, none⟩ : Art)],
          a ∈ (st.sv s).arts ∨ a = ⟨n, st.next, none⟩ := by
        intro a ha; simpa using ha
      exact {
        art := fun a ha => by
          rcases hcases a ha with ha | rfl
          · obtain ⟨h1, h2⟩ := hx.art a ha
            exact ⟨by omega, by rw [fset_ne _ _ (hnew a ha).1]; exact h2⟩
          · exact ⟨by simp, by rw [fset_same]⟩
        uniq := fun a ha b hb he => by
          rcases hcases a ha with ha | rfl <;> rcases hcases b hb with hb | rfl
          · exact hx.uniq a ha b hb he
          · exact absurd he (hnew a ha).1
          · exact absurd he.symm (hnew b hb).1
          · rfl
        names := by
          simp only [List.map_append, List.map_cons, List.map_nil]
          rw [List.nodup_append]
          refine ⟨hx.names, by simp, ?_⟩
          intro m hm m' hm'
          simp only [List.mem_singleton] at hm'
          subst hm'
          obtain ⟨a, ha, rfl⟩ := List.mem_map.1 hm
          exact (hnew a ha).2
        live := fun hl a ha => by
          rcases hcases a ha with ha | rfl
          · rw [fset_ne _ _ (by simp only [ne_eq, Path.art.injEq]; exact (hnew a ha).2)]
            exact hx.live hl a ha
          · rw [fset_same]
        fin := fun a ha c hc => by
          rcases hcases a ha with ha | rfl
          · rw [fset_ne _ _ (hnew a ha).1]; exact hx.fin a ha c hc
          · simp at hc
        drop := fun todo ht => by
          have ht' : (st.sv s).pc = .dropping todo := ht
          rw [hp] at ht'; simp at ht'
        tmp := fun m hm => by
          have hm' : (st.sv s).pc = .writing m := hm
          rw [hp] at hm'; simp at hm'
        com := fun hc => by
          have hc' : (st.sv s).pc = .committed := hc
          rw [hp] at hc'; simp at hc' }
  · simp at hs

theorem SInv.begin {st st' : SaveSt} (h : SInv enc excl d st) {s : Nat}
    (hs : stepBegin st s = some st') : SInv enc excl d st' := by
  unfold stepBegin at hs
  split at hs
  · rename_i hp
    split at hs
    · rename_i hall
      split at hs
      · simp only [Option.some.injEq] at hs; subst hs
        exact h.setDrop (by rw [hp]; rfl) (by rw [hp]; simp)
      · rename_i hfree
        simp only [Option.some.injEq] at hs
        subst hs
        have hx := h.ok s
        refine h.newInode hfree (by simp) (by rw [hp]; simp) rfl (by rw [hp]; rfl) ?_
          (fun _ k hk => by simp only [Path.tmp.injEq] at hk; exact hk.symm)
        have hne : ∀ a ∈ (st.sv s).arts, a.ino ≠ st.next := by
          intro a ha
          have := (hx.art a ha).1; omega
        exact {
          art := fun a ha => by
            obtain ⟨h1, h2⟩ := hx.art a ha
            exact ⟨by omega, by rw [fset_ne _ _ (hne a ha)]; exact h2⟩
          uniq := hx.uniq
          names := hx.names
          live := fun _ a ha => by
            rw [fset_ne _ _ (by simp)]
            exact hx.live (by rw [hp]; rfl) a ha
          fin := fun a ha c hc => by
            rw [fset_ne _ _ (hne a ha)]; exact hx.fin a ha c hc
          drop := fun todo ht => by simp at ht
          tmp := fun m hm => by
            simp only [Pc.writing.injEq] at hm
            subst hm
            exact ⟨by simp, by rw [fset_same], by rw [fset_same]; simp,
              fun a ha => List.all_eq_true.1 hall a ha, fun _ => by rw [fset_same]⟩
          com := fun hc => by simp at hc }
    · simp only [Option.some.injEq] at hs; subst hs
      exact h.setDrop (by rw [hp]; rfl) (by rw [hp]; simp)
  · simp at hs

theorem SInv.wtemp {st st' : SaveSt} (h : SInv enc excl d st) {s m : Nat}
    (hs : stepWtemp enc st s m = some st') : SInv enc excl d st' := by
  unfold stepWtemp at hs
  split at hs
  · rename_i j hp
    split at hs
    · simp only [Option.some.injEq] at hs
      subst hs
      have hx := h.ok s
      obtain ⟨t1, t2, t3, t4, t5⟩ := hx.tmp j hp
      have hact : (st.sv s).pc.active = true := by rw [hp]; rfl
      have h1 : SInv enc excl d { st with
          data := fset st.data (st.sv s).tino ((st.manifest enc s).take m)
          sv := fset st.sv s { st.sv s with pc := .writing m } } := by
        refine { nx := h.nx, dirlt := h.dirlt, old := fun i hi => ?_, pre := h.pre, ok := fun s' => ?_,
                 ex := fun he a b ha hb hab => ?_, lastN := h.lastN, lastS := fun k s' hl => ?_ }
        · have : i ≠ (st.sv s).tino := by
            rintro rfl
            rw [(h.old _ hi).2] at t2
            simp at t2
          exact ⟨(fset_ne _ _ this).trans (h.old i hi).1, (h.old i hi).2⟩
        · show SOk enc excl st.dir (fset st.data (st.sv s).tino ((st.manifest enc s).take m)) st.next st.own s'
            (fset st.sv s _ s')
          by_cases hs : s' = s
          · subst hs
            rw [fset_same]
            have hne : ∀ a ∈ (st.sv s').arts, a.ino ≠ (st.sv s').tino := by
              intro a ha he
              have := (hx.art a ha).2
              rw [he, t2] at this
              simp at this
            exact {
              art := hx.art
              uniq := hx.uniq
              names := hx.names
              live := fun _ => hx.live (by rw [hp]; rfl)
              fin := fun a ha c hc => by rw [fset_ne _ _ (hne a ha)]; exact hx.fin a ha c hc
              drop := fun todo ht => by simp at ht
              tmp := fun m' hm' => by
                simp only [Pc.writing.injEq] at hm'
                subst hm'
                exact ⟨t1, t2, by rw [fset_same]; rfl, t4, t5⟩
              com := fun hc => by simp at hc }
          · rw [fset_ne _ _ hs]
            refine (h.ok s').frame (fun _ _ h1 _ => h1) (fun _ _ => rfl) (fun i _ hi => ?_) (Nat.le_refl _)
              (fun _ _ => rfl)
            apply fset_ne
            rintro rfl
            rw [t2] at hi
            rcases hi with hi | hi
            · simp at hi
            · simp only [Own.tmp.injEq] at hi; exact hs hi.symm
        · have key : ∀ c, (fset st.sv s { st.sv s with pc := .writing m } c).pc.active = true →
              (st.sv c).pc.active = true ∧
              (st.sv c).key = (fset st.sv s { st.sv s with pc := .writing m } c).key := by
            intro c hc
            by_cases h1 : c = s
            · subst h1; rw [fset_same]; exact ⟨hact, rfl⟩
            · rw [fset_ne _ _ h1] at hc ⊢; exact ⟨hc, rfl⟩
          obtain ⟨h1, h2⟩ := key a ha
          obtain ⟨h3, h4⟩ := key b hb
          exact h.ex he a b h1 h3 (by rw [h2, h4]; exact hab)
        · obtain ⟨h1, h2, h3⟩ := h.lastS k s' hl
          have hs : s' ≠ s := by rintro rfl; rw [hp] at h1; simp at h1
          show (fset st.sv s _ s').pc = _ ∧ (fset st.sv s _ s').key = _ ∧ (_ → _ = some (fset st.sv s _ s').tino)
          rw [fset_ne _ _ hs]
          exact ⟨h1, h2, h3⟩
      exact h1
    · simp at hs
  · simp at hs

theorem SInv.rename {st st' : SaveSt} (h : SInv enc excl d st) {s : Nat}
    (hs : stepRename enc st s = some st') : SInv enc excl d st' := by
  unfold stepRename at hs
  split at hs
  · rename_i hp
    split at hs
    · simp only [Option.some.injEq] at hs; subst hs
      exact h.setDrop (by rw [hp]; rfl) (by rw [hp]; simp)
    · rename_i i hi
      simp only [Option.some.injEq] at hs
      subst hs
      have hx := h.ok s
      obtain ⟨t1, t2, t3, t4, t5⟩ := hx.tmp _ hp
      have hact : (st.sv s).pc.active = true := by rw [hp]; rfl
      have hart : ∀ n, fset (fset st.dir (.tmp (st.sv s).key) none) (.man (st.sv s).key) (some i) (.art n) =
          st.dir (.art n) := by
        intro n
        rw [fset_ne _ _ (by simp), fset_ne _ _ (by simp)]
      have h1 : SInv enc excl d { st with
          sv := fset st.sv s { st.sv s with pc := .committed }
          dir := fset (fset st.dir (.tmp (st.sv s).key) none) (.man (st.sv s).key) (some i)
          last := fset st.last (st.sv s).key (some s) } := by
        refine { nx := h.nx, dirlt := fun q j hq => ?_, old := h.old,
                 pre := fun n j hn => (hart n).trans (h.pre n j hn), ok := fun s' => ?_,
                 ex := fun he a b ha hb hab => ?_, lastN := fun k hk => ?_, lastS := fun k s' hl => ?_ }
        · simp only [fset] at hq
          split at hq
          · simp only [Option.some.injEq] at hq; subst hq; exact h.dirlt _ _ hi
          · split at hq
            · simp at hq
            · exact h.dirlt q j hq
        · show SOk enc excl (fset (fset st.dir (.tmp (st.sv s).key) none) (.man (st.sv s).key) (some i))
            st.data st.next st.own s' (fset st.sv s _ s')
          by_cases hs : s' = s
          · subst hs
            rw [fset_same]
            exact {
              art := hx.art
              uniq := hx.uniq
              names := hx.names
              live := fun _ a ha => by rw [hart]; exact hx.live (by rw [hp]; rfl) a ha
              fin := hx.fin
              drop := fun todo ht => by simp at ht
              tmp := fun m hm => by simp at hm
              com := fun _ => ⟨t1, t2, by
                rw [t3]
                exact List.take_of_length_le (Nat.le_refl _), t4⟩ }
          · rw [fset_ne _ _ hs]
            refine (h.ok s').frame (fun n j h1 _ => (hart n).trans h1) (fun he ha => ?_) (fun _ _ _ => rfl)
              (Nat.le_refl _) (fun _ _ => rfl)
            rw [fset_ne _ _ (by simp), fset_ne]
            simp only [ne_eq, Path.tmp.injEq]
            exact fun hk => hs (h.ex he s' s ha hact hk)
        · have key : ∀ c, (fset st.sv s { st.sv s with pc := .committed } c).pc.active = true →
              c ≠ s := by
            rintro c hc rfl
            rw [fset_same] at hc; simp [Pc.active] at hc
          have h1 := key a ha
          have h2 := key b hb
          simp only at ha hb hab
          rw [fset_ne _ _ h1] at ha hab
          rw [fset_ne _ _ h2] at hb hab
          exact h.ex he a b ha hb hab
        · simp only [fset] at hk ⊢
          split at hk
          · simp at hk
          · rename_i hne
            rw [if_neg (by simp only [Path.man.injEq]; exact hne), if_neg (by simp)]
            exact h.lastN k hk
        · show (fset st.sv s _ s').pc = _ ∧ (fset st.sv s _ s').key = _ ∧ (_ → _ = some (fset st.sv s _ s').tino)
          by_cases hk : k = (st.sv s).key
          · subst hk
            simp only [fset_same, Option.some.injEq] at hl
            subst hl
            simp only [fset_same, true_and]
            intro he
            have := t5 he
            rw [hi] at this
            exact this
          · simp only at hl
            rw [fset_ne _ _ hk] at hl
            obtain ⟨h1, h2, h3⟩ := h.lastS k s' hl
            have hs : s' ≠ s := by rintro rfl; rw [hp] at h1; simp at h1
            rw [fset_ne _ _ hs]
            refine ⟨h1, h2, fun he => ?_⟩
            exact ((fset_ne _ _ (by simp only [ne_eq, Path.man.injEq]; exact hk)).trans
              (fset_ne _ _ (by simp))).trans (h3 he)
      exact h1
  · simp at hs

/-- A path is unlinked by the `Drop` of save `s`: one of its artifacts, or its temp path. -/
theorem SInv.unlink {st : SaveSt} (h : SInv enc excl d st) {s : Nat} {pc : Pc} {p : Path} {todo : List Nat}
    (hpc : (st.sv s).pc = .dropping todo)
    (hp : (∃ n i, p = .art n ∧ st.dir p = some i ∧ st.own i = .art s) ∨ p = .tmp (st.sv s).key)
    (hpc' : pc.live = false) (hnw : pc ≠ .committed)
    (hdrop : ∀ t, pc = .dropping t → t.Nodup ∧ ∀ n ∈ t, Path.art n ≠ p ∧ n ∈ todo) :
    SInv enc excl d { st.setPc s pc with dir := fset st.dir p none } := by
  have hman : ∀ k, Path.man k ≠ p := by
    rcases hp with ⟨n, i, rfl, _, _⟩ | rfl <;> simp
  have hact : (st.sv s).pc.active = true := by rw [hpc]; rfl
  have hx := h.ok s
  have hart : ∀ s' n j, s' ≠ s ∨ (∃ t, Path.art t ≠ p ∧ n = t) → st.dir (.art n) = some j → st.own j = .art s' →
      fset st.dir p none (.art n) = some j := by
    intro s' n j hs' h1 h2
    rw [fset_ne]
    · exact h1
    · intro he
      rcases hp with ⟨n', i, hp1, hp2, hp3⟩ | hp1
      · rw [← he, h1] at hp2
        simp only [Option.some.injEq] at hp2
        subst hp2
        rcases hs' with hs' | ⟨t, ht, rfl⟩
        · rw [h2] at hp3; simp only [Own.art.injEq] at hp3; exact hs' hp3
        · exact ht he
      · rw [hp1] at he; simp at he
  have h1 : SInv enc excl d { st with sv := fset st.sv s { st.sv s with pc := pc }, dir := fset st.dir p none } := by
    refine { nx := h.nx, dirlt := fun q j hq => ?_, old := h.old, pre := fun n j hn => ?_, ok := fun s' => ?_,
             ex := fun he a b ha hb hab => ?_, lastN := fun k hk => ?_, lastS := fun k s' hl => ?_ }
    · simp only [fset] at hq
      split at hq
      · simp at hq
      · exact h.dirlt q j hq
    · have hn' := h.pre n j hn
      have hlt := d.bound _ _ hn
      show fset st.dir p none (.art n) = some j
      rw [fset_ne]
      · exact hn'
      · intro he
        rcases hp with ⟨n', i, hp1, hp2, hp3⟩ | hp1
        · rw [← he, hn'] at hp2
          simp only [Option.some.injEq] at hp2
          subst hp2
          rw [(h.old _ hlt).2] at hp3
          simp at hp3
        · rw [hp1] at he; simp at he
    · show SOk enc excl (fset st.dir p none) st.data st.next st.own s' (fset st.sv s _ s')
      by_cases hs : s' = s
      · subst hs
        rw [fset_same]
        exact {
          art := hx.art
          uniq := hx.uniq
          names := hx.names
          live := fun hl => by rw [hpc'] at hl; simp at hl
          fin := hx.fin
          drop := fun t ht => by
            obtain ⟨d1, d2⟩ := hdrop t ht
            refine ⟨d1, fun n hn => ?_⟩
            obtain ⟨e1, e2⟩ := d2 n hn
            obtain ⟨a, ha, hna, hda⟩ := (hx.drop todo hpc).2 n e2
            refine ⟨a, ha, hna, ?_⟩
            rw [fset_ne _ _ e1]; exact hda
          tmp := fun m hm => by
            have hm' : pc = .writing m := hm
            rw [hm'] at hpc'; simp [Pc.live] at hpc'
          com := fun hc => absurd hc hnw }
      · rw [fset_ne _ _ hs]
        refine (h.ok s').frame (fun n j h1 h2 => hart s' n j (Or.inl hs) h1 h2) (fun he ha => ?_)
          (fun _ _ _ => rfl) (Nat.le_refl _) (fun _ _ => rfl)
        apply fset_ne
        intro hk
        rcases hp with ⟨n', i, hp1, _, _⟩ | hp1
        · rw [hp1] at hk; simp at hk
        · rw [hp1] at hk
          simp only [Path.tmp.injEq] at hk
          exact hs (h.ex he s' s ha hact hk)
    · have key : ∀ c, (fset st.sv s { st.sv s with pc := pc } c).pc.active = true →
          (st.sv c).pc.active = true ∧
          (st.sv c).key = (fset st.sv s { st.sv s with pc := pc } c).key := by
        intro c hc
        by_cases h1 : c = s
        · subst h1; rw [fset_same]; exact ⟨hact, rfl⟩
        · rw [fset_ne _ _ h1] at hc ⊢; exact ⟨hc, rfl⟩
      obtain ⟨h1, h2⟩ := key a ha
      obtain ⟨h3, h4⟩ := key b hb
      exact h.ex he a b h1 h3 (by rw [h2, h4]; exact hab)
    · show fset st.dir p none (.man k) = _
      rw [fset_ne _ _ (hman k)]
      exact h.lastN k hk
    · obtain ⟨h1, h2, h3⟩ := h.lastS k s' hl
      have hs : s' ≠ s := by rintro rfl; rw [hpc] at h1; simp at h1
      show (fset st.sv s _ s').pc = _ ∧ (fset st.sv s _ s').key = _ ∧
        (_ → fset st.dir p none (.man k) = some (fset st.sv s _ s').tino)
      rw [fset_ne _ _ hs, fset_ne _ _ (hman k)]
      exact ⟨h1, h2, h3⟩
  exact h1

theorem SInv.dropStep {st st' : SaveSt} (h : SInv enc excl d st) {s : Nat}
    (hs : stepDrop st s = some st') : SInv enc excl d st' := by
  unfold stepDrop at hs
  split at hs
  · rename_i n rest hp
    simp only [Option.some.injEq] at hs
    subst hs
    obtain ⟨h1, h2⟩ := (h.ok s).drop _ hp
    obtain ⟨a, ha, hna, hda⟩ := h2 n (by simp)
    obtain ⟨hn1, hn2⟩ := List.nodup_cons.1 h1
    refine h.unlink hp (Or.inl ⟨n, a.ino, rfl, hda, ((h.ok s).art a ha).2⟩) rfl (by simp) (fun t ht => ?_)
    simp only [Pc.dropping.injEq] at ht
    subst ht
    refine ⟨hn2, fun m hm => ⟨?_, by simp [hm]⟩⟩
    simp only [ne_eq, Path.art.injEq]
    rintro rfl
    exact hn1 hm
  · rename_i hp
    simp only [Option.some.injEq] at hs
    subst hs
    exact h.unlink hp (Or.inr rfl) rfl (by simp) (fun t ht => by simp at ht)
  · simp at hs

theorem SInv.step {st st' : SaveSt} (h : SInv enc excl d st) {a : Act}
    (hf : ∀ s k, excl = true → a = .start s k → st.free k) (hs : st.step enc a = some st') :
    SInv enc excl d st' := by
  cases a with
  | start s k => exact h.start (fun he => hf s k he rfl) hs
  | create s n => exact h.create hs
  | write s a c => exact h.write hs
  | finishArt s a => exact h.finishArt hs
  | begin s => exact h.begin hs
  | wtemp s m => exact h.wtemp hs
  | rename s => exact h.rename hs
  | abort s => exact h.abort hs
  | drop s => exact h.dropStep hs
  | crash s => exact h.crash hs

theorem sreach_inv {st : SaveSt} (h : SReach enc excl d st) : SInv enc excl d st := by
  induction h with
  | init => exact SInv.init
  | step a _ hf hs ih => exact ih.step hf hs

end Verif.Record
