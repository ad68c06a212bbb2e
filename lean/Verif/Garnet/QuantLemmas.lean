import Verif.Garnet.QuantSpec
import Mathlib.Data.List.Nodup
import Mathlib.Data.List.Perm.Subperm
import Mathlib.Tactic.Ring
/-
Helper lemmas for the quantization of a Garnet vector set.
-/
namespace Verif.Garnet.Quant

variable {V C : Type}

/-- Has a task counted itself? -/
def counted : Pc C → Bool
  | .read .. => false
  | .write .. => false
  | _ => true

/-- The share of a task. -/
def work (l n : Nat) : Nat := (l + 1 + n - 1) / n
def stopOf (l n idx : Nat) : Nat := min (work l n * (idx + 1)) (l + 1)

/-- The code of an id is right, if it has a vector. -/
def Right (k : V → C) (s : State V C) (i : Nat) : Prop := ∀ v, s.vec i = some v → s.code i = some (k v)

/-- What is known of a task while the limit is `l`. -/
structure TaskOk (k : V → C) (s : State V C) (l : Nat) (t : Task C) : Prop where
  pos : 1 ≤ t.n
  le : t.n ≤ l + 1
  lt : t.idx < t.n
  read : ∀ i stop, t.pc = .read i stop →
    stop = stopOf l t.n t.idx ∧ ∀ j, work l t.n * t.idx ≤ j → j < i → Right k s j
  write : ∀ i stop c, t.pc = .write i stop c →
    stop = stopOf l t.n t.idx ∧ i < stop ∧ (∀ j, work l t.n * t.idx ≤ j → j < i → Right k s j) ∧
    ∀ v, s.vec i = some v → c = k v
  passed : counted t.pc = true → ∀ j, work l t.n * t.idx ≤ j → j < stopOf l t.n t.idx → Right k s j
  last : (t.pc = .point ∨ t.pc = .reuse ∨ t.pc = .rmw) → s.completed = t.n
  coded : (t.pc = .reuse ∨ t.pc = .rmw) → ∀ v, s.vec 0 = some v → s.startCode = some (k v)
  rmw : t.pc = .rmw → s.reuse = true

/-- The invariant of clean runs. -/
structure Inv (k : V → C) (sp : V) (s : State V C) : Prop where
  start : s.vec 0 = some sp
  cache : s.startVec = some sp
  below : ∀ i, (s.vec i).isSome → i < s.next
  reuse : s.reuse = true → s.quant = true ∧ ∀ i, Right k s i
  full : s.reuse = true → ∀ t ∈ s.tasks, s.completed = t.n
  ne : ∀ l, s.limit = some l → s.reuse = true → s.tasks ≠ []
  all : s.all = true → s.reuse = true ∧ s.disk = some true ∧ s.startCode = some (k sp)
  disk : s.disk = some true → s.reuse = true
  noLimit : s.limit = none → s.tasks = [] ∧ s.completed = 0
  untrained : s.trained = false → s.limit = none ∧ s.disk = none ∧ s.reuse = false
  new : ∀ l, s.limit = some l → s.quant = true ∧ s.disk.isSome ∧ s.trained = true ∧ l < s.next ∧ ∀ i, l < i → Right k s i
  tasks : ∀ l, s.limit = some l → ∀ t ∈ s.tasks, TaskOk k s l t
  same : ∀ t ∈ s.tasks, ∀ u ∈ s.tasks, t.n = u.n
  nodup : (s.tasks.map Task.idx).Nodup
  count : s.completed = s.tasks.countP fun t => counted t.pc
  finish : (∃ t ∈ s.tasks, s.completed = t.n) →
    s.all = true ∨ ∃ t ∈ s.tasks, t.pc = .point ∨ t.pc = .reuse ∨ t.pc = .rmw

theorem inv_init (k : V → C) (sp : V) : Inv k sp (init sp : State V C) := by
  constructor <;> simp [init]

/-- Pigeonhole: distinct numbers below `n`. -/
theorem length_le_of_nodup {l : List Nat} {n : Nat} (h : l.Nodup) (hb : ∀ i ∈ l, i < n) : l.length ≤ n := by
  have := (List.subperm_of_subset h (fun i hi => List.mem_range.2 (hb i hi))).length_le
  simpa using this

theorem mem_of_full {l : List Nat} {n : Nat} (h : l.Nodup) (hb : ∀ i ∈ l, i < n) (hn : n ≤ l.length) {i : Nat}
    (hi : i < n) : i ∈ l := by
  have hs := List.subperm_of_subset h (fun i hi => List.mem_range.2 (hb i hi))
  have hp := hs.perm_of_length_le (by simpa using hn)
  exact hp.mem_iff.2 (List.mem_range.2 hi)

theorem tasks_le {k : V → C} {sp : V} {s : State V C} (h : Inv k sp s) {t : Task C} (ht : t ∈ s.tasks) :
    s.tasks.length ≤ t.n := by
  cases hl : s.limit with
  | none => rw [(h.noLimit hl).1] at ht; simp at ht
  | some l =>
    have := length_le_of_nodup h.nodup (n := t.n) (by
      intro i hi
      obtain ⟨u, hu, rfl⟩ := List.mem_map.1 hi
      rw [h.same t ht u hu]
      exact (h.tasks l hl u hu).lt)
    simpa using this

/-- If as many tasks have counted themselves as there are, all have. -/
theorem all_counted {k : V → C} {sp : V} {s : State V C} (h : Inv k sp s) {t : Task C} (ht : t ∈ s.tasks)
    (hc : s.completed = t.n) : ∀ u ∈ s.tasks, counted u.pc = true := by
  have h1 := tasks_le h ht
  have h2 := h.count
  have h3 : (s.tasks.countP fun t => counted t.pc) = s.tasks.length := by
    have := List.countP_le_length (p := fun t : Task C => counted t.pc) (l := s.tasks)
    omega
  rw [List.countP_eq_length] at h3
  exact h3

/-- Every id up to the limit is in the share of some task. -/
theorem share {l n i : Nat} (hn : 1 ≤ n) (hi : i < l + 1) :
    i / work l n < n ∧ work l n * (i / work l n) ≤ i ∧ i < stopOf l n (i / work l n) := by
  have hw : l + 1 ≤ n * work l n := by
    unfold work
    have h1 := Nat.div_add_mod (l + 1 + n - 1) n
    have h2 := Nat.mod_lt (l + 1 + n - 1) (show 0 < n by omega)
    omega
  have hpos : 0 < work l n := by
    rcases Nat.eq_zero_or_pos (work l n) with h0 | h0
    · rw [h0] at hw; omega
    · exact h0
  refine ⟨?_, Nat.mul_div_le i _, ?_⟩
  · rw [Nat.div_lt_iff_lt_mul hpos]; omega
  · unfold stopOf
    have := Nat.lt_mul_div_succ i hpos
    simp only [Nat.lt_min]
    exact ⟨this, hi⟩

/-- Once all tasks have counted themselves, all codes are right. -/
theorem right_of_full {k : V → C} {sp : V} {s : State V C} (h : Inv k sp s) {l : Nat} (hl : s.limit = some l)
    {t : Task C} (ht : t ∈ s.tasks) (hc : s.completed = t.n) (i : Nat) : Right k s i := by
  by_cases hi : l < i
  · exact (h.new l hl).2.2.2.2 i hi
  · have hall := all_counted h ht hc
    have hlen : t.n ≤ (s.tasks.map Task.idx).length := by
      have h1 := h.count
      have h2 := List.countP_le_length (p := fun t : Task C => counted t.pc) (l := s.tasks)
      simp only [List.length_map]
      omega
    obtain ⟨s1, s2, s3⟩ := share (l := l) (n := t.n) (i := i) (h.tasks l hl t ht).pos (by omega)
    have hm := mem_of_full h.nodup (n := t.n) (by
      intro j hj
      obtain ⟨u, hu, rfl⟩ := List.mem_map.1 hj
      rw [h.same t ht u hu]
      exact (h.tasks l hl u hu).lt) hlen s1
    obtain ⟨u, hu, hidx⟩ := List.mem_map.1 hm
    have hu2 := (h.tasks l hl u hu).passed (hall u hu)
    rw [h.same u hu t ht, hidx] at hu2
    exact hu2 i s2 s3

/-- A change of vectors and codes that keeps codes right keeps tasks as they are. -/
theorem taskOk_mono {k : V → C} {s s' : State V C} {l : Nat} {t : Task C} (h : TaskOk k s l t)
    (hr : ∀ i, Right k s i → Right k s' i)
    (hv : ∀ i v, i ≤ l → counted t.pc = false → s'.vec i = some v → s.vec i = some v)
    (h0 : s'.vec 0 = s.vec 0) (hc : s'.completed = s.completed) (hs : s'.startCode = s.startCode)
    (hre : s.reuse = true → s'.reuse = true) : TaskOk k s' l t := by
  refine ⟨h.pos, h.le, h.lt, ?_, ?_, ?_, ?_, ?_, ?_⟩
  · intro i stop hp
    obtain ⟨a, b⟩ := h.read i stop hp
    exact ⟨a, fun j h1 h2 => hr j (b j h1 h2)⟩
  · intro i stop c hp
    obtain ⟨a, b, c', d⟩ := h.write i stop c hp
    refine ⟨a, b, fun j h1 h2 => hr j (c' j h1 h2), fun v hvi => d v (hv i v ?_ (by rw [hp]; rfl) hvi)⟩
    rw [a] at b
    unfold stopOf at b
    omega
  · intro hcnt j h1 h2
    exact hr j (h.passed hcnt j h1 h2)
  · intro hp; rw [hc]; exact h.last hp
  · intro hp v hv0
    rw [hs]
    rw [h0] at hv0
    exact h.coded hp v hv0
  · intro hp; exact hre (h.rmw hp)

theorem upd_same {A : Type} (f : Nat → A) (i : Nat) (x : A) : upd f i x i = x := by simp [upd]
theorem upd_other {A : Type} (f : Nat → A) {i j : Nat} (x : A) (h : j ≠ i) : upd f i x j = f j := by simp [upd, h]

theorem inv_insert {k : V → C} {sp : V} {s : State V C} (h : Inv k sp s) {i : Nat} {v : V}
    (ha : Allowed s (.insert i v)) : Inv k sp (insert k s i v) := by
  obtain ⟨hi0, hi⟩ := ha
  have hr : s.quant = true → ∀ j, Right k s j → Right k (insert k s i v) j := by
    intro hq j hj w hw
    by_cases hji : j = i
    · subst hji
      simp only [insert, upd_same, Option.some.injEq] at hw
      subst hw
      simp [insert, hq, upd_same]
    · simp only [insert, upd_other _ _ hji] at hw
      simpa [insert, hq, upd_other _ _ hji] using hj w hw
  have hri : s.quant = true → Right k (insert k s i v) i := by
    intro hq w hw
    simp only [insert, upd_same, Option.some.injEq] at hw
    subst hw
    simp [insert, hq, upd_same]
  have h0 : (insert k s i v).vec 0 = s.vec 0 := upd_other _ _ (Ne.symm hi0)
  refine ⟨by rw [h0]; exact h.start, h.cache, ?_, ?_, h.full, h.ne, h.all, h.disk, h.noLimit, h.untrained, ?_, ?_, h.same,
    h.nodup, h.count, h.finish⟩
  · intro j hj
    show j < max s.next (i + 1)
    by_cases hji : j = i
    · omega
    · simp only [insert, upd_other _ _ hji] at hj
      have := h.below j hj
      omega
  · intro hre
    obtain ⟨a, b⟩ := h.reuse hre
    exact ⟨a, fun j => hr a j (b j)⟩
  · intro l hl
    obtain ⟨a, b, c, d, e⟩ := h.new l hl
    exact ⟨a, b, c, by show l < max s.next (i + 1); omega, fun j hj => hr a j (e j hj)⟩
  · intro l hl t ht
    obtain ⟨a, b, c, d, e⟩ := h.new l hl
    refine taskOk_mono (h.tasks l hl t ht) (hr a) ?_ h0 rfl rfl id
    intro j w hjl hunc hw
    by_cases hji : j = i
    · exfalso
      subst hji
      rcases hi with hi | ⟨hre, _, _⟩
      · omega
      · have := all_counted h ht (h.full hre t ht) t ht
        rw [hunc] at this
        cases this
    · simpa only [insert, upd_other _ _ hji] using hw

theorem inv_delete {k : V → C} {sp : V} {s : State V C} (h : Inv k sp s) {i : Nat} (ha : i ≠ 0) :
    Inv k sp (delete s i) := by
  have hsub : ∀ j w, (delete s i).vec j = some w → s.vec j = some w ∧ j ≠ i := by
    intro j w hw
    by_cases hji : j = i
    · subst hji; simp [delete, upd_same] at hw
    · exact ⟨by simpa only [delete, upd_other _ _ hji] using hw, hji⟩
  have hr : ∀ j, Right k s j → Right k (delete s i) j := by
    intro j hj w hw
    obtain ⟨h1, h2⟩ := hsub j w hw
    simpa only [delete, upd_other _ _ h2] using hj w h1
  have h0 : (delete s i).vec 0 = s.vec 0 := upd_other _ _ (Ne.symm ha)
  refine ⟨by rw [h0]; exact h.start, h.cache, ?_, ?_, h.full, h.ne, h.all, h.disk, h.noLimit, h.untrained, ?_, ?_, h.same,
    h.nodup, h.count, h.finish⟩
  · intro j hj
    obtain ⟨w, hw⟩ := Option.isSome_iff_exists.1 hj
    exact h.below j (by rw [(hsub j w hw).1]; rfl)
  · intro hre
    obtain ⟨a, b⟩ := h.reuse hre
    exact ⟨a, fun j => hr j (b j)⟩
  · intro l hl
    obtain ⟨a, b, c, d, e⟩ := h.new l hl
    exact ⟨a, b, c, d, fun j hj => hr j (e j hj)⟩
  · intro l hl t ht
    exact taskOk_mono (h.tasks l hl t ht) hr (fun j w _ _ hw => (hsub j w hw).1) h0 rfl rfl id

theorem inv_train {k : V → C} {sp : V} {s : State V C} (h : Inv k sp s) (data wrote : Bool) :
    Inv k sp (train s data wrote).1 := by
  unfold train
  by_cases ht : s.trained = true
  · rw [if_pos ht]; exact h
  · rw [if_neg ht]
    have hu := h.untrained (by simpa using ht)
    obtain ⟨n1, n2⟩ := h.noLimit hu.1
    cases data with
    | false => exact h
    | true =>
      cases wrote with
      | false =>
        simp only [Bool.not_true, Bool.not_false, if_true, Bool.false_eq_true, if_false]
        refine ⟨h.start, h.cache, h.below, h.reuse, h.full, h.ne, h.all, h.disk, h.noLimit, ?_, ?_, ?_, h.same, h.nodup,
          h.count, h.finish⟩
        · intro hc; cases hc
        · intro l hl; rw [show s.limit = some l from hl] at hu; cases hu.1
        · intro l hl; rw [show s.limit = some l from hl] at hu; cases hu.1
      | true =>
        simp only [Bool.not_true, Bool.false_eq_true, if_false]
        have hnr : s.reuse = false := by
          cases hre : s.reuse with
          | false => rfl
          | true => rw [hu.2.2] at hre; cases hre
        have hnext := h.below 0 (by rw [h.start]; rfl)
        refine ⟨h.start, h.cache, h.below, fun hre => ⟨rfl, (h.reuse hre).2⟩, h.full, ?_, ?_, ?_, ?_, ?_, ?_, ?_, h.same,
          h.nodup, h.count, h.finish⟩
        · intro l _ hre
          rw [show s.reuse = true from hre] at hnr; cases hnr
        · intro hall
          have := (h.all hall).1
          rw [hnr] at this; cases this
        · intro hd; cases hd
        · intro hd; cases hd
        · intro hd; cases hd
        · intro l hl
          have hl' : l = s.next - 1 := by
            have : some (s.next - 1) = some l := hl
            cases this; rfl
          refine ⟨rfl, rfl, rfl, by show l < s.next; omega, ?_⟩
          intro i hi w hw
          have := h.below i (by rw [show s.vec i = some w from hw]; rfl)
          omega
        · intro l hl t ht'
          have : t ∈ s.tasks := ht'
          rw [n1] at this
          simp at this

theorem inv_start {k : V → C} {sp : V} {s : State V C} (h : Inv k sp s) {idx count : Nat} {t : Task C}
    (hc : Clean s (.start idx count)) (ht : startTask s idx count = some t) :
    Inv k sp { s with tasks := s.tasks ++ [t] } := by
  unfold startTask at ht
  obtain ⟨l, hl⟩ : ∃ l, s.limit = some l := by
    cases hl : s.limit with
    | none => rw [hl] at ht; cases ht
    | some l => exact ⟨l, rfl⟩
  · rw [hl] at ht
    dsimp only at ht
    by_cases hge : idx ≥ min count (l + 1)
    · rw [if_pos hge] at ht; cases ht
    · rw [if_neg hge] at ht
      obtain ⟨c1, c2⟩ := hc
      have ht' := (Option.some.inj ht).symm
      have hidx : t.idx = idx := by rw [ht']
      have hn : t.n = min count (l + 1) := by rw [ht']
      have hpc : t.pc = .read (work l t.n * t.idx) (stopOf l t.n t.idx) := by rw [ht']; rfl
      have hcnt : counted t.pc = false := by rw [hpc]; rfl
      have hmem : ∀ u ∈ s.tasks ++ [t], u ∈ s.tasks ∨ u = t := by
        intro u hu
        rcases List.mem_append.1 hu with hu | hu
        · exact .inl hu
        · exact .inr (List.mem_singleton.1 hu)
      have hnd : ((s.tasks ++ [t]).map Task.idx).Nodup := by
        rw [List.map_append, List.nodup_append]
        refine ⟨h.nodup, by simp, ?_⟩
        intro a ha b hb hab
        obtain ⟨u, hu, rfl⟩ := List.mem_map.1 ha
        simp only [List.map_cons, List.map_nil, List.mem_singleton] at hb
        exact c1 u hu (by rw [hab, hb, hidx])
      have hsame : ∀ u ∈ s.tasks, u.n = t.n := fun u hu => by rw [hn]; exact c2 l hl u hu
      have hnew : TaskOk k s l t := by
        refine ⟨by omega, by omega, by omega, ?_, ?_, ?_, ?_, ?_, ?_⟩
        · intro i stop hp
          rw [hpc] at hp
          cases hp
          exact ⟨rfl, fun j h1 h2 => by omega⟩
        · intro i stop c hp; rw [hpc] at hp; cases hp
        · intro hcc; rw [hcnt] at hcc; cases hcc
        · intro hp; rw [hpc] at hp; rcases hp with hp | hp | hp <;> cases hp
        · intro hp; rw [hpc] at hp; rcases hp with hp | hp <;> cases hp
        · intro hp; rw [hpc] at hp; cases hp
      -- with the new task there are at most `n` tasks, so not all have counted themselves
      have hlt : s.completed < t.n := by
        have h1 : ((s.tasks ++ [t]).map Task.idx).length ≤ t.n := by
          refine length_le_of_nodup hnd ?_
          intro i hi
          obtain ⟨u, hu, rfl⟩ := List.mem_map.1 hi
          rcases hmem u hu with hu | rfl
          · rw [← hsame u hu]; exact (h.tasks l hl u hu).lt
          · exact hnew.lt
        have h2 := h.count
        have h3 := List.countP_le_length (p := fun t : Task C => counted t.pc) (l := s.tasks)
        simp only [List.length_map, List.length_append, List.length_singleton] at h1
        omega
      have hnr : s.reuse = false := by
        cases hre : s.reuse with
        | false => rfl
        | true =>
          exfalso
          cases hts : s.tasks with
          | nil => exact h.ne l hl hre hts
          | cons u us =>
            have := h.full hre u (by rw [hts]; simp)
            rw [hsame u (by rw [hts]; simp)] at this
            omega
      have hno : ¬ s.all = true := by
        intro ha
        have := (h.all ha).1
        rw [hnr] at this; cases this
      refine ⟨h.start, h.cache, h.below, h.reuse, ?_, ?_, h.all, h.disk, ?_, h.untrained, h.new, ?_, ?_, hnd, ?_, ?_⟩
      · intro hre; rw [show s.reuse = true from hre] at hnr; cases hnr
      · intro _ _ hre; rw [show s.reuse = true from hre] at hnr; cases hnr
      · intro hln; rw [show s.limit = none from hln] at hl; cases hl
      · intro l' hl' u hu
        have : l' = l := by
          have e : s.limit = some l' := hl'
          rw [hl] at e; cases e; rfl
        subst this
        have hok : TaskOk k s l' u := by
          rcases hmem u hu with hu | rfl
          · exact h.tasks l' hl u hu
          · exact hnew
        exact taskOk_mono hok (fun _ hr => hr) (fun _ _ _ _ hw => hw) rfl rfl rfl id
      · intro u hu w hw
        rcases hmem u hu with hu' | hu'
        · rcases hmem w hw with hw' | hw'
          · exact h.same u hu' w hw'
          · rw [hw']; exact hsame u hu'
        · rw [hu']
          rcases hmem w hw with hw' | hw'
          · exact (hsame w hw').symm
          · rw [hw']
      · show s.completed = List.countP _ (s.tasks ++ [t])
        rw [List.countP_append, ← h.count]
        simp [hcnt]
      · rintro ⟨u, hu, hcu⟩
        exfalso
        have hcu' : s.completed = u.n := hcu
        rcases hmem u hu with hu | rfl
        · rw [hsame u hu] at hcu'; omega
        · omega

/-- A step of one task. -/
theorem inv_set {k : V → C} {sp : V} {s s' : State V C} (h : Inv k sp s) {t : Nat} {th : Task C} {pc : Pc C}
    (hth : s.tasks[t]? = some th)
    (hvec : s'.vec = s.vec) (hnext : s'.next = s.next) (hquant : s'.quant = s.quant) (hlimit : s'.limit = s.limit)
    (htr : s'.trained = s.trained) (hsv : s'.startVec = s.startVec)
    (htasks : s'.tasks = s.tasks.set t { th with pc := pc })
    (hdisk : s.disk.isSome → s'.disk.isSome)
    (hright : ∀ i, Right k s i → Right k s' i)
    (hre1 : s'.reuse = true → s.reuse = true ∨ s.completed = th.n) (hre2 : s.reuse = true → s'.reuse = true)
    (hc1 : counted th.pc = true → counted pc = true)
    (hc2 : s'.completed = s.completed + if counted th.pc = false ∧ counted pc = true then 1 else 0)
    (hall : s'.all = true → s'.reuse = true ∧ s'.disk = some true ∧ s'.startCode = some (k sp))
    (hd : s'.disk = some true → s'.reuse = true)
    (hnew : ∀ l, s.limit = some l → TaskOk k s' l { th with pc := pc })
    (hst : s'.startCode = s.startCode ∨ s'.startCode = some (k sp))
    (hfin : (s'.completed = th.n → s'.all = true ∨ pc = .point ∨ pc = .reuse ∨ pc = .rmw ∨
      ((∃ u ∈ s.tasks, s.completed = u.n) ∧ (s.all = true → s'.all = true) ∧
        ¬ (th.pc = .point ∨ th.pc = .reuse ∨ th.pc = .rmw)))) :
    Inv k sp s' := by
  obtain ⟨htl, hget⟩ := List.getElem?_eq_some_iff.1 hth
  have hm : th ∈ s.tasks := List.mem_of_getElem? hth
  have hmem : ∀ u ∈ s'.tasks, u ∈ s.tasks ∨ u = { th with pc := pc } := by
    intro u hu
    rw [htasks] at hu
    rcases List.mem_or_eq_of_mem_set hu with hu | hu
    · exact .inl hu
    · exact .inr hu
  have hnewm : ({ th with pc := pc } : Task C) ∈ s'.tasks := by
    rw [htasks]; exact List.mem_set htl _
  have hidx : s'.tasks.map Task.idx = s.tasks.map Task.idx := by
    rw [htasks, List.map_set]
    have hlt : t < (s.tasks.map Task.idx).length := by simpa using htl
    have : th.idx = (s.tasks.map Task.idx)[t] := by simp [hget]
    show (s.tasks.map Task.idx).set t th.idx = _
    rw [this, List.set_getElem_self]
  have hn : ∀ u ∈ s'.tasks, u.n = th.n := by
    intro u hu
    rcases hmem u hu with hu | rfl
    · exact h.same u hu th hm
    · rfl
  have hsteady : s.completed = th.n → s'.completed = s.completed := by
    intro hc
    have := all_counted h hm hc th hm
    rw [hc2, if_neg (by rw [this]; simp)]
    rfl
  have hR : s'.reuse = true → (∀ i, Right k s' i) ∧ s.completed = th.n ∧ s'.quant = true := by
    intro hr
    obtain ⟨l, hl⟩ : ∃ l, s.limit = some l := by
      cases hl : s.limit with
      | none => rw [(h.noLimit hl).1] at hm; simp at hm
      | some l => exact ⟨l, rfl⟩
    have hc : s.completed = th.n := by
      rcases hre1 hr with h' | h'
      · exact h.full h' th hm
      · exact h'
    exact ⟨fun i => hright i (right_of_full h hl hm hc i), hc, by rw [hquant]; exact (h.new l hl).1⟩
  refine ⟨by rw [hvec]; exact h.start, by rw [hsv]; exact h.cache, by rw [hvec, hnext]; exact h.below,
    fun hr => ⟨(hR hr).2.2, (hR hr).1⟩, ?_, ?_, hall, hd, ?_, ?_, ?_, ?_, ?_, by rw [hidx]; exact h.nodup, ?_, ?_⟩
  · intro hr u hu
    rw [hn u hu, hsteady (hR hr).2.1]
    exact (hR hr).2.1
  · intro l _ _ he
    rw [he] at hnewm
    simp at hnewm
  · intro hl
    rw [hlimit] at hl
    rw [(h.noLimit hl).1] at hm
    simp at hm
  · intro ht
    rw [htr] at ht
    rw [(h.noLimit (h.untrained ht).1).1] at hm
    simp at hm
  · intro l hl
    rw [hlimit] at hl
    obtain ⟨a, b, c, d, e⟩ := h.new l hl
    exact ⟨by rw [hquant]; exact a, hdisk b, by rw [htr]; exact c, by rw [hnext]; exact d, fun i hi => hright i (e i hi)⟩
  · intro l hl u hu
    rw [hlimit] at hl
    rcases hmem u hu with hu' | hu'
    · have hok := h.tasks l hl u hu'
      refine ⟨hok.pos, hok.le, hok.lt, ?_, ?_, ?_, ?_, ?_, ?_⟩
      · intro i stop hp
        obtain ⟨a, b⟩ := hok.read i stop hp
        exact ⟨a, fun j h1 h2 => hright j (b j h1 h2)⟩
      · intro i stop c hp
        obtain ⟨a, b, c', d⟩ := hok.write i stop c hp
        exact ⟨a, b, fun j h1 h2 => hright j (c' j h1 h2), by rw [hvec]; exact d⟩
      · intro hcc j h1 h2
        exact hright j (hok.passed hcc j h1 h2)
      · intro hp
        have h1 := hok.last hp
        rw [hsteady (by rw [h1]; exact h.same u hu' th hm)]
        exact h1
      · intro hp v hv
        rw [hvec] at hv
        rcases hst with e | e
        · rw [e]; exact hok.coded hp v hv
        · rw [h.start] at hv; cases hv; exact e
      · intro hp; exact hre2 (hok.rmw hp)
    · rw [hu']; exact hnew l hl
  · intro u hu w hw
    rw [hn u hu, hn w hw]
  · rw [htasks, hc2, h.count, List.countP_set htl, hget]
    have hpos : counted th.pc = true → 0 < s.tasks.countP fun t => counted t.pc := fun hcc =>
      List.countP_pos_iff.2 ⟨th, hm, hcc⟩
    cases h1 : counted th.pc with
    | true => have := hpos h1; have := hc1 h1; simp [this]; omega
    | false => cases h2 : counted pc <;> simp
  · rintro ⟨u, hu, hcu⟩
    rw [hn u hu] at hcu
    rcases hfin hcu with h1 | h1 | h1 | h1 | ⟨h1, h2, h3⟩
    · exact .inl h1
    · exact .inr ⟨_, hnewm, .inl h1⟩
    · exact .inr ⟨_, hnewm, .inr (.inl h1)⟩
    · exact .inr ⟨_, hnewm, .inr (.inr h1)⟩
    · rcases h.finish h1 with h4 | ⟨w, hw, h4⟩
      · exact .inl (h2 h4)
      · refine .inr ⟨w, ?_, h4⟩
        obtain ⟨j, hj⟩ := List.getElem?_of_mem hw
        rw [htasks]
        refine List.mem_of_getElem? (i := j) ?_
        rw [List.getElem?_set_ne, hj]
        intro e
        subst e
        rw [hth] at hj
        cases hj
        exact h3 h4

theorem inv_run {k : V → C} {sp : V} {s : State V C} (h : Inv k sp s) {t : Nat} {th : Task C}
    (hth : s.tasks[t]? = some th) :
    Inv k sp { (stepTask k s th true).1 with
      tasks := (stepTask k s th true).1.tasks.set t { th with pc := (stepTask k s th true).2 } } := by
  have hm : th ∈ s.tasks := List.mem_of_getElem? hth
  have hok : ∀ l, s.limit = some l → TaskOk k s l th := fun l hl => h.tasks l hl th hm
  obtain ⟨idx, n, pc⟩ := th
  cases pc with
  | read i stop =>
    by_cases hi : i < stop
    · cases hv : s.vec i with
      | none =>
        have e : stepTask k s ⟨idx, n, .read i stop⟩ true = (s, .read (i + 1) stop) := by
          simp [stepTask, hi, hv]
        rw [e]
        refine inv_set h hth rfl rfl rfl rfl rfl rfl rfl id (fun _ hr => hr) .inl id (by intro hc; cases hc)
          (by simp [counted]) h.all h.disk ?_ (.inl rfl) ?_
        · intro l hl
          have o := hok l hl
          refine ⟨o.pos, o.le, o.lt, ?_, (by intro _ _ _ hp; cases hp), (by intro hp; cases hp),
            (by rintro (hp | hp | hp) <;> cases hp), (by rintro (hp | hp) <;> cases hp), (by intro hp; cases hp)⟩
          intro i' stop' hp
          cases hp
          obtain ⟨a, b⟩ := o.read i stop rfl
          refine ⟨a, fun j h1 h2 => ?_⟩
          rcases Nat.lt_succ_iff_lt_or_eq.1 h2 with h3 | h3
          · exact b j h1 h3
          · subst h3
            intro v hv'
            rw [show s.vec j = some v from hv'] at hv
            cases hv
        · intro hc
          exact .inr (.inr (.inr (.inr ⟨⟨_, hm, hc⟩, id, (by rintro (hp | hp | hp) <;> cases hp)⟩)))
      | some v =>
        have e : stepTask k s ⟨idx, n, .read i stop⟩ true = (s, .write i stop (k v)) := by
          simp [stepTask, hi, hv]
        rw [e]
        refine inv_set h hth rfl rfl rfl rfl rfl rfl rfl id (fun _ hr => hr) .inl id (by intro hc; cases hc)
          (by simp [counted]) h.all h.disk ?_ (.inl rfl) ?_
        · intro l hl
          have o := hok l hl
          refine ⟨o.pos, o.le, o.lt, (by intro _ _ hp; cases hp), ?_, (by intro hp; cases hp),
            (by rintro (hp | hp | hp) <;> cases hp), (by rintro (hp | hp) <;> cases hp), (by intro hp; cases hp)⟩
          intro i' stop' c hp
          cases hp
          obtain ⟨a, b⟩ := o.read i stop rfl
          refine ⟨a, hi, b, ?_⟩
          intro w hw
          rw [show s.vec i = some w from hw] at hv
          cases hv
          rfl
        · intro hc
          exact .inr (.inr (.inr (.inr ⟨⟨_, hm, hc⟩, id, (by rintro (hp | hp | hp) <;> cases hp)⟩)))
    · have e : stepTask k s ⟨idx, n, .read i stop⟩ true =
          ({ s with completed := s.completed + 1 }, if s.completed + 1 = n then .point else .done true) := by
        simp [stepTask, hi]
      rw [e]
      have hcp : counted (if s.completed + 1 = n then Pc.point else Pc.done true : Pc C) = true := by
        split <;> rfl
      refine inv_set h hth rfl rfl rfl rfl rfl rfl rfl id (fun _ hr => hr) .inl id (fun _ => hcp)
        ?_ h.all h.disk ?_ (.inl rfl) ?_
      · show s.completed + 1 = s.completed + _
        congr 1
        exact (if_pos (c := _ ∧ _) ⟨rfl, hcp⟩).symm
      · intro l hl
        have o := hok l hl
        obtain ⟨a, b⟩ := o.read i stop rfl
        refine ⟨o.pos, o.le, o.lt, ?_, ?_, ?_, ?_, ?_, ?_⟩
        · intro i' stop' hp
          dsimp only at hp
          split at hp <;> cases hp
        · intro i' stop' c hp
          dsimp only at hp
          split at hp <;> cases hp
        · intro _ j h1 h2
          exact b j h1 (by
            have h2' : j < stopOf l n idx := h2
            have a' : stop = stopOf l n idx := a
            omega)
        · intro hp
          dsimp only at hp ⊢
          by_cases hc : s.completed + 1 = n
          · exact hc
          · rw [if_neg hc] at hp
            rcases hp with hp | hp | hp <;> cases hp
        · intro hp
          dsimp only at hp
          split at hp <;> rcases hp with hp | hp <;> cases hp
        · intro hp
          dsimp only at hp
          split at hp <;> cases hp
      · intro hc
        right; left
        rw [if_pos hc]
  | write i stop c =>
    have e : stepTask k s ⟨idx, n, .write i stop c⟩ true = ({ s with code := upd s.code i (some c) }, .read (i + 1) stop) := rfl
    rw [e]
    have hne : s.limit ≠ none := by
      intro hl
      rw [(h.noLimit hl).1] at hm
      simp at hm
    obtain ⟨l₀, hl₀⟩ := Option.ne_none_iff_exists'.1 hne
    have hright : ∀ j, Right k s j → Right k { s with code := upd s.code i (some c) } j := by
      intro j hj w hw
      by_cases hji : j = i
      · subst hji
        have := ((hok l₀ hl₀).write j stop c rfl).2.2.2 w hw
        simp [upd_same, this]
      · simpa [upd_other _ _ hji] using hj w hw
    refine inv_set (s' := { s with
        code := upd s.code i (some c), tasks := s.tasks.set t ⟨idx, n, .read (i + 1) stop⟩ }) h hth rfl rfl rfl rfl rfl
      rfl rfl id hright .inl id (by intro hc; cases hc) (by simp [counted]) h.all h.disk ?_ (.inl rfl) ?_
    · intro l hl
      have o := hok l hl
      refine ⟨o.pos, o.le, o.lt, ?_, (by intro _ _ _ hp; cases hp), (by intro hp; cases hp),
        (by rintro (hp | hp | hp) <;> cases hp), (by rintro (hp | hp) <;> cases hp), (by intro hp; cases hp)⟩
      intro i' stop' hp
      cases hp
      obtain ⟨a, _, b, d⟩ := o.write i stop c rfl
      refine ⟨a, fun j h1 h2 => ?_⟩
      rcases Nat.lt_succ_iff_lt_or_eq.1 h2 with h3 | h3
      · exact hright j (b j h1 h3)
      · subst h3
        intro v hv'
        have := d v hv'
        simp [upd_same, this]
    · intro hc
      exact .inr (.inr (.inr (.inr ⟨⟨_, hm, hc⟩, id, (by rintro (hp | hp | hp) <;> cases hp)⟩)))
  | point =>
    have e : stepTask k s ⟨idx, n, .point⟩ true =
        ({ s with code := upd s.code 0 (some (k sp)), startCode := some (k sp) }, .reuse) := by
      simp [stepTask, h.cache]
    rw [e]
    have hright : ∀ j, Right k s j →
        Right k { s with code := upd s.code 0 (some (k sp)), startCode := some (k sp) } j := by
      intro j hj w hw
      by_cases hji : j = 0
      · subst hji
        have h1 : s.vec 0 = some w := hw
        rw [h.start] at h1
        cases h1
        simp [upd_same]
      · simpa [upd_other _ _ hji] using hj w hw
    refine inv_set (s' := { s with
        code := upd s.code 0 (some (k sp)), startCode := some (k sp), tasks := s.tasks.set t ⟨idx, n, .reuse⟩ })
      h hth rfl rfl rfl rfl rfl rfl rfl id hright .inl id (fun _ => rfl) (by simp [counted])
      (fun ha => ⟨(h.all ha).1, (h.all ha).2.1, rfl⟩) h.disk ?_ (.inr rfl) (fun _ => .inr (.inr (.inl rfl)))
    intro l hl
    have o := hok l hl
    refine ⟨o.pos, o.le, o.lt, (by intro _ _ hp; cases hp), (by intro _ _ _ hp; cases hp), ?_, ?_, ?_, (by intro hp; cases hp)⟩
    · intro _ j h1 h2
      exact hright j (o.passed rfl j h1 h2)
    · intro _; exact o.last (.inl rfl)
    · intro _ v hv
      have h1 : s.vec 0 = some v := hv
      rw [h.start] at h1
      cases h1
      rfl
  | reuse =>
    have e : stepTask k s ⟨idx, n, .reuse⟩ true = ({ s with reuse := true }, .rmw) := rfl
    rw [e]
    have hne : s.limit ≠ none := by
      intro hl
      rw [(h.noLimit hl).1] at hm
      simp at hm
    obtain ⟨l₀, hl₀⟩ := Option.ne_none_iff_exists'.1 hne
    refine inv_set (s' := { s with reuse := true, tasks := s.tasks.set t ⟨idx, n, .rmw⟩ })
      h hth rfl rfl rfl rfl rfl rfl rfl id (fun _ hr => hr) (fun _ => .inr ((hok l₀ hl₀).last (.inr (.inl rfl))))
      (fun _ => rfl) (fun _ => rfl) (by simp [counted])
      (fun ha => ⟨rfl, (h.all ha).2⟩) (fun _ => rfl) ?_ (.inl rfl) (fun _ => .inr (.inr (.inr (.inl rfl))))
    intro l hl
    have o := hok l hl
    exact ⟨o.pos, o.le, o.lt, (by intro _ _ hp; cases hp), (by intro _ _ _ hp; cases hp), fun _ => o.passed rfl,
      fun _ => o.last (.inr (.inl rfl)), fun _ => o.coded (.inl rfl), fun _ => rfl⟩
  | rmw =>
    have e : stepTask k s ⟨idx, n, .rmw⟩ true = ({ s with disk := some true, all := true }, .done true) := rfl
    rw [e]
    have hne : s.limit ≠ none := by
      intro hl
      rw [(h.noLimit hl).1] at hm
      simp at hm
    obtain ⟨l₀, hl₀⟩ := Option.ne_none_iff_exists'.1 hne
    refine inv_set (s' := { s with disk := some true, all := true, tasks := s.tasks.set t ⟨idx, n, .done true⟩ })
      h hth rfl rfl rfl rfl rfl rfl rfl (fun _ => rfl) (fun _ hr => hr) .inl id (fun _ => rfl) (by simp [counted])
      (fun _ => ⟨(hok l₀ hl₀).rmw rfl, rfl, (hok l₀ hl₀).coded (.inr rfl) sp h.start⟩)
      (fun _ => (hok l₀ hl₀).rmw rfl) ?_ (.inl rfl) (fun _ => .inl rfl)
    intro l hl
    have o := hok l hl
    exact ⟨o.pos, o.le, o.lt, (by intro _ _ hp; cases hp), (by intro _ _ _ hp; cases hp), fun _ => o.passed rfl,
      (by rintro (hp | hp | hp) <;> cases hp), (by rintro (hp | hp) <;> cases hp), (by intro hp; cases hp)⟩
  | done b =>
    have e : stepTask k s ⟨idx, n, .done b⟩ true = (s, .done b) := rfl
    rw [e]
    refine inv_set h hth rfl rfl rfl rfl rfl rfl rfl id (fun _ hr => hr) .inl id (fun _ => rfl)
      (by simp [counted]) h.all h.disk ?_ (.inl rfl) ?_
    · intro l hl
      have o := hok l hl
      exact ⟨o.pos, o.le, o.lt, (by intro _ _ hp; cases hp), (by intro _ _ _ hp; cases hp), fun _ => o.passed rfl,
        (by rintro (hp | hp | hp) <;> cases hp), (by rintro (hp | hp) <;> cases hp), (by intro hp; cases hp)⟩
    · intro hc
      exact .inr (.inr (.inr (.inr ⟨⟨_, hm, hc⟩, id, (by rintro (hp | hp | hp) <;> cases hp)⟩)))

theorem inv_restart {k : V → C} {sp : V} {s : State V C} (h : Inv k sp s) {n : Nat}
    (ha : ∀ i, (s.vec i).isSome → i < n) : Inv k sp (restart s n).1 ∧ (restart s n).2 = true := by
  unfold restart
  dsimp only
  cases hd : s.disk with
  | none =>
    dsimp only
    refine ⟨?_, rfl⟩
    constructor <;> simp_all [h.start]
  | some b =>
    cases b with
    | false =>
      cases hc : s.code 0 with
      | none =>
        dsimp only
        refine ⟨?_, rfl⟩
        constructor <;> simp_all [h.start]
      | some c =>
        dsimp only
        refine ⟨?_, rfl⟩
        constructor <;> simp_all [h.start]
    | true =>
      have hr := h.reuse (h.disk hd)
      have hc := hr.2 0 sp h.start
      rw [hc]
      dsimp only
      refine ⟨?_, rfl⟩
      refine ⟨h.start, h.start, ha, fun _ => ⟨rfl, hr.2⟩, by simp, by simp, ?_, fun _ => rfl, by simp, by simp, by simp,
        by simp, by simp, by simp, by simp, by simp⟩
      intro _
      exact ⟨rfl, rfl, rfl⟩

theorem inv_step {k : V → C} {sp : V} {s : State V C} (h : Inv k sp s) (e : Event V) (ha : Allowed s e)
    (hc : Clean s e) : Inv k sp (step k s e).1 := by
  cases e with
  | insert i v => exact inv_insert h ha
  | delete i => exact inv_delete h ha
  | train d w => exact inv_train h d w
  | start idx count =>
    show Inv k sp (match startTask s idx count with | none => _ | some t => _ : State V C × Option Bool).1
    cases ht : startTask s idx count with
    | none => exact h
    | some t => exact inv_start h hc ht
  | run t ok =>
    have hok : ok = true := hc
    subst hok
    show Inv k sp (match s.tasks[t]? with | none => _ | some th => _ : State V C × Option Bool).1
    cases ht : s.tasks[t]? with
    | none => exact h
    | some th => exact inv_run h ht
  | restart n => exact (inv_restart h ha).1

theorem inv_cleanRun {k : V → C} {sp : V} {s t : State V C} {es : List (Event V)} (h : Inv k sp s)
    (hr : CleanRun k s es t) : Inv k sp t := by
  induction hr with
  | nil s => exact h
  | cons ha hc _ ih => exact ih (inv_step h _ ha hc)

end Verif.Garnet.Quant
