import Mathlib.Algebra.Order.Floor.Ring
import Mathlib.Algebra.Order.Floor.Semiring
import Mathlib.Data.Rat.Floor
import Mathlib.Tactic.Linarith
import Mathlib.Tactic.FieldSimp
import Mathlib.Tactic.Positivity
import Verif.Runbook.Props
import Verif.Runbook.ManagedLemmas

/-! # C97: the layer that maps tags to slots

Running a valid runbook through the layer has the same effect as running it on a table from tags to vectors. -/

namespace Verif.Runbook

open Spec

variable {V : Type}

/-! ### Stages -/

theorem mem_tagsOf {r : Rng} {t : Nat} : t ∈ tagsOf r ↔ t ∈ tags r := by
  rw [mem_tags]
  unfold tagsOf
  rw [List.mem_range'_1]
  omega

theorem toFinset_tagsOf (r : Rng) : (tagsOf r).toFinset = tags r := by
  ext t; rw [List.mem_toFinset, mem_tagsOf]

theorem nodup_tagsOf (r : Rng) : (tagsOf r).Nodup := List.nodup_range'

theorem length_tagsOf (r : Rng) : (tagsOf r).length = r.hi - r.lo := List.length_range'

theorem collect_of {α β : Type} {f : α → Option β} {l : List α} {b : List β} (h : List.Forall₂ (fun a b => f a = some b) l b) :
    collect f l = some b := by
  induction h with
  | nil => rfl
  | cons h _ ih => simp only [collect, h, ih]

theorem setTags_zip (n : Nat) : ∀ (lo : Nat) (M : Nat → Option V) (vs : List V), vs.length = n → ∀ t,
    setTags M ((List.range' lo n).zip vs) t = if lo ≤ t ∧ t < lo + n then vs[t - lo]? else M t := by
  induction n with
  | zero => intro lo M vs _ t; simp [setTags]
  | succ n ih =>
    intro lo M vs hv t
    cases vs with
    | nil => simp at hv
    | cons v vs =>
      rw [List.range'_succ, List.zip_cons_cons]
      show setTags (Function.update M lo (some v)) ((List.range' (lo + 1) n).zip vs) t = _
      rw [ih (lo + 1) _ vs (by simpa using hv) t]
      by_cases h1 : lo + 1 ≤ t ∧ t < lo + 1 + n
      · rw [if_pos h1, if_pos (by omega), show t - lo = (t - (lo + 1)) + 1 by omega, List.getElem?_cons_succ]
      · rw [if_neg h1]
        by_cases h2 : t = lo
        · subst h2
          rw [upd_same, if_pos (by omega), Nat.sub_self]; rfl
        · rw [upd_ne _ _ h2, if_neg (by omega)]

theorem clearTags_eq (l : List Nat) : ∀ (M : Nat → Option V) (t : Nat), clearTags M l t = if t ∈ l then none else M t := by
  induction l with
  | nil => intro M t; simp [clearTags]
  | cons x l ih =>
    intro M t
    show clearTags (Function.update M x none) l t = _
    rw [ih]
    by_cases h : t ∈ l
    · rw [if_pos h, if_pos (List.mem_cons_of_mem _ h)]
    · rw [if_neg h]
      by_cases e : t = x
      · subst e; rw [upd_same, if_pos List.mem_cons_self]
      · rw [upd_ne _ _ e, if_neg (by simp [e, h])]

/-- The slots of live tags. -/
theorem Keeps.slots {cap m c M A} (h : Keeps (V := V) cap m c M A []) (ts : List Nat) (hA : ∀ t ∈ ts, t ∈ A) :
    ∃ ss, List.Forall₂ (fun t s => m.slot t = some s) ts ss ∧ (∀ s ∈ ss, c.live s = true) ∧ ss.map c.vector = ts.map M ∧
      (ts.Nodup → ss.Nodup) := by
  induction ts with
  | nil => exact ⟨[], .nil, by simp, rfl, by simp⟩
  | cons t ts ih =>
    obtain ⟨ss, h1, h2, h3, h4⟩ := ih fun u hu => hA u (List.mem_cons_of_mem _ hu)
    obtain ⟨s, v, e1, e2, e3, e4, e5⟩ := h.of_mem (hA t List.mem_cons_self)
    refine ⟨s :: ss, .cons e1 h1, ?_, ?_, ?_⟩
    · intro x hx
      rcases List.mem_cons.1 hx with rfl | hx
      · unfold Store.live; rw [e5]
      · exact h2 x hx
    · rw [List.map_cons, List.map_cons, h3, e4]
      congr 1
      unfold Store.vector; rw [e5]
    · intro hnd
      obtain ⟨n1, n2⟩ := List.nodup_cons.1 hnd
      refine List.nodup_cons.2 ⟨?_, h4 n2⟩
      intro hs
      obtain ⟨u, hu, hux⟩ : ∃ u ∈ ts, m.slot u = some s := by
        clear h2 h3 h4 ih hA hnd n1 n2
        induction h1 with
        | nil => cases hs
        | cons hd _ ih =>
          rcases List.mem_cons.1 hs with rfl | hs
          · exact ⟨_, List.mem_cons_self, hd⟩
          · obtain ⟨u, hu, e⟩ := ih hs
            exact ⟨u, List.mem_cons_of_mem _ hu, e⟩
      rw [(h.bij u s).1 hux] at e2
      cases e2
      exact n1 hu

theorem sub_getElem? (data : List V) (lo n t : Nat) (h : t < n) : ((data.drop lo).take n)[t]? = data[lo + t]? := by
  rw [List.getElem?_take_of_lt h, List.getElem?_drop]

theorem subview_some {data : List V} {o : Rng} (h1 : o.lo ≤ o.hi) (h2 : o.hi ≤ data.length) :
    subview data o = some ((data.drop o.lo).take (o.hi - o.lo)) ∧
      ((data.drop o.lo).take (o.hi - o.lo)).length = o.hi - o.lo := by
  refine ⟨if_pos ⟨h1, h2⟩, ?_⟩
  rw [List.length_take, List.length_drop]
  omega

/-- One stage on the layer. -/
theorem stage_spec {cap m c M A} (h : Keeps (V := V) cap m c M A []) (data : List V)
    (gt : List Char → Option (List (List Nat))) (rc : Reclaim) (drain : List Nat → List Nat) (g : Stage) (B : Finset Nat)
    (hB : after A g = some B) (hfit : Fits data gt A g)
    (hroom : ∀ r, g = .insert r → r.hi - r.lo ≤ m.empty.length)
    (hnew : ∀ r, g = .insert r → ∀ t ∈ tags r, m.slot t = none) :
    ∃ m' c', (managed data gt rc drain).stage (m, c) g = .ok ((m', c'), shows gt M g) ∧
      Keeps cap m' c' (table data M g) B [] ∧ (rc = .immediate → m.deleted = [] → m'.deleted = []) ∧
      (∀ t, m'.slot t ≠ none → m.slot t ≠ none ∨ t ∈ inserted g) := by
  cases g with
  | search path =>
    obtain ⟨rows, hr, hrows⟩ := hfit
    cases hB
    have key : ∃ sss, List.Forall₂ (fun row ss => m.findSlots row = some ss) rows sss ∧
        sss.map (fun row => row.map c.vector) = rows.map fun row => row.map M := by
      clear hr hroom hnew
      induction rows with
      | nil => exact ⟨[], .nil, rfl⟩
      | cons row rows ih =>
        obtain ⟨sss, i1, i2⟩ := ih fun row hrow => hrows row (List.mem_cons_of_mem _ hrow)
        obtain ⟨ss, e1, -, e3, -⟩ := h.slots row (hrows row List.mem_cons_self)
        exact ⟨ss :: sss, .cons (collect_of e1) i1, by rw [List.map_cons, List.map_cons, i2, e3]⟩
    obtain ⟨sss, k1, k2⟩ := key
    refine ⟨m, c, ?_, h, fun _ h => h, fun t ht => Or.inl ht⟩
    show managedSearch gt (m, c) path = _
    unfold managedSearch
    rw [hr]
    show (orErr (collect m.findSlots rows)).bind _ = _
    rw [collect_of k1]
    show Out.ok _ = _
    show _ = Out.ok ((m, c), Seen.found (((gt path).getD []).map fun row => row.map M))
    rw [hr, Option.getD_some, ← k2]
  | insert r =>
    obtain ⟨f1, f2⟩ := hfit
    have hroom := hroom r rfl
    have hnew := hnew r rfl
    have hd : Disjoint A (tags r) ∧ B = A ∪ tags r := by
      simp only [after] at hB
      split at hB
      · rename_i hd; cases hB; exact ⟨hd, rfl⟩
      · cases hB
    obtain ⟨hd, rfl⟩ := hd
    obtain ⟨s1, s2⟩ := subview_some (o := r) f1.le f2
    have hlen : (m.empty.take (r.hi - r.lo)).length = r.hi - r.lo := by rw [List.length_take]; omega
    have hk : Keeps cap { m with empty := m.empty.drop (r.hi - r.lo) } c M A (m.empty.take (r.hi - r.lo)) :=
      h.perm_fly (by
        rw [List.append_nil]
        conv_lhs => rw [← List.take_append_drop (r.hi - r.lo) m.empty]
        exact List.perm_append_comm)
    have hfin := Keeps.assignAll (tagsOf r) _ _ _ _ _ _ hk (by rw [length_tagsOf, hlen]) (by rw [s2, hlen])
      (nodup_tagsOf r) (fun t ht => hnew t (mem_tagsOf.1 ht))
    rw [toFinset_tagsOf] at hfin
    have hM : table data M (.insert r) =
        setTags M ((tagsOf r).zip ((data.drop r.lo).take (r.hi - r.lo))) := by
      funext t
      show (if t ∈ tags r then data[t]? else M t) = setTags M ((List.range' r.lo (r.hi - r.lo)).zip _) t
      rw [setTags_zip _ _ _ _ s2]
      by_cases ht : t ∈ tags r
      · have := mem_tags.1 ht
        rw [if_pos ht, if_pos (by omega), sub_getElem? _ _ _ _ (by omega), show r.lo + (t - r.lo) = t by omega]
      · have : ¬ (r.lo ≤ t ∧ t < r.hi) := fun hh => ht (mem_tags.2 hh)
        rw [if_neg ht, if_neg (by omega)]
    rw [hM]
    refine ⟨_, _, ?_, hfin, ?_, ?_⟩
    · show managedInsert data (m, c) r r = _
      unfold managedInsert
      rw [s1]
      show (orErr (m.take (r.hi - r.lo))).bind _ = _
      unfold Manager.take
      rw [if_neg (by omega)]
      show (c.insert _ _).bind _ = _
      unfold Store.insert
      rw [if_pos]
      · show (orErr (Manager.assign _ _ _)).bind _ = _
        unfold Manager.assign
        rw [if_pos (by rw [length_tagsOf, hlen])]
        rfl
      · refine ⟨by rw [s2, hlen], ?_, ?_⟩
        · exact (List.nodup_append.1 hk.nd).2.1
        · intro s hs
          rw [h.clear s ((hk.free s).1 (List.mem_append_right _ hs)).2]; rfl
    · intro _ hm
      have : ∀ (l : List (Nat × Nat)) (m : Manager), (l.foldl Manager.assignOne m).deleted = m.deleted := by
        intro l
        induction l with
        | nil => intro m; rfl
        | cons x l ih => intro m; rw [List.foldl_cons, ih]; rfl
      rw [this]; exact hm
    · have : ∀ (ts ss : List Nat) (m : Manager) (t : Nat), ((ts.zip ss).foldl Manager.assignOne m).slot t ≠ none →
          m.slot t ≠ none ∨ t ∈ ts := by
        intro ts
        induction ts with
        | nil => intro ss m t ht; exact Or.inl ht
        | cons x ts ih =>
          intro ss m t ht
          cases ss with
          | nil => exact Or.inl ht
          | cons s ss =>
            rcases ih ss _ t ht with hh | hh
            · by_cases e : t = x
              · exact Or.inr (by rw [e]; exact List.mem_cons_self)
              · left
                have : Function.update m.slot x (some s) t ≠ none := hh
                rwa [upd_ne _ _ e] at this
            · exact Or.inr (List.mem_cons_of_mem _ hh)
      intro t ht
      rcases this _ _ _ t ht with hh | hh
      · exact Or.inl hh
      · exact Or.inr (mem_tagsOf.1 hh)
  | replace o r =>
    obtain ⟨f0, f1, f2, f3⟩ := hfit
    have hd : tags r ⊆ A ∧ B = A := by
      simp only [after] at hB
      split at hB
      · rename_i hd; cases hB; exact ⟨hd, rfl⟩
      · cases hB
    obtain ⟨hd, rfl⟩ := hd
    obtain ⟨s1, s2⟩ := subview_some f1 f2
    have hA : ∀ t ∈ tagsOf r, t ∈ B := fun t ht => hd (mem_tagsOf.1 ht)
    obtain ⟨ss, e1, e2, -, e4⟩ := h.slots (tagsOf r) hA
    have hss : ss.length = r.hi - r.lo := by rw [← e1.length_eq, length_tagsOf]
    have hfin := Keeps.putAll (tagsOf r) ss _ c M B h e1 (by rw [s2, hss, f3]) hA
    have hM : table data M (.replace o r) =
        setTags M ((tagsOf r).zip ((data.drop o.lo).take (o.hi - o.lo))) := by
      funext t
      show (if t ∈ tags r then data[o.lo + (t - r.lo)]? else M t) = setTags M ((List.range' r.lo (r.hi - r.lo)).zip _) t
      rw [setTags_zip _ _ _ _ (by rw [s2, f3])]
      by_cases ht : t ∈ tags r
      · have := mem_tags.1 ht
        rw [if_pos ht, if_pos (by omega), sub_getElem? _ _ _ _ (by omega)]
      · have : ¬ (r.lo ≤ t ∧ t < r.hi) := fun hh => ht (mem_tags.2 hh)
        rw [if_neg ht, if_neg (by omega)]
    rw [hM]
    refine ⟨_, _, ?_, hfin, fun _ h => h, fun t ht => Or.inl ht⟩
    · show managedReplace data (m, c) o r = _
      unfold managedReplace
      rw [s1]
      show (orErr (collect m.slot (tagsOf r))).bind _ = _
      rw [collect_of e1]
      show (c.replace _ _).bind _ = _
      unfold Store.replace
      rw [if_pos ⟨by rw [s2, hss, f3], e4 (nodup_tagsOf r), e2⟩]
      rfl
  | delete r =>
    have hd : tags r ⊆ A ∧ B = A \ tags r := by
      simp only [after] at hB
      split at hB
      · rename_i hd; cases hB; exact ⟨hd, rfl⟩
      · cases hB
    obtain ⟨hd, rfl⟩ := hd
    have hA : ∀ t ∈ tagsOf r, t ∈ A := fun t ht => hd (mem_tagsOf.1 ht)
    obtain ⟨ss, e1, e2, -, e4⟩ := h.slots (tagsOf r) hA
    have hM : table data M (.delete r) = clearTags M (tagsOf r) := by
      funext t
      rw [clearTags_eq]
      show (if t ∈ tags r then none else M t) = _
      by_cases ht : t ∈ tags r
      · rw [if_pos ht, if_pos (mem_tagsOf.2 ht)]
      · rw [if_neg ht, if_neg (fun hh => ht (mem_tagsOf.1 hh))]
    rw [hM, ← toFinset_tagsOf]
    have hrun : ∀ m' c', m.reclaim rc (tagsOf r) = some m' → c.delete rc ss = .ok c' →
        (managed data gt rc drain).stage (m, c) (.delete r) = .ok ((m', c'), shows gt M (.delete r)) := by
      intro m' c' h1 h2
      show managedDelete rc (m, c) r = _
      unfold managedDelete
      show (orErr (collect m.slot (tagsOf r))).bind _ = _
      rw [collect_of e1]
      show (c.delete rc ss).bind _ = _
      rw [h2]
      show (orErr (m.reclaim rc (tagsOf r))).bind _ = _
      rw [h1]
      rfl
    cases rc with
    | immediate =>
      obtain ⟨m', a1, a2, a3, a4⟩ := Keeps.recycleAll (tagsOf r) ss m c M A h e1 (nodup_tagsOf r) hA
      refine ⟨m', _, hrun _ _ a1 (if_pos ⟨e4 (nodup_tagsOf r), e2⟩), a4, fun _ hm => by rw [a2, hm], fun t ht => Or.inl ?_⟩
      intro hn
      exact ht (a3 t hn)
    | deferred limit =>
      obtain ⟨m', a1, a2, a4⟩ := Keeps.markAll (tagsOf r) ss m c M A h e1 (nodup_tagsOf r) hA
      refine ⟨m', _, hrun _ _ a1 (if_pos ⟨e4 (nodup_tagsOf r), e2⟩), a4, fun h => (by cases h), fun t ht => Or.inl ?_⟩
      rw [← a2]; exact ht

/-! ### Runs -/

theorem Keeps.holds {cap m c M A} (h : Keeps (V := V) cap m c M A []) : Holds M (cap - 1) (m, c) := by
  refine ⟨?_, ?_, ?_⟩
  · intro t v ht
    obtain ⟨s, w, e1, e2, -, e4, e5⟩ := h.of_mem ((h.dom t).2 (by rw [ht]; simp))
    rw [ht] at e4; cases e4
    exact ⟨s, e1, h.bound s t e2, by show Store.vector c s = _; unfold Store.vector; rw [e5]⟩
  · intro t u i _ _ h1 h2
    have h1 := (h.bij t i).1 h1
    rw [(h.bij u i).1 h2] at h1
    cases h1; rfl
  · intro i v hv
    replace hv : Store.vector c i = some v := hv
    unfold Store.vector at hv
    cases ht : m.tag i with
    | none => rw [h.clear i ht] at hv; cases hv
    | some t =>
      by_cases hd : i ∈ m.deleted
      · obtain ⟨-, -, -, w, hw⟩ := h.dtag i hd
        rw [hw] at hv; cases hv
      · obtain ⟨w, h1, h2⟩ := h.live i t ht hd
        rw [h2] at hv; cases hv
        exact ⟨t, h1, (h.bij t i).2 ht⟩

theorem keeps_new {cap : Nat} {m : Manager} (hn : Manager.new cap = .ok m) (hc : cap ≤ 2 ^ 32) :
    Keeps (V := V) cap m (fun _ => none) (fun _ => none) ∅ [] ∧ m.deleted = [] ∧ ∀ t, m.slot t = none := by
  unfold Manager.new at hn
  split at hn
  · cases hn
  · rename_i h0
    cases hn
    have hmod : (cap - 1) % 2 ^ 32 = cap - 1 := Nat.mod_eq_of_lt (by omega)
    refine ⟨⟨rfl, ?_, ?_, ?_, ?_, List.nodup_nil, ?_, ?_, ?_, ?_, ?_, ?_⟩, rfl, fun _ => rfl⟩
    · intro t s; simp
    · simp [List.nodup_range]
    · intro s; rw [hmod]; simp
    · intro s t h; cases h
    · intro s h; cases h
    · intro s t h; cases h
    · intro s _; rfl
    · intro t; simp
    · intro t _; rfl
    · rw [hmod]; simp

theorem history_cons {A : Finset Nat} {g : Stage} {gs : List Stage} {As : List (Finset Nat)}
    (h : history A (g :: gs) = some As) : ∃ B Bs, after A g = some B ∧ history B gs = some Bs ∧ As = B :: Bs := by
  simp only [history] at h
  split at h
  · cases h
  · rename_i B hB
    obtain ⟨Bs, h1, h2⟩ := Option.map_eq_some_iff.1 h
    exact ⟨B, Bs, hB, h1, h2.symm⟩

theorem insert_card {A B : Finset Nat} {r : Rng} (h : after A (.insert r) = some B) : B.card = A.card + (r.hi - r.lo) := by
  simp only [after] at h
  split at h
  · rename_i hd
    cases h
    rw [Finset.card_union_of_disjoint hd]
    unfold tags
    rw [Nat.card_Ico]
  · cases h

theorem immediate_run (data : List V) (gt : List Char → Option (List (List Nat))) (drain : List Nat → List Nat) (cap : Nat)
    (stages : List Stage) : ∀ (m : Manager) (c : Store V) (M : Nat → Option V) (A : Finset Nat) (As : List (Finset Nat)),
    Keeps cap m c M A [] → m.deleted = [] → history A stages = some As → FitsAll data gt A stages → peak As < cap →
    ∃ m' c', (managed data gt .immediate drain).run (m, c) stages = (showsAll data gt M stages, .ok (m', c')) ∧
      Holds (tableAfter data M stages) (cap - 1) (m', c') := by
  induction stages with
  | nil =>
    intro m c M A As h hd hh hf hp
    exact ⟨m, c, rfl, h.holds⟩
  | cons g gs ih =>
    intro m c M A As h hd hh hf hp
    obtain ⟨B, Bs, h1, h2, rfl⟩ := history_cons hh
    rw [peak_cons] at hp
    have hc := h.count
    rw [hd] at hc
    simp only [List.length_append, List.length_nil] at hc
    obtain ⟨m', c', e1, e2, e3, -⟩ := stage_spec h data gt .immediate drain g B h1 hf.1
      (by
        rintro r rfl
        have := insert_card h1
        omega)
      (by
        rintro r rfl t ht
        cases hs : m.slot t with
        | none => rfl
        | some s =>
          have hd' : Disjoint A (tags r) := by
            simp only [after] at h1
            split at h1
            · assumption
            · cases h1
          obtain ⟨v, hv, -⟩ := h.live s t ((h.bij t s).1 hs) (by rw [hd]; simp)
          exact absurd ((h.dom t).2 (by rw [hv]; simp)) (fun hA => Finset.disjoint_left.1 hd' hA ht))
    obtain ⟨m2, c2, i1, i2⟩ := ih m' c' _ B Bs e2 (e3 rfl hd) h2 (hf.2 B h1) (by omega)
    refine ⟨m2, c2, ?_, i2⟩
    rw [run_plain _ _ _ _ rfl]
    unfold Stream.perform
    rw [e1]
    show ([] ++ shows gt M g :: ((managed data gt .immediate drain).run (m', c') gs).1,
      ((managed data gt .immediate drain).run (m', c') gs).2) = _
    rw [i1]
    rfl

/-- C97. With immediate reuse of slots a valid runbook runs to its end as long as the number of active tags stays below the
capacity; the searches see the vectors of the ground truth's tags, and in the end every tag has its latest vector. -/
theorem C97_immediate (data : List V) (gt : List Char → Option (List (List Nat))) (drain : List Nat → List Nat)
    (stages : List Stage) (cap : Nat) (m : Manager) (As : List (Finset Nat)) (hm : Manager.new cap = .ok m)
    (hcap : cap ≤ 2 ^ 32) (hist : history ∅ stages = some As) (hfit : FitsAll data gt ∅ stages) (hpeak : peak As < cap) :
    ∃ final, (managed data gt .immediate drain).run (m, fun _ => none) stages =
        (showsAll data gt (fun _ => none) stages, .ok final) ∧
      Holds (tableAfter data (fun _ => none) stages) (cap - 1) final := by
  obtain ⟨h1, h2, -⟩ := keeps_new (V := V) hm hcap
  obtain ⟨m', c', e1, e2⟩ := immediate_run data gt drain cap stages m _ _ ∅ As h1 h2 hist hfit hpeak
  exact ⟨_, e1, e2⟩

namespace Spec

/-- No tag is inserted by two stages. -/
def Fresh : List Stage → Prop
  | [] => True
  | g :: gs => (∀ g' ∈ gs, Disjoint (inserted g) (inserted g')) ∧ Fresh gs

/-- Slots suffice for `P` points: with `a < P` active points and `d` deleted ones that do not yet cause maintenance, there is
room for `P` active points. -/
def Headroom (limit : Nat → Nat) (P cap : Nat) : Prop := ∀ a d, a < P → d ≤ limit (a + d + 1) → P + d < cap

/-- Outputs of stages, without those of maintenance. -/
def ofStages (l : List (Seen V)) : List (Seen V) := l.filter fun s => match s with | .maintained => false | _ => true

end Spec

theorem deferred_run (data : List V) (gt : List Char → Option (List (List Nat))) (limit : Nat → Nat)
    (drain : List Nat → List Nat) (hdrain : ∀ l, (drain l).Perm l) (cap P : Nat) (hroom : Headroom limit P cap)
    (stages : List Stage) : ∀ (m : Manager) (c : Store V) (M : Nat → Option V) (A : Finset Nat) (As : List (Finset Nat)),
    Keeps cap m c M A [] → history A stages = some As → FitsAll data gt A stages → peak As ≤ P → Fresh stages →
    (∀ g ∈ stages, ∀ t ∈ inserted g, m.slot t = none) →
    ∃ m' c' outs, (managed data gt (.deferred limit) drain).run (m, c) stages = (outs, .ok (m', c')) ∧
      ofStages outs = showsAll data gt M stages ∧ Holds (tableAfter data M stages) (cap - 1) (m', c') := by
  induction stages with
  | nil =>
    intro m c M A As h hh hf hp _ _
    exact ⟨m, c, [], rfl, rfl, h.holds⟩
  | cons g gs ih =>
    intro m c M A As h hh hf hp hfr hnew
    obtain ⟨B, Bs, h1, h2, rfl⟩ := history_cons hh
    rw [peak_cons] at hp
    -- a stage after maintenance
    have step : ∀ (m : Manager) (c : Store V) (pre : List (Seen V)), Keeps cap m c M A [] →
        (∀ x ∈ g :: gs, ∀ t ∈ inserted x, m.slot t = none) → m.deleted.length ≤ limit m.numActive →
        ofStages pre = [] →
        ∃ m' c' outs, (managed data gt (.deferred limit) drain).perform pre (m, c) g
            (fun s => (managed data gt (.deferred limit) drain).run s gs) = (outs, .ok (m', c')) ∧
          ofStages outs = showsAll data gt M (g :: gs) ∧ Holds (tableAfter data M (g :: gs)) (cap - 1) (m', c') := by
      intro m c pre h hnew hlim hpre
      have hc := h.count
      simp only [List.length_append, List.length_nil] at hc
      obtain ⟨m', c', e1, e2, -, e4⟩ := stage_spec h data gt (.deferred limit) drain g B h1 hf.1
        (by
          rintro r rfl
          have h3 := insert_card h1
          have h4 : r.lo < r.hi := hf.1.1
          have h5 : A.card < P := by omega
          have hact : m.numActive = A.card + m.deleted.length + 1 ∨ cap = 0 := by
            unfold Manager.numActive
            rw [h.capEq]; omega
          have h6 : P + m.deleted.length < cap := by
            rcases hact with hact | hact
            · rw [hact] at hlim
              exact hroom _ _ h5 hlim
            · have := hroom A.card 0 h5 (Nat.zero_le _)
              omega
          omega)
        (by
          rintro r rfl t ht
          exact hnew _ List.mem_cons_self t ht)
      obtain ⟨m2, c2, outs, i1, i2, i3⟩ := ih m' c' _ B Bs e2 h2 (hf.2 B h1) (by omega) hfr.2 (by
        intro g' hg' t ht
        by_contra hcon
        rcases e4 t hcon with hx | hx
        · exact hx (hnew g' (List.mem_cons_of_mem _ hg') t ht)
        · exact Finset.disjoint_left.1 (hfr.1 g' hg') hx ht)
      refine ⟨m2, c2, pre ++ shows gt M g :: outs, ?_, ?_, i3⟩
      · unfold Stream.perform
        rw [e1]
        show (pre ++ shows gt M g :: ((managed data gt (.deferred limit) drain).run (m', c') gs).1,
          ((managed data gt (.deferred limit) drain).run (m', c') gs).2) = _
        rw [i1]
      · show ofStages (pre ++ shows gt M g :: outs) = shows gt M g :: showsAll data gt (table data M g) gs
        unfold ofStages at hpre i2 ⊢
        rw [List.filter_append, hpre, List.nil_append, List.filter_cons_of_pos, i2]
        cases g <;> rfl
    simp only [Stream.run]
    by_cases hneed : (managed data gt (.deferred limit) drain).needs (m, c) = true
    · rw [if_pos hneed]
      obtain ⟨k1, k2, k3⟩ := h.maintain drain hdrain
      exact step _ _ [.maintained] k1 (fun g hg t ht => k3 t (hnew g hg t ht)) (by rw [k2]; exact Nat.zero_le _) rfl
    · rw [if_neg hneed]
      refine step m c [] h hnew ?_ rfl
      have : ¬ (m.deleted.length > limit m.numActive) := by
        intro hh
        exact hneed (decide_eq_true hh)
      omega

/-- C97. With deferred reuse a valid runbook that inserts no tag twice runs to its end if the headroom suffices, with the
same outcome. What is missing: runbooks that insert a tag again after deleting it, see `C97_reinsertion_lost`. -/
theorem C97_deferred_partial (data : List V) (gt : List Char → Option (List (List Nat))) (limit : Nat → Nat)
    (drain : List Nat → List Nat) (hdrain : ∀ l, (drain l).Perm l) (stages : List Stage) (cap P : Nat) (m : Manager)
    (As : List (Finset Nat)) (hm : Manager.new cap = .ok m) (hcap : cap ≤ 2 ^ 32) (hist : history ∅ stages = some As)
    (hfit : FitsAll data gt ∅ stages) (hpeak : peak As ≤ P) (hroom : Headroom limit P cap) (hfresh : Fresh stages) :
    ∃ final outs, (managed data gt (.deferred limit) drain).run (m, fun _ => none) stages = (outs, .ok final) ∧
      ofStages outs = showsAll data gt (fun _ => none) stages ∧
      Holds (tableAfter data (fun _ => none) stages) (cap - 1) final := by
  obtain ⟨h1, -, h3⟩ := keeps_new (V := V) hm hcap
  obtain ⟨m', c', outs, e1, e2, e3⟩ := deferred_run data gt limit drain hdrain cap P hroom stages m _ _ ∅ As h1 hist hfit
    hpeak hfresh (fun _ _ t _ => h3 t)
  exact ⟨_, _, e1, e2, e3⟩

/-- C97. The capacity that the benchmark computes from the threshold `t` suffices for thresholds below one half, in exact
arithmetic: benchmarks.rs 856, managed.rs 175. -/
theorem C97_headroom (t : Rat) (h0 : 0 < t) (h1 : t < 1 / 2) (P : Nat) :
    Headroom (fun n => ⌊(n : Rat) * t⌋₊) P ⌈(P : Rat) * (1 + 2 * t)⌉₊ := by
  intro a d ha hd
  rw [Nat.lt_ceil]
  have hd' : (d : Rat) ≤ ((a + d + 1 : Nat) : Rat) * t := (Nat.le_floor_iff (by positivity)).1 hd
  have ha' : ((a : Rat) + 1) ≤ P := by exact_mod_cast ha
  push_cast at hd' ⊢
  have hP : (0 : Rat) < P := by have : (0 : Rat) ≤ a := Nat.cast_nonneg a; linarith
  have h2 : (d : Rat) * (1 - t) ≤ P * t := by nlinarith
  have h3 : (P : Rat) * t < P * (2 * t) * (1 - t) := by nlinarith [mul_pos hP h0]
  nlinarith

/-! ### Cases -/

def exData : List Char := ['a', 'b', 'c', 'd']

def exTruth (l : List Char) : Option (List (List Nat)) := if l = ['g'] then some [[2, 0]] else some [[0]]

/-- A runbook with all four operations. -/
def exStages : List Stage :=
  [.insert ⟨0, 3⟩, .delete ⟨1, 2⟩, .search ['g'], .insert ⟨3, 4⟩, .replace ⟨1, 2⟩ ⟨0, 1⟩, .search ['g']]

example : showsAll exData exTruth (fun _ => none) exStages =
    [.done, .done, .found [[some 'c', some 'a']], .done, .done, .found [[some 'c', some 'b']]] := by decide +kernel

example : history ∅ exStages = some [{0, 1, 2}, {0, 2}, {0, 2}, {0, 2, 3}, {0, 2, 3}, {0, 2, 3}] := by decide +kernel

theorem exStages_fit : FitsAll exData exTruth ∅ exStages := by
  refine ⟨⟨by decide, by decide⟩, ?_⟩
  intro B hB
  have hB : B = {0, 1, 2} := by
    have : after ∅ (.insert ⟨0, 3⟩) = some {0, 1, 2} := by decide +kernel
    rw [this] at hB; exact (Option.some.inj hB).symm
  subst hB
  refine ⟨by show (1 : Nat) < 2; decide, ?_⟩
  intro B hB
  have hB : B = {0, 2} := by
    have : after {0, 1, 2} (.delete ⟨1, 2⟩) = some {0, 2} := by decide +kernel
    rw [this] at hB; exact (Option.some.inj hB).symm
  subst hB
  refine ⟨⟨[[2, 0]], rfl, by decide⟩, ?_⟩
  intro B hB
  cases hB
  refine ⟨⟨by decide, by decide⟩, ?_⟩
  intro B hB
  have hB : B = {0, 2, 3} := by
    have : after {0, 2} (.insert ⟨3, 4⟩) = some {0, 2, 3} := by decide +kernel
    rw [this] at hB; exact (Option.some.inj hB).symm
  subst hB
  refine ⟨⟨by decide, by decide, by decide, by decide⟩, ?_⟩
  intro B hB
  have hB : B = {0, 2, 3} := by
    have : after {0, 2, 3} (.replace ⟨1, 2⟩ ⟨0, 1⟩) = some {0, 2, 3} := by decide +kernel
    rw [this] at hB; exact (Option.some.inj hB).symm
  subst hB
  refine ⟨⟨[[2, 0]], rfl, by decide⟩, ?_⟩
  intro B hB
  exact trivial

example : ∃ m, Manager.new 4 = .ok m ∧ ∃ final, (managed exData exTruth .immediate id).run (m, fun _ => none) exStages =
    (showsAll exData exTruth (fun _ => none) exStages, .ok final) ∧
    Holds (tableAfter exData (fun _ => none) exStages) 3 final :=
  ⟨_, rfl, C97_immediate exData exTruth id exStages 4 _ [{0, 1, 2}, {0, 2}, {0, 2}, {0, 2, 3}, {0, 2, 3}, {0, 2, 3}] rfl
    (by decide) (by decide +kernel) exStages_fit (by decide +kernel)⟩

theorem exHeadroom : Headroom (fun n => ⌊(n : Rat) * (1 / 4)⌋₊) 3 5 := by
  have := C97_headroom (1 / 4) (by norm_num) (by norm_num) 3
  have h5 : ⌈((3 : Nat) : Rat) * (1 + 2 * (1 / 4))⌉₊ = 5 := by rw [Nat.ceil_eq_iff (by decide)]; norm_num
  rwa [h5] at this

example : ∃ m, Manager.new 5 = .ok m ∧ ∃ final outs,
    (managed exData exTruth (.deferred fun n => ⌊(n : Rat) * (1 / 4)⌋₊) List.reverse).run (m, fun _ => none) exStages =
      (outs, .ok final) ∧ ofStages outs = showsAll exData exTruth (fun _ => none) exStages ∧
    Holds (tableAfter exData (fun _ => none) exStages) 4 final :=
  ⟨_, rfl, C97_deferred_partial exData exTruth _ List.reverse List.reverse_perm exStages 5 3 _
    [{0, 1, 2}, {0, 2}, {0, 2}, {0, 2, 3}, {0, 2, 3}, {0, 2, 3}] rfl (by decide) (by decide +kernel) exStages_fit
    (by decide +kernel) exHeadroom (by simp only [Fresh, exStages]; decide +kernel)⟩

/-! ### What fails -/

/-- The layer for a capacity. -/
def managedRun (data : List V) (gt : List Char → Option (List (List Nat))) (r : Reclaim) (cap : Nat) (stages : List Stage) :
    List (Seen V) × Out Unit :=
  match Manager.new cap with
  | .ok m =>
    match (managed data gt r id).run (m, fun _ => none) stages with
    | (outs, .ok _) => (outs, .ok ())
    | (outs, .err) => (outs, .err)
    | (outs, .panic) => (outs, .panic)
  | _ => ([], .panic)

/-- C97, refutation. With deferred reuse, a tag that is deleted and inserted again before the next maintenance loses its slot
when maintenance comes: the search for it fails although the runbook is valid. The threshold is 2/5, the capacity the one
that the benchmark computes for the peak of 2 points. -/
theorem C97_reinsertion_lost :
    ∃ stages As, history ∅ stages = some As ∧ FitsAll exData exTruth ∅ stages ∧ peak As = 2 ∧
      managedRun exData exTruth (.deferred fun n => n * 2 / 5) 4 stages =
        ([.done, .done, .done, .done, .maintained], .err) := by
  refine ⟨[.insert ⟨0, 2⟩, .delete ⟨0, 1⟩, .insert ⟨0, 1⟩, .delete ⟨1, 2⟩, .search []],
    [{0, 1}, {1}, {0, 1}, {0}, {0}], by decide +kernel, ?_, by decide +kernel, by decide +kernel⟩
  refine ⟨⟨by decide, by decide⟩, ?_⟩
  intro B hB
  have hB : B = {0, 1} := by
    have : after ∅ (.insert ⟨0, 2⟩) = some {0, 1} := by decide +kernel
    rw [this] at hB; exact (Option.some.inj hB).symm
  subst hB
  refine ⟨by show (0 : Nat) < 1; decide, ?_⟩
  intro B hB
  have hB : B = {1} := by
    have : after {0, 1} (.delete ⟨0, 1⟩) = some {1} := by decide +kernel
    rw [this] at hB; exact (Option.some.inj hB).symm
  subst hB
  refine ⟨⟨by decide, by decide⟩, ?_⟩
  intro B hB
  have hB : B = {0, 1} := by
    have : after {1} (.insert ⟨0, 1⟩) = some {0, 1} := by decide +kernel
    rw [this] at hB; exact (Option.some.inj hB).symm
  subst hB
  refine ⟨by show (1 : Nat) < 2; decide, ?_⟩
  intro B hB
  have hB : B = {0} := by
    have : after {0, 1} (.delete ⟨1, 2⟩) = some {0} := by decide +kernel
    rw [this] at hB; exact (Option.some.inj hB).symm
  subst hB
  exact ⟨⟨[[0]], rfl, by decide⟩, fun B _ => trivial⟩

/-- C97, refutation. With a threshold of one half the computed capacity does not suffice: one point at a time, the second
insertion finds no slot. -/
theorem C97_half_runs_out : ⌈((1 : Nat) : Rat) * (1 + 2 * (1 / 2))⌉₊ = 2 ∧
    history ∅ [.insert ⟨0, 1⟩, .delete ⟨0, 1⟩, .insert ⟨1, 2⟩] = some [{0}, ∅, {1}] ∧
    managedRun exData exTruth (.deferred fun n => n / 2) 2 [.insert ⟨0, 1⟩, .delete ⟨0, 1⟩, .insert ⟨1, 2⟩] =
      ([.done, .done], .err) :=
  ⟨by norm_num, by decide +kernel, by decide +kernel⟩

/-- C97, refutation. The bf-tree benchmark gives the layer one slot per point and start point less one, full_precision_streaming.rs
271. With two start points the layer hands out slot `P`, where the first start point lives: here `P` is 1. -/
theorem C97_start_point_overwritten :
    ∃ m, Manager.new (1 + 2) = .ok m ∧ ∃ final : Manager × Store Char,
      (managed exData exTruth .immediate id).run (m, fun _ => none) [.insert ⟨0, 1⟩, .delete ⟨0, 1⟩, .insert ⟨1, 2⟩] =
        ([.done, .done, .done], .ok final) ∧ final.1.slot 1 = some 1 ∧ final.2.vector 1 = some 'b' := by
  refine ⟨_, rfl, _, rfl, ?_, ?_⟩ <;> decide +kernel

/-- C97. With one start point the layer never hands out its slot. -/
theorem C97_one_start_point (data : List V) (gt : List Char → Option (List (List Nat))) (drain : List Nat → List Nat)
    (stages : List Stage) (P : Nat) (m : Manager) (As : List (Finset Nat)) (hm : Manager.new (P + 1) = .ok m)
    (hcap : P < 2 ^ 32) (hist : history ∅ stages = some As) (hfit : FitsAll data gt ∅ stages) (hpeak : peak As ≤ P) :
    ∃ final, (managed data gt .immediate drain).run (m, fun _ => none) stages =
        (showsAll data gt (fun _ => none) stages, .ok final) ∧
      ∀ i ≥ P, final.2.vector i = none := by
  obtain ⟨final, e1, e2, e3, e4⟩ := C97_immediate data gt drain stages (P + 1) m As hm (by omega) hist hfit (by omega)
  refine ⟨final, e1, fun i hi => ?_⟩
  cases hv : final.2.vector i with
  | none => rfl
  | some v =>
    obtain ⟨t, h1, h2⟩ := e4 i v hv
    obtain ⟨j, h3, h4, -⟩ := e2 t v h1
    rw [h2] at h3; cases h3
    omega

/-- C97, refutation. A runbook that is longer than the data is not refused: the insertion panics. -/
theorem C97_short_data_panics : managedRun exData exTruth .immediate 10 [.insert ⟨0, 3⟩, .insert ⟨3, 5⟩] =
    ([.done], .panic) := by decide +kernel

/-- C97, refutation. The number of active slots counts one too many: it is 1 for an empty index. -/
theorem C97_active_off_by_one (cap : Nat) (m : Manager) (h : Manager.new cap = .ok m) (hc : cap ≤ 2 ^ 32) :
    m.numActive = 1 := by
  obtain ⟨h1, h2, -⟩ := keeps_new (V := Unit) h hc
  have h3 := h1.count
  rw [h2] at h3
  simp only [List.length_append, List.length_nil, Finset.card_empty] at h3
  unfold Manager.numActive
  rw [h1.capEq]
  have : cap ≠ 0 := by
    rintro rfl
    cases h
  omega

example : ∃ m, Manager.new 5 = .ok m ∧ m.numActive = 1 := ⟨_, rfl, C97_active_off_by_one 5 _ rfl (by decide)⟩

end Verif.Runbook
