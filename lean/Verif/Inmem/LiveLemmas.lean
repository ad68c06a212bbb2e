import Verif.Inmem.LiveSpec
import Verif.Inmem.IdsLemmas

/-! # Lemmas on searches during inserts and deletes -/

namespace Verif.Inmem.Live

open Verif.Inmem

variable {V : Type}

theorem Outcome.mono {past : List (State V)} {capacity t : Nat} {pre out : List (Nat × V)} (s : State V)
    (h : Outcome past capacity t pre out) : Outcome (s :: past) capacity t pre out := by
  induction h with
  | nil => exact .nil
  | found _ h1 h2 h3 ih => exact .found ih (List.mem_cons_of_mem _ h1) h2 h3
  | start _ h1 ih => exact .start ih h1
  | gone _ h1 h2 h3 h4 h5 h6 ih => exact .gone ih (List.mem_cons_of_mem _ h1) h2 h3 (List.mem_cons_of_mem _ h4) h5 h6

attribute [local grind] HalfDel Owns HalfSet EntryOf HoldsKey HoldsShard Dying

/-- What a step of `set_element` or `delete` does to slots that were read. -/
structure Kept (s s' : PState) (c : PChoice) : Prop where
  cap : s'.maps.capacity = s.maps.capacity
  pub : ∀ i, s.tags i = PUBLISHED → s'.tags i = PUBLISHED ∨ s'.tags i = RETIRING
  ret : ∀ i, s.tags i = RETIRING → s'.tags i = RETIRING ∨ c = .reclaim i
  back : ∀ i, s.tags i ≠ OWNED → s'.maps.B i = s.maps.B i ∨ s'.maps.B i = none
  half : ∀ a e i, HalfDel (s.pcs a) e i → HalfDel (s'.pcs a) e i ∨ s'.maps.B i = none

theorem B_removeForward (m : Maps) (e i : Nat) : (m.removeForward e).B i = m.B i := rfl

set_option maxHeartbeats 4000000 in
theorem pact_kept {cap : Nat} {s s' : PState} {a : Nat} {c : PChoice} {ev : Option PEvent} (h : PInv cap s)
    (hact : pact a c s = some (s', ev)) : Kept s s' c := by
  have hT : AVAILABLE ≠ OWNED ∧ AVAILABLE ≠ PUBLISHED ∧ AVAILABLE ≠ RETIRING ∧ OWNED ≠ PUBLISHED ∧
    OWNED ≠ RETIRING ∧ PUBLISHED ≠ RETIRING := by decide
  obtain ⟨t1, t2, t3, t4, t5, t6⟩ := hT
  have own := h.own
  have hcap := h.capEq
  have own' := own a
  unfold pact at hact
  simp only at hact
  split at hact <;> rename_i hpc
  · split at hact
    · simp only [Option.some.injEq, Prod.mk.injEq] at hact
      obtain ⟨rfl, rfl⟩ := hact
      constructor <;> grind
    · cases hact
  · split at hact
    · simp only [Option.some.injEq, Prod.mk.injEq] at hact
      obtain ⟨rfl, rfl⟩ := hact
      constructor <;> grind
    · cases hact
  · simp only [Option.some.injEq, Prod.mk.injEq] at hact
    obtain ⟨rfl, rfl⟩ := hact
    constructor <;> grind
  · split at hact
    all_goals
      simp only [Option.some.injEq, Prod.mk.injEq] at hact
      obtain ⟨rfl, rfl⟩ := hact
      constructor <;> grind
  · rename_i e i
    split at hact
    · have hcapi : i < s.maps.capacity := by rw [hcap]; exact (own a i (by rw [hpc]; rfl)).2
      rcases insert_cases s.maps (e := e) hcapi with ⟨h1, h2⟩ | ⟨h1, h2, h3⟩ | ⟨h1, h2, h3⟩
      · rw [h2] at hact
        simp only [Option.some.injEq, Prod.mk.injEq] at hact
        obtain ⟨rfl, rfl⟩ := hact
        constructor <;> grind
      · rw [h3] at hact
        simp only [Option.some.injEq, Prod.mk.injEq] at hact
        obtain ⟨rfl, rfl⟩ := hact
        constructor <;> grind
      · rw [h3] at hact
        simp only [Option.some.injEq, Prod.mk.injEq] at hact
        obtain ⟨rfl, rfl⟩ := hact
        have ho := (own a i (by rw [hpc]; rfl)).1
        have hB : ∀ j, Maps.B { s.maps.setBack i (some e) with forward := upd s.maps.forward e (some i) } j =
          upd s.maps.B i (some e) j := fun j => congrFun (B_setBack_fun s.maps i (some e)) j
        have hb := not_rel h2
        have half := h.half
        refine ⟨rfl, by grind, by grind, fun j hj => ?_, fun b x j hj => ?_⟩
        · left
          refine (hB j).trans ?_
          rw [updEq, if_neg (fun e => hj (by rw [e]; exact ho))]
        · left; grind
    · cases hact
  · simp only [Option.some.injEq, Prod.mk.injEq] at hact
    obtain ⟨rfl, rfl⟩ := hact
    constructor <;> grind
  · rename_i e
    split at hact
    · cases ho : s.maps.occupiedEntry e with
      | none =>
        simp only [ho, Option.some.injEq, Prod.mk.injEq] at hact
        obtain ⟨rfl, rfl⟩ := hact
        constructor <;> grind
      | some o =>
        cases o with
        | none =>
          simp only [ho, Option.some.injEq, Prod.mk.injEq] at hact
          obtain ⟨rfl, rfl⟩ := hact
          constructor <;> grind
        | some i =>
          simp only [ho] at hact
          split at hact
          · simp only [Option.some.injEq, Prod.mk.injEq] at hact
            obtain ⟨rfl, rfl⟩ := hact
            constructor <;> grind
          · cases hact
    · cases hact
  · split at hact
    all_goals
      simp only [Option.some.injEq, Prod.mk.injEq] at hact
      obtain ⟨rfl, rfl⟩ := hact
      constructor <;> grind
  · simp only [Option.some.injEq, Prod.mk.injEq] at hact
    obtain ⟨rfl, rfl⟩ := hact
    have hC : ∀ e, (s.maps.removeForward e).capacity = s.maps.capacity := fun _ => rfl
    constructor <;> grind [B_removeForward]
  · simp only [Option.some.injEq, Prod.mk.injEq] at hact
    obtain ⟨rfl, rfl⟩ := hact
    have hC : ∀ i v, (s.maps.setBack i v).capacity = s.maps.capacity := fun _ _ => rfl
    constructor <;> grind [B_setBack]
  · cases hact

theorem encodes_owned {cap : Nat} {s : PState} {a i : Nat} {c : PChoice} (h : PInv cap s) (he : encodes s a c = some i) :
    s.tags i = OWNED ∧ i < cap := by
  unfold encodes at he
  split at he
  · split at he
    · rename_i hpc
      cases he
      exact h.own a i (by rw [hpc]; rfl)
    · cases he
  · cases he

/-- What holds in every state of a run. -/
structure LInv (cap k : Nat) (past : List (State V)) (s : State V) : Prop where
  p : PInv cap s.p
  held : ∀ t i v, (i, v) ∈ (s.sr t).reads → s.data i = v ∧ (i < cap → s.p.tags i = PUBLISHED ∨ s.p.tags i = RETIRING)
  seen : ∀ t i v, (i, v) ∈ (s.sr t).reads → i < cap → ∃ s' ∈ past, Reading s' t ∧ ∃ e, At s' e i v
  tr : ∀ t r c todo out n, s.sr t = .translating r c todo out n →
    (todo.map (·.1)).Nodup ∧ (∀ x ∈ todo, x ∈ r) ∧ (out.map (·.1)).Nodup ∧ n = out.length ∧ (out.length < k ∨ out = []) ∧
    (∀ e v j w, (e, v) ∈ out → (j, w) ∈ todo → s.p.maps.B j = some e → ∃ a, HalfDel (s.p.pcs a) e j) ∧
    (∃ pre, c = pre ++ todo ∧ Outcome past cap t pre out)
  dn : ∀ t c out n, s.sr t = .done c out n →
    (out.map (·.1)).Nodup ∧ out.length ≤ k ∧ n = min out.length (k - 1) ∧
    (∃ pre todo, c = pre ++ todo ∧ Outcome past cap t pre out ∧ (out.length < k → todo = []))

theorem init_linv (cap k : Nat) (data : Nat → V) : LInv cap k [] (State.init cap data) := by
  refine ⟨init_pinv cap, ?_, ?_, ?_, ?_⟩ <;> simp [State.init, Search.reads]

theorem read_some {s : State V} {i : Nat} {v : V} (h : s.read i = some v) :
    s.data i = v ∧ (i < s.p.maps.capacity → s.p.tags i = PUBLISHED) := by
  unfold State.read at h
  split at h
  · cases h; exact ⟨rfl, fun h => by omega⟩
  · split at h
    · cases h; exact ⟨rfl, fun _ => by assumption⟩
    · cases h

/-- A published slot belongs to an element. -/
theorem at_of_read {cap : Nat} {s : State V} {i : Nat} {v : V} (h : PInv cap s.p) (hi : i < cap) (hr : s.read i = some v) :
    ∃ e, At s e i v := by
  obtain ⟨⟨e, he⟩, -⟩ := h.pub i ((read_some hr).2 (by rw [h.capEq]; exact hi))
  exact ⟨e, he, by rw [h.capEq]; exact hi, hr⟩

/-- With the lock of its shard free, a slot that was read and is mapped back to `e` is the slot of element `e`. -/
theorem at_of_back {cap : Nat} {s : State V} {i e : Nat} {v : V} (h : PInv cap s.p) (hi : i < cap)
    (hl : s.p.shardLock (shardOf i).1 = none) (ht : s.p.tags i = PUBLISHED ∨ s.p.tags i = RETIRING)
    (hd : s.data i = v) (hb : s.p.maps.B i = some e) : At s e i v ∧ ∀ a, ¬ HalfDel (s.p.pcs a) e i := by
  have hlock : ∀ a, ¬ Dying (s.p.pcs a) i := fun a ha => not_rel hl a ((h.shard a _).mp (dying_shard ha))
  have hhd : ∀ a, ¬ HalfDel (s.p.pcs a) e i := fun a ha => hlock a (halfDel_dying ha)
  have hfw : Rel s.p.maps.forward e i := by
    rcases h.bf e i hb with h1 | ⟨a, h1⟩
    · exact h1
    · exact absurd h1 (hhd a)
  have hp : s.p.tags i = PUBLISHED := by
    rcases h.bt e i hb with h1 | ⟨a, h1⟩ | ⟨a, h1⟩
    · exact h1
    · have := (h.own a i (halfSet_owns h1)).1
      rw [this] at ht
      rcases ht with ht | ht <;> exact absurd ht (by decide)
    · exact absurd h1 (hlock a)
  refine ⟨⟨hfw, by rw [h.capEq]; exact hi, ?_⟩, hhd⟩
  unfold State.read
  rw [if_neg (by rw [h.capEq]; omega), if_pos hp, hd]

/-- Steps that change only the searches: the clauses of the other searches carry over. -/
theorem LInv.frame {cap k : Nat} {past : List (State V)} {s : State V} (h : LInv cap k past s) (t : Nat) (x : Search V)
    (hheld : ∀ i v, (i, v) ∈ x.reads → s.data i = v ∧ (i < cap → s.p.tags i = PUBLISHED ∨ s.p.tags i = RETIRING))
    (hseen : ∀ i v, (i, v) ∈ x.reads → i < cap → ∃ s' ∈ s :: past, Reading s' t ∧ ∃ e, At s' e i v)
    (htr : ∀ r c todo out n, x = .translating r c todo out n →
      (todo.map (·.1)).Nodup ∧ (∀ x ∈ todo, x ∈ r) ∧ (out.map (·.1)).Nodup ∧ n = out.length ∧ (out.length < k ∨ out = []) ∧
      (∀ e v j w, (e, v) ∈ out → (j, w) ∈ todo → s.p.maps.B j = some e → ∃ a, HalfDel (s.p.pcs a) e j) ∧
      (∃ pre, c = pre ++ todo ∧ Outcome (s :: past) cap t pre out))
    (hdn : ∀ c out n, x = .done c out n →
      (out.map (·.1)).Nodup ∧ out.length ≤ k ∧ n = min out.length (k - 1) ∧
      (∃ pre todo, c = pre ++ todo ∧ Outcome (s :: past) cap t pre out ∧ (out.length < k → todo = []))) :
    LInv cap k (s :: past) { s with sr := upd s.sr t x } := by
  refine ⟨h.p, ?_, ?_, ?_, ?_⟩
  · intro t' i v hm
    simp only [updEq] at hm ⊢
    split at hm
    · exact hheld i v hm
    · exact h.held t' i v hm
  · intro t' i v hm hi
    simp only [updEq] at hm
    split at hm
    · rename_i e; subst e; exact hseen i v hm hi
    · obtain ⟨s', h1, h2⟩ := h.seen t' i v hm hi
      exact ⟨s', List.mem_cons_of_mem _ h1, h2⟩
  · intro t' r c todo out n he
    simp only [updEq] at he
    split at he
    · rename_i e; subst e; exact htr r c todo out n he
    · obtain ⟨h1, h2, h3, h4, h5, h6, pre, h7, h8⟩ := h.tr t' r c todo out n he
      exact ⟨h1, h2, h3, h4, h5, h6, pre, h7, h8.mono s⟩
  · intro t' c out n he
    simp only [updEq] at he
    split at he
    · rename_i e; subst e; exact hdn c out n he
    · obtain ⟨h1, h2, h3, pre, todo, h4, h5, h6⟩ := h.dn t' c out n he
      exact ⟨h1, h2, h3, pre, todo, h4, h5.mono s, h6⟩

theorem toExternal_lt (m : Maps) {i : Nat} (h : i < m.capacity) : m.toExternal i = some (m.B i) := by
  unfold Maps.toExternal
  rw [if_neg (by omega), back_eq m h]

theorem write_linv {cap k : Nat} {past : List (State V)} {s s' : State V} {a : Nat} {c : PChoice} {v : V}
    (h : LInv cap k past s) (hal : Allowed s (.write a c v)) (hs : step k s (.write a c v) = some s') :
    LInv cap k (s :: past) s' := by
  simp only [step] at hs
  cases hp : pact a c s.p with
  | none => rw [hp] at hs; cases hs
  | some r =>
    obtain ⟨p', ev⟩ := r
    rw [hp] at hs
    simp only [Option.some.injEq] at hs
    subst hs
    have hk := pact_kept h.p hp
    have hno : OWNED ≠ PUBLISHED ∧ OWNED ≠ RETIRING := by decide
    -- slots held by searches are not owned by an insertion
    have hro : ∀ t i w, (i, w) ∈ (s.sr t).reads → i < cap → s.p.tags i ≠ OWNED := by
      intro t i w hm hi ho
      rcases (h.held t i w hm).2 hi with h1 | h1 <;> rw [ho] at h1
      · exact hno.1 h1
      · exact hno.2 h1
    refine ⟨pact_pinv h.p hp, ?_, ?_, ?_, ?_⟩
    · intro t i w hm
      simp only at hm ⊢
      obtain ⟨h1, h2⟩ := h.held t i w hm
      refine ⟨?_, fun hi => ?_⟩
      · cases he : encodes s.p a c with
        | none => exact h1
        | some j =>
          obtain ⟨ho, hj⟩ := encodes_owned h.p he
          simp only [updEq]
          rw [if_neg]
          · exact h1
          · intro e; subst e; exact hro t i w hm hj ho
      · rcases h2 hi with h3 | h3
        · exact hk.pub i h3
        · rcases hk.ret i h3 with h4 | h4
          · exact Or.inr h4
          · subst h4; exact absurd hm (hal t w)
    · intro t i w hm hi
      obtain ⟨s', h1, h2⟩ := h.seen t i w hm hi
      exact ⟨s', List.mem_cons_of_mem _ h1, h2⟩
    · intro t r c' todo out n he
      obtain ⟨h1, h2, h3, h4, h5, h6, pre, h7, h8⟩ := h.tr t r c' todo out n he
      refine ⟨h1, h2, h3, h4, h5, ?_, pre, h7, h8.mono s⟩
      intro e w j u hout htodo hB
      simp only at hB ⊢
      have hjr : (j, u) ∈ (s.sr t).reads := by rw [he]; exact h2 _ htodo
      have hjo : s.p.tags j ≠ OWNED := by
        by_cases hj : j < cap
        · exact hro t j u hjr hj
        · intro ho
          obtain ⟨b, hb⟩ := h.p.ownBack j ho
          exact hj (h.p.own b j hb).2
      rcases hk.back j hjo with h9 | h9
      · obtain ⟨b, hb⟩ := h6 e w j u hout htodo (by rw [← h9]; exact hB)
        rcases hk.half b e j hb with h10 | h10
        · exact ⟨b, h10⟩
        · rw [h10] at hB; cases hB
      · rw [h9] at hB; cases hB
    · intro t c' out n he
      obtain ⟨h1, h2, h3, pre, todo, h4, h5, h6⟩ := h.dn t c' out n he
      exact ⟨h1, h2, h3, pre, todo, h4, h5.mono s, h6⟩

theorem nodup_snoc {α β : Type} {l : List (α × β)} {x : α × β} (h : (l.map (·.1)).Nodup) (hx : x.1 ∉ l.map (·.1)) :
    ((l ++ [x]).map (·.1)).Nodup := by
  rw [List.map_append, List.nodup_append]
  refine ⟨h, by simp, ?_⟩
  intro a ha b hb
  simp only [List.map_cons, List.map_nil, List.mem_singleton] at hb
  subst hb
  intro e; subst e; exact hx ha

theorem translate_linv {cap k : Nat} {past : List (State V)} {s s' : State V} {t : Nat}
    (h : LInv cap k past s) (hs : step k s (.translate t) = some s') : LInv cap k (s :: past) s' := by
  simp only [step] at hs
  split at hs
  · rename_i r cands out n hsr
    cases hs
    obtain ⟨h1, h2, h3, h4, h5, h6, pre, h7, h8⟩ := h.tr t _ _ _ _ _ hsr
    refine h.frame t _ (by simp [Search.reads]) (by simp [Search.reads]) (by simp) ?_
    intro c' out' n' e
    cases e
    refine ⟨h3, ?_, ?_, pre, [], h7, h8.mono s, fun _ => rfl⟩
    · rcases h5 with h5 | h5
      · omega
      · simp [h5]
    · rcases h5 with h5 | h5
      · omega
      · subst h5; simpa using h4
  · rename_i r cands i v rest out n hsr
    split at hs
    · cases hs
    rename_i hlock
    obtain ⟨h1, h2, h3, h4, h5, h6, pre, h7, h8⟩ := h.tr t _ _ _ _ _ hsr
    have hcol : Collecting s t := ⟨_, _, _, _, _, hsr⟩
    have hir : (i, v) ∈ (s.sr t).reads := by rw [hsr]; exact h2 _ List.mem_cons_self
    have hheld : ∀ j w, (j, w) ∈ r → s.data j = w ∧ (j < cap → s.p.tags j = PUBLISHED ∨ s.p.tags j = RETIRING) := by
      intro j w hj
      exact h.held t j w (by rw [hsr]; exact hj)
    have hseen : ∀ j w, (j, w) ∈ r → j < cap → ∃ s' ∈ s :: past, Reading s' t ∧ ∃ e, At s' e j w := by
      intro j w hj hjc
      obtain ⟨s', g1, g2⟩ := h.seen t j w (by rw [hsr]; exact hj) hjc
      exact ⟨s', List.mem_cons_of_mem _ g1, g2⟩
    have hnd := h1
    simp only [List.map_cons, List.nodup_cons] at hnd
    have hpre : cands = (pre ++ [(i, v)]) ++ rest := by rw [h7]; simp
    by_cases hic : i < cap
    · have hicc : i < s.p.maps.capacity := by rw [h.p.capEq]; exact hic
      have hl : s.p.shardLock (shardOf i).1 = none := by
        by_contra hne
        exact hlock ⟨hicc, hne⟩
      rw [toExternal_lt _ hicc] at hs
      cases hB : s.p.maps.B i with
      | none =>
        rw [hB] at hs
        simp only [Option.some.injEq] at hs
        subst hs
        refine h.frame t _ hheld hseen ?_ (by simp)
        intro r' c' todo' out' n' e
        cases e
        refine ⟨hnd.2, fun x hx => h2 x (List.mem_cons_of_mem _ hx), h3, h4, h5,
          fun e w j u ho ht => h6 e w j u ho (List.mem_cons_of_mem _ ht), pre ++ [(i, v)], hpre, ?_⟩
        obtain ⟨s₁, g1, g2, e, g3⟩ := h.seen t i v hir hic
        refine .gone (h8.mono s) (List.mem_cons_of_mem _ g1) g2 g3 List.mem_cons_self hcol ?_
        rintro w ⟨a1, -, -⟩
        have := (h.p.fb e i a1).2.1
        rw [Rel, hB] at this
        cases this
      | some e =>
        rw [hB] at hs
        simp only [Option.some.injEq] at hs
        subst hs
        obtain ⟨hat, hhd⟩ := at_of_back h.p hic hl ((h.held t i v hir).2 hic) (h.held t i v hir).1 hB
        have hnew : e ∉ out.map (·.1) := by
          intro hm
          obtain ⟨⟨e', w⟩, hm1, hm2⟩ := List.mem_map.mp hm
          simp only at hm2
          subst hm2
          obtain ⟨a, ha⟩ := h6 e' w i v hm1 List.mem_cons_self hB
          exact hhd a ha
        have hout : Outcome (s :: past) cap t (pre ++ [(i, v)]) (out ++ [(e, v)]) :=
          .found (h8.mono s) List.mem_cons_self hcol hat
        have hdup : ∀ e' w j u, (e', w) ∈ out ++ [(e, v)] → (j, u) ∈ rest → s.p.maps.B j = some e' →
            ∃ a, HalfDel (s.p.pcs a) e' j := by
          intro e' w j u ho hj hBj
          rcases List.mem_append.mp ho with ho | ho
          · exact h6 e' w j u ho (List.mem_cons_of_mem _ hj) hBj
          · simp only [List.mem_singleton, Prod.mk.injEq] at ho
            obtain ⟨rfl, rfl⟩ := ho
            rcases h.p.bf e' j hBj with g | g
            · have : j = i := rel_uniq g hat.1
              subst this
              exact absurd (List.mem_map.mpr ⟨(j, u), hj, rfl⟩) hnd.1
            · exact g
        unfold translated push
        by_cases hk : out.length = k
        · rw [if_pos hk]
          -- the buffer has no place at all
          have hk0 : out = [] := by
            rcases h5 with h5 | h5
            · omega
            · exact h5
          subst hk0
          simp only [List.length_nil] at hk
          subst hk
          refine h.frame t _ (by simp [Search.reads]) (by simp [Search.reads]) (by simp) ?_
          intro c' out' n' e'
          cases e'
          exact ⟨by simp, by simp, by simpa using h4, pre, (i, v) :: rest, h7, h8.mono s, by simp⟩
        · rw [if_neg hk]
          have hlen : out.length < k := by
            rcases h5 with h5 | h5
            · exact h5
            · subst h5; simp only [List.length_nil] at hk ⊢; omega
          by_cases hk1 : out.length + 1 = k
          · rw [if_pos hk1]
            refine h.frame t _ (by simp [Search.reads]) (by simp [Search.reads]) (by simp) ?_
            intro c' out' n' e'
            cases e'
            refine ⟨nodup_snoc h3 hnew, by simp; omega, by simp; omega, pre ++ [(i, v)], rest, hpre, hout, ?_⟩
            intro hlt
            simp only [List.length_append, List.length_cons, List.length_nil] at hlt
            omega
          · rw [if_neg hk1]
            refine h.frame t _ hheld hseen ?_ (by simp)
            intro r' c' todo' out' n' e'
            cases e'
            refine ⟨hnd.2, fun x hx => h2 x (List.mem_cons_of_mem _ hx), nodup_snoc h3 hnew, by simp [h4],
              Or.inl (by simp; omega), hdup, pre ++ [(i, v)], hpre, hout⟩
    · have hic' : s.p.maps.capacity ≤ i := by rw [h.p.capEq]; omega
      have : s.p.maps.toExternal i = some none := by unfold Maps.toExternal; rw [if_pos hic']
      rw [this] at hs
      simp only [Option.some.injEq] at hs
      subst hs
      refine h.frame t _ hheld hseen ?_ (by simp)
      intro r' c' todo' out' n' e
      cases e
      exact ⟨hnd.2, fun x hx => h2 x (List.mem_cons_of_mem _ hx), h3, h4, h5,
        fun e w j u ho ht => h6 e w j u ho (List.mem_cons_of_mem _ ht), pre ++ [(i, v)], hpre, .start (h8.mono s) (by omega)⟩
  · cases hs

theorem step_linv {cap k : Nat} {past : List (State V)} {s s' : State V} {c : Choice V}
    (h : LInv cap k past s) (hal : Allowed s c) (hs : step k s c = some s') : LInv cap k (s :: past) s' := by
  cases c with
  | write a c v => exact write_linv h hal hs
  | translate t => exact translate_linv h hs
  | finish a outs =>
    have hre : ∀ x : State V, x.p = s.p → x.data = s.data → x.sr = s.sr → LInv cap k (s :: past) x := by
      intro x hp hd hsr
      refine ⟨hp ▸ h.p, ?_, ?_, ?_, ?_⟩
      · intro t i v hm; rw [hsr] at hm; rw [hp, hd]; exact h.held t i v hm
      · intro t i v hm hi
        rw [hsr] at hm
        obtain ⟨s', h1, h2⟩ := h.seen t i v hm hi
        exact ⟨s', List.mem_cons_of_mem _ h1, h2⟩
      · intro t r c todo out n he
        rw [hsr] at he; rw [hp]
        obtain ⟨h1, h2, h3, h4, h5, h6, pre, h7, h8⟩ := h.tr t r c todo out n he
        exact ⟨h1, h2, h3, h4, h5, h6, pre, h7, h8.mono s⟩
      · intro t c out n he
        rw [hsr] at he
        obtain ⟨h1, h2, h3, pre, todo, h4, h5, h6⟩ := h.dn t c out n he
        exact ⟨h1, h2, h3, pre, todo, h4, h5.mono s, h6⟩
    simp only [step] at hs
    split at hs
    · cases hs
    · cases hs; exact hre _ rfl rfl rfl
    · cases hs; exact hre _ rfl rfl rfl
  | begin t =>
    simp only [step] at hs
    split at hs
    · cases hs
      exact h.frame t _ (by simp [Search.reads]) (by simp [Search.reads]) (by simp) (by simp)
    · cases hs
  | read t i =>
    simp only [step] at hs
    split at hs
    · rename_i r hsr
      split at hs
      · rename_i v hv
        cases hs
        have hr := read_some hv
        refine h.frame t _ ?_ ?_ (by simp) (by simp)
        · intro j w hm
          simp only [Search.reads, List.mem_append, List.mem_singleton, Prod.mk.injEq] at hm
          rcases hm with hm | ⟨rfl, rfl⟩
          · exact h.held t j w (by rw [hsr]; exact hm)
          · exact ⟨hr.1, fun hj => Or.inl (hr.2 (by rw [h.p.capEq]; exact hj))⟩
        · intro j w hm hj
          simp only [Search.reads, List.mem_append, List.mem_singleton, Prod.mk.injEq] at hm
          rcases hm with hm | ⟨rfl, rfl⟩
          · obtain ⟨s', h1, h2⟩ := h.seen t j w (by rw [hsr]; exact hm) hj
            exact ⟨s', List.mem_cons_of_mem _ h1, h2⟩
          · exact ⟨s, List.mem_cons_self, ⟨r, hsr⟩, at_of_read h.p hj hv⟩
      · cases hs
        have := h.frame t (.reading r) (fun j w hm => h.held t j w (by rw [hsr]; exact hm))
          (fun j w hm hj => by
            obtain ⟨s', h1, h2⟩ := h.seen t j w (by rw [hsr]; exact hm) hj
            exact ⟨s', List.mem_cons_of_mem _ h1, h2⟩) (by simp) (by simp)
        have hid : upd s.sr t (.reading r) = s.sr := by
          funext x; simp only [updEq]; split
          · rename_i e; subst e; exact hsr.symm
          · rfl
        rw [hid] at this
        exact this
    · cases hs
  | rank t cands =>
    simp only [step] at hs
    split at hs
    · rename_i r hsr
      cases hs
      obtain ⟨hal1, hal2⟩ := hal
      rw [hsr] at hal2
      refine h.frame t _ (fun j w hm => h.held t j w (by rw [hsr]; exact hm))
        (fun j w hm hj => by
          obtain ⟨s', h1, h2⟩ := h.seen t j w (by rw [hsr]; exact hm) hj
          exact ⟨s', List.mem_cons_of_mem _ h1, h2⟩) ?_ (by simp)
      intro r' c' todo' out' n' e
      cases e
      exact ⟨hal1, hal2, by simp, rfl, Or.inr rfl, by simp, [], rfl, .nil⟩
    · cases hs

theorem run_linv {cap k : Nat} {data : Nat → V} {past : List (State V)} {s : State V} (h : Run cap k data past s) :
    LInv cap k past s := by
  induction h with
  | start => exact init_linv cap k data
  | step c _ hal hs ih => exact step_linv ih hal hs

end Verif.Inmem.Live
