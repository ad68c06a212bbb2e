import Verif.Runner.CheckSpec
import Mathlib.Data.List.Nodup
import Mathlib.Data.List.Basic
import Mathlib.Tactic.ByContra
/-
Lemmas about the model of regression checks.
-/
namespace Verif.Runner

/-! ### Structural subsets -/

theorem subset_agree {h n : Json} (hs : Subset h n) : Agree h n := by
  obtain ⟨w, hw, ha⟩ := hs [] n (by cases n <;> rfl)
  have : part h [] = some h := by cases h <;> rfl
  rw [this] at hw; cases hw; exact ha

theorem part_nil (v : Json) : part v [] = some v := by cases v <;> rfl

theorem subset_arr {a b : List Json} :
    Subset (.arr a) (.arr b) ↔ b.length ≤ a.length ∧ ∀ p ∈ a.zip b, Subset p.1 p.2 := by
  constructor
  · intro hs
    have hget : ∀ (i : Nat) (y : Json), b[i]? = some y → ∃ x, a[i]? = some x ∧ Subset x y := by
      intro i y hy
      obtain ⟨w, hw, _⟩ := hs [.idx i] y (by simp [part, hy, part_nil])
      cases hx : a[i]? with
      | none => simp [part, hx] at hw
      | some x =>
        refine ⟨x, rfl, ?_⟩
        intro p v hv
        obtain ⟨w, hw, ha⟩ := hs (.idx i :: p) v (by simp [part, hy, hv])
        simp only [part, hx] at hw
        exact ⟨w, hw, ha⟩
    refine ⟨?_, ?_⟩
    · by_contra hlt
      have hlt : a.length < b.length := by omega
      obtain ⟨x, hx, _⟩ := hget a.length b[a.length] (by simp [hlt])
      simp at hx
    · intro p hp
      obtain ⟨i, hi, he⟩ := List.mem_iff_getElem.1 hp
      rw [List.getElem_zip] at he
      simp only [List.length_zip] at hi
      obtain ⟨x, hx, hsub⟩ := hget i b[i] (List.getElem?_eq_getElem (by omega))
      rw [List.getElem?_eq_getElem (show i < a.length by omega)] at hx
      cases hx
      rw [← he]; exact hsub
  · rintro ⟨hl, hz⟩ p v hv
    cases p with
    | nil => rw [part_nil] at hv ⊢; cases hv; exact ⟨_, rfl, .arr _ _⟩
    | cons s p =>
      cases s with
      | key k => simp [part] at hv
      | idx i =>
        simp only [part] at hv ⊢
        cases hy : b[i]? with
        | none => simp [hy] at hv
        | some y =>
          simp only [hy] at hv
          have hib : i < b.length := (List.getElem?_eq_some_iff.1 hy).1
          have hia : i < a.length := by omega
          have hm : (a[i], b[i]) ∈ a.zip b := by
            rw [List.mem_iff_getElem]
            exact ⟨i, by rw [List.length_zip]; omega, List.getElem_zip ..⟩
          have hyb : b[i] = y := (List.getElem?_eq_some_iff.1 hy).2
          rw [List.getElem?_eq_getElem hia]
          exact hz _ hm p v (by rw [hyb]; exact hv)

theorem lookup_mem {l : List (String × Json)} (hn : (l.map (·.1)).Nodup) {k : String} {v : Json} :
    l.lookup k = some v ↔ (k, v) ∈ l := by
  induction l with
  | nil => simp
  | cons p l ih =>
    obtain ⟨k', v'⟩ := p
    simp only [List.map_cons, List.nodup_cons] at hn
    rw [List.lookup_cons]
    by_cases hk : k = k'
    · subst hk
      simp only [BEq.rfl, List.mem_cons, Prod.mk.injEq, true_and]
      constructor
      · intro h; left; cases h; rfl
      · rintro (rfl | h)
        · rfl
        · exact absurd (List.mem_map.2 ⟨(k, v), h, rfl⟩) hn.1
    · have : (k == k') = false := by simpa using hk
      simp only [this, List.mem_cons, Prod.mk.injEq, hk, false_and, false_or]
      exact ih hn.2

theorem subset_obj {a b : List (String × Json)} (hn : (b.map (·.1)).Nodup) :
    Subset (.obj a) (.obj b) ↔ ∀ p ∈ b, ∃ w, a.lookup p.1 = some w ∧ Subset w p.2 := by
  constructor
  · rintro hs ⟨k, y⟩ hp
    have hy := (lookup_mem hn).2 hp
    obtain ⟨w, hw, _⟩ := hs [.key k] y (by simp [part, hy, part_nil])
    cases hx : a.lookup k with
    | none => simp [part, hx] at hw
    | some x =>
      refine ⟨x, rfl, ?_⟩
      intro p v hv
      obtain ⟨w, hw, ha⟩ := hs (.key k :: p) v (by simp [part, hy, hv])
      simp only [part, hx] at hw
      exact ⟨w, hw, ha⟩
  · rintro hall p v hv
    cases p with
    | nil => rw [part_nil] at hv ⊢; cases hv; exact ⟨_, rfl, .obj _ _⟩
    | cons s p =>
      cases s with
      | idx i => simp [part] at hv
      | key k =>
        simp only [part] at hv ⊢
        cases hy : b.lookup k with
        | none => simp [hy] at hv
        | some y =>
          simp only [hy] at hv
          obtain ⟨w, hw, hsub⟩ := hall (k, y) ((lookup_mem hn).1 hy)
          simp only at hw hsub
          rw [hw]
          exact hsub p v hv

theorem subset_scalar {h n : Json} (hn : ∀ (s : Seg) (p : List Seg), part n (s :: p) = none) (ha : Agree h n) :
    Subset h n := by
  intro p v hv
  cases p with
  | nil => rw [part_nil] at hv ⊢; cases hv; exact ⟨_, rfl, ha⟩
  | cons s p => rw [hn] at hv; cases hv

/-- All pairs on the stack are subsets. -/
def AllSub (st : List (Json × Json)) : Prop := ∀ p ∈ st, Subset p.1 p.2

def weights (st : List (Json × Json)) : Nat := (st.map fun p => weight p.2).sum

theorem weight_pos (n : Json) : 0 < weight n := by cases n <;> simp [weight]

theorem pushFields_none {a : List (String × Json)} : ∀ {b : List (String × Json)} {st : List (Json × Json)},
    pushFields a b st = none → ∃ p ∈ b, a.lookup p.1 = none
  | [], st, h => by simp [pushFields] at h
  | (k, v) :: b, st, h => by
    unfold pushFields at h
    split at h
    · obtain ⟨p, hp, hl⟩ := pushFields_none h
      exact ⟨p, List.mem_cons_of_mem _ hp, hl⟩
    · rename_i hl
      exact ⟨(k, v), List.mem_cons_self, hl⟩

theorem pushFields_some {a : List (String × Json)} : ∀ {b : List (String × Json)} {st st' : List (Json × Json)},
    pushFields a b st = some st' →
      (∀ q, q ∈ st' ↔ q ∈ st ∨ ∃ p ∈ b, a.lookup p.1 = some q.1 ∧ q.2 = p.2) ∧ (∀ p ∈ b, ∃ w, a.lookup p.1 = some w) ∧
      weights st' = weights st + weightFields b
  | [], st, st', h => by
    simp only [pushFields, Option.some.injEq] at h
    subst h
    simp [weightFields]
  | (k, v) :: b, st, st', h => by
    unfold pushFields at h
    split at h
    · rename_i w hl
      obtain ⟨h1, h2, h3⟩ := pushFields_some h
      refine ⟨?_, ?_, ?_⟩
      · intro q
        rw [h1 q]
        simp only [List.mem_cons, exists_eq_or_imp]
        constructor
        · rintro ((rfl | hq) | hq)
          · right; left; exact ⟨hl, rfl⟩
          · left; exact hq
          · right; right; exact hq
        · rintro (hq | ⟨hq, hv⟩ | hq)
          · left; right; exact hq
          · left; left
            rw [hl] at hq
            cases q
            simp only [Option.some.injEq] at hq hv
            rw [hq, hv]
          · right; exact hq
      · intro p hp
        rcases List.mem_cons.1 hp with rfl | hp
        · exact ⟨w, hl⟩
        · exact h2 p hp
      · rw [h3]; simp only [weights, List.map_cons, List.sum_cons, weightFields]; omega
    · cases h

theorem weights_zip : ∀ (a b : List Json), weights (a.zip b) ≤ weightList b
  | [], b => by simp [weights]
  | x :: a, [] => by simp [weights]
  | x :: a, y :: b => by
    have := weights_zip a b
    simp only [weights, List.zip_cons_cons, List.map_cons, List.sum_cons, weightList] at this ⊢
    omega

theorem weights_append (a b : List (Json × Json)) : weights (a ++ b) = weights a + weights b := by simp [weights]

theorem weights_reverse (a : List (Json × Json)) : weights a.reverse = weights a := by simp [weights]

theorem compareStep_none {h n : Json} {st : List (Json × Json)} (hk : Keys n) (he : compareStep h n st = none) :
    ¬ Subset h n := by
  intro hs
  have ha := subset_agree hs
  cases ha with
  | null => simp [compareStep] at he
  | bool b => simp [compareStep] at he
  | num b => simp [compareStep] at he
  | str b => simp [compareStep] at he
  | arr a b =>
    have := (subset_arr.1 hs).1
    simp only [compareStep] at he
    rw [if_neg (by omega)] at he
    cases he
  | obj a b =>
    cases hk with
    | obj _ hn hv =>
      simp only [compareStep] at he
      obtain ⟨p, hp, hl⟩ := pushFields_none he
      obtain ⟨w, hw, _⟩ := (subset_obj hn).1 hs p hp
      rw [hl] at hw; cases hw

theorem compareStep_some {h n : Json} {st st' : List (Json × Json)} (hk : Keys n) (hst : ∀ p ∈ st, Keys p.2)
    (he : compareStep h n st = some st') :
    (AllSub st' ↔ Subset h n ∧ AllSub st) ∧ (∀ p ∈ st', Keys p.2) ∧ weights st' < weight n + weights st := by
  have scalar : ∀ (hs : Subset h n), st' = st →
      (AllSub st' ↔ Subset h n ∧ AllSub st) ∧ (∀ p ∈ st', Keys p.2) ∧ weights st' < weight n + weights st := by
    rintro hs rfl
    have := weight_pos n
    exact ⟨⟨fun h => ⟨hs, h⟩, fun h => h.2⟩, hst, by omega⟩
  unfold compareStep at he
  split at he
  · simp only [Option.some.injEq] at he
    exact scalar (subset_scalar (by intro s p; cases s <;> simp [part]) .null) he.symm
  · split at he
    · cases he
    · rename_i hne
      have hne := of_decide_eq_true (by simpa using hne)
      simp only [Option.some.injEq] at he
      subst hne
      exact scalar (subset_scalar (by intro s p; cases s <;> simp [part]) (.bool _)) he.symm
  · split at he
    · cases he
    · rename_i hne
      simp only [ne_eq, Decidable.not_not] at hne
      simp only [Option.some.injEq] at he
      subst hne
      exact scalar (subset_scalar (by intro s p; cases s <;> simp [part]) (.num _)) he.symm
  · split at he
    · cases he
    · rename_i hne
      simp only [bne_iff_ne, ne_eq, Decidable.not_not] at hne
      simp only [Option.some.injEq] at he
      subst hne
      exact scalar (subset_scalar (by intro s p; cases s <;> simp [part]) (.str _)) he.symm
  · rename_i a b
    split at he
    · cases he
    · rename_i hl
      simp only [Option.some.injEq] at he
      subst he
      cases hk with
      | arr _ hv =>
      refine ⟨?_, ?_, ?_⟩
      · rw [subset_arr]
        simp only [AllSub, List.mem_append, List.mem_reverse]
        constructor
        · intro h
          exact ⟨⟨by omega, fun p hp => h p (Or.inl hp)⟩, fun p hp => h p (Or.inr hp)⟩
        · rintro ⟨⟨_, h1⟩, h2⟩ p (hp | hp)
          · exact h1 p hp
          · exact h2 p hp
      · intro p hp
        rcases List.mem_append.1 hp with hp | hp
        · rw [List.mem_reverse] at hp
          exact hv _ (List.of_mem_zip hp).2
        · exact hst p hp
      · rw [weights_append, weights_reverse]
        have := weights_zip a b
        simp only [weight]
        omega
  · rename_i a b
    cases hk with
    | obj _ hn hv =>
    obtain ⟨h1, h2, h3⟩ := pushFields_some he
    refine ⟨?_, ?_, ?_⟩
    · rw [subset_obj hn]
      constructor
      · intro h
        refine ⟨?_, fun p hp => h p ((h1 p).2 (Or.inl hp))⟩
        intro p hp
        obtain ⟨w, hw⟩ := h2 p hp
        exact ⟨w, hw, h (w, p.2) ((h1 _).2 (Or.inr ⟨p, hp, hw, rfl⟩))⟩
      · rintro ⟨ho, hs⟩ q hq
        rcases (h1 q).1 hq with hq | ⟨p, hp, hl, hv'⟩
        · exact hs q hq
        · obtain ⟨w, hw, hsub⟩ := ho p hp
          rw [hl] at hw
          cases hw
          rw [hv']; exact hsub
    · intro q hq
      rcases (h1 q).1 hq with hq | ⟨p, hp, _, hv'⟩
      · exact hst q hq
      · rw [hv']; exact hv p hp
    · rw [h3]; simp only [weight]; omega
  · cases he

theorem subsetLoop_spec : ∀ (fuel : Nat) (h n : Json) (st : List (Json × Json)), Keys n → (∀ p ∈ st, Keys p.2) →
    weight n + weights st ≤ fuel →
    ∃ b, subsetLoop fuel h n st = some b ∧ (b = true ↔ Subset h n ∧ AllSub st)
  | 0, h, n, st, hk, hst, hf => by
    have := weight_pos n
    omega
  | fuel + 1, h, n, st, hk, hst, hf => by
    unfold subsetLoop
    cases he : compareStep h n st with
    | none => exact ⟨false, rfl, by simp [compareStep_none hk he]⟩
    | some st' =>
      obtain ⟨h1, h2, h3⟩ := compareStep_some hk hst he
      cases st' with
      | nil =>
        refine ⟨true, rfl, ?_⟩
        rw [← h1]; simp [AllSub]
      | cons p st' =>
        obtain ⟨h', n'⟩ := p
        simp only
        obtain ⟨b, hb, hbs⟩ := subsetLoop_spec fuel h' n' st' (h2 _ List.mem_cons_self)
          (fun p hp => h2 p (List.mem_cons_of_mem _ hp)) (by
            simp only [weights, List.map_cons, List.sum_cons] at h3 ⊢
            simp only [weights] at hf
            omega)
        refine ⟨b, hb, hbs.trans ?_⟩
        rw [← h1]
        simp [AllSub]

theorem isSubset_iff {h n : Json} (hk : Keys n) : isSubset h n = true ↔ Subset h n := by
  obtain ⟨b, hb, hs⟩ := subsetLoop_spec (weight n) h n [] hk (by simp) (by simp [weights])
  unfold isSubset
  rw [hb]
  simpa [AllSub] using hs

/-! ### The double loop and the matches -/

theorem inner_fold (hit : Nat → Nat → Bool) (i : Nat) (p q : List (List Nat)) : ∀ n,
    (List.range n).foldl (fun s j => if hit i j then (pushAt s.1 i j, pushAt s.2 j i) else s) (p, q) =
      (p.modify i (· ++ (List.range n).filter (hit i)),
        q.mapIdx fun j l => if j < n ∧ hit i j then l ++ [i] else l)
  | 0 => by
    simp only [List.range_zero, List.foldl_nil, List.filter_nil, List.append_nil, Nat.not_lt_zero, false_and, if_false,
      Prod.mk.injEq]
    constructor
    · exact (List.modify_id i p).symm
    · apply List.ext_getElem?; intro k; rw [List.getElem?_mapIdx]; cases q[k]? <;> rfl
  | n + 1 => by
    rw [List.range_succ, List.foldl_append, inner_fold hit i p q n]
    simp only [List.foldl_cons, List.foldl_nil, List.filter_append]
    by_cases hh : hit i n
    · rw [if_pos hh]
      simp only [pushAt, Prod.mk.injEq]
      constructor
      · apply List.ext_getElem?
        intro k
        simp only [List.getElem?_modify]
        cases p[k]? with
        | none => simp
        | some l => by_cases hik : i = k <;> simp [hik, hh] <;> (subst hik; simp [hh])
      · apply List.ext_getElem?
        intro k
        simp only [List.getElem?_modify, List.getElem?_mapIdx]
        cases q[k]? with
        | none => simp
        | some l =>
          by_cases hk : n = k
          · subst hk; simp [hh]
          · have : k < n + 1 ↔ k < n := by omega
            simp [hk, this]
    · rw [if_neg hh]
      simp only [Prod.mk.injEq]
      constructor
      · simp [hh]
      · apply List.ext_getElem?
        intro k
        simp only [List.getElem?_mapIdx]
        cases q[k]? with
        | none => simp
        | some l =>
          by_cases hk : n = k
          · subst hk; simp [hh]
          · have : k < n + 1 ↔ k < n := by omega
            simp [this]

theorem outer_fold (hit : Nat → Nat → Bool) (M n : Nat) : ∀ m, m ≤ M →
    (List.range m).foldl (fun s i =>
      (List.range n).foldl (fun s j => if hit i j then (pushAt s.1 i j, pushAt s.2 j i) else s) s)
      (List.replicate M [], List.replicate n []) =
    ((List.range M).map (fun i => if i < m then (List.range n).filter (hit i) else []),
      (List.range n).map fun j => (List.range m).filter (hit · j))
  | 0, _ => by
    simp only [List.range_zero, List.foldl_nil, Nat.not_lt_zero, if_false, List.filter_nil, Prod.mk.injEq]
    constructor <;> (apply List.ext_getElem?; intro k; simp [List.getElem?_replicate, List.getElem?_range])
  | m + 1, hm => by
    rw [List.range_succ, List.foldl_append, outer_fold hit M n m (by omega)]
    simp only [List.foldl_cons, List.foldl_nil]
    rw [inner_fold]
    simp only [Prod.mk.injEq]
    constructor
    · apply List.ext_getElem?
      intro k
      simp only [List.getElem?_modify, List.getElem?_map]
      by_cases hk : k < M
      · rw [List.getElem?_range hk]
        by_cases hmk : m = k
        · subst hmk; simp
        · have : k < m + 1 ↔ k < m := by omega
          simp [hmk, this]
      · rw [List.getElem?_eq_none (by simpa using hk)]
        simp
    · apply List.ext_getElem?
      intro k
      simp only [List.getElem?_mapIdx, List.getElem?_map]
      by_cases hk : k < n
      · rw [List.getElem?_range hk]
        by_cases hh : hit m k <;> simp [hk, hh, List.filter_append]
      · rw [List.getElem?_eq_none (by simpa using hk)]
        simp

theorem matchLoop_eq (hit : Nat → Nat → Bool) (m n : Nat) :
    matchLoop hit m n = ((List.range m).map (fun i => (List.range n).filter (hit i)),
      (List.range n).map fun j => (List.range m).filter (hit · j)) := by
  unfold matchLoop
  rw [outer_fold hit m n m (Nat.le_refl m)]
  simp only [Prod.mk.injEq, and_true]
  apply List.map_congr_left
  intro i hi
  simp [List.mem_range.1 hi]

theorem mem_orphans {i : Nat} : ∀ {k : Nat} {l : List (List Nat)} {p : Problem},
    p ∈ orphans k l ↔ ∃ i, l[i]? = some [] ∧ p = .orphaned (k + i)
  | k, [], p => by simp [orphans]
  | k, m :: l, p => by
    have ih := @mem_orphans i (k + 1) l p
    have hsplit : (∃ i, (m :: l)[i]? = some [] ∧ p = .orphaned (k + i)) ↔
        (m = [] ∧ p = .orphaned k) ∨ ∃ i, l[i]? = some [] ∧ p = .orphaned (k + 1 + i) := by
      constructor
      · rintro ⟨i, h, rfl⟩
        cases i with
        | zero => left; simpa using h
        | succ i => right; exact ⟨i, by simpa using h, by congr 1; omega⟩
      · rintro (⟨h, rfl⟩ | ⟨i, h, rfl⟩)
        · exact ⟨0, by simp [h], rfl⟩
        · exact ⟨i + 1, by simpa using h, by congr 1; omega⟩
    rw [hsplit]
    unfold orphans
    cases m with
    | nil => simp [ih]
    | cons a m => simp [ih]

theorem mem_classify : ∀ {k : Nat} {l : List (List Nat)} {p : Problem},
    p ∈ (classify k l).1 ↔ (∃ i, l[i]? = some [] ∧ p = .uncovered (k + i)) ∨
      ∃ i ts, l[i]? = some ts ∧ 2 ≤ ts.length ∧ p = .ambiguous (k + i) ts
  | k, [], p => by simp [classify]
  | k, m :: l, p => by
    have ih := @mem_classify (k + 1) l p
    have h1 : (∃ i, (m :: l)[i]? = some [] ∧ p = .uncovered (k + i)) ↔
        (m = [] ∧ p = .uncovered k) ∨ ∃ i, l[i]? = some [] ∧ p = .uncovered (k + 1 + i) := by
      constructor
      · rintro ⟨i, h, rfl⟩
        cases i with
        | zero => left; simpa using h
        | succ i => right; exact ⟨i, by simpa using h, by congr 1; omega⟩
      · rintro (⟨h, rfl⟩ | ⟨i, h, rfl⟩)
        · exact ⟨0, by simp [h], rfl⟩
        · exact ⟨i + 1, by simpa using h, by congr 1; omega⟩
    have h2 : (∃ i ts, (m :: l)[i]? = some ts ∧ 2 ≤ ts.length ∧ p = .ambiguous (k + i) ts) ↔
        (2 ≤ m.length ∧ p = .ambiguous k m) ∨
          ∃ i ts, l[i]? = some ts ∧ 2 ≤ ts.length ∧ p = .ambiguous (k + 1 + i) ts := by
      constructor
      · rintro ⟨i, ts, h, hl, rfl⟩
        cases i with
        | zero =>
          left
          simp only [List.getElem?_cons_zero, Option.some.injEq] at h
          subst h
          exact ⟨hl, rfl⟩
        | succ i => right; exact ⟨i, ts, by simpa using h, hl, by congr 1; omega⟩
      · rintro (⟨h, rfl⟩ | ⟨i, ts, h, hl, rfl⟩)
        · exact ⟨0, m, by simp, h, rfl⟩
        · exact ⟨i + 1, ts, by simpa using h, hl, by congr 1; omega⟩
    rw [h1, h2]
    unfold classify
    rcases m with _ | ⟨t, _ | ⟨u, w⟩⟩
    · simp [ih, or_assoc]
    · simp [ih]
    · simp only [List.mem_cons, ih, List.length_cons]
      simp only [reduceCtorEq, false_and, false_or, Nat.le_add_left, true_and]
      constructor
      · rintro (h | h | h)
        · right; left; exact h
        · left; exact h
        · right; right; exact h
      · rintro (h | h | h)
        · right; left; exact h
        · left; exact h
        · right; right; exact h

theorem classify_ok : ∀ {k : Nat} {l : List (List Nat)}, (classify k l).1 = [] →
    l = (classify k l).2.map fun t => [t]
  | k, [], _ => rfl
  | k, m :: l, h => by
    unfold classify at h ⊢
    rcases m with _ | ⟨t, _ | ⟨u, w⟩⟩
    · simp at h
    · simp only at h
      simp only [List.map_cons, List.cons.injEq, true_and]
      exact classify_ok h
    · simp at h

/-! ### Collecting, best matches, the registry -/

theorem collect_ok {α β : Type} {f : α → Except Err β} : ∀ {l : List α} {r : List β}, collect f l = .ok r ↔
    r.length = l.length ∧ ∀ (i : Nat) (a : α), l[i]? = some a → ∃ b, r[i]? = some b ∧ f a = .ok b
  | [], r => by
    simp only [collect, Except.ok.injEq, List.length_nil, List.length_eq_zero_iff, List.getElem?_nil, reduceCtorEq,
      IsEmpty.forall_iff, implies_true, and_true]
    exact eq_comm
  | a :: l, r => by
    unfold collect
    cases hf : f a with
    | error e =>
      simp only [reduceCtorEq, false_iff, not_and]
      intro _ h
      obtain ⟨b, _, hb⟩ := h 0 a rfl
      rw [hf] at hb; cases hb
    | ok b =>
      simp only
      cases hc : collect f l with
      | error e =>
        simp only [reduceCtorEq, false_iff, not_and]
        intro hl h
        cases r with
        | nil => simp at hl
        | cons b' r =>
          have : collect f l = .ok r := collect_ok.2 ⟨by simpa using hl, fun i a ha => by
            obtain ⟨b, hb, hfa⟩ := h (i + 1) a (by simpa using ha)
            exact ⟨b, by simpa using hb, hfa⟩⟩
          rw [hc] at this; cases this
      | ok bs =>
        simp only [Except.ok.injEq]
        obtain ⟨hl, hall⟩ := collect_ok.1 hc
        constructor
        · rintro rfl
          refine ⟨by simp [hl], ?_⟩
          intro i x hx
          cases i with
          | zero => simp only [List.getElem?_cons_zero, Option.some.injEq] at hx; subst hx; exact ⟨b, rfl, hf⟩
          | succ i => simpa using hall i x (by simpa using hx)
        · rintro ⟨hl', h⟩
          cases r with
          | nil => simp at hl'
          | cons b' r =>
            obtain ⟨b'', hb, hfb⟩ := h 0 a rfl
            rw [hf] at hfb
            cases hfb
            simp only [List.getElem?_cons_zero, Option.some.injEq] at hb
            subst hb
            have : collect f l = .ok r := collect_ok.2 ⟨by simpa using hl', fun i a ha => by
              obtain ⟨b, hb, hfa⟩ := h (i + 1) a (by simpa using ha)
              exact ⟨b, by simpa using hb, hfa⟩⟩
            rw [hc] at this
            cases this
            rfl

theorem foldMin {α : Type} (key : α → Nat) : ∀ (l : List α) (a : α),
    (∃ l₁ l₂, a :: l = l₁ ++ l.foldl (fun m x => if key x < key m then x else m) a :: l₂ ∧
      (∀ b ∈ l₁, key (l.foldl (fun m x => if key x < key m then x else m) a) < key b) ∧
      ∀ b ∈ l₂, key (l.foldl (fun m x => if key x < key m then x else m) a) ≤ key b)
  | [], a => ⟨[], [], by simp⟩
  | x :: l, a => by
    simp only [List.foldl_cons]
    by_cases hx : key x < key a
    · rw [if_pos hx]
      obtain ⟨l₁, l₂, h1, h2, h3⟩ := foldMin key l x
      refine ⟨a :: l₁, l₂, by simp [h1], ?_, h3⟩
      intro b hb
      rcases List.mem_cons.1 hb with rfl | hb
      · have : key (l.foldl (fun m x => if key x < key m then x else m) x) ≤ key x := by
          have hmem : x ∈ l₁ ++ l.foldl (fun m x => if key x < key m then x else m) x :: l₂ := by
            rw [← h1]; exact List.mem_cons_self
          rcases List.mem_append.1 hmem with hm | hm
          · exact Nat.le_of_lt (h2 x hm)
          · rcases List.mem_cons.1 hm with hm | hm
            · rw [← hm]; exact Nat.le_refl _
            · exact h3 x hm
        omega
      · exact h2 b hb
    · rw [if_neg hx]
      obtain ⟨l₁, l₂, h1, h2, h3⟩ := foldMin key l a
      cases l₁ with
      | nil =>
        simp only [List.nil_append, List.cons.injEq] at h1
        refine ⟨[], x :: l₂, ?_, by simp, ?_⟩
        · rw [List.nil_append, ← h1.1, ← h1.2]
        · intro b hb
          rcases List.mem_cons.1 hb with rfl | hb
          · rw [← h1.1]; omega
          · exact h3 b hb
      | cons c l₁ =>
        simp only [List.cons_append, List.cons.injEq] at h1
        refine ⟨a :: x :: l₁, l₂, by simp [← h1.2], ?_, h3⟩
        intro b hb
        have hca := h2 a (by rw [h1.1]; exact List.mem_cons_self)
        rcases List.mem_cons.1 hb with rfl | hb
        · exact hca
        · rcases List.mem_cons.1 hb with rfl | hb
          · omega
          · exact h2 b (List.mem_cons_of_mem _ hb)

theorem filterMap_split {α : Type} (score : α → Option Nat) : ∀ (l : List α) (m₁ m₂ : List (α × Nat)) (a : α) (s : Nat),
    l.filterMap (fun e => (score e).map fun s => (e, s)) = m₁ ++ (a, s) :: m₂ →
    ∃ l₁ l₂, l = l₁ ++ a :: l₂ ∧ score a = some s ∧ l₁.filterMap (fun e => (score e).map fun s => (e, s)) = m₁ ∧
      l₂.filterMap (fun e => (score e).map fun s => (e, s)) = m₂
  | [], m₁, m₂, a, s, h => by simp at h
  | x :: l, m₁, m₂, a, s, h => by
    cases hx : score x with
    | none =>
      rw [List.filterMap_cons_none (by simp [hx])] at h
      obtain ⟨l₁, l₂, h1, h2, h3, h4⟩ := filterMap_split score l m₁ m₂ a s h
      exact ⟨x :: l₁, l₂, by simp [h1], h2, by rw [List.filterMap_cons_none (by simp [hx])]; exact h3, h4⟩
    | some t =>
      rw [List.filterMap_cons_some (by simp [hx]; rfl)] at h
      cases m₁ with
      | nil =>
        simp only [List.nil_append, List.cons.injEq, Prod.mk.injEq] at h
        obtain ⟨⟨rfl, rfl⟩, h⟩ := h
        exact ⟨[], l, rfl, hx, rfl, h⟩
      | cons y m₁ =>
        simp only [List.cons_append, List.cons.injEq] at h
        obtain ⟨l₁, l₂, h1, h2, h3, h4⟩ := filterMap_split score l m₁ m₂ a s h.2
        refine ⟨x :: l₁, l₂, by simp [h1], h2, ?_, h4⟩
        rw [List.filterMap_cons_some (by simp [hx]; rfl), h3, ← h.1]

theorem findBest_some {α : Type} {score : α → Option Nat} {l : List α} {a : α} (h : findBest score l = some a) :
    IsBest score l a := by
  unfold findBest at h
  rw [Option.map_eq_some_iff] at h
  obtain ⟨⟨a', s⟩, h, rfl⟩ := h
  cases hm : l.filterMap (fun e => (score e).map fun s => (e, s)) with
  | nil => rw [hm] at h; simp [minByKey] at h
  | cons y m =>
    rw [hm] at h
    simp only [minByKey, Option.some.injEq] at h
    obtain ⟨m₁, m₂, h1, h2, h3⟩ := foldMin (fun p : α × Nat => p.2) m y
    rw [h] at h1 h2 h3
    rw [h1] at hm
    obtain ⟨l₁, l₂, e1, e2, e3, e4⟩ := filterMap_split score l m₁ m₂ a' s hm
    refine ⟨l₁, l₂, s, e1, e2, ?_, ?_⟩
    · intro b hb t ht
      exact h2 (b, t) (by rw [← e3]; exact List.mem_filterMap.2 ⟨b, hb, by simp [ht]⟩)
    · intro b hb t ht
      exact h3 (b, t) (by rw [← e4]; exact List.mem_filterMap.2 ⟨b, hb, by simp [ht]⟩)

theorem isBest_unique {α : Type} {score : α → Option Nat} : ∀ {l : List α} {a b : α}, IsBest score l a →
    IsBest score l b → a = b := by
  rintro l a b ⟨l₁, l₂, s, rfl, ha, h1, h2⟩ ⟨m₁, m₂, t, he, hb, g1, g2⟩
  rcases List.append_eq_append_iff.1 he with ⟨c, hc1, hc2⟩ | ⟨c, hc1, hc2⟩
  · cases c with
    | nil => simp only [List.nil_append, List.cons.injEq] at hc2; exact hc2.1
    | cons x c =>
      simp only [List.cons_append, List.cons.injEq] at hc2
      have hlt := g1 a (by rw [hc1, hc2.1]; simp) s ha
      have hle := h2 b (by rw [hc2.2]; simp) t hb
      omega
  · cases c with
    | nil => simp only [List.nil_append, List.cons.injEq] at hc2; exact hc2.1.symm
    | cons x c =>
      simp only [List.cons_append, List.cons.injEq] at hc2
      have hlt := h1 b (by rw [hc1, hc2.1]; simp) t hb
      have hle := g2 a (by rw [hc2.2]; simp) s ha
      omega

theorem findBest_none {α : Type} {score : α → Option Nat} {l : List α} : findBest score l = none ↔
    ∀ a ∈ l, score a = none := by
  unfold findBest
  rw [Option.map_eq_none_iff]
  cases hm : l.filterMap (fun e => (score e).map fun s => (e, s)) with
  | nil =>
    simp only [minByKey, true_iff]
    intro a ha
    have := List.filterMap_eq_nil_iff.1 hm a ha
    simpa using this
  | cons y m =>
    simp only [minByKey, reduceCtorEq, false_iff]
    intro hall
    have : y ∈ l.filterMap (fun e => (score e).map fun s => (e, s)) := by rw [hm]; exact List.mem_cons_self
    obtain ⟨a, ha, hy⟩ := List.mem_filterMap.1 this
    rw [hall a ha] at hy
    simp at hy

theorem findBest_iff {α : Type} {score : α → Option Nat} {l : List α} {a : α} :
    findBest score l = some a ↔ IsBest score l a := by
  constructor
  · exact findBest_some
  · intro h
    cases hf : findBest score l with
    | none =>
      obtain ⟨l₁, l₂, s, rfl, ha, _, _⟩ := h
      have := findBest_none.1 hf a (by simp)
      rw [ha] at this; cases this
    | some b => rw [isBest_unique (findBest_some hf) h]

/-- Every available input is registered under the tag of its type. -/
def TagsOk {V : Type} (env : Env V) (r : Registry V) : Prop :=
  ∀ tag ty, r.inputs.lookup tag = some (.avail ty) → env.tagOf ty = tag

theorem registerInput_inputs {V : Type} {env : Env V} {r r' : Registry V} {ty : Nat}
    (h : r.registerInput env ty = some r') :
    r'.benches = r.benches ∧ r'.inputs.lookup (env.tagOf ty) = some (.avail ty) ∧
      ∀ tag, tag ≠ env.tagOf ty → r'.inputs.lookup tag = r.inputs.lookup tag := by
  unfold Registry.registerInput at h
  split at h
  · simp only [Option.some.injEq] at h
    subst h
    refine ⟨rfl, by simp, ?_⟩
    intro tag ht
    have : (tag == env.tagOf ty) = false := by simpa using ht
    simp [List.lookup_cons, this]
  · split at h
    · rename_i hl ht
      simp only [Option.some.injEq] at h
      subst h ht
      exact ⟨rfl, hl, fun _ _ => rfl⟩
    · cases h
  · cases h

theorem registerGated_inputs {V : Type} {r r' : Registry V} {tag : String} {f : List String}
    (h : r.registerGatedInput tag f = some r') :
    r'.benches = r.benches ∧ r'.inputs.lookup tag = some (.gated f) ∧
      ∀ t, t ≠ tag → r'.inputs.lookup t = r.inputs.lookup t := by
  unfold Registry.registerGatedInput at h
  split at h
  · simp only [Option.some.injEq] at h
    subst h
    refine ⟨rfl, by simp, ?_⟩
    intro t ht
    have : (t == tag) = false := by simpa using ht
    simp [List.lookup_cons, this]
  · split at h
    · cases h
    · rename_i hl ht
      simp only [ne_eq, Decidable.not_not] at ht
      simp only [Option.some.injEq] at h
      subst h ht
      exact ⟨rfl, hl, fun _ _ => rfl⟩
  · cases h

/-- What every registry satisfies. -/
structure RegOk {V : Type} (env : Env V) (r : Registry V) : Prop where
  tags : TagsOk env r
  real : ∀ b ∈ r.benches, ∀ ty sc g, b.kind = .real ty sc g → r.inputs.lookup (env.tagOf ty) = some (.avail ty)
  partly : ∀ b ∈ r.benches, ∀ ty f, b.kind = .partlyGated ty f → r.inputs.lookup (env.tagOf ty) = some (.avail ty)
  fully : ∀ b ∈ r.benches, ∀ tag f, b.kind = .fullyGated tag f → r.inputs.lookup tag = some (.gated f)

theorem registerInput_keeps {V : Type} {env : Env V} {r r' : Registry V} {ty : Nat}
    (h : r.registerInput env ty = some r') {tag : String} {k : InKind} (hl : r.inputs.lookup tag = some k) :
    r'.inputs.lookup tag = some k := by
  unfold Registry.registerInput at h
  split at h
  · rename_i hn
    simp only [Option.some.injEq] at h
    subst h
    have : tag ≠ env.tagOf ty := by rintro rfl; rw [hn] at hl; cases hl
    have : (tag == env.tagOf ty) = false := by simpa using this
    simp [List.lookup_cons, this, hl]
  · split at h
    · simp only [Option.some.injEq] at h; subst h; exact hl
    · cases h
  · cases h

theorem registerGated_keeps {V : Type} {r r' : Registry V} {tag' : String} {f : List String}
    (h : r.registerGatedInput tag' f = some r') {tag : String} {k : InKind} (hl : r.inputs.lookup tag = some k) :
    r'.inputs.lookup tag = some k := by
  unfold Registry.registerGatedInput at h
  split at h
  · rename_i hn
    simp only [Option.some.injEq] at h
    subst h
    have : tag ≠ tag' := by rintro rfl; rw [hn] at hl; cases hl
    have : (tag == tag') = false := by simpa using this
    simp [List.lookup_cons, this, hl]
  · split at h
    · cases h
    · simp only [Option.some.injEq] at h; subst h; exact hl
  · cases h

theorem register_ok {V : Type} {env : Env V} {r r' : Registry V} {b : Bench V} (ho : RegOk env r)
    (h : r.register env b = some r') : RegOk env r' ∧ r'.benches = r.benches ++ [b] := by
  unfold Registry.register at h
  simp only [Option.map_eq_some_iff] at h
  obtain ⟨q, hq, rfl⟩ := h
  have hbase : ∀ {tag : String} {k : InKind}, r.inputs.lookup tag = some k → q.inputs.lookup tag = some k := by
    intro tag k hl
    cases hk : b.kind with
    | real ty sc g => rw [hk] at hq; exact registerInput_keeps hq hl
    | partlyGated ty f => rw [hk] at hq; exact registerInput_keeps hq hl
    | fullyGated t f => rw [hk] at hq; exact registerGated_keeps hq hl
  have hben : q.benches = r.benches := by
    cases hk : b.kind with
    | real ty sc g => rw [hk] at hq; exact (registerInput_inputs hq).1
    | partlyGated ty f => rw [hk] at hq; exact (registerInput_inputs hq).1
    | fullyGated t f => rw [hk] at hq; exact (registerGated_inputs hq).1
  have htags : TagsOk env q := by
    intro tag ty hl
    cases hk : b.kind with
    | real ty' sc g =>
      rw [hk] at hq
      obtain ⟨_, h1, h2⟩ := registerInput_inputs hq
      by_cases ht : tag = env.tagOf ty'
      · subst ht; rw [h1] at hl; cases hl; rfl
      · rw [h2 tag ht] at hl; exact ho.tags tag ty hl
    | partlyGated ty' f =>
      rw [hk] at hq
      obtain ⟨_, h1, h2⟩ := registerInput_inputs hq
      by_cases ht : tag = env.tagOf ty'
      · subst ht; rw [h1] at hl; cases hl; rfl
      · rw [h2 tag ht] at hl; exact ho.tags tag ty hl
    | fullyGated t f =>
      rw [hk] at hq
      obtain ⟨_, h1, h2⟩ := registerGated_inputs hq
      by_cases ht : tag = t
      · subst ht; rw [h1] at hl; cases hl
      · rw [h2 tag ht] at hl; exact ho.tags tag ty hl
  refine ⟨⟨htags, ?_, ?_, ?_⟩, by simp [hben]⟩
  · intro c hc ty sc g hk
    simp only [hben, List.mem_append, List.mem_singleton] at hc
    rcases hc with hc | rfl
    · exact hbase (ho.real c hc ty sc g hk)
    · rw [hk] at hq; exact (registerInput_inputs hq).2.1
  · intro c hc ty f hk
    simp only [hben, List.mem_append, List.mem_singleton] at hc
    rcases hc with hc | rfl
    · exact hbase (ho.partly c hc ty f hk)
    · rw [hk] at hq; exact (registerInput_inputs hq).2.1
  · intro c hc tag f hk
    simp only [hben, List.mem_append, List.mem_singleton] at hc
    rcases hc with hc | rfl
    · exact hbase (ho.fully c hc tag f hk)
    · rw [hk] at hq; exact (registerGated_inputs hq).2.1

theorem build_ok {V : Type} (env : Env V) (bs : List (Bench V)) : RegOk env (Registry.build env bs) := by
  unfold Registry.build
  have : ∀ (l : List (Bench V)) (r : Registry V), RegOk env r →
      RegOk env (l.foldl (fun r b => (r.register env b).getD r) r) := by
    intro l
    induction l with
    | nil => intro r h; exact h
    | cons b l ih =>
      intro r h
      simp only [List.foldl_cons]
      apply ih
      cases hb : r.register env b with
      | none => exact h
      | some r' => exact (register_ok h hb).1
  exact this bs {} ⟨fun tag ty h => by simp at h, by simp, by simp, by simp⟩

/-! ### Tolerances of a registry -/

/-- What the map of tolerances holds. -/
structure TolOk {V : Type} (env : Env V) (bs : List (Bench V)) (m : List (String × TolEntry V)) : Prop where
  nodup : (m.map (·.1)).Nodup
  regs : ∀ tag e, (tag, e) ∈ m → e.regs = bs.filterMap (regWithTag env tag)
  first : ∀ tag e, (tag, e) ∈ m → ∃ b l, e.regs = b :: l ∧ e.ty = b.reg.tolTy
  all : ∀ b ∈ bs, ∀ ty g, b.reg = some (ty, g) → env.tagOf g.tolTy ∈ m.map (·.1)

theorem addTolerance_keys {V : Type} (tag : String) (b : RegBench V) : ∀ (m : List (String × TolEntry V)),
    (addTolerance tag b m).map (·.1) = if tag ∈ m.map (·.1) then m.map (·.1) else m.map (·.1) ++ [tag]
  | [] => by simp [addTolerance]
  | (t, e) :: m => by
    unfold addTolerance
    by_cases ht : t = tag
    · subst ht; simp
    · rw [if_neg ht]
      have ih := addTolerance_keys tag b m
      have ht' : ¬ tag = t := fun h => ht h.symm
      simp only [List.map_cons, ih, List.mem_cons, ht', false_or]
      split <;> simp

theorem mem_addTolerance {V : Type} {tag : String} {b : RegBench V} : ∀ {m : List (String × TolEntry V)}
    (_ : (m.map (·.1)).Nodup) {t : String} {e : TolEntry V}, (t, e) ∈ addTolerance tag b m →
      (t ≠ tag ∧ (t, e) ∈ m) ∨ (t = tag ∧ ∃ e', (tag, e') ∈ m ∧ e = ⟨e'.ty, e'.regs ++ [b]⟩) ∨
        (t = tag ∧ tag ∉ m.map (·.1) ∧ e = ⟨b.reg.tolTy, [b]⟩)
  | [], _, t, e, h => by
    simp only [addTolerance, List.mem_singleton, Prod.mk.injEq] at h
    right; right
    exact ⟨h.1, by simp, h.2⟩
  | (t', e') :: m, hn, t, e, h => by
    simp only [List.map_cons, List.nodup_cons] at hn
    unfold addTolerance at h
    by_cases ht : t' = tag
    · rw [if_pos ht] at h
      subst ht
      rcases List.mem_cons.1 h with h' | h'
      · cases h'
        right; left
        exact ⟨rfl, e', List.mem_cons_self, rfl⟩
      · left
        refine ⟨?_, List.mem_cons_of_mem _ h'⟩
        rintro rfl
        exact hn.1 (List.mem_map.2 ⟨(t, e), h', rfl⟩)
    · rw [if_neg ht] at h
      rcases List.mem_cons.1 h with h | h
      · cases h
        left
        exact ⟨ht, List.mem_cons_self⟩
      · rcases mem_addTolerance hn.2 h with ⟨h1, h2⟩ | ⟨h1, e'', h2, h3⟩ | ⟨h1, h2, h3⟩
        · left; exact ⟨h1, List.mem_cons_of_mem _ h2⟩
        · right; left; exact ⟨h1, e'', List.mem_cons_of_mem _ h2, h3⟩
        · right; right
          refine ⟨h1, ?_, h3⟩
          simp only [List.map_cons, List.mem_cons, not_or]
          exact ⟨fun h => ht h.symm, h2⟩

theorem regWithTag_reg {V : Type} (env : Env V) (tag : String) (b : Bench V) : regWithTag env tag b =
    match b.reg with
    | some (ty, g) => if env.tagOf g.tolTy = tag then some ⟨b, ty, g⟩ else none
    | none => none := by
  unfold regWithTag Bench.reg
  cases b.kind with
  | real ty sc g => cases g <;> rfl
  | partlyGated ty f => rfl
  | fullyGated t f => rfl

theorem tolerances_ok {V : Type} (env : Env V) (r : Registry V) : TolOk env r.benches (r.tolerances env) := by
  unfold Registry.tolerances
  have gen : ∀ (l pre : List (Bench V)) (m : List (String × TolEntry V)), TolOk env pre m →
      TolOk env (pre ++ l) (l.foldl (addBench env) m) := by
    intro l
    induction l with
    | nil => intro pre m h; simpa using h
    | cons b l ih =>
      intro pre m h
      simp only [List.foldl_cons]
      have : pre ++ b :: l = (pre ++ [b]) ++ l := by simp
      rw [this]
      apply ih
      unfold addBench
      cases hb : b.reg with
      | none =>
        simp only
        refine ⟨h.nodup, ?_, h.first, ?_⟩
        · intro tag e he
          rw [h.regs tag e he, List.filterMap_append]
          simp [regWithTag_reg, hb]
        · intro c hc ty g hg
          rcases List.mem_append.1 hc with hc | hc
          · exact h.all c hc ty g hg
          · simp only [List.mem_singleton] at hc
            subst hc; rw [hb] at hg; cases hg
      | some p =>
        obtain ⟨ty, g⟩ := p
        simp only
        refine ⟨?_, ?_, ?_, ?_⟩
        · rw [addTolerance_keys]
          split
          · exact h.nodup
          · rename_i hnot
            rw [List.nodup_append]
            refine ⟨h.nodup, by simp, ?_⟩
            intro a ha b' hb' hab
            simp only [List.mem_singleton] at hb'
            subst hb' hab
            exact hnot ha
        · intro tag e he
          rw [List.filterMap_append]
          rcases mem_addTolerance h.nodup he with ⟨h1, h2⟩ | ⟨rfl, e', h2, rfl⟩ | ⟨rfl, h2, rfl⟩
          · rw [h.regs tag e h2]
            simp [regWithTag_reg, hb, h1.symm]
          · simp only
            rw [h.regs _ e' h2]
            simp [regWithTag_reg, hb]
          · simp only
            have : pre.filterMap (regWithTag env (env.tagOf g.tolTy)) = [] := by
              rw [List.filterMap_eq_nil_iff]
              intro c hc
              rw [regWithTag_reg]
              cases hcr : c.reg with
              | none => rfl
              | some q =>
                obtain ⟨ty', g'⟩ := q
                simp only
                have := h.all c hc ty' g' hcr
                rw [if_neg]
                intro heq
                rw [heq] at this
                exact h2 this
            rw [this]
            simp [regWithTag_reg, hb]
        · intro tag e he
          rcases mem_addTolerance h.nodup he with ⟨h1, h2⟩ | ⟨rfl, e', h2, rfl⟩ | ⟨rfl, h2, rfl⟩
          · exact h.first tag e h2
          · obtain ⟨c, l', hc, ht⟩ := h.first _ e' h2
            exact ⟨c, l' ++ [⟨b, ty, g⟩], by simp [hc], ht⟩
          · exact ⟨_, [], rfl, rfl⟩
        · intro c hc ty' g' hg
          rw [addTolerance_keys]
          rcases List.mem_append.1 hc with hc | hc
          · have := h.all c hc ty' g' hg
            split
            · exact this
            · exact List.mem_append_left _ this
          · simp only [List.mem_singleton] at hc
            subst hc
            rw [hb] at hg
            cases hg
            split
            · assumption
            · simp
  have := gen r.benches [] [] ⟨by simp, by simp, by simp, by simp⟩
  simpa using this

theorem lookup_some {β : Type} : ∀ {l : List (String × β)} {k : String} {v : β}, l.lookup k = some v → (k, v) ∈ l
  | [], k, v, h => by simp at h
  | (k', v') :: l, k, v, h => by
    rw [List.lookup_cons] at h
    by_cases hk : k = k'
    · subst hk
      simp only [BEq.rfl, Option.some.injEq] at h
      subst h
      exact List.mem_cons_self
    · have : (k == k') = false := by simpa using hk
      simp only [this] at h
      exact List.mem_cons_of_mem _ (lookup_some h)

/-! ### Parsed tolerances and inputs -/

theorem parseTolerance_ok {V : Type} {env : Env V} {m : List (String × TolEntry V)} {c : RawCheck} {t : Parsed V}
    (h : parseTolerance env m c = .ok t) :
    t.input = c.input ∧ m.lookup c.tolerance.tag = some t.entry ∧ t.tolerance.ty = t.entry.ty ∧
      env.deser t.entry.ty c.tolerance.content = some t.tolerance.val ∧
      ∃ b ∈ t.entry.regs, env.tagOf b.inTy = c.input.tag := by
  unfold parseTolerance at h
  split at h
  · cases h
  · rename_i e he
    split at h
    · cases h
    · rename_i hany
      split at h
      · cases h
      · rename_i v hv
        simp only [Except.ok.injEq] at h
        subst h
        refine ⟨rfl, he, rfl, hv, ?_⟩
        simpa using hany

theorem parseInput_ok {V : Type} {env : Env V} {r : Registry V} {u : Unprocessed} {a : Any V}
    (h : parseInput env r u = .ok a) :
    r.inputs.lookup u.tag = some (.avail a.ty) ∧ env.deser a.ty u.content = some a.val := by
  unfold parseInput at h
  split at h
  · cases h
  · cases h
  · rename_i ty hty
    split at h
    · cases h
    · rename_i v hv
      simp only [Except.ok.injEq] at h
      subst h
      exact ⟨hty, hv⟩

/-- The loop's condition says that the tolerance applies to the input. -/
theorem hits_iff {V : Type} {env : Env V} {m : List (String × TolEntry V)} {tols : List RawCheck} {ts : List (Parsed V)}
    (ht : collect (parseTolerance env m) tols = .ok ts) (hk : ∀ c ∈ tols, Keys c.input.content) (js : List Unprocessed)
    (i j : Nat) :
    hits ts js i j = true ↔ ∃ c u, tols[i]? = some c ∧ js[j]? = some u ∧ Applies c u := by
  obtain ⟨hl, hall⟩ := collect_ok.1 ht
  unfold hits
  cases hc : tols[i]? with
  | none =>
    have : ts[i]? = none := by
      rw [List.getElem?_eq_none_iff] at hc ⊢; omega
    simp [this]
  | some c =>
    obtain ⟨t, hti, hp⟩ := hall i c hc
    obtain ⟨hin, _⟩ := parseTolerance_ok hp
    rw [hti]
    cases hu : js[j]? with
    | none => simp
    | some u =>
      simp only [Bool.and_eq_true, beq_iff_eq, Option.some.injEq, exists_and_left, exists_eq_left', Applies]
      rw [hin, isSubset_iff (hk c (List.mem_of_getElem? hc)), eq_comm]

end Verif.Runner
