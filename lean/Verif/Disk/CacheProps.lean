import Verif.Disk.CacheModel
import Mathlib.Tactic.Common
/-
C53: the static vertex cache returns what was last inserted.
-/
namespace Verif.Disk

variable {E A : Type}

/-- Specification: a partial map from ids to the last successful insert, holding at most `cap` ids.
An insert succeeds iff the vector has the right dimension and the id is present or there is room. -/
def specInsert (dim cap : Nat) (s : List (Nat × Ins E A)) (i : Ins E A) : List (Nat × Ins E A) × Bool :=
  if i.vec.length = dim ∧ ((s.lookup i.id).isSome ∨ s.length < cap) then
    ((i.id, i) :: s.filter (·.1 ≠ i.id), true)
  else (s, false)

def specInserts (dim cap : Nat) (s : List (Nat × Ins E A)) :
    List (Ins E A) → List (Nat × Ins E A) × List Bool
  | [] => (s, [])
  | i :: is =>
    let (s, ok) := specInsert dim cap s i
    let (s, oks) := specInserts dim cap s is
    (s, ok :: oks)

/-- Relation between the cache and the specification that survives any history. -/
structure VInv (c : Cache E A) (s : List (Nat × Ins E A)) : Prop where
  vlen : c.vectors.length = c.cap * c.dim
  size : c.mapping.length = s.length
  cap : c.mapping.length ≤ c.cap
  idx : ∀ id k, c.mapping.lookup id = some k → k < c.mapping.length
  inj : ∀ a b k, c.mapping.lookup a = some k → c.mapping.lookup b = some k → a = b
  dom : ∀ id, (c.mapping.lookup id).isSome = (s.lookup id).isSome
  nodup : ∀ id i, s.lookup id = some i → (s.filter (·.1 ≠ id)).length + 1 = s.length
  vec : ∀ id k i, c.mapping.lookup id = some k → s.lookup id = some i →
    eslice? c.vectors (k * c.dim) ((k + 1) * c.dim) = some i.vec

theorem lookup_filter_ne' {V : Type} (l : List (Nat × V)) (a b : Nat) (h : b ≠ a) :
    (l.filter (·.1 ≠ a)).lookup b = l.lookup b := by
  induction l with
  | nil => rfl
  | cons x l ih =>
    obtain ⟨c, y⟩ := x
    by_cases hc : c = a
    · subst hc
      rw [List.filter_cons_of_neg (by simp), ih, List.lookup_cons]
      rw [show (b == c) = false by simpa using h]
    · rw [List.filter_cons_of_pos (by simpa using hc), List.lookup_cons, List.lookup_cons, ih]

theorem filter_of_lookup_none {V : Type} (l : List (Nat × V)) (a : Nat) (h : l.lookup a = none) :
    l.filter (·.1 ≠ a) = l := by
  rw [List.filter_eq_self]
  intro x hx
  simp only [ne_eq, decide_not, Bool.not_eq_eq_eq_not, Bool.not_true, decide_eq_false_iff_not]
  intro he
  rw [List.lookup_eq_none_iff] at h
  have := h x hx
  simp [he] at this

theorem eslice_same (buf w : List E) (n i : Nat) (hw : w.length = n) (hi : (i + 1) * n ≤ buf.length) :
    eslice? (buf.take (i * n) ++ (w ++ buf.drop ((i + 1) * n))) (i * n) ((i + 1) * n) = some w := by
  have hexp : (i + 1) * n = i * n + n := by rw [Nat.add_mul, Nat.one_mul]
  have hl : (buf.take (i * n)).length = i * n := by simp only [List.length_take]; omega
  unfold eslice?
  rw [if_pos (by simp only [List.length_append, List.length_take, List.length_drop]; omega)]
  rw [List.drop_append_of_le_length (by omega), List.drop_of_length_le (by omega), List.nil_append,
    List.take_append_of_le_length (by omega), List.take_of_length_le (by omega)]

theorem eslice_other (buf w : List E) (n i j : Nat) (hij : i ≠ j) (hw : w.length = n)
    (hi : (i + 1) * n ≤ buf.length) :
    eslice? (buf.take (i * n) ++ (w ++ buf.drop ((i + 1) * n))) (j * n) ((j + 1) * n) =
      eslice? buf (j * n) ((j + 1) * n) := by
  have hexp : (i + 1) * n = i * n + n := by rw [Nat.add_mul, Nat.one_mul]
  have hexpj : (j + 1) * n = j * n + n := by rw [Nat.add_mul, Nat.one_mul]
  have hl : (buf.take (i * n)).length = i * n := by simp only [List.length_take]; omega
  have hlen : (buf.take (i * n) ++ (w ++ buf.drop ((i + 1) * n))).length = buf.length := by
    simp only [List.length_append, List.length_take, List.length_drop]
    omega
  unfold eslice?
  rw [hlen]
  by_cases hc : j * n ≤ (j + 1) * n ∧ (j + 1) * n ≤ buf.length
  · rw [if_pos hc, if_pos hc]
    congr 1
    rcases Nat.lt_or_gt_of_ne hij with h | h
    · have hle : (i + 1) * n ≤ j * n := Nat.mul_le_mul_right _ h
      rw [← List.append_assoc, List.drop_append, List.drop_of_length_le (by
        simp only [List.length_append]; omega),
        List.nil_append, List.drop_drop]
      congr 2
      simp only [List.length_append]
      omega
    · have hle : (j + 1) * n ≤ i * n := Nat.mul_le_mul_right _ h
      rw [List.drop_append_of_le_length (by omega),
        List.take_append_of_le_length (by simp only [List.length_drop]; omega),
        List.drop_take, List.take_take]
      congr 1; omega
  · rw [if_neg hc, if_neg hc]

theorem VInv.insert {c : Cache E A} {s : List (Nat × Ins E A)} (h : VInv c s) (i : Ins E A) :
    ∃ c', c.insert i.id i.vec i.adj i.assoc = some (c', (specInsert c.dim c.cap s i).2) ∧
      VInv c' (specInsert c.dim c.cap s i).1 ∧ c'.dim = c.dim ∧ c'.cap = c.cap ∧
      ((specInsert c.dim c.cap s i).2 = false → c' = c) ∧
      ((specInsert c.dim c.cap s i).2 = true → c'.adj = c.adj ++ [i.adj] ∧
        c'.assoc = c.assoc ++ [i.assoc] ∧
        c'.mapping = if (c.mapping.lookup i.id).isSome then c.mapping
          else (i.id, c.mapping.length) :: c.mapping) := by
  unfold Cache.insert
  by_cases hd : c.dim ≠ i.vec.length
  · have hs : specInsert c.dim c.cap s i = (s, false) := by
      rw [specInsert, if_neg]; omega
    rw [if_pos hd, hs]
    exact ⟨c, rfl, h, rfl, rfl, fun _ => rfl, by simp⟩
  · rw [if_neg hd]
    have hd' : i.vec.length = c.dim := by omega
    cases hl : c.mapping.lookup i.id with
    | some k =>
      have hk := h.idx _ _ hl
      have hsome : (s.lookup i.id).isSome = true := by rw [← h.dom, hl]; rfl
      have hs : specInsert c.dim c.cap s i = ((i.id, i) :: s.filter (·.1 ≠ i.id), true) := by
        rw [specInsert, if_pos ⟨hd', Or.inl hsome⟩]
      have hkc : (k + 1) * c.dim ≤ c.vectors.length := by
        rw [h.vlen]; exact Nat.mul_le_mul_right _ (by have := h.cap; omega)
      have hexp : (k + 1) * c.dim = k * c.dim + c.dim := by rw [Nat.add_mul, Nat.one_mul]
      simp only [hs, Cache.copyTo]
      rw [if_pos (by omega)]
      simp only [Option.map_some]
      obtain ⟨j, hj⟩ := Option.isSome_iff_exists.1 hsome
      have hcount := h.nodup _ _ hj
      refine ⟨_, rfl, ⟨?_, ?_, h.cap, h.idx, h.inj, ?_, ?_, ?_⟩, rfl, rfl, by simp, ?_⟩
      · simp only [List.length_append, List.length_take, List.length_drop]
        rw [← h.vlen]; omega
      · simp only [List.length_cons]; rw [h.size]; omega
      · intro id
        simp only [List.lookup_cons]
        by_cases he : id = i.id
        · subst he; simp [hl]
        · rw [show (id == i.id) = false by simpa using he]
          simp only [lookup_filter_ne' _ _ _ he]; exact h.dom id
      · intro id x hx
        simp only [List.lookup_cons] at hx
        by_cases he : id = i.id
        · subst he
          rw [List.filter_cons_of_neg (by simp), List.filter_filter]
          simp
        · rw [show (id == i.id) = false by simpa using he] at hx
          simp only [lookup_filter_ne' _ _ _ he] at hx
          rw [List.filter_cons_of_pos (by simpa using Ne.symm he), List.length_cons, List.length_cons]
          have h1 := h.nodup _ _ hx
          -- removing `id` from the list without `i.id`
          have : ∀ (l : List (Nat × Ins E A)), (l.filter (·.1 ≠ id)).length + 1 = l.length →
              (∃ y, l.lookup id = some y) →
              ((l.filter (·.1 ≠ i.id)).filter (·.1 ≠ id)).length + 1 = (l.filter (·.1 ≠ i.id)).length := by
            intro l
            induction l with
            | nil => intro _ hy; simp at hy
            | cons z l ih =>
              intro hl hy
              obtain ⟨a, b⟩ := z
              by_cases ha : a = id
              · subst ha
                have hai : a ≠ i.id := he
                rw [List.filter_cons_of_neg (by simp)] at hl
                have hall : l.filter (·.1 ≠ a) = l := by
                  rw [List.filter_eq_self]
                  have hl' : (l.filter (·.1 ≠ a)).length = l.length := by
                    simp only [List.length_cons] at hl; omega
                  exact List.filter_eq_self.1 (List.filter_sublist.eq_of_length hl')
                rw [List.filter_cons_of_pos (by simpa using hai), List.filter_cons_of_neg (by simp)]
                rw [List.filter_filter]
                simp only [List.length_cons]
                congr 2
                apply List.filter_congr
                intro x hx
                have hxa : decide (x.1 ≠ a) = true := by
                  rw [List.filter_eq_self] at hall; exact hall x hx
                rw [hxa]; simp
              · rw [List.filter_cons_of_pos (by simpa using ha)] at hl
                have hy' : ∃ y, l.lookup id = some y := by
                  obtain ⟨y, hy⟩ := hy
                  rw [List.lookup_cons, show (id == a) = false by simpa using Ne.symm ha] at hy
                  exact ⟨y, hy⟩
                have := ih (by simp only [List.length_cons] at hl; omega) hy'
                by_cases hai : a = i.id
                · rw [List.filter_cons_of_neg (by simpa using hai)]; exact this
                · rw [List.filter_cons_of_pos (by simpa using hai),
                    List.filter_cons_of_pos (by simpa using ha)]
                  simp only [List.length_cons]; omega
          have := this s h1 ⟨_, hx⟩
          omega
      · intro id k' x hk' hx
        simp only [List.lookup_cons] at hx
        by_cases he : id = i.id
        · subst he
          have : k' = k := by
            have := hk'.symm.trans hl
            simpa using this
          subst this
          simp only [beq_self_eq_true, Option.some.injEq] at hx
          subst hx
          exact eslice_same _ _ _ _ hd' hkc
        · rw [show (id == i.id) = false by simpa using he] at hx
          simp only [lookup_filter_ne' _ _ _ he] at hx
          have hne : k ≠ k' := by
            rintro rfl
            exact he (h.inj _ _ _ hk' hl)
          simp only
          rw [eslice_other _ _ _ _ _ hne hd' hkc]
          exact h.vec id k' x hk' hx
      · intro _; exact ⟨rfl, rfl, by simp⟩
    | none =>
      have hnone : s.lookup i.id = none := by
        have := h.dom i.id
        rw [hl] at this
        exact Option.isSome_eq_false_iff.1 this.symm |> fun h => by simpa using h
      by_cases hc : c.mapping.length ≥ c.cap
      · have hs : specInsert c.dim c.cap s i = (s, false) := by
          rw [specInsert, if_neg]
          rintro ⟨_, h1 | h1⟩
          · rw [hnone] at h1; simp at h1
          · have := h.size; omega
        simp only [hs]
        rw [if_pos hc]
        exact ⟨c, rfl, h, rfl, rfl, fun _ => rfl, by simp⟩
      · have hs : specInsert c.dim c.cap s i = ((i.id, i) :: s, true) := by
          rw [specInsert, if_pos ⟨hd', Or.inr (by have := h.size; omega)⟩, filter_of_lookup_none _ _ hnone]
        have hkc : (c.mapping.length + 1) * c.dim ≤ c.vectors.length := by
          rw [h.vlen]; exact Nat.mul_le_mul_right _ (by omega)
        have hexp : (c.mapping.length + 1) * c.dim = c.mapping.length * c.dim + c.dim := by
          rw [Nat.add_mul, Nat.one_mul]
        simp only [hs]
        rw [if_neg hc]
        simp only [Cache.copyTo]
        rw [if_pos (by omega)]
        simp only [Option.map_some]
        refine ⟨_, rfl, ⟨?_, ?_, ?_, ?_, ?_, ?_, ?_, ?_⟩, rfl, rfl, by simp, ?_⟩
        · simp only [List.length_append, List.length_take, List.length_drop]
          rw [← h.vlen]; omega
        · simp only [List.length_cons, h.size]
        · simp only [List.length_cons]; omega
        · intro id k hk
          simp only [List.lookup_cons, List.length_cons] at hk ⊢
          split at hk
          · simp only [Option.some.injEq] at hk; omega
          · have := h.idx _ _ hk; omega
        · intro a b k ha hb
          simp only [List.lookup_cons] at ha hb
          split at ha <;> split at hb
          · simp_all
          · simp only [Option.some.injEq] at ha
            have := h.idx _ _ hb
            omega
          · simp only [Option.some.injEq] at hb
            have := h.idx _ _ ha
            omega
          · exact h.inj _ _ _ ha hb
        · intro id
          simp only [List.lookup_cons]
          split
          · rfl
          · exact h.dom id
        · intro id x hx
          simp only [List.lookup_cons] at hx
          by_cases he : id = i.id
          · subst he
            rw [List.filter_cons_of_neg (by simp), filter_of_lookup_none _ _ hnone]
            simp
          · rw [show (id == i.id) = false by simpa using he] at hx
            rw [List.filter_cons_of_pos (by simpa using Ne.symm he)]
            have := h.nodup _ _ hx
            simp only [List.length_cons]; omega
        · intro id k x hk hx
          simp only [List.lookup_cons] at hk hx
          by_cases he : id = i.id
          · subst he
            simp only [beq_self_eq_true, Option.some.injEq] at hk hx
            subst hk; subst hx
            exact eslice_same _ _ _ _ hd' hkc
          · rw [show (id == i.id) = false by simpa using he] at hk hx
            have hne : c.mapping.length ≠ k := by
              have := h.idx _ _ hk; omega
            simp only
            rw [eslice_other _ _ _ _ _ hne hd' hkc]
            exact h.vec id k x hk hx
        · intro _; exact ⟨rfl, rfl, by simp⟩

theorem VInv.run {s : List (Nat × Ins E A)} (is : List (Ins E A)) : ∀ {c : Cache E A} {s}, VInv c s →
    ∃ c', c.run is = some (c', (specInserts c.dim c.cap s is).2) ∧
      VInv c' (specInserts c.dim c.cap s is).1 ∧ c'.dim = c.dim ∧ c'.cap = c.cap := by
  induction is with
  | nil => intro c s h; exact ⟨c, rfl, h, rfl, rfl⟩
  | cons i is ih =>
    intro c s h
    obtain ⟨c1, h1, h2, h3, h4, _, _⟩ := h.insert i
    obtain ⟨c2, h5, h6, h7, h8⟩ := ih h2
    rw [h3, h4] at h5 h6
    refine ⟨c2, ?_, h6, by rw [h7, h3], by rw [h8, h4]⟩
    simp only [Cache.run, h1, Option.bind_eq_bind, Option.bind_some, h5, specInserts]

theorem VInv.new (d0 : E) (dim cap : Nat) : VInv (Cache.new (A := A) d0 dim cap) [] :=
  ⟨by simp [Cache.new], rfl, by simp [Cache.new], by simp [Cache.new], by simp [Cache.new],
    by simp [Cache.new], by simp, by simp⟩

/-- **C53** (vectors, membership and refusals; every history, re-inserts included).  No insert panics,
each insert succeeds exactly when the vector has the cache's dimension and the id is already cached or
there is room, exactly the successfully inserted ids are cached, at most `cap` of them, and the vector
returned for an id is that of its last successful insert. -/
theorem C53_vectors (d0 : E) (dim cap : Nat) (is : List (Ins E A)) :
    ∃ c, (Cache.new (A := A) d0 dim cap).run is = some (c, (specInserts dim cap [] is).2) ∧
      (∀ id, c.getVector id = some (((specInserts dim cap [] is).1.lookup id).map (·.vec))) ∧
      (∀ id, c.contains id = ((specInserts dim cap [] is).1.lookup id).isSome) ∧
      c.mapping.length = (specInserts dim cap [] is).1.length ∧ c.mapping.length ≤ cap := by
  obtain ⟨c, h1, h2, h3, h4⟩ := (VInv.new (A := A) d0 dim cap).run (s := []) is
  refine ⟨c, h1, ?_, ?_, h2.size, ?_⟩
  · intro id
    have hd := h2.dom id
    unfold Cache.getVector
    cases hm : c.mapping.lookup id with
    | none =>
      rw [hm] at hd
      cases hs : (specInserts dim cap [] is).1.lookup id with
      | none => rfl
      | some x =>
        have : (specInserts (Cache.new (A := A) d0 dim cap).dim (Cache.new (A := A) d0 dim cap).cap [] is).1.lookup id = some x := hs
        rw [this] at hd; simp at hd
    | some k =>
      rw [hm] at hd
      cases hs : (specInserts dim cap [] is).1.lookup id with
      | none =>
        have : (specInserts (Cache.new (A := A) d0 dim cap).dim (Cache.new (A := A) d0 dim cap).cap [] is).1.lookup id = none := hs
        rw [this] at hd; simp at hd
      | some x =>
        simp only [h2.vec id k x hm hs, Option.map_some]
  · intro id; exact h2.dom id
  · have := h2.cap; rw [h4] at this; exact this

/-- The neighbour lists and associated data line up as long as no cached id is inserted again. -/
structure AInv (c : Cache E A) (s : List (Nat × Ins E A)) : Prop where
  alen : c.adj.length = c.mapping.length ∧ c.assoc.length = c.mapping.length
  data : ∀ id k i, c.mapping.lookup id = some k → s.lookup id = some i →
    c.adj[k]? = some i.adj ∧ c.assoc[k]? = some i.assoc

theorem AInv.insert {c c' : Cache E A} {s : List (Nat × Ins E A)} (hv : VInv c s) (ha : AInv c s)
    (i : Ins E A) (hfresh : s.lookup i.id = none)
    (h : c.insert i.id i.vec i.adj i.assoc = some (c', (specInsert c.dim c.cap s i).2)) :
    AInv c' (specInsert c.dim c.cap s i).1 := by
  obtain ⟨c1, h1, _, _, _, hf, ht⟩ := hv.insert i
  rw [h] at h1
  simp only [Option.some.injEq, Prod.mk.injEq, and_true] at h1
  subst h1
  by_cases hok : (specInsert c.dim c.cap s i).2 = true
  · obtain ⟨t1, t2, t3⟩ := ht hok
    have hmn : c.mapping.lookup i.id = none := by
      have := hv.dom i.id
      rw [hfresh] at this
      simpa using this
    rw [hmn] at t3
    simp only [Option.isSome_none, Bool.false_eq_true, if_false] at t3
    have hs1 : (specInsert c.dim c.cap s i).1 = (i.id, i) :: s := by
      unfold specInsert at hok ⊢
      split
      · rw [filter_of_lookup_none _ _ hfresh]
      · rename_i hneg
        rw [if_neg hneg] at hok; simp at hok
    obtain ⟨l1, l2⟩ := ha.alen
    refine ⟨by simp [t1, t2, t3, l1, l2], ?_⟩
    intro id k x hk hx
    rw [t3, List.lookup_cons] at hk
    rw [hs1, List.lookup_cons] at hx
    rw [t1, t2]
    by_cases he : id = i.id
    · subst he
      simp only [beq_self_eq_true, Option.some.injEq] at hk hx
      subst hk; subst hx
      constructor
      · rw [← l1]; simp
      · rw [← l2]; simp
    · rw [show (id == i.id) = false by simpa using he] at hk hx
      obtain ⟨g1, g2⟩ := ha.data id k x hk hx
      rw [List.getElem?_append_left (List.getElem?_eq_some_iff.1 g1).1,
        List.getElem?_append_left (List.getElem?_eq_some_iff.1 g2).1]
      exact ⟨g1, g2⟩
  · simp only [Bool.not_eq_true] at hok
    have := hf hok
    subst this
    have hs1 : (specInsert c'.dim c'.cap s i).1 = s := by
      unfold specInsert at hok ⊢
      split
      · rename_i hp; rw [if_pos hp] at hok; simp at hok
      · rfl
    rw [hs1]; exact ha

/-- No id that is already cached is inserted again. -/
def NoReinsert (dim cap : Nat) : List (Nat × Ins E A) → List (Ins E A) → Prop
  | _, [] => True
  | s, i :: is => s.lookup i.id = none ∧ NoReinsert dim cap (specInsert dim cap s i).1 is

/-- **C53** (neighbour lists and associated data, for histories that never re-insert a cached id; with
re-inserts the claim is false, see `C53_reinsert_stale` and `C53_reinsert_corrupts_other`). -/
theorem C53_lists_partial (d0 : E) (dim cap : Nat) (is : List (Ins E A))
    (hno : NoReinsert dim cap [] is) :
    ∃ c, (Cache.new (A := A) d0 dim cap).run is = some (c, (specInserts dim cap [] is).2) ∧
      (∀ id, c.getAdj id = some (((specInserts dim cap [] is).1.lookup id).map (·.adj))) ∧
      (∀ id, c.getAssoc id = some (((specInserts dim cap [] is).1.lookup id).map (·.assoc))) := by
  have key : ∀ (is : List (Ins E A)) (c : Cache E A) (s : List (Nat × Ins E A)), VInv c s → AInv c s →
      NoReinsert c.dim c.cap s is →
      ∃ c', c.run is = some (c', (specInserts c.dim c.cap s is).2) ∧
        VInv c' (specInserts c.dim c.cap s is).1 ∧ AInv c' (specInserts c.dim c.cap s is).1 := by
    intro is
    induction is with
    | nil => intro c s hv ha _; exact ⟨c, rfl, hv, ha⟩
    | cons i is ih =>
      intro c s hv ha hno
      obtain ⟨c1, h1, h2, h3, h4, _, _⟩ := hv.insert i
      have ha1 := AInv.insert hv ha i hno.1 h1
      obtain ⟨c2, h5, h6, h7⟩ := ih c1 _ h2 ha1 (by rw [h3, h4]; exact hno.2)
      rw [h3, h4] at h5 h6 h7
      refine ⟨c2, ?_, h6, h7⟩
      simp only [Cache.run, h1, Option.bind_eq_bind, Option.bind_some, h5, specInserts]
  have ha0 : AInv (Cache.new (A := A) d0 dim cap) [] := ⟨by simp [Cache.new], by simp⟩
  obtain ⟨c, h1, h2, h3⟩ := key is _ [] (VInv.new (A := A) d0 dim cap) ha0 hno
  have hd : ∀ id, (c.mapping.lookup id).isSome = ((specInserts dim cap [] is).1.lookup id).isSome := h2.dom
  refine ⟨c, h1, ?_, ?_⟩
  · intro id
    have hd := hd id
    unfold Cache.getAdj
    cases hm : c.mapping.lookup id with
    | none =>
      rw [hm] at hd
      cases hs : (specInserts dim cap [] is).1.lookup id with
      | none => rfl
      | some x => rw [hs] at hd; simp at hd
    | some k =>
      rw [hm] at hd
      cases hs : (specInserts dim cap [] is).1.lookup id with
      | none => rw [hs] at hd; simp at hd
      | some x => simp only [(h3.data id k x hm hs).1, Option.map_some]
  · intro id
    have hd := hd id
    unfold Cache.getAssoc
    cases hm : c.mapping.lookup id with
    | none =>
      rw [hm] at hd
      cases hs : (specInserts dim cap [] is).1.lookup id with
      | none => rfl
      | some x => rw [hs] at hd; simp at hd
    | some k =>
      rw [hm] at hd
      cases hs : (specInserts dim cap [] is).1.lookup id with
      | none => rw [hs] at hd; simp at hd
      | some x => simp only [(h3.data id k x hm hs).2, Option.map_some]

/-- **C53 fails on re-insert**: the vector is replaced, the neighbour list and the associated data are
not — the old ones are still returned. -/
theorem C53_reinsert_stale :
    ((Cache.new (E := Nat) (A := Nat) 0 1 2).run [⟨1, [10], [2], 100⟩, ⟨1, [11], [3], 101⟩]).map
      (fun r => (r.1.getVector 1, r.1.getAdj 1, r.1.getAssoc 1)) =
      some (some (some [11]), some (some [2]), some (some 100)) := by decide

/-- **C53 fails for other ids after a re-insert**: a vertex inserted afterwards is served with the
neighbour list and associated data of the re-inserted one. -/
theorem C53_reinsert_corrupts_other :
    ((Cache.new (E := Nat) (A := Nat) 0 1 2).run
        [⟨1, [10], [2], 100⟩, ⟨1, [11], [3], 101⟩, ⟨5, [50], [6], 500⟩]).map
      (fun r => (r.1.getVector 5, r.1.getAdj 5, r.1.getAssoc 5)) =
      some (some (some [50]), some (some [3]), some (some 101)) := by decide

/-- Three inserts, the last refused because the cache is full, satisfy `NoReinsert`. -/
example : NoReinsert (E := Nat) (A := Nat) 1 2 [] [⟨1, [10], [2], 100⟩, ⟨2, [11], [3], 101⟩, ⟨3, [1], [], 0⟩] ∧
    (specInserts (E := Nat) (A := Nat) 1 2 [] [⟨1, [10], [2], 100⟩, ⟨2, [11], [3], 101⟩, ⟨3, [1], [], 0⟩]).2 =
      [true, true, false] := by
  refine ⟨?_, by decide⟩
  simp [NoReinsert, specInsert]

end Verif.Disk
