import Verif.WorkingSet.Model
/-
Lemmas on the working set: keys stay distinct and disjoint from the overlay, pinned entries survive, sizes.
-/
namespace Verif.WorkingSet

variable {V : Type}

/-- The reorderings an operation may apply. -/
def OpPerm : Op V → Prop
  | .prepare sh _ => ∀ l, (sh l).Perm l
  | .fill sh _ _ => ∀ l, (sh l).Perm l
  | _ => True

def keys (es : List (Ent V)) : List Nat := es.map (·.key)

theorem hasKey_iff {es : List (Ent V)} {k : Nat} : hasKey es k = true ↔ k ∈ keys es := by
  simp [hasKey, keys]

theorem keys_touch (g k : Nat) (es : List (Ent V)) : keys (touch g k es) = keys es := by
  unfold keys touch
  rw [List.map_map]
  apply List.map_congr_left
  intro e _
  simp only [Function.comp]
  split <;> rfl

theorem keys_promote (g : Nat) (ks : List Nat) (es : List (Ent V)) : keys (promote g ks es).1 = keys es := by
  induction ks generalizing es with
  | nil => rfl
  | cons k ks ih =>
    rw [promote]
    split
    · rw [ih, keys_touch]
    · rw [ih]

theorem promote_count (g : Nat) (ks : List Nat) (es : List (Ent V)) :
    (promote g ks es).2 = (ks.filter (fun k => hasKey es k)).length := by
  induction ks generalizing es with
  | nil => rfl
  | cons k ks ih =>
    rw [promote]
    split
    · rename_i h
      have e : ∀ j, hasKey (touch g k es) j = hasKey es j := by
        intro j
        rw [Bool.eq_iff_iff, hasKey_iff, hasKey_iff, keys_touch]
      rw [ih, List.filter_cons, if_pos h, List.length_cons]
      simp only [e]
    · rename_i h
      rw [ih, List.filter_cons, if_neg h]

/-- Values by key. -/
def val? (es : List (Ent V)) (k : Nat) : Option V := (es.find? (fun e => e.key == k)).map (·.val)

theorem val?_iff {es : List (Ent V)} (h : (keys es).Nodup) (k : Nat) (v : V) :
    val? es k = some v ↔ ∃ e ∈ es, e.key = k ∧ e.val = v := by
  induction es with
  | nil => simp [val?]
  | cons x xs ih =>
    have hn : x.key ∉ keys xs ∧ (keys xs).Nodup := by simpa [keys] using h
    have ih := ih hn.2
    unfold val? at ih ⊢
    rw [List.find?_cons]
    by_cases e : x.key = k
    · simp only [e, BEq.rfl, Option.map_some, Option.some.injEq, List.mem_cons]
      constructor
      · rintro rfl; exact ⟨x, Or.inl rfl, e, rfl⟩
      · rintro ⟨y, rfl | hy, h1, h2⟩
        · exact h2
        · exact absurd (List.mem_map.2 ⟨y, hy, by rw [h1, e]⟩) hn.1
    · have : (x.key == k) = false := by simpa using e
      rw [this, ih]
      constructor
      · rintro ⟨y, hy, h1⟩; exact ⟨y, List.mem_cons_of_mem _ hy, h1⟩
      · rintro ⟨y, hy, h1, h2⟩
        rcases List.mem_cons.1 hy with rfl | hy
        · exact absurd h1 e
        · exact ⟨y, hy, h1, h2⟩

theorem val?_none {es : List (Ent V)} (k : Nat) : val? es k = none ↔ k ∉ keys es := by
  unfold val? keys
  rw [Option.map_eq_none_iff, List.find?_eq_none]
  simp

/-- `touch` and `promote` keep the values. -/
theorem mem_touch {g k : Nat} {es : List (Ent V)} {e : Ent V} (h : e ∈ touch g k es) :
    ∃ e0 ∈ es, e0.key = e.key ∧ e0.val = e.val ∧ (e.gen = e0.gen ∨ (e.gen = g ∧ e.key = k)) := by
  obtain ⟨e0, h0, rfl⟩ := List.mem_map.1 h
  refine ⟨e0, h0, ?_⟩
  split
  · rename_i hk; exact ⟨rfl, rfl, Or.inr ⟨rfl, hk⟩⟩
  · exact ⟨rfl, rfl, Or.inl rfl⟩

theorem touch_mem {g k : Nat} {es : List (Ent V)} {e0 : Ent V} (h : e0 ∈ es) :
    ∃ e ∈ touch g k es, e.key = e0.key ∧ e.val = e0.val ∧ (e0.key = k → e.gen = g) ∧ (e0.gen = g → e.gen = g) := by
  refine ⟨_, List.mem_map.2 ⟨e0, h, rfl⟩, ?_⟩
  split
  · exact ⟨rfl, rfl, fun _ => rfl, fun _ => rfl⟩
  · rename_i hk; exact ⟨rfl, rfl, fun h => absurd h hk, fun h => h⟩

theorem mem_promote {g : Nat} {ks : List Nat} {es : List (Ent V)} {e : Ent V} (h : e ∈ (promote g ks es).1) :
    ∃ e0 ∈ es, e0.key = e.key ∧ e0.val = e.val ∧ (e.gen = e0.gen ∨ (e.gen = g ∧ e.key ∈ ks)) := by
  induction ks generalizing es with
  | nil => exact ⟨e, h, rfl, rfl, Or.inl rfl⟩
  | cons k ks ih =>
    rw [promote] at h
    split at h
    · obtain ⟨e1, h1, k1, v1, g1⟩ := ih h
      obtain ⟨e0, h0, k0, v0, g0⟩ := mem_touch h1
      refine ⟨e0, h0, by rw [k0, k1], by rw [v0, v1], ?_⟩
      rcases g1 with g1 | ⟨g1, m1⟩
      · rcases g0 with g0 | ⟨g0, m0⟩
        · exact Or.inl (by rw [g1, g0])
        · exact Or.inr ⟨by rw [g1, g0], by rw [← k1, m0]; simp⟩
      · exact Or.inr ⟨g1, List.mem_cons_of_mem _ m1⟩
    · obtain ⟨e0, h0, k0, v0, g0⟩ := ih h
      refine ⟨e0, h0, k0, v0, ?_⟩
      rcases g0 with g0 | ⟨g0, m0⟩
      · exact Or.inl g0
      · exact Or.inr ⟨g0, List.mem_cons_of_mem _ m0⟩

theorem promote_mem {g : Nat} {ks : List Nat} {es : List (Ent V)} {e0 : Ent V} (h : e0 ∈ es) :
    ∃ e ∈ (promote g ks es).1, e.key = e0.key ∧ e.val = e0.val ∧ (e0.key ∈ ks → e.gen = g) ∧
      (e0.gen = g → e.gen = g) := by
  induction ks generalizing es e0 with
  | nil => exact ⟨e0, h, rfl, rfl, by simp, fun h => h⟩
  | cons k ks ih =>
    rw [promote]
    split
    · obtain ⟨e1, h1, k1, v1, g1, f1⟩ := touch_mem (g := g) (k := k) h
      obtain ⟨e2, h2, k2, v2, g2, f2⟩ := ih h1
      refine ⟨e2, h2, by rw [k2, k1], by rw [v2, v1], ?_, fun hg => f2 (f1 hg)⟩
      intro hm
      rcases List.mem_cons.1 hm with hm | hm
      · exact f2 (g1 hm)
      · exact g2 (by rw [k1]; exact hm)
    · rename_i hk
      obtain ⟨e2, h2, k2, v2, g2, f2⟩ := ih h
      refine ⟨e2, h2, k2, v2, ?_, f2⟩
      intro hm
      rcases List.mem_cons.1 hm with hm | hm
      · exact absurd (hasKey_iff.2 (List.mem_map.2 ⟨e0, h, hm⟩)) hk
      · exact g2 hm

theorem evict_sublist (g n : Nat) (es : List (Ent V)) : (evict g n es).Sublist es := by
  induction es generalizing n with
  | nil => cases n <;> simp [evict]
  | cons e es ih =>
    cases n with
    | zero => rw [evict]
    | succ n =>
      rw [evict]
      split
      · exact (ih n).cons e
      · exact (ih (n + 1)).cons_cons e

theorem evict_keeps {g n : Nat} {es : List (Ent V)} {e : Ent V} (h : e ∈ es) (hg : e.gen = g) : e ∈ evict g n es := by
  induction es generalizing n with
  | nil => simp at h
  | cons x xs ih =>
    cases n with
    | zero => rw [evict]; exact h
    | succ n =>
      rw [evict]
      rcases List.mem_cons.1 h with rfl | h
      · rw [if_neg (by simp [hg])]; simp
      · split
        · exact ih h
        · exact List.mem_cons_of_mem _ (ih h)

/-- Either everything asked for was evicted, or only the current generation is left. -/
theorem evict_size (g n : Nat) (es : List (Ent V)) :
    (evict g n es).length + n ≤ es.length ∨ ∀ e ∈ evict g n es, e.gen = g := by
  induction es generalizing n with
  | nil => cases n <;> simp [evict]
  | cons x xs ih =>
    cases n with
    | zero => rw [evict]; left; simp
    | succ n =>
      rw [evict]
      split
      · rcases ih n with h | h
        · left; simp only [List.length_cons]; omega
        · exact Or.inr h
      · rename_i hx
        rcases ih (n + 1) with h | h
        · left; simp only [List.length_cons]; omega
        · right
          intro e he
          rcases List.mem_cons.1 he with rfl | he
          · simpa using hx
          · exact h e he

/-! ### Invariant -/

/-- Keys are distinct and not in the overlay. -/
structure WInv (m : WMap V) : Prop where
  nodup : (keys m.entries).Nodup
  disj : ∀ k ∈ keys m.entries, m.overlay k = none

theorem nodup_sublist {xs ys : List (Ent V)} (h : xs.Sublist ys) (hn : (keys ys).Nodup) : (keys xs).Nodup :=
  List.Sublist.nodup (List.Sublist.map _ h) hn

/-- What `prepare` keeps. -/
structure Kept (m m' : WMap V) (req : List Nat) : Prop where
  overlay : m'.overlay = m.overlay
  capacity : m'.capacity = m.capacity
  nodup : (keys m'.entries).Nodup
  sub : ∀ k v, val? m'.entries k = some v → val? m.entries k = some v
  gen : m'.gen = (m.gen + 1) % 4294967296

theorem trim_kept {sh : List (Ent V) → List (Ent V)} (hsh : ∀ l, (sh l).Perm l) {m : WMap V} {c : Nat}
    {req : List Nat} (hn : (keys m.entries).Nodup) :
    (keys (trim sh m c req).entries).Nodup ∧
    (∀ k v, val? (trim sh m c req).entries k = some v → val? m.entries k = some v) ∧
    (∀ k ∈ req, ∀ v, val? m.entries k = some v → val? (trim sh m c req).entries k = some v) ∧
    (trim sh m c req).overlay = m.overlay ∧ (trim sh m c req).capacity = m.capacity ∧ (trim sh m c req).gen = m.gen := by
  have hp : (keys (promote m.gen req m.entries).1).Nodup := by rw [keys_promote]; exact hn
  have hs : (keys (sh (promote m.gen req m.entries).1)).Nodup := ((hsh _).map _).nodup_iff.2 hp
  -- the entries that are left
  have main : ∀ es, (keys es).Nodup → (∀ e ∈ es, e ∈ (promote m.gen req m.entries).1) →
      (∀ e ∈ (promote m.gen req m.entries).1, e.gen = m.gen → e ∈ es) →
      (∀ k v, val? es k = some v → val? m.entries k = some v) ∧
      (∀ k ∈ req, ∀ v, val? m.entries k = some v → val? es k = some v) := by
    intro es hes h1 h2
    constructor
    · intro k v h
      obtain ⟨e, he, hk, hv⟩ := (val?_iff hes k v).1 h
      obtain ⟨e0, h0, k0, v0, _⟩ := mem_promote (h1 e he)
      exact (val?_iff hn k v).2 ⟨e0, h0, by rw [k0, hk], by rw [v0, hv]⟩
    · intro k hk v h
      obtain ⟨e0, h0, k0, v0⟩ := (val?_iff hn k v).1 h
      obtain ⟨e, he, ke, ve, ge, _⟩ := promote_mem (g := m.gen) (ks := req) h0
      exact (val?_iff hes k v).2 ⟨e, h2 e he (ge (by rw [k0]; exact hk)), by rw [ke, k0], by rw [ve, v0]⟩
  unfold trim
  dsimp only
  split
  · have hes := nodup_sublist (evict_sublist m.gen ((promote m.gen req m.entries).1.length +
      (req.length - (promote m.gen req m.entries).2) - c) (sh (promote m.gen req m.entries).1)) hs
    obtain ⟨a, b⟩ := main _ hes
      (fun e he => (hsh _).mem_iff.1 ((evict_sublist _ _ _).subset he))
      (fun e he hg => evict_keeps ((hsh _).mem_iff.2 he) hg)
    exact ⟨hes, a, b, rfl, rfl, rfl⟩
  · obtain ⟨a, b⟩ := main _ hp (fun e he => he) (fun e he _ => he)
    exact ⟨hp, a, b, rfl, rfl, rfl⟩

theorem prepare_kept {sh : List (Ent V) → List (Ent V)} (hsh : ∀ l, (sh l).Perm l) {m : WMap V} {req : List Nat}
    (hn : (keys m.entries).Nodup) :
    Kept m (prepare sh m req) req ∧
      (m.capacity ≠ some 0 → ∀ k ∈ req, ∀ v, val? m.entries k = some v → val? (prepare sh m req).entries k = some v) := by
  unfold prepare
  split
  · exact ⟨⟨rfl, rfl, hn, fun _ _ h => h, rfl⟩, fun _ _ _ _ h => h⟩
  · split
    · exact ⟨⟨rfl, rfl, hn, fun _ _ h => h, rfl⟩, fun _ _ _ _ h => h⟩
    · rename_i h0
      refine ⟨⟨rfl, rfl, by simp [keys], fun k v h => by simp [val?] at h, rfl⟩, fun h => absurd h0 h⟩
    · rename_i c hc
      obtain ⟨h1, h2, h3, h4, h5, h6⟩ := trim_kept hsh (m := m.bump) (c := c + 1) (req := req) hn
      exact ⟨⟨h4, h5, h1, h2, h6⟩, fun _ => h3⟩

/-! ### The fill loop -/

theorem val?_touch {g k : Nat} {es : List (Ent V)} (j : Nat) : val? (touch g k es) j = val? es j := by
  unfold val? touch
  induction es with
  | nil => rfl
  | cons e es ih =>
    rw [List.map_cons, List.find?_cons, List.find?_cons]
    have : ((if e.key = k then { e with gen := g } else e).key == j) = (e.key == j) := by split <;> rfl
    rw [this]
    split
    · simp only [Option.map_some]; split <;> rfl
    · exact ih

theorem val?_cons (e : Ent V) (es : List (Ent V)) (j : Nat) :
    val? (e :: es) j = if e.key = j then some e.val else val? es j := by
  unfold val?
  rw [List.find?_cons]
  by_cases h : e.key = j
  · simp [h]
  · have : (e.key == j) = false := by simpa using h
    rw [this, if_neg h]

theorem length_touch (g k : Nat) (es : List (Ent V)) : (touch g k es).length = es.length := by
  unfold touch; rw [List.length_map]

theorem fillLoop_spec (f : Nat → Except Unit (Option V)) (m : WMap V) (req : List Nat) (hn : (keys m.entries).Nodup) :
    (keys (fillLoop f m req).1.entries).Nodup ∧
    (fillLoop f m req).1.overlay = m.overlay ∧ (fillLoop f m req).1.capacity = m.capacity ∧
    (fillLoop f m req).1.gen = m.gen ∧
    (∀ k ∈ keys (fillLoop f m req).1.entries, k ∈ keys m.entries ∨ (k ∈ req ∧ m.overlay k = none)) ∧
    (∀ k v, val? m.entries k = some v → val? (fillLoop f m req).1.entries k = some v) ∧
    (∀ k, val? m.entries k = none → ∀ v, val? (fillLoop f m req).1.entries k = some v → f k = .ok (some v)) ∧
    ((fillLoop f m req).2 = true → ∀ k ∈ req, m.overlay k = none → val? m.entries k = none →
      ∃ o, f k = .ok o ∧ val? (fillLoop f m req).1.entries k = o) ∧
    (fillLoop f m req).1.entries.length ≤ m.entries.length + (req.filter (fun k => !hasKey m.entries k)).length ∧
    ((fillLoop f m req).2 = false → ∃ k ∈ req, ∃ e, f k = .error e) ∧
    (∀ e ∈ (fillLoop f m req).1.entries, e.gen = m.gen ∨ ∃ e0 ∈ m.entries, e0.key = e.key ∧ e0.gen = e.gen) := by
  induction req generalizing m with
  | nil =>
    refine ⟨hn, rfl, rfl, rfl, fun k h => Or.inl h, fun _ _ h => h, fun k h v h' => ?_, by simp, by simp [fillLoop],
      by simp [fillLoop], fun e he => Or.inr ⟨e, he, rfl, rfl⟩⟩
    rw [fillLoop, h] at h'
    simp at h'
  | cons k ks ih =>
    rw [fillLoop]
    split
    · rename_i ho
      obtain ⟨a, b, c, d, e, g, h, i, j, l, q⟩ := ih m hn
      refine ⟨a, b, c, d, fun x hx => (e x hx).imp id (fun y => ⟨List.mem_cons_of_mem _ y.1, y.2⟩), g, h, ?_, ?_, ?_, q⟩
      · intro ht x hx hxo hxn
        rcases List.mem_cons.1 hx with rfl | hx
        · rw [hxo] at ho; simp at ho
        · exact i ht x hx hxo hxn
      · refine Nat.le_trans j ?_
        rw [List.filter_cons]
        split <;> simp
      · intro hf
        obtain ⟨x, hx, hh⟩ := l hf
        exact ⟨x, List.mem_cons_of_mem _ hx, hh⟩
    · rename_i ho
      have hov : m.overlay k = none := by
        cases h : m.overlay k with
        | none => rfl
        | some v => simp [h] at ho
      split
      · rename_i hk
        have hkm := hasKey_iff.1 hk
        obtain ⟨a, b, c, d, e, g, h, i, j, l, q⟩ := ih { m with entries := touch m.gen k m.entries }
          (by rw [keys_touch]; exact hn)
        dsimp only at *
        simp only [keys_touch, val?_touch, length_touch] at *
        have hk' : ∀ x, hasKey (touch m.gen k m.entries) x = hasKey m.entries x := by
          intro x; rw [Bool.eq_iff_iff, hasKey_iff, hasKey_iff, keys_touch]
        simp only [hk'] at j
        refine ⟨a, b, c, d, fun x hx => (e x hx).imp id (fun y => ⟨List.mem_cons_of_mem _ y.1, y.2⟩), g, h, ?_, ?_, ?_, ?_⟩
        · intro ht x hx hxo hxn
          rcases List.mem_cons.1 hx with rfl | hx
          · exact absurd hkm ((val?_none x).1 hxn)
          · exact i ht x hx hxo hxn
        · refine Nat.le_trans j ?_
          rw [List.filter_cons]
          split <;> simp
        · intro hf
          obtain ⟨x, hx, hh⟩ := l hf
          exact ⟨x, List.mem_cons_of_mem _ hx, hh⟩
        · intro y hy
          rcases q y hy with q | ⟨e0, he0, k0, g0⟩
          · exact Or.inl q
          · obtain ⟨e1, h1, k1, _, g1⟩ := mem_touch he0
            rcases g1 with g1 | ⟨g1, _⟩
            · exact Or.inr ⟨e1, h1, by rw [k1, k0], by rw [← g1, g0]⟩
            · exact Or.inl (by rw [← g0, g1])
      · rename_i hk
        have hkm : k ∉ keys m.entries := fun h => hk (hasKey_iff.2 h)
        split
        · rename_i er he
          refine ⟨hn, rfl, rfl, rfl, fun k h => Or.inl h, fun _ _ h => h, fun k h v h' => ?_, by simp, by simp, ?_,
            fun e he => Or.inr ⟨e, he, rfl, rfl⟩⟩
          · rw [h] at h'; simp at h'
          · intro _; exact ⟨k, by simp, er, he⟩
        · rename_i he
          obtain ⟨a, b, c, d, e, g, h, i, j, l, q⟩ := ih m hn
          refine ⟨a, b, c, d, fun x hx => (e x hx).imp id (fun y => ⟨List.mem_cons_of_mem _ y.1, y.2⟩), g, h, ?_, ?_, ?_, q⟩
          · intro ht x hx hxo hxn
            rcases List.mem_cons.1 hx with rfl | hx
            · refine ⟨none, he, ?_⟩
              cases hv : val? (fillLoop f m ks).1.entries x with
              | none => rfl
              | some v =>
                have := h x hxn v hv
                rw [he] at this
                simp at this
            · exact i ht x hx hxo hxn
          · refine Nat.le_trans j ?_
            rw [List.filter_cons]
            split <;> simp
          · intro hf
            obtain ⟨x, hx, hh⟩ := l hf
            exact ⟨x, List.mem_cons_of_mem _ hx, hh⟩
        · rename_i v he
          have hn' : (keys (⟨k, m.gen, v⟩ :: m.entries)).Nodup := by
            simp only [keys, List.map_cons, List.nodup_cons]
            exact ⟨hkm, hn⟩
          obtain ⟨a, b, c, d, e, g, h, i, j, l, q⟩ := ih { m with entries := ⟨k, m.gen, v⟩ :: m.entries } hn'
          dsimp only at *
          simp only [val?_cons] at g h i
          refine ⟨a, b, c, d, ?_, ?_, ?_, ?_, ?_, ?_, ?_⟩
          · intro x hx
            rcases e x hx with hx | hx
            · simp only [keys, List.map_cons, List.mem_cons] at hx
              rcases hx with rfl | hx
              · exact Or.inr ⟨by simp, hov⟩
              · exact Or.inl hx
            · exact Or.inr ⟨List.mem_cons_of_mem _ hx.1, hx.2⟩
          · intro x w hw
            apply g
            rw [if_neg]
            · exact hw
            · rintro rfl
              rw [(val?_none k).2 hkm] at hw
              simp at hw
          · intro x hx w hw
            by_cases hxk : k = x
            · subst hxk
              have := g k v (by rw [if_pos rfl])
              rw [this] at hw
              simp only [Option.some.injEq] at hw
              rw [← hw]; exact he
            · exact h x (by rw [if_neg hxk]; exact hx) w hw
          · intro ht x hx hxo hxn
            by_cases hxk : k = x
            · subst hxk
              exact ⟨some v, he, g k v (by rw [if_pos rfl])⟩
            · rcases List.mem_cons.1 hx with rfl | hx
              · exact absurd rfl hxk
              · exact i ht x hx hxo (by rw [if_neg hxk]; exact hxn)
          · refine Nat.le_trans j ?_
            rw [List.length_cons, List.filter_cons, if_pos (by simpa using hk), List.length_cons]
            have : (ks.filter (fun x => !hasKey (⟨k, m.gen, v⟩ :: m.entries) x)).length ≤
                (ks.filter (fun x => !hasKey m.entries x)).length := by
              apply List.Sublist.length_le
              apply List.monotone_filter_right
              intro x hx
              simp only [hasKey, List.any_cons, Bool.not_or, Bool.and_eq_true] at hx ⊢
              exact hx.2
            omega
          · intro hf
            obtain ⟨x, hx, hh⟩ := l hf
            exact ⟨x, List.mem_cons_of_mem _ hx, hh⟩
          · intro y hy
            rcases q y hy with q | ⟨e0, he0, k0, g0⟩
            · exact Or.inl q
            · rcases List.mem_cons.1 he0 with rfl | he0
              · exact Or.inl g0.symm
              · exact Or.inr ⟨e0, he0, k0, g0⟩

/-! ### Sizes -/

theorem length_le_distinct {es : List (Ent V)} {req : List Nat} (hn : (keys es).Nodup)
    (h : ∀ k ∈ keys es, k ∈ req) : es.length ≤ req.dedup.length := by
  have : (keys es).Subperm req.dedup := List.subperm_of_subset hn (fun k hk => List.mem_dedup.2 (h k hk))
  have := this.length_le
  rwa [keys, List.length_map] at this

theorem filter_split (p : Nat → Bool) (l : List Nat) : (l.filter p).length + (l.filter (fun x => !p x)).length = l.length := by
  induction l with
  | nil => rfl
  | cons x xs ih =>
    rw [List.filter_cons, List.filter_cons]
    cases p x <;> simp <;> omega

/-- Entries of earlier generations are told apart from the current one. -/
def Fresh (m : WMap V) : Prop := ∀ e ∈ m.entries, e.gen ≠ (m.gen + 1) % 4294967296

theorem fill_bound {sh : List (Ent V) → List (Ent V)} (hsh : ∀ l, (sh l).Perm l) (f : Nat → Except Unit (Option V))
    {m : WMap V} {req : List Nat} (hn : (keys m.entries).Nodup) (hf : Fresh m) {c : Nat} (hc : m.capacity = some c) :
    (fill sh f m req).1.entries.length ≤ max c req.dedup.length := by
  unfold fill
  obtain ⟨kp, kpin⟩ := prepare_kept hsh (m := m) (req := req) hn
  obtain ⟨hN, _, _, _, hK, _, _, _, hL, _, _⟩ := fillLoop_spec f (prepare sh m req) req kp.nodup
  by_cases allreq : ∀ k ∈ keys (prepare sh m req).entries, k ∈ req
  · have := length_le_distinct hN (fun k hk => (hK k hk).elim (allreq k) (fun h => h.1))
    omega
  · suffices h : (prepare sh m req).entries.length + (req.filter (fun k => !hasKey (prepare sh m req).entries k)).length
        ≤ c by omega
    -- the map was not empty and the capacity not zero
    have hne : m.entries ≠ [] := by
      intro he
      apply allreq
      rw [prepare, if_pos he]
      simp [WMap.bump, he, keys]
    cases c with
    | zero =>
      exfalso
      apply allreq
      rw [prepare, if_neg hne, hc]
      simp [keys]
    | succ c =>
      have hpe : prepare sh m req = trim sh m.bump (c + 1) req := by rw [prepare, if_neg hne, hc]
      -- requested keys are resident after iff before
      have hres : ∀ k ∈ req, hasKey (prepare sh m req).entries k = hasKey m.entries k := by
        intro k hk
        rw [Bool.eq_iff_iff, hasKey_iff, hasKey_iff]
        constructor
        · intro h
          by_contra hcon
          cases hv : val? (prepare sh m req).entries k with
          | none => exact (val?_none k).1 hv h
          | some v =>
            have := kp.sub k v hv
            rw [(val?_none k).2 hcon] at this
            simp at this
        · intro h
          by_contra hcon
          cases hv : val? m.entries k with
          | none => exact (val?_none k).1 hv h
          | some v =>
            have := kpin (by rw [hc]; simp) k hk v hv
            rw [(val?_none k).2 hcon] at this
            simp at this
      have hfil : req.filter (fun k => !hasKey (prepare sh m req).entries k) = req.filter (fun k => !hasKey m.entries k) := by
        apply List.filter_congr
        intro k hk
        rw [hres k hk]
      rw [hfil]
      have hcount := promote_count m.bump.gen req m.bump.entries
      have hsplit := filter_split (fun k => hasKey m.entries k) req
      have hextra : req.length - (promote m.bump.gen req m.bump.entries).2 =
          (req.filter (fun k => !hasKey m.entries k)).length := by
        rw [hcount]
        show req.length - (req.filter (fun k => hasKey m.entries k)).length = _
        omega
      rw [hpe] at allreq ⊢
      unfold trim at allreq ⊢
      dsimp only at allreq ⊢
      rw [hextra] at allreq ⊢
      split at allreq
      · rename_i hle
        rw [if_pos hle]
        rcases evict_size m.bump.gen ((promote m.bump.gen req m.bump.entries).1.length +
          (req.filter (fun k => !hasKey m.entries k)).length - (c + 1)) (sh (promote m.bump.gen req m.bump.entries).1) with h | h
        · have := (hsh (promote m.bump.gen req m.bump.entries).1).length_eq
          dsimp only
          omega
        · exfalso
          apply allreq
          intro k hk
          obtain ⟨e, he, rfl⟩ := List.mem_map.1 hk
          have hg := h e he
          obtain ⟨e0, h0, k0, _, g0⟩ := mem_promote ((hsh _).mem_iff.1 ((evict_sublist _ _ _).subset he))
          rcases g0 with g0 | ⟨_, hm⟩
          · exact absurd (by rw [← g0, hg]; rfl) (hf e0 h0)
          · exact hm
      · rename_i hle
        rw [if_neg hle]
        dsimp only
        omega

/-! ### Histories -/

/-- Number of generations a history starts. -/
def bumps : List (Op V) → Nat
  | [] => 0
  | .prepare _ _ :: ops => bumps ops + 1
  | .fill _ _ _ :: ops => bumps ops + 1
  | _ :: ops => bumps ops

/-- Before a wrap, generations count the fills. -/
structure HInv (m : WMap V) (n : Nat) : Prop where
  nodup : (keys m.entries).Nodup
  disj : ∀ k ∈ keys m.entries, m.overlay k = none
  gen : m.gen = n % 4294967296
  old : n < 4294967296 → ∀ e ∈ m.entries, e.gen ≤ n

theorem keys_update (m : WMap V) (k : Nat) (f : V → V) : keys (m.update k f).entries = keys m.entries := by
  unfold keys WMap.update
  dsimp only
  rw [List.map_map]
  apply List.map_congr_left
  intro e _
  simp only [Function.comp]
  split <;> rfl

theorem mem_keys_of_val {es : List (Ent V)} {k : Nat} {v : V} (h : val? es k = some v) : k ∈ keys es := by
  by_contra hc
  rw [(val?_none k).2 hc] at h
  simp at h

theorem keys_sub {es es' : List (Ent V)} (h : ∀ k v, val? es' k = some v → val? es k = some v) :
    ∀ k ∈ keys es', k ∈ keys es := by
  intro k hk
  cases hv : val? es' k with
  | none => exact absurd hk ((val?_none k).1 hv)
  | some v => exact mem_keys_of_val (h k v hv)

theorem prepare_old {sh : List (Ent V) → List (Ent V)} (hsh : ∀ l, (sh l).Perm l) {m : WMap V} {req : List Nat}
    {e : Ent V} (he : e ∈ (prepare sh m req).entries) :
    e.gen = (m.gen + 1) % 4294967296 ∨ ∃ e0 ∈ m.entries, e0.gen = e.gen := by
  unfold prepare at he
  split at he
  · exact Or.inr ⟨e, he, rfl⟩
  · split at he
    · exact Or.inr ⟨e, he, rfl⟩
    · simp at he
    · have : e ∈ (promote m.bump.gen req m.bump.entries).1 := by
        unfold trim at he
        dsimp only at he
        split at he
        · exact (hsh _).mem_iff.1 ((evict_sublist _ _ _).subset he)
        · exact he
      obtain ⟨e0, h0, _, _, g⟩ := mem_promote this
      rcases g with g | ⟨g, _⟩
      · exact Or.inr ⟨e0, h0, g.symm⟩
      · exact Or.inl g

theorem prepare_hinv {sh : List (Ent V) → List (Ent V)} (hsh : ∀ l, (sh l).Perm l) {m : WMap V} {n : Nat}
    (h : HInv m n) (req : List Nat) : HInv (prepare sh m req) (n + 1) := by
  obtain ⟨kp, _⟩ := prepare_kept hsh (m := m) (req := req) h.nodup
  refine ⟨kp.nodup, ?_, ?_, ?_⟩
  · intro k hk
    rw [kp.overlay]
    exact h.disj k (keys_sub kp.sub k hk)
  · rw [kp.gen, h.gen]
    omega
  · intro hn e he
    rcases prepare_old hsh he with g | ⟨e0, h0, g⟩
    · rw [g, h.gen]; omega
    · have := h.old (by omega) e0 h0
      omega

theorem step_hinv {m : WMap V} {n : Nat} (h : HInv m n) {o : Op V} (ho : OpPerm o) :
    HInv (step m o) (n + bumps [o]) := by
  cases o with
  | prepare sh req => exact prepare_hinv ho h req
  | fill sh f req =>
    have hp := prepare_hinv ho h req
    obtain ⟨hN, hO, _, hG, hK, _, _, _, _, _, hg⟩ := fillLoop_spec f (prepare sh m req) req hp.nodup
    refine ⟨hN, ?_, ?_, ?_⟩
    · intro k hk
      show (fillLoop f (prepare sh m req) req).1.overlay k = none
      rw [hO]
      rcases hK k hk with hk | hk
      · exact hp.disj k hk
      · exact hk.2
    · show (fillLoop f (prepare sh m req) req).1.gen = _
      rw [hG]; exact hp.gen
    · intro hn e he
      rcases hg e he with g | ⟨e0, h0, _, g⟩
      · rw [g, hp.gen]
        exact Nat.mod_le _ _
      · rw [← g]; exact hp.old hn e0 h0
  | insert k v =>
    show HInv (m.insert k v) n
    unfold WMap.insert
    split
    · exact h
    · rename_i ho
      have hov : m.overlay k = none := by
        cases hh : m.overlay k with
        | none => rfl
        | some v => simp [hh] at ho
      have hsub : (m.entries.filter (fun x => x.key != k)).Sublist m.entries := List.filter_sublist
      refine ⟨?_, ?_, h.gen, ?_⟩
      · simp only [put, keys, List.map_cons, List.nodup_cons]
        refine ⟨by simp, nodup_sublist hsub h.nodup⟩
      · intro j hj
        simp only [put, keys, List.map_cons, List.mem_cons] at hj
        rcases hj with rfl | hj
        · exact hov
        · exact h.disj j ((hsub.map _).subset hj)
      · intro hn e he
        rcases List.mem_cons.1 he with rfl | he
        · show m.gen ≤ n
          rw [h.gen]; exact Nat.mod_le _ _
        · exact h.old hn e (hsub.subset he)
  | update k f =>
    show HInv (m.update k f) n
    refine ⟨by rw [keys_update]; exact h.nodup, by rw [keys_update]; exact h.disj, h.gen, ?_⟩
    intro hn e he
    obtain ⟨e0, h0, rfl⟩ := List.mem_map.1 he
    split
    · show m.gen ≤ n
      rw [h.gen]; exact Nat.mod_le _ _
    · exact h.old hn e0 h0
  | clear => exact ⟨by simp [step, WMap.clear, keys], by simp [step, WMap.clear, keys], h.gen, by simp [step, WMap.clear]⟩

theorem run_hinv (ops : List (Op V)) {m : WMap V} {n : Nat} (h : HInv m n) (ho : ∀ o ∈ ops, OpPerm o) :
    HInv (run m ops) (n + bumps ops) := by
  induction ops generalizing m n with
  | nil => exact h
  | cons o os ih =>
    have := ih (step_hinv h (ho o (by simp))) (fun x hx => ho x (by simp [hx]))
    have e : n + bumps [o] + bumps os = n + bumps (o :: os) := by
      cases o <;> simp [bumps] <;> omega
    rw [e] at this
    exact this

theorem build_hinv (c : Cap) (overlay : Nat → Option V) (d : Nat) : HInv (build c overlay d) 0 :=
  ⟨by simp [build, keys], by simp [build, keys], rfl, by simp [build]⟩

theorem step_capacity (m : WMap V) {o : Op V} (ho : OpPerm o) (hn : (keys m.entries).Nodup) :
    (step m o).capacity = m.capacity ∧ (step m o).overlay = m.overlay := by
  cases o with
  | prepare sh req =>
    have := (prepare_kept ho (m := m) (req := req) hn).1
    exact ⟨this.capacity, this.overlay⟩
  | fill sh f req =>
    have kp := (prepare_kept ho (m := m) (req := req) hn).1
    obtain ⟨_, hO, hC, _⟩ := fillLoop_spec f (prepare sh m req) req kp.nodup
    exact ⟨by rw [← kp.capacity]; exact hC, by rw [← kp.overlay]; exact hO⟩
  | insert k v => simp only [step, WMap.insert]; split <;> exact ⟨rfl, rfl⟩
  | update k f => exact ⟨rfl, rfl⟩
  | clear => exact ⟨rfl, rfl⟩

theorem run_capacity (ops : List (Op V)) {m : WMap V} {n : Nat} (h : HInv m n) (ho : ∀ o ∈ ops, OpPerm o) :
    (run m ops).capacity = m.capacity ∧ (run m ops).overlay = m.overlay := by
  induction ops generalizing m n with
  | nil => exact ⟨rfl, rfl⟩
  | cons o os ih =>
    have := ih (step_hinv h (ho o (by simp))) (fun x hx => ho x (by simp [hx]))
    have h2 := step_capacity m (ho o (by simp)) h.nodup
    exact ⟨this.1.trans h2.1, this.2.trans h2.2⟩

theorem fresh_of_hinv {m : WMap V} {n : Nat} (h : HInv m n) (hn : n + 1 < 4294967296) : Fresh m := by
  intro e he hg
  have := h.old (by omega) e he
  rw [h.gen] at hg
  omega

end Verif.WorkingSet
