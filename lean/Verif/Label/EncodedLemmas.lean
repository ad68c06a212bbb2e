import Verif.Label.EncodedSpec
import Verif.Label.IndexAgree
/-
Lemmas about encoded attributes: equality of attributes, the encoder, sets and the invariant of the store.
-/
namespace Verif.Label.Encoded

/-! ### Equality of values -/

theorem valEq_refl (a : AttrVal) : valEq a a = true := by cases a <;> simp [valEq]

theorem valEq_symm {a b : AttrVal} (h : valEq a b = true) : valEq b a = true := by
  cases a <;> cases b <;> simp_all [valEq]

theorem valEq_trans {a b c : AttrVal} (h : valEq a b = true) (h' : valEq b c = true) : valEq a c = true := by
  cases a <;> cases b <;> cases c <;> simp_all [valEq]

theorem attrEq_refl (a : Attr) : attrEq a a = true := by simp [attrEq, valEq_refl]

theorem attrEq_symm {a b : Attr} (h : attrEq a b = true) : attrEq b a = true := by
  simp only [attrEq, Bool.and_eq_true, beq_iff_eq] at h ⊢
  exact ⟨h.1.symm, valEq_symm h.2⟩

theorem attrEq_trans {a b c : Attr} (h : attrEq a b = true) (h' : attrEq b c = true) : attrEq a c = true := by
  simp only [attrEq, Bool.and_eq_true, beq_iff_eq] at h h' ⊢
  exact ⟨h.1.trans h'.1, valEq_trans h.2 h'.2⟩

theorem fNaNb_iff (b : Nat) : fNaNb b = true ↔ fNaN b := by simp [fNaNb, fNaN]

theorem canonBits_nan {b : Nat} (h : fNaN b) : canonBits b = 9221120237041090560 := by
  unfold canonBits
  rw [if_pos ((fNaNb_iff b).2 h)]

theorem canonBits_num {b : Nat} (h : ¬ fNaN b) : canonBits b = if fVal b = 0 then 0 else b := by
  unfold canonBits
  rw [if_neg (fun h' => h ((fNaNb_iff b).1 h'))]

theorem canonBits_eq_iff {a b : Nat} (ha : a < 18446744073709551616) (hb : b < 18446744073709551616) :
    canonBits a = canonBits b ↔ (fNaN a ∧ fNaN b) ∨ (¬ fNaN a ∧ ¬ fNaN b ∧ fVal a = fVal b) := by
  have nz : fNaN 9221120237041090560 := by unfold fNaN fExp fFrac; omega
  have zz : ¬ fNaN 0 := by unfold fNaN fExp fFrac; omega
  have v0 : fVal 0 = 0 := by decide
  by_cases na : fNaN a <;> by_cases nb : fNaN b
  · rw [canonBits_nan na, canonBits_nan nb]
    exact ⟨fun _ => Or.inl ⟨na, nb⟩, fun _ => rfl⟩
  · rw [canonBits_nan na, canonBits_num nb]
    refine ⟨fun h => ?_, fun h => ?_⟩
    · exfalso
      split at h
      · omega
      · rw [← h] at nb; exact nb nz
    · rcases h with h | h
      · exact absurd h.2 nb
      · exact absurd na h.1
  · rw [canonBits_num na, canonBits_nan nb]
    refine ⟨fun h => ?_, fun h => ?_⟩
    · exfalso
      split at h
      · omega
      · rw [h] at na; exact na nz
    · rcases h with h | h
      · exact absurd h.1 na
      · exact absurd nb h.2.1
  · rw [canonBits_num na, canonBits_num nb]
    have key : (if fVal a = 0 then 0 else a) = (if fVal b = 0 then 0 else b) ↔ fVal a = fVal b := by
      by_cases za : fVal a = 0 <;> by_cases zb : fVal b = 0
      · simp [za, zb]
      · rw [if_pos za, if_neg zb, za]
        refine ⟨fun h => ?_, fun h => absurd h.symm zb⟩
        rw [← h] at zb; exact absurd v0 zb
      · rw [if_neg za, if_pos zb, zb]
        refine ⟨fun h => ?_, fun h => absurd h za⟩
        rw [h] at za; exact absurd v0 za
      · rw [if_neg za, if_neg zb]
        refine ⟨fun h => by rw [h], fun h => ?_⟩
        have nza : a ≠ negZero := fun h' => za (by rw [h']; decide)
        have nzb : b ≠ negZero := fun h' => zb (by rw [h']; decide)
        exact fVal_inj ha hb nza nzb h
    rw [key]
    exact ⟨fun h => Or.inr ⟨na, nb, h⟩, fun h => h.elim (fun h => absurd h.1 na) (fun h => h.2.2)⟩

theorem valEq_iff {a b : AttrVal} (ha : a.valid) (hb : b.valid) : valEq a b = true ↔ SameValue a b := by
  cases a <;> cases b <;> simp only [valEq, SameValue, beq_iff_eq, Bool.false_eq_true]
  exact canonBits_eq_iff ha hb

theorem attrEq_iff {p : Attr} {f : Bytes} {v : AttrVal} (hp : p.2.valid) (hv : v.valid) :
    attrEq p (f, v) = true ↔ p.1 = f ∧ SameValue p.2 v := by
  simp only [attrEq, Bool.and_eq_true, beq_iff_eq, valEq_iff hp hv]

theorem hash_of_valEq {a b : AttrVal} (h : valEq a b = true) : hashInput a = hashInput b := by
  cases a <;> cases b <;> simp_all [valEq, hashInput]

/-! ### Encoder -/

/-- The ids of an encoder are below the running index and distinct. -/
structure EncInv (e : Encoder) : Prop where
  lt : ∀ p ∈ e.table, p.2 < e.next
  inj : e.table.Pairwise (fun p q => p.2 ≠ q.2)

theorem encInv_new : EncInv Encoder.new := ⟨by simp [Encoder.new], by simp [Encoder.new]⟩

theorem get_some {e : Encoder} {a : Attr} {i : Nat} (h : e.get a = some i) :
    ∃ p ∈ e.table, attrEq p.1 a = true ∧ p.2 = i := by
  unfold Encoder.get at h
  rw [Option.map_eq_some_iff] at h
  obtain ⟨p, hp, hi⟩ := h
  exact ⟨p, List.mem_of_find?_eq_some hp, by simpa using List.find?_some hp, hi⟩

theorem get_congr (e : Encoder) {a b : Attr} (h : attrEq a b = true) : e.get a = e.get b := by
  unfold Encoder.get
  have : (fun p : Attr × Nat => attrEq p.1 a) = (fun p => attrEq p.1 b) := by
    funext p
    rw [Bool.eq_iff_iff]
    exact ⟨fun h' => attrEq_trans h' h, fun h' => attrEq_trans h' (attrEq_symm h)⟩
  rw [this]

theorem pairwise_inj {l : List (Attr × Nat)} (h : l.Pairwise (fun p q => p.2 ≠ q.2)) {p q : Attr × Nat} (hp : p ∈ l)
    (hq : q ∈ l) (he : p.2 = q.2) : p = q := by
  induction l with
  | nil => simp at hp
  | cons x xs ih =>
    rw [List.pairwise_cons] at h
    rcases List.mem_cons.1 hp with rfl | hp' <;> rcases List.mem_cons.1 hq with rfl | hq'
    · rfl
    · exact absurd he (h.1 q hq')
    · exact absurd he.symm (h.1 p hp')
    · exact ih h.2 hp' hq'

theorem get_inj {e : Encoder} (he : EncInv e) {a b : Attr} {i : Nat} (ha : e.get a = some i) (hb : e.get b = some i) :
    attrEq a b = true := by
  obtain ⟨p, hp, hpa, hpi⟩ := get_some ha
  obtain ⟨q, hq, hqb, hqi⟩ := get_some hb
  have := pairwise_inj he.inj hp hq (hpi.trans hqi.symm)
  subst this
  exact attrEq_trans (attrEq_symm hpa) hqb

structure Inserted (e e' : Encoder) (a : Attr) (i : Nat) : Prop where
  inv : EncInv e'
  self : e'.get a = some i
  old : ∀ b j, e.get b = some j → e'.get b = some j
  back : ∀ b j, e'.get b = some j → e.get b = some j ∨ (attrEq a b = true ∧ j = i)

theorem insert_spec {e : Encoder} (he : EncInv e) (a : Attr) : Inserted e (e.insert a).1 a (e.insert a).2 := by
  unfold Encoder.insert
  cases hg : e.get a with
  | some i => exact ⟨he, hg, fun _ _ h => h, fun _ _ h => Or.inl h⟩
  | none =>
    simp only [Encoder.insertAt]
    have hget : ∀ b, (⟨e.table ++ [(a, e.next)], e.next + 1⟩ : Encoder).get b =
        (e.get b).or (if attrEq a b then some e.next else none) := by
      intro b
      unfold Encoder.get
      simp only [List.find?_append]
      cases hf : e.table.find? (fun p => attrEq p.1 b) with
      | some p => simp
      | none =>
        by_cases hab : attrEq a b = true
        · simp [List.find?, hab]
        · simp [List.find?, hab]
    refine ⟨⟨?_, ?_⟩, ?_, ?_, ?_⟩
    · intro p hp
      rcases List.mem_append.1 hp with hp | hp
      · exact Nat.lt_succ_of_lt (he.lt p hp)
      · simp at hp; subst hp; exact Nat.lt_succ_self _
    · rw [List.pairwise_append]
      refine ⟨he.inj, by simp, ?_⟩
      intro p hp q hq
      simp at hq
      subst hq
      exact Nat.ne_of_lt (he.lt p hp)
    · rw [hget, hg]; simp [attrEq_refl]
    · intro b j hb
      rw [hget, hb]; rfl
    · intro b j hb
      rw [hget] at hb
      cases hb' : e.get b with
      | some k => rw [hb'] at hb; exact Or.inl hb
      | none =>
        rw [hb'] at hb
        by_cases hab : attrEq a b = true
        · simp [hab] at hb; exact Or.inr ⟨hab, hb.symm⟩
        · simp [hab] at hb

/-! ### Sets -/

/-- The members stored under a key. -/
def mem (s : Sets) (k : Nat) : List Nat := (Sets.get s k).getD []

theorem get_filter (s : Sets) (k j : Nat) :
    Sets.get (s.filter (fun p => p.1 != k)) j = if j = k then none else Sets.get s j := by
  unfold Sets.get
  induction s with
  | nil => simp
  | cons p s ih =>
    simp only [List.filter_cons]
    by_cases hp : p.1 = k
    · have h1 : (p.1 != k) = false := by simp [hp]
      rw [if_neg (by simp [h1]), ih]
      by_cases hj : j = k
      · simp [hj]
      · rw [if_neg hj, if_neg hj, List.find?_cons_of_neg]
        simp only [beq_iff_eq]
        intro h; exact hj (h.symm.trans hp)
    · have h1 : (p.1 != k) = true := by simp [hp]
      rw [if_pos h1]
      by_cases hpj : p.1 = j
      · rw [List.find?_cons_of_pos (by simp [hpj]), List.find?_cons_of_pos (by simp [hpj]), if_neg (by omega)]
      · rw [List.find?_cons_of_neg (by simp [hpj]), List.find?_cons_of_neg (by simp [hpj]), ih]

theorem get_put (s : Sets) (k j : Nat) (v : List Nat) :
    Sets.get (Sets.put s k v) j = if j = k then some v else Sets.get s j := by
  have := get_filter s k j
  unfold Sets.put
  unfold Sets.get at this ⊢
  by_cases hj : j = k
  · rw [List.find?_cons_of_pos (by simp [hj]), if_pos hj]; rfl
  · rw [List.find?_cons_of_neg (by simp; omega), this, if_neg hj, if_neg hj]

theorem mem_addTo (v : List Nat) (x y : Nat) : y ∈ (addTo v x).1 ↔ y = x ∨ y ∈ v := by
  unfold addTo
  by_cases h : v.contains x = true
  · rw [if_pos h]
    refine ⟨Or.inr, fun h' => h'.elim (fun h' => ?_) id⟩
    rw [h']; simpa using h
  · rw [if_neg h]
    simp [or_comm]

theorem nodup_addTo {v : List Nat} (x : Nat) (hv : v.Nodup) : (addTo v x).1.Nodup := by
  unfold addTo
  by_cases h : v.contains x = true
  · rw [if_pos h]; exact hv
  · rw [if_neg h]
    refine List.nodup_append.2 ⟨hv, by simp, ?_⟩
    intro a ha b hb
    simp at hb
    subst hb
    rintro rfl
    exact h (by simpa using ha)

theorem mem_insert (s : Sets) (k x j y : Nat) :
    y ∈ mem (Sets.insert s k x).1 j ↔ (j = k ∧ y = x) ∨ y ∈ mem s j := by
  unfold mem Sets.insert
  dsimp only
  rw [get_put]
  by_cases hj : j = k
  · subst hj
    rw [if_pos rfl, Option.getD_some, mem_addTo]
    simp
  · rw [if_neg hj]
    simp [hj]

theorem nodup_insert {s : Sets} (k x j : Nat) (h : (mem s j).Nodup) : (mem (Sets.insert s k x).1 j).Nodup := by
  unfold mem Sets.insert
  dsimp only
  rw [get_put]
  by_cases hj : j = k
  · subst hj
    rw [if_pos rfl, Option.getD_some]
    exact nodup_addTo x h
  · rw [if_neg hj]; exact h

theorem has_insert (s : Sets) (k x j : Nat) : Sets.has (Sets.insert s k x).1 j = (decide (j = k) || Sets.has s j) := by
  unfold Sets.has Sets.insert
  dsimp only
  rw [get_put]
  by_cases hj : j = k <;> simp [hj]

theorem mem_deleteFrom (s : Sets) (k x j y : Nat) :
    y ∈ mem (Sets.deleteFrom s k x).1 j ↔ y ∈ mem s j ∧ ¬ (j = k ∧ y = x) := by
  unfold Sets.deleteFrom
  cases hg : Sets.get s k with
  | none =>
    simp only [Sets.deleteIn]
    refine ⟨fun h => ⟨h, ?_⟩, fun h => h.1⟩
    rintro ⟨rfl, rfl⟩
    unfold mem at h; rw [hg] at h; simp at h
  | some v =>
    simp only [Sets.deleteIn]
    unfold mem
    rw [get_put]
    by_cases hj : j = k
    · subst hj
      rw [if_pos rfl, hg, Option.getD_some, Option.getD_some, List.mem_filter]
      simp
    · rw [if_neg hj]; simp [hj]

theorem deleteFrom_snd (s : Sets) (k x : Nat) : (Sets.deleteFrom s k x).2 = (mem s k).contains x := by
  unfold Sets.deleteFrom mem
  cases hg : Sets.get s k with
  | none => simp [Sets.deleteIn]
  | some v => simp [Sets.deleteIn]

theorem mem_delete (s : Sets) (k j : Nat) : mem (Sets.delete s k).1 j = if j = k then [] else mem s j := by
  unfold mem Sets.delete
  dsimp only
  rw [get_filter]
  by_cases hj : j = k <;> simp [hj]

theorem has_delete (s : Sets) (k j : Nat) : Sets.has (Sets.delete s k).1 j = (!decide (j = k) && Sets.has s j) := by
  unfold Sets.has Sets.delete
  dsimp only
  rw [get_filter]
  by_cases hj : j = k <;> simp [hj]

theorem mem_dropLoop (id : Nat) (l : List Nat) (inv : Sets) (j y : Nat) :
    y ∈ mem (dropLoop id inv l) j ↔ y ∈ mem inv j ∧ ¬ (j ∈ l ∧ y = id) := by
  induction l generalizing inv with
  | nil => simp [dropLoop]
  | cons a l ih =>
    unfold dropLoop
    rw [ih, mem_deleteFrom]
    constructor
    · rintro ⟨⟨h1, h2⟩, h3⟩
      refine ⟨h1, ?_⟩
      rintro ⟨h4, h5⟩
      rcases List.mem_cons.1 h4 with h4 | h4
      · exact h2 ⟨h4, h5⟩
      · exact h3 ⟨h4, h5⟩
    · rintro ⟨h1, h2⟩
      refine ⟨⟨h1, ?_⟩, ?_⟩
      · rintro ⟨h4, h5⟩; exact h2 ⟨List.mem_cons.2 (Or.inl h4), h5⟩
      · rintro ⟨h4, h5⟩; exact h2 ⟨List.mem_cons.2 (Or.inr h4), h5⟩

theorem delLoop_eq (id : Nat) (l : List Nat) (inv : Sets) (hn : l.Nodup) (h : ∀ a ∈ l, id ∈ mem inv a) :
    delLoop id inv true l = (dropLoop id inv l, true) := by
  induction l generalizing inv with
  | nil => simp [delLoop, dropLoop]
  | cons a l ih =>
    rw [List.nodup_cons] at hn
    have h1 : (Sets.deleteFrom inv a id).2 = true := by
      rw [deleteFrom_snd]; simpa using h a (by simp)
    rw [delLoop, h1, dropLoop]
    refine ih _ hn.2 ?_
    intro b hb
    rw [mem_deleteFrom]
    refine ⟨h b (by simp [hb]), ?_⟩
    rintro ⟨rfl, -⟩
    exact hn.1 hb

/-! ### Invariant -/

/-- What the store holds when vector `id` has the attributes `A id`. -/
structure Core (s : AStore) (A : Nat → List Attr) : Prop where
  enc : EncInv s.enc
  known : ∀ id, ∀ p ∈ A id, (s.enc.get p).isSome = true
  idx : ∀ id i, i ∈ mem s.index id ↔ ∃ p ∈ A id, s.enc.get p = some i
  nodup : ∀ id, (mem s.index id).Nodup
  inv : ∀ i id, id ∈ mem s.inv i ↔ ∃ p ∈ A id, s.enc.get p = some i

theorem mem_nil (k : Nat) : mem [] k = [] := rfl

theorem core_new : Core AStore.new (fun _ => []) := by
  refine ⟨encInv_new, by simp, ?_, ?_, ?_⟩ <;> intros <;> simp [AStore.new, mem_nil]

theorem core_addAttr {s : AStore} {A : Nat → List Attr} (h : Core s A) (id : Nat) (a : Attr) :
    Core (AStore.addAttr id s a) (fun j => if j = id then A id ++ [a] else A j) := by
  have hi := insert_spec h.enc a
  unfold AStore.addAttr
  have step : ∀ j i, (∃ p ∈ (if j = id then A id ++ [a] else A j), (s.enc.insert a).1.get p = some i) ↔
      (j = id ∧ i = (s.enc.insert a).2) ∨ ∃ p ∈ A j, s.enc.get p = some i := by
    intro j i
    constructor
    · rintro ⟨p, hp, hg⟩
      by_cases hj : j = id
      · rw [if_pos hj] at hp
        rcases List.mem_append.1 hp with hp | hp
        · obtain ⟨k, hk⟩ := Option.isSome_iff_exists.1 (h.known id p hp)
          have := hi.old p k hk
          rw [this] at hg
          exact Or.inr ⟨p, by rw [hj]; exact hp, by rw [hk]; exact hg⟩
        · simp at hp
          subst hp
          rw [hi.self] at hg
          exact Or.inl ⟨hj, (Option.some.inj hg).symm⟩
      · rw [if_neg hj] at hp
        obtain ⟨k, hk⟩ := Option.isSome_iff_exists.1 (h.known j p hp)
        have := hi.old p k hk
        rw [this] at hg
        exact Or.inr ⟨p, hp, by rw [hk]; exact hg⟩
    · rintro (⟨hj, rfl⟩ | ⟨p, hp, hg⟩)
      · exact ⟨a, by simp [hj], hi.self⟩
      · refine ⟨p, ?_, hi.old p i hg⟩
        by_cases hj : j = id
        · subst hj; simp [hp]
        · rw [if_neg hj]; exact hp
  refine ⟨hi.inv, ?_, ?_, ?_, ?_⟩
  · intro j p hp
    dsimp only at hp ⊢
    by_cases hj : j = id
    · rw [if_pos hj] at hp
      rcases List.mem_append.1 hp with hp | hp
      · obtain ⟨k, hk⟩ := Option.isSome_iff_exists.1 (h.known id p hp)
        rw [hi.old p k hk]; rfl
      · simp at hp; subst hp; rw [hi.self]; rfl
    · rw [if_neg hj] at hp
      obtain ⟨k, hk⟩ := Option.isSome_iff_exists.1 (h.known j p hp)
      rw [hi.old p k hk]; rfl
  · intro j i
    dsimp only
    rw [mem_insert, h.idx, step]
  · intro j
    exact nodup_insert _ _ _ (h.nodup j)
  · intro i j
    dsimp only
    rw [mem_insert, h.inv, step]
    tauto

theorem core_cleared {s : AStore} {A : Nat → List Attr} (h : Core s A) (id : Nat) :
    Core (s.cleared id) (fun j => if j = id then [] else A j) := by
  unfold AStore.cleared
  refine ⟨h.enc, ?_, ?_, ?_, ?_⟩
  · intro j p hp
    dsimp only at hp ⊢
    by_cases hj : j = id
    · simp [hj] at hp
    · rw [if_neg hj] at hp; exact h.known j p hp
  · intro j i
    dsimp only
    rw [mem_delete]
    by_cases hj : j = id
    · simp [hj]
    · rw [if_neg hj, if_neg hj]; exact h.idx j i
  · intro j
    dsimp only
    rw [mem_delete]
    by_cases hj : j = id
    · simp [hj]
    · rw [if_neg hj]; exact h.nodup j
  · intro i j
    dsimp only
    rw [mem_dropLoop, h.inv]
    by_cases hj : j = id
    · subst hj
      simp only [if_true, List.not_mem_nil, false_and, exists_false, iff_false]
      rintro ⟨h1, h2⟩
      exact h2 ⟨(h.idx j i).2 h1, by trivial⟩
    · rw [if_neg hj]
      exact ⟨fun h' => h'.1, fun h' => ⟨h', fun h'' => hj h''.2⟩⟩

theorem core_fold {id : Nat} (as : List Attr) {s : AStore} {A : Nat → List Attr} (h : Core s A) :
    Core (as.foldl (AStore.addAttr id) s) (fun j => if j = id then A id ++ as else A j) := by
  induction as generalizing s A with
  | nil =>
    have : (fun j => if j = id then A id ++ [] else A j) = A := by
      funext j; by_cases hj : j = id <;> simp [hj]
    rw [this]; exact h
  | cons a as ih =>
    rw [List.foldl_cons]
    have := ih (core_addAttr h id a)
    simp only [if_true, List.append_assoc, List.cons_append, List.nil_append] at this
    have he : (fun j => if j = id then A id ++ a :: as else if j = id then A id ++ [a] else A j) =
        (fun j => if j = id then A id ++ a :: as else A j) := by
      funext j; by_cases hj : j = id <;> simp [hj]
    rw [he] at this
    exact this

theorem has_fold (id : Nat) (as : List Attr) (s : AStore) (j : Nat) :
    Sets.has (as.foldl (AStore.addAttr id) s).index j = ((decide (j = id) && !as.isEmpty) || Sets.has s.index j) := by
  induction as generalizing s with
  | nil => simp
  | cons a as ih =>
    rw [List.foldl_cons, ih]
    unfold AStore.addAttr
    dsimp only
    rw [has_insert]
    by_cases hj : j = id <;> simp [hj]

theorem known_fold (id : Nat) (as : List Attr) (s : AStore) (he : EncInv s.enc) (b : Attr) :
    ((as.foldl (AStore.addAttr id) s).enc.get b).isSome = true ↔
      (s.enc.get b).isSome = true ∨ ∃ p ∈ as, attrEq p b = true := by
  induction as generalizing s with
  | nil => simp
  | cons a as ih =>
    have hi := insert_spec he a
    rw [List.foldl_cons, ih (AStore.addAttr id s a) hi.inv]
    have h1 : ((AStore.addAttr id s a).enc.get b).isSome = true ↔
        (s.enc.get b).isSome = true ∨ attrEq a b = true := by
      unfold AStore.addAttr
      dsimp only
      constructor
      · intro h
        obtain ⟨j, hj⟩ := Option.isSome_iff_exists.1 h
        rcases hi.back b j hj with h | h
        · exact Or.inl (by rw [h]; rfl)
        · exact Or.inr h.1
      · rintro (h | h)
        · obtain ⟨j, hj⟩ := Option.isSome_iff_exists.1 h
          rw [hi.old b j hj]; rfl
        · rw [← get_congr _ h, hi.self]; rfl
    rw [h1]
    simp only [List.mem_cons, exists_eq_or_imp, or_assoc]

theorem old_fold (id : Nat) (as : List Attr) (s : AStore) (he : EncInv s.enc) (b : Attr) (j : Nat)
    (h : s.enc.get b = some j) : (as.foldl (AStore.addAttr id) s).enc.get b = some j := by
  induction as generalizing s with
  | nil => exact h
  | cons a as ih =>
    have hi := insert_spec he a
    rw [List.foldl_cons]
    exact ih (AStore.addAttr id s a) hi.inv (hi.old b j h)

/-- The invariant over histories. -/
structure Good (s : AStore) (D : Nat → Option (List Attr)) : Prop where
  core : Core s (fun id => (D id).getD [])
  has : ∀ id, Sets.has s.index id = (D id).isSome

theorem good_new : Good AStore.new (fun _ => none) := ⟨by simpa using core_new, fun _ => rfl⟩

theorem delete_eq {s : AStore} {D : Nat → Option (List Attr)} (h : Good s D) (id : Nat) :
    s.delete id = if (D id).isSome then (s.cleared id, some true) else (s, some false) := by
  unfold AStore.delete
  have hh := h.has id
  unfold Sets.has at hh
  cases hg : Sets.get s.index id with
  | none =>
    rw [hg] at hh
    rw [← hh]
    simp [AStore.deleteOf]
  | some labels =>
    rw [hg] at hh
    rw [← hh]
    have hm : mem s.index id = labels := by unfold mem; rw [hg]; rfl
    have hd : (Sets.delete s.index id).2 = true := by unfold Sets.delete Sets.has; rw [hg]; rfl
    have := delLoop_eq id labels s.inv (hm ▸ h.core.nodup id) (by
      intro a ha
      rw [h.core.inv]
      exact (h.core.idx id a).1 (by rw [hm]; exact ha))
    simp only [AStore.deleteOf, this, AStore.deleteEnd, hd, if_true, Option.isSome_some, AStore.cleared, hg,
      Option.getD_some]

theorem good_cleared {s : AStore} {D : Nat → Option (List Attr)} (h : Good s D) (id : Nat) :
    Good (s.cleared id) (fun i => if i = id then none else D i) := by
  refine ⟨?_, ?_⟩
  · have := core_cleared h.core id
    have he : (fun j => if j = id then [] else (D j).getD []) = (fun j => (if j = id then none else D j).getD []) := by
      funext j; by_cases hj : j = id <;> simp [hj]
    rw [he] at this
    exact this
  · intro j
    unfold AStore.cleared
    dsimp only
    rw [has_delete, h.has]
    by_cases hj : j = id <;> simp [hj]

theorem good_step {s : AStore} {D : Nat → Option (List Attr)} (h : Good s D) (op : AOp) :
    Good (stepOp s op) (docsStep D op) := by
  cases op with
  | set id attrs =>
    simp only [stepOp, AStore.setElement]
    cases attrs with
    | nil =>
      have : docsStep D (.set id []) = D := by funext i; simp [docsStep]
      rw [this]; exact h
    | cons a as =>
      simp only [List.isEmpty_cons, Bool.false_eq_true, if_false]
      have hc := good_cleared h id
      have hf := core_fold (id := id) (a :: as) hc.core
      refine ⟨?_, ?_⟩
      · simp only [if_true, Option.getD_none, List.nil_append] at hf
        have he : (fun j => if j = id then a :: as else (if j = id then none else D j).getD []) =
            (fun j => (docsStep D (.set id (a :: as)) j).getD []) := by
          funext j; by_cases hj : j = id <;> simp [hj, docsStep]
        rw [he] at hf
        exact hf
      · intro j
        rw [has_fold, hc.has]
        by_cases hj : j = id <;> simp [hj, docsStep]
  | del id =>
    simp only [stepOp, delete_eq h]
    cases hD : D id with
    | none =>
      have : docsStep D (.del id) = D := by
        funext i
        by_cases hi : i = id
        · simp [docsStep, hi, hD]
        · simp [docsStep, hi]
      rw [this]; simpa using h
    | some as => simpa [docsStep] using good_cleared h id

theorem good_fold (ops : List AOp) {s : AStore} {D : Nat → Option (List Attr)} (h : Good s D) :
    Good (ops.foldl stepOp s) (ops.foldl docsStep D) := by
  induction ops generalizing s D with
  | nil => exact h
  | cons op ops ih => exact ih (good_step h op)

theorem good_run (ops : List AOp) : Good (runOps ops) (docsAfter ops) := good_fold ops good_new

theorem enc_del {s : AStore} {D : Nat → Option (List Attr)} (h : Good s D) (id : Nat) :
    (stepOp s (.del id)).enc = s.enc := by
  simp only [stepOp, delete_eq h]
  split <;> rfl

theorem old_step {s : AStore} {D : Nat → Option (List Attr)} (h : Good s D) (op : AOp) (b : Attr) (j : Nat)
    (hb : s.enc.get b = some j) : (stepOp s op).enc.get b = some j := by
  cases op with
  | set id attrs =>
    simp only [stepOp, AStore.setElement]
    split
    · exact hb
    · exact old_fold id attrs (s.cleared id) h.core.enc b j hb
  | del id => rw [enc_del h]; exact hb

theorem old_run (ops : List AOp) {s : AStore} {D : Nat → Option (List Attr)} (h : Good s D) (b : Attr) (j : Nat)
    (hb : s.enc.get b = some j) : (ops.foldl stepOp s).enc.get b = some j := by
  induction ops generalizing s D with
  | nil => exact hb
  | cons op ops ih => exact ih (good_step h op) (old_step h op b j hb)

theorem known_step {s : AStore} {D : Nat → Option (List Attr)} (h : Good s D) (op : AOp) (b : Attr) :
    ((stepOp s op).enc.get b).isSome = true ↔
      (s.enc.get b).isSome = true ∨ ∃ id attrs, op = .set id attrs ∧ ∃ p ∈ attrs, attrEq p b = true := by
  cases op with
  | set id attrs =>
    simp only [stepOp, AStore.setElement]
    cases attrs with
    | nil => simp
    | cons a as =>
      simp only [List.isEmpty_cons, Bool.false_eq_true, if_false]
      rw [known_fold id (a :: as) (s.cleared id) h.core.enc b]
      refine or_congr Iff.rfl ⟨fun h' => ⟨id, a :: as, rfl, h'⟩, ?_⟩
      rintro ⟨id', as', he, hp⟩
      cases he
      exact hp
  | del id => rw [enc_del h]; simp

theorem known_run (ops : List AOp) {s : AStore} {D : Nat → Option (List Attr)} (h : Good s D) (b : Attr) :
    ((ops.foldl stepOp s).enc.get b).isSome = true ↔
      (s.enc.get b).isSome = true ∨ ∃ id attrs, AOp.set id attrs ∈ ops ∧ ∃ p ∈ attrs, attrEq p b = true := by
  induction ops generalizing s D with
  | nil => simp
  | cons op ops ih =>
    rw [List.foldl_cons, ih (good_step h op), known_step h, or_assoc]
    refine or_congr Iff.rfl ⟨?_, ?_⟩
    · rintro (⟨id, as, he, hp⟩ | ⟨id, as, he, hp⟩)
      · exact ⟨id, as, by simp [he], hp⟩
      · exact ⟨id, as, by simp [he], hp⟩
    · rintro ⟨id, as, he, hp⟩
      rcases List.mem_cons.1 he with he | he
      · exact Or.inl ⟨id, as, he.symm, hp⟩
      · exact Or.inr ⟨id, as, he, hp⟩

/-! ### Filters -/

theorem docs_valid (ops : List AOp) (hv : ∀ op ∈ ops, OpValid op) {D : Nat → Option (List Attr)}
    (hD : ∀ id attrs, D id = some attrs → ∀ p ∈ attrs, p.2.valid) :
    ∀ id attrs, ops.foldl docsStep D id = some attrs → ∀ p ∈ attrs, p.2.valid := by
  induction ops generalizing D with
  | nil => exact hD
  | cons op ops ih =>
    refine ih (fun o ho => hv o (by simp [ho])) ?_
    have h0 := hv op (by simp)
    intro id attrs h p hp
    cases op with
    | set i as =>
      simp only [docsStep] at h
      split at h
      · cases h; exact h0 p hp
      · exact hD id attrs h p hp
    | del i =>
      simp only [docsStep] at h
      split at h
      · cases h
      · exact hD id attrs h p hp

theorem contains_iff {s : AStore} {D : Nat → Option (List Attr)} (h : Good s D) {id : Nat} {attrs : List Attr}
    (hD : D id = some attrs) (hv : ∀ p ∈ attrs, p.2.valid) {f : Bytes} {a : AttrVal} (ha : a.valid) {i : Nat}
    (hi : s.enc.get (f, a) = some i) : i ∈ mem s.index id ↔ Has attrs f a := by
  rw [h.core.idx]
  simp only [hD, Option.getD_some]
  constructor
  · rintro ⟨p, hp, hg⟩
    have := get_inj h.core.enc hg hi
    exact ⟨p, hp, (attrEq_iff (hv p hp) ha).1 this⟩
  · rintro ⟨p, hp, hs⟩
    refine ⟨p, hp, ?_⟩
    rw [get_congr _ ((attrEq_iff (hv p hp) ha).2 hs), hi]

mutual
theorem eval_iff {labels : List Nat} {attrs : List Attr} {enc : Encoder}
    (hm : ∀ f v a i, tryFrom v = some a → enc.get (f, a) = some i → a.valid → (i ∈ labels ↔ Has attrs f a)) :
    ∀ (e : Expr) (x : IdExpr), (∀ c ∈ cmps e, CmpValid c) → mapExpr enc e = .ok x →
      (evalId labels x = true ↔ Sat attrs e)
  | .and es, x, hv, h => by
    rw [mapExpr] at h
    cases hx : mapExprs enc es with
    | error e => rw [hx] at h; cases h
    | ok xs =>
      rw [hx] at h; cases h
      rw [evalId, Sat]
      exact (evals_iff hm es xs (by simpa [cmps] using hv) hx).1
  | .or es, x, hv, h => by
    rw [mapExpr] at h
    cases hx : mapExprs enc es with
    | error e => rw [hx] at h; cases h
    | ok xs =>
      rw [hx] at h; cases h
      rw [evalId, Sat]
      exact (evals_iff hm es xs (by simpa [cmps] using hv) hx).2
  | .not e, x, hv, h => by
    rw [mapExpr] at h
    cases hx : mapExpr enc e with
    | error e => rw [hx] at h; cases h
    | ok y =>
      rw [hx] at h; cases h
      rw [evalId, Sat, ← eval_iff hm e y (by simpa [cmps] using hv) hx]
      simp
  | .cmp f (.eq v), x, hv, h => by
    rw [mapExpr, mapCmp] at h
    cases ht : tryFrom v with
    | none => rw [ht] at h; cases h
    | some a =>
      rw [ht] at h
      dsimp only [lookupId] at h
      cases hg : enc.get (f, a) with
      | none => rw [hg] at h; cases h
      | some i =>
        rw [hg] at h; cases h
        have hav : a.valid := hv (f, .eq v) (by simp [cmps]) v a rfl ht
        rw [evalId, Sat, List.contains_iff_mem, hm f v a i ht hg hav]
        constructor
        · intro h'; exact ⟨a, ht, h'⟩
        · rintro ⟨a', ha', h'⟩
          rw [ht] at ha'; cases ha'; exact h'
  | .cmp f (.ne v), x, _, h => by simp [mapExpr, mapCmp] at h
  | .cmp f (.lt v), x, _, h => by simp [mapExpr, mapCmp] at h
  | .cmp f (.lte v), x, _, h => by simp [mapExpr, mapCmp] at h
  | .cmp f (.gt v), x, _, h => by simp [mapExpr, mapCmp] at h
  | .cmp f (.gte v), x, _, h => by simp [mapExpr, mapCmp] at h
theorem evals_iff {labels : List Nat} {attrs : List Attr} {enc : Encoder}
    (hm : ∀ f v a i, tryFrom v = some a → enc.get (f, a) = some i → a.valid → (i ∈ labels ↔ Has attrs f a)) :
    ∀ (es : List Expr) (xs : List IdExpr), (∀ c ∈ cmpsAll es, CmpValid c) → mapExprs enc es = .ok xs →
      (evalIdAll labels xs = true ↔ SatAll attrs es) ∧ (evalIdAny labels xs = true ↔ SatAny attrs es)
  | [], xs, _, h => by
    rw [mapExprs] at h; cases h
    simp [evalIdAll, evalIdAny, SatAll, SatAny]
  | e :: es, xs, hv, h => by
    rw [mapExprs] at h
    cases hx : mapExpr enc e with
    | error e => rw [hx] at h; cases h
    | ok y =>
      rw [hx] at h
      dsimp only at h
      cases hy : mapExprs enc es with
      | error e => rw [hy] at h; cases h
      | ok ys =>
        rw [hy] at h; cases h
        have h1 := eval_iff hm e y (fun c hc => hv c (by simp [cmpsAll, hc])) hx
        have h2 := evals_iff hm es ys (fun c hc => hv c (by simp [cmpsAll, hc])) hy
        rw [evalIdAll, evalIdAny, SatAll, SatAny, ← h1, ← h2.1, ← h2.2]
        cases evalId labels y <;> simp
end

mutual
theorem map_ok_iff (enc : Encoder) : ∀ e : Expr, (∃ x, mapExpr enc e = .ok x) ↔
    ∀ c ∈ cmps e, ∃ v a i, c.2 = .eq v ∧ tryFrom v = some a ∧ enc.get (c.1, a) = some i
  | .and es => by
    rw [mapExpr, cmps, ← maps_ok_iff enc es]
    cases mapExprs enc es <;> simp
  | .or es => by
    rw [mapExpr, cmps, ← maps_ok_iff enc es]
    cases mapExprs enc es <;> simp
  | .not e => by
    rw [mapExpr, cmps, ← map_ok_iff enc e]
    cases mapExpr enc e <;> simp
  | .cmp f (.eq v) => by
    rw [mapExpr, cmps, mapCmp]
    simp only [List.mem_singleton, forall_eq, CmpOp.eq.injEq]
    constructor
    · rintro ⟨x, h⟩
      cases ht : tryFrom v with
      | none => rw [ht] at h; cases h
      | some a =>
        rw [ht] at h
        dsimp only [lookupId] at h
        cases hg : enc.get (f, a) with
        | none => rw [hg] at h; cases h
        | some i => exact ⟨v, a, i, rfl, ht, hg⟩
    · rintro ⟨v', a, i, rfl, ht, hg⟩
      rw [ht]
      dsimp only [lookupId]
      rw [hg]
      exact ⟨_, rfl⟩
  | .cmp f (.ne v) => by simp [mapExpr, mapCmp, cmps]
  | .cmp f (.lt v) => by simp [mapExpr, mapCmp, cmps]
  | .cmp f (.lte v) => by simp [mapExpr, mapCmp, cmps]
  | .cmp f (.gt v) => by simp [mapExpr, mapCmp, cmps]
  | .cmp f (.gte v) => by simp [mapExpr, mapCmp, cmps]
theorem maps_ok_iff (enc : Encoder) : ∀ es : List Expr, (∃ x, mapExprs enc es = .ok x) ↔
    ∀ c ∈ cmpsAll es, ∃ v a i, c.2 = .eq v ∧ tryFrom v = some a ∧ enc.get (c.1, a) = some i
  | [] => by simp [mapExprs, cmpsAll]
  | e :: es => by
    rw [mapExprs, cmpsAll]
    simp only [List.mem_append]
    have h1 := map_ok_iff enc e
    have h2 := maps_ok_iff enc es
    constructor
    · rintro ⟨x, h⟩ c hc
      cases hx : mapExpr enc e with
      | error e => rw [hx] at h; cases h
      | ok y =>
        rw [hx] at h
        dsimp only at h
        cases hy : mapExprs enc es with
        | error e => rw [hy] at h; cases h
        | ok ys =>
          rcases hc with hc | hc
          · exact h1.1 ⟨y, hx⟩ c hc
          · exact h2.1 ⟨ys, hy⟩ c hc
    · intro h
      obtain ⟨y, hy⟩ := h1.2 (fun c hc => h c (Or.inl hc))
      obtain ⟨ys, hys⟩ := h2.2 (fun c hc => h c (Or.inr hc))
      rw [hy, hys]
      exact ⟨_, rfl⟩
end

end Verif.Label.Encoded
