import Verif.Label.IndexSpec
import Verif.Label.KeyProps
/-
The store invariant of the inverted index and what queries read from it.
-/
namespace Verif.Label

/-! ### The store -/

theorem sget_sset (st : Store) (k l : Bytes) (c : Cell) :
    sget (sset st k c) l = if l = k then some c else sget st l := by
  unfold sget sset
  rw [List.find?_cons]
  by_cases h : l = k
  · subst h; simp
  · have h' : (k == l) = false := by simpa using fun e => h e.symm
    rw [h', if_neg h]
    simp only
    congr 1
    rw [List.find?_filter]
    congr 1
    funext p
    by_cases hp : p.1 = l
    · simp [hp, h]
    · simp [hp]

theorem sget_sdel (st : Store) (k l : Bytes) :
    sget (sdel st k) l = if l = k then none else sget st l := by
  unfold sget sdel
  rw [List.find?_filter]
  by_cases h : l = k
  · subst h
    rw [if_pos rfl, Option.map_eq_none_iff, List.find?_eq_none]
    intro p _
    by_cases hp : p.1 = l <;> simp [hp]
  · rw [if_neg h]
    congr 2
    funext p
    by_cases hp : p.1 = l
    · simp [hp, h]
    · simp [hp]

/-- Distinct keys. -/
def SNodup (st : Store) : Prop := (st.map (·.1)).Nodup

theorem snodup_filter {st : Store} (h : SNodup st) (f : Bytes × Cell → Bool) : SNodup (st.filter f) :=
  List.Sublist.nodup (List.Sublist.map _ (List.filter_sublist)) h

theorem snodup_sdel {st : Store} (h : SNodup st) (k : Bytes) : SNodup (sdel st k) := snodup_filter h _

theorem snodup_sset {st : Store} (h : SNodup st) (k : Bytes) (c : Cell) : SNodup (sset st k c) := by
  unfold SNodup sset
  rw [List.map_cons, List.nodup_cons]
  refine ⟨?_, snodup_filter h _⟩
  simp

theorem mem_iff_sget {st : Store} (h : SNodup st) (k : Bytes) (c : Cell) : (k, c) ∈ st ↔ sget st k = some c := by
  induction st with
  | nil => simp [sget]
  | cons p st ih =>
    obtain ⟨l, d⟩ := p
    unfold SNodup at h ih
    rw [List.map_cons, List.nodup_cons] at h
    have ih' := ih h.2
    unfold sget at ih' ⊢
    rw [List.find?_cons]
    by_cases hl : l = k
    · subst hl
      simp only [List.mem_cons, Prod.mk.injEq, true_and, beq_self_eq_true, Option.map_some, Option.some.injEq]
      constructor
      · rintro (e | e)
        · exact e.symm
        · exact absurd (List.mem_map.2 ⟨(l, c), e, rfl⟩) h.1
      · intro e
        exact Or.inl e.symm
    · have hb : (l == k) = false := by simpa using hl
      rw [hb]
      simp only [List.mem_cons, Prod.mk.injEq]
      rw [← ih']
      constructor
      · rintro (e | e)
        · exact absurd e.1.symm hl
        · exact e
      · exact Or.inr

/-! ### The invariant -/

/-- Posting lists hold the relation `P`. -/
def PInv (st : Store) (P : Nat → Bytes → Prop) : Prop :=
  ∀ k, (∀ d, k ≠ revKey d) →
    (sget st k = none ∧ ∀ i, ¬ P i k) ∨ ∃ ids, sget st k = some (.pl ids) ∧ ∀ i, i ∈ ids ↔ P i k

theorem PInv.congr {st : Store} {P Q : Nat → Bytes → Prop} (h : PInv st P) (e : ∀ i k, P i k ↔ Q i k) :
    PInv st Q := by
  intro k hk
  rcases h k hk with ⟨h1, h2⟩ | ⟨ids, h1, h2⟩
  · exact Or.inl ⟨h1, fun i hi => h2 i ((e i k).2 hi)⟩
  · exact Or.inr ⟨ids, h1, fun i => (h2 i).trans (e i k)⟩

theorem mem_plInsert {ids : List Nat} {d i : Nat} (hd : d < 4294967296) :
    i ∈ plInsert ids d ↔ i ∈ ids ∨ i = d := by
  unfold plInsert
  rw [Nat.mod_eq_of_lt hd]
  split
  · rename_i h
    simp only [List.contains_eq_mem, decide_eq_true_eq] at h
    constructor
    · exact Or.inl
    · rintro (h' | rfl)
      · exact h'
      · exact h
  · simp [or_comm]

theorem mem_plRemove {ids : List Nat} {d i : Nat} (hd : d < 4294967296) :
    i ∈ plRemove ids d ↔ i ∈ ids ∧ i ≠ d := by
  unfold plRemove
  rw [Nat.mod_eq_of_lt hd]
  simp

theorem mem_plUnion {a b : List Nat} {i : Nat} : i ∈ plUnion a b ↔ i ∈ a ∨ i ∈ b := by
  unfold plUnion
  simp
  tauto

theorem mem_plInter {a b : List Nat} {i : Nat} : i ∈ plInter a b ↔ i ∈ a ∧ i ∈ b := by
  unfold plInter
  simp

theorem insertLoop_spec {doc : Nat} (hd : doc < 4294967296) (keys : List Bytes)
    (hk : ∀ k ∈ keys, ∀ d, k ≠ revKey d) (st : Store) (P : Nat → Bytes → Prop) (hp : PInv st P) (hn : SNodup st) :
    ∃ st', insertLoop doc st keys = .ok st' ∧ PInv st' (fun i k => P i k ∨ (i = doc ∧ k ∈ keys)) ∧ SNodup st' ∧
      ∀ d, sget st' (revKey d) = sget st (revKey d) := by
  induction keys generalizing st P with
  | nil => exact ⟨st, rfl, hp.congr (by simp), hn, fun _ => rfl⟩
  | cons k ks ih =>
    have hkr := hk k (by simp)
    have hget : ∃ ids, getOrEmpty st k = .ok ids ∧ ∀ i, i ∈ ids ↔ P i k := by
      rw [getOrEmpty]
      rcases hp k hkr with ⟨h1, h2⟩ | ⟨ids, h1, h2⟩
      · exact ⟨[], by rw [h1], fun i => ⟨fun h => by simp at h, fun h => absurd h (h2 i)⟩⟩
      · exact ⟨ids, by rw [h1]; rfl, h2⟩
    obtain ⟨ids, hids, hmem⟩ := hget
    have hp' : PInv (sset st k (.pl (plInsert ids doc))) (fun i l => P i l ∨ (i = doc ∧ l = k)) := by
      intro l hl
      rw [sget_sset]
      by_cases hlk : l = k
      · subst hlk
        rw [if_pos rfl]
        exact Or.inr ⟨_, rfl, fun i => by rw [mem_plInsert hd, hmem]; simp⟩
      · rw [if_neg hlk]
        rcases hp l hl with ⟨h1, h2⟩ | ⟨ids', h1, h2⟩
        · exact Or.inl ⟨h1, fun i hi => by rcases hi with hi | hi; exacts [h2 i hi, hlk hi.2]⟩
        · exact Or.inr ⟨ids', h1, fun i => by rw [h2]; simp [hlk]⟩
    obtain ⟨st', h1, h2, h3, h4⟩ := ih (fun l hl => hk l (by simp [hl])) _ _ hp' (snodup_sset hn _ _)
    refine ⟨st', ?_, h2.congr ?_, h3, ?_⟩
    · rw [insertLoop, hids]
      exact h1
    · intro i l
      simp only [List.mem_cons]
      tauto
    · intro d
      rw [h4, sget_sset, if_neg (fun e => hkr d e.symm)]

theorem deleteLoop_spec {doc : Nat} (hd : doc < 4294967296) (keys : List Bytes)
    (hk : ∀ k ∈ keys, ∀ d, k ≠ revKey d) (st : Store) (P : Nat → Bytes → Prop) (hp : PInv st P) (hn : SNodup st) :
    ∃ st', deleteLoop doc st keys = .ok st' ∧ PInv st' (fun i k => P i k ∧ ¬ (i = doc ∧ k ∈ keys)) ∧ SNodup st' ∧
      ∀ d, sget st' (revKey d) = sget st (revKey d) := by
  induction keys generalizing st P with
  | nil => exact ⟨st, rfl, hp.congr (by simp), hn, fun _ => rfl⟩
  | cons k ks ih =>
    have hkr := hk k (by simp)
    have fin : ∀ st1, PInv st1 (fun i l => P i l ∧ ¬ (i = doc ∧ l = k)) → SNodup st1 →
        (∀ d, sget st1 (revKey d) = sget st (revKey d)) →
        deleteLoop doc st (k :: ks) = deleteLoop doc st1 ks →
        ∃ st', deleteLoop doc st (k :: ks) = .ok st' ∧
          PInv st' (fun i l => P i l ∧ ¬ (i = doc ∧ l ∈ k :: ks)) ∧ SNodup st' ∧
          ∀ d, sget st' (revKey d) = sget st (revKey d) := by
      intro st1 hp1 hn1 hr1 he
      obtain ⟨st', h1, h2, h3, h4⟩ := ih (fun l hl => hk l (by simp [hl])) st1 _ hp1 hn1
      refine ⟨st', he.trans h1, h2.congr ?_, h3, fun d => (h4 d).trans (hr1 d)⟩
      intro i l
      simp only [List.mem_cons]
      tauto
    rcases hp k hkr with ⟨h1, h2⟩ | ⟨ids, h1, h2⟩
    · refine fin st (hp.congr ?_) hn (fun _ => rfl) (by rw [deleteLoop, h1])
      intro i l
      constructor
      · intro h
        refine ⟨h, ?_⟩
        rintro ⟨rfl, rfl⟩
        exact h2 _ h
      · exact And.left
    · by_cases hemp : (plRemove ids doc).isEmpty = true
      · refine fin (sdel st k) ?_ (snodup_sdel hn _) ?_ ?_
        · intro l hl
          rw [sget_sdel]
          by_cases hlk : l = k
          · subst hlk
            rw [if_pos rfl]
            refine Or.inl ⟨rfl, ?_⟩
            rintro i ⟨hi, hne⟩
            have : i ∈ plRemove ids doc := (mem_plRemove hd).2 ⟨(h2 i).2 hi, fun e => hne ⟨e, rfl⟩⟩
            rw [List.isEmpty_iff] at hemp
            rw [hemp] at this
            simp at this
          · rw [if_neg hlk]
            rcases hp l hl with ⟨h1, h2⟩ | ⟨ids', h1, h2⟩
            · exact Or.inl ⟨h1, fun i hi => h2 i hi.1⟩
            · exact Or.inr ⟨ids', h1, fun i => by rw [h2]; simp [hlk]⟩
        · intro d
          rw [sget_sdel, if_neg (fun e => hkr d e.symm)]
        · rw [deleteLoop, h1]
          simp only [asPl, hemp, if_true]
      · refine fin (sset st k (.pl (plRemove ids doc))) ?_ (snodup_sset hn _ _) ?_ ?_
        · intro l hl
          rw [sget_sset]
          by_cases hlk : l = k
          · subst hlk
            rw [if_pos rfl]
            refine Or.inr ⟨_, rfl, fun i => ?_⟩
            rw [mem_plRemove hd, h2]
            simp
          · rw [if_neg hlk]
            rcases hp l hl with ⟨h1, h2⟩ | ⟨ids', h1, h2⟩
            · exact Or.inl ⟨h1, fun i hi => h2 i hi.1⟩
            · exact Or.inr ⟨ids', h1, fun i => by rw [h2]; simp [hlk]⟩
        · intro d
          rw [sget_sset, if_neg (fun e => hkr d e.symm)]
        · rw [deleteLoop, h1]
          simp only [asPl, hemp]
          rfl

/-- The keys of a document. -/
def keysOf (attrs : Attrs) : List Bytes := attrs.map (fun p => encKey p.1 p.2)

/-- Document `i` is in the posting list of `k`. -/
def Posted (D : Docs) (i : Nat) (k : Bytes) : Prop := ∃ attrs, D i = some attrs ∧ k ∈ keysOf attrs

structure IInv (st : Store) (D : Docs) : Prop where
  nodup : SNodup st
  rev : ∀ i, sget st (revKey i) = (D i).map (fun a => Cell.rev (serKeys (keysOf a)))
  post : PInv st (Posted D)
  small : ∀ i a, D i = some a → i < 4294967296 ∧ AttrsOk a

/-- Attributes that keys tell apart. -/
structure AttrsFine (attrs : Attrs) : Prop where
  noNul : ∀ p ∈ attrs, 0 ∉ p.1
  valid : ∀ p ∈ attrs, p.2.valid
  notEmpty : ∀ p ∈ attrs, p.2 ≠ .empty

/-- What queries depend on: the posting lists. -/
structure RInv (st : Store) (D : Docs) : Prop where
  nodup : SNodup st
  post : PInv st (Posted D)
  fine : ∀ i attrs, D i = some attrs → AttrsFine attrs

theorem IInv.toR {st : Store} {D : Docs} (h : IInv st D) : RInv st D :=
  ⟨h.nodup, h.post, fun i a ha => ⟨(h.small i a ha).2.noNul, (h.small i a ha).2.valid, (h.small i a ha).2.notEmpty⟩⟩

theorem keysOf_not_rev (attrs : Attrs) : ∀ k ∈ keysOf attrs, ∀ d, k ≠ revKey d := by
  intro k hk d
  obtain ⟨p, _, rfl⟩ := List.mem_map.1 hk
  exact fun e => revKey_ne_encKey d _ _ e.symm

theorem insertDoc_inv {st : Store} {D : Docs} (h : IInv st D) {d : Nat} {a : Attrs} (hd : d < 4294967296)
    (ha : AttrsOk a) (hn : D d = none) : ∃ st', insertDoc st d a = .ok st' ∧ IInv st' (setDoc D d (some a)) := by
  obtain ⟨st1, h1, h2, h3, h4⟩ := insertLoop_spec hd (keysOf a) (keysOf_not_rev a) st _ h.post h.nodup
  refine ⟨sset st1 (revKey d) (.rev (serKeys (keysOf a))), ?_, ?_⟩
  · show (match insertLoop d st (keysOf a) with
      | .ok st' => Res.ok (sset st' (revKey d) (.rev (serKeys (keysOf a))))
      | .err => .err
      | .panic => .panic) = _
    rw [h1]
  · refine ⟨snodup_sset h3 _ _, ?_, ?_, ?_⟩
    · intro i
      rw [sget_sset, setDoc]
      by_cases hi : i = d
      · subst hi; simp
      · rw [if_neg (fun e => hi (revKey_inj e)), if_neg hi, h4, h.rev]
    · intro k hk
      rw [sget_sset, if_neg (hk d)]
      have hc : ∀ i k, (Posted D i k ∨ (i = d ∧ k ∈ keysOf a)) ↔ Posted (setDoc D d (some a)) i k := by
        intro i k
        unfold Posted setDoc
        by_cases hi : i = d
        · subst hi; simp [hn]
        · simp [hi]
      exact (h2.congr hc) k hk
    · intro i b hb
      rw [setDoc] at hb
      split at hb
      · rename_i hi
        simp only [Option.some.injEq] at hb
        subst hb; subst hi
        exact ⟨hd, ha⟩
      · exact h.small i b hb

theorem setDoc_none_eq {D : Docs} {d : Nat} (h : D d = none) : setDoc D d none = D := by
  funext i
  rw [setDoc]
  split
  · rename_i e; rw [e, h]
  · rfl

theorem deserKeys_keysOf {a : Attrs} (ha : AttrsOk a) : deserKeys (serKeys (keysOf a)) = .ok (keysOf a) := by
  have h1 : (keysOf a).length < 4294967296 := by
    rw [keysOf, List.length_map]
    exact ha.count
  have h2 : ∀ k ∈ keysOf a, k.length < 4294967296 := by
    intro k hk
    obtain ⟨p, hp, rfl⟩ := List.mem_map.1 hk
    exact ha.size p hp
  have := C45_round_trip (keysOf a) [] h1 h2
  rw [List.append_nil] at this
  exact this

theorem deleteDoc_inv {st : Store} {D : Docs} (h : IInv st D) (d : Nat) :
    ∃ st', deleteDoc st d = .ok st' ∧ IInv st' (setDoc D d none) := by
  cases hD : D d with
  | none =>
    refine ⟨st, ?_, ?_⟩
    · rw [deleteDoc, h.rev, hD]
      rfl
    · rw [setDoc_none_eq hD]
      exact h
  | some a =>
    obtain ⟨hd, ha⟩ := h.small d a hD
    obtain ⟨st1, h1, h2, h3, h4⟩ := deleteLoop_spec hd (keysOf a) (keysOf_not_rev a) st _ h.post h.nodup
    have hdes := deserKeys_keysOf ha
    refine ⟨sdel st1 (revKey d), ?_, ?_⟩
    · rw [deleteDoc, h.rev, hD]
      show deleteKeys st d (deserKeys (serKeys (keysOf a))) = _
      rw [hdes, deleteKeys, h1, dropRev]
    · refine ⟨snodup_sdel h3 _, ?_, ?_, ?_⟩
      · intro i
        rw [sget_sdel, setDoc]
        by_cases hi : i = d
        · subst hi; simp
        · rw [if_neg (fun e => hi (revKey_inj e)), if_neg hi, h4, h.rev]
      · intro k hk
        rw [sget_sdel, if_neg (hk d)]
        have hc : ∀ i k, (Posted D i k ∧ ¬ (i = d ∧ k ∈ keysOf a)) ↔ Posted (setDoc D d none) i k := by
          intro i k
          unfold Posted setDoc
          by_cases hi : i = d
          · subst hi; simp [hD]
          · simp [hi]
        exact (h2.congr hc) k hk
      · intro i b hb
        rw [setDoc] at hb
        split at hb
        · exact absurd hb (by simp)
        · exact h.small i b hb

theorem applyOp_inv {st : Store} {D : Docs} (h : IInv st D) {o : IOp} (ho : OpOk D o) :
    ∃ st', applyOp st o = .ok st' ∧ IInv st' (docsOp D o) := by
  cases o with
  | insert d a => exact insertDoc_inv h ho.1 ho.2.1 ho.2.2
  | delete d => exact deleteDoc_inv h d
  | update d a =>
    obtain ⟨st1, h1, h2⟩ := deleteDoc_inv h d
    obtain ⟨st2, h3, h4⟩ := insertDoc_inv h2 ho.1 ho.2 (by simp [setDoc])
    refine ⟨st2, ?_, ?_⟩
    · rw [applyOp, updateDoc, h1]
      exact h3
    · have : setDoc (setDoc D d none) d (some a) = docsOp D (.update d a) := by
        funext i
        simp only [setDoc, docsOp]
        split <;> rfl
      rw [← this]
      exact h4

theorem runOps_inv (ops : List IOp) {st : Store} {D : Docs} (h : IInv st D) (ho : OpsOk D ops) :
    ∃ st', runOps st ops = .ok st' ∧ IInv st' (docsAfter D ops) := by
  induction ops generalizing st D with
  | nil => exact ⟨st, rfl, h⟩
  | cons o os ih =>
    obtain ⟨st1, h1, h2⟩ := applyOp_inv h ho.1
    obtain ⟨st2, h3, h4⟩ := ih h2 ho.2
    refine ⟨st2, ?_, h4⟩
    rw [runOps, h1]
    exact h3

theorem iinv_empty : IInv [] (fun _ => none) := by
  refine ⟨by simp [SNodup], fun i => rfl, ?_, by simp⟩
  intro k _
  refine Or.inl ⟨rfl, ?_⟩
  rintro i ⟨a, ha, _⟩
  simp at ha

/-! ### Reading -/

theorem getOrEmpty_posted {st : Store} {D : Docs} (h : RInv st D) (f : Bytes) (a : AttrVal) :
    ∃ ids, getOrEmpty st (encKey f a) = .ok ids ∧ ∀ i, i ∈ ids ↔ Posted D i (encKey f a) := by
  rw [getOrEmpty]
  rcases h.post (encKey f a) (fun d e => revKey_ne_encKey d _ _ e.symm) with ⟨h1, h2⟩ | ⟨ids, h1, h2⟩
  · exact ⟨[], by rw [h1], fun i => ⟨fun h => by simp at h, fun h => absurd h (h2 i)⟩⟩
  · exact ⟨ids, by rw [h1]; rfl, h2⟩

theorem scan_spec (lo hi : Bytes) (st : Store) (hr : ∀ k c, (k, c) ∈ st → lo ≤ k → k < hi → ∃ ids, c = .pl ids)
    (acc : List Nat) : ∃ res, scan lo hi st acc = .ok res ∧
      ∀ i, i ∈ res ↔ i ∈ acc ∨ ∃ k ids, (k, Cell.pl ids) ∈ st ∧ lo ≤ k ∧ k < hi ∧ i ∈ ids := by
  induction st generalizing acc with
  | nil => exact ⟨acc, rfl, by simp⟩
  | cons p st ih =>
    obtain ⟨k, c⟩ := p
    have hr' : ∀ k c, (k, c) ∈ st → lo ≤ k → k < hi → ∃ ids, c = .pl ids :=
      fun k c hm => hr k c (by simp [hm])
    rw [scan]
    by_cases hb : lo ≤ k ∧ k < hi
    · obtain ⟨ids, rfl⟩ := hr k c (by simp) hb.1 hb.2
      rw [if_pos hb]
      simp only [asPl]
      obtain ⟨res, h1, h2⟩ := ih hr' (plUnion acc ids)
      refine ⟨res, h1, ?_⟩
      intro i
      rw [h2, mem_plUnion]
      constructor
      · rintro ((h | h) | ⟨k', ids', hm, hrest⟩)
        · exact Or.inl h
        · exact Or.inr ⟨k, ids, by simp, hb.1, hb.2, h⟩
        · exact Or.inr ⟨k', ids', by simp [hm], hrest⟩
      · rintro (h | ⟨k', ids', hm, h1, h2, h3⟩)
        · exact Or.inl (Or.inl h)
        · simp only [List.mem_cons, Prod.mk.injEq, Cell.pl.injEq] at hm
          rcases hm with ⟨rfl, rfl⟩ | hm
          · exact Or.inl (Or.inr h3)
          · exact Or.inr ⟨k', ids', hm, h1, h2, h3⟩
    · rw [if_neg hb]
      obtain ⟨res, h1, h2⟩ := ih hr' acc
      refine ⟨res, h1, ?_⟩
      intro i
      rw [h2]
      constructor
      · rintro (h | ⟨k', ids', hm, hrest⟩)
        · exact Or.inl h
        · exact Or.inr ⟨k', ids', by simp [hm], hrest⟩
      · rintro (h | ⟨k', ids', hm, h1, h2, h3⟩)
        · exact Or.inl h
        · simp only [List.mem_cons, Prod.mk.injEq] at hm
          rcases hm with ⟨rfl, _⟩ | hm
          · exact absurd ⟨h1, h2⟩ hb
          · exact Or.inr ⟨k', ids', hm, h1, h2, h3⟩

/-- A scan between two keys that share a prefix with a separator returns the documents with a key in between. -/
theorem scanRange_posted {st : Store} {D : Docs} (h : RInv st D) {p u v : Bytes} (hp : 0 ∈ p) (acc : List Nat) :
    ∃ res, scanRange st (p ++ u, p ++ v) acc = .ok res ∧
      ∀ i, i ∈ res ↔ i ∈ acc ∨ ∃ k, InRange (p ++ u) (p ++ v) k ∧ Posted D i k := by
  have hne : (p ++ u).isEmpty = false := by
    cases p with
    | nil => simp at hp
    | cons x xs => rfl
  have notrev : ∀ k, p ++ u ≤ k → k < p ++ v → ∀ d, k ≠ revKey d := by
    rintro k h1 h2 d rfl
    obtain ⟨w, hw⟩ := prefix_of_range h1 h2
    exact revKey_no_nul d (by rw [hw]; simp [hp])
  obtain ⟨res, h1, h2⟩ := scan_spec (p ++ u) (p ++ v) st (by
    intro k c hm h1 h2
    rw [mem_iff_sget h.nodup] at hm
    rcases h.post k (notrev k h1 h2) with ⟨h3, _⟩ | ⟨ids, h3, _⟩
    · rw [h3] at hm; simp at hm
    · rw [h3] at hm
      simp only [Option.some.injEq] at hm
      exact ⟨ids, hm.symm⟩) acc
  refine ⟨res, ?_, ?_⟩
  · rw [scanRange]
    simp only [hne]
    exact h1
  · intro i
    rw [h2]
    apply or_congr Iff.rfl
    constructor
    · rintro ⟨k, ids, hm, h3, h4, h5⟩
      rw [mem_iff_sget h.nodup] at hm
      refine ⟨k, ⟨h3, h4⟩, ?_⟩
      rcases h.post k (notrev k h3 h4) with ⟨h6, _⟩ | ⟨ids', h6, h7⟩
      · rw [h6] at hm; simp at hm
      · rw [h6] at hm
        simp only [Option.some.injEq, Cell.pl.injEq] at hm
        subst hm
        exact (h7 i).1 h5
    · rintro ⟨k, ⟨h3, h4⟩, h5⟩
      rcases h.post k (notrev k h3 h4) with ⟨h6, h7⟩ | ⟨ids', h6, h7⟩
      · exact absurd h5 (h7 i)
      · exact ⟨k, ids', (mem_iff_sget h.nodup _ _).2 h6, h3, h4, (h7 i).2 h5⟩

end Verif.Label
