import Verif.Label.FaultModel
import Verif.Label.IndexEval
/-
Helper lemmas for `FaultProps.lean`: what an operation that stops anywhere leaves.
-/
namespace Verif.Label.Fault

/-- Posting lists hold the relation `P`, the reverse mappings are those of `R`. -/
structure FInv (st : Store) (P : Nat → Bytes → Prop) (R : Docs) : Prop where
  nodup : SNodup st
  rev : ∀ i, sget st (revKey i) = (R i).map (fun a => Cell.rev (serKeys (keysOf a)))
  post : PInv st P
  small : ∀ i a, R i = some a → i < 4294967296 ∧ AttrsOk a

theorem FInv.of {st : Store} {D : Docs} (h : IInv st D) : FInv st (Posted D) D := ⟨h.nodup, h.rev, h.post, h.small⟩

theorem FInv.congr {st : Store} {P Q : Nat → Bytes → Prop} {R : Docs} (h : FInv st P R)
    (e : ∀ i k, P i k ↔ Q i k) : FInv st Q R := ⟨h.nodup, h.rev, h.post.congr e, h.small⟩

theorem FInv.to {st : Store} {P : Nat → Bytes → Prop} {D : Docs} (h : FInv st P D)
    (e : ∀ i k, P i k ↔ Posted D i k) : IInv st D := ⟨h.nodup, h.rev, h.post.congr e, h.small⟩

theorem pinv_sset {st : Store} {P : Nat → Bytes → Prop} (hp : PInv st P) {doc : Nat} (hd : doc < 4294967296)
    {k : Bytes} {ids : List Nat} (hmem : ∀ i, i ∈ ids ↔ P i k) :
    PInv (sset st k (.pl (plInsert ids doc))) (fun i l => P i l ∨ (i = doc ∧ l = k)) := by
  intro l hl
  rw [sget_sset]
  by_cases hlk : l = k
  · subst hlk
    rw [if_pos rfl]
    exact Or.inr ⟨_, rfl, fun i => by rw [mem_plInsert hd, hmem]; simp⟩
  · rw [if_neg hlk]
    rcases hp l hl with ⟨h1, h2⟩ | ⟨ids', h1, h2⟩
    · exact Or.inl ⟨h1, fun i hi => by rcases hi with hi | hi; exacts [h2 i hi, hlk hi.2]⟩
    · exact Or.inr ⟨ids', h1, fun i => by rw [h2]; simp [hlk]⟩

theorem getOrEmpty_of {st : Store} {P : Nat → Bytes → Prop} (hp : PInv st P) {k : Bytes}
    (hk : ∀ d, k ≠ revKey d) : ∃ ids, getOrEmpty st k = .ok ids ∧ ∀ i, i ∈ ids ↔ P i k := by
  rw [getOrEmpty]
  rcases hp k hk with ⟨h1, h2⟩ | ⟨ids, h1, h2⟩
  · exact ⟨[], by rw [h1], fun i => ⟨fun h => by simp at h, fun h => absurd h (h2 i)⟩⟩
  · exact ⟨ids, by rw [h1]; rfl, h2⟩

theorem insertLoop_spec {fits : Bytes → Cell → Bool} {doc : Nat} (hd : doc < 4294967296) (keys : List Bytes)
    (hk : ∀ k ∈ keys, ∀ d, k ≠ revKey d) (n : Nat) (st : Store) (P : Nat → Bytes → Prop) (hp : PInv st P)
    (hn : SNodup st) :
    ∃ st' r ks, insertLoop fits doc keys n st = (st', r) ∧ (∀ k ∈ ks, k ∈ keys) ∧
      PInv st' (fun i k => P i k ∨ (i = doc ∧ k ∈ ks)) ∧ SNodup st' ∧
      (∀ d, sget st' (revKey d) = sget st (revKey d)) ∧ r ≠ .panic ∧ (r ≠ .err → ks = keys) := by
  induction keys generalizing n st P with
  | nil => exact ⟨st, .ok n, [], by cases n <;> rfl, by simp, hp.congr (by simp), hn, fun _ => rfl, by simp, by simp⟩
  | cons k ks ih =>
    have stop : ∃ ks' : List Bytes, (∀ l ∈ ks', l ∈ k :: ks) ∧ PInv st (fun i l => P i l ∨ (i = doc ∧ l ∈ ks')) :=
      ⟨[], by simp, hp.congr (by simp)⟩
    obtain ⟨k0, h01, h02⟩ := stop
    have hkr := hk k (by simp)
    cases n with
    | zero => exact ⟨st, .err, k0, rfl, h01, h02, hn, fun _ => rfl, by simp, by simp⟩
    | succ n =>
      obtain ⟨ids, hids, hmem⟩ := getOrEmpty_of hp hkr
      simp only [insertLoop, hids]
      cases n with
      | zero => exact ⟨st, .err, k0, rfl, h01, h02, hn, fun _ => rfl, by simp, by simp⟩
      | succ n =>
        simp only [setF]
        by_cases hf : fits k (.pl (plInsert ids doc)) = true
        · rw [if_pos hf]
          simp only [Out.andThen]
          obtain ⟨st', r, ks', h1, h2, h3, h4, h5, h6, h7⟩ :=
            ih (fun l hl => hk l (by simp [hl])) n _ _ (pinv_sset hp hd hmem) (snodup_sset hn _ _)
          refine ⟨st', r, k :: ks', h1, ?_, h3.congr ?_, h4, ?_, h6, fun e => by rw [h7 e]⟩
          · intro l hl
            rcases List.mem_cons.1 hl with rfl | hl
            · simp
            · simp [h2 l hl]
          · intro i l
            simp only [List.mem_cons]
            constructor
            · rintro ((h | ⟨h, h'⟩) | ⟨h, h'⟩)
              · exact .inl h
              · exact .inr ⟨h, .inl h'⟩
              · exact .inr ⟨h, .inr h'⟩
            · rintro (h | ⟨h, h' | h'⟩)
              · exact .inl (.inl h)
              · exact .inl (.inr ⟨h, h'⟩)
              · exact .inr ⟨h, h'⟩
          · intro d
            rw [h5, sget_sset, if_neg (fun e => hkr d e.symm)]
        · rw [if_neg hf]
          exact ⟨st, .err, k0, rfl, h01, h02, hn, fun _ => rfl, by simp, by simp⟩

/-- An insertion attempt: some of the keys are posted; if it succeeds all of them, and the reverse mapping. -/
theorem insert_spec (fits : Bytes → Cell → Bool) (n : Nat) {st : Store} {P : Nat → Bytes → Prop} {R : Docs}
    (h : FInv st P R) {d : Nat} {a : Attrs} (hd : d < 4294967296) (ha : AttrsOk a) :
    ∃ st' r, insert fits n st d a = (st', r) ∧ r ≠ .panic ∧
      (r = .err → ∃ ks : List Bytes, (∀ k ∈ ks, k ∈ keysOf a) ∧ FInv st' (fun i k => P i k ∨ (i = d ∧ k ∈ ks)) R) ∧
      (r ≠ .err → FInv st' (fun i k => P i k ∨ (i = d ∧ k ∈ keysOf a)) (setDoc R d (some a))) := by
  obtain ⟨st1, r, ks, h1, h2, h3, h4, h5, h6, h7⟩ :=
    insertLoop_spec (fits := fits) hd (keysOf a) (keysOf_not_rev a) n st P h.post h.nodup
  have he : FInv st1 (fun i k => P i k ∨ (i = d ∧ k ∈ ks)) R :=
    ⟨h4, fun i => by rw [h5, h.rev], h3, h.small⟩
  have hi : insert fits n st d a = (Out.andThen (st1, r)
      fun n st => setF fits n st (revKey d) (.rev (serKeys (keysOf a)))) := by
    unfold insert
    show Out.andThen (insertLoop fits d (keysOf a) n st) _ = _
    rw [h1]
    rfl
  rw [hi]
  cases r with
  | panic => exact absurd rfl h6
  | err => exact ⟨st1, .err, rfl, by simp, fun _ => ⟨ks, h2, he⟩, fun e => absurd rfl e⟩
  | ok m =>
    have hks := h7 (by simp)
    cases m with
    | zero => exact ⟨st1, .err, rfl, by simp, fun _ => ⟨ks, h2, he⟩, fun e => absurd rfl e⟩
    | succ m =>
      simp only [Out.andThen, setF]
      split
      · refine ⟨_, _, rfl, by simp, by simp, fun _ => ?_⟩
        subst hks
        refine ⟨snodup_sset h4 _ _, ?_, ?_, ?_⟩
        · intro i
          rw [sget_sset, setDoc]
          by_cases hi : i = d
          · subst hi; simp
          · rw [if_neg (fun e => hi (revKey_inj e)), if_neg hi, h5, h.rev]
        · intro k hk
          rw [sget_sset, if_neg (hk d)]
          exact h3 k hk
        · intro i b hb
          rw [setDoc] at hb
          split at hb
          · rename_i hi
            simp only [Option.some.injEq] at hb
            subst hb; subst hi
            exact ⟨hd, ha⟩
          · exact h.small i b hb
      · exact ⟨st1, .err, rfl, by simp, fun _ => ⟨ks, h2, he⟩, fun e => absurd rfl e⟩

theorem deleteLoop_spec {fits : Bytes → Cell → Bool} {doc : Nat} (hd : doc < 4294967296) (keys : List Bytes)
    (hk : ∀ k ∈ keys, ∀ d, k ≠ revKey d) (n : Nat) (st : Store) (P : Nat → Bytes → Prop) (hp : PInv st P)
    (hn : SNodup st) :
    ∃ st' r ks, deleteLoop fits doc keys n st = (st', r) ∧ (∀ k ∈ ks, k ∈ keys) ∧
      PInv st' (fun i k => P i k ∧ ¬ (i = doc ∧ k ∈ ks)) ∧ SNodup st' ∧
      (∀ d, sget st' (revKey d) = sget st (revKey d)) ∧ r ≠ .panic ∧ (r ≠ .err → ks = keys) := by
  induction keys generalizing n st P with
  | nil => exact ⟨st, .ok n, [], by cases n <;> rfl, by simp, hp.congr (by simp), hn, fun _ => rfl, by simp, by simp⟩
  | cons k ks ih =>
    have stop : ∃ ks' : List Bytes, (∀ l ∈ ks', l ∈ k :: ks) ∧ PInv st (fun i l => P i l ∧ ¬ (i = doc ∧ l ∈ ks')) :=
      ⟨[], by simp, hp.congr (by simp)⟩
    obtain ⟨k0, h01, h02⟩ := stop
    have hkr := hk k (by simp)
    have fin : ∀ m st1, PInv st1 (fun i l => P i l ∧ ¬ (i = doc ∧ l = k)) → SNodup st1 →
        (∀ d, sget st1 (revKey d) = sget st (revKey d)) →
        ∃ st' r ks', deleteLoop fits doc ks m st1 = (st', r) ∧ (∀ l ∈ ks', l ∈ k :: ks) ∧
          PInv st' (fun i l => P i l ∧ ¬ (i = doc ∧ l ∈ ks')) ∧ SNodup st' ∧
          (∀ d, sget st' (revKey d) = sget st (revKey d)) ∧ r ≠ .panic ∧ (r ≠ .err → ks' = k :: ks) := by
      intro m st1 hp1 hn1 hr1
      obtain ⟨st', r, ks', h1, h2, h3, h4, h5, h6, h7⟩ := ih (fun l hl => hk l (by simp [hl])) m st1 _ hp1 hn1
      refine ⟨st', r, k :: ks', h1, ?_, h3.congr ?_, h4, fun d => (h5 d).trans (hr1 d), h6, fun e => by rw [h7 e]⟩
      · intro l hl
        rcases List.mem_cons.1 hl with rfl | hl
        · simp
        · simp [h2 l hl]
      · intro i l
        simp only [List.mem_cons]
        constructor
        · rintro ⟨⟨h, h'⟩, h''⟩
          exact ⟨h, fun ⟨e, e'⟩ => e'.elim (fun e' => h' ⟨e, e'⟩) (fun e' => h'' ⟨e, e'⟩)⟩
        · rintro ⟨h, h'⟩
          exact ⟨⟨h, fun e => h' ⟨e.1, .inl e.2⟩⟩, fun e => h' ⟨e.1, .inr e.2⟩⟩
    cases n with
    | zero => exact ⟨st, .err, k0, rfl, h01, h02, hn, fun _ => rfl, by simp, by simp⟩
    | succ n =>
      rcases hp k hkr with ⟨h1, h2⟩ | ⟨ids, h1, h2⟩
      · simp only [deleteLoop, h1]
        refine fin n st (hp.congr ?_) hn (fun _ => rfl)
        intro i l
        constructor
        · intro h
          refine ⟨h, ?_⟩
          rintro ⟨rfl, rfl⟩
          exact h2 _ h
        · exact And.left
      · simp only [deleteLoop, h1, asPl]
        by_cases hemp : (plRemove ids doc).isEmpty = true
        · rw [if_pos hemp]
          cases n with
          | zero => exact ⟨st, .err, k0, rfl, h01, h02, hn, fun _ => rfl, by simp, by simp⟩
          | succ n =>
            simp only [delF, Out.andThen]
            refine fin n (sdel st k) ?_ (snodup_sdel hn _) ?_
            · intro l hl
              rw [sget_sdel]
              by_cases hlk : l = k
              · subst hlk
                rw [if_pos rfl]
                refine Or.inl ⟨rfl, ?_⟩
                rintro i ⟨hi, hne⟩
                have : i ∈ plRemove ids doc := (mem_plRemove hd).2 ⟨(h2 i).2 hi, fun e => hne ⟨e, rfl⟩⟩
                rw [List.isEmpty_iff] at hemp
                rw [hemp] at this
                simp at this
              · rw [if_neg hlk]
                rcases hp l hl with ⟨h1, h2⟩ | ⟨ids', h1, h2⟩
                · exact Or.inl ⟨h1, fun i hi => h2 i hi.1⟩
                · exact Or.inr ⟨ids', h1, fun i => by rw [h2]; simp [hlk]⟩
            · intro d
              rw [sget_sdel, if_neg (fun e => hkr d e.symm)]
        · rw [if_neg hemp]
          cases n with
          | zero => exact ⟨st, .err, k0, rfl, h01, h02, hn, fun _ => rfl, by simp, by simp⟩
          | succ n =>
            simp only [setF]
            by_cases hf : fits k (.pl (plRemove ids doc)) = true
            · rw [if_pos hf]
              simp only [Out.andThen]
              refine fin n (sset st k (.pl (plRemove ids doc))) ?_ (snodup_sset hn _ _) ?_
              · intro l hl
                rw [sget_sset]
                by_cases hlk : l = k
                · subst hlk
                  rw [if_pos rfl]
                  refine Or.inr ⟨_, rfl, fun i => ?_⟩
                  rw [mem_plRemove hd, h2]
                  simp
                · rw [if_neg hlk]
                  rcases hp l hl with ⟨h1, h2⟩ | ⟨ids', h1, h2⟩
                  · exact Or.inl ⟨h1, fun i hi => h2 i hi.1⟩
                  · exact Or.inr ⟨ids', h1, fun i => by rw [h2]; simp [hlk]⟩
              · intro d
                rw [sget_sset, if_neg (fun e => hkr d e.symm)]
            · rw [if_neg hf]
              exact ⟨st, .err, k0, rfl, h01, h02, hn, fun _ => rfl, by simp, by simp⟩

/-- A deletion attempt: some of the keys of the reverse mapping are no longer posted; if it succeeds all of them,
and the reverse mapping is gone. -/
theorem delete_spec (fits : Bytes → Cell → Bool) (n : Nat) {st : Store} {P : Nat → Bytes → Prop} {R : Docs}
    (h : FInv st P R) (d : Nat) :
    ∃ st' r, delete fits n st d = (st', r) ∧ r ≠ .panic ∧
      (r = .err → ∃ ks : List Bytes, (∀ k ∈ ks, Posted R d k) ∧ FInv st' (fun i k => P i k ∧ ¬ (i = d ∧ k ∈ ks)) R) ∧
      (r ≠ .err → FInv st' (fun i k => P i k ∧ ¬ (i = d ∧ Posted R d k)) (setDoc R d none)) := by
  have stop : ∃ ks : List Bytes, (∀ k ∈ ks, Posted R d k) ∧ FInv st (fun i k => P i k ∧ ¬ (i = d ∧ k ∈ ks)) R :=
    ⟨[], by simp, h.congr (by simp)⟩
  cases n with
  | zero => exact ⟨st, .err, rfl, by simp, fun _ => stop, fun e => absurd rfl e⟩
  | succ n =>
    rw [delete, h.rev]
    cases hD : R d with
    | none =>
      refine ⟨st, .ok n, rfl, by simp, by simp, fun _ => ?_⟩
      rw [setDoc_none_eq hD]
      refine h.congr ?_
      intro i k
      constructor
      · intro hp
        refine ⟨hp, ?_⟩
        rintro ⟨_, a, ha, _⟩
        rw [hD] at ha
        cases ha
      · exact And.left
    | some a =>
      obtain ⟨hd, ha⟩ := h.small d a hD
      obtain ⟨st1, r, ks, h1, h2, h3, h4, h5, h6, h7⟩ :=
        deleteLoop_spec (fits := fits) hd (keysOf a) (keysOf_not_rev a) n st P h.post h.nodup
      have hpost : ∀ k, Posted R d k ↔ k ∈ keysOf a := by
        intro k
        unfold Posted
        rw [hD]
        simp
      have he : FInv st1 (fun i k => P i k ∧ ¬ (i = d ∧ k ∈ ks)) R :=
        ⟨h4, fun i => by rw [h5, h.rev], h3, h.small⟩
      have hsub : ∀ k ∈ ks, Posted R d k := fun k hk => (hpost k).2 (h2 k hk)
      have hdes := deserKeys_keysOf ha
      have hrun : deleteCell fits n st d ((some a).map fun a => Cell.rev (serKeys (keysOf a))) =
          Out.andThen (st1, r) fun n st => delF n st (revKey d) := by
        show deleteKeys fits n st d (deserKeys (serKeys (keysOf a))) = _
        rw [hdes, deleteKeys, h1]
      rw [hrun]
      cases r with
      | panic => exact absurd rfl h6
      | err => exact ⟨st1, .err, rfl, by simp, fun _ => ⟨ks, hsub, he⟩, fun e => absurd rfl e⟩
      | ok m =>
        have hks := h7 (by simp)
        cases m with
        | zero => exact ⟨st1, .err, rfl, by simp, fun _ => ⟨ks, hsub, he⟩, fun e => absurd rfl e⟩
        | succ m =>
          refine ⟨sdel st1 (revKey d), .ok m, rfl, by simp, by simp, fun _ => ?_⟩
          subst hks
          refine ⟨snodup_sdel h4 _, ?_, ?_, ?_⟩
          · intro i
            rw [sget_sdel, setDoc]
            by_cases hi : i = d
            · subst hi; simp
            · rw [if_neg (fun e => hi (revKey_inj e)), if_neg hi, h5, h.rev]
          · intro k hk
            rw [sget_sdel, if_neg (hk d)]
            have := (h3.congr (Q := fun i k => P i k ∧ ¬ (i = d ∧ Posted R d k))
              (fun i k => by rw [hpost])) k hk
            exact this
          · intro i b hb
            rw [setDoc] at hb
            split at hb
            · exact absurd hb (by simp)
            · exact h.small i b hb

/-! ### What queries see -/

/-- Attributes without NUL bytes and empty values. -/
def Fine (S : Docs) : Prop := ∀ i a, S i = some a → AttrsFine a

theorem AttrsFine.of {a : Attrs} (h : AttrsOk a) : AttrsFine a := ⟨h.noNul, h.valid, h.notEmpty⟩

theorem FInv.toR {st : Store} {S R : Docs} (h : FInv st (Posted S) R) (hf : Fine S) : RInv st S :=
  ⟨h.nodup, h.post, hf⟩

theorem posted_add {S : Docs} {d : Nat} {a : Attrs} {ks : List Bytes} (hs : ∀ k ∈ ks, k ∈ keysOf a) (i : Nat)
    (k : Bytes) : (Posted S i k ∨ (i = d ∧ k ∈ ks)) ↔
      Posted (setDoc S d (some ((S d).getD [] ++ a.filter fun p => ks.contains (encKey p.1 p.2)))) i k := by
  unfold Posted setDoc keysOf
  by_cases hi : i = d
  · subst hi
    have : k ∈ ks ↔ ∃ x ∈ a, encKey x.1 x.2 ∈ ks ∧ encKey x.1 x.2 = k := by
      constructor
      · intro hk
        obtain ⟨p, hp, e⟩ := List.mem_map.1 (hs k hk)
        exact ⟨p, hp, e ▸ hk, e⟩
      · rintro ⟨p, _, h, rfl⟩
        exact h
    rw [this]
    cases S i with
    | none => simp [and_assoc]
    | some b =>
      simp only [Option.some.injEq, exists_eq_left', List.mem_map, true_and, if_true, Option.getD_some,
        List.mem_append, List.mem_filter, List.contains_iff_mem, and_assoc]
      constructor
      · rintro (⟨p, h1, h2⟩ | ⟨p, h1, h2, h3⟩)
        · exact ⟨p, .inl h1, h2⟩
        · exact ⟨p, .inr ⟨h1, h2⟩, h3⟩
      · rintro ⟨p, h1 | ⟨h1, h2⟩, h3⟩
        · exact .inl ⟨p, h1, h3⟩
        · exact .inr ⟨p, h1, h2, h3⟩
  · simp [hi]

theorem posted_sub {S : Docs} {d : Nat} {ks : List Bytes} (i : Nat) (k : Bytes) :
    (Posted S i k ∧ ¬ (i = d ∧ k ∈ ks)) ↔
      Posted (setDoc S d ((S d).map fun b => b.filter fun p => !ks.contains (encKey p.1 p.2))) i k := by
  unfold Posted setDoc keysOf
  by_cases hi : i = d
  · subst hi
    cases S i with
    | none => simp
    | some b =>
      simp only [Option.some.injEq, exists_eq_left', List.mem_map, true_and, if_true, Option.map_some,
        List.mem_filter, Bool.not_eq_true', and_assoc]
      constructor
      · rintro ⟨⟨p, h1, rfl⟩, h2⟩
        exact ⟨p, h1, by simpa using h2, rfl⟩
      · rintro ⟨p, h1, h2, rfl⟩
        exact ⟨⟨p, h1, rfl⟩, by simpa using h2⟩
  · simp [hi]

/-- Something is posted: the relation of a state, what queries see, and the other documents. -/
def Seen (st : Store) (S R : Docs) : Prop := FInv st (Posted S) R ∧ Fine S

theorem insert_seen (fits : Bytes → Cell → Bool) (n : Nat) {st : Store} {S R : Docs} (h : Seen st S R) {d : Nat}
    {a : Attrs} (hd : d < 4294967296) (ha : AttrsOk a) :
    ∃ S' R', Seen (insert fits n st d a).1 S' R' ∧ (insert fits n st d a).2 ≠ .panic ∧ ∀ i, i ≠ d → S' i = S i := by
  obtain ⟨st', r, h1, h2, h3, h4⟩ := insert_spec fits n h.1 hd ha
  have key : ∀ ks : List Bytes, (∀ k ∈ ks, k ∈ keysOf a) → ∀ R',
      FInv st' (fun i k => Posted S i k ∨ (i = d ∧ k ∈ ks)) R' →
      ∃ S' R', Seen st' S' R' ∧ ∀ i, i ≠ d → S' i = S i := by
    intro ks hs R' hf
    refine ⟨_, R', ⟨hf.congr (posted_add hs), ?_⟩, fun i hi => by rw [setDoc, if_neg hi]⟩
    intro i b hb
    rw [setDoc] at hb
    split at hb
    · simp only [Option.some.injEq] at hb
      subst hb
      have hS : ∀ p ∈ (S d).getD [], 0 ∉ p.1 ∧ p.2.valid ∧ p.2 ≠ .empty := by
        intro p hp
        cases hSd : S d with
        | none => rw [hSd] at hp; simp at hp
        | some b =>
          rw [hSd] at hp
          have := h.2 d b hSd
          exact ⟨this.noNul p hp, this.valid p hp, this.notEmpty p hp⟩
      have hA : ∀ p ∈ (S d).getD [] ++ a.filter (fun p => ks.contains (encKey p.1 p.2)),
          0 ∉ p.1 ∧ p.2.valid ∧ p.2 ≠ .empty := by
        intro p hp
        rcases List.mem_append.1 hp with hp | hp
        · exact hS p hp
        · have hp := (List.mem_filter.1 hp).1
          exact ⟨ha.noNul p hp, ha.valid p hp, ha.notEmpty p hp⟩
      exact ⟨fun p hp => (hA p hp).1, fun p hp => (hA p hp).2.1, fun p hp => (hA p hp).2.2⟩
    · exact h.2 i b hb
  rw [h1]
  by_cases hr : r = .err
  · obtain ⟨ks, hs, hf⟩ := h3 hr
    obtain ⟨S', R', h5, h6⟩ := key ks hs R hf
    exact ⟨S', R', h5, h2, h6⟩
  · obtain ⟨S', R', h5, h6⟩ := key (keysOf a) (fun _ h => h) _ (h4 hr)
    exact ⟨S', R', h5, h2, h6⟩

theorem delete_seen (fits : Bytes → Cell → Bool) (n : Nat) {st : Store} {S R : Docs} (h : Seen st S R) (d : Nat) :
    ∃ S' R', Seen (delete fits n st d).1 S' R' ∧ (delete fits n st d).2 ≠ .panic ∧ ∀ i, i ≠ d → S' i = S i := by
  obtain ⟨st', r, h1, h2, h3, h4⟩ := delete_spec fits n h.1 d
  have key : ∀ ks : List Bytes, ∀ R', FInv st' (fun i k => Posted S i k ∧ ¬ (i = d ∧ k ∈ ks)) R' →
      ∃ S' R', Seen st' S' R' ∧ ∀ i, i ≠ d → S' i = S i := by
    intro ks R' hf
    refine ⟨_, R', ⟨hf.congr posted_sub, ?_⟩, fun i hi => by rw [setDoc, if_neg hi]⟩
    intro i b hb
    rw [setDoc] at hb
    split at hb
    · cases hSd : S d with
      | none => rw [hSd] at hb; cases hb
      | some c =>
        rw [hSd] at hb
        simp only [Option.map_some, Option.some.injEq] at hb
        subst hb
        have := h.2 d c hSd
        exact ⟨fun p hp => this.noNul p (List.mem_filter.1 hp).1, fun p hp => this.valid p (List.mem_filter.1 hp).1,
          fun p hp => this.notEmpty p (List.mem_filter.1 hp).1⟩
    · exact h.2 i b hb
  rw [h1]
  by_cases hr : r = .err
  · obtain ⟨ks, hs, hf⟩ := h3 hr
    obtain ⟨S', R', h5, h6⟩ := key ks R hf
    exact ⟨S', R', h5, h2, h6⟩
  · have hx := h4 hr
    obtain ⟨S', R', h5, h6⟩ := key ((R d).elim [] keysOf) _ (hx.congr (by
      intro i k
      have : Posted R d k ↔ k ∈ (R d).elim [] keysOf := by
        unfold Posted
        cases R d <;> simp
      rw [this]))
    exact ⟨S', R', h5, h2, h6⟩

theorem attempt_seen (fits : Bytes → Cell → Bool) (n : Nat) {st : Store} {S R : Docs} (h : Seen st S R) {o : IOp}
    (ho : Allowed o) :
    ∃ S' R', Seen (attempt fits n st o).1 S' R' ∧ (attempt fits n st o).2 ≠ .panic ∧
      ∀ i, i ≠ docOf o → S' i = S i := by
  cases o with
  | insert d a => exact insert_seen fits n h ho.1 ho.2
  | delete d => exact delete_seen fits n h d
  | update d a =>
    obtain ⟨S1, R1, h1, h2, h3⟩ := delete_seen fits n h d
    rw [attempt, update]
    rcases e : delete fits n st d with ⟨st1, r⟩
    rw [e] at h1 h2
    cases r with
    | panic => exact absurd rfl h2
    | err => exact ⟨S1, R1, h1, by simp [Out.andThen], h3⟩
    | ok m =>
      obtain ⟨S2, R2, h4, h5, h6⟩ := insert_seen fits m h1 ho.1 ho.2
      exact ⟨S2, R2, h4, h5, fun i hi => (h6 i hi).trans (h3 i hi)⟩

theorem seen_empty : Seen [] (fun _ => none) (fun _ => none) := ⟨FInv.of iinv_empty, fun _ _ h => by cases h⟩

theorem tryAll_seen (fits : Bytes → Cell → Bool) (acts : List (Nat × IOp)) (ha : ∀ x ∈ acts, Allowed x.2)
    {st : Store} {S R : Docs} (h : Seen st S R) : ∃ S' R', Seen (tryAll fits st acts) S' R' := by
  induction acts generalizing st S R with
  | nil => exact ⟨S, R, h⟩
  | cons x xs ih =>
    obtain ⟨S1, R1, h1, _, _⟩ := attempt_seen fits x.1 h (ha x (by simp))
    exact ih (fun y hy => ha y (by simp [hy])) h1

/-! ### Retrying -/

/-- What an operation makes of its document. -/
def newOf : IOp → Option Attrs
  | .insert _ a => some a
  | .delete _ => none
  | .update _ a => some a

/-- Between attempts of `o`: the other documents are as they were; the document of `o` has a part of its old keys and
its old reverse mapping, or a part of its new keys and no reverse mapping. -/
structure Mid (D : Docs) (o : IOp) (st : Store) (P : Nat → Bytes → Prop) (R : Docs) : Prop where
  inv : FInv st P R
  other : ∀ i, i ≠ docOf o → R i = D i ∧ ∀ k, P i k ↔ Posted D i k
  own : (R (docOf o) = D (docOf o) ∧ ∀ k, P (docOf o) k → Posted D (docOf o) k) ∨
    (R (docOf o) = none ∧ ∀ k, P (docOf o) k → ∃ a, newOf o = some a ∧ k ∈ keysOf a)

theorem mid_start {D : Docs} {st : Store} (h : IInv st D) (o : IOp) : Mid D o st (Posted D) D :=
  ⟨FInv.of h, fun _ _ => ⟨rfl, fun _ => Iff.rfl⟩, .inl ⟨rfl, fun _ h => h⟩⟩

/-- An insertion attempt of a document without reverse mapping. -/
theorem insert_mid {D : Docs} {o : IOp} {st : Store} {P : Nat → Bytes → Prop} {R : Docs} {d : Nat} {a : Attrs}
    (hd : d < 4294967296) (ha : AttrsOk a) (hdo : docOf o = d) (hn : newOf o = some a)
    (hD : docsOp D o = setDoc D d (some a)) (hi : FInv st P R)
    (other : ∀ i, i ≠ d → R i = D i ∧ ∀ k, P i k ↔ Posted D i k) (hR : R d = none)
    (hP : ∀ k, P d k → k ∈ keysOf a) (fits : Bytes → Cell → Bool) (n : Nat) :
    (insert fits n st d a).2 ≠ .panic ∧
      ((insert fits n st d a).2 = .err → ∃ P' R', Mid D o (insert fits n st d a).1 P' R') ∧
      ((insert fits n st d a).2 ≠ .err → IInv (insert fits n st d a).1 (docsOp D o)) := by
  obtain ⟨st', r, h1, h2, h3, h4⟩ := insert_spec fits n hi hd ha
  rw [h1]
  refine ⟨h2, ?_, ?_⟩
  · intro hr
    obtain ⟨ks, hs, hf⟩ := h3 hr
    refine ⟨_, R, hf, ?_, .inr ⟨by rw [hdo]; exact hR, ?_⟩⟩
    · intro i hne
      rw [hdo] at hne
      refine ⟨(other i hne).1, fun k => ?_⟩
      rw [← (other i hne).2 k]
      simp [hne]
    · intro k hk
      rw [hdo] at hk
      refine ⟨a, hn, ?_⟩
      rcases hk with hk | ⟨_, hk⟩
      · exact hP k hk
      · exact hs k hk
  · intro hr
    have hf := h4 hr
    have hRD : setDoc R d (some a) = docsOp D o := by
      rw [hD]
      funext i
      unfold setDoc
      split
      · rfl
      · rename_i hne
        exact (other i hne).1
    rw [← hRD]
    refine hf.to ?_
    intro i k
    by_cases hid : i = d
    · subst hid
      have : Posted (setDoc R i (some a)) i k ↔ k ∈ keysOf a := by simp [Posted, setDoc]
      rw [this]
      constructor
      · rintro (hk | ⟨_, hk⟩)
        · exact hP k hk
        · exact hk
      · exact fun hk => .inr ⟨rfl, hk⟩
    · have : Posted (setDoc R d (some a)) i k ↔ Posted D i k := by
        simp [Posted, setDoc, hid, (other i hid).1]
      rw [this, ← (other i hid).2 k]
      simp [hid]

theorem delete_mid {D : Docs} {o : IOp} {st : Store} {P : Nat → Bytes → Prop} {R : Docs} (h : Mid D o st P R)
    (fits : Bytes → Cell → Bool) (n : Nat) :
    (delete fits n st (docOf o)).2 ≠ .panic ∧
      ((delete fits n st (docOf o)).2 = .err → ∃ P' R', Mid D o (delete fits n st (docOf o)).1 P' R') ∧
      ((delete fits n st (docOf o)).2 ≠ .err → ∃ P' R', FInv (delete fits n st (docOf o)).1 P' R' ∧
        (∀ i, i ≠ docOf o → R' i = D i ∧ ∀ k, P' i k ↔ Posted D i k) ∧ R' (docOf o) = none ∧
        ∀ k, P' (docOf o) k → ∃ a, newOf o = some a ∧ k ∈ keysOf a) := by
  obtain ⟨st', r, h1, h2, h3, h4⟩ := delete_spec fits n h.inv (docOf o)
  rw [h1]
  refine ⟨h2, ?_, ?_⟩
  · intro hr
    obtain ⟨ks, hs, hf⟩ := h3 hr
    refine ⟨_, R, hf, ?_, ?_⟩
    · intro i hne
      refine ⟨(h.other i hne).1, fun k => ?_⟩
      rw [← (h.other i hne).2 k]
      simp [hne]
    · rcases h.own with ⟨e, hp⟩ | ⟨e, hp⟩
      · exact .inl ⟨e, fun k hk => hp k hk.1⟩
      · exact .inr ⟨e, fun k hk => hp k hk.1⟩
  · intro hr
    refine ⟨_, _, h4 hr, ?_, by simp [setDoc], ?_⟩
    · intro i hne
      refine ⟨by rw [setDoc, if_neg hne]; exact (h.other i hne).1, fun k => ?_⟩
      rw [← (h.other i hne).2 k]
      simp [hne]
    · rintro k ⟨hk, hno⟩
      rcases h.own with ⟨e, hp⟩ | ⟨e, hp⟩
      · refine absurd ⟨rfl, ?_⟩ hno
        obtain ⟨b, hb, hm⟩ := hp k hk
        exact ⟨b, by rw [e]; exact hb, hm⟩
      · exact hp k hk

theorem attempt_mid {D : Docs} {o : IOp} {st : Store} {P : Nat → Bytes → Prop} {R : Docs} (h : Mid D o st P R)
    (ho : OpOk D o) (fits : Bytes → Cell → Bool) (n : Nat) :
    (attempt fits n st o).2 ≠ .panic ∧
      ((attempt fits n st o).2 = .err → ∃ P' R', Mid D o (attempt fits n st o).1 P' R') ∧
      ((attempt fits n st o).2 ≠ .err → IInv (attempt fits n st o).1 (docsOp D o)) := by
  cases o with
  | insert d a =>
    have hR : R d = none := by
      rcases h.own with ⟨e, _⟩ | ⟨e, _⟩
      · exact e.trans ho.2.2
      · exact e
    refine insert_mid ho.1 ho.2.1 rfl rfl rfl h.inv h.other hR ?_ fits n
    intro k hk
    rcases h.own with ⟨_, hp⟩ | ⟨_, hp⟩
    · obtain ⟨b, hb, _⟩ := hp k hk
      have hb' : D d = some b := hb
      rw [ho.2.2] at hb'
      cases hb'
    · obtain ⟨b, hb, hm⟩ := hp k hk
      simp only [newOf, Option.some.injEq] at hb
      subst hb
      exact hm
  | delete d =>
    obtain ⟨h1, h2, h3⟩ := delete_mid h fits n
    refine ⟨h1, h2, fun hr => ?_⟩
    obtain ⟨P', R', h4, h5, h6, h7⟩ := h3 hr
    have hRD : R' = docsOp D (.delete d) := by
      funext i
      simp only [docsOp, setDoc]
      split
      · rename_i e
        rw [e]
        exact h6
      · rename_i hne
        exact (h5 i hne).1
    subst hRD
    refine h4.to ?_
    intro i k
    by_cases hid : i = d
    · subst hid
      constructor
      · intro hk
        obtain ⟨b, hb, _⟩ := h7 k hk
        cases hb
      · rintro ⟨b, hb, _⟩
        simp [docsOp, setDoc] at hb
    · rw [(h5 i hid).2 k]
      simp [Posted, docsOp, setDoc, hid]
  | update d a =>
    obtain ⟨h1, h2, h3⟩ := delete_mid h fits n
    rw [attempt, update]
    simp only [docOf] at h1 h2 h3
    rcases e : delete fits n st d with ⟨st1, r⟩
    rw [e] at h1 h2 h3
    cases r with
    | panic => exact absurd rfl h1
    | err => exact ⟨by simp [Out.andThen], fun _ => h2 rfl, fun hr => absurd rfl hr⟩
    | ok m =>
      obtain ⟨P', R', h4, h5, h6, h7⟩ := h3 (by simp)
      refine insert_mid ho.1 ho.2 rfl rfl rfl h4 h5 h6 ?_ fits m
      intro k hk
      obtain ⟨b, hb, hm⟩ := h7 k hk
      simp only [newOf, Option.some.injEq] at hb
      subst hb
      exact hm

theorem failing_mid {fits : Bytes → Cell → Bool} {D : Docs} {o : IOp} {st st' : Store} (h : IInv st D)
    (ho : OpOk D o) (hf : Failing fits o st st') : ∃ P R, Mid D o st' P R := by
  induction hf with
  | none => exact ⟨_, _, mid_start h o⟩
  | @again st1 st2 n _ hs ih =>
    obtain ⟨P, R, hm⟩ := ih
    have := (attempt_mid hm ho fits n).2.1
    rw [hs] at this
    exact this rfl

theorem opsOk_append {D : Docs} {xs ys : List IOp} : OpsOk D (xs ++ ys) ↔ OpsOk D xs ∧ OpsOk (docsAfter D xs) ys := by
  induction xs generalizing D with
  | nil => simp [OpsOk, docsAfter]
  | cons x xs ih =>
    simp only [List.cons_append, OpsOk, ih, docsAfter, List.foldl_cons, and_assoc]

theorem retried_inv {fits : Bytes → Cell → Bool} {ops : List IOp} {st : Store} (h : Retried fits ops st)
    (ho : OpsOk (fun _ => none) ops) : IInv st (docsAfter (fun _ => none) ops) := by
  induction h with
  | start => exact iinv_empty
  | @done ops st st1 st2 o n m _ hf hs ih =>
    rw [opsOk_append] at ho
    obtain ⟨P, R, hm⟩ := failing_mid (ih ho.1) ho.2.1 hf
    have := (attempt_mid hm ho.2.1 fits n).2.2
    rw [hs] at this
    have := this (by simp)
    rw [docsAfter, List.foldl_append]
    exact this

/-- Between attempts, what queries see: a part of the old or of the new attributes of the document. -/
theorem mid_seen {D : Docs} {o : IOp} {st : Store} {P : Nat → Bytes → Prop} {R : Docs} (h : Mid D o st P R)
    (hD : Fine D) (ho : OpOk D o) :
    ∃ S, RInv st S ∧ (∀ i, i ≠ docOf o → S i = D i) ∧
      ∀ b, S (docOf o) = some b → ∃ a, (D (docOf o) = some a ∨ newOf o = some a) ∧ ∀ p ∈ b, p ∈ a := by
  classical
  have hnew : ∀ a, newOf o = some a → AttrsFine a := by
    intro a ha
    cases o with
    | insert d b => simp only [newOf, Option.some.injEq] at ha; subst ha; exact AttrsFine.of ho.2.1
    | delete d => cases ha
    | update d b => simp only [newOf, Option.some.injEq] at ha; subst ha; exact AttrsFine.of ho.2
  have key : ∃ c : Option Attrs, (∀ k, P (docOf o) k → ∃ a, c = some a ∧ k ∈ keysOf a) ∧
      ∀ a, c = some a → AttrsFine a ∧ (D (docOf o) = some a ∨ newOf o = some a) := by
    rcases h.own with ⟨_, hp⟩ | ⟨_, hp⟩
    · exact ⟨D (docOf o), hp, fun a ha => ⟨hD _ a ha, .inl ha⟩⟩
    · exact ⟨newOf o, hp, fun a ha => ⟨hnew a ha, .inr ha⟩⟩
  obtain ⟨c, hc, hcf⟩ := key
  refine ⟨setDoc D (docOf o) (c.map fun a => a.filter fun p => decide (P (docOf o) (encKey p.1 p.2))),
    ⟨h.inv.nodup, h.inv.post.congr ?_, ?_⟩, fun i hi => by rw [setDoc, if_neg hi], ?_⟩
  · intro i k
    by_cases hi : i = docOf o
    · subst hi
      unfold Posted setDoc keysOf
      constructor
      · intro hk
        obtain ⟨a, ha, hm⟩ := hc k hk
        obtain ⟨p, hp, rfl⟩ := List.mem_map.1 hm
        refine ⟨_, by rw [if_pos rfl, ha]; rfl, List.mem_map.2 ⟨p, List.mem_filter.2 ⟨hp, by simpa using hk⟩, rfl⟩⟩
      · rintro ⟨a, ha, hm⟩
        rw [if_pos rfl] at ha
        obtain ⟨p, hp, rfl⟩ := List.mem_map.1 hm
        cases c with
        | none => cases ha
        | some b =>
          simp only [Option.map_some, Option.some.injEq] at ha
          subst ha
          simpa using (List.mem_filter.1 hp).2
    · rw [(h.other i hi).2 k]
      simp [Posted, setDoc, hi]
  · intro i a ha
    rw [setDoc] at ha
    split at ha
    · cases c with
      | none => cases ha
      | some b =>
        simp only [Option.map_some, Option.some.injEq] at ha
        subst ha
        have := (hcf b rfl).1
        exact ⟨fun p hp => this.noNul p (List.mem_filter.1 hp).1, fun p hp => this.valid p (List.mem_filter.1 hp).1,
          fun p hp => this.notEmpty p (List.mem_filter.1 hp).1⟩
    · exact hD i a ha
  · intro b hb
    rw [setDoc, if_pos rfl] at hb
    cases c with
    | none => cases hb
    | some a =>
      simp only [Option.map_some, Option.some.injEq] at hb
      subst hb
      exact ⟨a, (hcf a rfl).2, fun p hp => (List.mem_filter.1 hp).1⟩

/-! ### More attributes satisfy more -/

theorem idxHolds_mono {b a : Attrs} (h : ∀ p ∈ b, p ∈ a) {f : Bytes} {op : CmpOp} (hs : IdxHolds b f op) :
    IdxHolds a f op := by
  cases op with
  | eq v => obtain ⟨x, h1, h2⟩ := hs; exact ⟨x, h1, h _ h2⟩
  | ne v => exact hs
  | _ =>
    rcases hs with ⟨n, h1, h2⟩ | ⟨h0, x, h1, h2⟩
    · exact .inl ⟨n, h _ h1, h2⟩
    · exact .inr ⟨h0, x, h _ h1, h2⟩

mutual
theorem idxSat_mono {norm : Bytes → Bytes} {b a : Attrs} (h : ∀ p ∈ b, p ∈ a) (e : Expr) (hs : IdxSat norm b e) :
    IdxSat norm a e := by
  match e with
  | .and es => rw [IdxSat] at hs ⊢; exact ⟨hs.1, idxAll_mono h es hs.2⟩
  | .or es => rw [IdxSat] at hs ⊢; exact idxAny_mono h es hs
  | .not _ => rw [IdxSat] at hs; exact hs.elim
  | .cmp f op => rw [IdxSat] at hs ⊢; exact idxHolds_mono h hs
theorem idxAll_mono {norm : Bytes → Bytes} {b a : Attrs} (h : ∀ p ∈ b, p ∈ a) (es : List Expr)
    (hs : IdxAll norm b es) : IdxAll norm a es := by
  match es with
  | [] => rw [IdxAll]; trivial
  | e :: es => rw [IdxAll] at hs ⊢; exact ⟨idxSat_mono h e hs.1, idxAll_mono h es hs.2⟩
theorem idxAny_mono {norm : Bytes → Bytes} {b a : Attrs} (h : ∀ p ∈ b, p ∈ a) (es : List Expr)
    (hs : IdxAny norm b es) : IdxAny norm a es := by
  match es with
  | [] => rw [IdxAny] at hs; exact hs.elim
  | e :: es =>
    rw [IdxAny] at hs ⊢
    exact hs.elim (fun hs => .inl (idxSat_mono h e hs)) (fun hs => .inr (idxAny_mono h es hs))
end

/-! ### Enough working calls -/

theorem insertLoop_enough (doc : Nat) (keys : List Bytes) (st st' : Store)
    (h : Verif.Label.insertLoop doc st keys = .ok st') :
    ∃ c, ∀ m, insertLoop (fun _ _ => true) doc keys (m + c) st = (st', .ok m) := by
  induction keys generalizing st with
  | nil =>
    simp only [Verif.Label.insertLoop, Res.ok.injEq] at h
    subst h
    exact ⟨0, fun m => by cases m <;> rfl⟩
  | cons k ks ih =>
    rw [Verif.Label.insertLoop] at h
    cases hg : getOrEmpty st k with
    | ok ids =>
      rw [hg] at h
      obtain ⟨c, hc⟩ := ih _ h
      refine ⟨c + 2, fun m => ?_⟩
      show insertLoop (fun _ _ => true) doc (k :: ks) (m + c + 1 + 1) st = _
      rw [insertLoop, hg]
      simp only [setF, if_true, Out.andThen]
      exact hc m
    | err => rw [hg] at h; cases h
    | panic => rw [hg] at h; cases h

theorem deleteLoop_enough (doc : Nat) (keys : List Bytes) (st st' : Store)
    (h : Verif.Label.deleteLoop doc st keys = .ok st') :
    ∃ c, ∀ m, deleteLoop (fun _ _ => true) doc keys (m + c) st = (st', .ok m) := by
  induction keys generalizing st with
  | nil =>
    simp only [Verif.Label.deleteLoop, Res.ok.injEq] at h
    subst h
    exact ⟨0, fun m => by cases m <;> rfl⟩
  | cons k ks ih =>
    rw [Verif.Label.deleteLoop] at h
    cases hg : sget st k with
    | none =>
      rw [hg] at h
      obtain ⟨c, hc⟩ := ih _ h
      refine ⟨c + 1, fun m => ?_⟩
      show deleteLoop (fun _ _ => true) doc (k :: ks) (m + c + 1) st = _
      rw [deleteLoop, hg]
      exact hc m
    | some x =>
      rw [hg] at h
      cases x with
      | rev b => simp [asPl] at h
      | pl ids =>
        simp only [asPl] at h
        split at h
        · rename_i hemp
          obtain ⟨c, hc⟩ := ih _ h
          refine ⟨c + 2, fun m => ?_⟩
          show deleteLoop (fun _ _ => true) doc (k :: ks) (m + c + 1 + 1) st = _
          rw [deleteLoop, hg]
          simp only [asPl]
          rw [if_pos hemp]
          exact hc m
        · rename_i hemp
          obtain ⟨c, hc⟩ := ih _ h
          refine ⟨c + 2, fun m => ?_⟩
          show deleteLoop (fun _ _ => true) doc (k :: ks) (m + c + 1 + 1) st = _
          rw [deleteLoop, hg]
          simp only [asPl]
          rw [if_neg hemp]
          exact hc m

theorem insert_enough {st st' : Store} {d : Nat} {a : Attrs} (h : insertDoc st d a = .ok st') :
    ∃ c, ∀ m, insert (fun _ _ => true) (m + c) st d a = (st', .ok m) := by
  rw [insertDoc] at h
  cases hl : Verif.Label.insertLoop d st (a.map fun p => encKey p.1 p.2) with
  | ok st1 =>
    simp only [hl, Res.ok.injEq] at h
    obtain ⟨c, hc⟩ := insertLoop_enough d _ st st1 hl
    refine ⟨c + 1, fun m => ?_⟩
    have := hc (m + 1)
    rw [insert]
    rw [show m + (c + 1) = m + 1 + c by omega, this, ← h]
    rfl
  | err => simp [hl] at h
  | panic => simp [hl] at h

theorem delete_enough {st st' : Store} {d : Nat} (h : deleteDoc st d = .ok st') :
    ∃ c, ∀ m, delete (fun _ _ => true) (m + c) st d = (st', .ok m) := by
  rw [deleteDoc] at h
  cases hg : sget st (revKey d) with
  | none =>
    rw [hg, Verif.Label.deleteCell] at h
    cases h
    exact ⟨1, fun m => by show delete _ (m + 1) st d = _; rw [delete, hg]; rfl⟩
  | some x =>
    rw [hg] at h
    cases x with
    | pl ids => rw [Verif.Label.deleteCell] at h; cases h
    | rev b =>
      rw [Verif.Label.deleteCell] at h
      cases hk : deserKeys b with
      | err => rw [hk] at h; cases h
      | panic => rw [hk] at h; cases h
      | ok keys =>
        rw [hk, Verif.Label.deleteKeys] at h
        cases hl : Verif.Label.deleteLoop d st keys with
        | err => rw [hl] at h; cases h
        | panic => rw [hl] at h; cases h
        | ok st1 =>
          rw [hl, dropRev] at h
          cases h
          obtain ⟨c, hc⟩ := deleteLoop_enough d _ st st1 hl
          refine ⟨c + 2, fun m => ?_⟩
          rw [show m + (c + 2) = m + 1 + c + 1 by omega, delete, hg, deleteCell, hk, deleteKeys, hc]
          rfl

theorem attempt_enough {st st' : Store} {o : IOp} (h : applyOp st o = .ok st') :
    ∃ c, ∀ m, attempt (fun _ _ => true) (m + c) st o = (st', .ok m) := by
  cases o with
  | insert d a => exact insert_enough h
  | delete d => exact delete_enough h
  | update d a =>
    rw [applyOp, updateDoc] at h
    cases hd : deleteDoc st d with
    | err => rw [hd] at h; cases h
    | panic => rw [hd] at h; cases h
    | ok st1 =>
      rw [hd] at h
      obtain ⟨c1, h1⟩ := delete_enough hd
      obtain ⟨c2, h2⟩ := insert_enough h
      refine ⟨c2 + c1, fun m => ?_⟩
      rw [attempt, update, ← Nat.add_assoc, h1]
      exact h2 m

theorem insert_not_err {st : Store} {P : Nat → Bytes → Prop} {R : Docs} (h : FInv st P R) {d : Nat} {a : Attrs}
    (hd : d < 4294967296) : ∃ st', insertDoc st d a = .ok st' := by
  obtain ⟨st1, h1, _⟩ := Verif.Label.insertLoop_spec hd (keysOf a) (keysOf_not_rev a) st P h.post h.nodup
  refine ⟨sset st1 (revKey d) (.rev (serKeys (keysOf a))), ?_⟩
  have h1 : Verif.Label.insertLoop d st (a.map fun p => encKey p.1 p.2) = .ok st1 := h1
  simp only [insertDoc, h1, keysOf]

theorem delete_not_err {st : Store} {P : Nat → Bytes → Prop} {R : Docs} (h : FInv st P R) (d : Nat) :
    ∃ st', deleteDoc st d = .ok st' := by
  rw [deleteDoc, h.rev]
  cases hD : R d with
  | none => exact ⟨st, rfl⟩
  | some a =>
    obtain ⟨hd, ha⟩ := h.small d a hD
    obtain ⟨st1, h1, _⟩ := Verif.Label.deleteLoop_spec hd (keysOf a) (keysOf_not_rev a) st P h.post h.nodup
    have hdes := deserKeys_keysOf ha
    refine ⟨sdel st1 (revKey d), ?_⟩
    show Verif.Label.deleteKeys st d (deserKeys (serKeys (keysOf a))) = _
    rw [hdes, Verif.Label.deleteKeys, h1, dropRev]

/-- With a store that refuses nothing, enough working calls complete an operation. -/
theorem attempt_never_stuck {D : Docs} {o : IOp} {st : Store} {P : Nat → Bytes → Prop} {R : Docs}
    (h : Mid D o st P R) (ho : OpOk D o) :
    ∃ c, ∀ m, ∃ st2 m', attempt (fun _ _ => true) (m + c) st o = (st2, .ok m') := by
  cases o with
  | insert d a =>
    obtain ⟨st', h1⟩ := insert_not_err h.inv (a := a) ho.1
    obtain ⟨c, hc⟩ := insert_enough h1
    exact ⟨c, fun m => ⟨st', m, hc m⟩⟩
  | delete d =>
    obtain ⟨st', h1⟩ := delete_not_err h.inv d
    obtain ⟨c, hc⟩ := delete_enough h1
    exact ⟨c, fun m => ⟨st', m, hc m⟩⟩
  | update d a =>
    obtain ⟨st1, h1⟩ := delete_not_err h.inv d
    obtain ⟨c1, hc1⟩ := delete_enough h1
    obtain ⟨_, _, h3⟩ := delete_mid h (fun _ _ => true) (0 + c1)
    simp only [docOf] at h3
    rw [hc1] at h3
    obtain ⟨P', R', h4, _⟩ := h3 (by simp)
    obtain ⟨st2, h5⟩ := insert_not_err h4 (a := a) ho.1
    obtain ⟨c2, hc2⟩ := insert_enough h5
    refine ⟨c2 + c1, fun m => ⟨st2, m, ?_⟩⟩
    rw [attempt, update, ← Nat.add_assoc, hc1]
    exact hc2 m

theorem insertLoop_full (fits : Bytes → Cell → Bool) (doc : Nat) (key : Bytes) {ids : List Nat}
    (hf : fits key (.pl (plInsert ids doc)) = false) (keys : List Bytes) (hn : keys.Nodup) (hk : key ∈ keys)
    (n : Nat) (st : Store) (hg : getOrEmpty st key = .ok ids) :
    ∀ m, (insertLoop fits doc keys n st).2 ≠ .ok m := by
  induction keys generalizing n st with
  | nil => simp at hk
  | cons k ks ih =>
    cases n with
    | zero => simp [insertLoop]
    | succ n =>
      rw [insertLoop]
      cases hg' : getOrEmpty st k with
      | err => simp
      | panic => simp
      | ok ids' =>
        cases n with
        | zero => simp [setF, Out.andThen]
        | succ n =>
          by_cases hkk : k = key
          · subst hkk
            rw [hg] at hg'
            simp only [Res.ok.injEq] at hg'
            subst hg'
            simp [setF, Out.andThen, hf]
          · simp only [setF]
            split
            · simp only [Out.andThen]
              refine ih (List.nodup_cons.1 hn).2 ?_ n _ ?_
              · rcases List.mem_cons.1 hk with e | e
                · exact absurd e.symm hkk
                · exact e
              · rw [getOrEmpty, sget_sset, if_neg (fun e => hkk e.symm), ← getOrEmpty]
                exact hg
            · simp [Out.andThen]

end Verif.Label.Fault
