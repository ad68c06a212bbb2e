import Verif.Runbook.ManagedProps
import Verif.Runbook.TruthSpec
import Verif.Tools.TruthProps

/-! # C98: the ground truth of a runbook

The files written for the search stages hold the nearest active tags, with the vectors the tags have at that moment. -/

namespace Verif.Runbook

open Spec Verif.Queue Verif.Tools Verif.Disk

variable {V Q D : Type} [LinearOrder D]

/-! ### The map of ids -/

theorem mem_erase {m : IdMap} {e : Nat} {x : Nat × Nat} : x ∈ m.erase e ↔ x ∈ m ∧ x.1 ≠ e := by
  unfold IdMap.erase; simp

theorem mem_set {m : IdMap} {e i : Nat} {x : Nat × Nat} : x ∈ m.set e i ↔ (x ∈ m ∧ x.1 ≠ e) ∨ x = (e, i) := by
  unfold IdMap.set; rw [List.mem_append, mem_erase, List.mem_singleton]

theorem erase_keys {m : IdMap} {e : Nat} (h : (m.map (·.1)).Nodup) : ((m.erase e).map (·.1)).Nodup :=
  h.sublist (List.filter_sublist.map _)

theorem set_keys {m : IdMap} {e i : Nat} (h : (m.map (·.1)).Nodup) : ((m.set e i).map (·.1)).Nodup := by
  unfold IdMap.set
  rw [List.map_append, List.nodup_append]
  refine ⟨erase_keys h, by simp, ?_⟩
  intro a ha b hb
  obtain ⟨x, hx, rfl⟩ := List.mem_map.1 ha
  rw [show b = e by simpa using hb]
  exact (mem_erase.1 hx).2

/-- The map follows the table: its keys are the active tags, and the entry of a tag is the place of its vector. -/
structure Follows (data : List V) (m : IdMap) (M : Nat → Option V) (A : Finset Nat) : Prop where
  keys : (m.map (·.1)).Nodup
  dom : ∀ t, t ∈ A ↔ ∃ i, (t, i) ∈ m
  val : ∀ t i, (t, i) ∈ m → ∃ v, data[i]? = some v ∧ M t = some v
  small : ∀ t ∈ A, t < 2 ^ 32

theorem Follows.erase {data : List V} {m M A} (h : Follows data m M A) (t : Nat) :
    Follows data (m.erase t) (Function.update M t none) (A.erase t) where
  keys := erase_keys h.keys
  dom u := by
    rw [Finset.mem_erase, h.dom]
    constructor
    · rintro ⟨e, i, hi⟩; exact ⟨i, mem_erase.2 ⟨hi, e⟩⟩
    · rintro ⟨i, hi⟩; exact ⟨(mem_erase.1 hi).2, i, (mem_erase.1 hi).1⟩
  val u i hi := by
    obtain ⟨h1, h2⟩ := mem_erase.1 hi
    obtain ⟨v, e1, e2⟩ := h.val u i h1
    exact ⟨v, e1, by rw [upd_ne _ _ h2, e2]⟩
  small u hu := h.small u (Finset.mem_of_mem_erase hu)

theorem Follows.set {data : List V} {m M A} (h : Follows data m M A) {t i : Nat} {v : V} (hv : data[i]? = some v)
    (ht : t < 2 ^ 32) : Follows data (m.set t i) (Function.update M t (some v)) (insert t A) where
  keys := set_keys h.keys
  dom u := by
    rw [Finset.mem_insert, h.dom]
    constructor
    · rintro (rfl | ⟨j, hj⟩)
      · exact ⟨i, mem_set.2 (Or.inr rfl)⟩
      · by_cases e : u = t
        · subst e; exact ⟨i, mem_set.2 (Or.inr rfl)⟩
        · exact ⟨j, mem_set.2 (Or.inl ⟨hj, e⟩)⟩
    · rintro ⟨j, hj⟩
      rcases mem_set.1 hj with ⟨hj, -⟩ | hj
      · exact Or.inr ⟨j, hj⟩
      · cases hj; exact Or.inl rfl
  val u j hj := by
    rcases mem_set.1 hj with ⟨hj, e⟩ | hj
    · obtain ⟨w, e1, e2⟩ := h.val u j hj
      exact ⟨w, e1, by rw [upd_ne _ _ e, e2]⟩
    · cases hj
      exact ⟨v, hv, upd_same ..⟩
  small u hu := by
    rcases Finset.mem_insert.1 hu with rfl | hu
    · exact ht
    · exact h.small u hu

theorem low32_of {n : Nat} (h : n < 2 ^ 32) : low32 n = n := Nat.mod_eq_of_lt h

theorem Follows.deleteAll {data : List V} : ∀ (ts : List Nat) (m : IdMap) (M : Nat → Option V) (A : Finset Nat),
    Follows data m M A → (∀ t ∈ ts, t < 2 ^ 32) →
    Follows data (ts.foldl (fun m e => m.erase (low32 e)) m) (clearTags M ts) (A \ ts.toFinset) := by
  intro ts
  induction ts with
  | nil => intro m M A h _; simpa [clearTags] using h
  | cons t ts ih =>
    intro m M A h hs
    have := ih _ _ _ (h.erase t) fun u hu => hs u (List.mem_cons_of_mem _ hu)
    have hA : A.erase t \ ts.toFinset = A \ (t :: ts).toFinset := by
      ext u; simp only [Finset.mem_sdiff, Finset.mem_erase, List.toFinset_cons, Finset.mem_insert]; tauto
    rw [List.foldl_cons, low32_of (hs t List.mem_cons_self), ← hA]
    exact this

theorem Follows.putAll {data : List V} : ∀ (n lo o : Nat) (m : IdMap) (M : Nat → Option V) (A : Finset Nat),
    Follows data m M A → o + n ≤ data.length → (∀ t, lo ≤ t → t < lo + n → t < 2 ^ 32) →
    Follows data (((List.range' o n).zip (List.range' lo n)).foldl (IdMap.put data.length) m)
      (setTags M ((List.range' lo n).zip ((data.drop o).take n))) (A ∪ (List.range' lo n).toFinset) := by
  intro n
  induction n with
  | zero => intro lo o m M A h _ _; simpa [setTags] using h
  | succ n ih =>
    intro lo o m M A h hlen hs
    have ho : o < data.length := by omega
    have hv : data[o]? = some data[o] := List.getElem?_eq_getElem ho
    have step := h.set (t := lo) hv (hs lo (le_refl _) (by omega))
    have := ih (lo + 1) (o + 1) _ _ _ step (by omega) (fun t h1 h2 => hs t (by omega) (by omega))
    have hd : (data.drop o).take (n + 1) = data[o] :: (data.drop (o + 1)).take n := by
      rw [List.drop_eq_getElem_cons ho, List.take_succ_cons]
    have hA : insert lo A ∪ (List.range' (lo + 1) n).toFinset = A ∪ (List.range' lo (n + 1)).toFinset := by
      ext u; simp only [Finset.mem_union, Finset.mem_insert, List.range'_succ, List.toFinset_cons]; tauto
    have hp : m.put data.length (o, lo) = m.set lo o := by
      unfold IdMap.put
      rw [if_pos ho, low32_of (hs lo (le_refl _) (by omega))]
    rw [← hA, hd, List.range'_succ, List.range'_succ (s := lo), List.zip_cons_cons, List.zip_cons_cons, List.foldl_cons, hp]
    exact this

/-! ### One search -/

theorem isNearest_perm {k : Nat} {a b : List (Nat × Option D)} {row : List (Nat × D)} (h : a.Perm b)
    (hr : IsNearest k a row) : IsNearest k b row := by
  have hc : (comparable a).Perm (comparable b) := h.filterMap _
  obtain ⟨h1, h2, rej, h3, h4⟩ := hr
  exact ⟨by rw [h1, hc.length_eq], h2, rej, h3.trans hc, h4⟩

theorem Follows.pairs {data : List V} {m M A} (h : Follows data m M A) (dist : V → Q → Option D) (q : Q) :
    ∃ xs, collect (entryDistance data dist q) m = some xs ∧ xs.Perm (distances dist q M A) := by
  have key : ∀ l : List (Nat × Nat), (∀ x ∈ l, x ∈ m) → collect (entryDistance data dist q) l =
      some ((l.map (·.1)).filterMap fun t => (M t).map fun v => (t, dist v q)) := by
    intro l
    induction l with
    | nil => intro _; rfl
    | cons x l ih =>
      intro hl
      obtain ⟨v, e1, e2⟩ := h.val x.1 x.2 (hl x List.mem_cons_self)
      have i := ih fun y hy => hl y (List.mem_cons_of_mem _ hy)
      have hx : entryDistance data dist q x = some (x.1, dist v q) := by unfold entryDistance; rw [e1]; rfl
      have hcons : (((x :: l).map (·.1)).filterMap fun t => (M t).map fun v => (t, dist v q)) =
          (x.1, dist v q) :: ((l.map (·.1)).filterMap fun t => (M t).map fun v => (t, dist v q)) := by
        rw [List.map_cons, List.filterMap_cons_some (by rw [e2]; rfl)]
      rw [hcons]
      simp only [collect, hx, i]
  refine ⟨_, key m fun _ h => h, ?_⟩
  unfold distances
  refine List.Perm.filterMap _ ?_
  rw [List.perm_ext_iff_of_nodup h.keys (Finset.sort_nodup A _)]
  intro t
  rw [Finset.mem_sort, h.dom, List.mem_map]
  constructor
  · rintro ⟨⟨u, i⟩, hx, rfl⟩; exact ⟨i, hx⟩
  · rintro ⟨i, hi⟩; exact ⟨(t, i), hi, rfl⟩

theorem Follows.perm {data : List V} {m m' M A} (h : Follows data m M A) (hp : m'.Perm m) : Follows data m' M A where
  keys := (hp.map _).nodup_iff.2 h.keys
  dom t := by rw [h.dom]; simp only [hp.mem_iff]
  val t i hi := h.val t i (hp.mem_iff.1 hi)
  small := h.small

theorem Follows.card {data : List V} {m M A} (h : Follows data m M A) : m.length = A.card := by
  have : A = (m.map (·.1)).toFinset := by
    ext t
    rw [List.mem_toFinset, h.dom, List.mem_map]
    constructor
    · rintro ⟨i, hi⟩; exact ⟨(t, i), hi, rfl⟩
    · rintro ⟨⟨u, i⟩, hx, rfl⟩; exact ⟨i, hx⟩
  rw [this, List.toFinset_card_of_nodup h.keys, List.length_map]

theorem distances_comparable {dist : V → Q → Option D} (htot : ∀ v q, dist v q ≠ none) {M : Nat → Option V} {A : Finset Nat}
    (hM : ∀ t ∈ A, M t ≠ none) (q : Q) : (comparable (distances dist q M A)).length = A.card := by
  rw [← Finset.length_sort (s := A) (· ≤ ·)]
  unfold distances
  have : ∀ l : List Nat, (∀ t ∈ l, t ∈ A) →
      (comparable (l.filterMap fun t => (M t).map fun v => (t, dist v q))).length = l.length := by
    intro l
    induction l with
    | nil => intro _; rfl
    | cons t l ih =>
      intro hl
      obtain ⟨v, hv⟩ := Option.ne_none_iff_exists'.1 (hM t (hl t List.mem_cons_self))
      obtain ⟨d, hd⟩ := Option.ne_none_iff_exists'.1 (htot v q)
      rw [List.filterMap_cons_some (b := (t, some d)) (by rw [hv, Option.map_some, hd])]
      unfold comparable at ih ⊢
      rw [List.filterMap_cons_some (by rfl), List.length_cons, List.length_cons,
        ih fun u hu => hl u (List.mem_cons_of_mem _ hu)]
  exact this _ fun t ht => (Finset.mem_sort _).1 ht

theorem queues_spec (pad : D) (data : List V) (dist : V → Q → Option D) (k : Nat) (hk : 1 ≤ k) (entries : List (Nat × Nat))
    (c : Q → List (Nat × Option D)) (hc : ∀ q, collect (entryDistance data dist q) entries = some (c q)) (queries : List Q) :
    ∃ slots : List (Slot Q D), queryQueues pad data dist k entries queries = .ok (slots.map (·.2)) ∧
      slots.map (·.1) = queries ∧ ∀ s ∈ slots, feed pad (Queue.new k) (c s.1) = some s.2 := by
  induction queries with
  | nil => exact ⟨[], rfl, rfl, by simp⟩
  | cons q qs ih =>
    obtain ⟨slots, e1, e2, e3⟩ := ih
    obtain ⟨nq, h1, -⟩ := C01_queue_best_l pad k hk (c q)
    refine ⟨(q, nq) :: slots, ?_, by rw [List.map_cons, e2], ?_⟩
    · have : queryQueue pad data dist k entries q = .ok nq := by
        unfold queryQueue
        rw [hc q]
        dsimp only
        rw [h1]
      simp only [queryQueues, this, e1, List.map_cons]
    · intro s hs
      rcases List.mem_cons.1 hs with rfl | hs
      · exact h1
      · exact e3 s hs

/-- A search on a map that follows the table. -/
theorem search_spec (pad : D) (bits : D → Nat) (data : List V) (dist : V → Q → Option D) (htot : ∀ v q, dist v q ≠ none)
    (hbits : ∀ d, bits d < 2 ^ 32) (queries : List Q) (k : Nat) (hk : 1 ≤ k) (hk' : k < 2 ^ 32)
    (hq : queries.length < 2 ^ 32) (hsz : 2 * queries.length * k * 4 + 8 < 2 ^ 64) (order : IdMap → IdMap)
    (hord : ∀ m, (order m).Perm m) {m : IdMap} {M : Nat → Option V} {A : Finset Nat} (h : Follows data m M A)
    (hA : k ≤ A.card) (path : List Char) :
    ∃ file, truthSearch pad bits data dist queries k order m path = .ok (m, some (path, file)) ∧
      IsTruth bits dist queries k M A file := by
  have ho := h.perm (hord m)
  choose c hc1 hc2 using fun q => ho.pairs dist q
  obtain ⟨slots, e1, e2, e3⟩ := queues_spec pad data dist k hk (order m) c hc1 queries
  obtain ⟨rows, d1, d2, d3⟩ := drainAll_spec pad k hk (fun _ q => c q) 0 slots
    (fun i s hs => e3 s (List.mem_of_getElem? hs))
  have hlen : slots.length = queries.length := by rw [← e2, List.length_map]
  have hM : ∀ t ∈ A, M t ≠ none := by
    intro t ht
    obtain ⟨i, hi⟩ := (h.dom t).1 ht
    obtain ⟨v, -, hv⟩ := h.val t i hi
    rw [hv]; simp
  have hrow : ∀ (i : Nat) (q : Q), queries[i]? = some q → rows[i]? = some (bestOf k (c q)) := by
    intro i q hq
    rw [← e2, List.getElem?_map] at hq
    cases hs : slots[i]? with
    | none => rw [hs] at hq; cases hq
    | some s =>
      rw [hs] at hq
      cases hq
      exact d3 i s hs
  have hk2 : ∀ q, (bestOf k (c q)).length = k := by
    intro q
    rw [(C01_bestOf_meaning _ _).2.1]
    have : (comparable (c q)).length = A.card := by
      rw [← distances_comparable htot hM q]
      exact ((hc2 q).filterMap _).length_eq
    omega
  have hrows : ∀ r ∈ rows, ∃ q, r = bestOf k (c q) := by
    intro r hr
    obtain ⟨i, hi, rfl⟩ := List.getElem_of_mem hr
    have := hrow i queries[i] (List.getElem?_eq_getElem (by omega))
    rw [List.getElem?_eq_getElem hi] at this
    exact ⟨_, Option.some.inj this⟩
  have hflat : rows.flatten.length = queries.length * k := by
    rw [flatten_length_const k rows (fun r hr => by obtain ⟨q, rfl⟩ := hrows r hr; exact hk2 q), d2, hlen]
  have hids : ∀ x ∈ rows.flatten, x.1 < 2 ^ 32 := by
    intro x hx
    obtain ⟨r, hr, hxr⟩ := List.mem_flatten.1 hx
    obtain ⟨q, rfl⟩ := hrows r hr
    obtain ⟨-, -, rej, hp, -⟩ := C01_bestOf_meaning k (c q)
    have hmem : x ∈ comparable (distances dist q M A) :=
      ((hc2 q).filterMap _).mem_iff.1 (hp.mem_iff.1 (List.mem_append_left _ hxr))
    unfold comparable distances at hmem
    obtain ⟨y, hy, hyx⟩ := List.mem_filterMap.1 hmem
    obtain ⟨t, ht, hty⟩ := List.mem_filterMap.1 hy
    obtain ⟨v, -, rfl⟩ := Option.map_eq_some_iff.1 hty
    obtain ⟨d, -, rfl⟩ := Option.map_eq_some_iff.1 hyx
    exact h.small t ((Finset.mem_sort _).1 ht)
  refine ⟨leEncode 4 queries.length ++ leEncode 4 k ++ words (rows.flatten.map (·.1)) ++
    words (rows.flatten.map (fun x => bits x.2)), ?_, rows, by omega, ?_, ?_⟩
  · unfold truthSearch
    rw [if_neg (by rw [h.card]; omega), e1]
    show (truthBytes bits queries.length k (slots.map (·.2))).bind _ = _
    unfold truthBytes writeTruth metadataBytes
    rw [if_pos ⟨hq, hk'⟩, d1]
    simp only [idPart]
    rw [exactWords_ok _ _ (by rw [List.length_map]; exact hflat), exactWords_ok _ _ (by rw [List.length_map]; exact hflat)]
    rfl
  · apply loadTruth_full _ _ _ _ hq hk' hsz (by rw [List.length_map]; exact hflat) (by rw [List.length_map]; exact hflat)
    · intro x hx
      obtain ⟨y, hy, rfl⟩ := List.mem_map.1 hx
      exact hids y hy
    · intro x hx
      obtain ⟨y, -, rfl⟩ := List.mem_map.1 hx
      exact hbits _
  · intro i q hq
    exact ⟨_, hrow i q hq, hk2 q, isNearest_perm (hc2 q) (isNearest_bestOf _ _)⟩

/-! ### Runs -/

theorem truth_run (pad : D) (bits : D → Nat) (data : List V) (dist : V → Q → Option D) (htot : ∀ v q, dist v q ≠ none)
    (hbits : ∀ d, bits d < 2 ^ 32) (queries : List Q) (k : Nat) (hk : 1 ≤ k) (hk' : k < 2 ^ 32)
    (hq : queries.length < 2 ^ 32) (hsz : 2 * queries.length * k * 4 + 8 < 2 ^ 64) (order : IdMap → IdMap)
    (hord : ∀ m, (order m).Perm m) (stages : List Stage) : ∀ (m : IdMap) (M : Nat → Option V) (A : Finset Nat)
    (As : List (Finset Nat)), Follows data m M A → history A stages = some As → Covered data k A stages →
    (∀ g ∈ stages, NonEmpty g) →
    ∃ outs m', (truthStream pad bits data dist queries k order).run m stages = (outs, .ok m') ∧
      WrittenAll bits data dist queries k M A stages outs := by
  induction stages with
  | nil =>
    intro m M A As _ _ _ _
    exact ⟨[], m, rfl, rfl⟩
  | cons g gs ih =>
    intro m M A As h hh hc hne
    obtain ⟨B, Bs, h1, h2, rfl⟩ := history_cons hh
    have hne' : ∀ g ∈ gs, NonEmpty g := fun x hx => hne x (List.mem_cons_of_mem _ hx)
    have hg := hne g List.mem_cons_self
    have step : ∀ m' out, (truthStream pad bits data dist queries k order).stage m g = .ok (m', out) →
        Written bits dist queries k M A out g → Follows data m' (table data M g) B →
        ∃ outs m', (truthStream pad bits data dist queries k order).run m (g :: gs) = (outs, .ok m') ∧
          WrittenAll bits data dist queries k M A (g :: gs) outs := by
      intro m' out e1 e2 e3
      obtain ⟨outs, m2, i1, i2⟩ := ih m' _ B Bs e3 h2 (hc.2 B h1) hne'
      refine ⟨out :: outs, m2, ?_, out, outs, rfl, e2, ?_⟩
      · rw [run_plain _ _ _ _ rfl]
        unfold Stream.perform
        rw [e1]
        show ([] ++ out :: ((truthStream pad bits data dist queries k order).run m' gs).1,
          ((truthStream pad bits data dist queries k order).run m' gs).2) = _
        rw [i1]
        rfl
      · intro B' hB'
        rw [h1] at hB'
        cases hB'
        exact i2
    cases g with
    | search path =>
      cases h1
      obtain ⟨file, e1, e2⟩ := search_spec pad bits data dist htot hbits queries k hk hk' hq hsz order hord h hc.1 path
      exact step m (some (path, file)) e1 ⟨file, rfl, e2⟩ h
    | insert r =>
      obtain ⟨⟨c1, c2⟩, -⟩ := hc
      have hg : r.lo < r.hi := hg
      have hB : B = A ∪ tags r := by
        simp only [after] at h1
        split at h1
        · cases h1; rfl
        · cases h1
      subst hB
      refine step (truthInsert data.length m r) none rfl rfl ?_
      have := Follows.putAll (r.hi - r.lo) r.lo r.lo m M A h (by omega) (fun t _ h => by omega)
      have hM : table data M (.insert r) =
          setTags M ((List.range' r.lo (r.hi - r.lo)).zip ((data.drop r.lo).take (r.hi - r.lo))) := by
        funext t
        show (if t ∈ tags r then data[t]? else M t) = _
        rw [setTags_zip _ _ _ _ (subview_some hg.le c1).2]
        by_cases ht : t ∈ tags r
        · have := mem_tags.1 ht
          rw [if_pos ht, if_pos (by omega), sub_getElem? _ _ _ _ (by omega), show r.lo + (t - r.lo) = t by omega]
        · have : ¬ (r.lo ≤ t ∧ t < r.hi) := fun hh => ht (mem_tags.2 hh)
          rw [if_neg ht, if_neg (by omega)]
      rw [hM, ← toFinset_tagsOf]
      exact this
    | replace o r =>
      obtain ⟨⟨c1, c2⟩, -⟩ := hc
      have hg : o.lo < o.hi ∧ r.lo < r.hi := hg
      have hB : tags r ⊆ A ∧ B = A := by
        simp only [after] at h1
        split at h1
        · cases h1; exact ⟨by assumption, rfl⟩
        · cases h1
      obtain ⟨hsub, rfl⟩ := hB
      have hsm : ∀ t ∈ tagsOf r, t < 2 ^ 32 := fun t ht => h.small t (hsub (mem_tagsOf.1 ht))
      refine step (truthReplace data.length m o r) none rfl rfl ?_
      have hd := Follows.deleteAll (tagsOf r) m M B h hsm
      have := Follows.putAll (r.hi - r.lo) r.lo o.lo _ _ _ hd (by omega)
        (fun t h1 h2 => hsm t (mem_tagsOf.2 (mem_tags.2 ⟨h1, by omega⟩)))
      have hM : table data M (.replace o r) =
          setTags (clearTags M (tagsOf r)) ((List.range' r.lo (r.hi - r.lo)).zip ((data.drop o.lo).take (r.hi - r.lo))) := by
        funext t
        show (if t ∈ tags r then data[o.lo + (t - r.lo)]? else M t) = _
        rw [setTags_zip _ _ _ _ (by rw [← c2]; exact (subview_some hg.1.le c1).2)]
        by_cases ht : t ∈ tags r
        · have := mem_tags.1 ht
          rw [if_pos ht, if_pos (by omega), sub_getElem? _ _ _ _ (by omega)]
        · have : ¬ (r.lo ≤ t ∧ t < r.hi) := fun hh => ht (mem_tags.2 hh)
          rw [if_neg ht, if_neg (by omega), clearTags_eq, if_neg (fun hh => ht (mem_tagsOf.1 hh))]
      have hA : B \ (tagsOf r).toFinset ∪ (List.range' r.lo (r.hi - r.lo)).toFinset = B := by
        show B \ (tagsOf r).toFinset ∪ (tagsOf r).toFinset = B
        rw [toFinset_tagsOf]
        exact Finset.sdiff_union_of_subset hsub
      rw [hA] at this
      rw [hM]
      unfold truthReplace
      have ho : tagsOf o = List.range' o.lo (r.hi - r.lo) := by unfold tagsOf; rw [c2]
      rw [ho]
      exact this
    | delete r =>
      have hB : tags r ⊆ A ∧ B = A \ tags r := by
        simp only [after] at h1
        split at h1
        · cases h1; exact ⟨by assumption, rfl⟩
        · cases h1
      obtain ⟨hsub, rfl⟩ := hB
      refine step (truthDelete m r) none rfl rfl ?_
      have hd := Follows.deleteAll (tagsOf r) m M A h (fun t ht => h.small t (hsub (mem_tagsOf.1 ht)))
      have hM : table data M (.delete r) = clearTags M (tagsOf r) := by
        funext t
        rw [clearTags_eq]
        show (if t ∈ tags r then none else M t) = _
        by_cases ht : t ∈ tags r
        · rw [if_pos ht, if_pos (mem_tagsOf.2 ht)]
        · rw [if_neg ht, if_neg (fun hh => ht (mem_tagsOf.1 hh))]
      rw [hM, ← toFinset_tagsOf]
      exact hd

/-- C98. On a valid runbook that the data covers the tool runs to its end, and the file of every search holds, for every
query, the `k` nearest of the tags active at that stage, measured with the vectors they have at that stage. -/
theorem C98_truth (pad : D) (bits : D → Nat) (data : List V) (dist : V → Q → Option D) (htot : ∀ v q, dist v q ≠ none)
    (hbits : ∀ d, bits d < 2 ^ 32) (queries : List Q) (k : Nat) (hk : 1 ≤ k) (hk' : k < 2 ^ 32)
    (hq : queries.length < 2 ^ 32) (hsz : 2 * queries.length * k * 4 + 8 < 2 ^ 64) (order : IdMap → IdMap)
    (hord : ∀ m, (order m).Perm m) (stages : List Stage) (hne : ∀ g ∈ stages, NonEmpty g) (As : List (Finset Nat))
    (hist : history ∅ stages = some As) (hcov : Covered data k ∅ stages) :
    ∃ outs m, (truthStream pad bits data dist queries k order).run [] stages = (outs, .ok m) ∧
      WrittenAll bits data dist queries k (fun _ => none) ∅ stages outs :=
  truth_run pad bits data dist htot hbits queries k hk hk' hq hsz order hord stages [] _ ∅ As
    ⟨List.nodup_nil, by simp, by simp, by simp⟩ hist hcov hne

/-- C98. A search with fewer active tags than neighbours asked for is an error; what was written before stays. -/
theorem C98_too_few (pad : D) (bits : D → Nat) (data : List V) (dist : V → Q → Option D) (queries : List Q) (k : Nat)
    (order : IdMap → IdMap) (m : IdMap) (hm : m.length < k) (path : List Char) (gs : List Stage) :
    (truthStream pad bits data dist queries k order).run m (.search path :: gs) = ([], .err) := by
  rw [run_plain _ _ _ _ rfl]
  unfold Stream.perform
  rw [show (truthStream pad bits data dist queries k order).stage m (.search path) = .err from if_pos hm]

example : ([(3, 0)] : IdMap).length < 2 := by decide

/-! ### Cases -/

def exDist (a b : Int) : Option Nat := some (a - b).natAbs

/-- The nearest two of the tags 0, 2 and 3, of which 0 has the vector 40 by then. -/
def exTruthStages : List Stage := [.insert ⟨0, 3⟩, .delete ⟨1, 2⟩, .insert ⟨3, 4⟩, .replace ⟨4, 5⟩ ⟨0, 1⟩, .search ['s']]

def exVectors : List Int := [0, 10, 20, 30, 40]

theorem exTruth_covered : Covered exVectors 2 ∅ exTruthStages := by
  refine ⟨⟨by decide, by decide⟩, ?_⟩
  intro B hB
  have hB : B = {0, 1, 2} := by
    have : after ∅ (.insert ⟨0, 3⟩) = some {0, 1, 2} := by decide +kernel
    rw [this] at hB; exact (Option.some.inj hB).symm
  subst hB
  refine ⟨trivial, ?_⟩
  intro B hB
  have hB : B = {0, 2} := by
    have : after {0, 1, 2} (.delete ⟨1, 2⟩) = some {0, 2} := by decide +kernel
    rw [this] at hB; exact (Option.some.inj hB).symm
  subst hB
  refine ⟨⟨by decide, by decide⟩, ?_⟩
  intro B hB
  have hB : B = {0, 2, 3} := by
    have : after {0, 2} (.insert ⟨3, 4⟩) = some {0, 2, 3} := by decide +kernel
    rw [this] at hB; exact (Option.some.inj hB).symm
  subst hB
  refine ⟨⟨by decide, by decide⟩, ?_⟩
  intro B hB
  have hB : B = {0, 2, 3} := by
    have : after {0, 2, 3} (.replace ⟨4, 5⟩ ⟨0, 1⟩) = some {0, 2, 3} := by decide +kernel
    rw [this] at hB; exact (Option.some.inj hB).symm
  subst hB
  exact ⟨by decide, fun _ _ => trivial⟩

example : ∃ outs m, (truthStream 0 (· % 2 ^ 32) exVectors exDist [5, 50] 2 id).run [] exTruthStages = (outs, .ok m) ∧
    WrittenAll (· % 2 ^ 32) exVectors exDist [5, 50] 2 (fun _ => none) ∅ exTruthStages outs :=
  C98_truth 0 _ exVectors exDist (by intro v q; simp [exDist]) (fun d => Nat.mod_lt _ (by decide)) [5, 50] 2 (by decide)
    (by decide) (by decide) (by decide) id (fun m => .refl m) exTruthStages (by
      intro g hg
      simp only [exTruthStages, List.mem_cons, List.not_mem_nil, or_false] at hg
      rcases hg with rfl | rfl | rfl | rfl | rfl <;> simp [NonEmpty])
    [{0, 1, 2}, {0, 2}, {0, 2, 3}, {0, 2, 3}, {0, 2, 3}] (by decide +kernel) exTruth_covered

/-- The ids in the file of the last stage. -/
def lastIds {α : Type} (r : RunEnd α (Option (List Char × List Byte))) : Option (List Nat) :=
  match r.1.getLast? with
  | some (some (_, file)) =>
    match loadTruth file with
    | some (.ok t) => some t.ids
    | _ => none
  | _ => none

example : lastIds ((truthStream 0 (· % 2 ^ 32) exVectors exDist [5, 50] 2 id).run [] exTruthStages) = some [2, 3, 0, 3] := by
  decide +kernel

/-! ### What is not checked -/

/-- C98, refutation. Insertions beyond the data are ignored without an error: the file of a valid runbook names tag 4 as the
nearest to 60, although tag 5 was inserted as well. -/
theorem C98_short_data_ignored :
    history ∅ [.insert ⟨0, 6⟩, .search ['s']] = some [{0, 1, 2, 3, 4, 5}, {0, 1, 2, 3, 4, 5}] ∧
    lastIds ((truthStream 0 (· % 2 ^ 32) exVectors exDist [60] 1 id).run [] [.insert ⟨0, 6⟩, .search ['s']]) = some [4] := by
  decide +kernel

/-- C98, refutation. A replacement with fewer vectors than tags removes the other tags from the ground truth, although the
runbook is valid and they stay active: tag 2 is the nearest to 20 before, not after. -/
theorem C98_replacement_drops :
    history ∅ [.insert ⟨0, 3⟩, .replace ⟨0, 1⟩ ⟨1, 3⟩, .search ['s']] = some [{0, 1, 2}, {0, 1, 2}, {0, 1, 2}] ∧
    ((truthStream 0 (· % 2 ^ 32) exVectors exDist [20] 1 id).run [] [.insert ⟨0, 3⟩, .replace ⟨0, 1⟩ ⟨1, 3⟩, .search ['s']]).2 =
      .ok [(0, 0), (1, 0)] := by decide +kernel

/-- C98, refutation. Tags are cut to 32 bits: with more than 2^32 vectors, tag 2^32 replaces tag 0. -/
theorem C98_tags_cut (pad : D) (bits : D → Nat) (data : List V) (hd : 2 ^ 32 < data.length) (dist : V → Q → Option D)
    (queries : List Q) (k : Nat) (order : IdMap → IdMap) :
    history ∅ [.insert ⟨0, 1⟩, .insert ⟨2 ^ 32, 2 ^ 32 + 1⟩] = some [{0}, {0, 2 ^ 32}] ∧
    ((truthStream pad bits data dist queries k order).run [] [.insert ⟨0, 1⟩, .insert ⟨2 ^ 32, 2 ^ 32 + 1⟩]).2 =
      .ok [(0, 2 ^ 32)] := by
  refine ⟨by decide +kernel, ?_⟩
  have h1 : truthInsert data.length [] ⟨0, 1⟩ = [(0, 0)] := by
    show IdMap.put data.length [] (0, 0) = _
    unfold IdMap.put
    rw [if_pos (show 0 < data.length by omega)]
    rfl
  have h2 : truthInsert data.length [(0, 0)] ⟨2 ^ 32, 2 ^ 32 + 1⟩ = [(0, 2 ^ 32)] := by
    have : tagsOf ⟨2 ^ 32, 2 ^ 32 + 1⟩ = [2 ^ 32] := by decide +kernel
    unfold truthInsert
    rw [this]
    show IdMap.put data.length [(0, 0)] (2 ^ 32, 2 ^ 32) = _
    unfold IdMap.put
    rw [if_pos hd]
    rfl
  rw [run_plain _ _ _ _ rfl]
  show ((truthStream pad bits data dist queries k order).run (truthInsert data.length [] ⟨0, 1⟩) _).2 = _
  rw [h1, run_plain _ _ _ _ rfl]
  show ((truthStream pad bits data dist queries k order).run (truthInsert data.length [(0, 0)] ⟨2 ^ 32, 2 ^ 32 + 1⟩) []).2 = _
  rw [h2]
  rfl

example : ∃ data : List Unit, 2 ^ 32 < data.length := ⟨List.replicate (2 ^ 32 + 1) (), by rw [List.length_replicate]; decide⟩

end Verif.Runbook
