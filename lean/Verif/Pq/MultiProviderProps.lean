import Verif.Pq.MultiProviderModel
import Verif.Pq.DistMultiProps

/-!
# The provider with two product quantization schemas: theorems
-/

namespace Verif.Pq

open Verif.Vec Verif.Vec.Spec Verif.Pq.Spec

/-! ## Specification -/

section

variable {K : Type} [Field K] [LinearOrder K]

/-- A schema: pivots and the partition of the dimensions. -/
structure Plan (K : Type) where
  pivots : List (List K)
  offsets : Offsets

/-- A schema for vectors of dimension `dim` whose codes fit in bytes. -/
structure Plan.Ok (s : Plan K) (dim : Nat) : Prop where
  part : Partition s.offsets
  pos : 0 < s.pivots.length
  le : s.pivots.length ≤ 256
  width : s.offsets.dim = dim
  rows : ∀ p ∈ s.pivots, p.length = dim

/-- The schemas of a provider: a new one and perhaps an old one. -/
structure Plans (K : Type) where
  new : Plan K
  old : Option (Plan K)

/-- All schemas are for vectors of dimension `dim`. -/
structure Plans.Ok (s : Plans K) (dim : Nat) : Prop where
  new : s.new.Ok dim
  old : ∀ o, s.old = some o → Plan.Ok o dim

/-- Which schema a version names: 1 the only one; with two, 2 the new one and 1 the old one. -/
def Plans.named (s : Plans K) (version : Nat) : Option (Plan K) :=
  match s.old with
  | none => if version = 1 then some s.new else none
  | some o => if version = 2 then some s.new else if version = 1 then some o else none

/-- A fresh provider with these schemas. -/
def start (s : Plans K) (metric : Metric) (maxVectors startPoints : Nat) (split : Option K) : MultiProvider K :=
  MultiProvider.new metric maxVectors startPoints (table s.new.pivots s.new.offsets) (s.old.map (fun o => table o.pivots o.offsets)) split

/-- `code` is a best code for `x`: none stands for a vector closer to `x`. -/
def Best (s : Plan K) (x : List K) (code : List Nat) : Prop :=
  Code s.pivots s.offsets code ∧ ∀ c, Code s.pivots s.offsets c → sqDist x (decode s.pivots s.offsets code) ≤ sqDist x (decode s.pivots s.offsets c)

/-- The finite vector that floats are, if they are finite. -/
def finite (v : List (Fl K)) : Option (List K) :=
  v.mapM (fun e => match e with
    | .num a => some a
    | _ => none)

/-- The vector last stored under `id`, out of `n` ids and for dimension `dim`: calls with an id out of range, a wrong length or a
float that is not finite store nothing. -/
def lastStored (n dim : Nat) (id : Nat) : List (Nat × List (Fl K)) → Option (List K)
  | [] => none
  | (i, v) :: rest =>
    match lastStored n dim id rest with
    | some x => some x
    | none => if i = id ∧ i < n ∧ v.length = dim then finite v else none

/-- What a slot holds for a vector last stored: nothing is the empty code of version 0; else a best code, in the schema that the
version names. -/
def Holds (s : Plans K) (stored : Option (List K)) (slot : Versioned Nat) : Prop :=
  match stored with
  | none => slot = ⟨[], 0⟩
  | some x => ∃ plan, s.named slot.version = some plan ∧ Best plan x slot.data

/-- The vector a slot stands for. -/
def Plans.decoded (s : Plans K) (slot : Versioned Nat) : Option (List K) :=
  (s.named slot.version).map (fun plan => decode plan.pivots plan.offsets slot.data)

/-- Infinity for no distance. -/
def orInf (d : Option K) : Fl K :=
  match d with
  | none => .inf
  | some d => .num d

end

/-! ## Lemmas -/

section

variable {K : Type} [Field K] [LinearOrder K]

theorem toFl_table (P : List (List K)) (o : Offsets) : toFl (table P o) = ⟨mat (P.map fl) o.dim, o⟩ := by
  unfold toFl fl
  simp [Spec.mat, List.map_flatten, Function.comp_def]

theorem finite_some (v : List (Fl K)) (x : List K) (h : finite v = some x) : v = fl x := by
  induction v generalizing x with
  | nil =>
    simp only [finite, List.mapM_nil] at h
    cases h
    rfl
  | cons e v ih =>
    unfold finite at h
    rw [List.mapM_cons] at h
    cases e with
    | num a =>
      simp only [Option.bind_eq_bind, Option.bind_some] at h
      cases hv : v.mapM (fun e => match e with
        | Fl.num a => some a
        | _ => none) with
      | none => rw [hv] at h; simp at h
      | some y =>
        rw [hv] at h
        simp only [Option.bind_some, Option.pure_def, Option.some.injEq] at h
        subst h
        rw [ih y hv]
        rfl
    | inf => simp at h
    | ninf => simp at h
    | nan => simp at h

theorem finite_fl (x : List K) : finite (fl x) = some x := by
  induction x with
  | nil => rfl
  | cons a x ih =>
    unfold finite at ih ⊢
    unfold fl at ih ⊢
    rw [List.map_cons, List.mapM_cons, ih]
    rfl

theorem finite_none (v : List (Fl K)) (h : finite v = none) : NonFinite v := by
  induction v with
  | nil => simp [finite] at h
  | cons e v ih =>
    cases e with
    | num a =>
      have : finite v = none := by
        cases hv : finite v with
        | none => rfl
        | some y =>
          have := finite_some v y hv
          rw [this] at h
          have h2 := finite_fl (a :: y)
          rw [show fl (a :: y) = Fl.num a :: fl y from rfl, h] at h2
          exact absurd h2 (by simp)
      obtain ⟨e, he, h1⟩ := ih this
      exact ⟨e, by simp [he], h1⟩
    | inf => exact ⟨.inf, by simp, rfl⟩
    | ninf => exact ⟨.ninf, by simp, rfl⟩
    | nan => exact ⟨.nan, by simp, rfl⟩

end

section

variable {K : Type} [Field K] [LinearOrder K] [IsStrictOrderedRing K]

/-- The first chunk that is not finite. -/
theorem first_bad {s : Plan K} {dim : Nat} (hs : s.Ok dim) (v : List (Fl K)) (hl : v.length = dim) (h : NonFinite v) :
    ∃ i, i < s.offsets.len ∧ (∀ j, j < i → ∃ y, piece s.offsets j v = fl y) ∧ NonFinite (piece s.offsets i v) := by
  classical
  have hex : ∃ i, i < s.offsets.len ∧ NonFinite (piece s.offsets i v) := by
    obtain ⟨e, he, h1⟩ := h
    have hv := pieces_all hs.part v (by rw [hs.width, hl])
    rw [← hv] at he
    obtain ⟨i, hi, hm⟩ := List.mem_flatMap.1 he
    exact ⟨i, List.mem_range.1 hi, e, hm, h1⟩
  refine ⟨Nat.find hex, (Nat.find_spec hex).1, fun j hj => ?_, (Nat.find_spec hex).2⟩
  have hn := Nat.find_min hex hj
  have hlt : j < s.offsets.len := by have := (Nat.find_spec hex).1; omega
  cases hf : finite (piece s.offsets j v) with
  | none => exact absurd ⟨hlt, finite_none _ hf⟩ hn
  | some y => exact ⟨y, finite_some _ _ hf⟩

theorem compress_finite {s : Plan K} {dim : Nat} (hs : s.Ok dim) (x : List K) (hx : x.length = dim) :
    ∃ code, (toFl (table s.pivots s.offsets)).compressInto (fl x) (List.replicate s.offsets.len 0) = some (.ok code) ∧ Best s x code := by
  rw [toFl_table]
  obtain ⟨code, h1, h2, h3, _⟩ := C80_closest hs.part hs.pos (by rw [hs.width]; exact hs.rows) hs.le x (by rw [hs.width, hx])
    (List.replicate s.offsets.len 0) (by simp)
  exact ⟨code, h1, h2, h3⟩

theorem compress_bad {s : Plan K} {dim : Nat} (hs : s.Ok dim) (v : List (Fl K)) (hl : v.length = dim) (h : finite v = none) :
    ∃ i, (toFl (table s.pivots s.offsets)).compressInto v (List.replicate s.offsets.len 0) = some (.error (.infinityOrNaN i)) := by
  obtain ⟨i, h1, h2, h3⟩ := first_bad hs v hl (finite_none v h)
  refine ⟨i, ?_⟩
  rw [toFl_table]
  exact C79_basic_nonfinite hs.part hs.pos (by rw [hs.width]; exact hs.rows) hs.le ⟨mat (s.pivots.map fl) s.offsets.dim, s.offsets⟩ (by
    unfold Basic.new
    have := hs.pos
    rw [if_neg (by simp [mat]), if_neg (by simp [mat]; intro h; simp [h] at this)]) v (by rw [hs.width, hl])
    (List.replicate s.offsets.len 0) (by simp) i h1 h2 h3

end

/-! ## Invariant -/

section

variable {K : Type} [Field K] [LinearOrder K] [IsStrictOrderedRing K]

/-- A provider with the schemas, whose slots hold the stored vectors. -/
structure Inv (s : Plans K) (n : Nat) (stored : Nat → Option (List K)) (p : MultiProvider K) : Prop where
  tables : p.tableNew = table s.new.pivots s.new.offsets ∧ p.tableOld = s.old.map (fun o => table o.pivots o.offsets)
  size : p.maxVectors + p.startPoints = n ∧ p.vectors.length = n
  slots : ∀ id (h : id < p.vectors.length), Holds s (stored id) p.vectors[id]

omit [IsStrictOrderedRing K] in
theorem start_inv (s : Plans K) (metric : Metric) (a b : Nat) (split : Option K) :
    Inv s (a + b) (fun _ => none) (start s metric a b split) :=
  ⟨⟨rfl, rfl⟩, ⟨rfl, by simp [start, MultiProvider.new]⟩, fun id h => by
    simp [start, MultiProvider.new, Holds]⟩

/-- The schema that the next draw chooses, and its version. -/
def chosen (s : Plans K) (draws : Nat → K) (split : Option K) (drawn : Nat) : Plan K × Nat × Nat :=
  match s.old with
  | none => (s.new, 1, drawn)
  | some o => if (∃ t, split = some t ∧ draws drawn ≤ t) then (o, 1, drawn + 1) else (s.new, 2, drawn + 1)

omit [IsStrictOrderedRing K] [Field K] in
theorem drawsOld_iff (split : Option K) (v : K) : drawsOld split v = true ↔ ∃ t, split = some t ∧ v ≤ t := by
  cases split <;> simp [drawsOld]


theorem step (s : Plans K) {dim n : Nat} (hok : s.Ok dim) {stored : Nat → Option (List K)} {p : MultiProvider K}
    (hp : Inv s n stored p) (draws : Nat → K) (id : Nat) (v : List (Fl K)) :
    (n ≤ id → p.setVector draws id v = some (.error .outOfRange, p)) ∧
    (id < n → v.length ≠ dim → p.setVector draws id v = some (.error .dimension, p)) ∧
    (id < n → v.length = dim → finite v = none → ∃ i, p.setVector draws id v =
      some (.error (.compress (.infinityOrNaN i)), { p with drawn := (chosen s draws p.split p.drawn).2.2 })) ∧
    (id < n → v.length = dim → ∀ x, finite v = some x → ∃ code, Best (chosen s draws p.split p.drawn).1 x code ∧
      p.setVector draws id v = some (.ok (), { p with
        drawn := (chosen s draws p.split p.drawn).2.2
        vectors := p.vectors.set id ⟨code, (chosen s draws p.split p.drawn).2.1⟩ })) := by
  have hdim : p.tableNew.pivots.ncols = dim := by
    rw [hp.tables.1]
    exact hok.new.width
  have hch : p.choose draws = (table (chosen s draws p.split p.drawn).1.pivots (chosen s draws p.split p.drawn).1.offsets,
      (chosen s draws p.split p.drawn).2.1, (chosen s draws p.split p.drawn).2.2) := by
    unfold MultiProvider.choose chosen
    rw [hp.tables.2]
    cases s.old with
    | none => simp [hp.tables.1]
    | some o =>
      simp only [Option.map_some]
      by_cases hd : drawsOld p.split (draws p.drawn) = true
      · rw [if_pos hd, if_pos ((drawsOld_iff _ _).1 hd)]
      · rw [if_neg hd, if_neg (fun h => hd ((drawsOld_iff _ _).2 h)), hp.tables.1]
  have hco : (chosen s draws p.split p.drawn).1.Ok dim := by
    unfold chosen
    split
    · exact hok.new
    · rename_i o ho
      split
      · exact hok.old o ho
      · exact hok.new
  have hsz := hp.size
  unfold MultiProvider.setVector
  refine ⟨fun h => by rw [if_pos (by omega)], fun h hl => by rw [if_neg (by omega), if_pos (by rw [hdim]; exact hl)],
    fun h hl hf => ?_, fun h hl x hf => ?_⟩
  · rw [if_neg (by omega), if_neg (by rw [hdim]; simpa using hl), hch]
    obtain ⟨i, hi⟩ := compress_bad hco v hl hf
    exact ⟨i, by simp only; rw [hi]⟩
  · rw [if_neg (by omega), if_neg (by rw [hdim]; simpa using hl), hch]
    have hv := finite_some v x hf
    subst hv
    obtain ⟨code, h1, h2⟩ := compress_finite hco x (by simpa [fl] using hl)
    refine ⟨code, h2, ?_⟩
    simp only
    rw [h1]
    simp only
    rw [if_pos (by omega)]

omit [IsStrictOrderedRing K] in
theorem chosen_named (s : Plans K) (draws : Nat → K) (split : Option K) (drawn : Nat) :
    s.named (chosen s draws split drawn).2.1 = some (chosen s draws split drawn).1 := by
  unfold chosen Plans.named
  cases s.old with
  | none => simp
  | some o =>
    simp only
    split <;> simp

/-- What is stored after one more call. -/
def after (n dim : Nat) (stored : Nat → Option (List K)) (c : Nat × List (Fl K)) (id : Nat) : Option (List K) :=
  match (if c.1 = id ∧ c.1 < n ∧ c.2.length = dim then finite c.2 else none) with
  | some x => some x
  | none => stored id

theorem step_inv (s : Plans K) {dim n : Nat} (hok : s.Ok dim) {stored : Nat → Option (List K)} {p : MultiProvider K}
    (hp : Inv s n stored p) (draws : Nat → K) (id : Nat) (v : List (Fl K)) :
    ∃ r p', p.setVector draws id v = some (r, p') ∧ Inv s n (after n dim stored (id, v)) p' ∧ p'.split = p.split ∧
      p'.metric = p.metric := by
  obtain ⟨h1, h2, h3, h4⟩ := step s hok hp draws id v
  have same : (¬ (id < n ∧ v.length = dim) ∨ finite v = none) → after n dim stored (id, v) = stored := by
    intro h
    funext j
    unfold after
    rcases h with h | h
    · rw [if_neg (fun c => h c.2)]
    · simp only [h, ite_self]
  by_cases hid : id < n
  · by_cases hl : v.length = dim
    · cases hf : finite v with
      | none =>
        obtain ⟨i, hi⟩ := h3 hid hl hf
        refine ⟨_, _, hi, ?_, rfl, rfl⟩
        rw [same (Or.inr hf)]
        exact ⟨hp.tables, hp.size, hp.slots⟩
      | some x =>
        obtain ⟨code, hb, hi⟩ := h4 hid hl x hf
        refine ⟨_, _, hi, ⟨hp.tables, ⟨hp.size.1, by simpa using hp.size.2⟩, fun j hj => ?_⟩, rfl, rfl⟩
        simp only [List.length_set] at hj
        simp only [List.getElem_set]
        unfold after
        by_cases hij : id = j
        · subst hij
          rw [if_pos rfl, if_pos ⟨rfl, hid, hl⟩]
          simp only [hf]
          exact ⟨_, chosen_named s draws p.split p.drawn, hb⟩
        · rw [if_neg hij, if_neg (fun c => hij c.1)]
          exact hp.slots j hj
    · refine ⟨_, _, h2 hid hl, ?_, rfl, rfl⟩
      rw [same (Or.inl (fun c => hl c.2))]
      exact hp
  · refine ⟨_, _, h1 (by omega), ?_, rfl, rfl⟩
    rw [same (Or.inl (fun c => hid c.1))]
    exact hp

theorem run_inv (s : Plans K) {dim n : Nat} (hok : s.Ok dim) (draws : Nat → K) (ops : List (Nat × List (Fl K)))
    (stored : Nat → Option (List K)) (p : MultiProvider K) (hp : Inv s n stored p) :
    ∃ p', p.run draws ops = some p' ∧ Inv s n (fun id => match lastStored n dim id ops with
      | some x => some x
      | none => stored id) p' ∧ p'.split = p.split ∧ p'.metric = p.metric := by
  induction ops generalizing stored p with
  | nil => exact ⟨p, rfl, hp, rfl, rfl⟩
  | cons c ops ih =>
    obtain ⟨id, v⟩ := c
    obtain ⟨r, p1, h1, h2, h3, h4⟩ := step_inv s hok hp draws id v
    obtain ⟨p2, g1, g2, g3, g4⟩ := ih _ p1 h2
    refine ⟨p2, by unfold MultiProvider.run; rw [h1]; exact g1, ?_, by rw [g3, h3], by rw [g4, h4]⟩
    have he : (fun j => match lastStored n dim j ((id, v) :: ops) with
        | some x => some x
        | none => stored j) = (fun j => match lastStored n dim j ops with
        | some x => some x
        | none => after n dim stored (id, v) j) := by
      funext j
      unfold after
      cases hl : lastStored n dim j ops with
      | some x => simp [lastStored, hl]
      | none =>
        simp only [lastStored, hl]
    rw [he]
    exact g2

theorem reach_inv (s : Plans K) {dim : Nat} (hok : s.Ok dim) (metric : Metric) (a b : Nat) (split : Option K) (draws : Nat → K)
    (ops : List (Nat × List (Fl K))) (p : MultiProvider K) (h : (start s metric a b split).run draws ops = some p) :
    Inv s (a + b) (fun id => lastStored (a + b) dim id ops) p ∧ p.split = split ∧ p.metric = metric := by
  obtain ⟨p', h1, h2, h3, h4⟩ := run_inv s hok draws ops _ _ (start_inv s metric a b split)
  rw [h] at h1
  cases h1
  refine ⟨?_, h3, h4⟩
  have he : (fun id => match lastStored (a + b) dim id ops with
      | some x => some x
      | none => (none : Option (List K))) = fun id => lastStored (a + b) dim id ops := by
    funext id
    cases lastStored (a + b) dim id ops <;> rfl
  rw [he] at h2
  exact h2

/-! ## Theorems -/

/-- C132: whatever calls of `set_vector` were made, every id has the vector last stored under it, as a best code in the schema
that its version names; an id nothing was stored under has the empty code of version 0, and ids out of range are refused. -/
theorem C132_history (s : Plans K) {dim : Nat} (hok : s.Ok dim) (metric : Metric) (a b : Nat) (split : Option K)
    (draws : Nat → K) (ops : List (Nat × List (Fl K))) :
    ∃ p, (start s metric a b split).run draws ops = some p ∧
      (∀ id, id < a + b → ∃ slot, p.getVector id = .ok slot ∧ Holds s (lastStored (a + b) dim id ops) slot) ∧
      ∀ id, a + b ≤ id → p.getVector id = .error .outOfRange := by
  obtain ⟨p, h1, _⟩ := run_inv s hok draws ops _ _ (start_inv s metric a b split)
  obtain ⟨hp, _, _⟩ := reach_inv s hok metric a b split draws ops p h1
  refine ⟨p, h1, fun id h => ?_, fun id h => ?_⟩
  · have hl : id < p.vectors.length := by rw [hp.size.2]; exact h
    refine ⟨p.vectors[id], ?_, hp.slots id hl⟩
    unfold MultiProvider.getVector
    rw [List.getElem?_eq_getElem hl]
  · unfold MultiProvider.getVector
    rw [List.getElem?_eq_none (by rw [hp.size.2]; exact h)]

/-- C132: a finite vector of the right length is stored, under this id only, as a best code of the schema that the next random
number chooses: the old one if there is one and the number is at most the split, else the new one. With one schema no random
number is taken. -/
theorem C132_set (s : Plans K) {dim : Nat} (hok : s.Ok dim) (metric : Metric) (a b : Nat) (split : Option K)
    (draws : Nat → K) (ops : List (Nat × List (Fl K))) (p : MultiProvider K)
    (h : (start s metric a b split).run draws ops = some p) (id : Nat) (hid : id < a + b) (x : List K) (hx : x.length = dim) :
    ∃ p' code version plan, p.setVector draws id (fl x) = some (.ok (), p') ∧ p'.getVector id = .ok ⟨code, version⟩ ∧
      (∀ j, j ≠ id → p'.getVector j = p.getVector j) ∧ s.named version = some plan ∧ Best plan x code ∧
      (s.old = none → version = 1 ∧ p'.drawn = p.drawn) ∧
      (s.old ≠ none → p'.drawn = p.drawn + 1 ∧ (version = 1 ↔ ∃ t, split = some t ∧ draws p.drawn ≤ t) ∧
        (version = 2 ↔ ∀ t, split = some t → t < draws p.drawn)) := by
  obtain ⟨hp, hsplit, _⟩ := reach_inv s hok metric a b split draws ops p h
  obtain ⟨code, hb, hr⟩ := (step s hok hp draws id (fl x)).2.2.2 hid (by simpa [fl] using hx) x (finite_fl x)
  refine ⟨_, code, _, _, hr, ?_, fun j hj => ?_, chosen_named s draws p.split p.drawn, hb, fun ho => ?_, fun ho => ?_⟩
  · unfold MultiProvider.getVector
    have : id < p.vectors.length := by rw [hp.size.2]; exact hid
    simp [this]
  · unfold MultiProvider.getVector
    simp only
    rw [List.getElem?_set_ne (fun e => hj e.symm)]
  · unfold chosen
    rw [ho]
    exact ⟨rfl, rfl⟩
  · unfold chosen
    cases hold : s.old with
    | none => exact absurd hold ho
    | some o =>
      simp only
      rw [hsplit]
      by_cases hc : ∃ t, split = some t ∧ draws p.drawn ≤ t
      · simp only [if_pos hc]
        refine ⟨trivial, by simpa using hc, ?_⟩
        obtain ⟨t, h1, h2⟩ := hc
        simp only [show ¬ (1 = 2) by omega, false_iff]
        intro hall
        exact absurd (hall t h1) (not_lt.2 h2)
      · simp only [if_neg hc]
        refine ⟨trivial, by simpa using hc, ?_⟩
        simp only [true_iff]
        intro t ht
        exact not_le.1 (fun hle => hc ⟨t, ht, hle⟩)

/-- C132: an id out of range, a wrong length and, after these, a float that is not finite are refused with their errors; no
stored code changes, and the first two take no random number. -/
theorem C132_refused (s : Plans K) {dim : Nat} (hok : s.Ok dim) (metric : Metric) (a b : Nat) (split : Option K)
    (draws : Nat → K) (ops : List (Nat × List (Fl K))) (p : MultiProvider K)
    (h : (start s metric a b split).run draws ops = some p) (id : Nat) (v : List (Fl K)) :
    (a + b ≤ id → p.setVector draws id v = some (.error .outOfRange, p)) ∧
    (id < a + b → v.length ≠ dim → p.setVector draws id v = some (.error .dimension, p)) ∧
    (id < a + b → v.length = dim → NonFinite v → ∃ i p', p.setVector draws id v =
      some (.error (.compress (.infinityOrNaN i)), p') ∧ ∀ j, p'.getVector j = p.getVector j) := by
  obtain ⟨hp, _, _⟩ := reach_inv s hok metric a b split draws ops p h
  obtain ⟨h1, h2, h3, _⟩ := step s hok hp draws id v
  refine ⟨h1, h2, fun hi hl hn => ?_⟩
  have hf : finite v = none := by
    cases hf : finite v with
    | none => rfl
    | some x =>
      obtain ⟨e, he, hb⟩ := hn
      rw [finite_some v x hf] at he
      obtain ⟨a, _, rfl⟩ := List.mem_map.1 he
      simp [Fl.isFinite] at hb
  obtain ⟨i, hi⟩ := h3 hi hl hf
  exact ⟨i, _, hi, fun j => rfl⟩

/-- A slot whose data, if its version is known, is a code of the schema it names. -/
def SlotFits (s : Plans K) (slot : Versioned Nat) : Prop :=
  ∀ plan, s.named slot.version = some plan → Code plan.pivots plan.offsets slot.data

omit [IsStrictOrderedRing K] in
/-- What a provider holds fits. -/
theorem fits_of_holds (s : Plans K) (stored : Option (List K)) (slot : Versioned Nat) (h : Holds s stored slot) : SlotFits s slot := by
  intro plan hp
  cases stored with
  | none =>
    have : slot = ⟨[], 0⟩ := h
    subst this
    unfold Plans.named at hp
    cases hs : s.old <;> simp [hs] at hp
  | some x =>
    obtain ⟨plan', h1, h2, _⟩ := h
    rw [hp] at h1
    cases h1
    exact h2

/-- The two schemas as `Schemas`. -/
def both (s : Plans K) (o : Plan K) : Schemas K Nat := ⟨s.new.pivots, s.new.offsets, 2, o.pivots, o.offsets, 1⟩

omit [IsStrictOrderedRing K] in
theorem both_ok (s : Plans K) (o : Plan K) {dim : Nat} (hok : s.Ok dim) (ho : s.old = some o) : (both s o).Ok dim :=
  ⟨hok.new.part, (hok.old o ho).part, hok.new.width, (hok.old o ho).width, hok.new.rows, (hok.old o ho).rows,
    show (2 : Nat) ≠ 1 by decide⟩

omit [IsStrictOrderedRing K] in
theorem both_valid (s : Plans K) (o : Plan K) (ho : s.old = some o) (slot : Versioned Nat) (h : SlotFits s slot) :
    (both s o).Valid slot.version slot.data := by
  refine ⟨fun hv => h s.new ?_, fun hv => h o ?_⟩
  · have : slot.version = 2 := hv
    unfold Plans.named
    simp [ho, this]
  · have : slot.version = 1 := hv
    unfold Plans.named
    simp [ho, this]

omit [IsStrictOrderedRing K] in
theorem both_decode (s : Plans K) (o : Plan K) (ho : s.old = some o) (slot : Versioned Nat) :
    (both s o).decode slot.version slot.data = s.decoded slot := by
  unfold Schemas.decode Plans.decoded Plans.named both
  simp only [ho]
  by_cases h2 : slot.version = 2
  · rw [if_pos h2, if_pos h2]
    rfl
  · rw [if_neg h2, if_neg h2]
    by_cases h1 : slot.version = 1
    · rw [if_pos h1, if_pos h1]
      rfl
    · rw [if_neg h1, if_neg h1]
      rfl

/-- C132: for a query of the right length there is a query computer, and for every code that can be in a slot it and the distance
computer return the distance to the vector that the code stands for in the schema of its version; infinity if the version is
unknown, as for an id nothing was stored under. -/
theorem C132_distance (sqrt : K → K) (hs : IsSqrt sqrt) (arch : Quant.Arch) (s : Plans K) {dim : Nat} (hok : s.Ok dim)
    (metric : Metric) (a b : Nat) (split : Option K) (draws : Nat → K) (ops : List (Nat × List (Fl K))) (p : MultiProvider K)
    (h : (start s metric a b split).run draws ops = some p) (x : List K) (hx : x.length = dim) :
    ∃ c, p.queryComputer sqrt arch x = some (.ok c) ∧ ∀ slot, SlotFits s slot →
      queryDistance sqrt arch c slot = some (orInf ((s.decoded slot).map (metricDist sqrt (queryMetric metric) x))) ∧
      p.distance sqrt arch x slot = some (.ok (orInf ((s.decoded slot).map (metricDist sqrt metric x)))) := by
  obtain ⟨hp, _, hm⟩ := reach_inv s hok metric a b split draws ops p h
  cases ho : s.old with
  | none =>
    have ht : p.multiTable = some (.one (table s.new.pivots s.new.offsets) 1) := by
      unfold MultiProvider.multiTable
      rw [hp.tables.2, ho, hp.tables.1]
      rfl
    have hrows : ∀ q ∈ s.new.pivots, q.length = s.new.offsets.dim := by
      rw [hok.new.width]
      exact hok.new.rows
    obtain ⟨d1, d2, _, _, c, c1, c2⟩ := C80_single_version sqrt hs arch hok.new.part hok.new.pos hrows metric x
      (by rw [hx, hok.new.width]) 1
    refine ⟨c, ?_, fun slot hf => ?_⟩
    · unfold MultiProvider.queryComputer
      rw [ht, hm]
      simp only
      rw [c1]
    · unfold queryDistance MultiProvider.distance Plans.decoded
      rw [ht, hm]
      simp only
      by_cases hv : slot.version = 1
      · have hn : s.named slot.version = some s.new := by
          unfold Plans.named
          simp [ho, hv]
        have hc := hf _ hn
        rw [(c2 slot).1 hv hc, d1 slot hv hc, hn]
        exact ⟨rfl, rfl⟩
      · have hn : s.named slot.version = none := by
          unfold Plans.named
          simp [ho, hv]
        rw [(c2 slot).2 hv, d2 slot hv, hn]
        exact ⟨rfl, rfl⟩
  | some o =>
    have ht : p.multiTable = some (tables (both s o)) := by
      unfold MultiProvider.multiTable
      rw [hp.tables.2, ho, hp.tables.1]
      rfl
    have hb := both_ok s o hok ho
    obtain ⟨c, c1, c2⟩ := C80_multi_query sqrt hs arch (both s o) hok.new.pos (hok.old o ho).pos metric x (by rw [hx]; exact hb)
    refine ⟨c, ?_, fun slot hf => ?_⟩
    · unfold MultiProvider.queryComputer
      rw [ht, hm]
      simp only
      rw [c1]
    · unfold queryDistance MultiProvider.distance
      rw [ht, hm]
      simp only
      have hv := both_valid s o ho slot hf
      rw [c2 slot hv, C80_versions sqrt hs arch (both s o) metric x (by rw [hx]; exact hb) slot hv, both_decode s o ho]
      cases s.decoded slot <;> exact ⟨rfl, rfl⟩

/-- C132: the distance of two codes is that of the vectors they stand for, each in the schema of its version; infinity if a
version is unknown. -/
theorem C132_pairs (sqrt : K → K) (hs : IsSqrt sqrt) (arch : Quant.Arch) (s : Plans K) {dim : Nat} (hok : s.Ok dim)
    (metric : Metric) (a b : Nat) (split : Option K) (draws : Nat → K) (ops : List (Nat × List (Fl K))) (p : MultiProvider K)
    (h : (start s metric a b split).run draws ops = some p) (v w : Versioned Nat) (hv : SlotFits s v) (hw : SlotFits s w) :
    p.distanceQq sqrt arch v w = some (.ok (orInf (do
      let x ← s.decoded v
      let y ← s.decoded w
      some (metricDist sqrt metric x y)))) := by
  obtain ⟨hp, _, hm⟩ := reach_inv s hok metric a b split draws ops p h
  cases ho : s.old with
  | none =>
    have ht : p.multiTable = some (.one (table s.new.pivots s.new.offsets) 1) := by
      unfold MultiProvider.multiTable
      rw [hp.tables.2, ho, hp.tables.1]
      rfl
    have hrows : ∀ q ∈ s.new.pivots, q.length = s.new.offsets.dim := by
      rw [hok.new.width]
      exact hok.new.rows
    obtain ⟨_, _, d3, d4, _⟩ := C80_single_version sqrt hs arch hok.new.part hok.new.pos hrows metric
      (List.replicate s.new.offsets.dim 0) (by simp) 1
    have hnamed : ∀ slot : Versioned Nat, s.named slot.version = if slot.version = 1 then some s.new else none := by
      intro slot
      unfold Plans.named
      simp [ho]
    unfold MultiProvider.distanceQq Plans.decoded
    rw [ht, hm]
    simp only
    by_cases h1 : v.version = 1
    · by_cases h2 : w.version = 1
      · rw [d3 v w h1 h2 (hv _ (by rw [hnamed, if_pos h1])) (hw _ (by rw [hnamed, if_pos h2])), hnamed, hnamed, if_pos h1,
          if_pos h2]
        rfl
      · rw [d4 v w (Or.inr h2), hnamed, hnamed, if_pos h1, if_neg h2]
        rfl
    · rw [d4 v w (Or.inl h1), hnamed, if_neg h1]
      rfl
  | some o =>
    have ht : p.multiTable = some (tables (both s o)) := by
      unfold MultiProvider.multiTable
      rw [hp.tables.2, ho, hp.tables.1]
      rfl
    unfold MultiProvider.distanceQq
    rw [ht, hm]
    simp only
    rw [C80_mixed sqrt hs arch (both s o) metric (both_ok s o hok ho) v w (both_valid s o ho v hv) (both_valid s o ho w hw),
      both_decode s o ho, both_decode s o ho]
    cases s.decoded v <;> cases s.decoded w <;> rfl

end

/-! ## Refutations and concrete cases -/

/-- Two schemas for dimension three. -/
def exPlans : Plans Rat := ⟨⟨exPivots, exOffsets⟩, some ⟨[[1, 1, 1], [2, 2, 2]], ⟨3, [0, 1, 2, 3]⟩⟩⟩

example : exPlans.Ok 3 :=
  ⟨⟨((C79_offsets [0, 2, 3] exOffsets).1.mp (by decide +kernel)).2, by decide, by decide, rfl, by decide⟩, fun o ho => by
    cases ho
    exact ⟨((C79_offsets [0, 1, 2, 3] ⟨3, [0, 1, 2, 3]⟩).1.mp (by decide +kernel)).2, by decide, by decide, rfl, by decide⟩⟩

/-- What `get_vector` returns for two ids after three calls, the last with a NaN. -/
def exRun (split : Option Rat) (draws : Nat → Rat) : Option (List (List Nat × Nat)) :=
  ((start exPlans .l2 1 1 split).run draws [(0, fl [1, 2, 2]), (1, fl [1, 2, 2]), (1, [.num 0, .nan, .num 0])]).map
    (fun p => p.vectors.map (fun v => (v.data, v.version)))

example : exRun (some (1 / 2)) (fun i => if i = 0 then 1 / 4 else 3 / 4) = some [([0, 1, 1], 1), ([1, 2], 2)] ∧
    exRun none (fun _ => 0) = some [([1, 2], 2), ([1, 2], 2)] ∧
    lastStored 2 3 1 [(0, fl [1, 2, 2]), (1, fl [1, 2, (2 : Rat)]), (1, [.num 0, .nan, .num 0])] = some [1, 2, 2] := by
  decide +kernel

/-- C132 (refuted: a split of zero gives the old schema no vector): the comparison includes equality, so the draw zero does. -/
theorem C132_zero_refuted :
    exRun (some 0) (fun _ => 0) = some [([0, 1, 1], 1), ([0, 1, 1], 1)] := by decide +kernel

/-- Schemas of different dimensions: three and two. -/
def exUneven : Plans Rat := ⟨⟨exPivots, exOffsets⟩, some ⟨[[1, 1]], ⟨2, [0, 2]⟩⟩⟩

/-- The result of one call. -/
def exUnevenSet (draw : Rat) : Option (Except ProviderErr Unit) :=
  ((start exUneven .l2 1 0 (some (1 / 2))).setVector (fun _ => draw) 0 (fl [1, 2, 2])).map Prod.fst

/-- C132 (refuted: a vector of the accepted dimension is stored whatever the draw): the dimensions of the two schemas are not
compared, neither by `new` nor by `set_vector`; the same call succeeds or fails with the draw, and no query has a computer. -/
theorem C132_dimensions_refuted :
    exUnevenSet (3 / 4) = some (.ok ()) ∧ exUnevenSet (1 / 4) = some (.error (.compress (.invalidInputDim 2 3))) ∧
      ∀ x : List Rat, (start exUneven .l2 1 0 (some (1 / 2))).queryComputer id .scalar x = some (.error .query) ∨
        (start exUneven .l2 1 0 (some (1 / 2))).queryComputer id .scalar x = none := by
  refine ⟨by decide +kernel, by decide +kernel, fun x => ?_⟩
  unfold MultiProvider.queryComputer
  simp only [start, exUneven, MultiProvider.new, MultiProvider.multiTable, Option.map_some, MultiTable.mkTwo,
    show ¬ ((2 : Nat) = 1) by decide, if_false]
  cases hq : MultiQuery.new id Quant.Arch.scalar (MultiTable.two (table exPivots exOffsets)
    (table [[1, 1]] ⟨2, [0, 2]⟩) 2 1) Metric.l2 x with
  | none => exact Or.inr rfl
  | some r =>
    cases r with
    | none => exact Or.inl rfl
    | some c =>
      exfalso
      unfold MultiQuery.new at hq
      simp only [Option.bind_eq_bind] at hq
      by_cases h3 : x.length = 3
      · have ho : QueryComputer.new id Quant.Arch.scalar (table [[1, 1]] ⟨2, [0, 2]⟩) Metric.l2 x [] = some none := by
          unfold QueryComputer.new
          rw [if_pos (by rw [h3]; decide)]
        rw [ho] at hq
        cases hn : QueryComputer.new id Quant.Arch.scalar (table exPivots exOffsets) Metric.l2 x [] with
        | none => rw [hn] at hq; simp at hq
        | some r =>
          rw [hn] at hq
          cases r <;> simp at hq
      · have hn : QueryComputer.new id Quant.Arch.scalar (table exPivots exOffsets) Metric.l2 x [] = some none := by
          unfold QueryComputer.new
          rw [if_pos (by exact h3)]
        rw [hn] at hq
        simp at hq

end Verif.Pq
