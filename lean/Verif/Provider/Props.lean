import Verif.Provider.Lemmas

/-!
# C99: the in-memory provider is a table of records

A provider for `maxPoints` points and `frozen` start points, made by `new_empty` and used through any history of calls,
answers as the table of `Spec` does. Slots are aligned, inside the allocation and apart from each other.
-/

namespace Verif.Provider

open Verif.Disk

variable {T U : Type}

/-- The provider `p` is what `new_empty` made after some history of calls that all returned, with or without errors. -/
def Reached (pl : Places) (zero : T) (uzero : U) (maxPoints frozen dim deg : Nat) (enc : Option (Encoder T U))
    (p : Prov T U) : Prop :=
  ∃ p0 ops answers, newEmpty pl zero uzero maxPoints frozen dim deg enc = some (some p0) ∧
    p0.run ops = some (answers, p)

/-- What a caller may pass to `new_empty`. -/
structure Setup (pl : Places) (maxPoints frozen dim : Nat) (enc : Option (Encoder T U)) : Prop where
  places : pl.Good
  fit : maxPoints + frozen < 2 ^ 32
  enc : ∀ e, enc = some e → e.Good ∧ e.dim = dim

theorem startPoints_fit (maxPoints frozen : Nat) (h : maxPoints + frozen < 2 ^ 32) :
    startPoints maxPoints frozen = some (maxPoints, maxPoints + frozen) := by
  unfold startPoints
  rw [Nat.mod_eq_of_lt (by omega : maxPoints < 2 ^ 32), Nat.mod_eq_of_lt (by omega : frozen < 2 ^ 32), if_pos h]

theorem reached_ok {pl : Places} {zero : T} {uzero : U} {maxPoints frozen dim deg : Nat}
    {enc : Option (Encoder T U)} {p : Prov T U} (hs : Setup pl maxPoints frozen dim enc)
    (h : Reached pl zero uzero maxPoints frozen dim deg enc p) :
    ProvOk p (maxPoints + frozen) dim deg ∧ p.aux.map Store.enc = enc ∧ p.first = maxPoints ∧
      p.last = maxPoints + frozen ∧
      ∃ t, Shows p (maxPoints + frozen) t ∧ ListsFit t (maxPoints + frozen) deg := by
  obtain ⟨p0, ops, ans, h1, h2⟩ := h
  obtain ⟨q, q1, q2, q3, q4, q5, q6⟩ := newEmpty_spec pl zero uzero maxPoints frozen dim deg enc _ hs.places
    (startPoints_fit maxPoints frozen hs.fit) hs.enc
  rw [h1] at q1
  cases q1
  obtain ⟨a1, a2, a3⟩ := run_any _ dim deg ops p0 p _ ans q2 q3 (empty_fit _ _ _ _ _ _) h2
  exact ⟨a1, a2.aux.symm.trans q4, a2.first.symm.trans q5, a2.last.symm.trans q6, a3⟩

theorem shows_fit {p : Prov T U} {n dim cap : Nat} {t t' : Table T U} (h : Shows p n t') (h' : ListsFit t' n cap)
    (k : Shows p n t) : ListsFit t n cap := by
  intro i hi
  have e := (h.nbrs i hi).symm.trans (k.nbrs i hi)
  rw [← Option.some.inj e]
  exact h' i hi

/-- C99. For elements whose size divides a cache line and an array aligned to its elements, creating the slots cannot
fail, each slot starts on a 64-byte boundary, lies inside the allocation, ends before the next one and holds zeros. -/
theorem C99_slots (zero : T) (sz addr num dim : Nat) (h : sz ∣ 64) (ha : sz ∣ addr) :
    ∃ s, Aligned.new zero sz addr num dim = some s ∧
      ∀ i < num, (addr + sz * s.off i) % 64 = 0 ∧ s.off i + dim ≤ s.mem.length ∧
        (∀ j, i < j → s.off i + dim ≤ s.off j) ∧ s.slice i = some (List.replicate dim zero) := by
  obtain ⟨s, h1, h2, h3, h4, h5⟩ := new_ok zero sz addr num dim h ha
  refine ⟨s, h1, fun i hi => ⟨?_, ?_, ?_, h5 i hi⟩⟩
  · rw [new_some zero sz addr num dim h] at h1
    cases h1
    simp only [Aligned.off]
    have e1 := (paddedDim_facts sz dim h).2.1
    have e2 := (alignOffset_facts sz addr h ha).2
    obtain ⟨k, hk⟩ := Nat.dvd_of_mod_eq_zero e1
    have : sz * (i * paddedDim sz dim + alignOffset sz addr) = 64 * (i * k) + sz * alignOffset sz addr := by
      rw [Nat.mul_add, Nat.mul_left_comm, Nat.mul_comm sz (paddedDim sz dim), hk, Nat.mul_left_comm]
    omega
  · rw [← h4]; exact h2.fits i (by omega)
  · intro j hj
    have hp := h2.pad
    unfold Aligned.off
    have : (i + 1) * s.padded ≤ j * s.padded := Nat.mul_le_mul_right _ hj
    rw [Nat.add_mul] at this
    omega

/-- C99. After any history of allowed calls every call has succeeded and every read gives what the table holds, for
points and start points alike. -/
theorem C99_history (pl : Places) (zero : T) (uzero : U) (maxPoints frozen dim deg : Nat) (enc : Option (Encoder T U))
    (ops : List (Op T)) (hs : Setup pl maxPoints frozen dim enc)
    (hops : ∀ op ∈ ops, op.Valid (maxPoints + frozen) dim deg fun v => ∀ e, enc = some e → (e.write v).2 = true) :
    ∃ p p', newEmpty pl zero uzero maxPoints frozen dim deg enc = some (some p) ∧
      p.run ops = some (List.replicate ops.length true, p') ∧ p'.first = maxPoints ∧ p'.last = maxPoints + frozen ∧
      Shows p' (maxPoints + frozen)
        (ops.foldl (Table.step (fun v => (enc.map fun e => (e.write v).1).getD []) deg)
          (Table.empty zero uzero dim ((enc.map Encoder.width).getD 0))) := by
  obtain ⟨p, q1, q2, q3, q4, q5, q6⟩ := newEmpty_spec pl zero uzero maxPoints frozen dim deg enc _ hs.places
    (startPoints_fit maxPoints frozen hs.fit) hs.enc
  have hfine : Fine p = fun v => ∀ e, enc = some e → (e.write v).2 = true := by
    funext v
    unfold Fine
    cases ha : p.aux <;> rw [ha] at q4 <;> subst q4 <;> simp
  have hcode : codeOf p = fun v => (enc.map fun e => (e.write v).1).getD [] := by
    funext v
    unfold codeOf
    cases ha : p.aux <;> rw [ha] at q4 <;> subst q4 <;> simp
  obtain ⟨p', r1, r2, r3, r4, -⟩ := run_spec (maxPoints + frozen) dim deg ops p _ q2 q3 (empty_fit _ _ _ _ _ _)
    (fun op ho => by rw [hfine]; exact hops op ho)
  rw [hcode] at r4
  exact ⟨p, p', q1, r1, r3.first.symm.trans q5, r3.last.symm.trans q6, r4⟩

/-- C99. From any reached state an allowed call changes the table as described and nothing else. -/
theorem C99_step (pl : Places) (zero : T) (uzero : U) (maxPoints frozen dim deg : Nat) (enc : Option (Encoder T U))
    (p : Prov T U) (t : Table T U) (op : Op T) (hs : Setup pl maxPoints frozen dim enc)
    (hp : Reached pl zero uzero maxPoints frozen dim deg enc p) (ht : Shows p (maxPoints + frozen) t)
    (hop : op.Valid (maxPoints + frozen) dim deg fun v => ∀ e, enc = some e → (e.write v).2 = true) :
    ∃ p', p.step op = some (true, p') ∧ Shows p' (maxPoints + frozen)
      (t.step (fun v => (enc.map fun e => (e.write v).1).getD []) deg op) := by
  obtain ⟨h1, h2, -, -, t', h3, h4⟩ := reached_ok hs hp
  have hfine : Fine p = fun v => ∀ e, enc = some e → (e.write v).2 = true := by
    funext v
    unfold Fine
    cases ha : p.aux <;> rw [ha] at h2 <;> subst h2 <;> simp
  have hcode : codeOf p = fun v => (enc.map fun e => (e.write v).1).getD [] := by
    funext v
    unfold codeOf
    cases ha : p.aux <;> rw [ha] at h2 <;> subst h2 <;> simp
  obtain ⟨p', r1, -, -, r4, -⟩ := step_spec p _ dim deg t op h1 ht (shows_fit (dim := dim) h3 h4 ht)
    (by rw [hfine]; exact hop)
  rw [hcode] at r4
  exact ⟨p', r1, r4⟩

/-- C99. Setting a vector of the wrong dimension, or of an id the provider does not have, is an error that changes
nothing. -/
theorem C99_refused (pl : Places) (zero : T) (uzero : U) (maxPoints frozen dim deg : Nat) (enc : Option (Encoder T U))
    (p : Prov T U) (i : Nat) (v : List T) (hs : Setup pl maxPoints frozen dim enc)
    (hp : Reached pl zero uzero maxPoints frozen dim deg enc p) (h : maxPoints + frozen ≤ i ∨ v.length ≠ dim) :
    p.set i v = some (false, p) :=
  refused_spec p _ dim deg i v (reached_ok hs hp).1 h

/-- C99. A vector that cannot be compressed (a NaN or an infinite distance) is an error; vectors, deletions, lists and
the codes of other ids stay. The codes of the chunks before the offending one are already in place. -/
theorem C99_failed_set (pl : Places) (zero : T) (uzero : U) (maxPoints frozen dim deg : Nat) (e : Encoder T U)
    (p : Prov T U) (t : Table T U) (i : Nat) (v : List T) (hs : Setup pl maxPoints frozen dim (some e))
    (hp : Reached pl zero uzero maxPoints frozen dim deg (some e) p) (ht : Shows p (maxPoints + frozen) t)
    (hi : i < maxPoints + frozen) (hv : v.length = dim) (hf : (e.write v).2 = false) :
    ∃ p', p.set i v = some (false, p') ∧ Shows p' (maxPoints + frozen)
      { t with code := at_ t.code i ((e.write v).1 ++ (t.code i).drop (e.write v).1.length) } := by
  obtain ⟨h1, h2, -⟩ := reached_ok hs hp
  cases ha : p.aux with
  | none => rw [ha] at h2; cases h2
  | some a =>
    rw [ha] at h2
    simp only [Option.map_some, Option.some.injEq] at h2
    subst h2
    obtain ⟨p', q1, -, -, q4⟩ := failed_spec p _ dim deg i v t a h1 ht hi hv ha hf
    exact ⟨p', q1, q4⟩

/-- C99. Ids the provider does not have, and lists that do not fit, panic. -/
theorem C99_out_of_range (pl : Places) (zero : T) (uzero : U) (maxPoints frozen dim deg : Nat)
    (enc : Option (Encoder T U)) (p : Prov T U) (hs : Setup pl maxPoints frozen dim enc)
    (hp : Reached pl zero uzero maxPoints frozen dim deg enc p) :
    (∀ i, maxPoints + frozen ≤ i → p.delete i = none ∧ p.release i = none ∧ p.dels.get i = none ∧
      p.base.data.slice i = none) ∧
    (∀ i l, maxPoints + frozen < i → p.setNbrs i l = none ∧ p.append i l = none ∧ graphGet p.graph i = none) ∧
    (∀ i l, deg < l.length → p.setNbrs i l = none) := by
  have h1 := (reached_ok hs hp).1
  refine ⟨fun i hi => ?_, fun i l hi => ?_, fun i l hl => ?_⟩
  · obtain ⟨a, b, c⟩ := dels_none p.dels _ i h1.dels hi
    unfold Prov.delete Prov.release
    rw [b, c]
    exact ⟨rfl, rfl, a, slice_none _ i (by rw [h1.base.num]; exact hi)⟩
  · obtain ⟨a, b, c⟩ := graph_none p.graph _ deg i l h1.graph hi
    unfold Prov.setNbrs Prov.append
    rw [b, c]
    exact ⟨rfl, rfl, a⟩
  · unfold Prov.setNbrs
    rw [graph_long p.graph _ deg i l h1.graph hl]
    rfl

/-- C99. What appending leaves: the old list, then new ids in the order they came, none twice, and all of them unless
the list is full. -/
theorem C99_append (cap : Nat) (l xs : List Nat) (hl : l.length ≤ cap) :
    ∃ new, addNew cap l xs = l ++ new ∧ new.Sublist xs ∧ new.Nodup ∧ (∀ x ∈ new, x ∉ l) ∧
      (addNew cap l xs).length ≤ cap ∧ ((addNew cap l xs).length < cap → ∀ x ∈ xs, x ∈ addNew cap l xs) := by
  induction xs generalizing l with
  | nil => exact ⟨[], by simp [addNew], List.Sublist.refl _, List.nodup_nil, by simp, hl, by simp⟩
  | cons x xs ih =>
    simp only [addNew]
    split
    · rename_i h
      obtain ⟨new, h1, h2, h3, h4, h5, h6⟩ := ih l hl
      refine ⟨new, h1, h2.cons x, h3, h4, h5, ?_⟩
      intro hlt y hy
      rcases List.mem_cons.1 hy with rfl | hy
      · rw [h1]
        rcases h with h | h
        · exact List.mem_append_left _ h
        · rw [addNew_full cap l xs h] at hlt; omega
      · exact h6 hlt y hy
    · rename_i h
      have hx : x ∉ l := fun hx => h (Or.inl hx)
      obtain ⟨new, h1, h2, h3, h4, h5, h6⟩ := ih (l ++ [x]) (by
        rw [List.length_append, List.length_singleton]
        have : ¬ cap ≤ l.length := fun hc => h (Or.inr hc)
        omega)
      refine ⟨x :: new, by rw [h1]; simp, h2.cons_cons x, ?_, ?_, h5, ?_⟩
      · refine List.nodup_cons.2 ⟨fun hm => ?_, h3⟩
        exact h4 x hm (by simp)
      · intro y hy
        rcases List.mem_cons.1 hy with rfl | hy
        · exact hx
        · exact fun hc => h4 y hy (List.mem_append_left _ hc)
      · intro hlt y hy
        rcases List.mem_cons.1 hy with rfl | hy
        · rw [h1]; simp
        · exact h6 hlt y hy

/-- C99. Setting the start points stores the given vectors, in order, under the ids after the points; a wrong number of
them is refused. -/
theorem C99_start_points (pl : Places) (zero : T) (uzero : U) (maxPoints frozen dim deg : Nat)
    (enc : Option (Encoder T U)) (p : Prov T U) (t : Table T U) (vs : List (List T))
    (hs : Setup pl maxPoints frozen dim enc) (hp : Reached pl zero uzero maxPoints frozen dim deg enc p)
    (ht : Shows p (maxPoints + frozen) t) :
    (vs.length ≠ frozen → p.setStarts vs = some (false, p)) ∧
    (vs.length = frozen → (∀ v ∈ vs, v.length = dim ∧ ∀ e, enc = some e → (e.write v).2 = true) →
      ∃ p' t', p.setStarts vs = some (true, p') ∧ Shows p' (maxPoints + frozen) t' ∧
        (∀ i < maxPoints, t'.vec i = t.vec i ∧ t'.code i = t.code i) ∧
        (∀ k v, vs[k]? = some v → t'.vec (maxPoints + k) = v ∧
          ∀ e, enc = some e → t'.code (maxPoints + k) = (e.write v).1) ∧
        t'.dead = t.dead ∧ t'.nbrs = t.nbrs) := by
  obtain ⟨h1, h2, h3, h4, -⟩ := reached_ok hs hp
  constructor
  · intro hn
    unfold Prov.setStarts
    rw [if_pos (by rw [h3, h4]; omega)]
  · intro hn hv
    have hfine : Fine p = fun v => ∀ e, enc = some e → (e.write v).2 = true := by
      funext v
      unfold Fine
      cases ha : p.aux <;> rw [ha] at h2 <;> subst h2 <;> simp
    obtain ⟨p', q1, -, -, q4⟩ := setFrom_spec (maxPoints + frozen) dim deg vs maxPoints p t h1 ht (by omega)
      (fun v hm => by rw [hfine]; exact hv v hm)
    refine ⟨p', _, ?_, q4, ?_, ?_, rfl, rfl⟩
    · unfold Prov.setStarts
      rw [if_neg (by rw [h3, h4]; simp [hn]), h3, q1]
    · intro i hi
      dsimp only
      rw [if_neg (by omega), if_neg (by omega)]
      exact ⟨rfl, rfl⟩
    · intro k v hk
      dsimp only
      rw [if_pos (by omega), if_pos (by omega), Nat.add_sub_cancel_left, hk]
      refine ⟨rfl, ?_⟩
      rintro e rfl
      cases ha : p.aux with
      | none => rw [ha] at h2; cases h2
      | some a =>
        rw [ha] at h2
        simp only [Option.map_some, Option.some.injEq] at h2
        simp [codeOf_some ha, h2]

/-- C99. Saving an index with one start point and loading it gives back all vectors, codes and lists, and the start
point. The deletions are not in the files: everything counts as present. -/
theorem C99_save_load_partial (pl : Places) (ct : Codec T) (cu : Codec U) (zero : T) (uzero : U) (maxPoints dim deg : Nat)
    (enc : Option (Encoder T U)) (p : Prov T U) (t : Table T U) (hs : Setup pl maxPoints 1 dim enc)
    (hp : Reached pl zero uzero maxPoints 1 dim deg enc p) (ht : Shows p (maxPoints + 1) t)
    (hct : ct.Good) (hcu : cu.Good) (hsz : pl.sz = ct.sz ∧ pl.auxSz = cu.sz) (hd : 0 < dim ∧ dim < 2 ^ 32)
    (hw : ∀ e, enc = some e → 0 < e.width ∧ e.width < 2 ^ 32) (hdeg : deg < 2 ^ 32)
    (hids : ∀ i ≤ maxPoints + 1, ∀ x ∈ t.nbrs i, x < 2 ^ 32)
    (hbytes : (maxPoints + 2) * (4 + 4 * deg) + 24 < 2 ^ 64) :
    ∃ f p', p.save ct cu = some (some f) ∧ loadProv ct cu pl zero uzero 1 enc f = some p' ∧
      p'.first = maxPoints ∧ p'.last = maxPoints + 1 ∧ Shows p' (maxPoints + 1) { t with dead := fun _ => false } := by
  obtain ⟨h1, h2, h3, h4, t', h5, h6⟩ := reached_ok hs hp
  have hfit := shows_fit (dim := dim) h5 h6 ht
  have hn := hs.fit
  have hbd : p.base.data.dim = dim := by rw [h1.base.width, h1.copy]; rfl
  obtain ⟨rows, b, b1, b2, b3, b4, b5, b6⟩ := store_round_trip ct hct zero pl.base
    (by rw [← hsz.1]; exact hs.places.base.2) (maxPoints + 1) dim t.vec p.base.data hbd h1.base.num ht.vec hd.1 hd.2 hn
  obtain ⟨lists, g, g1, g2, g3, g4⟩ := graph_round_trip pl.graph maxPoints (maxPoints + 1) deg hs.places.graph p.graph
    h1.graph t.nbrs ht.nbrs hfit hids hdeg hbytes (by omega)
  obtain ⟨d1, d2⟩ := dels_new (maxPoints + 1)
  have hst := startPoints_fit maxPoints 1 hn
  cases ha : p.aux with
  | none =>
    rw [ha] at h2
    subst h2
    refine ⟨⟨saveToBin (rows.map ct.row) p.base.data.dim, none,
        saveGraph (providerSrc lists 1 (p.graph.dim - 1)) maxPoints⟩, ⟨⟨copyEncoder T b.dim, b⟩, none, g, Dels.new b.num, maxPoints, maxPoints + 1⟩, ?_, ?_, rfl,
      rfl, ⟨b6, fun a h => (by cases h), ?_, g4⟩⟩
    · unfold Prov.save
      rw [if_neg (by rw [h3, h4]; simp), b1, g1, h3, ha]
      rfl
    · unfold loadProv
      simp only [loadAux, b2, g2, auxTotal, b4, Nat.max_eq_left (Nat.zero_le _)]
      rw [if_pos (by omega), Nat.add_sub_cancel, hst]
      rfl
    · dsimp only; rw [b4]; exact d2
  | some a =>
    rw [ha] at h2
    simp only [Option.map_some] at h2
    have haok := h1.aux a ha
    have hwa := hw a.enc h2.symm
    obtain ⟨crows, c, c1, c2, c3, c4, c5, c6⟩ := store_round_trip cu hcu uzero pl.aux
      (by rw [← hsz.2]; exact hs.places.aux.2) (maxPoints + 1) a.enc.width t.code a.data haok.width haok.num
      (ht.code a ha) hwa.1 hwa.2 hn
    refine ⟨⟨saveToBin (rows.map ct.row) p.base.data.dim, some (saveToBin (crows.map cu.row) a.data.dim),
        saveGraph (providerSrc lists 1 (p.graph.dim - 1)) maxPoints⟩,
      ⟨⟨copyEncoder T b.dim, b⟩, some ⟨a.enc, c⟩, g, Dels.new b.num, maxPoints, maxPoints + 1⟩, ?_, ?_, rfl,
      rfl, ⟨b6, fun x h => (by cases h; exact c6), ?_, g4⟩⟩
    · unfold Prov.save
      rw [if_neg (by rw [h3, h4]; simp), b1, g1, h3, ha]
      simp only [saveAux, c1, Option.map_some]
    · unfold loadProv
      rw [← h2]
      simp only [loadAux, c2, Option.map_some, b2, g2, auxTotal, b4, c4, Nat.max_self]
      rw [if_pos (by omega), Nat.add_sub_cancel, hst]
      rfl
    · dsimp only; rw [b4]; exact d2

/-! ## Disagreements -/

/-- Disagreement: deletions do not survive. Whatever was deleted before a save is present after the load. -/
theorem C99_deletions_lost (pl : Places) (ct : Codec T) (cu : Codec U) (zero : T) (uzero : U) (maxPoints dim deg : Nat)
    (p : Prov T U) (i : Nat) (hs : Setup pl maxPoints 1 dim (none : Option (Encoder T U)))
    (hp : Reached pl zero uzero maxPoints 1 dim deg none p) (hct : ct.Good) (hcu : cu.Good)
    (hsz : pl.sz = ct.sz ∧ pl.auxSz = cu.sz) (hd : 0 < dim ∧ dim < 2 ^ 32) (hdeg : deg < 2 ^ 32)
    (hids : ∀ i l, graphGet p.graph i = some l → ∀ x ∈ l, x < 2 ^ 32)
    (hbytes : (maxPoints + 2) * (4 + 4 * deg) + 24 < 2 ^ 64) (hi : i < maxPoints + 1)
    (hdead : p.dels.get i = some true) :
    ∃ f p', p.save ct cu = some (some f) ∧ loadProv ct cu pl zero uzero 1 none f = some p' ∧
      p'.base.data.slice i = p.base.data.slice i ∧ p'.dels.get i = some false := by
  obtain ⟨-, -, -, -, t, h5, -⟩ := reached_ok hs hp
  obtain ⟨f, p', a1, a2, -, -, a3⟩ := C99_save_load_partial pl ct cu zero uzero maxPoints dim deg none p t hs hp h5 hct
    hcu hsz hd (fun e h => by cases h) hdeg (fun j hj => hids j _ (h5.nbrs j hj)) hbytes
  exact ⟨f, p', a1, a2, by rw [a3.vec i hi, h5.vec i hi], a3.dead i hi⟩

/-- Disagreement: an index with several start points cannot be saved. -/
theorem C99_several_starts_not_saved (pl : Places) (ct : Codec T) (cu : Codec U) (zero : T) (uzero : U)
    (maxPoints frozen dim deg : Nat) (enc : Option (Encoder T U)) (p : Prov T U)
    (hs : Setup pl maxPoints frozen dim enc) (hp : Reached pl zero uzero maxPoints frozen dim deg enc p)
    (hf : 1 < frozen) : p.save ct cu = some none := by
  obtain ⟨-, -, h3, h4, -⟩ := reached_ok hs hp
  unfold Prov.save
  rw [if_pos (by rw [h3, h4]; omega)]

/-- Disagreement: the graph has a list for an id the provider does not have. It can be set and read although the id
has no vector and asking for its status panics. -/
theorem C99_extra_list (pl : Places) (zero : T) (uzero : U) (maxPoints frozen dim deg : Nat)
    (enc : Option (Encoder T U)) (p : Prov T U) (l : List Nat) (hs : Setup pl maxPoints frozen dim enc)
    (hp : Reached pl zero uzero maxPoints frozen dim deg enc p) (hl : l.length ≤ deg) :
    ∃ p', p.setNbrs (maxPoints + frozen) l = some p' ∧ graphGet p'.graph (maxPoints + frozen) = some l ∧
      p'.dels.get (maxPoints + frozen) = none ∧ p'.base.data.slice (maxPoints + frozen) = none := by
  have h1 := (reached_ok hs hp).1
  obtain ⟨g, g1, -, g3, -⟩ := graph_set p.graph _ deg (maxPoints + frozen) l h1.graph (Nat.lt_succ_self _) hl
  refine ⟨{ p with graph := g }, by unfold Prov.setNbrs; rw [g1]; rfl, g3,
    (dels_none p.dels _ _ h1.dels (Nat.le_refl _)).1, slice_none _ _ (by rw [h1.base.num])⟩

/-- Disagreement: nothing protects the start points. One can be deleted, and replaced by an ordinary insertion. -/
theorem C99_start_not_protected (pl : Places) (zero : T) (uzero : U) (maxPoints frozen dim deg : Nat)
    (p : Prov T U) (v : List T) (hs : Setup pl maxPoints frozen dim (none : Option (Encoder T U))) (hf : 0 < frozen)
    (hp : Reached pl zero uzero maxPoints frozen dim deg none p) (hv : v.length = dim) :
    (∃ p', p.delete p.first = some p' ∧ p'.dels.get p.first = some true) ∧
    (∃ p', p.set p.first v = some (true, p') ∧ p'.base.data.slice p.first = some v) := by
  obtain ⟨-, -, h3, -, t, h5, -⟩ := reached_ok hs hp
  rw [h3]
  constructor
  · obtain ⟨p', a1, a2⟩ := C99_step pl zero uzero maxPoints frozen dim deg none p t (.delete maxPoints) hs hp h5
      (show maxPoints < maxPoints + frozen by omega)
    simp only [Prov.step] at a1
    cases hd : p.delete maxPoints with
    | none => rw [hd] at a1; cases a1
    | some q =>
      rw [hd] at a1
      simp only [Option.map_some, Option.some.injEq, Prod.mk.injEq, true_and] at a1
      subst a1
      refine ⟨q, rfl, ?_⟩
      rw [a2.dead maxPoints (by omega)]
      simp [Table.step, at_]
  · obtain ⟨p', a1, a2⟩ := C99_step pl zero uzero maxPoints frozen dim deg none p t (.set maxPoints v) hs hp h5
      ⟨by omega, hv, fun e h => by cases h⟩
    refine ⟨p', a1, ?_⟩
    rw [a2.vec maxPoints (by omega)]
    simp [Table.step, at_]

/-- Disagreement: the number of points is cut to 32 bits. With 2^32 points or more the first start point is an
ordinary id, and the provider reports a smaller capacity than it was given. -/
theorem C99_capacity_cut (pl : Places) (zero : T) (uzero : U) (maxPoints frozen dim deg : Nat) (hpl : pl.Good)
    (hbig : 2 ^ 32 ≤ maxPoints) (hf : maxPoints % 2 ^ 32 + frozen < 2 ^ 32) :
    ∃ p : Prov T U, newEmpty pl zero uzero maxPoints frozen dim deg none = some (some p) ∧
      p.first = maxPoints % 2 ^ 32 ∧ p.first < maxPoints ∧ p.base.data.num = maxPoints + frozen := by
  have hr : startPoints maxPoints frozen = some (maxPoints % 2 ^ 32, maxPoints % 2 ^ 32 + frozen) := by
    unfold startPoints
    rw [Nat.mod_eq_of_lt (by omega : frozen < 2 ^ 32), if_pos hf]
  obtain ⟨p, h1, h2, -, -, h5, -⟩ := newEmpty_spec (U := U) pl zero uzero maxPoints frozen dim deg none _ hpl hr
    (fun e h => by cases h)
  refine ⟨p, h1, h5, ?_, h2.base.num⟩
  rw [h5]
  have : maxPoints % 2 ^ 32 < 2 ^ 32 := Nat.mod_lt _ (by decide)
  exact Nat.lt_of_lt_of_le this hbig

/-! ## Concrete cases -/

/-- Two chunks; 255 stands for a NaN. -/
def demoCode (c : Nat) (v : List Nat) : Option Nat :=
  match v[c]? with
  | none => none
  | some x => if x = 255 then none else some (x % 16)

def demoPlaces : Places := ⟨1, 3, 1, 70, 20⟩

/-- What is read of an id. -/
structure Seen where
  vec : Option (List Nat)
  code : Option (List Nat)
  dead : Option Bool
  nbrs : Option (List Nat)
deriving DecidableEq

def demoRead (p : Prov Nat Nat) (i : Nat) : Seen :=
  ⟨p.base.data.slice i, p.aux.bind fun a => a.data.slice i, p.dels.get i, graphGet p.graph i⟩

def demoRun (ops : List (Op Nat)) (i : Nat)  : Option (List Bool × Seen) :=
  ((newEmpty demoPlaces 0 0 3 1 2 3 (some (pqEncoder 2 2 demoCode))).bind id).bind fun p =>
    (p.run ops).map fun r => (r.1, demoRead r.2 i)

/-- Codes of product quantization: the vector is accepted exactly if each chunk has a code, and then code `j` is that of
chunk `j`. If not, the codes before the first chunk without one are written. So the codes meet what the claims above ask
of an encoder. -/
theorem C99_codes {T U : Type} (dim chunks : Nat) (code : Nat → List T → Option U) (v : List T) :
    (pqEncoder dim chunks code).Good ∧
    (((pqEncoder dim chunks code).write v).2 = true ↔ ∀ j, j < chunks → (code j v).isSome) ∧
    (((pqEncoder dim chunks code).write v).2 = true → ((pqEncoder dim chunks code).write v).1.length = chunks) ∧
    (((pqEncoder dim chunks code).write v).2 = false → code ((pqEncoder dim chunks code).write v).1.length v = none) ∧
    ∀ j x, ((pqEncoder dim chunks code).write v).1[j]? = some x → j < chunks ∧ code j v = some x := by
  have key := compressFrom_get code v chunks 0
  simp only [Nat.zero_add] at key
  exact ⟨pqEncoder_good dim chunks code, key.2.1, (pqEncoder_full dim chunks code v), key.2.2, key.1⟩

/-- Disagreement: a set that fails leaves a code that is neither the old vector's nor the new one's, next to the old
vector. -/
theorem C99_torn_code :
    demoRun [.set 1 [17, 18], .set 1 [23, 255]] 1 =
      some ([true, false], ⟨some [17, 18], some [7, 2], some false, some []⟩) := by decide +kernel

example : demoRun [.set 1 [17, 18], .delete 1, .setNbrs 1 [2, 0], .append 1 [0, 3, 3, 1]] 1 =
    some ([true, true, true, true], ⟨some [17, 18], some [1, 2], some true, some [2, 0, 3]⟩) := by decide +kernel

example : demoRun [.set 1 [17, 18], .delete 1, .delete 2, .setNbrs 1 [2, 0], .release 1, .set 3 [5]] 1 =
    some ([true, true, true, true, true, false], ⟨some [17, 18], some [1, 2], some false, some []⟩) := by decide +kernel

example : Setup demoPlaces 3 1 2 (some (pqEncoder 2 2 demoCode)) :=
  ⟨⟨by decide, by decide, by decide⟩, by decide, fun e h => by
    cases h; exact ⟨pqEncoder_good 2 2 demoCode, rfl⟩⟩

def demoCodec : Codec Nat := ⟨1, fun x => [UInt8.ofNat x], fun bs => (bs.headD 0).toNat⟩

example : (⟨1, fun b => [if b then 1 else 0], fun bs => bs.headD 0 == 1⟩ : Codec Bool).Good :=
  ⟨fun _ => rfl, fun b => by cases b <;> rfl, by decide, by decide⟩

/-- Saved and loaded: what is read of id `i`, before and after. -/
def demoSaved (ops : List (Op Nat)) (i : Nat)  : Option (Seen × Seen) :=
  ((newEmpty demoPlaces 0 0 3 1 2 3 (some (pqEncoder 2 2 demoCode))).bind id).bind fun p =>
    (p.run ops).bind fun r => ((r.2.save demoCodec demoCodec).bind id).bind fun f =>
      (loadProv demoCodec demoCodec demoPlaces 0 0 1 (some (pqEncoder 2 2 demoCode)) f).map fun q =>
        (demoRead r.2 i, demoRead q i)

example : demoSaved [.set 1 [17, 18], .set 3 [9, 9], .setNbrs 1 [2, 0], .delete 1] 1 =
    some (⟨some [17, 18], some [1, 2], some true, some [2, 0]⟩, ⟨some [17, 18], some [1, 2], some false, some [2, 0]⟩) := by
  decide +kernel

end Verif.Provider
