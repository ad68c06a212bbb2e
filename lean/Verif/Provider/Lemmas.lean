import Verif.Provider.Spec
import Verif.Disk.VectorFileProps
import Verif.Disk.GraphFileProps

/-! # Lemmas about the in-memory provider -/

namespace Verif.Provider

open Verif.Disk

/-! ## Slots -/

/-- Every slot lies inside the allocation and slots do not overlap. -/
structure Aligned.Ok {α : Type} (s : Aligned α) : Prop where
  pad : s.dim ≤ s.padded
  fits : ∀ i < s.num, s.off i + s.dim ≤ s.mem.length

theorem paddedDim_facts (sz dim : Nat) (h : sz ∣ 64) :
    dim ≤ paddedDim sz dim ∧ (paddedDim sz dim * sz) % 64 = 0 ∧
      ((sz * dim) % 64 ≠ 0 → (64 - (sz * dim) % 64) % sz = 0) := by
  have hsz : 0 < sz := Nat.pos_of_dvd_of_pos h (by decide)
  have hd : sz ∣ (sz * dim) % 64 := (Nat.dvd_mod_iff h).2 (Nat.dvd_mul_right _ _)
  have hd2 : sz ∣ 64 - (sz * dim) % 64 := Nat.dvd_sub h hd
  have hlt : (sz * dim) % 64 < 64 := Nat.mod_lt _ (by decide)
  unfold paddedDim
  split
  · rename_i h0
    exact ⟨Nat.le_refl _, by rw [Nat.mul_comm]; exact h0, fun h => absurd h0 h⟩
  · refine ⟨Nat.le_add_right _ _, ?_, fun _ => Nat.mod_eq_zero_of_dvd hd2⟩
    rw [Nat.add_mul, Nat.div_mul_cancel hd2, Nat.mul_comm dim sz]
    have := Nat.div_add_mod (sz * dim) 64
    omega

theorem alignOffset_facts (sz addr : Nat) (h : sz ∣ 64) (ha : sz ∣ addr) :
    alignOffset sz addr ≤ 64 / sz - 1 ∧ (addr + sz * alignOffset sz addr) % 64 = 0 := by
  have hsz : 0 < sz := Nat.pos_of_dvd_of_pos h (by decide)
  have hd : sz ∣ addr % 64 := (Nat.dvd_mod_iff h).2 ha
  have hlt : addr % 64 < 64 := Nat.mod_lt _ (by decide)
  have hd2 : sz ∣ (64 - addr % 64) % 64 := (Nat.dvd_mod_iff h).2 (Nat.dvd_sub h hd)
  have hlt2 : (64 - addr % 64) % 64 < 64 := Nat.mod_lt _ (by decide)
  unfold alignOffset
  constructor
  · have : (64 - addr % 64) % 64 / sz < 64 / sz := Nat.div_lt_div_of_lt_of_dvd h hlt2
    omega
  · rw [Nat.mul_div_cancel' hd2]; omega

theorem new_some {α : Type} (zero : α) (sz addr num dim : Nat) (h : sz ∣ 64) :
    Aligned.new zero sz addr num dim = some ⟨List.replicate (num * paddedDim sz dim + (64 / sz - 1)) zero, num,
      alignOffset sz addr, dim, paddedDim sz dim⟩ := by
  obtain ⟨-, h2, h3⟩ := paddedDim_facts sz dim h
  unfold Aligned.new
  rw [if_neg (by simp [Nat.mod_eq_zero_of_dvd h]), if_neg (fun hc => hc.2 (h3 hc.1)), if_neg (by simp [h2])]

theorem new_ok {α : Type} (zero : α) (sz addr num dim : Nat) (h : sz ∣ 64) (ha : sz ∣ addr) :
    ∃ s, Aligned.new zero sz addr num dim = some s ∧ s.Ok ∧ s.num = num ∧ s.dim = dim ∧
      ∀ i < num, s.slice i = some (List.replicate dim zero) := by
  have h1 := (paddedDim_facts sz dim h).1
  have h2 := (alignOffset_facts sz addr h ha).1
  have hf : ∀ i < num, i * paddedDim sz dim + alignOffset sz addr + dim ≤
      num * paddedDim sz dim + (64 / sz - 1) := by
    intro i hi
    have : (i + 1) * paddedDim sz dim ≤ num * paddedDim sz dim := Nat.mul_le_mul_right _ hi
    rw [Nat.add_mul] at this
    omega
  refine ⟨_, new_some zero sz addr num dim h, ⟨h1, ?_⟩, rfl, rfl, ?_⟩
  · intro i hi
    simpa [Aligned.off] using hf i hi
  · intro i hi
    have := hf i hi
    simp only [Aligned.slice, Aligned.off, List.length_replicate]
    rw [if_pos hi, if_pos this, List.drop_replicate, List.take_replicate]
    congr 2
    omega

theorem slice_len {α : Type} {s : Aligned α} {i : Nat} {v : List α} (h : s.slice i = some v) :
    v.length = s.dim ∧ i < s.num := by
  unfold Aligned.slice at h
  split at h
  · rename_i hi
    split at h
    · cases h; simp; omega
    · cases h
  · cases h

theorem put_mem {α : Type} (mem v : List α) (o k : Nat) (ho : o + v.length ≤ mem.length) :
    (mem.take o ++ v ++ mem.drop (o + v.length))[k]? =
      if o ≤ k ∧ k < o + v.length then v[k - o]? else mem[k]? := by
  have hl : (mem.take o).length = o := by rw [List.length_take]; omega
  rcases Nat.lt_or_ge k o with h1 | h1
  · rw [if_neg (by omega), List.append_assoc, List.getElem?_append_left (by omega), List.getElem?_take_of_lt h1]
  · rcases Nat.lt_or_ge k (o + v.length) with h2 | h2
    · rw [if_pos ⟨h1, h2⟩, List.append_assoc, List.getElem?_append_right (by omega), hl,
        List.getElem?_append_left (by omega)]
    · rw [if_neg (by omega), List.getElem?_append_right (by rw [List.length_append, hl]; omega),
        List.length_append, hl, List.getElem?_drop]
      congr 1
      omega

theorem slice_of {α : Type} (s : Aligned α) (i : Nat) (hi : i < s.num) (h : s.off i + s.dim ≤ s.mem.length) :
    s.slice i = some ((s.mem.drop (s.off i)).take s.dim) := by
  unfold Aligned.slice
  rw [if_pos hi, if_pos h]

theorem put_spec {α : Type} (s : Aligned α) (hs : s.Ok) (i : Nat) (hi : i < s.num) (v : List α)
    (hv : v.length = s.dim) :
    ∃ s', s.put i v = some s' ∧ s'.Ok ∧ s'.num = s.num ∧ s'.dim = s.dim ∧ s'.slice i = some v ∧
      ∀ j, j ≠ i → s'.slice j = s.slice j := by
  have hf := hs.fits i hi
  have hlen : (s.mem.take (s.off i) ++ v ++ s.mem.drop (s.off i + s.dim)).length = s.mem.length := by
    simp only [List.length_append, List.length_take, List.length_drop]; omega
  refine ⟨{ s with mem := s.mem.take (s.off i) ++ v ++ s.mem.drop (s.off i + s.dim) }, ?_, ?_, rfl, rfl, ?_, ?_⟩
  · unfold Aligned.put; rw [if_pos hi, if_pos ⟨hf, hv⟩]
  · refine ⟨hs.pad, ?_⟩
    intro j hj
    rw [hlen]
    exact hs.fits j hj
  · have e := slice_of { s with mem := s.mem.take (s.off i) ++ v ++ s.mem.drop (s.off i + s.dim) } i hi (by rw [hlen]; exact hf)
    rw [e]
    congr 1
    show List.take s.dim (List.drop (s.off i) (s.mem.take (s.off i) ++ v ++ s.mem.drop (s.off i + s.dim))) = v
    rw [← hv] at hf ⊢
    apply List.ext_getElem?
    intro k
    rcases Nat.lt_or_ge k v.length with hk | hk
    · rw [List.getElem?_take_of_lt hk, List.getElem?_drop, put_mem _ _ _ _ hf, if_pos (by omega)]
      congr 1; omega
    · rw [List.getElem?_take_eq_none hk, List.getElem?_eq_none hk]
  · intro j hj
    by_cases hjn : j < s.num
    · have hfj := hs.fits j hjn
      have e := slice_of { s with mem := s.mem.take (s.off i) ++ v ++ s.mem.drop (s.off i + s.dim) } j hjn
        (by rw [hlen]; exact hfj)
      rw [slice_of s j hjn hfj, e]
      congr 1
      show List.take s.dim (List.drop (s.off j) (s.mem.take (s.off i) ++ v ++ s.mem.drop (s.off i + s.dim))) = _
      have hoi : s.off i = i * s.padded + s.start := rfl
      have hoj : s.off j = j * s.padded + s.start := rfl
      apply List.ext_getElem?
      intro k
      rcases Nat.lt_or_ge k s.dim with hk | hk
      · rw [List.getElem?_take_of_lt hk, List.getElem?_take_of_lt hk, List.getElem?_drop, List.getElem?_drop]
        rw [← hv] at hf hk ⊢
        rw [put_mem _ _ _ _ hf, if_neg]
        have hp := hs.pad
        rw [← hv] at hp
        rcases Nat.lt_or_gt_of_ne hj with hlt | hgt
        · have : (j + 1) * s.padded ≤ i * s.padded := Nat.mul_le_mul_right _ hlt
          rw [Nat.add_mul] at this
          omega
        · have : (i + 1) * s.padded ≤ j * s.padded := Nat.mul_le_mul_right _ hgt
          rw [Nat.add_mul] at this
          omega
      · rw [List.getElem?_take_eq_none hk, List.getElem?_take_eq_none hk]
    · unfold Aligned.slice
      rw [if_neg hjn, if_neg hjn]

theorem slice_some {α : Type} (s : Aligned α) (hs : s.Ok) (i : Nat) (hi : i < s.num) : ∃ v, s.slice i = some v := by
  unfold Aligned.slice
  rw [if_pos hi, if_pos (hs.fits i hi)]
  exact ⟨_, rfl⟩

theorem slice_none {α : Type} (s : Aligned α) (i : Nat) (hi : s.num ≤ i) : s.slice i = none := by
  unfold Aligned.slice
  rw [if_neg (by omega)]

theorem overwrite_len {α : Type} (old new : List α) (h : new.length ≤ old.length) :
    (overwrite old new).length = old.length := by
  unfold overwrite
  rw [List.length_append, List.length_drop]; omega

/-! ## Vector stores -/

structure Store.Ok {T U : Type} (s : Store T U) (n dim : Nat) : Prop where
  slots : s.data.Ok
  num : s.data.num = n
  width : s.data.dim = s.enc.width
  dim : s.enc.dim = dim
  enc : s.enc.Good

theorem store_set {T U : Type} (s : Store T U) (n dim i : Nat) (v : List T) (hs : s.Ok n dim) (hi : i < n)
    (hv : v.length = dim) :
    ∃ old s', s.data.slice i = some old ∧ s.set i v = some ((s.enc.write v).2, s') ∧ s'.Ok n dim ∧ s'.enc = s.enc ∧
      s'.data.slice i = some (overwrite old (s.enc.write v).1) ∧ ∀ j, j ≠ i → s'.data.slice j = s.data.slice j := by
  have hi' : i < s.data.num := by rw [hs.num]; exact hi
  obtain ⟨old, ho⟩ := slice_some s.data hs.slots i hi'
  have hol := (slice_len ho).1
  have hsh := hs.enc.short v (hv.trans hs.dim.symm)
  obtain ⟨d, h1, h2, h3, h4, h5, h6⟩ := put_spec s.data hs.slots i hi' (overwrite old (s.enc.write v).1)
    (by rw [overwrite_len _ _ (by rw [hol, hs.width]; exact hsh), hol])
  refine ⟨old, { s with data := d }, ho, ?_, ⟨h2, h3.trans hs.num, h4.trans hs.width, hs.dim, hs.enc⟩, rfl, h5, h6⟩
  unfold Store.set
  rw [if_neg (by omega), if_neg (by rw [hs.dim]; simp [hv]), ho]
  dsimp only
  rw [h1]; rfl

theorem store_refuse {T U : Type} (s : Store T U) (n dim i : Nat) (v : List T) (hs : s.Ok n dim)
    (h : n ≤ i ∨ v.length ≠ dim) : s.set i v = some (false, s) := by
  unfold Store.set
  rcases Nat.lt_or_ge i n with h1 | h1
  · rw [if_neg (by rw [hs.num]; omega), if_pos (by rw [hs.dim]; omega)]
  · rw [if_pos (by rw [hs.num]; exact h1)]

theorem overwrite_full {α : Type} (old new : List α) (h : new.length = old.length) : overwrite old new = new := by
  unfold overwrite
  rw [h, List.drop_length, List.append_nil]

theorem copy_good (T : Type) (dim : Nat) (v : List T) (h : v.length = dim) :
    ((copyEncoder T dim).write v) = (v, true) := rfl

/-! ## Neighbours -/

/-- The cells of a slot that hold the list `l`. -/
structure Holds (cap : Nat) (s l : List Nat) : Prop where
  len : s.length = cap + 1
  last : s[cap]? = some l.length
  front : s.take l.length = l
  le : l.length ≤ cap

theorem holds_get {g : Aligned Nat} {cap i : Nat} {s l : List Nat} (hd : g.dim = cap + 1) (hs : g.slice i = some s)
    (h : Holds cap s l) : graphGet g i = some l := by
  unfold graphGet
  rw [hs]
  dsimp only
  rw [hd, Nat.add_sub_cancel, h.last]
  dsimp only
  rw [if_pos (by rw [h.len]; exact Nat.le_succ_of_le h.le), h.front]

theorem get_holds {g : Aligned Nat} {cap i : Nat} {l : List Nat} (hd : g.dim = cap + 1) (h : graphGet g i = some l)
    (hl : l.length ≤ cap) : ∃ s, g.slice i = some s ∧ Holds cap s l := by
  unfold graphGet at h
  cases hs : g.slice i with
  | none => rw [hs] at h; cases h
  | some s =>
    rw [hs] at h
    dsimp only at h
    rw [hd, Nat.add_sub_cancel] at h
    have hlen := (slice_len hs).1
    cases hc : s[cap]? with
    | none => rw [hc] at h; cases h
    | some len =>
      rw [hc] at h
      dsimp only at h
      split at h
      · rename_i hle
        simp only [Option.some.injEq] at h
        have : l.length = len := by rw [← h, List.length_take]; omega
        exact ⟨s, rfl, by omega, by rw [this, hc], by rw [this, h], hl⟩
      · cases h

theorem holds_set (cap : Nat) (s l : List Nat) (hs : s.length = cap + 1) (hl : l.length ≤ cap) :
    Holds cap ((overwrite s l).set cap l.length) l := by
  have h1 := overwrite_len s l (by omega)
  refine ⟨by rw [List.length_set, h1, hs], ?_, ?_, hl⟩
  · rw [List.getElem?_set_self (by omega)]
  · rw [List.take_set_of_le hl]
    unfold overwrite
    rw [List.take_left]

theorem addNew_full (cap : Nat) (l xs : List Nat) (h : cap ≤ l.length) : addNew cap l xs = l := by
  induction xs with
  | nil => rfl
  | cons x xs ih => unfold addNew; rw [if_pos (Or.inr h), ih]

theorem appendLoop_spec (cap : Nat) (xs : List Nat) : ∀ (raw l : List Nat), raw.length = cap + 1 →
    raw.take l.length = l → l.length ≤ cap →
    (appendLoop cap raw l.length xs).1.length = cap + 1 ∧
    (appendLoop cap raw l.length xs).2 = (addNew cap l xs).length ∧
    (appendLoop cap raw l.length xs).1.take (addNew cap l xs).length = addNew cap l xs ∧
    (addNew cap l xs).length ≤ cap := by
  induction xs with
  | nil => intro raw l h1 h2 h3; exact ⟨h1, rfl, h2, h3⟩
  | cons x xs ih =>
    intro raw l h1 h2 h3
    simp only [appendLoop, addNew]
    rw [h2]
    by_cases hx : x ∈ l
    · rw [if_pos hx, if_pos (Or.inl hx)]
      exact ih raw l h1 h2 h3
    · rw [if_neg hx]
      rcases Nat.lt_or_ge l.length cap with hc | hc
      · rw [if_pos hc, if_neg (by rintro (h | h); exacts [hx h, by omega])]
        have := ih (raw.set l.length x) (l ++ [x]) (by rw [List.length_set, h1]) ?_ (by simp; omega)
        · rwa [List.length_append, List.length_singleton] at this
        · have hlt : l.length < (raw.set l.length x).length := by rw [List.length_set]; omega
          rw [List.length_append, List.length_singleton, List.take_succ_eq_append_getElem hlt,
            List.take_set_of_le (Nat.le_refl _), h2]
          simp
      · rw [if_neg (by omega), if_pos (Or.inr hc), addNew_full cap l xs hc]
        exact ⟨h1, rfl, h2, h3⟩

structure GraphOk (g : Aligned Nat) (n cap : Nat) : Prop where
  slots : g.Ok
  num : g.num = n
  dim : g.dim = cap + 1

theorem graph_set (g : Aligned Nat) (n cap i : Nat) (l : List Nat) (hg : GraphOk g n cap) (hi : i < n)
    (hl : l.length ≤ cap) :
    ∃ g', graphSet g i l = some g' ∧ GraphOk g' n cap ∧ graphGet g' i = some l ∧
      ∀ j, j ≠ i → graphGet g' j = graphGet g j := by
  have hi' : i < g.num := by rw [hg.num]; exact hi
  obtain ⟨s, hs⟩ := slice_some g hg.slots i hi'
  have hlen := (slice_len hs).1
  have hh := holds_set cap s l (hlen.trans hg.dim) hl
  obtain ⟨g', h1, h2, h3, h4, h5, h6⟩ := put_spec g hg.slots i hi' _ (hh.len.trans hg.dim.symm)
  refine ⟨g', ?_, ⟨h2, h3.trans hg.num, h4.trans hg.dim⟩, holds_get (h4.trans hg.dim) h5 hh, ?_⟩
  · unfold graphSet
    rw [if_pos (by rw [hg.dim]; omega), hs]
    dsimp only
    rw [hg.dim, Nat.add_sub_cancel, h1]
  · intro j hj
    unfold graphGet
    rw [h6 j hj, h4]

theorem graph_append (g : Aligned Nat) (n cap i : Nat) (l xs : List Nat) (hg : GraphOk g n cap)
    (hget : graphGet g i = some l) (hl : l.length ≤ cap) :
    ∃ g', graphAppend g i xs = some g' ∧ GraphOk g' n cap ∧ graphGet g' i = some (addNew cap l xs) ∧
      (addNew cap l xs).length ≤ cap ∧ ∀ j, j ≠ i → graphGet g' j = graphGet g j := by
  obtain ⟨s, hs, hh⟩ := get_holds hg.dim hget hl
  have hi' := (slice_len hs).2
  obtain ⟨a1, a2, a3, a4⟩ := appendLoop_spec cap xs s l hh.len hh.front hl
  have hnew : Holds cap ((appendLoop cap s l.length xs).1.set cap (appendLoop cap s l.length xs).2)
      (addNew cap l xs) := by
    refine ⟨by rw [List.length_set, a1], ?_, ?_, a4⟩
    · rw [List.getElem?_set_self (by omega), a2]
    · rw [List.take_set_of_le a4, a3]
  obtain ⟨g', h1, h2, h3, h4, h5, h6⟩ := put_spec g hg.slots i hi' _ (hnew.len.trans hg.dim.symm)
  refine ⟨g', ?_, ⟨h2, h3.trans hg.num, h4.trans hg.dim⟩, holds_get (h4.trans hg.dim) h5 hnew, a4, ?_⟩
  · unfold graphAppend
    rw [hs]
    dsimp only
    rw [hg.dim, Nat.add_sub_cancel, hh.last]
    dsimp only
    rw [if_pos (by rw [hh.len]; omega), h1]
  · intro j hj
    unfold graphGet
    rw [h6 j hj, h4]

theorem graph_get_none (g : Aligned Nat) (i : Nat) (h : g.num ≤ i) : graphGet g i = none := by
  unfold graphGet
  rw [slice_none g i h]

/-! ## Deletions -/

theorem mask_bit (i k : Nat) (hk : k < 32) : (delMask i).getLsbD k = decide (k = i % 32) := by
  have : i % 32 < 32 := Nat.mod_lt _ (by decide)
  unfold delMask
  rw [BitVec.getLsbD_shiftLeft]
  by_cases h : k = i % 32
  · subst h; simp [this]
  · rcases Nat.lt_or_ge k (i % 32) with h1 | h1
    · simp [h1, h]
    · have : k - i % 32 ≠ 0 := by omega
      simp [h, BitVec.getLsbD_one, this]

theorem and_mask (w : BitVec 32) (i : Nat) : ((w &&& delMask i) != 0#32) = w.getLsbD (i % 32) := by
  have hlt : i % 32 < 32 := Nat.mod_lt _ (by decide)
  cases hb : w.getLsbD (i % 32) with
  | true =>
    rw [bne_iff_ne]
    intro h
    have := congrArg (fun b => BitVec.getLsbD b (i % 32)) h
    simp only [BitVec.getLsbD_and, hb, mask_bit i _ hlt, BitVec.getLsbD_zero] at this
    simp at this
  | false =>
    rw [bne_eq_false_iff_eq]
    apply BitVec.eq_of_getLsbD_eq
    intro k hk
    rw [BitVec.getLsbD_and, mask_bit i k hk, BitVec.getLsbD_zero]
    by_cases h : k = i % 32
    · rw [h, hb]; simp
    · simp [h]

structure DelsOk (d : Dels) (n : Nat) : Prop where
  max : d.max = n
  words : d.words.length = (n + 31) / 32

theorem dels_get (d : Dels) (n i : Nat) (hd : DelsOk d n) (hi : i < n) :
    ∃ w, d.words[i / 32]? = some w ∧ d.get i = some (w.getLsbD (i % 32)) := by
  have hlt : i / 32 < d.words.length := by rw [hd.words]; omega
  refine ⟨d.words[i / 32], List.getElem?_eq_getElem hlt, ?_⟩
  unfold Dels.get
  rw [if_pos (by rw [hd.max]; exact hi), List.getElem?_eq_getElem hlt, Option.map_some, and_mask]

theorem dels_new (n : Nat) : DelsOk (Dels.new n) n ∧ ∀ i < n, (Dels.new n).get i = some false := by
  have h : DelsOk (Dels.new n) n := ⟨rfl, by simp [Dels.new]⟩
  refine ⟨h, ?_⟩
  intro i hi
  obtain ⟨w, h1, h2⟩ := dels_get _ n i h hi
  rw [h2]
  have : w = 0#32 := by
    have := List.mem_of_getElem? h1
    simp only [Dels.new] at this
    exact List.eq_of_mem_replicate this
  rw [this]; simp

theorem dels_update (d : Dels) (n i : Nat) (f : BitVec 32 → BitVec 32) (b : Bool) (hd : DelsOk d n) (hi : i < n)
    (hf : ∀ w k, k < 32 → (f w).getLsbD k = if k = i % 32 then b else w.getLsbD k) :
    ∃ d', ((if i < d.max then (d.words[i / 32]?).map fun w => { d with words := d.words.set (i / 32) (f w) }
        else none) : Option Dels) = some d' ∧ DelsOk d' n ∧ d'.get i = some b ∧ ∀ j, j ≠ i → d'.get j = d.get j := by
  obtain ⟨w, h1, h2⟩ := dels_get d n i hd hi
  have hlt : i / 32 < d.words.length := by rw [hd.words]; omega
  have h32 : i % 32 < 32 := Nat.mod_lt _ (by decide)
  refine ⟨{ d with words := d.words.set (i / 32) (f w) }, ?_, ⟨hd.max, by simp [hd.words]⟩, ?_, ?_⟩
  · rw [if_pos (by rw [hd.max]; exact hi), h1, Option.map_some]
  · simp only [Dels.get]
    rw [if_pos (by rw [hd.max]; exact hi), List.getElem?_set_self hlt, Option.map_some, and_mask, hf w _ h32]
    simp
  · intro j hj
    simp only [Dels.get]
    by_cases hjn : j < d.max
    · rw [if_pos hjn, if_pos hjn]
      by_cases hw : i / 32 = j / 32
      · have hne : j % 32 ≠ i % 32 := by omega
        have h32j : j % 32 < 32 := Nat.mod_lt _ (by decide)
        rw [← hw, List.getElem?_set_self hlt, h1, Option.map_some, Option.map_some, and_mask, and_mask, hf w _ h32j,
          if_neg hne]
      · rw [List.getElem?_set_ne hw]
    · rw [if_neg hjn, if_neg hjn]

theorem dels_delete (d : Dels) (n i : Nat) (hd : DelsOk d n) (hi : i < n) :
    ∃ d', d.delete i = some d' ∧ DelsOk d' n ∧ d'.get i = some true ∧ ∀ j, j ≠ i → d'.get j = d.get j := by
  apply dels_update d n i (fun w => w ||| delMask i) true hd hi
  intro w k hk
  rw [BitVec.getLsbD_or, mask_bit i k hk]
  split <;> simp_all

theorem dels_undelete (d : Dels) (n i : Nat) (hd : DelsOk d n) (hi : i < n) :
    ∃ d', d.undelete i = some d' ∧ DelsOk d' n ∧ d'.get i = some false ∧ ∀ j, j ≠ i → d'.get j = d.get j := by
  apply dels_update d n i (fun w => w &&& ~~~delMask i) false hd hi
  intro w k hk
  rw [BitVec.getLsbD_and, BitVec.getLsbD_not, mask_bit i k hk]
  split <;> simp_all

theorem clearFrom_spec (n k : Nat) : ∀ (i : Nat) (d : Dels), DelsOk d n → i + k ≤ n →
    ∃ d', Dels.clearFrom k i d = some d' ∧ DelsOk d' n ∧
      ∀ j, d'.get j = if i ≤ j ∧ j < i + k then some false else d.get j := by
  induction k with
  | zero => intro i d hd _; exact ⟨d, rfl, hd, fun j => by rw [if_neg (by omega)]⟩
  | succ k ih =>
    intro i d hd hi
    obtain ⟨d1, h1, h2, h3, h4⟩ := dels_undelete d n i hd (by omega)
    obtain ⟨d2, g1, g2, g3⟩ := ih (i + 1) d1 h2 (by omega)
    refine ⟨d2, ?_, g2, ?_⟩
    · simp only [Dels.clearFrom, h1, Option.bind_some, g1]
    · intro j
      rw [g3]
      by_cases hj : j = i
      · subst hj; rw [if_neg (by omega), if_pos (by omega), h3]
      · by_cases hr : i + 1 ≤ j ∧ j < i + 1 + k
        · rw [if_pos hr, if_pos (by omega)]
        · rw [if_neg hr, if_neg (by omega), h4 j hj]

/-! ## The provider -/

/-- The shape of a provider for `n` ids. -/
structure ProvOk {T U : Type} (p : Prov T U) (n dim cap : Nat) : Prop where
  base : p.base.Ok n dim
  copy : p.base.enc = copyEncoder T dim
  aux : ∀ a, p.aux = some a → a.Ok n dim
  graph : GraphOk p.graph (n + 1) cap
  dels : DelsOk p.dels n

/-- The codes of the provider: nothing without an auxiliary store. -/
def codeOf {T U : Type} (p : Prov T U) (v : List T) : List U :=
  match p.aux with
  | none => []
  | some a => (a.enc.write v).1

/-- The vector can be compressed. -/
def Fine {T U : Type} (p : Prov T U) (v : List T) : Prop := ∀ a, p.aux = some a → (a.enc.write v).2 = true

theorem codeOf_some {T U : Type} {p : Prov T U} {a : Store T U} (h : p.aux = some a) (v : List T) :
    codeOf p v = (a.enc.write v).1 := by
  unfold codeOf; rw [h]

theorem base_set {T U : Type} (p : Prov T U) (n dim cap i : Nat) (v : List T) (hp : ProvOk p n dim cap) (hi : i < n)
    (hv : v.length = dim) :
    ∃ b, setBase p i v = some (true, { p with base := b }) ∧ b.Ok n dim ∧ b.enc = p.base.enc ∧
      b.data.slice i = some v ∧ ∀ j, j ≠ i → b.data.slice j = p.base.data.slice j := by
  obtain ⟨old, b, h1, h2, h3, h4, h5, h6⟩ := store_set p.base n dim i v hp.base hi hv
  have hlen := (slice_len h1).1
  rw [hp.copy] at h2 h5
  simp only [copyEncoder] at h2 h5
  have hw : p.base.data.dim = dim := by rw [hp.base.width, hp.copy]; rfl
  refine ⟨b, ?_, h3, h4, ?_, h6⟩
  · unfold setBase; rw [h2]; rfl
  · rw [h5, overwrite_full _ _ (by omega)]

theorem at_same {α : Type} (f : Nat → α) (i : Nat) (x : α) : at_ f i x i = x := by simp [at_]
theorem at_other {α : Type} (f : Nat → α) (i j : Nat) (x : α) (h : j ≠ i) : at_ f i x j = f j := by simp [at_, h]

/-- What stays the same over a history. -/
structure SameKind {T U : Type} (p q : Prov T U) : Prop where
  aux : p.aux.map Store.enc = q.aux.map Store.enc
  first : p.first = q.first
  last : p.last = q.last

theorem SameKind.rfl' {T U : Type} (p : Prov T U) : SameKind p p := ⟨rfl, rfl, rfl⟩

theorem SameKind.trans {T U : Type} {p q r : Prov T U} (h : SameKind p q) (k : SameKind q r) : SameKind p r :=
  ⟨h.aux.trans k.aux, h.first.trans k.first, h.last.trans k.last⟩

theorem SameKind.code {T U : Type} {p q : Prov T U} (h : SameKind p q) : codeOf p = codeOf q := by
  funext v
  have := h.aux
  unfold codeOf
  cases hp : p.aux <;> cases hq : q.aux <;> rw [hp, hq] at this <;> simp_all

theorem SameKind.fine {T U : Type} {p q : Prov T U} (h : SameKind p q) : Fine p = Fine q := by
  funext v
  have := h.aux
  unfold Fine
  cases hp : p.aux <;> cases hq : q.aux <;> rw [hp, hq] at this <;> simp_all

/-- All lists fit. -/
def ListsFit {T U : Type} (t : Table T U) (n cap : Nat) : Prop := ∀ i ≤ n, (t.nbrs i).length ≤ cap

theorem set_spec {T U : Type} (p : Prov T U) (n dim cap i : Nat) (v : List T) (t : Table T U)
    (hp : ProvOk p n dim cap) (ht : Shows p n t) (hi : i < n) (hv : v.length = dim) (hf : Fine p v) :
    ∃ p', p.set i v = some (true, p') ∧ ProvOk p' n dim cap ∧ SameKind p p' ∧ p'.graph = p.graph ∧ p'.dels = p.dels ∧
      Shows p' n { t with vec := at_ t.vec i v, code := at_ t.code i (codeOf p v) } := by
  unfold Prov.set
  cases ha : p.aux with
  | none =>
    obtain ⟨b, h1, h2, h3, h4, h5⟩ := base_set p n dim cap i v hp hi hv
    refine ⟨_, h1, ⟨h2, h3.trans hp.copy, fun a h => hp.aux a h, hp.graph, hp.dels⟩, ⟨rfl, rfl, rfl⟩, rfl, rfl, ?_⟩
    refine ⟨?_, fun a h => ?_, ht.dead, ht.nbrs⟩
    · intro j hj
      dsimp only
      by_cases hji : j = i
      · subst hji; rw [at_same]; exact h4
      · rw [at_other _ _ _ _ hji, h5 j hji, ht.vec j hj]
    · dsimp only at h; rw [ha] at h; cases h
  | some a =>
    have haok := hp.aux a ha
    obtain ⟨old, a', g1, g2, g3, g4, g5, g6⟩ := store_set a n dim i v haok hi hv
    have hfull := hf a ha
    have hp2 : ProvOk { p with aux := some a' } n dim cap :=
      ⟨hp.base, hp.copy, fun x hx => by cases hx; exact g3, hp.graph, hp.dels⟩
    obtain ⟨b, h1, h2, h3, h4, h5⟩ := base_set { p with aux := some a' } n dim cap i v hp2 hi hv
    dsimp only
    rw [g2, hfull]
    dsimp only
    rw [if_pos rfl]
    refine ⟨_, h1, ⟨h2, h3.trans hp.copy, fun x hx => by cases hx; exact g3, hp.graph, hp.dels⟩,
      ⟨by rw [ha]; simp [g4], rfl, rfl⟩, rfl, rfl, ?_⟩
    refine ⟨?_, fun x hx => ?_, ht.dead, ht.nbrs⟩
    · intro j hj
      dsimp only
      by_cases hji : j = i
      · subst hji; rw [at_same]; exact h4
      · rw [at_other _ _ _ _ hji, h5 j hji]; exact ht.vec j hj
    · cases hx
      intro j hj
      dsimp only
      by_cases hji : j = i
      · subst hji
        rw [at_same, g5, codeOf_some ha, overwrite_full]
        have hol := (slice_len g1).1
        rw [haok.enc.full v (hv.trans haok.dim.symm) hfull, hol, haok.width]
      · rw [at_other _ _ _ _ hji, g6 j hji, ht.code a ha j hj]

theorem step_spec {T U : Type} (p : Prov T U) (n dim cap : Nat) (t : Table T U) (op : Op T)
    (hp : ProvOk p n dim cap) (ht : Shows p n t) (hl : ListsFit t n cap) (hv : op.Valid n dim cap (Fine p)) :
    ∃ p', p.step op = some (true, p') ∧ ProvOk p' n dim cap ∧ SameKind p p' ∧
      Shows p' n (t.step (codeOf p) cap op) ∧ ListsFit (t.step (codeOf p) cap op) n cap := by
  cases op with
  | set i v =>
    obtain ⟨p', h1, h2, h3, -, -, h4⟩ := set_spec p n dim cap i v t hp ht hv.1 hv.2.1 hv.2.2
    exact ⟨p', h1, h2, h3, h4, hl⟩
  | delete i =>
    obtain ⟨d, h1, h2, h3, h4⟩ := dels_delete p.dels n i hp.dels hv
    refine ⟨{ p with dels := d }, ?_, ⟨hp.base, hp.copy, hp.aux, hp.graph, h2⟩, ⟨rfl, rfl, rfl⟩,
      ⟨ht.vec, ht.code, ?_, ht.nbrs⟩, hl⟩
    · simp only [Prov.step, Prov.delete, h1, Option.map_some]
    · intro j hj
      simp only [Table.step]
      by_cases hji : j = i
      · subst hji; rw [at_same, h3]
      · rw [at_other _ _ _ _ hji, h4 j hji, ht.dead j hj]
  | release i =>
    obtain ⟨d, h1, h2, h3, h4⟩ := dels_undelete p.dels n i hp.dels hv
    obtain ⟨g, g1, g2, g3, g4⟩ := graph_set p.graph (n + 1) cap i [] hp.graph (Nat.lt_succ_of_lt hv) (Nat.zero_le _)
    refine ⟨{ p with dels := d, graph := g }, ?_, ⟨hp.base, hp.copy, hp.aux, g2, h2⟩, ⟨rfl, rfl, rfl⟩,
      ⟨ht.vec, ht.code, ?_, ?_⟩, ?_⟩
    · simp only [Prov.step, Prov.release, h1, Option.bind_some, g1, Option.map_some]
    · intro j hj
      simp only [Table.step]
      by_cases hji : j = i
      · subst hji; rw [at_same, h3]
      · rw [at_other _ _ _ _ hji, h4 j hji, ht.dead j hj]
    · intro j hj
      simp only [Table.step]
      by_cases hji : j = i
      · subst hji; rw [at_same, g3]
      · rw [at_other _ _ _ _ hji, g4 j hji, ht.nbrs j hj]
    · intro j hj
      simp only [Table.step]
      by_cases hji : j = i
      · subst hji; rw [at_same]; exact Nat.zero_le _
      · rw [at_other _ _ _ _ hji]; exact hl j hj
  | clear =>
    obtain ⟨d, h1, h2, h3⟩ := clearFrom_spec n n 0 p.dels hp.dels (by omega)
    refine ⟨{ p with dels := d }, ?_, ⟨hp.base, hp.copy, hp.aux, hp.graph, h2⟩, ⟨rfl, rfl, rfl⟩,
      ⟨ht.vec, ht.code, ?_, ht.nbrs⟩, hl⟩
    · simp only [Prov.step, Prov.clear, Dels.clear, hp.dels.max, h1, Option.map_some]
    · intro j hj
      simp only [Table.step]
      rw [h3, if_pos (by omega)]
  | setNbrs i l =>
    obtain ⟨g, g1, g2, g3, g4⟩ := graph_set p.graph (n + 1) cap i l hp.graph (Nat.lt_succ_of_le hv.1) hv.2
    refine ⟨{ p with graph := g }, ?_, ⟨hp.base, hp.copy, hp.aux, g2, hp.dels⟩, ⟨rfl, rfl, rfl⟩,
      ⟨ht.vec, ht.code, ht.dead, ?_⟩, ?_⟩
    · simp only [Prov.step, Prov.setNbrs, g1, Option.map_some]
    · intro j hj
      simp only [Table.step]
      by_cases hji : j = i
      · subst hji; rw [at_same, g3]
      · rw [at_other _ _ _ _ hji, g4 j hji, ht.nbrs j hj]
    · intro j hj
      simp only [Table.step]
      by_cases hji : j = i
      · subst hji; rw [at_same]; exact hv.2
      · rw [at_other _ _ _ _ hji]; exact hl j hj
  | append i xs =>
    obtain ⟨g, g1, g2, g3, g5, g4⟩ := graph_append p.graph (n + 1) cap i (t.nbrs i) xs hp.graph (ht.nbrs i hv)
      (hl i hv)
    refine ⟨{ p with graph := g }, ?_, ⟨hp.base, hp.copy, hp.aux, g2, hp.dels⟩, ⟨rfl, rfl, rfl⟩,
      ⟨ht.vec, ht.code, ht.dead, ?_⟩, ?_⟩
    · simp only [Prov.step, Prov.append, g1, Option.map_some]
    · intro j hj
      simp only [Table.step]
      by_cases hji : j = i
      · subst hji; rw [at_same, g3]
      · rw [at_other _ _ _ _ hji, g4 j hji, ht.nbrs j hj]
    · intro j hj
      simp only [Table.step]
      by_cases hji : j = i
      · subst hji; rw [at_same]; exact g5
      · rw [at_other _ _ _ _ hji]; exact hl j hj

theorem run_spec {T U : Type} (n dim cap : Nat) (ops : List (Op T)) : ∀ (p : Prov T U) (t : Table T U),
    ProvOk p n dim cap → Shows p n t → ListsFit t n cap → (∀ op ∈ ops, op.Valid n dim cap (Fine p)) →
    ∃ p', p.run ops = some (List.replicate ops.length true, p') ∧ ProvOk p' n dim cap ∧ SameKind p p' ∧
      Shows p' n (ops.foldl (Table.step (codeOf p) cap) t) ∧
      ListsFit (ops.foldl (Table.step (codeOf p) cap) t) n cap := by
  induction ops with
  | nil => intro p t h1 h2 h3 _; exact ⟨p, rfl, h1, SameKind.rfl' p, h2, h3⟩
  | cons op ops ih =>
    intro p t h1 h2 h3 h4
    obtain ⟨q, q1, q2, q3, q4, q5⟩ := step_spec p n dim cap t op h1 h2 h3 (h4 op List.mem_cons_self)
    obtain ⟨r, r1, r2, r3, r4, r5⟩ := ih q (t.step (codeOf p) cap op) q2 q4 q5
      (fun o ho => by rw [← q3.fine]; exact h4 o (List.mem_cons_of_mem _ ho))
    rw [← q3.code] at r4 r5
    refine ⟨r, ?_, r2, q3.trans r3, r4, r5⟩
    simp only [Prov.run, q1, r1, Option.map_some]
    rfl

theorem setFrom_spec {T U : Type} (n dim cap : Nat) (vs : List (List T)) : ∀ (i : Nat) (p : Prov T U) (t : Table T U),
    ProvOk p n dim cap → Shows p n t → i + vs.length ≤ n → (∀ v ∈ vs, v.length = dim ∧ Fine p v) →
    ∃ p', setFrom vs i p = some (true, p') ∧ ProvOk p' n dim cap ∧ SameKind p p' ∧
      Shows p' n { t with
        vec := fun j => if i ≤ j then (vs[j - i]?).getD (t.vec j) else t.vec j
        code := fun j => if i ≤ j then ((vs[j - i]?).map (codeOf p)).getD (t.code j) else t.code j } := by
  induction vs with
  | nil =>
    intro i p t h1 h2 _ _
    refine ⟨p, rfl, h1, SameKind.rfl' p, ?_⟩
    simpa using h2
  | cons v vs ih =>
    intro i p t h1 h2 h3 h4
    simp only [List.length_cons] at h3
    obtain ⟨q, q1, q2, q3, -, -, q4⟩ := set_spec p n dim cap i v t h1 h2 (by omega) (h4 v List.mem_cons_self).1
      (h4 v List.mem_cons_self).2
    obtain ⟨r, r1, r2, r3, r4⟩ := ih (i + 1) q _ q2 q4 (by omega)
      (fun w hw => by rw [← q3.fine]; exact h4 w (List.mem_cons_of_mem _ hw))
    refine ⟨r, ?_, r2, q3.trans r3, ?_⟩
    · simp only [setFrom, q1, if_true]
      exact r1
    · rw [← q3.code] at r4
      have e : ∀ {α : Type} (f : Nat → α) (g : List T → α) (j : Nat),
          (if i + 1 ≤ j then ((vs[j - (i + 1)]?).map g).getD (at_ f i (g v) j) else at_ f i (g v) j) =
          (if i ≤ j then (((v :: vs)[j - i]?).map g).getD (f j) else f j) := by
        intro α f g j
        rcases Nat.lt_trichotomy j i with h | h | h
        · rw [if_neg (by omega), if_neg (by omega), at_other _ _ _ _ (by omega)]
        · subst h
          rw [if_neg (by omega), if_pos (Nat.le_refl _), at_same, Nat.sub_self]
          rfl
        · rw [if_pos (by omega), if_pos (by omega), at_other _ _ _ _ (by omega)]
          have : j - i = (j - (i + 1)) + 1 := by omega
          rw [this, List.getElem?_cons_succ]
      have e1 := e t.vec id
      simp only [Option.map_id, id] at e1
      have e2 := e t.code (codeOf p)
      refine ⟨?_, ?_, r4.dead, r4.nbrs⟩
      · intro j hj
        have := r4.vec j hj
        dsimp only at this ⊢
        rw [e1 j] at this
        exact this
      · intro a ha j hj
        have := r4.code a ha j hj
        dsimp only at this ⊢
        rw [e2 j] at this
        exact this


theorem newEmpty_spec {T U : Type} (pl : Places) (zero : T) (uzero : U) (maxPoints frozen dim deg : Nat)
    (enc : Option (Encoder T U)) (r : Nat × Nat) (hpl : pl.Good) (hr : startPoints maxPoints frozen = some r)
    (henc : ∀ e, enc = some e → e.Good ∧ e.dim = dim) :
    ∃ p, newEmpty pl zero uzero maxPoints frozen dim deg enc = some (some p) ∧ ProvOk p (maxPoints + frozen) dim deg ∧
      Shows p (maxPoints + frozen) (Table.empty zero uzero dim ((enc.map Encoder.width).getD 0)) ∧
      p.aux.map Store.enc = enc ∧ p.first = r.1 ∧ p.last = r.2 := by
  obtain ⟨b, b1, b2, b3, b4, b5⟩ := new_ok zero pl.sz pl.base (maxPoints + frozen) dim hpl.base.1 hpl.base.2
  obtain ⟨g, g1, g2, g3, g4, g5⟩ := new_ok 0 4 pl.graph (maxPoints + frozen + 1) (deg + 1) (by decide) hpl.graph
  obtain ⟨d1, d2⟩ := dels_new (maxPoints + frozen)
  have hg : ∀ i ≤ maxPoints + frozen, graphGet g i = some [] := by
    intro i hi
    refine holds_get g4 (g5 i (by omega)) ⟨by simp, ?_, by simp, by simp⟩
    rw [List.getElem?_replicate_of_lt (by omega)]; rfl
  have hbase : (⟨copyEncoder T dim, b⟩ : Store T T).Ok (maxPoints + frozen) dim :=
    ⟨b2, b3, b4, rfl, ⟨fun v hv => Nat.le_of_eq hv, fun v hv _ => hv⟩⟩
  cases he : enc with
  | none =>
    refine ⟨⟨⟨copyEncoder T dim, b⟩, none, g, Dels.new (maxPoints + frozen), r.1, r.2⟩, ?_,
      ⟨hbase, rfl, fun a h => (by cases h), ⟨g2, g3, g4⟩, d1⟩, ⟨b5, fun a h => (by cases h), d2, hg⟩, rfl, rfl, rfl⟩
    simp only [newEmpty, auxNew, graphNew, b1, g1, hr, Option.map_some]
  | some e =>
    obtain ⟨a, a1, a2, a3, a4, a5⟩ := new_ok uzero pl.auxSz pl.aux (maxPoints + frozen) e.width hpl.aux.1 hpl.aux.2
    refine ⟨⟨⟨copyEncoder T dim, b⟩, some ⟨e, a⟩, g, Dels.new (maxPoints + frozen), r.1, r.2⟩, ?_,
      ⟨hbase, rfl, fun x h => (by cases h; exact ⟨a2, a3, a4, (henc e he).2, (henc e he).1⟩), ⟨g2, g3, g4⟩, d1⟩,
      ⟨b5, fun x h => (by cases h; exact a5), d2, hg⟩, rfl, rfl, rfl⟩
    simp only [newEmpty, auxNew, graphNew, b1, g1, a1, hr, Option.map_some]

theorem empty_fit {T U : Type} (zero : T) (uzero : U) (dim w n cap : Nat) :
    ListsFit (Table.empty zero uzero dim w) n cap := fun _ _ => Nat.zero_le _

/-- A set that fails while compressing. -/
theorem failed_spec {T U : Type} (p : Prov T U) (n dim cap i : Nat) (v : List T) (t : Table T U) (a : Store T U)
    (hp : ProvOk p n dim cap) (ht : Shows p n t) (hi : i < n) (hv : v.length = dim) (ha : p.aux = some a)
    (hf : (a.enc.write v).2 = false) :
    ∃ p', p.set i v = some (false, p') ∧ ProvOk p' n dim cap ∧ SameKind p p' ∧
      Shows p' n { t with code := at_ t.code i (overwrite (t.code i) (a.enc.write v).1) } := by
  obtain ⟨old, a', g1, g2, g3, g4, g5, g6⟩ := store_set a n dim i v (hp.aux a ha) hi hv
  refine ⟨{ p with aux := some a' }, ?_, ⟨hp.base, hp.copy, fun x hx => (by cases hx; exact g3), hp.graph, hp.dels⟩,
    ⟨by rw [ha]; simp [g4], rfl, rfl⟩, ⟨ht.vec, ?_, ht.dead, ht.nbrs⟩⟩
  · unfold Prov.set
    rw [ha]
    dsimp only
    rw [g2, hf]
    rfl
  · intro x hx j hj
    cases hx
    dsimp only
    have ho : old = t.code i := by
      have := ht.code a ha i hi
      rw [g1] at this
      exact Option.some.inj this
    by_cases hji : j = i
    · subst hji; rw [at_same, g5, ho]
    · rw [at_other _ _ _ _ hji, g6 j hji]; exact ht.code a ha j hj

/-- A set that is refused. -/
theorem refused_spec {T U : Type} (p : Prov T U) (n dim cap i : Nat) (v : List T) (hp : ProvOk p n dim cap)
    (h : n ≤ i ∨ v.length ≠ dim) : p.set i v = some (false, p) := by
  unfold Prov.set
  cases ha : p.aux with
  | none =>
    dsimp only
    unfold setBase
    rw [store_refuse p.base n dim i v hp.base h]
    rfl
  | some a =>
    dsimp only
    rw [store_refuse a n dim i v (hp.aux a ha) h]
    dsimp only
    rw [if_neg (by simp), ← ha]

theorem dels_none (d : Dels) (n i : Nat) (hd : DelsOk d n) (hi : n ≤ i) :
    d.get i = none ∧ d.delete i = none ∧ d.undelete i = none := by
  have : ¬ i < d.max := by rw [hd.max]; omega
  unfold Dels.get Dels.delete Dels.undelete
  rw [if_neg this, if_neg this, if_neg this]
  exact ⟨rfl, rfl, rfl⟩

theorem graph_none (g : Aligned Nat) (n cap i : Nat) (l : List Nat) (hg : GraphOk g n cap) (hi : n ≤ i) :
    graphGet g i = none ∧ graphSet g i l = none ∧ graphAppend g i l = none := by
  have : g.slice i = none := slice_none g i (by rw [hg.num]; exact hi)
  unfold graphGet graphSet graphAppend
  rw [this]
  refine ⟨rfl, ?_, rfl⟩
  split <;> rfl

theorem graph_long (g : Aligned Nat) (n cap i : Nat) (l : List Nat) (hg : GraphOk g n cap) (hl : cap < l.length) :
    graphSet g i l = none := by
  unfold graphSet
  rw [if_neg (by rw [hg.dim]; omega)]

/-- Every call that returns leaves a provider that shows some table. -/
theorem step_any {T U : Type} (p p' : Prov T U) (n dim cap : Nat) (t : Table T U) (op : Op T) (ok : Bool)
    (hp : ProvOk p n dim cap) (ht : Shows p n t) (hl : ListsFit t n cap) (h : p.step op = some (ok, p')) :
    ProvOk p' n dim cap ∧ SameKind p p' ∧ ∃ t', Shows p' n t' ∧ ListsFit t' n cap := by
  by_cases hv : op.Valid n dim cap (Fine p)
  · obtain ⟨q, q1, q2, q3, q4, q5⟩ := step_spec p n dim cap t op hp ht hl hv
    rw [q1] at h
    cases h
    exact ⟨q2, q3, _, q4, q5⟩
  · cases op with
    | set i v =>
      by_cases hr : n ≤ i ∨ v.length ≠ dim
      · have := refused_spec p n dim cap i v hp hr
        simp only [Prov.step] at h
        rw [this] at h
        cases h
        exact ⟨hp, SameKind.rfl' p, t, ht, hl⟩
      · have hi : i < n := by omega
        have hd : v.length = dim := by omega
        have : ¬ Fine p v := fun hf => hv ⟨hi, hd, hf⟩
        unfold Fine at this
        simp only [not_forall, Bool.not_eq_true] at this
        obtain ⟨a, ha, hf⟩ := this
        obtain ⟨q, q1, q2, q3, q4⟩ := failed_spec p n dim cap i v t a hp ht hi hd ha hf
        simp only [Prov.step] at h
        rw [q1] at h
        cases h
        exact ⟨q2, q3, _, q4, hl⟩
    | delete i =>
      have := (dels_none p.dels n i hp.dels (Nat.le_of_not_lt hv)).2.1
      simp only [Prov.step, Prov.delete, this] at h
      cases h
    | release i =>
      have := (dels_none p.dels n i hp.dels (Nat.le_of_not_lt hv)).2.2
      simp only [Prov.step, Prov.release, this] at h
      cases h
    | clear => exact absurd trivial hv
    | setNbrs i l =>
      have : graphSet p.graph i l = none := by
        rcases Nat.lt_or_ge cap l.length with h1 | h1
        · exact graph_long p.graph (n + 1) cap i l hp.graph h1
        · exact (graph_none p.graph (n + 1) cap i l hp.graph (by
            by_contra hc
            exact hv ⟨by omega, h1⟩)).2.1
      simp only [Prov.step, Prov.setNbrs, this] at h
      cases h
    | append i xs =>
      have := (graph_none p.graph (n + 1) cap i xs hp.graph (by
        by_contra hc
        exact hv (show i ≤ n by omega))).2.2
      simp only [Prov.step, Prov.append, this] at h
      cases h

theorem run_any {T U : Type} (n dim cap : Nat) (ops : List (Op T)) : ∀ (p p' : Prov T U) (t : Table T U) (bs : List Bool),
    ProvOk p n dim cap → Shows p n t → ListsFit t n cap → p.run ops = some (bs, p') →
    ProvOk p' n dim cap ∧ SameKind p p' ∧ ∃ t', Shows p' n t' ∧ ListsFit t' n cap := by
  induction ops with
  | nil =>
    intro p p' t bs h1 h2 h3 h4
    simp only [Prov.run, Option.some.injEq, Prod.mk.injEq] at h4
    obtain ⟨-, rfl⟩ := h4
    exact ⟨h1, SameKind.rfl' p, t, h2, h3⟩
  | cons op ops ih =>
    intro p p' t bs h1 h2 h3 h4
    simp only [Prov.run] at h4
    cases hs : p.step op with
    | none => rw [hs] at h4; cases h4
    | some r =>
      obtain ⟨ok, q⟩ := r
      rw [hs] at h4
      dsimp only at h4
      cases hq : q.run ops with
      | none => rw [hq] at h4; cases h4
      | some w =>
        obtain ⟨ws, w'⟩ := w
        rw [hq] at h4
        simp only [Option.map_some, Option.some.injEq, Prod.mk.injEq] at h4
        obtain ⟨-, rfl⟩ := h4
        obtain ⟨a1, a2, t', a3, a4⟩ := step_any p q n dim cap t op ok h1 h2 h3 hs
        obtain ⟨b1, b2, b3⟩ := ih q w' t' ws a1 a3 a4 hq
        exact ⟨b1, a2.trans b2, b3⟩

theorem pqEncoder_good {T U : Type} (dim chunks : Nat) (code : Nat → List T → Option U) :
    (pqEncoder dim chunks code).Good := by
  have key : ∀ (v : List T) (k c : Nat), (compressFrom code v k c).1.length ≤ k ∧
      ((compressFrom code v k c).2 = true → (compressFrom code v k c).1.length = k) := by
    intro v k
    induction k with
    | zero => intro c; exact ⟨Nat.le_refl _, fun _ => rfl⟩
    | succ k ih =>
      intro c
      simp only [compressFrom]
      cases code c v with
      | none => exact ⟨Nat.zero_le _, fun h => by cases h⟩
      | some x =>
        have := ih (c + 1)
        refine ⟨Nat.succ_le_succ this.1, fun h => ?_⟩
        rw [List.length_cons, this.2 h]
  exact ⟨fun v _ => (key v chunks 0).1, fun v _ h => (key v chunks 0).2 h⟩

theorem pqEncoder_full {T U : Type} (dim chunks : Nat) (code : Nat → List T → Option U) (v : List T) :
    ((pqEncoder dim chunks code).write v).2 = true → ((pqEncoder dim chunks code).write v).1.length = chunks := by
  have key : ∀ (k c : Nat), (compressFrom code v k c).2 = true → (compressFrom code v k c).1.length = k := by
    intro k
    induction k with
    | zero => intro c _; rfl
    | succ k ih =>
      intro c
      simp only [compressFrom]
      cases code c v with
      | none => exact fun h => by cases h
      | some x => exact fun h => by rw [List.length_cons, ih (c + 1) h]
  exact key chunks 0

theorem compressFrom_get {T U : Type} (code : Nat → List T → Option U) (v : List T) (k c : Nat) :
    (∀ j x, (compressFrom code v k c).1[j]? = some x → j < k ∧ code (c + j) v = some x) ∧
    ((compressFrom code v k c).2 = true ↔ ∀ j, j < k → (code (c + j) v).isSome) ∧
    ((compressFrom code v k c).2 = false → code (c + (compressFrom code v k c).1.length) v = none) := by
  induction k generalizing c with
  | zero => exact ⟨fun j x h => by simp [compressFrom] at h, ⟨fun _ j h => absurd h (Nat.not_lt_zero j), fun _ => rfl⟩,
      fun h => by simp [compressFrom] at h⟩
  | succ k ih =>
    obtain ⟨i1, i2, i3⟩ := ih (c + 1)
    cases h : code c v with
    | none =>
      simp only [compressFrom, h]
      refine ⟨fun j x hj => by simp at hj, ⟨fun hf => (by cases hf), fun hf => ?_⟩, fun _ => h⟩
      have := hf 0 (Nat.succ_pos k)
      rw [Nat.add_zero, h] at this
      cases this
    | some x =>
      simp only [compressFrom, h]
      refine ⟨fun j y hj => ?_, ⟨fun hf j hj => ?_, fun hf => ?_⟩, fun hf => ?_⟩
      · cases j with
        | zero =>
          rw [List.getElem?_cons_zero, Option.some.injEq] at hj
          exact ⟨Nat.succ_pos k, by rw [Nat.add_zero, h, hj]⟩
        | succ j =>
          rw [List.getElem?_cons_succ] at hj
          have := i1 j y hj
          exact ⟨by omega, by rw [← this.2]; congr 1; omega⟩
      · cases j with
        | zero => rw [Nat.add_zero, h]; rfl
        | succ j =>
          have := i2.1 hf j (by omega)
          rwa [show c + 1 + j = c + (j + 1) by omega] at this
      · refine i2.2 fun j hj => ?_
        have := hf (j + 1) (by omega)
        rwa [show c + (j + 1) = c + 1 + j by omega] at this
      · have := i3 hf
        rw [List.length_cons]
        rwa [show c + ((compressFrom code v k (c + 1)).1.length + 1) = c + 1 + (compressFrom code v k (c + 1)).1.length by omega]

/-! ## Files -/

theorem mapM_some {α β : Type} (l : List α) (f : α → Option β) (g : α → β) (h : ∀ x ∈ l, f x = some (g x)) :
    l.mapM f = some (l.map g) := by
  induction l with
  | nil => rfl
  | cons a l ih =>
    rw [List.mapM_cons, h a List.mem_cons_self, ih fun x hx => h x (List.mem_cons_of_mem _ hx)]
    rfl

theorem cutRows_flatMap {T : Type} (c : Codec T) (hc : c.Good) (v : List T) :
    cutRows c.sz v.length (v.flatMap c.ser) = v.map c.ser := by
  induction v with
  | nil => rfl
  | cons x v ih =>
    simp only [List.length_cons, cutRows, List.flatMap_cons, List.map_cons]
    rw [List.take_left' (hc.size x), List.drop_left' (hc.size x), ih]

theorem codec_back {T : Type} (c : Codec T) (hc : c.Good) (v : List T) : c.vec v.length (c.row v) = v := by
  unfold Codec.vec Codec.row
  rw [cutRows_flatMap c hc, List.map_map]
  conv => rhs; rw [← List.map_id v]
  exact List.map_congr_left fun x _ => hc.back x

theorem codec_row_len {T : Type} (c : Codec T) (hc : c.Good) (v : List T) : (c.row v).length = v.length * c.sz := by
  unfold Codec.row
  induction v with
  | nil => simp
  | cons x v ih => rw [List.flatMap_cons, List.length_append, hc.size, ih, List.length_cons, Nat.succ_mul, Nat.add_comm]

theorem putFrom_spec {α : Type} (rows : List (List α)) : ∀ (i : Nat) (s : Aligned α), s.Ok → i + rows.length ≤ s.num →
    (∀ r ∈ rows, r.length = s.dim) →
    ∃ s', putFrom rows i s = some s' ∧ s'.Ok ∧ s'.num = s.num ∧ s'.dim = s.dim ∧
      (∀ k r, rows[k]? = some r → s'.slice (i + k) = some r) ∧ ∀ j < i, s'.slice j = s.slice j := by
  induction rows with
  | nil =>
    intro i s hs _ _
    exact ⟨s, rfl, hs, rfl, rfl, fun k r h => by simp at h, fun _ _ => rfl⟩
  | cons r rows ih =>
    intro i s hs hi hr
    simp only [List.length_cons] at hi
    obtain ⟨q, q1, q2, q3, q4, q5, q6⟩ := put_spec s hs i (by omega) r (hr r List.mem_cons_self)
    obtain ⟨w, w1, w2, w3, w4, w5, w6⟩ := ih (i + 1) q q2 (by omega)
      (fun x hx => (hr x (List.mem_cons_of_mem _ hx)).trans q4.symm)
    refine ⟨w, by simp only [putFrom, q1, Option.bind_some, w1], w2, w3.trans q3, w4.trans q4, ?_, ?_⟩
    · intro k x hk
      cases k with
      | zero =>
        simp only [List.getElem?_cons_zero, Option.some.injEq] at hk
        subst hk
        rw [Nat.add_zero, w6 i (by omega), q5]
      | succ k =>
        rw [List.getElem?_cons_succ] at hk
        have := w5 k x hk
        rwa [Nat.add_right_comm, Nat.add_assoc] at this
    · intro j hj
      rw [w6 j (by omega), q6 j (by omega)]

theorem listsFrom_spec (n cap : Nat) (lists : List (List Nat)) : ∀ (i : Nat) (g : Aligned Nat), GraphOk g n cap →
    i + lists.length ≤ n → (∀ l ∈ lists, l.length ≤ cap) →
    ∃ g', listsFrom lists i g = some g' ∧ GraphOk g' n cap ∧
      (∀ k l, lists[k]? = some l → graphGet g' (i + k) = some l) ∧ ∀ j < i, graphGet g' j = graphGet g j := by
  induction lists with
  | nil => intro i g hg _ _; exact ⟨g, rfl, hg, fun k l h => by simp at h, fun _ _ => rfl⟩
  | cons l lists ih =>
    intro i g hg hi hl
    simp only [List.length_cons] at hi
    obtain ⟨q, q1, q2, q3, q4⟩ := graph_set g n cap i l hg (by omega) (hl l List.mem_cons_self)
    obtain ⟨w, w1, w2, w3, w4⟩ := ih (i + 1) q q2 (by omega) (fun x hx => hl x (List.mem_cons_of_mem _ hx))
    refine ⟨w, by simp only [listsFrom, q1, Option.bind_some, w1], w2, ?_, ?_⟩
    · intro k x hk
      cases k with
      | zero =>
        simp only [List.getElem?_cons_zero, Option.some.injEq] at hk
        subst hk
        rw [Nat.add_zero, w4 i (by omega), q3]
      | succ k =>
        rw [List.getElem?_cons_succ] at hk
        have := w3 k x hk
        rwa [Nat.add_right_comm, Nat.add_assoc] at this
    · intro j hj
      rw [w4 j (by omega), q4 j (by omega)]

/-- A store written to a file and read back. -/
theorem store_round_trip {α : Type} (c : Codec α) (hc : c.Good) (zero : α) (addr : Nat) (ha : c.sz ∣ addr) (n dim : Nat)
    (f : Nat → List α) (s : Aligned α) (hd : s.dim = dim) (hn : s.num = n) (hs : ∀ i < n, s.slice i = some (f i))
    (hpos : 0 < dim) (h32 : dim < 2 ^ 32) (hn32 : n < 2 ^ 32) :
    ∃ rows s', s.all = some rows ∧ loadStore c zero addr (saveToBin (rows.map c.row) s.dim) = some s' ∧ s'.Ok ∧
      s'.num = n ∧ s'.dim = dim ∧ ∀ i < n, s'.slice i = some (f i) := by
  have hall : s.all = some ((List.range n).map f) := by
    unfold Aligned.all
    rw [hn]
    exact mapM_some _ _ _ fun i hi => hs i (List.mem_range.1 hi)
  have hlen : ∀ i < n, (f i).length = dim := fun i hi => (slice_len (hs i hi)).1.trans hd
  have hload : loadFromBin c.sz (fun d => List.replicate (d * c.sz) 0)
      (saveToBin (((List.range n).map f).map c.row) s.dim) = .ok (((List.range n).map f).map c.row, s.dim) := by
    apply C70_save_load
    · intro r hr
      obtain ⟨v, hv, rfl⟩ := List.mem_map.1 hr
      obtain ⟨i, hi, rfl⟩ := List.mem_map.1 hv
      rw [codec_row_len c hc, hlen i (List.mem_range.1 hi), hd]
    · rw [hd]; exact Nat.mul_pos hpos hc.pos
    · simpa using hn32
    · rw [hd]; exact h32
  have hrows : (((List.range n).map f).map c.row).map (c.vec dim) = (List.range n).map f := by
    rw [List.map_map]
    conv => rhs; rw [← List.map_id ((List.range n).map f)]
    apply List.map_congr_left
    intro v hv
    obtain ⟨i, hi, rfl⟩ := List.mem_map.1 hv
    have := codec_back c hc (f i)
    rw [hlen i (List.mem_range.1 hi)] at this
    exact this
  obtain ⟨q, q1, q2, q3, q4, -⟩ := new_ok zero c.sz addr n dim hc.line ha
  obtain ⟨w, w1, w2, w3, w4, w5, -⟩ := putFrom_spec ((List.range n).map f) 0 q q2 (by simp [q3]) (by
    intro r hr
    obtain ⟨i, hi, rfl⟩ := List.mem_map.1 hr
    rw [hlen i (List.mem_range.1 hi), q4])
  refine ⟨_, w, hall, ?_, w2, w3.trans q3, w4.trans q4, ?_⟩
  · unfold loadStore
    rw [hload]
    dsimp only
    rw [hd, hrows]
    have : (((List.range n).map f).map c.row).length = n := by simp
    rw [this, q1, Option.bind_some, w1]
  · intro i hi
    have := w5 i (f i) (by rw [List.getElem?_map, List.getElem?_range hi]; rfl)
    rwa [Nat.zero_add] at this

/-- The graph written to a file and read back. -/
theorem graph_round_trip (addr start n cap : Nat) (ha : 4 ∣ addr) (g : Aligned Nat) (hg : GraphOk g (n + 1) cap)
    (f : Nat → List Nat) (hf : ∀ i ≤ n, graphGet g i = some (f i)) (hl : ∀ i ≤ n, (f i).length ≤ cap)
    (hids : ∀ i ≤ n, ∀ x ∈ f i, x < 2 ^ 32) (hcap : cap < 2 ^ 32) (hsz : (n + 1) * (4 + 4 * cap) + 24 < 2 ^ 64)
    (hst : start < 2 ^ 32) :
    ∃ lists g', graphAll g = some lists ∧
      loadLists addr (saveGraph (providerSrc lists 1 (g.dim - 1)) start) = some g' ∧ GraphOk g' (n + 1) cap ∧
      ∀ i ≤ n, graphGet g' i = some (f i) := by
  have hall : graphAll g = some ((List.range (n + 1)).map f) := by
    unfold graphAll
    rw [hg.num]
    exact mapM_some _ _ _ fun i hi => hf i (Nat.lt_succ_iff.1 (List.mem_range.1 hi))
  have hmem : ∀ l ∈ (List.range (n + 1)).map f, ∃ i ≤ n, l = f i := by
    intro l hl
    obtain ⟨i, hi, rfl⟩ := List.mem_map.1 hl
    exact ⟨i, Nat.lt_succ_iff.1 (List.mem_range.1 hi), rfl⟩
  have hsum : ∀ m ≤ n + 1, (((List.range m).map f).map fun l => 4 + 4 * l.length).sum ≤ m * (4 + 4 * cap) := by
    intro m
    induction m with
    | zero => intro _; simp
    | succ m ih =>
      intro hm
      rw [List.range_succ, List.map_append, List.map_append, List.sum_append, Nat.succ_mul]
      have := ih (by omega)
      have := hl m (by omega)
      simp only [List.map_cons, List.map_nil, List.sum_cons, List.sum_nil]
      omega
  have hsave : Saveable (providerSrc ((List.range (n + 1)).map f) 1 cap) start := by
    refine ⟨?_, ?_, ?_, ?_, hst, (by simp [providerSrc])⟩
    · intro l hl' x hx
      obtain ⟨i, hi, rfl⟩ := hmem l hl'
      exact hids i hi x hx
    · intro l hl'
      obtain ⟨i, hi, rfl⟩ := hmem l hl'
      exact Nat.lt_of_le_of_lt (hl i hi) hcap
    · have := hsum (n + 1) (Nat.le_refl _)
      simp only [providerSrc]
      omega
    · intro d hd
      simp only [providerSrc, Option.some.injEq] at hd
      subst hd
      refine ⟨hcap, fun l hl' => ?_⟩
      obtain ⟨i, hi, rfl⟩ := hmem l hl'
      exact hl i hi
  have hload := C68_provider_round_trip ((List.range (n + 1)).map f) 1 cap start hsave (by simp)
  obtain ⟨q, q1, q2, q3, q4, -⟩ := new_ok 0 4 addr (n + 1) (cap + 1) (by decide) ha
  obtain ⟨w, w1, w2, w3, -⟩ := listsFrom_spec (n + 1) cap ((List.range (n + 1)).map f) 0 q ⟨q2, q3, q4⟩ (by simp) (by
    intro l hl'
    obtain ⟨i, hi, rfl⟩ := hmem l hl'
    exact hl i hi)
  refine ⟨_, w, hall, ?_, w2, ?_⟩
  · unfold loadLists
    rw [hg.dim, Nat.add_sub_cancel, hload]
    dsimp only
    have : graphNew addr (((List.range (n + 1)).map f).length - 1) 1 cap = some q := by
      unfold graphNew
      rw [List.length_map, List.length_range, Nat.add_sub_cancel]
      exact q1
    rw [this, Option.bind_some, w1]
  · intro i hi
    have := w3 i (f i) (by rw [List.getElem?_map, List.getElem?_range (by omega)]; rfl)
    rwa [Nat.zero_add] at this

end Verif.Provider
