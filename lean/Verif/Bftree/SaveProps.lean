/-
C118: saving and loading a bf-tree provider.
-/
import Verif.Bftree.SaveLemmas

namespace Verif.Bftree.Save

variable {A B K Z : Type}

/-- What every provider satisfies that was made by a constructor and can be saved: it has start points, its ids fit
their type and it was made for snapshots. -/
structure Savable (i : Info) : Prop where
  starts : i.starts ≠ 0
  snapshot : i.snapshot = true
  usize : i.maxPoints + i.starts < 2 ^ 64
  fits : i.maxPoints + i.starts ≤ 2 ^ (8 * i.idWidth)

/-- No file of the prefix is there. -/
def Fresh (w : World A B K Z) (s : Nat) (pre : List Char) : Prop :=
  w s (paramsName pre) = none ∧ w 0 (vectorsName pre) = none ∧ w 0 (neighborsName pre) = none ∧
  w 0 (codesName pre) = none ∧ w s (dataName pre) = none

/-- The index that was saved under the prefix was saved there: its parameters name this prefix. -/
def InPlace (w : World A B K Z) (s : Nat) (pre : List Char) : Prop :=
  ∀ p, readParams w s pre = some p → p.pre = pre

theorem idsFit_paramsOf {i : Info} (h : Savable i) (q : Bool) (pre : List Char) :
    idsFit (paramsOf i q pre) i.idWidth = true := by
  have h1 := h.usize
  have h2 := h.fits
  simp only [idsFit, paramsOf, decide_eq_true_eq]
  exact ⟨trivial, h1, h2⟩

/-- What the files hold after the changes of a save without quantization. -/
theorem savePlain_writes {i : Info} (h : Savable i) {moments : Nat → Trees A B K Z} (s : Nat) (pre : List Char)
    (hq : ∀ k, (moments k).quant.isSome = false) :
    save i moments s pre =
      (writeFile s (paramsName pre) (.params (paramsOf i false pre)) ++
        writeFile 0 (vectorsName pre) (.vectors (moments 0).vectors) ++
        writeFile 0 (neighborsName pre) (.neighbors (moments 1).neighbors), true) := by
  have h2 : (moments 2).quant = none := by have := hq 2; simpa using this
  simp [save, h.starts, h.snapshot, hq 0, h2, saveQuant]

theorem saveQuant_writes {i : Info} (h : Savable i) {moments : Nat → Trees A B K Z} (s : Nat) (pre : List Char)
    (hq : ∀ k, (moments k).quant.isSome = true) :
    ∃ c z, (moments 2).quant = some c ∧ (moments 3).quant = some z ∧ save i moments s pre =
      (writeFile s (paramsName pre) (.params (paramsOf i true pre)) ++
        writeFile 0 (vectorsName pre) (.vectors (moments 0).vectors) ++
        writeFile 0 (neighborsName pre) (.neighbors (moments 1).neighbors) ++
        (writeFile 0 (codesName pre) (.codes c.1) ++ writeFile s (dataName pre) (.quantizer z.2)), true) := by
  obtain ⟨c, h2⟩ := Option.isSome_iff_exists.1 (hq 2)
  obtain ⟨z, h3⟩ := Option.isSome_iff_exists.1 (hq 3)
  exact ⟨c, z, h2, h3, by simp [save, h.starts, h.snapshot, hq 0, h2, h3, saveQuant]⟩

theorem infoOf_paramsOf (i : Info) (q : Bool) (pre : List Char) :
    infoOf (paramsOf i q pre) i.metric i.idWidth i.elem = i := rfl

/-- **C118**: what a load yields after a save that went well, over any files that were there before: each store as it
was when the save reached it, and all the parameters. -/
theorem C118_saved (i : Info) (h : Savable i) (moments : Nat → Trees A B K Z) (w : World A B K Z) (s : Nat)
    (pre : List Char) (q : Bool) (hq : ∀ k, (moments k).quant.isSome = q) :
    (save i moments s pre).2 = true ∧
    load q (w.apply (save i moments s pre).1) s pre i.idWidth i.elem =
      some (i, { vectors := (moments 0).vectors, neighbors := (moments 1).neighbors,
                 quant := match (moments 2).quant, (moments 3).quant with
                   | some c, some z => some (c.1, z.2)
                   | _, _ => none }) := by
  have hfit := idsFit_paramsOf h q pre
  cases q with
  | false =>
    have h2 : (moments 2).quant = none := by have := hq 2; simpa using this
    rw [savePlain_writes h s pre hq, h2]
    refine ⟨rfl, ?_⟩
    simp only [load, Bool.false_eq_true, if_false]
    exact loadPlain_of (p := paramsOf i false pre) i.elem
      (by simp [readParams, World.apply, World.put, writeFile])
      hfit (fromStr_asStr _) (by simp [readVectors, World.apply, World.put, writeFile, paramsOf])
      (by simp [readNeighbors, World.apply, World.put, writeFile, paramsOf])
  | true =>
    obtain ⟨c, z, h2, h3, hs⟩ := saveQuant_writes h s pre hq
    rw [hs, h2, h3]
    refine ⟨rfl, ?_⟩
    simp only [load, if_true]
    exact loadQuant_of (p := paramsOf i true pre) i.elem
      (by simp [readParams, World.apply, World.put, writeFile])
      hfit rfl (fromStr_asStr _) (by simp [readVectors, World.apply, World.put, writeFile, paramsOf])
      (by simp [readNeighbors, World.apply, World.put, writeFile, paramsOf])
      (by simp [readQuantizer, World.apply, World.put, writeFile, paramsOf])
      (by simp [readCodes, World.apply, World.put, writeFile, paramsOf])

/-- **C118**: a provider on which no call runs while it is saved is the same after loading. -/
theorem C118_round_trip (i : Info) (h : Savable i) (t : Trees A B K Z) (w : World A B K Z) (s : Nat)
    (pre : List Char) :
    (save i (fun _ => t) s pre).2 = true ∧
    load t.quant.isSome (w.apply (save i (fun _ => t) s pre).1) s pre i.idWidth i.elem = some (i, t) := by
  obtain ⟨h1, h2⟩ := C118_saved i h (fun _ => t) w s pre t.quant.isSome fun _ => rfl
  refine ⟨h1, h2.trans ?_⟩
  obtain ⟨a, b, c⟩ := t
  cases c <;> rfl

/-- **C118**: a provider with quantization can be loaded without it. -/
theorem C118_plain_of_quant (i : Info) (h : Savable i) (t : Trees A B K Z) (hq : t.quant.isSome = true)
    (w : World A B K Z) (s : Nat) (pre : List Char) :
    load false (w.apply (save i (fun _ => t) s pre).1) s pre i.idWidth i.elem = some (i, { t with quant := none }) := by
  obtain ⟨c, z, h2, h3, hs⟩ := saveQuant_writes h (moments := fun _ => t) s pre fun _ => hq
  rw [hs]
  simp only [load, Bool.false_eq_true, if_false]
  exact loadPlain_of (p := paramsOf i true pre) i.elem
      (by simp [readParams, World.apply, World.put, writeFile])
      (idsFit_paramsOf h true pre) (fromStr_asStr _)
      (by simp [readVectors, World.apply, World.put, writeFile, paramsOf])
      (by simp [readNeighbors, World.apply, World.put, writeFile, paramsOf])

/-- **C118**: a provider saved with ids of another width is not loaded, and one saved without quantization is not
loaded with it. -/
theorem C118_wrong_kind (i : Info) (h : Savable i) (t : Trees A B K Z) (w : World A B K Z) (s : Nat)
    (pre : List Char) (q : Bool) (width : Nat) (elem : Dtype)
    (hw : width ≠ i.idWidth ∨ (q = true ∧ t.quant = none)) :
    load q (w.apply (save i (fun _ => t) s pre).1) s pre width elem = none := by
  have hp : readParams (w.apply (save i (fun _ => t) s pre).1) s pre = some (paramsOf i t.quant.isSome pre) := by
    cases hq : t.quant.isSome with
    | false =>
      rw [savePlain_writes h s pre fun _ => hq]
      simp [readParams, World.apply, World.put, writeFile]
    | true =>
      obtain ⟨c, z, h2, h3, hs⟩ := saveQuant_writes h (moments := fun _ => t) s pre fun _ => hq
      rw [hs]
      simp [readParams, World.apply, World.put, writeFile]
  rcases hw with hw | ⟨rfl, hn⟩
  · have hf : idsFit (paramsOf i t.quant.isSome pre) width = false := by
      refine Bool.eq_false_iff.2 fun hh => ?_
      exact hw (of_decide_eq_true hh).1.symm
    cases q <;> simp [load, loadPlain, loadQuant, hp, hf]
  · have hf : (paramsOf i t.quant.isSome pre).quant = false := by simp [paramsOf, hn]
    simp only [load, if_true, loadQuant, hp, Option.bind_eq_bind, Option.bind_some, hf]
    cases idsFit (paramsOf i t.quant.isSome pre) width <;> rfl

/-- The changes of a save, all or the first of them, are changes of the five files of the prefix. -/
theorem save_mem {i : Info} {moments : Nat → Trees A B K Z} {s : Nat} {pre : List Char} {x : Write A B K Z}
    (hx : x ∈ (save i moments s pre).1) :
    (x.storage = s ∧ (x.name = paramsName pre ∨ x.name = dataName pre)) ∨
    (x.storage = 0 ∧ (x.name = vectorsName pre ∨ x.name = neighborsName pre ∨ x.name = codesName pre)) := by
  unfold save at hx
  split at hx
  · simp at hx
  · dsimp only at hx
    split at hx
    · simp [writeFile] at hx
      rcases hx with rfl | rfl <;> simp
    · unfold saveQuant at hx
      split at hx <;> simp [writeFile] at hx
      · rcases hx with rfl | rfl | rfl | rfl | rfl | rfl | rfl | rfl | rfl | rfl <;> simp
      · rcases hx with rfl | rfl | rfl | rfl | rfl | rfl <;> simp

theorem apply_other {l : List (Write A B K Z)} {s : Nat} {n : List Char} :
    ∀ (w : World A B K Z), (∀ x ∈ l, ¬ (s = x.storage ∧ n = x.name)) → w.apply l s n = w s n := by
  induction l with
  | nil => intro w _; rfl
  | cons x l ih =>
    intro w h
    have := ih (w.put x) fun y hy => h y (by simp [hy])
    simp only [World.apply, List.foldl_cons] at this ⊢
    rw [this]
    simp [World.put, h x (by simp)]

/-- **C118**: a save, also one that fails or is cut off by a crash at any point, changes nothing about an index saved
in place under another prefix, in whatever storage either of them is. -/
theorem C118_others (i : Info) (moments : Nat → Trees A B K Z) (w : World A B K Z) (s s' : Nat)
    (pre other : List Char) (hne : other ≠ pre) (hin : InPlace w s' other) (k : Nat) (q : Bool) (width : Nat)
    (elem : Dtype) :
    load q (w.apply ((save i moments s pre).1.take k)) s' other width elem = load q w s' other width elem := by
  have key : ∀ s₁ n, (n = paramsName other ∨ n = dataName other ∨ n = vectorsName other ∨ n = neighborsName other ∨
      n = codesName other) → w.apply ((save i moments s pre).1.take k) s₁ n = w s₁ n := by
    intro s₁ n hn
    refine apply_other w fun x hx hh => ?_
    obtain ⟨-, hh⟩ := hh
    rcases save_mem (List.mem_of_mem_take hx) with ⟨-, h | h⟩ | ⟨-, h | h | h⟩ <;> rw [h] at hh <;>
      rcases hn with hn | hn | hn | hn | hn <;> rw [hn] at hh <;> simp at hh <;> exact hne hh
  refine load_congr q width elem ?_ ?_
  · simp only [readParams, key s' (paramsName other) (by simp)]
  · intro p hp
    rw [hin p hp]
    exact ⟨by simp only [readVectors, key 0 (vectorsName other) (by simp)],
      by simp only [readNeighbors, key 0 (neighborsName other) (by simp)],
      by simp only [readCodes, key 0 (codesName other) (by simp)],
      by simp only [readQuantizer, key s' (dataName other) (by simp)]⟩

/-- **C118**: under a prefix that has no files yet a save is all or nothing: whatever point it is cut off at, loading
fails, unless all of it was done. -/
theorem C118_fresh_crash (i : Info) (h : Savable i) (moments : Nat → Trees A B K Z) (w : World A B K Z) (s : Nat)
    (pre : List Char) (q : Bool) (hq : ∀ k, (moments k).quant.isSome = q) (hf : Fresh w s pre) (k : Nat)
    (hk : k < (save i moments s pre).1.length) (width : Nat) (elem : Dtype) :
    load q (w.apply ((save i moments s pre).1.take k)) s pre width elem = none := by
  obtain ⟨f1, f2, f3, f4, f5⟩ := hf
  cases q with
  | false =>
    rw [savePlain_writes h s pre hq] at hk ⊢
    simp only [writeFile, List.cons_append, List.nil_append, List.length_cons, List.length_nil] at hk ⊢
    have hk' : k = 0 ∨ k = 1 ∨ k = 2 ∨ k = 3 ∨ k = 4 ∨ k = 5 := by omega
    rcases hk' with rfl | rfl | rfl | rfl | rfl | rfl
    · exact load_none_params _ _ _ (by simp [readParams, World.apply, f1])
    · exact load_none_params _ _ _ (by simp [readParams, World.apply, World.put])
    · exact load_none_vectors (p := paramsOf i false pre) _ _ _ (by simp [readParams, World.apply, World.put])
        (by simp [readVectors, World.apply, World.put, paramsOf, f2])
    · exact load_none_vectors (p := paramsOf i false pre) _ _ _ (by simp [readParams, World.apply, World.put])
        (by simp [readVectors, World.apply, World.put, paramsOf])
    · exact load_none_neighbors (p := paramsOf i false pre) _ _ _ (by simp [readParams, World.apply, World.put])
        (by simp [readNeighbors, World.apply, World.put, paramsOf, f3])
    · exact load_none_neighbors (p := paramsOf i false pre) _ _ _ (by simp [readParams, World.apply, World.put])
        (by simp [readNeighbors, World.apply, World.put, paramsOf])
  | true =>
    obtain ⟨c, z, h2, h3, hs⟩ := saveQuant_writes h s pre hq
    rw [hs] at hk ⊢
    simp only [writeFile, List.cons_append, List.nil_append, List.length_cons, List.length_nil] at hk ⊢
    have hk' : k = 0 ∨ k = 1 ∨ k = 2 ∨ k = 3 ∨ k = 4 ∨ k = 5 ∨ k = 6 ∨ k = 7 ∨ k = 8 ∨ k = 9 := by omega
    rcases hk' with rfl | rfl | rfl | rfl | rfl | rfl | rfl | rfl | rfl | rfl
    · exact load_none_params _ _ _ (by simp [readParams, World.apply, f1])
    · exact load_none_params _ _ _ (by simp [readParams, World.apply, World.put])
    · exact load_none_vectors (p := paramsOf i true pre) _ _ _ (by simp [readParams, World.apply, World.put])
        (by simp [readVectors, World.apply, World.put, paramsOf, f2])
    · exact load_none_vectors (p := paramsOf i true pre) _ _ _ (by simp [readParams, World.apply, World.put])
        (by simp [readVectors, World.apply, World.put, paramsOf])
    · exact load_none_neighbors (p := paramsOf i true pre) _ _ _ (by simp [readParams, World.apply, World.put])
        (by simp [readNeighbors, World.apply, World.put, paramsOf, f3])
    · exact load_none_neighbors (p := paramsOf i true pre) _ _ _ (by simp [readParams, World.apply, World.put])
        (by simp [readNeighbors, World.apply, World.put, paramsOf])
    all_goals simp only [load, if_true]
    · exact loadQuant_none_codes (p := paramsOf i true pre) _ _ (by simp [readParams, World.apply, World.put])
        (by simp [readCodes, World.apply, World.put, paramsOf, f4])
    · exact loadQuant_none_codes (p := paramsOf i true pre) _ _ (by simp [readParams, World.apply, World.put])
        (by simp [readCodes, World.apply, World.put, paramsOf])
    · exact loadQuant_none_quantizer (p := paramsOf i true pre) _ _ (by simp [readParams, World.apply, World.put])
        (by simp [readQuantizer, World.apply, World.put, paramsOf, f5])
    · exact loadQuant_none_quantizer (p := paramsOf i true pre) _ _ (by simp [readParams, World.apply, World.put])
        (by simp [readQuantizer, World.apply, World.put, paramsOf])

/-- **C118**: without snapshots a save fails, and under a prefix that has no files yet nothing can be loaded then. -/
theorem C118_no_snapshot (i : Info) (h : i.snapshot = false) (moments : Nat → Trees A B K Z) (w : World A B K Z)
    (s : Nat) (pre : List Char) (hf : Fresh w s pre) (q : Bool) (width : Nat) (elem : Dtype) :
    (save i moments s pre).2 = false ∧
    load q (w.apply (save i moments s pre).1) s pre width elem = none := by
  by_cases h0 : i.starts = 0
  · simp only [save, if_pos h0, true_and]
    exact load_none_params _ _ _ (by simp [readParams, World.apply, hf.1])
  · simp only [save, if_neg h0, h, if_true, true_and]
    exact load_none_vectors (p := paramsOf i (moments 0).quant.isSome pre) _ _ _
      (by simp [readParams, World.apply, World.put, writeFile])
      (by simp [readVectors, World.apply, World.put, writeFile, paramsOf, hf.2.1])

/-! ### Refuted -/

/-- Numbers stand for the contents of the stores. -/
abbrev Demo := World Nat Nat Nat Nat

/-- A provider with `d` dimensions. -/
def demoInfo (d : Nat) : Info where
  maxPoints := 100
  starts := 1
  dim := d
  metric := .l2
  maxDegree := 8
  graph := some ⟨.u8, 7⟩
  snapshot := true
  idWidth := 4
  elem := .u8

theorem demoInfo_savable (d : Nat) : Savable (demoInfo d) := by
  constructor <;> simp [demoInfo]

/-- No files. -/
def none₀ : Demo := fun _ _ => none

/-- **C118**, refuted: a save over an existing index is not all or nothing.  Cut off between two files, it leaves the
new vectors with the old neighbours, and loading succeeds. -/
theorem C118_crash_refuted :
    ¬ ∀ (old new : Trees Nat Nat Nat Nat) (k : Nat),
      let w := none₀.apply (save (demoInfo 2) (fun _ => old) 0 ['x']).1
      let r := load false (w.apply ((save (demoInfo 2) (fun _ => new) 0 ['x']).1.take k)) 0 ['x'] 4 .u8
      r = none ∨ r = some (demoInfo 2, old) ∨ r = some (demoInfo 2, new) := by
  intro h
  have := h ⟨1, 2, none⟩ ⟨11, 12, none⟩ 4
  revert this
  decide

/-- **C118**, refuted: a save that fails leaves the saved index alone.  A save without snapshots answers with an error
after it has replaced the parameters: the old vectors are loaded with another dimension. -/
theorem C118_failed_refuted :
    ¬ ∀ (i : Info) (old new : Trees Nat Nat Nat Nat), (save i (fun _ => new) 0 ['x']).2 = false →
      let w := none₀.apply (save (demoInfo 2) (fun _ => old) 0 ['x']).1
      load false (w.apply (save i (fun _ => new) 0 ['x']).1) 0 ['x'] 4 .u8 = load false w 0 ['x'] 4 .u8 := by
  intro h
  have := h { demoInfo 3 with snapshot := false } ⟨1, 2, none⟩ ⟨11, 12, none⟩ (by decide)
  revert this
  decide

/-- The files of prefix `a` copied to prefix `b`. -/
def copyFiles (w : Demo) (a b : List Char) : Demo := fun s n =>
  if n = paramsName b then w s (paramsName a) else if n = vectorsName b then w s (vectorsName a)
  else if n = neighborsName b then w s (neighborsName a) else if n = codesName b then w s (codesName a)
  else if n = dataName b then w s (dataName a) else w s n

/-- **C118**, refuted: a copy of the files under another prefix is a copy of the index.  Loading the copy opens the
trees of the prefix it was saved under, with whatever was saved there since. -/
theorem C118_copy_refuted :
    ¬ ∀ (old new : Trees Nat Nat Nat Nat),
      let w := copyFiles (none₀.apply (save (demoInfo 2) (fun _ => old) 0 ['x']).1) ['x'] ['y']
      load false (w.apply (save (demoInfo 2) (fun _ => new) 0 ['x']).1) 0 ['y'] 4 .u8 = some (demoInfo 2, old) := by
  intro h
  have := h ⟨1, 2, none⟩ ⟨11, 12, none⟩
  revert this
  decide

/-- **C118**, refuted: indexes in two storages are separate.  The trees of both are files of the file system. -/
theorem C118_storage_refuted :
    ¬ ∀ (a b : Trees Nat Nat Nat Nat),
      let w := none₀.apply (save (demoInfo 2) (fun _ => a) 1 ['x']).1
      load false (w.apply (save (demoInfo 2) (fun _ => b) 2 ['x']).1) 1 ['x'] 4 .u8 = some (demoInfo 2, a) := by
  intro h
  have := h ⟨1, 2, none⟩ ⟨11, 12, none⟩
  revert this
  decide

/-- **C118**, refuted: the element type that is saved with an index is compared with the one it is loaded for.  An index
of unsigned bytes is loaded as one of signed bytes. -/
theorem C118_dtype_refuted :
    ¬ ∀ (t : Trees Nat Nat Nat Nat) (elem : Dtype),
      let w := none₀.apply (save (demoInfo 2) (fun _ => t) 0 ['x']).1
      (∃ r, load false w 0 ['x'] 4 elem = some r) → (demoInfo 2).graph.map (·.dtype) = some elem := by
  intro h
  have := h ⟨1, 2, none⟩ .i8 ⟨_, by rfl⟩
  revert this
  decide

/-- **C118**, refuted: an index that is saved while calls run is an index that was there at some moment.  The vectors
are those from before a call, the codes those from after it. -/
theorem C118_moment_refuted :
    ¬ ∀ (moments : Nat → Trees Nat Nat Nat Nat), (∀ k, (moments k).quant.isSome = true) →
      ∀ r, load true (none₀.apply (save (demoInfo 2) moments 0 ['x']).1) 0 ['x'] 4 .u8 = some r →
        ∃ k, r.2 = moments k := by
  intro h
  obtain ⟨k, hk⟩ := h (fun k => if k < 2 then ⟨1, 2, some (3, 4)⟩ else ⟨11, 12, some (13, 4)⟩)
    (by intro k; split <;> rfl) (demoInfo 2, ⟨1, 2, some (13, 4)⟩) (by decide)
  split at hk <;> simp at hk

/-! ### Examples -/

/-- An index is saved over another one and loaded. -/
example : load true ((none₀.apply (save (demoInfo 3) (fun _ => ⟨5, 6, none⟩) 0 ['x']).1).apply
      (save (demoInfo 2) (fun _ => ⟨1, 2, some (3, 4)⟩) 0 ['x']).1) 0 ['x'] 4 .u8 =
    some (demoInfo 2, ⟨1, 2, some (3, 4)⟩) := by decide

/-- Eleven points of a crash of a save of ten changes: only the last one can be loaded. -/
example : (List.range 11).map (fun k => (load true (none₀.apply
      ((save (demoInfo 2) (fun _ => ⟨1, 2, some (3, 4)⟩) 0 ['x']).1.take k)) 0 ['x'] 4 .u8).isSome) =
    [false, false, false, false, false, false, false, false, false, false, true] := by decide

example : Fresh none₀ 0 ['x'] := ⟨rfl, rfl, rfl, rfl, rfl⟩

/-- An index that was saved in place, beside another prefix that begins like it. -/
example : InPlace (none₀.apply (save (demoInfo 2) (fun _ => ⟨1, 2, none⟩) 0 ['x', 'y']).1) 0 ['x', 'y'] := by
  intro p hp
  have : readParams (none₀.apply (save (demoInfo 2) (fun _ => ⟨1, 2, none⟩) 0 ['x', 'y']).1) 0 ['x', 'y'] =
      some (paramsOf (demoInfo 2) false ['x', 'y']) := rfl
  rw [this] at hp
  cases hp
  rfl

end Verif.Bftree.Save
