import Verif.Disk.GraphFileLemmas
import Verif.Disk.GraphFileSpec
import Verif.Graph.UpdateProps

/-!
# C68: graph files, C69: the graph of a disk index

C68. A graph that is saved and loaded again has the same adjacency lists, maximum degree and start points; a file that
lost its end is refused; what a save that was cut short leaves is never taken for anything but a leading part of the
graph.

C69. Converting an in-memory graph to a disk graph keeps all points reachable.
-/

namespace Verif.Disk

/-- How a load goes, given the header fields. -/
theorem loadGraph_header (create : Nat → Nat → Nat → Bool) (a b c d rest : List Byte) (ha : a.length = 8)
    (hb : b.length = 4) (hc : c.length = 4) (hd : d.length = 8) :
    loadGraph create (a ++ b ++ c ++ d ++ rest) =
      match scanGraph (a ++ b ++ c ++ d ++ rest) (leDecode a) 24 0 with
      | none => .err
      | some (_, numPoints) =>
        if create numPoints (leDecode b) (leDecode d) then
          match readLists (a ++ b ++ c ++ d ++ rest) (leDecode a) (leDecode b) 24 [] with
          | .panic => .panic
          | .err => .err
          | .ok lists => .ok ⟨lists, leDecode b, leDecode c, leDecode d⟩
        else .err := by
  have r : ∀ (k : Nat) (pre x post : List Byte) (pos : Nat), pos = pre.length → x.length = k →
      readAt k (pre ++ (x ++ post)) pos = some (leDecode x) := by
    intro k pre x post pos hp hx
    subst hp
    unfold readAt
    rw [if_pos (by simp only [List.length_append]; omega), List.drop_append_of_le_length (Nat.le_refl _),
      List.drop_of_length_le (Nat.le_refl _), List.nil_append, List.take_append_of_le_length (by omega),
      List.take_of_length_le (by omega)]
  have h1 : readAt 8 (a ++ b ++ c ++ d ++ rest) 0 = some (leDecode a) := by
    have := r 8 [] a (b ++ c ++ d ++ rest) 0 rfl ha
    simpa [List.append_assoc] using this
  have h2 : readAt 4 (a ++ b ++ c ++ d ++ rest) 8 = some (leDecode b) := by
    have := r 4 a b (c ++ d ++ rest) 8 ha.symm hb
    simpa [List.append_assoc] using this
  have h3 : readAt 4 (a ++ b ++ c ++ d ++ rest) 12 = some (leDecode c) := by
    have := r 4 (a ++ b) c (d ++ rest) 12 (by rw [List.length_append]; omega) hc
    simpa [List.append_assoc] using this
  have h4 : readAt 8 (a ++ b ++ c ++ d ++ rest) 16 = some (leDecode d) := by
    have := r 8 (a ++ b ++ c) d rest 16 (by simp only [List.length_append]; omega) hd
    simpa [List.append_assoc] using this
  unfold loadGraph
  rw [h1, h2, h3, h4]
  dsimp only
  generalize scanGraph _ _ _ _ = x
  rcases x with _ | ⟨_, k⟩
  · rfl
  · dsimp only
    split
    · generalize readLists _ _ _ _ _ = y
      rcases y with _ | _ | l <;> rfl
    · rfl

theorem loadGraph_short (create : Nat → Nat → Nat → Bool) (file : List Byte) (h : file.length < 24) :
    loadGraph create file = .err := by
  have h4 : readAt 8 file 16 = none := by unfold readAt; rw [if_neg (by omega)]
  unfold loadGraph
  rw [h4]
  split
  · simp_all
  · rfl

theorem sum_eq_length (ls : List (List Nat)) : (ls.map fun l => 4 + 4 * l.length).sum = (listsBytes ls).length := by
  induction ls with
  | nil => rfl
  | cons l ls ih =>
    rw [listsBytes_cons, List.length_append, listBytes_length, List.map_cons, List.sum_cons, ih]; omega

theorem Saveable.size' {g : GraphSrc} {start : Nat} (h : Saveable g start) : indexSize g.lists < 256 ^ 8 := by
  have := h.size
  rw [sum_eq_length] at this
  rw [indexSize_eq]
  have e : (256 : Nat) ^ 8 = 2 ^ 64 := by decide
  omega

theorem Saveable.listsOk {g : GraphSrc} {start : Nat} (h : Saveable g start) : ListsOk g.lists :=
  fun l hl => ⟨h.lens l hl, h.ids l hl⟩

/-- The maximum degree written. -/
theorem Saveable.degree' {g : GraphSrc} {start : Nat} (h : Saveable g start) :
    g.maxDegree.getD (observedDegree g.lists) < 256 ^ 4 ∧
    ∀ l ∈ g.lists, l.length ≤ g.maxDegree.getD (observedDegree g.lists) := by
  have e : (256 : Nat) ^ 4 = 2 ^ 32 := by decide
  cases hm : g.maxDegree with
  | some d =>
    obtain ⟨h1, h2⟩ := h.degree d hm
    exact ⟨by simp only [Option.getD_some]; omega, h2⟩
  | none =>
    obtain ⟨h1, -, h3⟩ := observed_ge g.lists 0
    refine ⟨?_, h1⟩
    simp only [Option.getD_none]
    unfold observedDegree
    rcases h3 with h3 | ⟨l, hl, h3⟩
    · omega
    · have := h.lens l hl; omega

/-! ### C68 -/

/-- C68. The saved file has the documented layout, with the configured maximum degree or, without one, the length of
the longest list. -/
theorem C68_layout (g : GraphSrc) (start : Nat) :
    (∃ d, saveGraph g start = graphFileBytes d start g.additional g.lists ∧
      (∀ c, g.maxDegree = some c → d = c) ∧
      (g.maxDegree = none → (∀ l ∈ g.lists, l.length ≤ d) ∧ (g.lists ≠ [] → ∃ l ∈ g.lists, l.length = d))) := by
  refine ⟨g.maxDegree.getD (observedDegree g.lists), ?_, ?_, ?_⟩
  · rw [saved_header, indexSize_eq]; rfl
  · rintro c h; simp [h]
  · intro h
    obtain ⟨h1, -, h3⟩ := observed_ge g.lists 0
    rw [h, Option.getD_none]
    refine ⟨h1, fun hne => ?_⟩
    rcases h3 with h3 | ⟨l, hl, h3⟩
    · cases hl : g.lists with
      | nil => exact absurd hl hne
      | cons l ls =>
        refine ⟨l, List.mem_cons_self, ?_⟩
        have := h1 l (by rw [hl]; exact List.mem_cons_self)
        unfold observedDegree
        rw [hl] at this h3
        omega
    · exact ⟨l, hl, h3⟩

/-- What a load of a saved file gives. -/
theorem load_saved (create : Nat → Nat → Nat → Bool) (g : GraphSrc) (start : Nat) (hs : Saveable g start)
    (hc : create g.lists.length (g.maxDegree.getD (observedDegree g.lists)) g.additional = true) :
    loadGraph create (saveGraph g start) =
      .ok ⟨g.lists, g.maxDegree.getD (observedDegree g.lists), start, g.additional⟩ := by
  have ha : ∀ x, (leEncode 8 x).length = 8 := leEncode_length 8
  have hb : ∀ x, (leEncode 4 x).length = 4 := leEncode_length 4
  have e4 : (256 : Nat) ^ 4 = 2 ^ 32 := by decide
  have e8 : (256 : Nat) ^ 8 = 2 ^ 64 := by decide
  rw [saved_header, loadGraph_header create _ _ _ _ _ (ha _) (hb _) (hb _) (ha _),
    leDecode_leEncode 8 _ hs.size', leDecode_leEncode 4 _ hs.degree'.1,
    leDecode_leEncode 4 start (by rw [e4]; exact hs.start),
    leDecode_leEncode 8 g.additional (by rw [e8]; exact hs.additional)]
  have h24 : 24 = (leEncode 8 (indexSize g.lists) ++ leEncode 4 (g.maxDegree.getD (observedDegree g.lists)) ++
    leEncode 4 start ++ leEncode 8 g.additional).length := by
    simp only [List.length_append, ha, hb]
  rw [scan_complete _ g.lists hs.listsOk 24 0 _ h24 (indexSize_eq _)]
  simp only [Nat.zero_add, hc, if_true]
  rw [readLists_complete _ g.lists hs.listsOk 24 _ _ [] h24 (indexSize_eq _) hs.degree'.2]
  rfl

/-- C68, round trip. What was saved is what a load finds, whenever the loader accepts the sizes in the file. -/
theorem C68_round_trip (create : Nat → Nat → Nat → Bool) (g : GraphSrc) (start : Nat) (hs : Saveable g start)
    (hc : create g.lists.length (g.maxDegree.getD (observedDegree g.lists)) g.additional = true) :
    ∃ d, loadGraph create (saveGraph g start) = .ok ⟨g.lists, d, start, g.additional⟩ ∧
      (∀ l ∈ g.lists, l.length ≤ d) ∧ (∀ c, g.maxDegree = some c → d = c) := by
  refine ⟨g.maxDegree.getD (observedDegree g.lists), ?_, hs.degree'.2, ?_⟩
  · exact load_saved create g start hs hc
  · rintro c h; simp [h]

/-- C68 for the in-memory index: all lists come back, start points included. -/
theorem C68_provider_round_trip (lists : List (List Nat)) (numStart capacity start : Nat)
    (hs : Saveable (providerSrc lists numStart capacity) start) (hn : numStart ≤ lists.length) :
    loadGraph providerCreate (saveGraph (providerSrc lists numStart capacity) start) =
      .ok ⟨lists, capacity, start, numStart⟩ := by
  obtain ⟨d, h1, -, h3⟩ := C68_round_trip providerCreate (providerSrc lists numStart capacity) start hs
    (by simp [providerCreate, providerSrc, hn])
  rw [h1, h3 capacity rfl]; rfl

/-- C68. A file that lost its end is refused, wherever it was cut and whatever the loader accepts. -/
theorem C68_truncated_refused (create : Nat → Nat → Nat → Bool) (g : GraphSrc) (start n : Nat)
    (hs : Saveable g start) (hn : n < (saveGraph g start).length) :
    loadGraph create ((saveGraph g start).take n) = .err := by
  have ha : ∀ x, (leEncode 8 x).length = 8 := leEncode_length 8
  have hb : ∀ x, (leEncode 4 x).length = 4 := leEncode_length 4
  have h24 : 24 = (leEncode 8 (indexSize g.lists) ++ leEncode 4 (g.maxDegree.getD (observedDegree g.lists)) ++
    leEncode 4 start ++ leEncode 8 g.additional).length := by
    simp only [List.length_append, ha, hb]
  rw [saved_header] at hn ⊢
  by_cases hlt : n < 24
  · exact loadGraph_short _ _ (by rw [List.length_take]; omega)
  · have hsz : n < indexSize g.lists := by
      rw [List.length_append, ← h24] at hn; rw [indexSize_eq]; exact hn
    have ht := readLists_truncated _ g.lists hs.listsOk 24 _ (g.maxDegree.getD (observedDegree g.lists)) n [] h24
      (indexSize_eq _) hs.degree'.2 (by omega) hsz
    rw [List.take_append, List.take_of_length_le (by omega)] at ht ⊢
    rw [loadGraph_header create _ _ _ _ _ (ha _) (hb _) (hb _) (ha _),
      leDecode_leEncode 8 _ hs.size', leDecode_leEncode 4 _ hs.degree'.1, ht]
    split
    · rfl
    · split <;> rfl

/-- The file left by a cut-short save, in the pieces of the header. -/
theorem torn_file (g : GraphSrc) (start j : Nat) :
    (newHeader g).take j ++ (bodyBytes g start).drop (min 12 j) =
      ((leEncode 8 (indexSize g.lists)).take j ++ (leEncode 8 24).drop j) ++
      ((leEncode 4 (g.maxDegree.getD (observedDegree g.lists))).take (j - 8) ++ (leEncode 4 0).drop (j - 8)) ++
      leEncode 4 start ++ leEncode 8 g.additional ++ listsBytes g.lists := by
  have t8 : ∀ x, (leEncode 8 x).length = 8 := leEncode_length 8
  have t4 : ∀ x, (leEncode 4 x).length = 4 := leEncode_length 4
  unfold newHeader bodyBytes header0
  rw [List.take_append, t8]
  by_cases h8 : j ≤ 8
  · have h0 : j - 8 = 0 := by omega
    rw [h0, Nat.min_eq_right (by omega)]
    simp only [List.append_assoc]
    rw [List.drop_append_of_le_length (by rw [t8]; omega)]
    simp
  · by_cases h12 : j ≤ 12
    · rw [Nat.min_eq_right (by omega), List.take_of_length_le (l := leEncode 8 _) (by rw [t8]; omega),
        List.drop_of_length_le (l := leEncode 8 24) (by rw [t8]; omega)]
      simp only [List.append_assoc]
      rw [List.drop_append, List.drop_of_length_le (l := leEncode 8 24) (by rw [t8]; omega), t8,
        List.drop_append_of_le_length (by rw [t4]; omega)]
      simp
    · rw [Nat.min_eq_left (by omega), List.take_of_length_le (l := leEncode 8 _) (by rw [t8]; omega),
        List.drop_of_length_le (l := leEncode 8 24) (by rw [t8]; omega),
        List.take_of_length_le (l := leEncode 4 _) (by rw [t4]; omega),
        List.drop_of_length_le (l := leEncode 4 0) (by rw [t4]; omega)]
      have : (leEncode 8 24 ++ leEncode 4 0 ++ leEncode 4 start ++ leEncode 8 g.additional ++ listsBytes g.lists) =
          (leEncode 8 24 ++ leEncode 4 0) ++ (leEncode 4 start ++ (leEncode 8 g.additional ++ listsBytes g.lists)) := by
        simp
      rw [this, List.drop_append, List.drop_of_length_le (by simp [t8, t4]), List.length_append, t8, t4]
      simp

/-- C68. A save that is cut short after any number of bytes — also in the middle of the header update — leaves a file
that is refused, makes the loader panic, or loads as the adjacency lists of some leading part of the points: never as
lists that were not in the graph, or of other points. -/
theorem C68_interrupted_prefix (create : Nat → Nat → Nat → Bool) (g : GraphSrc) (start n : Nat)
    (hs : Saveable g start) (r : GraphFile) (hr : loadGraph create (interrupted g start n) = .ok r) :
    ∃ k, r.lists = g.lists.take k := by
  have t8 : ∀ x, (leEncode 8 x).length = 8 := leEncode_length 8
  have t4 : ∀ x, (leEncode 4 x).length = 4 := leEncode_length 4
  rw [interrupted_eq] at hr
  split at hr
  · rename_i hn
    by_cases hlt : n < 24
    · rw [loadGraph_short _ _ (by rw [List.length_take]; omega)] at hr; cases hr
    · have hh : (bodyBytes g start).take n = leEncode 8 24 ++ leEncode 4 0 ++ leEncode 4 start ++
          leEncode 8 g.additional ++ (listsBytes g.lists).take (n - 24) := by
        rw [bodyBytes, List.take_append, List.take_of_length_le (by rw [header0_length]; omega), header0_length]; rfl
      rw [hh, loadGraph_header create _ _ _ _ _ (t8 _) (t4 _) (t4 _) (t8 _),
        leDecode_leEncode 8 24 (by decide)] at hr
      rw [readLists, if_neg (by omega)] at hr
      split at hr
      · cases hr
      · split at hr
        · cases hr; exact ⟨0, rfl⟩
        · cases hr
  · rename_i hn
    generalize hj : n - indexSize g.lists = j at hr
    have l8 : ((leEncode 8 (indexSize g.lists)).take j ++ (leEncode 8 24).drop j).length = 8 := by
      simp only [List.length_append, List.length_take, List.length_drop, t8]; omega
    have l4 : ((leEncode 4 (g.maxDegree.getD (observedDegree g.lists))).take (j - 8) ++
        (leEncode 4 0).drop (j - 8)).length = 4 := by
      simp only [List.length_append, List.length_take, List.length_drop, t4]; omega
    rw [torn_file, loadGraph_header create _ _ _ _ _ l8 l4 (t4 _) (t8 _)] at hr
    have hle : leDecode ((leEncode 8 (indexSize g.lists)).take j ++ (leEncode 8 24).drop j) ≤
        24 + (listsBytes g.lists).length := by
      rw [← indexSize_eq]
      by_cases h0 : j = 0
      · subst h0
        have : leDecode (leEncode 8 24) = 24 := leDecode_leEncode 8 24 (by decide)
        simp only [List.take_zero, List.drop_zero, List.nil_append, this, indexSize_eq]; omega
      · exact torn_size _ _ (by omega) hs.size'
    split at hr
    · cases hr
    · split at hr
      · split at hr
        · cases hr
        · cases hr
        · rename_i lists hl
          obtain ⟨k, hk⟩ := readLists_prefix _ g.lists hs.listsOk 24 _ _ [] lists
            (by simp only [List.length_append (bs := leEncode 8 g.additional), List.length_append (bs := leEncode 4 start),
                  List.length_append (as := List.take j _ ++ _), l8, l4, t8, t4]) hle hl
          cases hr
          exact ⟨k, by simpa using hk⟩
      · cases hr

/-- C68, partial. A save of an in-memory index (which has a start point) that stops before the header is brought up to
date leaves a file the loader refuses, however many lists had been written. -/
theorem C68_interrupted_refused_partial (lists : List (List Nat)) (numStart capacity start n : Nat)
    (hs : Saveable (providerSrc lists numStart capacity) start) (h1 : 1 ≤ numStart)
    (hn : n ≤ (saveGraph (providerSrc lists numStart capacity) start).length) :
    loadGraph providerCreate (interrupted (providerSrc lists numStart capacity) start n) = .err := by
  have t8 : ∀ x, (leEncode 8 x).length = 8 := leEncode_length 8
  have t4 : ∀ x, (leEncode 4 x).length = 4 := leEncode_length 4
  have hn' : n ≤ indexSize lists := by
    rw [saved_header] at hn
    simp only [List.length_append, t8, t4] at hn
    rw [indexSize_eq]; exact hn
  have hi : interrupted (providerSrc lists numStart capacity) start n =
      (bodyBytes (providerSrc lists numStart capacity) start).take n := by
    rw [interrupted_eq]
    split
    · rfl
    · rename_i h
      have : n = indexSize (providerSrc lists numStart capacity).lists := Nat.le_antisymm hn' (by omega)
      rw [this, Nat.sub_self, List.take_of_length_le (Nat.le_of_eq (bodyBytes_length _ _))]
      simp
  rw [hi]
  by_cases hlt : n < 24
  · exact loadGraph_short _ _ (by rw [List.length_take]; omega)
  · have hh : (bodyBytes (providerSrc lists numStart capacity) start).take n =
        leEncode 8 24 ++ leEncode 4 0 ++ leEncode 4 start ++
        leEncode 8 numStart ++ (listsBytes lists).take (n - 24) := by
      rw [bodyBytes, List.take_append, List.take_of_length_le (by rw [header0_length]; omega), header0_length]; rfl
    have e8 : (256 : Nat) ^ 8 = 2 ^ 64 := by decide
    have ha : numStart < 2 ^ 64 := hs.additional
    rw [hh, loadGraph_header _ _ _ _ _ _ (t8 _) (t4 _) (t4 _) (t8 _), leDecode_leEncode 8 24 (by decide),
      leDecode_leEncode 8 numStart (by omega), scanGraph, if_neg (by omega)]
    have hf : providerCreate 0 (leDecode (leEncode 4 0)) numStart = false := by
      simp only [providerCreate, decide_eq_false_iff_not]; omega
    dsimp only
    rw [hf]; rfl

/-- C68, disagreement: a graph without extra start points (any disk-index graph) whose save stops before the header is
brought up to date is loaded without complaint as a graph with no points at all, however many lists are in the file. -/
theorem C68_interrupted_accepted (g : GraphSrc) (start n : Nat) (hst : start < 2 ^ 32) (h0 : g.additional = 0)
    (hlo : 24 ≤ n) (hn : n ≤ (saveGraph g start).length) :
    loadGraph providerCreate (interrupted g start n) = .ok ⟨[], 0, start, 0⟩ := by
  have t8 : ∀ x, (leEncode 8 x).length = 8 := leEncode_length 8
  have t4 : ∀ x, (leEncode 4 x).length = 4 := leEncode_length 4
  have hn' : n ≤ indexSize g.lists := by
    rw [saved_header] at hn
    simp only [List.length_append, t8, t4] at hn
    rw [indexSize_eq]; exact hn
  have hi : interrupted g start n = (bodyBytes g start).take n := by
    rw [interrupted_eq]
    split
    · rfl
    · rename_i h
      have : n = indexSize g.lists := by omega
      rw [this, Nat.sub_self, List.take_of_length_le (Nat.le_of_eq (bodyBytes_length _ _))]
      simp
  have e4 : (256 : Nat) ^ 4 = 2 ^ 32 := by decide
  have hh : (bodyBytes g start).take n = leEncode 8 24 ++ leEncode 4 0 ++ leEncode 4 start ++
      leEncode 8 0 ++ (listsBytes g.lists).take (n - 24) := by
    rw [bodyBytes, List.take_append, List.take_of_length_le (by rw [header0_length]; omega), header0_length,
      header0, h0]
  rw [hi, hh, loadGraph_header _ _ _ _ _ _ (t8 _) (t4 _) (t4 _) (t8 _), leDecode_leEncode 8 24 (by decide),
    leDecode_leEncode 8 0 (by decide), leDecode_leEncode 4 0 (by decide), leDecode_leEncode 4 start (by omega),
    scanGraph, if_neg (by omega)]
  simp only [providerCreate, Nat.le_refl, decide_true, if_true]
  rw [readLists, if_neg (by omega)]

/-- C68, disagreement: a list longer than the maximum degree in the header makes the loader panic instead of
reporting an error. -/
theorem C68_long_list_panics :
    loadGraph providerCreate (graphFileBytes 1 0 0 [[0], [0, 1]]) = .panic := by decide +kernel

def demoSrc : GraphSrc := providerSrc [[1, 3], [0, 2, 3], [], [0, 1]] 1 4

example : Saveable demoSrc 3 := by
  refine ⟨by decide, by decide, by decide, ?_, by decide, by decide⟩
  intro d hd
  have : d = 4 := (Option.some.inj hd).symm
  subst this; decide

example : loadGraph providerCreate (saveGraph demoSrc 3) = .ok ⟨[[1, 3], [0, 2, 3], [], [0, 1]], 4, 3, 1⟩ := by
  decide +kernel

example : (saveGraph demoSrc 3).length = 68 := by decide +kernel

example : loadGraph providerCreate ((saveGraph demoSrc 3).take 67) = .err := by decide +kernel

/-- A size field half written: the 68 bytes of the body and one byte of the header. The size is already right, the
maximum degree still 0. -/
example : loadGraph providerCreate (interrupted demoSrc 3 69) = .panic := by decide +kernel

/-- Lists without neighbours get through. -/
example : loadGraph providerCreate (interrupted ⟨[[], []], 0, none⟩ 0 33) = .ok ⟨[[], []], 0, 0, 0⟩ := by
  decide +kernel

/-! ### C69 -/

theorem disk_getElem (lists : List (List Nat)) (n m a : Nat) (hlen : lists.length = providerSlots n 1) :
    (diskLists lists 1 n m)[a]? =
      if a < n + 1 then (lists[a]?).map (fun l => l.map fun i => if i = n then m else i) else none := by
  unfold diskLists
  rw [hlen, providerSlots, Nat.add_sub_cancel, List.getElem?_map, List.getElem?_take]
  split
  · rfl
  · rfl

/-- C69. The edges of the disk graph are those of the in-memory graph that leave a base point or the start point `n`, with the
start point replaced by the medoid at their end. -/
theorem C69_disk_edges (lists : List (List Nat)) (n m : Nat) (hlen : lists.length = providerSlots n 1) (a b : Nat) :
    EdgeIn (diskLists lists 1 n m) a b ↔ a ≤ n ∧ ∃ c, EdgeIn lists a c ∧ b = if c = n then m else c := by
  unfold EdgeIn
  rw [disk_getElem _ _ _ _ hlen]
  constructor
  · rintro ⟨l, hl, hb⟩
    split at hl
    · rename_i ha
      refine ⟨by omega, ?_⟩
      rw [Option.map_eq_some_iff] at hl
      obtain ⟨l', hl', rfl⟩ := hl
      obtain ⟨c, hc, rfl⟩ := List.mem_map.1 hb
      exact ⟨c, ⟨l', hl', hc⟩, rfl⟩
    · cases hl
  · rintro ⟨ha, c, ⟨l, hl, hc⟩, rfl⟩
    refine ⟨l.map fun i => if i = n then m else i, ?_, List.mem_map.2 ⟨c, hc, rfl⟩⟩
    rw [if_pos (by omega), hl, Option.map_some]

/-- C69. The disk graph keeps the lengths of the lists and names base points only. Its lists are those of the base points and,
although documented as left out, that of the start point: it comes last and nothing leads there. -/
theorem C69_disk_lists (lists : List (List Nat)) (n m : Nat) (hlen : lists.length = providerSlots n 1) (hm : m < n)
    (hids : ∀ l ∈ lists, ∀ x ∈ l, x ≤ n) :
    (diskLists lists 1 n m).length = n + 1 ∧
    (∀ a ≤ n, ((diskLists lists 1 n m)[a]?).map List.length = (lists[a]?).map List.length) ∧
    (∀ l ∈ diskLists lists 1 n m, ∀ x ∈ l, x < n) ∧
    (∀ v, ReachIn (diskLists lists 1 n m) m v → v < n) := by
  have h3 : ∀ l ∈ diskLists lists 1 n m, ∀ x ∈ l, x < n := by
    intro l hl x hx
    unfold diskLists at hl
    obtain ⟨l', hl', rfl⟩ := List.mem_map.1 hl
    obtain ⟨c, hc, rfl⟩ := List.mem_map.1 hx
    have := hids l' (List.mem_of_mem_take hl') c hc
    split <;> omega
  refine ⟨by simp [diskLists, hlen, providerSlots], ?_, h3, ?_⟩
  · intro a ha
    rw [disk_getElem _ _ _ _ hlen, if_pos (by omega), Option.map_map]
    congr 1
    funext l; simp
  · intro v hv
    induction hv with
    | refl => exact hm
    | tail _ he _ =>
      obtain ⟨l, hl, hx⟩ := he
      exact h3 l (List.mem_of_getElem? hl) _ hx

example : [[3, 1], [0, 3, 2], [1], [0, 1], []].length = providerSlots 3 1 ∧ 0 < 3 ∧
    ∀ l ∈ [[3, 1], [0, 3, 2], [1], [0, 1], []], ∀ x ∈ l, x ≤ 3 := by decide

/-- C69. The file written for the disk index names the medoid as the start point, announces no further start points,
gives the length of the longest list as the maximum degree, and loads back with exactly the lists above. -/
theorem C69_disk_file (lists : List (List Nat)) (n m : Nat) (create : Nat → Nat → Nat → Bool)
    (hs : Saveable (diskSrc lists 1 n m) m) (hc : ∀ d, create (diskLists lists 1 n m).length d 0 = true) :
    ∃ d, loadGraph create (saveGraph (diskSrc lists 1 n m) m) = .ok ⟨diskLists lists 1 n m, d, m, 0⟩ ∧
      (∀ l ∈ diskLists lists 1 n m, l.length ≤ d) ∧
      saveGraph (diskSrc lists 1 n m) m = graphFileBytes d m 0 (diskLists lists 1 n m) ∧
      (diskLists lists 1 n m ≠ [] → ∃ l ∈ diskLists lists 1 n m, l.length = d) := by
  refine ⟨observedDegree (diskLists lists 1 n m), load_saved create (diskSrc lists 1 n m) m hs (hc _), ?_, ?_, ?_⟩
  · exact (observed_ge _ 0).1
  · rw [saved_header, indexSize_eq]; rfl
  · intro hne
    obtain ⟨h1, -, h3⟩ := observed_ge (diskLists lists 1 n m) 0
    rcases h3 with h3 | ⟨l, hl, h3⟩
    · obtain ⟨l, hl⟩ := List.exists_mem_of_ne_nil _ hne
      refine ⟨l, hl, ?_⟩
      have := h1 l hl
      unfold observedDegree
      omega
    · exact ⟨l, hl, h3⟩

/-- A disk graph that can be saved. -/
example : Saveable (diskSrc [[3, 1], [0, 3, 2], [1], [0, 1], []] 1 3 0) 0 :=
  ⟨by decide, by decide, by decide, fun d h => (by cases h), by decide, by decide⟩

/-- C69. Nothing becomes reachable on disk that was not reachable in memory from the medoid. -/
theorem C69_disk_reachable_in_memory (lists : List (List Nat)) (n m v : Nat) (hlen : lists.length = providerSlots n 1)
    (h : ReachIn (diskLists lists 1 n m) m v) : ReachIn lists m v := by
  induction h with
  | refl => exact .refl
  | tail _ he ih =>
    obtain ⟨-, c, hc, rfl⟩ := (C69_disk_edges lists n m hlen _ _).1 he
    split
    · exact .refl
    · exact ih.tail hc

/-- C69, partial. All points reachable from the start point in memory are reachable from the medoid on disk exactly
when the start point's own neighbours are: nothing on disk leads to the list of the start point, so nothing else can be lost. -/
theorem C69_reachable_partial (lists : List (List Nat)) (n m : Nat) (hlen : lists.length = providerSlots n 1) (hm : m < n)
    (hids : ∀ l ∈ lists, ∀ x ∈ l, x ≤ n) :
    (∀ v, v ≠ n → ReachIn lists n v → ReachIn (diskLists lists 1 n m) m v) ↔
    (∀ v, v ≠ n → EdgeIn lists n v → ReachIn (diskLists lists 1 n m) m v) := by
  constructor
  · intro h v hv he
    exact h v hv (.single he)
  · intro h v hv hr
    have : ∀ v, ReachIn lists n v → v = n ∨ ReachIn (diskLists lists 1 n m) m v := by
      intro v hr
      induction hr with
      | refl => exact .inl rfl
      | @tail b c _ he ih =>
        by_cases hc : c = n
        · exact .inl hc
        · right
          rcases ih with rfl | ih
          · exact h c hc he
          · have hb := (C69_disk_lists lists n m hlen hm hids).2.2.2 b ih
            refine ih.tail ((C69_disk_edges lists n m hlen b c).2 ⟨by omega, c, he, ?_⟩)
            rw [if_neg hc]
    rcases this v hr with rfl | h'
    · exact absurd rfl hv
    · exact h'

/-- The in-memory graph after inserting point 0 (equal to the start point 2) and then point 1, 16 away from both:
the records are what the searches from point 2 visit. -/
def twoInserts : Option (List (List Nat)) :=
  let c : Verif.Graph.Config := ⟨4, 5, 10, some (6 / 5), .triangleInequality, false⟩
  let env : Verif.Graph.Env Nat := ⟨fun _ => false, fun _ => true, fun i j => if (i == 1) == (j == 1) then 0 else 16⟩
  (Verif.Graph.run c Verif.Graph.stdSorter 20 (fun _ => [], [])
    [.insert env 4 0 [(2, 0)] false, .insert env 4 1 [(2, 16), (0, 16)] false]).map fun r => [r.1 0, r.1 1, r.1 2, r.1 3]

theorem twoInserts_eq : twoInserts = some [[2], [2], [0, 1], []] := by decide +kernel

/-- C69, disagreement: a point can be reachable in memory through the start point only. Two insertions suffice: point
1 is a neighbour of the start point, not of the medoid 0 (which the start point occludes), and cannot be reached in
the disk graph; the medoid's list on disk names only the medoid itself. -/
theorem C69_point_lost : ∃ lists, twoInserts = some lists ∧ ReachIn lists 2 1 ∧
    lists.length = providerSlots 2 1 ∧ diskLists lists 1 2 0 = [[0], [0], [0, 1]] ∧ ¬ ReachIn (diskLists lists 1 2 0) 0 1 := by
  refine ⟨_, twoInserts_eq, .single ⟨[0, 1], rfl, by decide⟩, by decide, by decide, ?_⟩
  intro h
  have : ∀ v, ReachIn (diskLists [[2], [2], [0, 1], []] 1 2 0) 0 v → v = 0 := by
    intro v h
    induction h with
    | refl => rfl
    | tail _ he ih =>
      subst ih
      obtain ⟨l, hl, hm⟩ := he
      have : l = [0] := (Option.some.inj hl).symm
      subst this
      simpa using hm
  exact absurd (this 1 h) (by decide)

/-- C69, disagreement: a list on disk can name a point twice, and the point itself. -/
theorem C69_duplicates : diskLists [[3, 1], [0, 3, 2], [1], [0], []] 1 3 0 = [[0, 1], [0, 0, 2], [1], [0]] := by decide

/-- C69 non-vacuity: here every point stays reachable. -/
example : ∀ v, v ≠ 3 → EdgeIn [[3, 1], [0, 3, 2], [1], [0, 1], []] 3 v →
    ReachIn (diskLists [[3, 1], [0, 3, 2], [1], [0, 1], []] 1 3 0) 0 v := by
  rintro v - ⟨l, hl, hv⟩
  have : l = [0, 1] := (Option.some.inj hl).symm
  subst this
  simp only [List.mem_cons, List.not_mem_nil, or_false] at hv
  rcases hv with rfl | rfl
  · exact .refl
  · exact .single ⟨[0, 1], rfl, by decide⟩

end Verif.Disk
