import Verif.Disk.MergeLemmas
import Verif.Disk.GraphFileProps

/-!
# C71: the sharded build

Partition of the points over shards and merge of the shard graphs.
-/

namespace Verif.Disk

/-! ### Closest centres -/

theorem nearestLoop_spec (pre ds : List Rat) (min : Rat) (best : Nat)
    (hmin : ∀ d ∈ pre, min ≤ d) (hb : (∃ d, pre[best]? = some d ∧ d = min) ∨ ∃ d ∈ ds, d < min) :
    ∃ d, (pre ++ ds)[nearestLoop ds pre.length min best]? = some d ∧ ∀ e ∈ pre ++ ds, d ≤ e := by
  induction ds generalizing pre min best with
  | nil =>
    rcases hb with ⟨d, h1, rfl⟩ | ⟨d, h, -⟩
    · rw [List.append_nil]; exact ⟨d, h1, hmin⟩
    · simp at h
  | cons x ds ih =>
    have e : pre ++ x :: ds = (pre ++ [x]) ++ ds := by simp
    have el : (pre ++ [x]).length = pre.length + 1 := by simp
    unfold nearestLoop
    by_cases hx : x < min
    · rw [if_pos hx, e, ← el]
      refine ih (pre ++ [x]) x pre.length ?_ (.inl ⟨x, by simp, rfl⟩)
      intro d hd
      rcases List.mem_append.1 hd with hd | hd
      · exact Rat.le_trans (Rat.le_of_lt hx) (hmin d hd)
      · rw [List.mem_singleton] at hd; rw [hd]
    · rw [if_neg hx, e, ← el]
      have hx' : min ≤ x := Rat.not_lt.1 hx
      refine ih (pre ++ [x]) min best ?_ ?_
      · intro d hd
        rcases List.mem_append.1 hd with hd | hd
        · exact hmin d hd
        · rw [List.mem_singleton] at hd; rw [hd]; exact hx'
      · rcases hb with ⟨d, h1, h2⟩ | ⟨d, h1, h2⟩
        · refine .inl ⟨d, ?_, h2⟩
          rw [List.getElem?_append_left (List.getElem?_eq_some_iff.1 h1).1]; exact h1
        · rcases List.mem_cons.1 h1 with rfl | h1
          · exact absurd h2 hx
          · exact .inr ⟨d, h1, h2⟩

/-- C71, assignment. A point is given its `k` closest centres: `k` different ones, none farther than a centre left
out. For `k = 1` some centre must be closer than the largest float; asking for more centres than there are is an
error. -/
theorem C71_closest (fmax : Rat) (k : Nat) (ds : List Rat) (pops : List Nat) (hp : PopOrder ds pops)
    (hf : k = 1 → ∃ d ∈ ds, d < fmax) :
    (ds.length < k → closestCenters fmax k ds pops = none) ∧
    (k ≤ ds.length → ∃ cs, closestCenters fmax k ds pops = some cs ∧ cs.length = k ∧ cs.Nodup ∧
      ∀ c ∈ cs, ∃ d, ds[c]? = some d ∧ ∀ c' d', c' ∉ cs → ds[c']? = some d' → d ≤ d') := by
  unfold closestCenters
  refine ⟨fun h => if_pos h, fun h => ?_⟩
  rw [if_neg (by omega)]
  refine ⟨_, rfl, ?_⟩
  by_cases hk : k = 1
  · rw [if_pos hk]
    obtain ⟨d, h1, h2⟩ := nearestLoop_spec [] ds fmax 0 (by simp) (.inr (hf hk))
    rw [List.nil_append] at h1 h2
    refine ⟨by simp [hk], by simp, ?_⟩
    intro c hc
    rw [List.mem_singleton] at hc
    subst hc
    exact ⟨d, h1, fun c' d' _ h => h2 d' (List.mem_of_getElem? h)⟩
  · rw [if_neg hk]
    have hlen : pops.length = ds.length := by rw [hp.perm.length_eq, List.length_range]
    have hnd : pops.Nodup := hp.perm.nodup_iff.2 List.nodup_range
    refine ⟨by rw [List.length_take]; omega, hnd.sublist (List.take_sublist _ _), ?_⟩
    intro c hc
    have hcm : c ∈ pops := List.mem_of_mem_take hc
    have hclt : c < ds.length := List.mem_range.1 (hp.perm.mem_iff.1 hcm)
    refine ⟨ds[c], List.getElem?_eq_getElem hclt, ?_⟩
    intro c' d' hc' hd'
    have hc'm : c' ∈ pops.drop k := by
      have : c' ∈ pops := hp.perm.mem_iff.2 (List.mem_range.2 (List.getElem?_eq_some_iff.1 hd').1)
      rw [← List.take_append_drop k pops] at this
      rcases List.mem_append.1 this with h | h
      · exact absurd h hc'
      · exact h
    have hs := hp.sorted
    rw [← List.take_append_drop k pops] at hs
    exact (List.pairwise_append.1 hs).2.2 c hc c' hc'm _ _ (List.getElem?_eq_getElem hclt) hd'

example : closestCenters 100 2 [3, 1, 2] [1, 2, 0] = some [1, 2] ∧ PopOrder [3, 1, 2] [1, 2, 0] ∧
    closestCenters 100 1 [3, 1, 2] [] = some [1] ∧ closestCenters 100 4 [3, 1, 2] [1, 2, 0] = none := by
  refine ⟨by decide +kernel, ⟨by decide +kernel, ?_⟩, by decide +kernel, by decide +kernel⟩
  simp only [List.pairwise_cons]
  refine ⟨?_, ?_, by simp, by simp⟩
  · intro b hb da db h1 h2
    simp only [List.mem_cons, List.not_mem_nil, or_false] at hb
    rcases hb with rfl | rfl <;> (simp at h1 h2; subst h1 h2; decide +kernel)
  · intro b hb da db h1 h2
    simp only [List.mem_cons, List.not_mem_nil, or_false] at hb
    rcases hb with rfl <;> (simp at h1 h2; subst h1 h2; decide +kernel)

/-! ### Partition -/

theorem blocks_range (n block m : Nat) :
    ((List.range m).flatMap fun b => (List.range (min ((b + 1) * block) n - b * block)).map fun p => b * block + p) =
      List.range (min (m * block) n) := by
  induction m with
  | zero => simp
  | succ m ih =>
    rw [List.range_succ, List.flatMap_append, ih]
    simp only [List.flatMap_cons, List.flatMap_nil, List.append_nil]
    have hm : m * block ≤ (m + 1) * block := Nat.mul_le_mul_right _ (by omega)
    by_cases h : m * block ≤ n
    · rw [Nat.min_eq_left h]
      have e : min ((m + 1) * block) n = m * block + (min ((m + 1) * block) n - m * block) := by omega
      conv => rhs; rw [e, List.range_add]
    · have e1 : min (m * block) n = n := by omega
      have e2 : min ((m + 1) * block) n = n := by omega
      rw [e1, e2, show n - m * block = 0 by omega]
      simp

theorem blockIds_eq (n block : Nat) (hb : 0 < block) : blockIds n block = List.range n := by
  unfold blockIds
  rw [blocks_range]
  have h1 := Nat.div_add_mod (n + block - 1) block
  have h2 := Nat.mod_lt (n + block - 1) hb
  rw [Nat.mul_comm] at h1
  rw [show min ((n + block - 1) / block * block) n = n by omega]

theorem modify_foldl (cs : List Nat) (p : Nat) (maps : List (List Nat)) (hnd : cs.Nodup) (s : Nat) :
    (cs.foldl (fun maps s => maps.modify s (· ++ [p])) maps)[s]? =
      (maps[s]?).map fun l => if s ∈ cs then l ++ [p] else l := by
  induction cs generalizing maps with
  | nil => simp
  | cons c cs ih =>
    rw [List.nodup_cons] at hnd
    rw [List.foldl_cons, ih _ hnd.2, List.getElem?_modify]
    cases maps[s]? with
    | none => rfl
    | some l =>
      by_cases h : c = s
      · subst h; simp [hnd.1]
      · have h' : ¬ s = c := fun e => h e.symm
        simp [h, h']

theorem idMapsLoop_spec (centers : Nat → List Nat) (ps : List Nat) (maps : List (List Nat))
    (hnd : ∀ p ∈ ps, (centers p).Nodup) (s : Nat) :
    (idMapsLoop centers ps maps)[s]? = (maps[s]?).map fun l => l ++ ps.filter fun p => s ∈ centers p := by
  induction ps generalizing maps with
  | nil => simp [idMapsLoop]
  | cons p ps ih =>
    unfold idMapsLoop
    rw [ih _ (fun q hq => hnd q (List.mem_cons_of_mem _ hq)), modify_foldl _ _ _ (hnd p List.mem_cons_self)]
    cases maps[s]? with
    | none => rfl
    | some l =>
      by_cases h : s ∈ centers p <;> simp [h]

theorem idMapsLoop_length (centers : Nat → List Nat) (ps : List Nat) (maps : List (List Nat)) :
    (idMapsLoop centers ps maps).length = maps.length := by
  induction ps generalizing maps with
  | nil => rfl
  | cons p ps ih =>
    unfold idMapsLoop
    rw [ih]
    generalize centers p = cs
    induction cs generalizing maps with
    | nil => rfl
    | cons c cs ih2 => rw [List.foldl_cons, ih2, List.length_modify]

/-- C71, partition. There is one id map per shard; each is strictly increasing, and a point is in the maps of its
centres and in no other, whatever the block size. -/
theorem C71_partition (centers : Nat → List Nat) (parts n large : Nat) (hn : 0 < n) (hl : 0 < large)
    (hnd : ∀ p < n, (centers p).Nodup) :
    ∃ maps, partitionIds centers parts n large = some maps ∧ maps.length = parts ∧
      ∀ (s : Nat) (ids : List Nat), maps[s]? = some ids →
        ids.Pairwise (· < ·) ∧ ∀ p, p ∈ ids ↔ p < n ∧ s ∈ centers p := by
  unfold partitionIds
  have hb : 0 < if n ≤ large then n else large := by split <;> omega
  rw [if_neg (by omega), blockIds_eq _ _ hb]
  refine ⟨_, rfl, by rw [idMapsLoop_length, List.length_replicate], ?_⟩
  intro s ids hs
  rw [idMapsLoop_spec centers _ _ (fun p hp => hnd p (List.mem_range.1 hp))] at hs
  rw [List.getElem?_replicate] at hs
  split at hs
  · simp only [Option.map_some, List.nil_append, Option.some.injEq] at hs
    subst hs
    refine ⟨(List.pairwise_lt_range).filter _, ?_⟩
    intro p
    simp
  · simp at hs

/-- C71: the id maps of a partition and graphs that fit them can be merged. -/
theorem C71_partition_sharded (centers : Nat → List Nat) (parts n large : Nat) (shards : List ShardGraph)
    (hn : 0 < n) (hl : 0 < large) (hnd : ∀ p < n, (centers p).Nodup)
    (hc : ∀ p < n, centers p ≠ [] ∧ ∀ s ∈ centers p, s < parts) (maps : List (List Nat))
    (hm : partitionIds centers parts n large = some maps) (hs : shards.length = parts)
    (hg : ∀ (s : Nat) (ids : List Nat) (g : ShardGraph), maps[s]? = some ids → shards[s]? = some g →
      ids.length ≤ g.lists.length ∧ g.medoid < ids.length ∧ ∀ l ∈ g.lists, ∀ j ∈ l, j < ids.length) :
    Sharded n maps shards := by
  obtain ⟨maps', h1, h2, h3⟩ := C71_partition centers parts n large hn hl hnd
  rw [hm] at h1; cases h1
  have hpos : 0 < parts := by
    obtain ⟨hne, hlt⟩ := hc 0 hn
    cases hcs : centers 0 with
    | nil => exact absurd hcs hne
    | cons c cs => have := hlt c (by rw [hcs]; exact List.mem_cons_self); omega
  refine ⟨by rw [hs, h2], by omega, ?_, ?_, ?_, hg⟩
  · intro ids hi
    obtain ⟨s, hs⟩ := List.getElem?_of_mem hi
    exact (h3 s ids hs).1
  · intro ids hi v hv
    obtain ⟨s, hs⟩ := List.getElem?_of_mem hi
    exact (((h3 s ids hs).2 v).1 hv).1
  · intro v hv
    obtain ⟨hne, hlt⟩ := hc v hv
    cases hcs : centers v with
    | nil => exact absurd hcs hne
    | cons c cs =>
      have hcp := hlt c (by rw [hcs]; exact List.mem_cons_self)
      have hg : maps[c]? = some (maps[c]'(by omega)) := List.getElem?_eq_getElem (by omega)
      exact ⟨_, List.mem_of_getElem? hg, ((h3 c _ hg).2 v).2 ⟨hv, by rw [hcs]; exact List.mem_cons_self⟩⟩

example : partitionIds (fun p => if p < 2 then [0, 1] else [2, 1]) 3 4 3 = some [[0, 1], [0, 1, 2, 3], [2, 3]] := by
  decide +kernel

/-! ### Merge -/

/-- C71, merge. The merged graph has one list per point: as many as fit of the distinct neighbours the point has in
its shards, renamed to the ids of the whole collection. The start point is the renamed medoid of the last shard. -/
theorem C71_merge (n : Nat) (idMaps : List (List Nat)) (shards : List ShardGraph) (R : Nat)
    (shuffle : Nat → List Nat → List Nat) (hsh : Sharded n idMaps shards) (hn : 0 < n)
    (hperm : ∀ i l, (shuffle i l).Perm l) :
    ∃ r, mergeShards idMaps shards R shuffle = .ok r ∧ r.lists.length = n ∧
      (∀ (v : Nat) (l : List Nat), r.lists[v]? = some l → ∃ full : List Nat, full.Nodup ∧
        (∀ w, w ∈ full ↔ ShardEdge idMaps shards v w) ∧ l.Nodup ∧ (∀ w ∈ l, w ∈ full) ∧
        l.length = min full.length R) ∧
      (∃ (ids : List Nat) (g : ShardGraph), idMaps.getLast? = some ids ∧ shards.getLast? = some g ∧
        ids[g.medoid]? = some r.start) ∧
      r.size = 24 + (r.lists.map fun l => 4 + 4 * l.length).sum := by
  obtain ⟨ids, g, x, hl1, hl2, hl3, hl4⟩ := lastMedoid_some idMaps shards hsh.same hsh.parts
    (fun s ids g h1 h2 => (hsh.graph s ids g h1 h2).2.1)
  have h0 : MergeInv idMaps shards n R shuffle []
      ⟨0, [], fun _ => false, fun s => (shards[s]?).elim [] ShardGraph.lists, [], 24⟩ := by
    refine ⟨rfl, hn, ?_, by simp, List.nodup_nil, by simp, by simp, by simp, .inl rfl, rfl⟩
    intro s g hs
    simp [hs]
  obtain ⟨st, h1, h2⟩ := mergeLoop_inv hsh (nodeShard idMaps) [] rfl _ h0
  have hcur : st.cur + 1 = n := by
    obtain ⟨ids', hm', hv'⟩ := hsh.cover (n - 1) (by omega)
    obtain ⟨t, ht⟩ := List.getElem?_of_mem hm'
    have hp := (mem_nodeShard idMaps (n - 1) t).2 ⟨ids', ht, hv'⟩
    have := h2.nodes _ hp
    have := h2.lt
    dsimp only at *
    omega
  have hcomp := h2.complete (rest := []) (List.append_nil _) (by simp)
  have pick : ∀ (i : Nat) (full : List Nat), full.Nodup →
      ((shuffle i full).take R).Nodup ∧ (∀ w ∈ (shuffle i full).take R, w ∈ full) ∧
        ((shuffle i full).take R).length = min full.length R := by
    intro i full hnd
    refine ⟨((hperm i full).nodup_iff.2 hnd).sublist (List.take_sublist _ _), ?_, ?_⟩
    · intro w hw; exact (hperm i full).mem_iff.1 (List.mem_of_mem_take hw)
    · rw [List.length_take, (hperm i full).length_eq]; omega
  refine ⟨⟨(writeNode R shuffle st).out, x, (writeNode R shuffle st).size⟩, ?_, ?_, ?_, ⟨ids, g, hl1, hl2, hl3⟩, ?_⟩
  · unfold mergeShards
    rw [hl4]
    dsimp only
    rw [h1]
  · simp only [writeNode, List.length_append, List.length_singleton, h2.outLen]; exact hcur
  · intro v l hv
    simp only [writeNode] at hv
    by_cases hvc : v < st.cur
    · rw [List.getElem?_append_left (by rw [h2.outLen]; exact hvc)] at hv
      obtain ⟨full, f1, f2, f3⟩ := h2.outs v hvc
      rw [f1] at hv; cases hv
      exact ⟨full, f2, f3, pick v full f2⟩
    · have hlen := (List.getElem?_eq_some_iff.1 hv).1
      rw [List.length_append, List.length_singleton, h2.outLen] at hlen
      have hve : v = st.cur := by omega
      subst hve
      rw [List.getElem?_append_right (by rw [h2.outLen]), h2.outLen, Nat.sub_self] at hv
      simp only [List.getElem?_cons_zero, Option.some.injEq] at hv
      subst hv
      refine ⟨st.final, h2.nodup, hcomp, pick _ _ h2.nodup⟩
  · simp only [writeNode, List.map_append, List.sum_append, List.map_cons, List.map_nil, List.sum_cons,
      List.sum_nil, h2.size]
    omega

theorem sum_listsBytes (ls : List (List Nat)) :
    24 + (ls.map fun l => 4 + 4 * l.length).sum = indexSize ls := by
  rw [indexSize_eq, sum_eq_length]

/-- C71, file. What a merge writes is a graph file of the merged lists with the documented layout, the same bytes as
saving that graph; so loading it gives back the merged graph. -/
theorem C71_file (n : Nat) (idMaps : List (List Nat)) (shards : List ShardGraph) (R : Nat)
    (shuffle : Nat → List Nat → List Nat) (hsh : Sharded n idMaps shards) (hn : 0 < n)
    (hperm : ∀ i l, (shuffle i l).Perm l) (r : Merged) (hr : mergeShards idMaps shards R shuffle = .ok r) :
    mergedFile r R = graphFileBytes R r.start 0 r.lists ∧
    ∀ create : Nat → Nat → Nat → Bool, Saveable ⟨r.lists, 0, some R⟩ r.start →
      create n R 0 = true → loadGraph create (mergedFile r R) = .ok ⟨r.lists, R, r.start, 0⟩ := by
  obtain ⟨r', h1, h2, h3, h4, h5⟩ := C71_merge n idMaps shards R shuffle hsh hn hperm
  rw [hr] at h1; cases h1
  have hw : written (r.lists.flatMap fun l =>
      [WOp.write (leEncode 4 l.length), WOp.write (l.map (leEncode 4)).flatten]) = listsBytes r.lists := by
    generalize r.lists = ls
    induction ls with
    | nil => rfl
    | cons l ls ih =>
      rw [List.flatMap_cons, written_append, ih, listsBytes_cons]
      simp [written, listBytes]
  let ops1 : List WOp := [.write (leEncode 8 24), .write (leEncode 4 R), .write (leEncode 4 r.start), .write (leEncode 8 0)] ++
    r.lists.flatMap (fun l => [.write (leEncode 4 l.length), .write (l.map (leEncode 4)).flatten])
  have hno : ∀ op ∈ ops1, op ≠ .reset := by
    intro op hop
    rcases List.mem_append.1 hop with h | h
    · simp only [List.mem_cons, List.not_mem_nil, or_false] at h
      rcases h with rfl | rfl | rfl | rfl <;> simp
    · obtain ⟨l, -, h⟩ := List.mem_flatMap.1 h
      simp only [List.mem_cons, List.not_mem_nil, or_false] at h
      rcases h with rfl | rfl <;> simp
  have hw1 : written ops1 = leEncode 8 24 ++ (leEncode 4 R ++ leEncode 4 r.start ++ leEncode 8 0 ++ listsBytes r.lists) := by
    show written (_ ++ _) = _
    rw [written_append, hw]
    simp [written]
  have hfile : mergedFile r R = graphFileBytes R r.start 0 r.lists := by
    unfold mergedFile mergedOps
    show (specWrites ([], 0) (ops1 ++ _)).1 = _
    have hs := specWrites_append ops1 [] hno
    simp only [List.length_nil, List.nil_append, Nat.zero_add, hw1] at hs
    rw [specWrites_concat, hs]
    simp only [specWrites, List.take_zero, List.nil_append, Nat.zero_add, leEncode_length]
    rw [List.drop_left' (leEncode_length 8 24), h5, sum_listsBytes, indexSize_eq]
    unfold graphFileBytes
    simp only [List.append_assoc]
    rfl
  refine ⟨hfile, ?_⟩
  intro create hs hc
  obtain ⟨d, g1, g2, -⟩ := C68_layout ⟨r.lists, 0, some R⟩ r.start
  have hd := g2 R rfl
  subst hd
  rw [hfile, ← g1]
  obtain ⟨d, l1, -, l3⟩ := C68_round_trip create ⟨r.lists, 0, some d⟩ r.start hs (by
    show create r.lists.length d 0 = true
    rw [h2]; exact hc)
  rw [l1, l3 _ rfl]

/-! ### Reachability -/

/-- C71: when no list is cut, the merged graph has exactly the edges of the shard graphs. -/
theorem C71_edges (n : Nat) (idMaps : List (List Nat)) (shards : List ShardGraph) (R : Nat)
    (shuffle : Nat → List Nat → List Nat) (hsh : Sharded n idMaps shards) (hn : 0 < n)
    (hperm : ∀ i l, (shuffle i l).Perm l) (r : Merged) (hr : mergeShards idMaps shards R shuffle = .ok r)
    (v w : Nat) :
    (EdgeIn r.lists v w → ShardEdge idMaps shards v w) ∧
    (NothingCut idMaps shards R → ShardEdge idMaps shards v w → EdgeIn r.lists v w) := by
  obtain ⟨r', h1, h2, h3, -, -⟩ := C71_merge n idMaps shards R shuffle hsh hn hperm
  rw [hr] at h1; cases h1
  constructor
  · rintro ⟨l, hl, hw⟩
    obtain ⟨full, f1, f2, f3, f4, f5⟩ := h3 v l hl
    exact (f2 w).1 (f4 w hw)
  · intro hcut he
    have hv : v < n := by
      obtain ⟨s, ids, g, i, j, l, e1, -, e3, -⟩ := he
      exact hsh.bound ids (List.mem_of_getElem? e1) v (List.mem_of_getElem? e3)
    have hg : r.lists[v]? = some (r.lists[v]'(by omega)) := List.getElem?_eq_getElem (by omega)
    refine ⟨_, hg, ?_⟩
    obtain ⟨full, f1, f2, f3, f4, f5⟩ := h3 v _ hg
    have hle := hcut v full f1 (fun w hw => (f2 w).1 hw)
    rw [Nat.min_eq_left hle] at f5
    have hp : (r.lists[v]'(by omega)).Subperm full := List.subperm_of_subset f3 f4
    exact (hp.perm_of_length_le (by omega)).mem_iff.2 ((f2 w).2 he)

/-- C71, reachability (partial: nothing may be cut, and the shards must be linked). If from each point of a shard its
whole shard can be reached in the graph of the shard, the shards are linked by common points and no list is cut, then
every point can be reached from the start point of the merged graph. -/
theorem C71_reachable_partial (n : Nat) (idMaps : List (List Nat)) (shards : List ShardGraph) (R : Nat)
    (shuffle : Nat → List Nat → List Nat) (hsh : Sharded n idMaps shards) (hn : 0 < n)
    (hperm : ∀ i l, (shuffle i l).Perm l) (r : Merged) (hr : mergeShards idMaps shards R shuffle = .ok r)
    (hcut : NothingCut idMaps shards R)
    (hconn : ∀ (s : Nat) (ids : List Nat) (g : ShardGraph), idMaps[s]? = some ids → shards[s]? = some g →
      ∀ i j, i < ids.length → j < ids.length → ReachIn g.lists i j)
    (hlink : ∀ s < idMaps.length, Relation.ReflTransGen (Overlap idMaps) (idMaps.length - 1) s) :
    ∀ v < n, ReachIn r.lists r.start v := by
  obtain ⟨r', h1, h2, h3, ⟨idsL, gL, l1, l2, l3⟩, -⟩ := C71_merge n idMaps shards R shuffle hsh hn hperm
  rw [hr] at h1; cases h1
  -- within a shard
  have within : ∀ (s : Nat) (ids : List Nat), idMaps[s]? = some ids → ∀ a ∈ ids, ∀ b ∈ ids, ReachIn r.lists a b := by
    intro s ids hs a ha b hb
    have hslt : s < shards.length := by rw [hsh.same]; exact (List.getElem?_eq_some_iff.1 hs).1
    have hg : shards[s]? = some shards[s] := List.getElem?_eq_getElem hslt
    obtain ⟨i, hi⟩ := List.getElem?_of_mem ha
    obtain ⟨j, hj⟩ := List.getElem?_of_mem hb
    have hpath := hconn s ids _ hs hg i j (List.getElem?_eq_some_iff.1 hi).1 (List.getElem?_eq_some_iff.1 hj).1
    clear hb
    induction hpath generalizing b with
    | refl =>
      rw [hi] at hj; cases hj; exact .refl
    | tail hab hbc ih =>
      rename_i x y
      obtain ⟨l, e1, e2⟩ := hbc
      obtain ⟨-, -, hlt⟩ := hsh.graph s ids _ hs hg
      have hx : x < ids.length := by
        rcases hab.cases_tail with rfl | ⟨c, -, l', e1', e2'⟩
        · exact (List.getElem?_eq_some_iff.1 hi).1
        · exact hlt l' (List.mem_of_getElem? e1') x e2'
      have hxg : ids[x]? = some ids[x] := List.getElem?_eq_getElem hx
      refine (ih ids[x] hxg).tail ?_
      exact (C71_edges n idMaps shards R shuffle hsh hn hperm r hr _ _).2 hcut
        ⟨s, ids, _, x, y, l, hs, hg, hxg, hj, e1, e2⟩
  have hstart : idMaps[idMaps.length - 1]? = some idsL := by
    rw [← List.getLast?_eq_getElem?]; exact l1
  -- along overlaps
  have across : ∀ s, Relation.ReflTransGen (Overlap idMaps) (idMaps.length - 1) s →
      ∀ ids, idMaps[s]? = some ids → ∀ b ∈ ids, ReachIn r.lists r.start b := by
    intro s hs
    induction hs with
    | refl =>
      intro ids hi b hb
      rw [hstart] at hi; cases hi
      exact within _ _ hstart _ (List.mem_of_getElem? l3) _ hb
    | tail hab hbc ih =>
      intro ids hi b hb
      obtain ⟨v, x, y, e1, e2, e3, e4⟩ := hbc
      rw [hi] at e2; cases e2
      exact (ih x e1 v e3).trans (within _ _ hi _ e4 _ hb)
  intro v hv
  obtain ⟨ids, hm, hvi⟩ := hsh.cover v hv
  obtain ⟨s, hs⟩ := List.getElem?_of_mem hm
  exact across s (hlink s (List.getElem?_eq_some_iff.1 hs).1) ids hs v hvi

/-- C71: a list is cut at random among the neighbours of all shards, so a point reachable from the start point
within the last shard can become unreachable. -/
theorem C71_cut_loses_point :
    ∃ (n : Nat) (idMaps : List (List Nat)) (shards : List ShardGraph) (shuffle : Nat → List Nat → List Nat)
      (r : Merged), Sharded n idMaps shards ∧ (∀ i l, (shuffle i l).Perm l) ∧
      (∀ g ∈ shards, ∀ l ∈ g.lists, l.length ≤ 1) ∧
      (∀ (s : Nat) (g : ShardGraph), shards[s]? = some g → ∀ i j, i < g.lists.length → j < g.lists.length →
        ReachIn g.lists i j) ∧
      mergeShards idMaps shards 1 shuffle = .ok r ∧ ∃ v < n, ¬ ReachIn r.lists r.start v := by
  refine ⟨3, [[0, 1], [0, 2]], [⟨[[1], [0]], 0⟩, ⟨[[1], [0]], 0⟩], fun _ l => l, ⟨[[1], [0], [0]], 0, 48⟩, ?_,
    fun _ _ => List.Perm.refl _, by decide, ?_, by decide +kernel, 2, by decide, ?_⟩
  · refine ⟨rfl, by decide, by decide, by decide, by decide, ?_⟩
    intro s ids g h1 h2
    match s with
    | 0 => simp at h1 h2; subst h1 h2; decide
    | 1 => simp at h1 h2; subst h1 h2; decide
    | s + 2 => simp at h1
  · have key : ∀ i j, i < 2 → j < 2 → ReachIn [[1], [0]] i j := by
      intro i j hi hj
      have e01 : EdgeIn [[1], [0]] 0 1 := ⟨[1], rfl, by simp⟩
      have e10 : EdgeIn [[1], [0]] 1 0 := ⟨[0], rfl, by simp⟩
      match i, j with
      | 0, 0 => exact .refl
      | 0, 1 => exact .single e01
      | 1, 0 => exact .single e10
      | 1, 1 => exact .refl
      | i + 2, _ => omega
      | _, j + 2 => omega
    intro s g hs
    match s with
    | 0 => simp at hs; subst hs; exact key
    | 1 => simp at hs; subst hs; exact key
    | s + 2 => simp at hs
  · intro h
    have : ∀ x, ReachIn [[1], [0], [0]] 0 x → x < 2 := by
      intro x hx
      induction hx with
      | refl => decide
      | tail _ hbc ih =>
        obtain ⟨l, h1, h2⟩ := hbc
        rename_i b c _
        match b, ih with
        | 0, _ => simp at h1; subst h1; simp at h2; omega
        | 1, _ => simp at h1; subst h1; simp at h2; omega
    exact absurd (this 2 h) (by decide)

/-- C71: the start point is the medoid of the last shard alone, so when no point of a shard is in another one too,
that shard is lost, although each shard was connected and nothing was cut. -/
theorem C71_shard_lost :
    ∃ (n : Nat) (idMaps : List (List Nat)) (shards : List ShardGraph) (r : Merged),
      (∀ v < n, (idMaps.filter fun ids => v ∈ ids).length = 2) ∧ Sharded n idMaps shards ∧
      (∀ (s : Nat) (g : ShardGraph), shards[s]? = some g → ∀ i j, i < g.lists.length → j < g.lists.length →
        ReachIn g.lists i j) ∧
      mergeShards idMaps shards 3 (fun _ l => l) = .ok r ∧ ∃ v < n, ¬ ReachIn r.lists r.start v := by
  refine ⟨3, [[0], [0], [1, 2], [1, 2]], [⟨[[]], 0⟩, ⟨[[]], 0⟩, ⟨[[1], [0]], 0⟩, ⟨[[1], [0]], 0⟩],
    ⟨[[], [2], [1]], 1, 44⟩, by decide, ?_, ?_, by decide +kernel, 0, by decide, ?_⟩
  · refine ⟨rfl, by decide, by decide, by decide, by decide, ?_⟩
    intro s ids g h1 h2
    match s with
    | 0 => simp at h1 h2; subst h1 h2; decide
    | 1 => simp at h1 h2; subst h1 h2; decide
    | 2 => simp at h1 h2; subst h1 h2; decide
    | 3 => simp at h1 h2; subst h1 h2; decide
    | s + 4 => simp at h1
  · have key : ∀ i j, i < 2 → j < 2 → ReachIn [[1], [0]] i j := by
      intro i j hi hj
      have e01 : EdgeIn [[1], [0]] 0 1 := ⟨[1], rfl, by simp⟩
      have e10 : EdgeIn [[1], [0]] 1 0 := ⟨[0], rfl, by simp⟩
      match i, j with
      | 0, 0 => exact .refl
      | 0, 1 => exact .single e01
      | 1, 0 => exact .single e10
      | 1, 1 => exact .refl
      | i + 2, _ => omega
      | _, j + 2 => omega
    have key1 : ∀ i j, i < 1 → j < 1 → ReachIn [[]] i j := by
      intro i j hi hj
      have : i = j := by omega
      subst this
      exact .refl
    intro s g hs
    match s with
    | 0 => simp at hs; subst hs; exact key1
    | 1 => simp at hs; subst hs; exact key1
    | 2 => simp at hs; subst hs; exact key
    | 3 => simp at hs; subst hs; exact key
    | s + 4 => simp at hs
  · intro h
    have : ∀ x, ReachIn [[], [2], [1]] 1 x → x ≠ 0 ∧ x < 3 := by
      intro x hx
      induction hx with
      | refl => decide
      | tail _ hbc ih =>
        obtain ⟨l, h1, h2⟩ := hbc
        rename_i b c _
        match b, ih with
        | 1, _ => simp at h1; subst h1; simp at h2; omega
        | 2, _ => simp at h1; subst h1; simp at h2; omega
    exact (this 0 h).1 rfl

/-- Two shards with common points 1 and 2: the hypotheses of the C71 theorems hold, and all points are reachable. -/
example : ∃ r, mergeShards [[0, 1, 2], [1, 2, 3]] [⟨[[1], [2], [0]], 0⟩, ⟨[[1], [2], [0]], 2⟩] 4 (fun _ l => l.reverse) =
      .ok r ∧ r = ⟨[[1], [2], [3, 0], [1]], 3, 60⟩ ∧ ∀ v < 4, ReachIn r.lists r.start v := by
  have hsh : Sharded 4 [[0, 1, 2], [1, 2, 3]] [⟨[[1], [2], [0]], 0⟩, ⟨[[1], [2], [0]], 2⟩] := by
    refine ⟨rfl, by decide, by decide, by decide, by decide, ?_⟩
    intro s ids g h1 h2
    match s with
    | 0 => simp at h1 h2; subst h1 h2; decide
    | 1 => simp at h1 h2; subst h1 h2; decide
    | s + 2 => simp at h1
  refine ⟨_, by decide +kernel, rfl, ?_⟩
  refine C71_reachable_partial 4 _ _ 4 _ hsh (by decide) (fun _ l => List.reverse_perm l) _ (by decide +kernel) ?_ ?_ ?_
  · intro v full hnd hfull
    have hsub : full ⊆ List.range 4 := by
      intro w hw
      obtain ⟨s, ids, g, i, j, l, e1, -, -, e4, -⟩ := hfull w hw
      exact List.mem_range.2 (hsh.bound ids (List.mem_of_getElem? e1) w (List.mem_of_getElem? e4))
    simpa using (List.subperm_of_subset hnd hsub).length_le
  · have key : ∀ i j, i < 3 → j < 3 → ReachIn [[1], [2], [0]] i j := by
      have e01 : EdgeIn [[1], [2], [0]] 0 1 := ⟨[1], rfl, by simp⟩
      have e12 : EdgeIn [[1], [2], [0]] 1 2 := ⟨[2], rfl, by simp⟩
      have e20 : EdgeIn [[1], [2], [0]] 2 0 := ⟨[0], rfl, by simp⟩
      intro i j hi hj
      match i, j with
      | 0, 0 => exact .refl
      | 0, 1 => exact .single e01
      | 0, 2 => exact (Relation.ReflTransGen.single e01).tail e12
      | 1, 0 => exact (Relation.ReflTransGen.single e12).tail e20
      | 1, 1 => exact .refl
      | 1, 2 => exact .single e12
      | 2, 0 => exact .single e20
      | 2, 1 => exact (Relation.ReflTransGen.single e20).tail e01
      | 2, 2 => exact .refl
      | i + 3, _ => omega
      | _, j + 3 => omega
    intro s ids g h1 h2
    match s with
    | 0 => simp at h1 h2; subst h1 h2; exact key
    | 1 => simp at h1 h2; subst h1 h2; exact key
    | s + 2 => simp at h1
  · intro s hs
    match s, hs with
    | 1, _ => exact .refl
    | 0, _ => exact .single ⟨1, [1, 2, 3], [0, 1, 2], rfl, rfl, by decide, by decide⟩

end Verif.Disk
