import Verif.Disk.BfsModel
import Verif.Disk.CacheProps
import Verif.Graph.AdjProps
/-
Lemmas for the BFS cache and the caching provider.
-/
namespace Verif.Disk

open Verif.Graph (fromIterUntrusted)

theorem mem_fromIter (l : List Nat) (x : Nat) : x ∈ fromIterUntrusted l ↔ x ∈ l := by
  unfold fromIterUntrusted
  rw [Verif.Graph.mem_dedupAdjacent, List.mem_insertionSort]

theorem BInv.serves {p : Params} {vs : List Vertex} {ids : List Nat} {v : Provider}
    {done : List (Nat × Nat)} (hb : BInv p vs ids v done) {id idx : Nat} {w : Vertex}
    (hm : (id, idx) ∈ done) (hw : vs[id]? = some w) :
    v.getVector id = some w.vec ∧ v.getAdj id = some w.nbrs ∧ v.getAssoc id = some w.assoc := by
  have hfp : v.fpVecLen = p.vecLen := hb.pinv.fp
  obtain ⟨vi, g1, g2, g3, g4⟩ := hb.got id idx w hm hw
  refine ⟨?_, ?_, ?_⟩
  · simp only [Provider.getVector, g1, hfp, Option.bind_eq_bind, Option.bind_some]; exact g4
  · simp only [Provider.getAdj, g1, Option.bind_eq_bind, Option.bind_some]; exact g2
  · simp only [Provider.getAssoc, g1, Option.bind_eq_bind, Option.bind_some]; exact g3

theorem BInv.silent {p : Params} {vs : List Vertex} {ids : List Nat} {v : Provider}
    {done : List (Nat × Nat)} (hb : BInv p vs ids v done) {id : Nat} (hm : ∀ idx, (id, idx) ∉ done) :
    v.getVector id = none ∧ v.getAdj id = none ∧ v.getAssoc id = none := by
  have := (hb.keys id).2 hm
  simp [Provider.getVector, Provider.getAdj, Provider.getAssoc, this]

/-- The cache holds the vertices of `s`, with the data of the index. -/
structure Faithful (p : Params) (vs : List Vertex) (c : DiskCache) (s : List (Nat × Ins Byte (List Byte))) :
    Prop where
  vinv : VInv c s
  ainv : AInv c s
  dim : c.dim = p.vecLen
  data : ∀ id i, s.lookup id = some i → ∃ w, vs[id]? = some w ∧ i.vec = w.vec ∧
    i.adj = fromIterUntrusted w.nbrs ∧ i.assoc = w.assoc

theorem lookup_none_iff_notMem {V : Type} (s : List (Nat × V)) (id : Nat) :
    s.lookup id = none ↔ id ∉ s.map (·.1) := by
  rw [List.lookup_eq_none_iff]
  constructor
  · intro h hm
    obtain ⟨x, hx, rfl⟩ := List.mem_map.1 hm
    simpa using h x hx
  · intro h x hx
    simp only [beq_eq_false_iff_ne, ne_eq, bne_iff_ne]
    intro he
    exact h (List.mem_map.2 ⟨x, hx, he.symm⟩)

theorem Faithful.get {p : Params} {vs : List Vertex} {c : DiskCache}
    {s : List (Nat × Ins Byte (List Byte))} (h : Faithful p vs c s) (id : Nat) :
    (id ∉ s.map (·.1) ∧ c.contains id = false ∧ c.getVector id = some none ∧ c.getAdj id = some none ∧
      c.getAssoc id = some none) ∨
    (id ∈ s.map (·.1) ∧ c.contains id = true ∧ ∃ w, vs[id]? = some w ∧ c.getVector id = some (some w.vec) ∧
      c.getAdj id = some (some (fromIterUntrusted w.nbrs)) ∧ c.getAssoc id = some (some w.assoc)) := by
  have hd := h.vinv.dom id
  cases hs : s.lookup id with
  | none =>
    left
    rw [hs] at hd
    have hm : c.mapping.lookup id = none := by simpa using hd
    exact ⟨(lookup_none_iff_notMem _ _).1 hs, by simp [Cache.contains, hm], by simp [Cache.getVector, hm],
      by simp [Cache.getAdj, hm], by simp [Cache.getAssoc, hm]⟩
  | some i =>
    right
    rw [hs] at hd
    obtain ⟨k, hk⟩ := Option.isSome_iff_exists.1 hd
    obtain ⟨w, g1, g2, g3, g4⟩ := h.data id i hs
    have hv := h.vinv.vec id k i hk hs
    obtain ⟨ha, hb⟩ := h.ainv.data id k i hk hs
    refine ⟨?_, by simp [Cache.contains, hk], w, g1, ?_, ?_, ?_⟩
    · by_contra hn
      rw [(lookup_none_iff_notMem _ _).2 hn] at hs; simp at hs
    · simp only [Cache.getVector, hk]; rw [hv, g2]; rfl
    · simp only [Cache.getAdj, hk]; rw [ha, g3]; rfl
    · simp only [Cache.getAssoc, hk]; rw [hb, g4]; rfl

theorem Faithful.insert {p : Params} {vs : List Vertex} {c : DiskCache}
    {s : List (Nat × Ins Byte (List Byte))} (h : Faithful p vs c s) {id : Nat} {w : Vertex}
    (hw : vs[id]? = some w) (hfit : w.Fits p) (hid : id ∉ s.map (·.1)) (hroom : s.length < c.cap) :
    ∃ c' i, c.insert id w.vec (fromIterUntrusted w.nbrs) w.assoc = some (c', true) ∧
      Faithful p vs c' ((id, i) :: s) ∧ c'.cap = c.cap := by
  let i : Ins Byte (List Byte) := ⟨id, w.vec, fromIterUntrusted w.nbrs, w.assoc⟩
  have hnone := (lookup_none_iff_notMem _ _).2 hid
  have hs : specInsert c.dim c.cap s i = ((id, i) :: s, true) := by
    unfold specInsert
    rw [if_pos ⟨by rw [h.dim]; exact hfit.vec, Or.inr hroom⟩, filter_of_lookup_none _ _ hnone]
  obtain ⟨c1, h1, h2, h3, h4, _, _⟩ := h.vinv.insert i
  have h5 := AInv.insert h.vinv h.ainv i hnone h1
  rw [hs] at h1 h2 h5
  refine ⟨c1, i, h1, ⟨h2, h5, by rw [h3, h.dim], ?_⟩, h4⟩
  intro id' j hj
  rw [List.lookup_cons] at hj
  by_cases he : id' = id
  · subst he
    simp only [beq_self_eq_true, Option.some.injEq] at hj
    subst hj
    exact ⟨w, hw, rfl, rfl, rfl⟩
  · rw [show (id' == id) = false by simpa using he] at hj
    exact h.data id' j hj

theorem pushUnvisited_spec (ns : List Nat) : ∀ (A q vis : List Nat), vis.Nodup → vis.Perm (A ++ q) →
    (pushUnvisited q vis ns).2.Nodup ∧ (pushUnvisited q vis ns).2.Perm (A ++ (pushUnvisited q vis ns).1) ∧
    ∀ x, x ∈ (pushUnvisited q vis ns).2 ↔ x ∈ vis ∨ x ∈ ns := by
  induction ns with
  | nil => intro A q vis h1 h2; exact ⟨h1, h2, by simp [pushUnvisited]⟩
  | cons n ns ih =>
    intro A q vis h1 h2
    unfold pushUnvisited
    by_cases hn : n ∈ vis
    · rw [if_pos hn]
      obtain ⟨g1, g2, g3⟩ := ih A q vis h1 h2
      refine ⟨g1, g2, fun x => ?_⟩
      rw [g3, List.mem_cons]
      constructor
      · tauto
      · rintro (h | rfl | h)
        · exact Or.inl h
        · exact Or.inl hn
        · exact Or.inr h
    · rw [if_neg hn]
      obtain ⟨g1, g2, g3⟩ := ih A (q ++ [n]) (n :: vis) (List.nodup_cons.2 ⟨hn, h1⟩) (by
        rw [← List.append_assoc]
        exact (List.Perm.cons n h2).trans (List.perm_append_singleton n (A ++ q)).symm)
      refine ⟨g1, g2, fun x => ?_⟩
      rw [g3, List.mem_cons, List.mem_cons]
      tauto

/-- Facts about the traversal that hold between insertions. -/
structure BfsInv (p : Params) (vs : List Vertex) (start target : Nat) (b : Bfs) (rest : List Nat)
    (s : List (Nat × Ins Byte (List Byte))) : Prop where
  faith : Faithful p vs b.c s
  cap : b.c.cap = target
  nodup : b.visited.Nodup
  perm : b.visited.Perm (s.map (·.1) ++ rest ++ b.queue)
  reach : ∀ x ∈ b.visited, Reach vs start x
  start : start ∈ b.visited
  closed : ∀ k ∈ s.map (·.1), ∀ w, vs[k]? = some w → ∀ n ∈ w.nbrs, n ∈ b.visited

/-- What holds of the cache when the construction stops. -/
structure BfsDone (p : Params) (vs : List Vertex) (start target : Nat) (c : DiskCache) : Prop where
  ex : ∃ s, Faithful p vs c s ∧ s.length ≤ target ∧ (s.map (·.1)).Nodup ∧
    (∀ x ∈ s.map (·.1), Reach vs start x) ∧
    (s.length < target → ∀ x, Reach vs start x → x ∈ s.map (·.1))

theorem batch_inv {p : Params} {vs : List Vertex} (h : WellFormed p vs) {start target : Nat}
    (hlt : ∀ x, Reach vs start x → x < vs.length) {nodes : List Nat} (hnod : nodes.Nodup) :
    ∀ (rest pre : List Nat) (b : Bfs) (done : List (Nat × Nat)) (s : List (Nat × Ins Byte (List Byte))),
      nodes = pre ++ rest → BInv p vs nodes b.v done → (∀ q ∈ done, q.1 ∈ pre ∧ q.2 < pre.length) →
      BfsInv p vs start target b rest s → s.length < target →
      ∃ b' s', b.batch target pre.length rest = some b' ∧ PInv p.header p.elemSize b'.v ∧
        s'.length = b'.c.mapping.length ∧
        (rest ≠ [] → s.length < s'.length) ∧
        ((s'.length < target ∧ BfsInv p vs start target b' [] s') ∨
         (s'.length = target ∧ ∃ r, BfsInv p vs start target b' r s')) := by
  intro rest
  induction rest with
  | nil =>
    intro pre b done s _ hb _ hi hs
    exact ⟨b, s, rfl, hb.pinv, hi.faith.vinv.size.symm, by simp, Or.inl ⟨hs, hi⟩⟩
  | cons node rest ih =>
    intro pre b done s hn hb hd hi hs
    have hidx : nodes[pre.length]? = some node := by rw [hn]; simp
    have hvis : node ∈ b.visited := hi.perm.mem_iff.2 (by simp)
    have hreach := hi.reach node hvis
    have hnlt := hlt node hreach
    have hw : vs[node]? = some vs[node] := List.getElem?_eq_getElem hnlt
    obtain ⟨w, hw⟩ : ∃ w, vs[node]? = some w := ⟨_, hw⟩
    have hnpre : node ∉ pre := by
      intro hm
      rw [hn] at hnod
      exact (List.nodup_append.1 hnod).2.2 node hm node List.mem_cons_self rfl
    obtain ⟨v1, hp, hb1⟩ := hb.step h hidx hw (fun j hj => hnpre (hd _ hj).1)
      (fun i hi => by have := (hd _ hi).2; simp at this)
    obtain ⟨g1, g2, g3⟩ := hb1.serves (idx := pre.length) (by simp) hw
    have hpn : (s.map (·.1) ++ (node :: rest) ++ b.queue).Nodup := hi.perm.nodup_iff.1 hi.nodup
    have hnk : node ∉ s.map (·.1) := by
      intro hm
      rw [List.append_assoc] at hpn
      exact (List.nodup_append.1 hpn).2.2 node hm node (by simp) rfl
    obtain ⟨c1, i, hc1, hf1, hcap1⟩ := hi.faith.insert hw (h.fits w (List.mem_of_getElem? hw)) hnk
      (by rw [hi.cap]; exact hs)
    have hins : insertInCache b.v b.c node pre.length = some (v1, c1) := by
      simp only [insertInCache, hp, Option.bind_eq_bind, Option.bind_some, g1, g2, g3, hc1, if_true]
    have hadj : c1.getAdj node = some (some (fromIterUntrusted w.nbrs)) := by
      rcases hf1.get node with ⟨hno, _⟩ | ⟨_, _, w', hw', _, h3, _⟩
      · simp at hno
      · rw [hw] at hw'; simp only [Option.some.injEq] at hw'; subst hw'; exact h3
    have hpush := pushUnvisited_spec (fromIterUntrusted w.nbrs) (s.map (·.1) ++ (node :: rest)) b.queue
      b.visited hi.nodup hi.perm
    obtain ⟨q1, hq1⟩ : ∃ q1, q1 = pushUnvisited b.queue b.visited (fromIterUntrusted w.nbrs) := ⟨_, rfl⟩
    rw [← hq1] at hpush
    obtain ⟨k1, k2, k3⟩ := hpush
    let b1 : Bfs := { v := v1, c := c1, queue := q1.1, visited := q1.2 }
    have hi1 : BfsInv p vs start target b1 rest ((node, i) :: s) := by
      refine ⟨hf1, by rw [← hi.cap]; exact hcap1, k1, ?_, ?_, ?_, ?_⟩
      · refine k2.trans ?_
        simp only [List.map_cons, List.cons_append, List.append_assoc]
        exact List.perm_middle
      · intro x hx
        rcases (k3 x).1 hx with hx | hx
        · exact hi.reach x hx
        · rw [mem_fromIter] at hx
          exact Reach.step hreach hw hx
      · exact (k3 _).2 (Or.inl hi.start)
      · intro k hk w' hw' n hn'
        simp only [List.map_cons, List.mem_cons] at hk
        rcases hk with rfl | hk
        · rw [hw] at hw'; simp only [Option.some.injEq] at hw'; subst hw'
          exact (k3 n).2 (Or.inr ((mem_fromIter _ _).2 hn'))
        · exact (k3 n).2 (Or.inl (hi.closed k hk w' hw' n hn'))
    have hlen1 : c1.mapping.length = s.length + 1 := by rw [hf1.vinv.size]; simp
    unfold Bfs.batch
    simp only [hins, hadj, Option.bind_eq_bind, Option.bind_some, ← hq1]
    by_cases ht : c1.mapping.length ≥ target
    · rw [if_pos ht]
      exact ⟨b1, (node, i) :: s, rfl, hb1.pinv, by simp [b1, hlen1], by simp,
        Or.inr ⟨by simp only [List.length_cons]; omega, rest, hi1⟩⟩
    · rw [if_neg ht]
      obtain ⟨b2, s2, e1, e2, e3, e4, e5⟩ := ih (pre ++ [node]) b1 ((node, pre.length) :: done)
        ((node, i) :: s) (by rw [hn]; simp) hb1 (by
          intro q hq
          rcases List.mem_cons.1 hq with rfl | hq
          · simp
          · have := hd q hq
            simp only [List.mem_append, List.length_append, List.length_cons, List.length_nil]
            exact ⟨Or.inl this.1, by omega⟩) hi1 (by simp only [List.length_cons]; omega)
      refine ⟨b2, s2, by simpa using e1, e2, e3, ?_, e5⟩
      intro _
      by_cases hr : rest = []
      · subst hr
        simp only [Bfs.batch, Option.some.injEq] at e1
        subst e1
        rw [e3]; simp only [b1]; omega
      · have := e4 hr; simp only [List.length_cons] at this; omega

theorem BfsInv.length_le {p : Params} {vs : List Vertex} {start target : Nat} {b : Bfs} {r : List Nat}
    {s : List (Nat × Ins Byte (List Byte))} (h : BfsInv p vs start target b r s) : (s.map (·.1)).Nodup := by
  have hpn := h.perm.nodup_iff.1 h.nodup
  rw [List.append_assoc] at hpn
  exact (List.nodup_append.1 hpn).1

theorem BfsInv.keys_reach {p : Params} {vs : List Vertex} {start target : Nat} {b : Bfs} {r : List Nat}
    {s : List (Nat × Ins Byte (List Byte))} (h : BfsInv p vs start target b r s) :
    ∀ x ∈ s.map (·.1), Reach vs start x := fun x hx =>
  h.reach x (h.perm.mem_iff.2 (by simp only [List.append_assoc, List.mem_append]; exact Or.inl hx))

theorem loop_inv {p : Params} {vs : List Vertex} (h : WellFormed p vs) (h104 : 104 ≤ p.blockSize)
    {file : List Byte} (hf : createLayout p (streamsOf vs) = some file) {align : Nat}
    (ha : align ∣ p.blockSize) {start target : Nat} (hlt : ∀ x, Reach vs start x → x < vs.length) :
    ∀ (fuel : Nat) (b : Bfs) (s : List (Nat × Ins Byte (List Byte))), PInv p.header p.elemSize b.v →
      ((s.length ≤ target ∧ BfsInv p vs start target b [] s) ∨
        (s.length = target ∧ ∃ r, BfsInv p vs start target b r s)) →
      target - s.length < fuel →
      ∃ b', b.loop file align target fuel = some b' ∧ BfsDone p vs start target b'.c := by
  intro fuel
  induction fuel with
  | zero => intro b s _ _ hfu; omega
  | succ fuel ih =>
    intro b s hv hi hfu
    unfold Bfs.loop
    rcases hi with ⟨hle, hi⟩ | ⟨heq, r, hi⟩
    · have hsz := hi.faith.vinv.size
      by_cases hc : b.queue ≠ [] ∧ b.c.mapping.length < target
      · rw [if_pos hc]
        have hperm := hi.perm
        rw [List.append_nil] at hperm
        have hpn := hperm.nodup_iff.1 hi.nodup
        have hqn : b.queue.Nodup := (List.nodup_append.1 hpn).2.1
        have hnn : (b.queue.take beamWidthForBfs).Nodup := hqn.sublist (List.take_sublist _ _)
        have hne : b.queue.take beamWidthForBfs ≠ [] := by
          obtain ⟨hq, _⟩ := hc
          cases hq' : b.queue with
          | nil => exact absurd hq' hq
          | cons x q => simp [beamWidthForBfs]
        obtain ⟨v1, h1, h2, h3, h4, h5, h6, h7⟩ := load_spec h h104 hf ha hv
          (ids := b.queue.take beamWidthForBfs) (by
            intro i hi'
            rw [← h.num]
            exact hlt i (hi.reach i (hperm.mem_iff.2
              (List.mem_append_right _ (List.mem_of_mem_take hi')))))
        have hb : BInv p vs (b.queue.take beamWidthForBfs) v1 [] :=
          ⟨h2, h6, h7, by simp [h3, h4, h5], by intro id; simp [h3], by intro id idx w hm; simp at hm⟩
        have hi0 : BfsInv p vs start target
            { b with v := v1, queue := b.queue.drop beamWidthForBfs : Bfs }
            (b.queue.take beamWidthForBfs) s := by
          refine ⟨hi.faith, hi.cap, hi.nodup, ?_, hi.reach, hi.start, hi.closed⟩
          simp only [List.append_assoc, List.take_append_drop]
          exact hperm
        obtain ⟨b2, s2, e1, e2, e3, e4, e5⟩ := batch_inv h hlt hnn (b.queue.take beamWidthForBfs) []
          { b with v := v1, queue := b.queue.drop beamWidthForBfs : Bfs } [] s rfl hb (by simp) hi0 (by omega)
        simp only [List.length_nil] at e1
        simp only [h1, Option.bind_eq_bind, Option.bind_some, e1]
        have := e4 hne
        exact ih b2 s2 e2 (e5.imp (fun x => ⟨by omega, x.2⟩) id) (by omega)
      · rw [if_neg hc]
        refine ⟨b, rfl, s, hi.faith, hle, hi.length_le, hi.keys_reach, ?_⟩
        intro hslt x hx
        have hq : b.queue = [] := by
          by_contra hq
          exact hc ⟨hq, by omega⟩
        have hperm := hi.perm
        rw [hq, List.append_nil, List.append_nil] at hperm
        rw [← hperm.mem_iff]
        induction hx with
        | refl => exact hi.start
        | step hk hw hn ihk => exact hi.closed _ (hperm.mem_iff.1 ihk) _ hw _ hn
    · have hsz := hi.faith.vinv.size
      rw [if_neg (by omega)]
      exact ⟨b, rfl, s, hi.faith, by omega, hi.length_le, hi.keys_reach, by omega⟩

theorem filterCached_spec (c : DiskCache) (ids : List Nat) : ∀ (idx n : Nat),
    (filterCached c idx n ids).2 = ids.filter (fun i => !c.contains i) ∧
    ∀ (k id : Nat), ids[k]? = some id → c.contains id = false →
      ∃ j, (filterCached c idx n ids).1.lookup (idx + k) = some (n + j) ∧
        (filterCached c idx n ids).2[j]? = some id := by
  induction ids with
  | nil => intro idx n; simp [filterCached]
  | cons a ids ih =>
    intro idx n
    unfold filterCached
    by_cases hc : c.contains a = true
    · rw [if_pos hc]
      obtain ⟨h1, h2⟩ := ih (idx + 1) n
      refine ⟨by rw [h1]; simp [hc], ?_⟩
      intro k id hk hid
      cases k with
      | zero =>
        simp only [List.getElem?_cons_zero, Option.some.injEq] at hk
        subst hk; rw [hc] at hid; simp at hid
      | succ k =>
        simp only [List.getElem?_cons_succ] at hk
        obtain ⟨j, h3, h4⟩ := h2 k id hk hid
        exact ⟨j, by rw [show idx + (k + 1) = idx + 1 + k by omega]; exact h3, h4⟩
    · rw [if_neg hc]
      simp only [Bool.not_eq_true] at hc
      obtain ⟨h1, h2⟩ := ih (idx + 1) (n + 1)
      refine ⟨by simp [h1, hc], ?_⟩
      intro k id hk hid
      cases k with
      | zero =>
        simp only [List.getElem?_cons_zero, Option.some.injEq] at hk
        subst hk
        exact ⟨0, by simp, by simp⟩
      | succ k =>
        simp only [List.getElem?_cons_succ] at hk
        obtain ⟨j, h3, h4⟩ := h2 k id hk hid
        refine ⟨j + 1, ?_, by simpa using h4⟩
        simp only [List.lookup_cons]
        rw [show (idx + (k + 1) == idx) = false by simp]
        simp only
        rw [show idx + (k + 1) = idx + 1 + k by omega, h3]
        congr 1; omega

end Verif.Disk
