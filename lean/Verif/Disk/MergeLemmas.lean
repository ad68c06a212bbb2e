import Verif.Disk.MergeSpec
import Verif.Disk.GraphFileLemmas
import Mathlib.Data.List.Nodup

/-! Helper lemmas for C71. -/

namespace Verif.Disk

/-- The order of `node_shard`. -/
def lexLe (a b : Nat × Nat) : Prop := a.1 < b.1 ∨ (a.1 = b.1 ∧ a.2 ≤ b.2)

instance : DecidableRel lexLe := fun a b => by unfold lexLe; infer_instance

instance : Std.Total lexLe := ⟨fun a b => by unfold lexLe; omega⟩

instance : IsTrans (Nat × Nat) lexLe := ⟨fun a b c => by unfold lexLe; omega⟩

theorem nodeShard_eq (idMaps : List (List Nat)) : nodeShard idMaps =
    (idMaps.zipIdx.flatMap fun x => x.1.map fun v => (v, x.2)).insertionSort lexLe := rfl

theorem nodeShard_sorted (idMaps : List (List Nat)) : (nodeShard idMaps).Pairwise lexLe := by
  rw [nodeShard_eq]; exact List.pairwise_insertionSort _ _

theorem nodeShard_perm (idMaps : List (List Nat)) :
    (nodeShard idMaps).Perm (idMaps.zipIdx.flatMap fun x => x.1.map fun v => (v, x.2)) := by
  rw [nodeShard_eq]; exact List.perm_insertionSort _ _

theorem filter_pairs (ids : List Nat) (k s : Nat) :
    (ids.map fun v => (v, k)).filter (fun p => p.2 = s) = if k = s then ids.map fun v => (v, k) else [] := by
  induction ids with
  | nil => simp
  | cons a ids ih =>
    rw [List.map_cons, List.filter_cons, ih]
    by_cases h : k = s <;> simp [h]

theorem zip_filter (idMaps : List (List Nat)) (k s : Nat) :
    ((idMaps.zipIdx k).flatMap fun x => x.1.map fun v => (v, x.2)).filter (fun p => p.2 = s) =
      (if k ≤ s then (idMaps[s - k]?).getD [] else []).map fun v => (v, s) := by
  induction idMaps generalizing k with
  | nil => simp
  | cons ids idMaps ih =>
    rw [List.zipIdx_cons, List.flatMap_cons, List.filter_append, ih, filter_pairs]
    by_cases h : k = s
    · subst h
      rw [if_pos rfl, if_neg (by omega), if_pos (Nat.le_refl _), Nat.sub_self]
      simp
    · rw [if_neg h, List.nil_append]
      by_cases h' : k ≤ s
      · rw [if_pos (by omega), if_pos h']
        have : s - k = (s - (k + 1)) + 1 := by omega
        rw [this, List.getElem?_cons_succ]
      · rw [if_neg (by omega), if_neg h']

/-- The pairs of a shard in `node_shard` are its ids in order. -/
theorem nodeShard_filter (idMaps : List (List Nat)) (s : Nat) (ids : List Nat) (hs : idMaps[s]? = some ids)
    (hinc : ids.Pairwise (· < ·)) :
    ((nodeShard idMaps).filter fun p => p.2 = s).map (·.1) = ids := by
  have hp : (((nodeShard idMaps).filter fun p => p.2 = s).map (·.1)).Perm ids := by
    have h1 := ((nodeShard_perm idMaps).filter fun p => p.2 = s).map (·.1)
    have h2 := zip_filter idMaps 0 s
    rw [if_pos (Nat.zero_le _), Nat.sub_zero, hs, Option.getD_some] at h2
    rw [h2, List.map_map] at h1
    have h3 : ids.map ((fun x : Nat × Nat => x.1) ∘ fun v => (v, s)) = ids := by
      rw [show ((fun x : Nat × Nat => x.1) ∘ fun v => (v, s)) = id from rfl, List.map_id]
    rw [h3] at h1
    exact h1
  have hsort : (((nodeShard idMaps).filter fun p => p.2 = s).map (·.1)).Pairwise (· ≤ ·) := by
    rw [List.pairwise_map]
    refine ((nodeShard_sorted idMaps).filter _).imp ?_
    intro a b h
    unfold lexLe at h; omega
  exact hp.eq_of_pairwise (fun a b _ _ h1 h2 => Nat.le_antisymm h1 h2) hsort (hinc.imp fun h => Nat.le_of_lt h)

theorem mem_nodeShard (idMaps : List (List Nat)) (v s : Nat) :
    (v, s) ∈ nodeShard idMaps ↔ ∃ ids, idMaps[s]? = some ids ∧ v ∈ ids := by
  rw [(nodeShard_perm idMaps).mem_iff]
  have h : (v, s) ∈ (idMaps.zipIdx.flatMap fun x => x.1.map fun v => (v, x.2)) ↔
      (v, s) ∈ (idMaps.zipIdx.flatMap fun x => x.1.map fun v => (v, x.2)).filter (fun p => p.2 = s) := by
    simp
  rw [h, zip_filter, if_pos (Nat.zero_le _), Nat.sub_zero]
  cases idMaps[s]? <;> simp

theorem foldl_max_ge (l : List Nat) (m : Nat) : m ≤ l.foldl max m ∧ ∀ x ∈ l, x ≤ l.foldl max m := by
  induction l generalizing m with
  | nil => simp
  | cons a l ih =>
    obtain ⟨h1, h2⟩ := ih (max m a)
    rw [List.foldl_cons]
    refine ⟨by omega, ?_⟩
    intro x hx
    rcases List.mem_cons.1 hx with rfl | hx
    · omega
    · exact h2 x hx

theorem lt_numNodes (idMaps : List (List Nat)) (ids : List Nat) (v : Nat) (h : ids ∈ idMaps) (hv : v ∈ ids) :
    v < numNodes idMaps := by
  have := (foldl_max_ge idMaps.flatten 0).2 v (List.mem_flatten.2 ⟨ids, h, hv⟩)
  unfold numNodes; omega

/-- What renaming a list does. -/
theorem addNbrs_spec (ids : List Nat) (nodes : Nat) (l : List Nat) (final : List Nat) (inSet : Nat → Bool)
    (hl : ∀ j ∈ l, j < ids.length) (hids : ∀ v ∈ ids, v < nodes) (hset : ∀ w, inSet w = true ↔ w ∈ final)
    (hnd : final.Nodup) :
    ∃ f' s', addNbrs ids nodes l (final, inSet) = some (f', s') ∧ f'.Nodup ∧ (∀ w, s' w = true ↔ w ∈ f') ∧
      ∀ w, w ∈ f' ↔ w ∈ final ∨ ∃ j ∈ l, ids[j]? = some w := by
  induction l generalizing final inSet with
  | nil => exact ⟨final, inSet, rfl, hnd, hset, by simp⟩
  | cons j l ih =>
    have hj := hl j List.mem_cons_self
    have hrest : ∀ j ∈ l, j < ids.length := fun j hj => hl j (List.mem_cons_of_mem _ hj)
    have hg : ids[j]? = some ids[j] := List.getElem?_eq_getElem hj
    have hlt := hids ids[j] (List.getElem_mem _)
    unfold addNbrs
    rw [hg]
    dsimp only
    rw [if_neg (by omega)]
    by_cases hin : inSet ids[j] = true
    · rw [if_pos hin]
      obtain ⟨f', s', h1, h2, h3, h4⟩ := ih final inSet hrest hset hnd
      refine ⟨f', s', h1, h2, h3, ?_⟩
      intro w
      rw [h4]
      have hm := (hset _).1 hin
      constructor
      · rintro (h | ⟨x, hx, hw⟩)
        · exact .inl h
        · exact .inr ⟨x, List.mem_cons_of_mem _ hx, hw⟩
      · rintro (h | ⟨x, hx, hw⟩)
        · exact .inl h
        · rcases List.mem_cons.1 hx with rfl | hx
          · rw [hg] at hw; cases hw; exact .inl hm
          · exact .inr ⟨x, hx, hw⟩
    · rw [if_neg hin]
      have hnm : ids[j] ∉ final := fun h => hin ((hset _).2 h)
      obtain ⟨f', s', h1, h2, h3, h4⟩ := ih (final ++ [ids[j]]) (Function.update inSet ids[j] true) hrest
        (by
          intro w
          by_cases hw : w = ids[j]
          · subst hw; simp
          · rw [Function.update_of_ne hw, hset]; simp [hw])
        (by
          rw [List.nodup_append]
          refine ⟨hnd, by simp, ?_⟩
          intro a ha b hb
          rw [List.mem_singleton] at hb
          subst hb
          rintro rfl; exact hnm ha)
      refine ⟨f', s', h1, h2, h3, ?_⟩
      intro w
      rw [h4]
      constructor
      · rintro (h | ⟨x, hx, hw⟩)
        · rcases List.mem_append.1 h with h | h
          · exact .inl h
          · rw [List.mem_singleton] at h
            exact .inr ⟨j, List.mem_cons_self, by rw [hg, h]⟩
        · exact .inr ⟨x, List.mem_cons_of_mem _ hx, hw⟩
      · rintro (h | ⟨x, hx, hw⟩)
        · exact .inl (List.mem_append_left _ h)
        · rcases List.mem_cons.1 hx with rfl | hx
          · rw [hg] at hw; cases hw; exact .inl (by simp)
          · exact .inr ⟨x, hx, hw⟩

/-- An edge of shard `s`. -/
def EdgeOf (idMaps : List (List Nat)) (shards : List ShardGraph) (s v w : Nat) : Prop :=
  ∃ (ids : List Nat) (g : ShardGraph) (i j : Nat) (l : List Nat), idMaps[s]? = some ids ∧ shards[s]? = some g ∧
    ids[i]? = some v ∧ ids[j]? = some w ∧ g.lists[i]? = some l ∧ j ∈ l

theorem shardEdge_iff (idMaps : List (List Nat)) (shards : List ShardGraph) (v w : Nat) :
    ShardEdge idMaps shards v w ↔ ∃ s, EdgeOf idMaps shards s v w := Iff.rfl

/-- Invariant of the merge loop. -/
structure MergeInv (idMaps : List (List Nat)) (shards : List ShardGraph) (n R : Nat)
    (shuffle : Nat → List Nat → List Nat) (done : List (Nat × Nat)) (st : MergeSt) : Prop where
  outLen : st.out.length = st.cur
  lt : st.cur < n
  readers : ∀ (s : Nat) (g : ShardGraph), shards[s]? = some g →
    st.readers s = g.lists.drop (done.filter fun p => p.2 = s).length
  set : ∀ w, st.inSet w = true ↔ w ∈ st.final
  nodup : st.final.Nodup
  fin : ∀ w, w ∈ st.final ↔ ∃ s, (st.cur, s) ∈ done ∧ EdgeOf idMaps shards s st.cur w
  outs : ∀ v < st.cur, ∃ full, st.out[v]? = some ((shuffle v full).take R) ∧ full.Nodup ∧
    ∀ w, w ∈ full ↔ ShardEdge idMaps shards v w
  nodes : ∀ p ∈ done, p.1 ≤ st.cur
  seen : st.cur = 0 ∨ ∃ s, (st.cur, s) ∈ done
  size : st.size = 24 + (st.out.map fun l => 4 + 4 * l.length).sum

theorem EdgeOf.pair {idMaps : List (List Nat)} {shards : List ShardGraph} {s v w : Nat}
    (h : EdgeOf idMaps shards s v w) : (v, s) ∈ nodeShard idMaps := by
  obtain ⟨ids, g, i, j, l, h1, h2, h3, -⟩ := h
  exact (mem_nodeShard _ _ _).2 ⟨ids, h1, List.mem_of_getElem? h3⟩

/-- When all pairs of the current node are done, its neighbours are complete. -/
theorem MergeInv.complete {idMaps : List (List Nat)} {shards : List ShardGraph} {n R : Nat}
    {shuffle : Nat → List Nat → List Nat} {done rest : List (Nat × Nat)} {st : MergeSt}
    (h : MergeInv idMaps shards n R shuffle done st) (hd : done ++ rest = nodeShard idMaps)
    (hrest : ∀ p ∈ rest, st.cur < p.1) (w : Nat) : w ∈ st.final ↔ ShardEdge idMaps shards st.cur w := by
  rw [h.fin, shardEdge_iff]
  constructor
  · rintro ⟨s, -, he⟩; exact ⟨s, he⟩
  · rintro ⟨s, he⟩
    refine ⟨s, ?_, he⟩
    have := he.pair
    rw [← hd] at this
    rcases List.mem_append.1 this with h' | h'
    · exact h'
    · have := hrest _ h'; simp at this

theorem mergePair_inv {n : Nat} {idMaps : List (List Nat)} {shards : List ShardGraph} {R : Nat}
    {shuffle : Nat → List Nat → List Nat} (hsh : Sharded n idMaps shards) (done rest : List (Nat × Nat)) (v s : Nat)
    (hd : done ++ (v, s) :: rest = nodeShard idMaps) (st : MergeSt)
    (h : MergeInv idMaps shards n R shuffle done st) :
    ∃ st', mergePair idMaps R shuffle st (v, s) = .ok st' ∧
      MergeInv idMaps shards n R shuffle (done ++ [(v, s)]) st' := by
  have hsorted := nodeShard_sorted idMaps
  rw [← hd] at hsorted
  obtain ⟨hs1, hs2, hs3⟩ := List.pairwise_append.1 hsorted
  have hmem : (v, s) ∈ nodeShard idMaps := by rw [← hd]; simp
  obtain ⟨ids, hids, hv⟩ := (mem_nodeShard _ _ _).1 hmem
  have hidm : ids ∈ idMaps := List.mem_of_getElem? hids
  have hvn : v < n := hsh.bound ids hidm v hv
  have hslt : s < shards.length := by
    rw [hsh.same]; exact (List.getElem?_eq_some_iff.1 hids).1
  have hg : shards[s]? = some shards[s] := List.getElem?_eq_getElem hslt
  obtain ⟨hlen, -, hnbr⟩ := hsh.graph s ids _ hids hg
  have hinc := hsh.inc ids hidm
  -- position of the pair in its shard
  have hf := nodeShard_filter idMaps s ids hids hinc
  rw [← hd, List.filter_append, List.filter_cons_of_pos (by simp), List.map_append, List.map_cons] at hf
  generalize hc : (done.filter fun p => p.2 = s).length = c
  have hcv : ids[c]? = some v := by
    rw [← hf, List.getElem?_append_right (by rw [List.length_map, hc]), List.length_map, hc, Nat.sub_self]
    rfl
  have hclt : c < ids.length := (List.getElem?_eq_some_iff.1 hcv).1
  have hcl : c < shards[s].lists.length := by omega
  -- after the possible flush
  have hcurv : st.cur ≤ v := by
    rcases h.seen with h0 | ⟨t, ht⟩
    · omega
    · have := hs3 _ ht (v, s) List.mem_cons_self
      unfold lexLe at this; dsimp only at this; omega
  let st1 : MergeSt := if st.cur < v then { writeNode R shuffle st with cur := v } else st
  have hst1 : MergeInv idMaps shards n R shuffle done { st1 with readers := st1.readers } ∨ True := .inr trivial
  have key : st1.out.length = v ∧ st1.cur = v ∧ (∀ t g, shards[t]? = some g →
      st1.readers t = g.lists.drop (done.filter fun p => p.2 = t).length) ∧
      (∀ w, st1.inSet w = true ↔ w ∈ st1.final) ∧ st1.final.Nodup ∧
      (∀ w, w ∈ st1.final ↔ ∃ t, (v, t) ∈ done ∧ EdgeOf idMaps shards t v w) ∧
      (∀ u < v, ∃ full, st1.out[u]? = some ((shuffle u full).take R) ∧ full.Nodup ∧
        ∀ w, w ∈ full ↔ ShardEdge idMaps shards u w) ∧
      st1.size = 24 + (st1.out.map fun l => 4 + 4 * l.length).sum := by
    by_cases hlt : st.cur < v
    · have e1 : st1 = { writeNode R shuffle st with cur := v } := if_pos hlt
      have hrest : ∀ p ∈ (v, s) :: rest, st.cur < p.1 := by
        intro p hp
        rcases List.mem_cons.1 hp with rfl | hp
        · exact hlt
        · have := (List.pairwise_cons.1 hs2).1 p hp
          unfold lexLe at this; dsimp only at this; omega
      have hv1 : v = st.cur + 1 := by
        by_contra hne
        obtain ⟨ids', hm', hv'⟩ := hsh.cover (st.cur + 1) (by omega)
        obtain ⟨t, ht⟩ := List.getElem?_of_mem hm'
        have hp := (mem_nodeShard idMaps (st.cur + 1) t).2 ⟨ids', ht, hv'⟩
        rw [← hd] at hp
        rcases List.mem_append.1 hp with hp | hp
        · have := h.nodes _ hp; dsimp only at this; omega
        · rcases List.mem_cons.1 hp with hp | hp
          · cases hp; omega
          · have := (List.pairwise_cons.1 hs2).1 _ hp
            unfold lexLe at this; dsimp only at this; omega
      rw [e1]
      refine ⟨?_, rfl, h.readers, ?_, List.nodup_nil, ?_, ?_, ?_⟩
      · simp only [writeNode, List.length_append, List.length_singleton, h.outLen]; omega
      · intro w
        simp only [writeNode, List.not_mem_nil, iff_false]
        split
        · simp
        · rename_i hw; rw [h.set]; exact hw
      · intro w
        simp only [writeNode, List.not_mem_nil, false_iff]
        rintro ⟨t, ht, -⟩
        have := h.nodes _ ht; dsimp only at this; omega
      · intro u hu
        by_cases hu' : u < st.cur
        · obtain ⟨full, f1, f2, f3⟩ := h.outs u hu'
          refine ⟨full, ?_, f2, f3⟩
          simp only [writeNode]
          rw [List.getElem?_append_left (by rw [h.outLen]; exact hu'), f1]
        · have hu2 : u = st.cur := by omega
          subst hu2
          refine ⟨st.final, ?_, h.nodup, h.complete hd hrest⟩
          simp only [writeNode]
          rw [List.getElem?_append_right (by rw [h.outLen]), h.outLen, Nat.sub_self]
          rfl
      · simp only [writeNode, List.map_append, List.sum_append, List.map_cons, List.map_nil, List.sum_cons,
          List.sum_nil, h.size]
        omega
    · have e1 : st1 = st := if_neg hlt
      have hcv' : st.cur = v := by omega
      rw [e1]
      refine ⟨by rw [h.outLen, hcv'], hcv', h.readers, h.set, h.nodup, ?_, ?_, h.size⟩
      · rw [← hcv']; exact h.fin
      · rw [← hcv']; exact h.outs
  obtain ⟨k1, k2, k3, k4, k5, k6, k7, k8⟩ := key
  have hread : st1.readers s = shards[s].lists[c] :: shards[s].lists.drop (c + 1) := by
    rw [k3 s _ hg, hc, List.drop_eq_getElem_cons hcl]
  obtain ⟨f', s', a1, a2, a3, a4⟩ := addNbrs_spec ids (numNodes idMaps) shards[s].lists[c] st1.final st1.inSet
    (hnbr _ (List.getElem_mem _)) (fun u hu => lt_numNodes idMaps ids u hidm hu) k4 k5
  refine ⟨{ st1 with final := f', inSet := s', readers := Function.update st1.readers s (shards[s].lists.drop (c + 1)) }, ?_, ?_⟩
  · unfold mergePair
    show (match st1.readers s with
      | [] => MergeRes.err
      | l :: rest =>
        match addNbrs (idMaps.getD s []) (numNodes idMaps) l (st1.final, st1.inSet) with
        | none => .panic
        | some (final, inSet) =>
          .ok { st1 with final := final, inSet := inSet, readers := Function.update st1.readers s rest }) = _
    rw [hread]
    have : idMaps.getD s [] = ids := by rw [List.getD_eq_getElem?_getD, hids]; rfl
    dsimp only
    rw [this, a1]
  · refine ⟨by show st1.out.length = st1.cur; rw [k1, k2], by show st1.cur < n; rw [k2]; exact hvn, ?_, a3, a2, ?_, ?_, ?_, ?_, k8⟩
    · intro t g ht
      show Function.update st1.readers s (shards[s].lists.drop (c + 1)) t = _
      rw [List.filter_append, List.length_append]
      by_cases hts : t = s
      · subst hts
        rw [hg] at ht; cases ht
        rw [Function.update_self, hc]
        simp
      · rw [Function.update_of_ne hts, k3 t g ht, List.filter_cons_of_neg (by simpa using fun h => hts h.symm)]
        simp
    · intro w
      show w ∈ f' ↔ ∃ t, (st1.cur, t) ∈ done ++ [(v, s)] ∧ EdgeOf idMaps shards t st1.cur w
      rw [a4, k6, k2]
      constructor
      · rintro (⟨t, ht, he⟩ | ⟨j, hj, hw⟩)
        · exact ⟨t, List.mem_append_left _ ht, he⟩
        · exact ⟨s, by simp, ids, _, c, j, _, hids, hg, hcv, hw, List.getElem?_eq_getElem hcl, hj⟩
      · rintro ⟨t, ht, he⟩
        rcases List.mem_append.1 ht with ht | ht
        · exact .inl ⟨t, ht, he⟩
        · rw [List.mem_singleton] at ht
          cases ht
          obtain ⟨ids', g', i, j, l, e1, e2, e3, e4, e5, e6⟩ := he
          rw [hids] at e1; cases e1
          rw [hg] at e2; cases e2
          have hnd : ids.Nodup := hinc.imp fun h => Nat.ne_of_lt h
          have hi : i = c := by
            have hil := (List.getElem?_eq_some_iff.1 e3).1
            refine (List.getElem?_inj hil hnd).1 ?_
            rw [e3, hcv]
          subst hi
          rw [List.getElem?_eq_getElem hcl] at e5; cases e5
          exact .inr ⟨j, e6, e4⟩
    · show ∀ u < st1.cur, _
      rw [k2]; exact k7
    · intro p hp
      show p.1 ≤ st1.cur
      rw [k2]
      rcases List.mem_append.1 hp with hp | hp
      · have := h.nodes p hp; omega
      · rw [List.mem_singleton] at hp; subst hp; exact Nat.le_refl _
    · right
      show ∃ t, (st1.cur, t) ∈ done ++ [(v, s)]
      rw [k2]; exact ⟨s, by simp⟩

theorem mergeLoop_inv {n : Nat} {idMaps : List (List Nat)} {shards : List ShardGraph} {R : Nat}
    {shuffle : Nat → List Nat → List Nat} (hsh : Sharded n idMaps shards) (rest done : List (Nat × Nat))
    (hd : done ++ rest = nodeShard idMaps) (st : MergeSt) (h : MergeInv idMaps shards n R shuffle done st) :
    ∃ st', mergeLoop idMaps R shuffle st rest = .ok st' ∧
      MergeInv idMaps shards n R shuffle (nodeShard idMaps) st' := by
  induction rest generalizing done st with
  | nil => rw [List.append_nil] at hd; subst hd; exact ⟨st, rfl, h⟩
  | cons p rest ih =>
    obtain ⟨v, s⟩ := p
    obtain ⟨st', h1, h2⟩ := mergePair_inv hsh done rest v s hd st h
    obtain ⟨st'', h3, h4⟩ := ih (done ++ [(v, s)]) (by rw [List.append_assoc]; exact hd) st' h2
    refine ⟨st'', ?_, h4⟩
    unfold mergeLoop
    rw [h1]
    exact h3

theorem lastMedoid_some (idMaps : List (List Nat)) (shards : List ShardGraph) (hlen : shards.length = idMaps.length)
    (hpos : 0 < idMaps.length)
    (hm : ∀ (s : Nat) (ids : List Nat) (g : ShardGraph), idMaps[s]? = some ids → shards[s]? = some g → g.medoid < ids.length) :
    ∃ ids g x, idMaps.getLast? = some ids ∧ shards.getLast? = some g ∧ ids[g.medoid]? = some x ∧
      lastMedoid idMaps shards = some x := by
  induction idMaps generalizing shards with
  | nil => simp at hpos
  | cons ids idMaps ih =>
    cases shards with
    | nil => simp at hlen
    | cons g shards =>
      have h0 := hm 0 ids g rfl rfl
      cases idMaps with
      | nil =>
        have : shards = [] := List.eq_nil_of_length_eq_zero (by simpa using hlen)
        subst this
        exact ⟨ids, g, ids[g.medoid], rfl, rfl, List.getElem?_eq_getElem h0, List.getElem?_eq_getElem h0⟩
      | cons ids' idMaps =>
        cases shards with
        | nil => simp at hlen
        | cons g' shards =>
          obtain ⟨ids2, g2, x, h1, h2, h3, h4⟩ := ih (g' :: shards) (by simpa using hlen) (by simp)
            (fun s i g hi hg => hm (s + 1) i g hi hg)
          refine ⟨ids2, g2, x, ?_, ?_, h3, ?_⟩
          · rw [List.getLast?_cons_cons]; exact h1
          · rw [List.getLast?_cons_cons]; exact h2
          · unfold lastMedoid
            rw [List.getElem?_eq_getElem h0]
            exact h4

end Verif.Disk
