import Verif.Garnet.BeamModel

/-
Closed forms of the loops of `BeamModel`.
-/
namespace Verif.Garnet.Beam

variable {V D σ O β : Type}

/-- Keys as they are passed to Garnet. -/
def pairs : List Nat → List Nat
  | [] => []
  | id :: l => 4 :: id :: pairs l

theorem pairs_length (l : List Nat) : (pairs l).length = 2 * l.length := by
  induction l with
  | nil => rfl
  | cons a l ih => simp [pairs, ih]; omega

theorem pairs_append (l r : List Nat) : pairs (l ++ r) = pairs l ++ pairs r := by
  induction l with
  | nil => rfl
  | cons a l ih => simp [pairs, ih]

theorem pairs_get (l : List Nat) (i : Nat) : (pairs l)[2 * i + 1]? = l[i]? := by
  induction l generalizing i with
  | nil => simp [pairs]
  | cons a l ih =>
    cases i with
    | zero => simp [pairs]
    | succ i =>
      have : 2 * (i + 1) + 1 = (2 * i + 1) + 1 + 1 := by omega
      simp [pairs, this, ih]

theorem pairs_nil {l : List Nat} : pairs l = [] ↔ l = [] := by cases l <;> simp [pairs]

/-- The calls of the callback, from number `k`. -/
def callsFrom (get : Nat → Option β) : Nat → List Nat → List (Nat × β)
  | _, [] => []
  | k, id :: l =>
    match get id with
    | none => callsFrom get (k + 1) l
    | some b => (k, b) :: callsFrom get (k + 1) l

theorem filterMap_range (l : List Nat) (get : Nat → Option β) (k : Nat) :
    ((List.range l.length).filterMap fun i => (l[i]?).bind fun id => (get id).map fun b => (i + k, b)) =
      callsFrom get k l := by
  induction l generalizing k with
  | nil => rfl
  | cons a l ih =>
    rw [List.length_cons, List.range_succ_eq_map, List.filterMap_cons, List.filterMap_map]
    have e : ((fun i => ((a :: l)[i]?).bind fun id => (get id).map fun b => (i + k, b)) ∘ Nat.succ) =
        fun i => (l[i]?).bind fun id => (get id).map fun b => (i + (k + 1), b) := by
      funext i
      simp [Nat.succ_eq_add_one, Nat.add_assoc, Nat.add_comm 1 k]
    rw [e, ih]
    cases h : get a <;> simp [callsFrom, h]

theorem readMulti_pairs (l : List Nat) (get : Nat → Option β) : readMulti (pairs l) get = callsFrom get 0 l := by
  rw [← filterMap_range]
  unfold readMulti
  have : (pairs l).length / 2 = l.length := by rw [pairs_length]; omega
  rw [this]
  simp [pairs_get]

/-- Ids that a predicate with a state lets through, in order, and the state after it. -/
def keep (f : σ → Nat → Bool × σ) : σ → List Nat → List Nat × σ
  | s, [] => ([], s)
  | s, id :: l =>
    match f s id with
    | (false, s) => keep f s l
    | (true, s) => (id :: (keep f s l).1, (keep f s l).2)

theorem collect_some (p : Pred σ) (d : D) (emit : D → O) (s : σ) (l : List Nat) (acc : List Nat) (out : List O) :
    collect p (some d) emit s l (pairs acc) out =
      (true, (keep p.evalMut s l).2, pairs (acc ++ (keep p.evalMut s l).1.filter (· ≠ 0)),
        out ++ ((keep p.evalMut s l).1.filter (· = 0)).map fun _ => emit d) := by
  induction l generalizing s acc out with
  | nil => simp [collect, keep]
  | cons id l ih =>
    cases h : p.evalMut s id with
    | mk b s' =>
      cases b with
      | false => simp only [collect, keep, h]; exact ih s' acc out
      | true =>
        simp only [collect, keep, h]
        by_cases h0 : id = 0
        · rw [if_pos h0, ih]
          simp [h0]
        · have : pairs acc ++ [4, id] = pairs (acc ++ [id]) := by simp [pairs_append, pairs]
          rw [if_neg h0, this, ih]
          simp [h0]

/-- Without a start point: the same if it is not met. -/
theorem collect_none (p : Pred σ) (emit : D → O) (s : σ) (l : List Nat) (acc : List Nat) (out : List O) :
    (0 ∉ (keep p.evalMut s l).1 ∧ collect p none emit s l (pairs acc) out =
      (true, (keep p.evalMut s l).2, pairs (acc ++ (keep p.evalMut s l).1), out)) ∨
    (0 ∈ (keep p.evalMut s l).1 ∧ ∃ s' ids, collect p none emit s l (pairs acc) out = (false, s', ids, out)) := by
  induction l generalizing s acc with
  | nil => exact .inl ⟨by simp [keep], by simp [collect, keep]⟩
  | cons id l ih =>
    cases h : p.evalMut s id with
    | mk b s' =>
      cases b with
      | false => simp only [collect, keep, h]; exact ih s' acc
      | true =>
        simp only [collect, keep, h]
        by_cases h0 : id = 0
        · rw [if_pos h0]
          exact .inr ⟨by simp [h0], _, _, rfl⟩
        · have e : pairs acc ++ [4, id] = pairs (acc ++ [id]) := by simp [pairs_append, pairs]
          rw [if_neg h0, e]
          rcases ih s' (acc ++ [id]) with ⟨h1, h2⟩ | ⟨h1, s2, ids, h2⟩
          · refine .inl ⟨by simp [h1, Ne.symm h0], ?_⟩
            rw [h2]
            simp
          · exact .inr ⟨by simp [h1], s2, ids, h2⟩

/-- What is reported for ids, given their decisions. -/
theorem report_calls (mk : Nat → Nat → V → Option O) (f : Nat → V → O) (vec : Nat → Option V) (pre l : List Nat)
    (h : ∀ i id v, (pre ++ l)[i]? = some id → mk i id v = some (f id v)) :
    report mk (pairs (pre ++ l)) (callsFrom vec pre.length l) =
      some (l.filterMap fun id => (vec id).map (f id)) := by
  induction l generalizing pre with
  | nil => rfl
  | cons id l ih =>
    have e : pre ++ id :: l = (pre ++ [id]) ++ l := by simp
    have ih := ih (pre ++ [id]) (by rw [← e]; exact h)
    rw [List.length_append, List.length_singleton, ← e] at ih
    cases hv : vec id with
    | none => simp [callsFrom, hv, ih]
    | some v =>
      have hg : (pre ++ id :: l)[pre.length]? = some id := by simp
      simp only [callsFrom, hv, report, pairs_get, hg, Option.bind_some, h _ _ v hg, ih]
      simp [hv]

theorem report_pairs (mk : Nat → Nat → V → Option O) (f : Nat → V → O) (vec : Nat → Option V) (l : List Nat)
    (h : ∀ i id v, l[i]? = some id → mk i id v = some (f id v)) :
    report mk (pairs l) (readMulti (pairs l) vec) = some (l.filterMap fun id => (vec id).map (f id)) := by
  rw [readMulti_pairs]
  exact report_calls mk f vec [] l h

theorem decisions_calls (filter : List Nat → Bool) (attrs : Nat → Option (List Nat)) (l : List Nat) (pre : List Bool) :
    (callsFrom attrs pre.length l).foldl (decideOne filter)
      (some (pre ++ List.replicate l.length (filter []))) =
    some (pre ++ l.map fun id => filter ((attrs id).getD [])) := by
  induction l generalizing pre with
  | nil => simp [callsFrom]
  | cons id l ih =>
    cases ha : attrs id with
    | none =>
      have := ih (pre ++ [filter []])
      simp only [List.length_append, List.length_singleton] at this
      simp only [callsFrom, ha, List.length_cons, List.replicate_succ]
      rw [show pre ++ filter [] :: List.replicate l.length (filter []) =
        (pre ++ [filter []]) ++ List.replicate l.length (filter []) by simp, this]
      simp [ha]
    | some a =>
      have := ih (pre ++ [filter a])
      simp only [List.length_append, List.length_singleton] at this
      simp only [callsFrom, ha, List.length_cons, List.replicate_succ, List.foldl_cons]
      have e : decideOne filter (some (pre ++ filter [] :: List.replicate l.length (filter []))) (pre.length, a) =
          some ((pre ++ [filter a]) ++ List.replicate l.length (filter [])) := by
        simp [decideOne]
      rw [e, this]
      simp [ha]

/-- Whether the filter accepts an id: no attributes are empty attributes. -/
def matching (filter : List Nat → Bool) (attrs : Nat → Option (List Nat)) (id : Nat) : Bool :=
  filter ((attrs id).getD [])

theorem decisions_pairs (filter : List Nat → Bool) (attrs : Nat → Option (List Nat)) (l : List Nat) :
    decisions filter (filter []) (pairs l) attrs = some (l.map (matching filter attrs)) := by
  unfold decisions
  have : (pairs l).length / 2 = l.length := by rw [pairs_length]; omega
  rw [this, readMulti_pairs]
  have := decisions_calls filter attrs l []
  simp only [List.nil_append, List.length_nil] at this
  exact this

theorem gather_eq (p : Pred σ) (s : σ) (l : List Nat) :
    gather p s l = pairs (l.filter fun id => id ≠ 0 ∧ p.eval s id = true) := by
  induction l with
  | nil => rfl
  | cons a l ih =>
    by_cases h : a ≠ 0 ∧ p.eval s a = true
    · rw [gather, if_pos h, ih, List.filter_cons_of_pos (by simpa using h), pairs]
    · rw [gather, if_neg h, ih, List.filter_cons_of_neg (by simpa using h)]

/-- The buffer during the compaction: kept ids, leftovers, ids still to be seen. -/
theorem compact_eq (p : Pred σ) (g : Nat → Bool) (s : σ) (kept rest l : List Nat) :
    compact p s (pairs (kept ++ rest ++ l)) (kept ++ rest).length kept.length (l.map g) =
      some ((keep p.evalAccept s (l.filter g)).2, pairs (kept ++ (keep p.evalAccept s (l.filter g)).1)) := by
  induction l generalizing s kept rest with
  | nil =>
    have : (pairs (kept ++ rest ++ [])).take (kept.length * 2) = pairs kept := by
      rw [List.append_nil, pairs_append, List.take_append_of_le_length (by rw [pairs_length]; omega)]
      exact List.take_of_length_le (by rw [pairs_length]; omega)
    rw [List.append_nil] at this
    simp [compact, keep, this]
  | cons id l ih =>
    have hget : (pairs (kept ++ rest ++ id :: l))[(kept ++ rest).length * 2 + 1]? = some id := by
      rw [Nat.mul_comm, pairs_get]
      simp
    have eskip : kept ++ rest ++ id :: l = kept ++ (rest ++ [id]) ++ l := by simp
    have hskip := fun s => ih s kept (rest ++ [id])
    simp only [← eskip, show (kept ++ (rest ++ [id])).length = (kept ++ rest).length + 1 by simp; omega] at hskip
    by_cases hg : g id = true
    · rw [List.map_cons, compact, if_pos hg, hget, List.filter_cons_of_pos hg]
      cases h : p.evalAccept s id with
      | mk b s' =>
        cases b with
        | false =>
          simp only [keep, h]
          exact hskip s'
        | true =>
          simp only [keep, h]
          have hlen : kept.length * 2 + 1 < (pairs (kept ++ rest ++ id :: l)).length := by
            rw [pairs_length]
            simp
            omega
          rw [if_pos hlen]
          -- The first leftover, or the id itself, is overwritten.
          have hset : ∀ x m, ((pairs (kept ++ x :: m)).set (kept.length * 2) 4).set (kept.length * 2 + 1) id =
              pairs (kept ++ id :: m) := by
            intro x m
            rw [pairs_append, pairs_append]
            have hk : (pairs kept).length = kept.length * 2 := by rw [pairs_length]; omega
            rw [← hk, List.set_append_right _ _ (Nat.le_refl _), List.set_append_right _ _ (by omega)]
            simp [pairs]
          cases rest with
          | nil =>
            have := hset id l
            simp only [List.append_nil] at this ⊢
            rw [this]
            have h2 := ih s' (kept ++ [id]) []
            simp only [List.append_nil, List.length_append, List.length_singleton, List.append_assoc,
              List.singleton_append] at h2 ⊢
            exact h2
          | cons x m =>
            have := hset x (m ++ id :: l)
            rw [show kept ++ x :: m ++ id :: l = kept ++ x :: (m ++ id :: l) by simp, this]
            have h2 := ih s' (kept ++ [id]) (m ++ [id])
            rw [show (kept ++ [id] ++ (m ++ [id])).length = (kept ++ x :: m).length + 1 by simp; omega,
              show (kept ++ [id]).length = kept.length + 1 by simp,
              show kept ++ [id] ++ (m ++ [id]) ++ l = kept ++ id :: (m ++ id :: l) by simp] at h2
            rw [h2]
            simp
    · rw [List.map_cons, compact, if_neg hg, List.filter_cons_of_neg hg]
      exact hskip s

/-! ### Closed forms -/

/-- The neighbors of a node. -/
def nbrs (x : Data V) (n : Nat) : List Nat := (x.neighbors n).getD []

/-- The ids that are reported, with what is reported. -/
def withVector (vec : Nat → Option V) (f : Nat → V → O) (l : List Nat) : List O :=
  l.filterMap fun id => (vec id).map (f id)

theorem expandBeam_cons_some (dist : V → D) (x : Data V) (p : Pred σ) (s : σ) (n : Nat) (ns : List Nat)
    (out : List (Nat × D)) {v : V} (hv : x.start = some v) :
    expandBeam dist x p s (n :: ns) out =
      expandBeam dist x p (keep p.evalMut s (nbrs x n)).2 ns
        (out ++ ((keep p.evalMut s (nbrs x n)).1.filter (· = 0)).map (fun _ => (0, dist v)) ++
          withVector x.vector (fun id v => (id, dist v)) ((keep p.evalMut s (nbrs x n)).1.filter (· ≠ 0))) := by
  rw [expandBeam]
  have := collect_some p (dist v) (fun d => (0, d)) s (nbrs x n) [] out
  simp only [pairs, List.nil_append] at this
  unfold nbrs at this ⊢
  rw [hv, Option.map_some, this]
  simp only
  rw [report_pairs (fun _ id v => some (id, dist v)) (fun id v => (id, dist v)) x.vector _ (fun _ _ _ _ => rfl)]
  rfl

theorem expandFiltered_cons_some (dist : V → D) (filter : List Nat → Bool) (x : Data V) (p : Pred σ) (s : σ) (n : Nat)
    (ns : List Nat) (out : List (Nat × Bool × D)) {v : V} (hv : x.start = some v) :
    expandFiltered dist filter x p s (n :: ns) out =
      expandFiltered dist filter x p (keep p.evalMut s (nbrs x n)).2 ns
        (out ++ ((keep p.evalMut s (nbrs x n)).1.filter (· = 0)).map (fun _ => (0, false, dist v)) ++
          withVector x.vector (fun id v => (id, matching filter x.attrs id, dist v))
            ((keep p.evalMut s (nbrs x n)).1.filter (· ≠ 0))) := by
  rw [expandFiltered]
  have := collect_some p (dist v) (fun d => (0, false, d)) s (nbrs x n) [] out
  simp only [pairs, List.nil_append] at this
  unfold nbrs at this ⊢
  rw [hv, Option.map_some, this]
  simp only
  by_cases he : pairs ((keep p.evalMut s ((x.neighbors n).getD [])).1.filter (· ≠ 0)) = []
  · rw [if_pos he, pairs_nil.1 he]
    simp [withVector]
  · rw [if_neg he, decisions_pairs]
    simp only
    rw [report_pairs _ (fun id v => (id, matching filter x.attrs id, dist v)) x.vector]
    · rfl
    · intro i id v h
      rw [List.getElem?_map, h]
      rfl

theorem expandAccept_cons (dist : V → D) (filter : List Nat → Bool) (x : Data V) (p : Pred σ) (s : σ) (n : Nat)
    (ns : List Nat) (out : List (Nat × D)) :
    expandAccept dist filter x p s (n :: ns) out =
      (let k := keep p.evalAccept s
        (((nbrs x n).filter fun id => id ≠ 0 ∧ p.eval s id = true).filter (matching filter x.attrs))
       expandAccept dist filter x p k.2 ns (out ++ withVector x.vector (fun id v => (id, dist v)) k.1)) := by
  rw [expandAccept, gather_eq]
  unfold nbrs
  simp only
  by_cases he : pairs (((x.neighbors n).getD []).filter fun id => id ≠ 0 ∧ p.eval s id = true) = []
  · rw [if_pos he, pairs_nil.1 he]
    simp [withVector, keep]
  · rw [if_neg he, decisions_pairs]
    simp only
    have := compact_eq p (matching filter x.attrs) s [] []
      (((x.neighbors n).getD []).filter fun id => id ≠ 0 ∧ p.eval s id = true)
    simp only [List.nil_append, List.length_nil] at this
    rw [this]
    simp only
    by_cases he2 : pairs (keep p.evalAccept s ((((x.neighbors n).getD []).filter
        fun id => id ≠ 0 ∧ p.eval s id = true).filter (matching filter x.attrs))).1 = []
    · rw [if_pos he2, pairs_nil.1 he2]
      simp [withVector]
    · rw [if_neg he2, report_pairs (fun _ id v => some (id, dist v)) (fun id v => (id, dist v)) x.vector _
        (fun _ _ _ _ => rfl)]
      rfl

theorem expandBeam_cons_none (dist : V → D) (x : Data V) (p : Pred σ) (s : σ) (n : Nat) (ns : List Nat)
    (out : List (Nat × D)) (hv : x.start = none) :
    (0 ∉ (keep p.evalMut s (nbrs x n)).1 ∧ expandBeam dist x p s (n :: ns) out =
      expandBeam dist x p (keep p.evalMut s (nbrs x n)).2 ns
        (out ++ withVector x.vector (fun id v => (id, dist v)) (keep p.evalMut s (nbrs x n)).1)) ∨
    (0 ∈ (keep p.evalMut s (nbrs x n)).1 ∧ ∃ s', expandBeam dist x p s (n :: ns) out = some (false, s', out)) := by
  rw [expandBeam]
  have := collect_none p (fun d : D => (0, d)) s (nbrs x n) [] out
  simp only [pairs, List.nil_append] at this
  unfold nbrs at this ⊢
  rw [hv, Option.map_none]
  rcases this with ⟨h0, h⟩ | ⟨h0, s', ids, h⟩
  · refine .inl ⟨h0, ?_⟩
    rw [h]
    simp only
    rw [report_pairs (fun _ id v => some (id, dist v)) (fun id v => (id, dist v)) x.vector _ (fun _ _ _ _ => rfl)]
    rfl
  · exact .inr ⟨h0, s', by rw [h]⟩

/-- Both kinds of expansion stop at the same place. -/
theorem collect_forget {O' : Type} (p : Pred σ) (start : Option D) (emit : D → O) (emit' : D → O') (f : O → O')
    (hf : ∀ d, f (emit d) = emit' d) (s : σ) (l ids : List Nat) (out : List O) :
    collect p start emit' s l ids (out.map f) =
      (let r := collect p start emit s l ids out
       (r.1, r.2.1, r.2.2.1, r.2.2.2.map f)) := by
  induction l generalizing s ids out with
  | nil => rfl
  | cons id l ih =>
    cases h : p.evalMut s id with
    | mk b s' =>
      cases b with
      | false => simp only [collect, h]; exact ih s' ids out
      | true =>
        simp only [collect, h]
        by_cases h0 : id = 0
        · rw [if_pos h0, if_pos h0]
          cases start with
          | none => rfl
          | some d =>
            have := ih s' ids (out ++ [emit d])
            simp only [List.map_append, List.map_cons, List.map_nil, hf] at this
            exact this
        · rw [if_neg h0, if_neg h0]
          exact ih s' _ out

/-- The keys are always pairs, never of the start point, and what is reported is the start point. -/
theorem collect_pairs (p : Pred σ) (start : Option D) (emit : D → O) (s : σ) (l acc : List Nat) (out : List O)
    (h0 : 0 ∉ acc) :
    (∃ r, 0 ∉ r ∧ (collect p start emit s l (pairs acc) out).2.2.1 = pairs r) ∧
    ∀ o ∈ (collect p start emit s l (pairs acc) out).2.2.2, o ∈ out ∨ ∃ d, o = emit d := by
  induction l generalizing s acc out with
  | nil => exact ⟨⟨acc, h0, rfl⟩, fun o ho => .inl ho⟩
  | cons id l ih =>
    cases h : p.evalMut s id with
    | mk b s' =>
      cases b with
      | false => simp only [collect, h]; exact ih s' acc out h0
      | true =>
        simp only [collect, h]
        by_cases hz : id = 0
        · rw [if_pos hz]
          cases start with
          | none => exact ⟨⟨acc, h0, rfl⟩, fun o ho => .inl ho⟩
          | some d =>
            obtain ⟨h1, h2⟩ := ih s' acc (out ++ [emit d]) h0
            refine ⟨h1, fun o ho => ?_⟩
            rcases h2 o ho with h | h
            · rcases List.mem_append.1 h with h | h
              · exact .inl h
              · exact .inr ⟨d, List.mem_singleton.1 h⟩
            · exact .inr h
        · have e : pairs acc ++ [4, id] = pairs (acc ++ [id]) := by simp [pairs_append, pairs]
          rw [if_neg hz, e]
          exact ih s' _ out (by simp [h0, Ne.symm hz])

theorem keep_notIn (V : List Nat) (l : List Nat) :
    (keep notIn.evalMut V l).1.Nodup ∧ (∀ id, id ∈ (keep notIn.evalMut V l).1 ↔ id ∈ l ∧ id ∉ V) ∧
    ∀ id, id ∈ (keep notIn.evalMut V l).2 ↔ id ∈ V ∨ id ∈ l := by
  induction l generalizing V with
  | nil => simp [keep]
  | cons a l ih =>
    by_cases h : a ∈ V
    · have e : notIn.evalMut V a = (false, V) := by simp [notIn, h]
      simp only [keep, e]
      obtain ⟨h1, h2, h3⟩ := ih V
      refine ⟨h1, fun id => ?_, fun id => ?_⟩
      · rw [h2]
        constructor
        · rintro ⟨x, y⟩
          exact ⟨List.mem_cons_of_mem _ x, y⟩
        · rintro ⟨x, y⟩
          rcases List.mem_cons.1 x with rfl | x
          · exact absurd h y
          · exact ⟨x, y⟩
      · rw [h3]
        constructor
        · rintro (x | x)
          · exact .inl x
          · exact .inr (List.mem_cons_of_mem _ x)
        · rintro (x | x)
          · exact .inl x
          · rcases List.mem_cons.1 x with rfl | x
            · exact .inl h
            · exact .inr x
    · have e : notIn.evalMut V a = (true, a :: V) := by simp [notIn, h]
      simp only [keep, e]
      obtain ⟨h1, h2, h3⟩ := ih (a :: V)
      refine ⟨List.nodup_cons.2 ⟨fun hm => ((h2 a).1 hm).2 List.mem_cons_self, h1⟩, fun id => ?_, fun id => ?_⟩
      · rw [List.mem_cons, h2]
        constructor
        · rintro (rfl | ⟨x, y⟩)
          · exact ⟨List.mem_cons_self, h⟩
          · exact ⟨List.mem_cons_of_mem _ x, fun z => y (List.mem_cons_of_mem _ z)⟩
        · rintro ⟨x, y⟩
          by_cases hid : id = a
          · exact .inl hid
          · refine .inr ⟨(List.mem_cons.1 x).resolve_left hid, fun z => ?_⟩
            exact (List.mem_cons.1 z).elim hid y
      · rw [h3]
        simp only [List.mem_cons]
        constructor
        · rintro ((x | x) | x)
          · exact .inr (.inl x)
          · exact .inl x
          · exact .inr (.inr x)
        · rintro (x | x | x)
          · exact .inl (.inr x)
          · exact .inl (.inl x)
          · exact .inr x

/-- Two sets of visited ids that agree on the ids with a property let the same of them through. -/
theorem keep_agree (g : Nat → Bool) (V W : List Nat) (l : List Nat) (h : ∀ id, g id = true → (id ∈ V ↔ id ∈ W)) :
    (keep notIn.evalMut V l).1.filter g = (keep notIn.evalMut W (l.filter g)).1 := by
  induction l generalizing V W with
  | nil => rfl
  | cons a l ih =>
    by_cases hg : g a = true
    · rw [List.filter_cons_of_pos hg]
      by_cases ha : a ∈ V
      · have e1 : notIn.evalMut V a = (false, V) := by simp [notIn, ha]
        have e2 : notIn.evalMut W a = (false, W) := by simp [notIn, (h a hg).1 ha]
        simp only [keep, e1, e2]
        exact ih V W h
      · have ha' : a ∉ W := fun x => ha ((h a hg).2 x)
        have e1 : notIn.evalMut V a = (true, a :: V) := by simp [notIn, ha]
        have e2 : notIn.evalMut W a = (true, a :: W) := by simp [notIn, ha']
        simp only [keep, e1, e2, List.filter_cons_of_pos hg]
        rw [ih (a :: V) (a :: W) fun id hid => by simp [h id hid]]
    · rw [List.filter_cons_of_neg hg]
      by_cases ha : a ∈ V
      · have e1 : notIn.evalMut V a = (false, V) := by simp [notIn, ha]
        simp only [keep, e1]
        exact ih V W h
      · have e1 : notIn.evalMut V a = (true, a :: V) := by simp [notIn, ha]
        simp only [keep, e1, List.filter_cons_of_neg hg]
        refine ih (a :: V) W fun id hid => ?_
        have : id ≠ a := fun e => hg (e ▸ hid)
        simp [this, h id hid]

theorem keep_skip (V : List Nat) (l : List Nat) :
    keep notIn.evalMut V l = keep notIn.evalMut V (l.filter fun id => !V.contains id) := by
  have gen : ∀ (W : List Nat), (∀ id ∈ V, id ∈ W) →
      keep notIn.evalMut W l = keep notIn.evalMut W (l.filter fun id => !V.contains id) := by
    induction l with
    | nil => intros; rfl
    | cons a l ih =>
      intro W hW
      by_cases ha : a ∈ V
      · have e1 : notIn.evalMut W a = (false, W) := by simp [notIn, hW a ha]
        rw [List.filter_cons_of_neg (by simp [ha])]
        simp only [keep, e1]
        exact ih W hW
      · rw [List.filter_cons_of_pos (by simp [ha])]
        by_cases hw : a ∈ W
        · have e1 : notIn.evalMut W a = (false, W) := by simp [notIn, hw]
          simp only [keep, e1]
          exact ih W hW
        · have e1 : notIn.evalMut W a = (true, a :: W) := by simp [notIn, hw]
          simp only [keep, e1]
          rw [ih (a :: W) fun id hid => List.mem_cons_of_mem _ (hW id hid)]
  exact gen V fun _ h => h

end Verif.Garnet.Beam
