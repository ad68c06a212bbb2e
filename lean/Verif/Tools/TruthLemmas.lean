import Verif.Tools.TruthSpec
import Verif.Queue.Props
import Verif.Disk.VectorFileProps
import Mathlib.Data.List.GetD
import Mathlib.Data.List.InsertIdx
namespace Verif.Tools

open Verif.Queue Verif.Disk

variable {V Q D A : Type} [LinearOrder D]

theorem isNearest_bestOf (k : Nat) (cands : List (Nat × Option D)) : IsNearest k cands (bestOf k cands) := by
  obtain ⟨h1, h2, h3⟩ := C01_bestOf_meaning k cands
  exact ⟨h2, h1, h3⟩

theorem forQueries_spec {S : Type} (f : Nat → S → Option S) (P : Nat → S → Prop) (start : Nat) (slots : List S)
    (h : ∀ (i : Nat) (s : S), slots[i]? = some s → ∃ s', f (start + i) s = some s' ∧ P (start + i) s') :
    ∃ out, forQueries f start slots = some out ∧ out.length = slots.length ∧
      ∀ (i : Nat) (s : S), out[i]? = some s → P (start + i) s := by
  induction slots generalizing start with
  | nil => exact ⟨[], rfl, rfl, by simp⟩
  | cons a rest ih =>
    obtain ⟨a', h1, h2⟩ := h 0 a rfl
    obtain ⟨out, e1, e2, e3⟩ := ih (start + 1) (by
      intro i s hs
      have := h (i + 1) s (by simpa using hs)
      rwa [show start + (i + 1) = start + 1 + i by omega] at this)
    refine ⟨a' :: out, ?_, by simp [e2], ?_⟩
    · unfold forQueries
      rw [Nat.add_zero] at h1
      rw [h1, e1]
    · intro i s hs
      cases i with
      | zero => simp only [List.getElem?_cons_zero, Option.some.injEq] at hs; subst hs; exact h2
      | succ i =>
        have := e3 i s (by simpa using hs)
        rwa [show start + (i + 1) = start + 1 + i by omega]

theorem allowed_eq (bms : Option (List Bitmap)) (nq qi idx : Nat) (hc : Covers bms nq) (hq : qi < nq) :
    allowed bms qi idx = some (permits bms qi idx) := by
  unfold allowed permits
  cases bms with
  | none => rfl
  | some bs =>
    have h := hc bs rfl
    dsimp only
    rw [List.getElem?_eq_getElem (by omega), List.getD_eq_getElem _ _ (by omega)]
    rfl

theorem feed_append' (pad : D) (q : Queue Nat D) (xs ys : List (Nat × Option D)) :
    feed pad q (xs ++ ys) = (feed pad q xs).bind (fun q' => feed pad q' ys) := by
  unfold feed
  rw [List.foldlM_append]
  rfl

theorem offer_step (pad : D) (dist : V → Q → Option D) (bms : Option (List Bitmap)) (nq base qi : Nat) (q : Q)
    (hc : Covers bms nq) (hq : qi < nq) (x : V × Nat) (hx : base + x.2 < 4294967296) (que : Queue Nat D) :
    offer pad dist bms base qi q que x
      = if permits bms qi (base + x.2) = true then que.insert pad (base + x.2) (dist x.1 q) else some que := by
  unfold offer
  rw [Nat.mod_eq_of_lt hx, allowed_eq bms nq qi _ hc hq]
  cases permits bms qi (base + x.2) <;> rfl

/-- Offering a numbered list to a query is feeding its permitted part. -/
theorem offer_fold (pad : D) (dist : V → Q → Option D) (bms : Option (List Bitmap)) (nq base qi : Nat) (q : Q)
    (hc : Covers bms nq) (hq : qi < nq) (xs : List (V × Nat)) (hx : ∀ x ∈ xs, base + x.2 < 4294967296)
    (que : Queue Nat D) :
    xs.foldlM (offer pad dist bms base qi q) que
      = feed pad que ((xs.filter (fun x => permits bms qi (base + x.2))).map (fun x => (base + x.2, dist x.1 q))) := by
  induction xs generalizing que with
  | nil => rfl
  | cons x xs ih =>
    have hx0 := hx x (by simp)
    have ih' := ih (fun y hy => hx y (by simp [hy]))
    rw [List.foldlM_cons, List.filter_cons, offer_step pad dist bms nq base qi q hc hq x hx0]
    by_cases hp : permits bms qi (base + x.2) = true
    · rw [if_pos hp, if_pos hp, List.map_cons]
      unfold feed
      rw [List.foldlM_cons]
      cases hi : que.insert pad (base + x.2) (dist x.1 q) with
      | none => rfl
      | some q' => exact ih' q'
    · rw [if_neg hp, if_neg hp]
      exact ih' que

theorem candidates_append (dist : V → Q → Option D) (bms : Option (List Bitmap)) (qi : Nat) (q : Q)
    (pts batch : List V) :
    candidates dist bms qi q (pts ++ batch) = candidates dist bms qi q pts ++
      (batch.zipIdx.filter (fun x => permits bms qi (pts.length + x.2))).map
        (fun x => (pts.length + x.2, dist x.1 q)) := by
  unfold candidates
  rw [List.zipIdx_append, List.filter_append, List.map_append, Nat.zero_add,
    List.zipIdx_eq_map_add (l := batch) (i := pts.length), List.filter_map, List.map_map]
  rfl

theorem mem_zipIdx_lt {α : Type} (l : List α) (x : α × Nat) (h : x ∈ l.zipIdx) : x.2 < l.length := by
  have := List.mem_zipIdx h
  omega

/-- What is known after the points `pts` were offered. -/
structure GoodSlots (pad : D) (dist : V → Q → Option D) (bms : Option (List Bitmap)) (k : Nat) (queries : List Q)
    (pts : List V) (slots : List (Slot Q D)) : Prop where
  len : slots.length = queries.length
  slot : ∀ (i : Nat) (s : Slot Q D), slots[i]? = some s →
    queries[i]? = some s.1 ∧ feed pad (Queue.new k) (candidates dist bms i s.1 pts) = some s.2

theorem good_start (pad : D) (dist : V → Q → Option D) (bms : Option (List Bitmap)) (k : Nat) (queries : List Q) :
    GoodSlots pad dist bms k queries [] (queries.map (fun q => (q, Queue.new k))) := by
  refine ⟨by simp, ?_⟩
  intro i s hs
  rw [List.getElem?_map] at hs
  cases hq : queries[i]? with
  | none => rw [hq] at hs; simp at hs
  | some q =>
    rw [hq] at hs
    simp only [Option.map_some, Option.some.injEq] at hs
    subst hs
    exact ⟨rfl, rfl⟩

theorem offerBatch_good (pad : D) (dist : V → Q → Option D) (bms : Option (List Bitmap)) (k : Nat) (hk : 1 ≤ k)
    (queries : List Q) (hc : Covers bms queries.length) (pts batch : List V)
    (hn : pts.length + batch.length ≤ 4294967296) (i : Nat) (hi : i < queries.length) (s : Slot Q D)
    (hs : feed pad (Queue.new k) (candidates dist bms i s.1 pts) = some s.2) :
    ∃ s', offerBatch pad dist bms pts.length batch i s = some s' ∧ s'.1 = s.1 ∧
      feed pad (Queue.new k) (candidates dist bms i s.1 (pts ++ batch)) = some s'.2 := by
  obtain ⟨q', h1, -⟩ := C01_queue_best_l pad k hk (candidates dist bms i s.1 (pts ++ batch))
  refine ⟨(s.1, q'), ?_, rfl, h1⟩
  unfold offerBatch
  rw [offer_fold pad dist bms queries.length pts.length i s.1 hc hi _ (by
    intro x hx
    have := mem_zipIdx_lt _ _ hx
    omega)]
  rw [candidates_append, feed_append', hs, Option.bind_some] at h1
  rw [h1]
  rfl

theorem forBatch_good (pad : D) (dist : V → Q → Option D) (bms : Option (List Bitmap)) (k : Nat) (hk : 1 ≤ k)
    (queries : List Q) (hc : Covers bms queries.length) (pts batch : List V)
    (hn : pts.length + batch.length ≤ 4294967296) (slots : List (Slot Q D))
    (h : GoodSlots pad dist bms k queries pts slots) :
    ∃ out, forQueries (offerBatch pad dist bms pts.length batch) 0 slots = some out ∧
      GoodSlots pad dist bms k queries (pts ++ batch) out := by
  obtain ⟨out, e1, e2, e3⟩ := forQueries_spec (offerBatch pad dist bms pts.length batch)
    (fun i s => queries[i]? = some s.1 ∧ feed pad (Queue.new k) (candidates dist bms i s.1 (pts ++ batch)) = some s.2)
    0 slots (by
      intro i s hs
      rw [Nat.zero_add]
      obtain ⟨g1, g2⟩ := h.slot i s hs
      have hi : i < queries.length := by
        by_contra hge
        rw [List.getElem?_eq_none (by omega)] at g1
        simp at g1
      obtain ⟨s', a, b, c⟩ := offerBatch_good pad dist bms k hk queries hc pts batch hn i hi s g2
      exact ⟨s', a, by rw [b]; exact g1, by rw [b]; exact c⟩)
  refine ⟨out, e1, e2.trans h.len, ?_⟩
  intro i s hs
  have := e3 i s hs
  rwa [Nat.zero_add] at this

theorem chunksF_flatten {α : Type} (n : Nat) (hn : 1 ≤ n) (fuel : Nat) (l : List α) (h : l.length ≤ fuel) :
    (chunksF n fuel l).flatten = l := by
  induction fuel generalizing l with
  | zero => have : l = [] := by simpa using h
            subst this; rfl
  | succ fuel ih =>
    unfold chunksF
    cases l with
    | nil => rfl
    | cons a l =>
      simp only [List.isEmpty_cons, Bool.false_eq_true, if_false, List.flatten_cons]
      rw [ih _ (by simp only [List.length_drop, List.length_cons] at *; omega), List.take_append_drop]

theorem batches_good (pad : D) (dist : V → Q → Option D) (bms : Option (List Bitmap)) (k : Nat) (hk : 1 ≤ k)
    (queries : List Q) (hc : Covers bms queries.length) (chunks : List (List (V × A))) (pts : List (V × A))
    (hn : pts.length + chunks.flatten.length ≤ 4294967296) (st : GtState Q D A)
    (h : GoodSlots pad dist bms k queries (pts.map (·.1)) st.slots) (hb : st.numBase = pts.length)
    (ha : st.assoc = pts.map (·.2)) :
    ∃ st', chunks.foldlM (batchStep pad dist bms) st = some st' ∧
      GoodSlots pad dist bms k queries ((pts ++ chunks.flatten).map (·.1)) st'.slots ∧
      st'.numBase = (pts ++ chunks.flatten).length ∧ st'.assoc = (pts ++ chunks.flatten).map (·.2) := by
  induction chunks generalizing pts st with
  | nil => exact ⟨st, rfl, by simpa using h, by simpa using hb, by simpa using ha⟩
  | cons c cs ih =>
    rw [List.flatten_cons, List.length_append] at hn
    rw [List.foldlM_cons, List.flatten_cons, ← List.append_assoc]
    unfold batchStep
    by_cases hc0 : c.isEmpty = true
    · have hnil : c = [] := by simpa using hc0
      subst hnil
      rw [if_pos (by rfl), List.append_nil]
      exact ih pts (by omega) st h hb ha
    · rw [if_neg hc0]
      obtain ⟨out, e1, e2⟩ := forBatch_good pad dist bms k hk queries hc (pts.map (·.1)) (c.map (·.1))
        (by simp only [List.length_map]; omega) st.slots h
      rw [List.length_map, ← hb] at e1
      rw [e1]
      simp only [Option.map_some, Option.bind_eq_bind, Option.bind_some]
      exact ih (pts ++ c) (by rw [List.length_append]; omega) _ (by rw [List.map_append]; exact e2)
        (by dsimp only; rw [hb, List.length_append]) (by dsimp only; rw [ha, List.map_append])

theorem zipIdx_singleton_fold (pad : D) (dist : V → Q → Option D) (bms : Option (List Bitmap)) (base j : Nat) (v : V) :
    (fun (qi : Nat) (s : Slot Q D) => (offer pad dist bms base qi s.1 s.2 (v, j)).map (fun nq => (s.1, nq)))
      = offerBatch pad dist bms (base + j) [v] := by
  funext qi s
  unfold offerBatch
  simp only [List.zipIdx_cons, List.zipIdx_nil, List.foldlM_cons, List.foldlM_nil]
  unfold offer
  simp only [Nat.add_zero]
  cases allowed bms qi ((base + j) % 4294967296) with
  | none => rfl
  | some b =>
    cases b with
    | false => rfl
    | true =>
      dsimp only
      cases s.2.insert pad ((base + j) % 4294967296) (dist v s.1) <;> rfl

theorem inserts_good (pad : D) (dist : V → Q → Option D) (bms : Option (List Bitmap)) (k : Nat) (hk : 1 ≤ k)
    (queries : List Q) (hc : Covers bms queries.length) (base : Nat) (ins : List V) (pts : List V) (j : Nat)
    (hj : pts.length = base + j)
    (hn : pts.length + ins.length ≤ 4294967296) (slots : List (Slot Q D))
    (h : GoodSlots pad dist bms k queries pts slots) :
    ∃ out, (ins.zipIdx j).foldlM (insertStep pad dist bms base) slots = some out ∧
      GoodSlots pad dist bms k queries (pts ++ ins) out := by
  induction ins generalizing pts j slots with
  | nil => exact ⟨slots, rfl, by simpa using h⟩
  | cons v ins ih =>
    rw [List.length_cons] at hn
    rw [List.zipIdx_cons, List.foldlM_cons]
    obtain ⟨out, e1, e2⟩ := forBatch_good pad dist bms k hk queries hc pts [v] (by simp; omega) slots h
    unfold insertStep
    rw [zipIdx_singleton_fold pad dist bms base j v, ← hj, e1]
    simp only [Option.bind_eq_bind, Option.bind_some]
    obtain ⟨out', f1, f2⟩ := ih (pts ++ [v]) (j + 1) (by simp; omega) (by simp; omega) out e2
    refine ⟨out', ?_, by simpa using f2⟩
    unfold insertStep at f1
    exact f1

theorem computeTruth_good (pad : D) (dist : V → Q → Option D) (k : Nat) (hk : 1 ≤ k) (base : List (V × A))
    (ins : List V) (skip : Nat) (bms : Option (List Bitmap)) (queries : List Q) (hc : Covers bms queries.length)
    (hn : (base.drop skip).length + ins.length ≤ 4294967296) :
    ∃ slots : List (Slot Q D), computeTruth pad dist k base ins skip bms queries
        = some (slots.map (·.2), (base.drop skip).map (·.2)) ∧
      GoodSlots pad dist bms k queries ((base.drop skip).map (·.1) ++ ins) slots := by
  have hf := chunksF_flatten batchSize (by decide) base.length (base.drop skip) (by simp)
  obtain ⟨st, e1, e2, e3, e4⟩ := batches_good (A := A) pad dist bms k hk queries hc
    (chunksF batchSize base.length (base.drop skip)) [] (by rw [hf]; simp only [List.length_nil]; omega)
    ⟨queries.map (fun q => (q, Queue.new k)), 0, []⟩ (good_start pad dist bms k queries) rfl rfl
  rw [hf, List.nil_append] at e2 e3 e4
  obtain ⟨out, f1, f2⟩ := inserts_good pad dist bms k hk queries hc st.numBase ins ((base.drop skip).map (·.1)) 0
    (by rw [e3]; simp) (by simpa using hn) st.slots e2
  refine ⟨out, ?_, f2⟩
  unfold computeTruth insertLoop
  dsimp only
  rw [e1]
  dsimp only
  rw [f1, e4]
  rfl

/-! ### Draining a queue -/

/-- A queue nothing was taken from. -/
structure Fresh (k : Nat) (q : Queue Nat D) : Prop where
  cursor : q.cursor = 0
  unvisited : ∀ e ∈ q.entries, e.visited = false
  capacity : q.capacity = k
  searchL : q.searchL = k

theorem insert_fresh (pad : D) (k : Nat) (q q' : Queue Nat D) (h : Fresh k q) (ha : q.auto = false) (i : Nat)
    (d : Option D) (e : q.insert pad i d = some q') : Fresh k q' ∧ q'.auto = false := by
  cases d with
  | none => simp only [Queue.insert, Option.some.injEq] at e; subst e; exact ⟨h, ha⟩
  | some d =>
    unfold Queue.insert at e
    simp only [ha, Bool.false_and, Bool.false_eq_true, if_false, Bool.not_false, Bool.true_and] at e
    cases hm : q.entries[q.size - 1]? <;> rw [hm] at e <;> dsimp only at e
    all_goals
      split at e
      · exact absurd e (by simp)
      · split at e
        · simp only [Option.some.injEq] at e; subst e; exact ⟨h, ha⟩
        · generalize (if q.size > 0 then q.lowerBound pad d else 0) = idx at e
          have hes : ∀ x ∈ (if (q.size == q.capacity) = true then q.entries.take (q.size - 1) else q.entries),
              x.visited = false := by
            intro x hx
            split at hx
            · exact h.unvisited x (List.mem_of_mem_take hx)
            · exact h.unvisited x hx
          generalize (if (q.size == q.capacity) = true then q.entries.take (q.size - 1) else q.entries) = es at e hes
          split at e
          · exact absurd e (by simp)
          · simp only [Option.some.injEq] at e
            subst e
            refine ⟨⟨?_, ?_, h.capacity, h.searchL⟩, rfl⟩
            · dsimp only; rw [h.cursor]; simp
            · intro x hx
              dsimp only at hx
              rcases List.eq_or_mem_of_mem_insertIdx hx with rfl | hx
              · rfl
              · exact hes x hx

theorem feed_fresh (pad : D) (k : Nat) (xs : List (Nat × Option D)) (q q' : Queue Nat D) (h : Fresh k q)
    (ha : q.auto = false) (e : feed pad q xs = some q') : Fresh k q' ∧ q'.auto = false := by
  induction xs generalizing q with
  | nil => simp only [feed, List.foldlM_nil] at e; cases e; exact ⟨h, ha⟩
  | cons x xs ih =>
    unfold feed at e
    rw [List.foldlM_cons] at e
    cases hi : q.insert pad x.1 x.2 with
    | none => rw [hi] at e; simp at e
    | some q1 =>
      rw [hi] at e
      obtain ⟨h1, h2⟩ := insert_fresh pad k q q1 h ha x.1 x.2 hi
      exact ih q1 h1 h2 e

theorem advance_at (es : List (Entry Nat D)) (c : Nat) (h : ∀ e, es[c]? = some e → e.visited = false) :
    advance es c = c := by
  unfold advance
  split
  · rename_i hc
    have := h es[c] (List.getElem?_eq_getElem hc)
    rw [this]; rfl
  · rfl

theorem drainF_spec (fuel : Nat) (q : Queue Nat D) (hv : ∀ e ∈ q.entries.drop q.cursor, e.visited = false)
    (hs : q.size ≤ q.capacity) (hl : q.size ≤ q.searchL) (hf : q.size - q.cursor < fuel) :
    drainF fuel q = some ((q.entries.drop q.cursor).map (fun e => (e.id, e.dist))) := by
  induction fuel generalizing q with
  | zero => omega
  | succ fuel ih =>
    have hsz : q.entries.length = q.size := rfl
    unfold drainF Queue.pop Queue.hasNotVisited
    by_cases hc : q.cursor < q.size
    · have hc' : q.cursor < min q.searchL q.size := by omega
      simp only [hc', decide_true, Bool.not_true, Bool.false_eq_true, if_false, not_true_eq_false, hs,
        List.getElem?_eq_getElem (hsz ▸ hc)]
      set e := q.entries[q.cursor]'(hsz ▸ hc) with he
      have hdrop : q.entries.drop q.cursor = e :: q.entries.drop (q.cursor + 1) :=
        (List.drop_eq_getElem_cons (hsz ▸ hc))
      have hadv : advance (q.entries.set q.cursor { e with visited := true }) (q.cursor + 1) = q.cursor + 1 := by
        apply advance_at
        intro e' he'
        rw [List.getElem?_set_ne (by omega)] at he'
        apply hv
        rw [hdrop]
        refine List.mem_cons_of_mem _ (List.mem_iff_getElem?.2 ⟨0, ?_⟩)
        rw [List.getElem?_drop, Nat.add_zero]
        exact he'
      rw [hadv]
      have hd2 : (q.entries.set q.cursor { e with visited := true }).drop (q.cursor + 1)
          = q.entries.drop (q.cursor + 1) := by
        rw [List.drop_set, if_pos (by omega)]
      rw [ih _ (by
          dsimp only
          rw [hd2]
          intro x hx
          exact hv x (by rw [hdrop]; exact List.mem_cons_of_mem _ hx))
        (by simpa [Queue.size] using hs) (by simpa [Queue.size] using hl)
        (by simp only [Queue.size, List.length_set]; simp only [Queue.size] at hf hc; omega)]
      dsimp only
      rw [hd2, hdrop]
      rfl
    · have hc' : ¬ q.cursor < min q.searchL q.size := by omega
      simp only [hc', decide_false, Bool.not_false, if_true]
      rw [List.drop_eq_nil_of_le (by omega)]
      rfl

/-- Popping a queue that was only fed yields the best candidates, in order. -/
theorem drain_feed (pad : D) (k : Nat) (hk : 1 ≤ k) (xs : List (Nat × Option D)) (q : Queue Nat D)
    (h : feed pad (Queue.new k) xs = some q) : drainF (q.size + 1) q = some (bestOf k xs) := by
  obtain ⟨q', h1, h2, -⟩ := C01_queue_best_l pad k hk xs
  rw [h] at h1
  simp only [Option.some.injEq] at h1
  subst h1
  obtain ⟨hf, -⟩ := feed_fresh pad k xs (Queue.new k) q ⟨rfl, by simp [Queue.new], rfl, rfl⟩ rfl h
  have hlen : q.size ≤ k := by
    have := congrArg List.length h2
    rw [(C01_bestOf_meaning k xs).2.1] at this
    simp only [Queue.contents, List.length_map] at this
    unfold Queue.size; omega
  rw [drainF_spec (q.size + 1) q (by rw [hf.cursor]; exact hf.unvisited) (by rw [hf.capacity]; exact hlen)
    (by rw [hf.searchL]; exact hlen) (by omega), hf.cursor, List.drop_zero]
  exact congrArg some h2

theorem drainAll_spec (pad : D) (k : Nat) (hk : 1 ≤ k) (c : Nat → Q → List (Nat × Option D)) (start : Nat)
    (slots : List (Slot Q D))
    (h : ∀ (i : Nat) (s : Slot Q D), slots[i]? = some s → feed pad (Queue.new k) (c (start + i) s.1) = some s.2) :
    ∃ rows : List (List (Nat × D)), drainAll (slots.map (·.2)) = some rows.flatten ∧ rows.length = slots.length ∧
      ∀ (i : Nat) (s : Slot Q D), slots[i]? = some s → rows[i]? = some (bestOf k (c (start + i) s.1)) := by
  induction slots generalizing start with
  | nil => exact ⟨[], rfl, rfl, by simp⟩
  | cons a rest ih =>
    obtain ⟨rows, e1, e2, e3⟩ := ih (start + 1) (by
      intro i s hs
      have := h (i + 1) s (by simpa using hs)
      rwa [show start + (i + 1) = start + 1 + i by omega] at this)
    refine ⟨bestOf k (c start a.1) :: rows, ?_, by simp [e2], ?_⟩
    · have h0 := h 0 a rfl
      rw [Nat.add_zero] at h0
      rw [List.map_cons]
      unfold drainAll
      rw [drain_feed pad k hk _ _ h0, e1]
      rfl
    · intro i s hs
      cases i with
      | zero =>
        simp only [List.getElem?_cons_zero, Option.some.injEq] at hs
        subst hs
        rfl
      | succ i =>
        have := e3 i s (by simpa using hs)
        rw [show start + (i + 1) = start + 1 + i by omega]
        simpa using this

theorem iters_spec (pad : D) (k : Nat) (hk : 1 ≤ k) (c : Nat → Q → List (Nat × Option D)) (start : Nat)
    (slots : List (Slot Q D))
    (h : ∀ (i : Nat) (s : Slot Q D), slots[i]? = some s → feed pad (Queue.new k) (c (start + i) s.1) = some s.2) :
    ∃ rows : List (List (Nat × D)), (slots.map (·.2)).map (fun q => q.iter) = rows ∧ rows.length = slots.length ∧
      ∀ (i : Nat) (s : Slot Q D), slots[i]? = some s → rows[i]? = some (bestOf k (c (start + i) s.1)) := by
  refine ⟨_, rfl, by simp, ?_⟩
  intro i s hs
  rw [List.map_map, List.getElem?_map, hs]
  obtain ⟨q, h1, -, h3⟩ := C01_queue_best_l pad k hk (c (start + i) s.1)
  rw [h i s hs] at h1
  simp only [Option.some.injEq] at h1
  subst h1
  simpa using h3

/-! ### Words -/

theorem words_length (xs : List Nat) : (words xs).length = xs.length * 4 := by
  unfold words
  induction xs with
  | nil => rfl
  | cons x xs ih => simp only [List.flatMap_cons, List.length_append, leEncode_length, ih, List.length_cons]; omega

theorem readWords_words (xs : List Nat) (h : ∀ x ∈ xs, x < 4294967296) : readWords xs.length (words xs) = xs := by
  unfold readWords words
  have hr : ∀ r ∈ xs.map (leEncode 4), r.length = 4 := by
    intro r hr
    obtain ⟨x, -, rfl⟩ := List.mem_map.1 hr
    exact leEncode_length 4 x
  have := cutRows_flatten 4 (xs.map (leEncode 4)) hr
  rw [List.length_map, ← List.flatMap_def] at this
  rw [this, List.map_map]
  conv => rhs; rw [← List.map_id xs]
  apply List.map_congr_left
  intro x hx
  exact leDecode_leEncode 4 x (by have := h x hx; simpa using this)

theorem bytesAt_mid (a b c : List Byte) (pos k : Nat) (hp : pos = a.length) (hk : k = b.length) :
    bytesAt (a ++ (b ++ c)) pos k = some b := by
  subst hp; subst hk
  unfold bytesAt
  rw [if_pos (by simp only [List.length_append]; omega), List.drop_left, List.take_left]

theorem exactWords_ok (n : Nat) (xs : List Nat) (h : xs.length = n) : exactWords n xs = some (words xs) := by
  unfold exactWords; rw [if_pos (by omega)]

theorem exactWords_bad (n : Nat) (xs : List Nat) (h : xs.length ≠ n) : exactWords n xs = none := by
  unfold exactWords; rw [if_neg (by omega)]

/-- Reading back what was written with ids and distances. -/
theorem loadTruth_full (n d : Nat) (ids dists : List Nat) (hn : n < 2 ^ 32) (hd : d < 2 ^ 32)
    (hsz : 2 * n * d * 4 + 8 < 2 ^ 64) (hi : ids.length = n * d) (hdl : dists.length = n * d)
    (hi' : ∀ x ∈ ids, x < 4294967296) (hd' : ∀ x ∈ dists, x < 4294967296) :
    loadTruth (leEncode 4 n ++ leEncode 4 d ++ words ids ++ words dists) = some (.ok ⟨ids, some dists, n, d⟩) := by
  unfold loadTruth
  have hm : readMetadata (leEncode 4 n ++ leEncode 4 d ++ words ids ++ words dists) = some (n, d) := by
    rw [List.append_assoc (leEncode 4 n ++ leEncode 4 d)]
    exact readMetadata_append n d _ hn hd
  rw [hm]
  dsimp only
  have e2 : 2 * n * d * 4 = n * d * 4 + n * d * 4 := by
    rw [show 2 * n * d = 2 * (n * d) by rw [Nat.mul_assoc]]; omega
  have hl : (leEncode 4 n ++ leEncode 4 d ++ words ids ++ words dists).length = 2 * n * d * 4 + 8 := by
    simp only [List.length_append, leEncode_length, words_length, hi, hdl]; omega
  rw [if_neg (by omega), if_pos hl]
  rw [show leEncode 4 n ++ leEncode 4 d ++ words ids ++ words dists
      = (leEncode 4 n ++ leEncode 4 d) ++ (words ids ++ words dists) by simp,
    bytesAt_mid _ (words ids) (words dists) 8 (n * d * 4) (by simp [leEncode_length]) (by rw [words_length, hi]),
    show (leEncode 4 n ++ leEncode 4 d) ++ (words ids ++ words dists)
      = ((leEncode 4 n ++ leEncode 4 d) ++ words ids) ++ (words dists ++ []) by simp,
    bytesAt_mid _ (words dists) [] (8 + n * d * 4) (n * d * 4)
      (by simp only [List.length_append, leEncode_length, words_length, hi]) (by rw [words_length, hdl])]
  dsimp only
  rw [← hi, readWords_words ids hi', hi, ← hdl, readWords_words dists hd']

/-- A file with only one block of words is read as ids. -/
theorem loadTruth_half (n d : Nat) (xs : List Nat) (hn : n < 2 ^ 32) (hd : d < 2 ^ 32)
    (hsz : 2 * n * d * 4 + 8 < 2 ^ 64) (h0 : 0 < n * d) (hi : xs.length = n * d) (hi' : ∀ x ∈ xs, x < 4294967296) :
    loadTruth (leEncode 4 n ++ leEncode 4 d ++ words xs) = some (.ok ⟨xs, none, n, d⟩) := by
  unfold loadTruth
  rw [readMetadata_append n d _ hn hd]
  dsimp only
  have e2 : 2 * n * d * 4 = n * d * 4 + n * d * 4 := by
    rw [show 2 * n * d = 2 * (n * d) by rw [Nat.mul_assoc]]; omega
  have hl : (leEncode 4 n ++ leEncode 4 d ++ words xs).length = n * d * 4 + 8 := by
    simp only [List.length_append, leEncode_length, words_length, hi]; omega
  rw [if_neg (by omega), if_neg (by omega), if_pos hl]
  rw [show leEncode 4 n ++ leEncode 4 d ++ words xs = (leEncode 4 n ++ leEncode 4 d) ++ (words xs ++ []) by simp,
    bytesAt_mid _ (words xs) [] 8 (n * d * 4) (by simp [leEncode_length]) (by rw [words_length, hi])]
  dsimp only
  rw [← hi, readWords_words xs hi']

theorem sumU32_ok (xs : List Nat) (h : xs.sum < 4294967296) : sumU32 xs = some xs.sum := by
  induction xs with
  | nil => rfl
  | cons x xs ih =>
    rw [List.sum_cons] at h
    unfold sumU32
    rw [ih (by omega)]
    dsimp only
    rw [if_pos h, List.sum_cons]

theorem readLists_spec (a : List Byte) (ls : List (List Nat)) (tail : List Byte)
    (h : ∀ l ∈ ls, ∀ x ∈ l, x < 4294967296) :
    readLists (a ++ (words ls.flatten ++ tail)) a.length (ls.map List.length) = .ok ls := by
  induction ls generalizing a with
  | nil => rfl
  | cons l ls ih =>
    have hw : words (l :: ls).flatten = words l ++ words ls.flatten := by
      unfold words; rw [List.flatten_cons, List.flatMap_append]
    rw [List.map_cons]
    unfold readLists
    rw [hw, List.append_assoc, bytesAt_mid a (words l) (words ls.flatten ++ tail) a.length (l.length * 4) rfl
      (by rw [words_length])]
    dsimp only
    rw [← List.append_assoc a, show a.length + l.length * 4 = (a ++ words l).length by
      rw [List.length_append, words_length], ih (a ++ words l) (fun m hm => h m (by simp [hm]))]
    dsimp only
    rw [readWords_words l (h l (by simp))]

theorem length_le_sum (ls : List (List Nat)) (l : List Nat) (h : l ∈ ls) : l.length ≤ (ls.map List.length).sum := by
  induction ls with
  | nil => simp at h
  | cons a ls ih =>
    rw [List.map_cons, List.sum_cons]
    rcases List.mem_cons.1 h with rfl | h
    · omega
    · have := ih h; omega

/-- Reading back lists of ids. -/
theorem range_round_trip (ls : List (List Nat)) (hn : ls.length < 4294967296)
    (ht : (ls.map List.length).sum < 4294967296) (h : ∀ l ∈ ls, ∀ x ∈ l, x < 4294967296) :
    ∃ file, writeRange ls.length ls = some (.ok file) ∧ loadRange file = .ok ls := by
  have hle : ∀ l ∈ ls, l.length < 4294967296 := by
    intro l hl
    have := length_le_sum ls l hl
    omega
  have hmod : ls.map (fun l => l.length % 4294967296) = ls.map List.length := by
    apply List.map_congr_left
    intro l hl
    exact Nat.mod_eq_of_lt (hle l hl)
  have hfl : ls.flatten.length = (ls.map List.length).sum := List.length_flatten
  refine ⟨leEncode 4 ls.length ++ leEncode 4 (ls.map List.length).sum ++ words (ls.map List.length)
    ++ words ls.flatten, ?_, ?_⟩
  · unfold writeRange
    rw [hmod, sumU32_ok _ ht]
    dsimp only
    unfold metadataBytes
    rw [if_pos ⟨by omega, by omega⟩]
    dsimp only
    rw [exactWords_ok _ _ hfl]
  · unfold loadRange
    rw [List.append_assoc (leEncode 4 ls.length ++ _), readMetadata_append _ _ _ (by omega) (by omega)]
    dsimp only
    rw [bytesAt_mid _ (words (ls.map List.length)) (words ls.flatten) 8 (ls.length * 4)
      (by simp [leEncode_length]) (by rw [words_length, List.length_map])]
    dsimp only
    have hr := readWords_words (ls.map List.length) (by
      intro x hx
      obtain ⟨l, hl, rfl⟩ := List.mem_map.1 hx
      exact hle l hl)
    rw [List.length_map] at hr
    rw [hr]
    have := readLists_spec (leEncode 4 ls.length ++ leEncode 4 (ls.map List.length).sum ++ words (ls.map List.length))
      ls [] h
    rw [List.append_nil, List.append_assoc] at this
    rw [show 8 + ls.length * 4 = (leEncode 4 ls.length ++ leEncode 4 (ls.map List.length).sum ++
      words (ls.map List.length)).length by
        simp only [List.length_append, leEncode_length, words_length, List.length_map]]
    exact this

end Verif.Tools
