import Verif.Search.DiverseModel
import Mathlib.Data.List.Range
import Mathlib.Data.List.Nodup
import Mathlib.Data.List.Perm.Subperm
import Mathlib.Tactic.Common

/-! Lemmas about the selection loop, for any arithmetic. -/

namespace Verif.Diversity

variable {K : Type}

/-- The state is consistent: one entry per row, and the available rows are those not selected. -/
structure Wf (n : Nat) (s : St K) : Prop where
  rows : s.rows.length = n
  norms : s.norms.length = n
  avail : s.available.length = n
  mem : ∀ i, i < n → (s.available[i]? = some true ↔ i ∉ s.selected)
  nodup : s.selected.Nodup
  lt : ∀ i ∈ s.selected, i < n

theorem later_some (A : Arith K) (norms : List K) (n : Nat) (hn : norms.length = n) (i j : Nat) (hi : i < n) (hj : j < n) :
    ∃ p, later A norms i j = some p ∧ (p = i ∨ p = j) := by
  unfold later
  rw [List.getElem?_eq_getElem (by omega), List.getElem?_eq_getElem (by omega)]
  dsimp only
  split
  · exact ⟨i, rfl, .inl rfl⟩
  · exact ⟨j, rfl, .inr rfl⟩

theorem foldlM_later (A : Arith K) (norms : List K) (n : Nat) (hn : norms.length = n) (is : List Nat) (i : Nat)
    (h : ∀ j ∈ i :: is, j < n) : ∃ p, is.foldlM (later A norms) i = some p ∧ p ∈ i :: is := by
  induction is generalizing i with
  | nil => exact ⟨i, rfl, by simp⟩
  | cons j js ih =>
    obtain ⟨p, h1, h2⟩ := later_some A norms n hn i j (h i (by simp)) (h j (by simp))
    have hp : ∀ q ∈ p :: js, q < n := by
      intro q hq
      rcases List.mem_cons.mp hq with rfl | hq
      · rcases h2 with rfl | rfl <;> exact h _ (by simp)
      · exact h q (by simp [hq])
    obtain ⟨q, h3, h4⟩ := ih p hp
    refine ⟨q, by rw [List.foldlM_cons, h1]; exact h3, ?_⟩
    rcases List.mem_cons.mp h4 with rfl | h4
    · rcases h2 with rfl | rfl <;> simp
    · simp [h4]

/-- The available rows, in order. -/
theorem avail_eq {n : Nat} {s : St K} (hw : Wf n s) :
    ((List.range s.available.length).filter fun i => s.available[i]? == some true)
      = (List.range n).filter fun i => decide (i ∉ s.selected) := by
  rw [hw.avail]
  refine List.filter_congr fun i hi => ?_
  have := hw.mem i (List.mem_range.mp hi)
  rw [Bool.eq_iff_iff]
  simp only [beq_iff_eq, decide_eq_true_eq]
  exact this

theorem exists_avail {n : Nat} {s : St K} (hlt : s.selected.length < n) :
    ∃ i, i < n ∧ i ∉ s.selected := by
  by_contra hc
  push Not at hc
  have := (List.subperm_of_subset (List.nodup_range (n := n)) (l₂ := s.selected)
    (fun i hi => hc i (List.mem_range.mp hi))).length_le
  rw [List.length_range] at this
  omega

theorem pivot_some (A : Arith K) {n : Nat} {s : St K} (hw : Wf n s) (hlt : s.selected.length < n) :
    ∃ p, pivot A s.norms s.available = some (some p) ∧ p < n ∧ p ∉ s.selected := by
  obtain ⟨i, hi, hi'⟩ := exists_avail hlt
  have hmem : i ∈ (List.range n).filter fun i => decide (i ∉ s.selected) := by simp [hi, hi']
  unfold pivot
  rw [avail_eq hw]
  have hall : ∀ j ∈ (List.range n).filter fun i => decide (i ∉ s.selected), j < n ∧ j ∉ s.selected := by
    intro j hj
    simpa using hj
  revert hmem hall
  generalize (List.range n).filter (fun i => decide (i ∉ s.selected)) = l
  intro hmem hall
  cases l with
  | nil => simp at hmem
  | cons a as =>
    obtain ⟨p, h1, h2⟩ := foldlM_later A s.norms n hw.norms as a (fun j hj => (hall j hj).1)
    exact ⟨p, by dsimp only; rw [h1]; rfl, hall p h2⟩

/-- The state after choosing `p`. -/
def push (s : St K) (p : Nat) : St K :=
  { s with selected := s.selected ++ [p], available := s.available.set p false }

theorem push_wf {n : Nat} {s : St K} (hw : Wf n s) {p : Nat} (hp : p < n) (hp' : p ∉ s.selected) :
    Wf n (push s p) := by
  refine ⟨hw.rows, hw.norms, by simp [push, hw.avail], ?_, ?_, ?_⟩
  · intro i hi
    simp only [push]
    by_cases hip : p = i
    · subst hip
      rw [List.getElem?_set_self (by rw [hw.avail]; exact hp)]
      simp
    · rw [List.getElem?_set_ne hip, hw.mem i hi]
      simp only [List.mem_append, List.mem_singleton, not_or]
      exact ⟨fun h => ⟨h, fun h' => hip h'.symm⟩, fun h => h.1⟩
  · simp only [push]
    rw [List.nodup_append]
    refine ⟨hw.nodup, by simp, ?_⟩
    intro a ha b hb
    rw [List.mem_singleton] at hb
    subst hb
    rintro rfl
    exact hp' ha
  · intro i hi
    simp only [push, List.mem_append, List.mem_singleton] at hi
    rcases hi with hi | rfl
    · exact hw.lt i hi
    · exact hp

theorem deflateRow_some (A : Arith K) {n : Nat} {s : St K} (hw : Wf n s) (star : List K) (best : K) (ps : List K)
    (hps : ps.length = n) (i : Nat) (hi : i < n) :
    ∃ s', deflateRow A star best ps s i = some s' ∧ Wf n s' ∧ s'.selected = s.selected ∧ s'.available = s.available := by
  unfold deflateRow
  have hi0 : i < s.available.length := by rw [hw.avail]; exact hi
  have ha : s.available[i]? = some s.available[i] := List.getElem?_eq_getElem (by rw [hw.avail]; exact hi)
  rw [ha]
  rcases s.available[i] with _ | _
  · exact ⟨s, rfl, hw, rfl, rfl⟩
  · rw [List.getElem?_eq_getElem (l := ps) (by omega), List.getElem?_eq_getElem (l := s.rows) (by rw [hw.rows]; exact hi),
      List.getElem?_eq_getElem (l := s.norms) (by rw [hw.norms]; exact hi)]
    exact ⟨_, rfl, ⟨by simp [hw.rows], by simp [hw.norms], hw.avail, hw.mem, hw.nodup, hw.lt⟩, rfl, rfl⟩

theorem deflateRows_some (A : Arith K) {n : Nat} (star : List K) (best : K) (ps : List K) (hps : ps.length = n)
    (is : List Nat) (h : ∀ i ∈ is, i < n) {s : St K} (hw : Wf n s) :
    ∃ s', is.foldlM (deflateRow A star best ps) s = some s' ∧ Wf n s' ∧ s'.selected = s.selected ∧
      s'.available = s.available := by
  induction is generalizing s with
  | nil => exact ⟨s, rfl, hw, rfl, rfl⟩
  | cons i is ih =>
    obtain ⟨s1, h1, h2, h3, h4⟩ := deflateRow_some A hw star best ps hps i (h i (by simp))
    obtain ⟨s2, h5, h6, h7, h8⟩ := ih (fun j hj => h j (by simp [hj])) h2
    exact ⟨s2, by rw [List.foldlM_cons, h1]; exact h5, h6, h7.trans h3, h8.trans h4⟩

theorem mapM_some {α β : Type} (f : α → Option β) (l : List α) (h : ∀ a ∈ l, ∃ b, f a = some b) :
    ∃ r, l.mapM f = some r ∧ r.length = l.length ∧ ∀ i (hi : i < l.length), r[i]? = f l[i] := by
  induction l with
  | nil => exact ⟨[], rfl, rfl, by simp⟩
  | cons a as ih =>
    obtain ⟨b, hb⟩ := h a (by simp)
    obtain ⟨r, h1, h2, h3⟩ := ih (fun x hx => h x (by simp [hx]))
    refine ⟨b :: r, by rw [List.mapM_cons, hb, h1]; rfl, by simp [h2], ?_⟩
    intro i hi
    cases i with
    | zero => simp [hb]
    | succ i => simpa using h3 i (by simpa using hi)

theorem projection_some (A : Arith K) {n : Nat} {s : St K} (hw : Wf n s) (star : List K) (inv : K) (i : Nat) (hi : i < n) :
    ∃ p, projection A s star inv i = some p := by
  unfold projection
  have hi0 : i < s.available.length := by rw [hw.avail]; exact hi
  rw [List.getElem?_eq_getElem (by rw [hw.avail]; exact hi), List.getElem?_eq_getElem (l := s.rows) (by rw [hw.rows]; exact hi)]
  rcases s.available[i] with _ | _ <;> exact ⟨_, rfl⟩

theorem deflate_some (A : Arith K) {n : Nat} {s : St K} (hw : Wf n s) (p : Nat) (hp : p < n) :
    ∃ s', deflate A s p = some s' ∧ Wf n s' ∧ s'.selected = s.selected ∧ s'.available = s.available := by
  unfold deflate
  have hp0 : p < s.norms.length := by rw [hw.norms]; exact hp
  have hp1 : p < s.rows.length := by rw [hw.rows]; exact hp
  rw [List.getElem?_eq_getElem (l := s.norms) (by rw [hw.norms]; exact hp),
    List.getElem?_eq_getElem (l := s.rows) (by rw [hw.rows]; exact hp)]
  dsimp only
  by_cases hle : A.le s.norms[p] A.zero = true
  · rw [if_pos hle]; exact ⟨s, rfl, hw, rfl, rfl⟩
  · rw [if_neg hle]
    obtain ⟨ps, h1, h2, -⟩ := mapM_some (projection A s s.rows[p] (A.div A.one s.norms[p])) (List.range s.rows.length)
      (fun i hi => projection_some A hw _ _ i (by have := List.mem_range.mp hi; rw [hw.rows] at this; exact this))
    rw [h1]
    dsimp only
    rw [List.length_range, hw.rows] at h2
    exact deflateRows_some A _ _ ps h2 _ (fun i hi => by have := List.mem_range.mp hi; rw [hw.rows] at this; exact this) hw

/-- Induction over the loop: `P` holds before every choice, `Q` of the selection. -/
theorem loop_induct (A : Arith K) (k n : Nat) (hk : k ≤ n) (P : St K → Prop) (Q : List Nat → Prop)
    (hQ : ∀ s, P s → Q s.selected)
    (hpick : ∀ s p, Wf n s → P s → pivot A s.norms s.available = some (some p) → p < n → p ∉ s.selected →
      Q (s.selected ++ [p]))
    (hdef : ∀ s p s', Wf n s → P s → pivot A s.norms s.available = some (some p) → p < n → p ∉ s.selected →
      deflate A (push s p) p = some s' → P s') :
    ∀ m s, Wf n s → P s → s.selected.length + m = k →
      ∃ s', loop A k m s = some s' ∧ s'.selected.length = k ∧ s'.selected.Nodup ∧ (∀ i ∈ s'.selected, i < n) ∧
        Q s'.selected ∧ s.selected <+: s'.selected := by
  intro m
  induction m with
  | zero => intro s hw hP hl; exact ⟨s, rfl, by omega, hw.nodup, hw.lt, hQ s hP, List.prefix_refl _⟩
  | succ m ih =>
    intro s hw hP hl
    obtain ⟨p, h1, h2, h3⟩ := pivot_some A hw (by omega)
    have hw' := push_wf hw h2 h3
    rw [loop, h1]
    dsimp only
    by_cases hlen : (s.selected ++ [p]).length = k
    · rw [if_pos hlen]
      exact ⟨push s p, rfl, hlen, hw'.nodup, hw'.lt, hpick s p hw hP h1 h2 h3, List.prefix_append _ _⟩
    · rw [if_neg hlen]
      obtain ⟨s', d1, d2, d3, d4⟩ := deflate_some A hw' p h2
      obtain ⟨s2, g1, g2, g3, g4, g5, g6⟩ := ih s' d2 (hdef s p s' hw hP h1 h2 h3 d1) (by
        rw [d3]; simp only [push, List.length_append, List.length_singleton]; omega)
      refine ⟨s2, ?_, g2, g3, g4, g5, ?_⟩
      · change (deflate A (push s p) p).bind _ = _
        rw [d1]; exact g1
      · rw [d3] at g6
        exact (List.prefix_append _ _).trans g6

/-- A smaller `k` selects a prefix. -/
theorem loop_prefix (A : Arith K) (k k' n : Nat) (hk : k ≤ k') (hk' : k' ≤ n) :
    ∀ m m' s, Wf n s → s.selected.length + m = k → s.selected.length + m' = k' →
      ∃ s1 s2, loop A k m s = some s1 ∧ loop A k' m' s = some s2 ∧ s1.selected = s2.selected.take k := by
  intro m
  induction m with
  | zero =>
    intro m' s hw hl hl'
    obtain ⟨s2, g1, g2, -, -, -, g6⟩ := loop_induct A k' n hk' (fun _ => True) (fun _ => True) (by simp) (by simp)
      (by simp) m' s hw trivial hl'
    refine ⟨s, s2, rfl, g1, ?_⟩
    obtain ⟨t, ht⟩ := g6
    rw [← ht, List.take_append_of_le_length (by omega), List.take_of_length_le (by omega)]
  | succ m ih =>
    intro m' s hw hl hl'
    obtain ⟨m', rfl⟩ : ∃ j, m' = j + 1 := ⟨m' - 1, by omega⟩
    obtain ⟨p, h1, h2, h3⟩ := pivot_some A hw (by omega)
    have hw' := push_wf hw h2 h3
    obtain ⟨s', d1, d2, d3, d4⟩ := deflate_some A hw' p h2
    have hlen' : s'.selected.length = s.selected.length + 1 := by rw [d3]; simp [push]
    have d1' : deflate A { s with selected := s.selected ++ [p], available := s.available.set p false } p = some s' := d1
    by_cases hlen : (s.selected ++ [p]).length = k
    · obtain ⟨s2, g1, g2, -, -, -, g6⟩ := loop_induct A k' n hk' (fun _ => True) (fun _ => True) (by simp) (by simp)
        (by simp) (m' + 1) s hw trivial hl'
      refine ⟨push s p, s2, ?_, g1, ?_⟩
      · rw [loop, h1]; dsimp only; rw [if_pos hlen]; rfl
      · have g6' : s.selected ++ [p] <+: s2.selected := by
          rw [loop, h1] at g1
          dsimp only at g1
          by_cases hlk : (s.selected ++ [p]).length = k'
          · rw [if_pos hlk] at g1
            have : s2.selected = s.selected ++ [p] := by rw [← Option.some.inj g1]
            rw [this]
            exact List.prefix_refl _
          · rw [if_neg hlk, d1'] at g1
            obtain ⟨s3, e1, -, -, -, -, e6⟩ := loop_induct A k' n hk' (fun _ => True) (fun _ => True) (by simp) (by simp)
              (by simp) m' s' d2 trivial (by omega)
            have g1' : loop A k' m' s' = some s2 := g1
            rw [e1] at g1'
            rw [← Option.some.inj g1']
            rw [d3] at e6
            exact e6
        obtain ⟨t, ht⟩ := g6'
        rw [← ht, List.take_append_of_le_length (by omega), List.take_of_length_le (by omega)]
        rfl
    · have hlk : ¬ (s.selected ++ [p]).length = k' := by
        simp only [List.length_append, List.length_singleton] at hlen ⊢; omega
      have : 1 ≤ m := by simp only [List.length_append, List.length_singleton] at hlen; omega
      obtain ⟨s1, s2, g1, g2, g3⟩ := ih m' s' d2 (by omega) (by omega)
      refine ⟨s1, s2, ?_, ?_, g3⟩
      · rw [loop, h1]; dsimp only; rw [if_neg hlen, d1']; exact g1
      · rw [loop, h1]; dsimp only; rw [if_neg hlk, d1']; exact g2

/-- Scaling: row `i` becomes its scaled version, with its squared norm. -/
theorem scaleRows_aux (A : Arith K) (scale : K → K) (ds : List K) (pre post : List (List K)) (norms : List K)
    (h : ds.length = post.length) :
    scaleRows A scale ds pre.length (pre ++ post) norms
      = some (pre ++ List.zipWith (fun r d => r.map fun v => A.mul v (scale d)) post ds,
          norms ++ (List.zipWith (fun r d => r.map fun v => A.mul v (scale d)) post ds).map fun r => A.dot r r) := by
  induction ds generalizing pre post norms with
  | nil =>
    obtain rfl : post = [] := List.length_eq_zero_iff.mp (by simpa using h.symm)
    simp [scaleRows]
  | cons d ds ih =>
    cases post with
    | nil => simp at h
    | cons r post =>
      rw [scaleRows]
      have h1 : (pre ++ r :: post)[pre.length]? = some r := by simp
      rw [h1]
      dsimp only
      have h2 : (pre ++ r :: post).set pre.length (r.map fun v => A.mul v (scale d))
          = (pre ++ [r.map fun v => A.mul v (scale d)]) ++ post := by
        rw [List.set_append_right _ _ (le_refl _)]; simp
      rw [h2]
      have := ih (pre ++ [r.map fun v => A.mul v (scale d)]) post (norms ++ [A.dot (r.map fun v => A.mul v (scale d)) (r.map fun v => A.mul v (scale d))]) (by simpa using h)
      rw [List.length_append, List.length_singleton] at this
      rw [this]
      simp

/-- The scaled rows. -/
def scaledRows (A : Arith K) (scale : K → K) (rows : List (List K)) (ds : List K) : List (List K) :=
  List.zipWith (fun r d => r.map fun v => A.mul v (scale d)) rows ds

theorem scaleRows_eq (A : Arith K) (scale : K → K) (ds : List K) (rows : List (List K)) (h : ds.length = rows.length) :
    scaleRows A scale ds 0 rows []
      = some (scaledRows A scale rows ds, (scaledRows A scale rows ds).map fun r => A.dot r r) := by
  have := scaleRows_aux A scale ds [] rows [] h
  simpa [scaledRows] using this

/-- The state before the first choice. -/
def init (A : Arith K) (rows : List (List K)) : St K :=
  ⟨rows, rows.map fun r => A.dot r r, List.replicate rows.length true, []⟩

theorem init_wf (A : Arith K) (rows : List (List K)) : Wf rows.length (init A rows) := by
  refine ⟨rfl, by simp [init], by simp [init], ?_, List.nodup_nil, by simp [init]⟩
  intro i hi
  simp [init, hi]

theorem greedy_eq (A : Arith K) (rows : List (List K)) (ds : List K) (k : Nat) (hk : k ≤ rows.length) (hk0 : k ≠ 0)
    (scale : K → K) (h : ds.length = rows.length) :
    greedy A rows ds k scale = (loop A k k (init A (scaledRows A scale rows ds))).map (·.selected) := by
  unfold greedy
  dsimp only
  have h1 : Nat.min k rows.length = k := Nat.min_eq_left hk
  rw [h1, if_neg hk0, scaleRows_eq A scale ds rows h]
  have h2 : (scaledRows A scale rows ds).length = rows.length := by simp [scaledRows, h]
  simp only [init, h2]

end Verif.Diversity
