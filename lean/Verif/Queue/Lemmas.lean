import Verif.Queue.Spec

/-! Helper lemmas; the property theorems are in `Props.lean`. -/

namespace Verif.Queue

variable {I D : Type} [DecidableEq I] [LinearOrder D]

/-! ### The SIMD lower bound is the plain one -/

theorem firstGE_eq (t : D) (l : List D) :
    firstGE t l = if l.findIdx (fun d => decide (t ≤ d)) < l.length
      then some (l.findIdx (fun d => decide (t ≤ d))) else none := by
  unfold firstGE
  split
  · rename_i h
    rw [List.findIdx?_eq_some_iff_findIdx_eq]
    exact ⟨h, rfl⟩
  · rename_i h
    rw [List.findIdx?_eq_none_iff_findIdx_eq]
    have := List.findIdx_le_length (xs := l) (p := fun d => decide (t ≤ d))
    omega

/-- the plain search from `index` on -/
def lbFrom (ds : List D) (t : D) (index : Nat) : Nat :=
  index + (ds.drop index).findIdx (fun d => decide (t ≤ d))

theorem lbTail_eq (pad : D) (ds : List D) (t : D) (index : Nat) (h : index ≤ ds.length) :
    lowerBoundTail pad ds t index = lbFrom ds t index := by
  unfold lowerBoundTail lbFrom
  split
  · rw [firstGE_eq, List.findIdx_append]
    have hle := List.findIdx_le_length (xs := ds.drop index) (p := fun d => decide (t ≤ d))
    rw [List.length_drop] at hle
    by_cases hlt : (ds.drop index).findIdx (fun d => decide (t ≤ d)) < (ds.drop index).length
    · rw [if_pos hlt, if_pos]
      simp only [List.length_drop] at hlt
      simp; omega
    · rw [if_neg hlt]
      simp only [List.length_drop] at hlt ⊢
      have hz : (ds.drop index).findIdx (fun d => decide (t ≤ d)) = ds.length - index := by omega
      rw [hz]
      split
      · rename_i o heq
        split at heq
        · cases heq
          rename_i h2
          -- the padding matched: offset is exactly the number of real lanes
          have : (List.replicate (8 - (ds.length - index)) pad).findIdx (fun d => decide (t ≤ d)) = 0 := by
            cases hk : 8 - (ds.length - index) with
            | zero => simp
            | succ k =>
              simp only [List.replicate_succ, List.findIdx_cons]
              by_cases hp : t ≤ pad
              · simp [hp]
              · exfalso
                rw [hk] at h2
                have : (List.replicate (k+1) pad).findIdx (fun d => decide (t ≤ d)) = k+1 := by
                  have := List.findIdx_eq_length (xs := List.replicate (k+1) pad) (p := fun d => decide (t ≤ d))
                  rw [List.length_replicate] at this
                  rw [this]
                  intro x hx
                  rw [List.eq_of_mem_replicate hx]
                  simp [hp]
                rw [this] at h2
                simp at h2
                omega
          rw [this]; omega
        · cases heq
      · omega
  · have : index = ds.length := by omega
    subst this
    simp

theorem drop_take_findIdx (ds : List D) (t : D) (index n : Nat) (h : index + n ≤ ds.length) :
    (firstGE t ((ds.drop index).take n) = some ((ds.drop index).findIdx (fun d => decide (t ≤ d))) ∧
      (ds.drop index).findIdx (fun d => decide (t ≤ d)) < n) ∨
    (firstGE t ((ds.drop index).take n) = none ∧ lbFrom ds t index = lbFrom ds t (index + n)) := by
  have hsplit : ds.drop index = (ds.drop index).take n ++ ds.drop (index + n) := by
    rw [← List.drop_drop, List.take_append_drop]
  have hlen : ((ds.drop index).take n).length = n := by simp; omega
  have hfi : (ds.drop index).findIdx (fun d => decide (t ≤ d)) =
      if ((ds.drop index).take n).findIdx (fun d => decide (t ≤ d)) < n then
        ((ds.drop index).take n).findIdx (fun d => decide (t ≤ d))
      else (ds.drop (index + n)).findIdx (fun d => decide (t ≤ d)) + n := by
    conv_lhs => rw [hsplit, List.findIdx_append, hlen]
  rw [firstGE_eq, hlen]
  split
  · rename_i hlt
    rw [if_pos hlt] at hfi
    left
    rw [hfi]; exact ⟨rfl, hlt⟩
  · rename_i hlt
    rw [if_neg hlt] at hfi
    right
    refine ⟨rfl, ?_⟩
    unfold lbFrom
    rw [hfi]; omega

theorem lbEight_eq (pad : D) (ds : List D) (t : D) (index : Nat) (h : index ≤ ds.length) :
    lowerBoundEight pad ds t index = lbFrom ds t index := by
  unfold lowerBoundEight
  split
  · rename_i h8
    rcases drop_take_findIdx ds t index 8 h8 with ⟨h1, -⟩ | ⟨h1, h2⟩
    · rw [h1]; rfl
    · rw [h1, h2]; exact lbTail_eq pad ds t _ h8
  · exact lbTail_eq pad ds t _ h

theorem lbLoop_eq (pad : D) (ds : List D) (t : D) (index : Nat) (h : index ≤ ds.length) :
    lowerBoundLoop pad ds t index = lbFrom ds t index := by
  fun_induction lowerBoundLoop pad ds t index with
  | case1 index h16 o h1 =>
    rcases drop_take_findIdx ds t index 8 (by omega) with ⟨h2, -⟩ | ⟨h2, -⟩
    · rw [h2] at h1; cases h1; rfl
    · rw [h2] at h1; cases h1
  | case2 index h16 o h2 h1 =>
    rcases drop_take_findIdx ds t index 8 (by omega) with ⟨h3, -⟩ | ⟨-, h3⟩
    · rw [h3] at h1; cases h1
    · rcases drop_take_findIdx ds t (index+8) 8 (by omega) with ⟨h4, -⟩ | ⟨h4, -⟩
      · rw [h4] at h2; cases h2; rw [h3]; rfl
      · rw [h4] at h2; cases h2
  | case3 index h16 h2 h1 ih =>
    rcases drop_take_findIdx ds t index 8 (by omega) with ⟨h3, -⟩ | ⟨-, h3⟩
    · rw [h3] at h1; cases h1
    · rcases drop_take_findIdx ds t (index+8) 8 (by omega) with ⟨h4, -⟩ | ⟨-, h4⟩
      · rw [h4] at h2; cases h2
      · rw [ih (by omega), h3, h4]
  | case4 index h16 => exact lbEight_eq pad ds t index h

theorem lowerBound_eq (pad : D) (q : Queue I D) (t : D) :
    q.lowerBound pad t = q.entries.findIdx (fun e => decide (t ≤ e.dist)) := by
  unfold Queue.lowerBound
  rw [lbLoop_eq _ _ _ _ (Nat.zero_le _)]
  unfold lbFrom
  simp only [Nat.zero_add, List.drop_zero, List.findIdx_map]
  rfl

/-! ### Insertion is ordered insertion followed by a cut -/

/-- the order entries are kept in -/
abbrev le (a b : Entry I D) : Prop := a.dist ≤ b.dist

theorem insertIdx_findIdx (es : List (Entry I D)) (e : Entry I D) :
    es.insertIdx (es.findIdx (fun x => decide (e.dist ≤ x.dist))) e = es.orderedInsert le e := by
  induction es with
  | nil => simp
  | cons a es ih =>
    rw [List.findIdx_cons, List.orderedInsert_cons]
    by_cases h : e.dist ≤ a.dist
    · simp [h]
    · simp [h, ih]

theorem insertIdx_take (es : List (Entry I D)) (e : Entry I D) (n i : Nat) (hi : i ≤ n) (hn : n + 1 = es.length) :
    (es.take n).insertIdx i e = (es.insertIdx i e).take (n + 1) := by
  induction es generalizing n i with
  | nil => simp at hn
  | cons a es ih =>
    cases i with
    | zero => simp
    | succ i =>
      cases n with
      | zero => omega
      | succ n =>
        simp only [List.take_succ_cons, List.insertIdx_succ_cons]
        rw [ih n i (by omega) (by simpa using hn)]

theorem orderedInsert_all_lt (es : List (Entry I D)) (e : Entry I D)
    (h : ∀ x ∈ es, x.dist < e.dist) : es.orderedInsert le e = es ++ [e] := by
  induction es with
  | nil => rfl
  | cons a es ih =>
    rw [List.orderedInsert_cons]
    have := h a (by simp)
    rw [if_neg (by simp [this]), ih (fun x hx => h x (by simp [hx]))]
    rfl

/-- capacity after the growth step of `insert` -/
def grown (q : Queue I D) : Nat :=
  if q.auto && q.size == q.capacity then q.capacity + max 1 (q.capacity / 2) else q.capacity

theorem insert_core (pad : D) (q : Queue I D) (id : I) (d : D)
    (hcap : q.auto = true ∨ 1 ≤ q.capacity) (hsz : q.size ≤ q.capacity) (hs : q.entries.Pairwise le) :
    ∃ q', q.insert pad id (some d) = some q' ∧
      q'.entries = (q.entries.orderedInsert le ⟨id, d, false⟩).take (grown q) ∧
      q'.capacity = grown q ∧ q'.auto = q.auto ∧ q'.searchL = q.searchL ∧
      ((q'.entries = q.entries ∧ q'.cursor = q.cursor) ∨
       (q'.cursor = min q.cursor (q.entries.findIdx (fun e => decide (d ≤ e.dist))) ∧
        q.entries.findIdx (fun e => decide (d ≤ e.dist)) < grown q)) := by
  have hlen : q.size = q.entries.length := rfl
  have hfl := List.findIdx_le_length (xs := q.entries) (p := fun e => decide (d ≤ e.dist))
  have hoi := insertIdx_findIdx q.entries ⟨id, d, false⟩
  simp only at hoi
  have hidx : (if q.size > 0 then q.lowerBound pad d else 0)
      = q.entries.findIdx (fun e => decide (d ≤ e.dist)) := by
    split
    · exact lowerBound_eq pad q d
    · have : q.entries = [] := List.eq_nil_of_length_eq_zero (by omega)
      simp [this]
  -- insertion into a queue with room
  have hroom : ∀ c, q.size < c → ∀ q1 : Queue I D, q1.entries = q.entries → q1.capacity = c →
      q1.cursor = q.cursor → q1.searchL = q.searchL → q1.auto = q.auto →
      (if q1.size > 0 then q1.lowerBound pad d else 0) = q.entries.findIdx (fun e => decide (d ≤ e.dist)) →
      ∃ q',
      (if !q1.auto && q1.size == q1.capacity && q1.size == 0 then none
      else if !q1.auto && q1.size == q1.capacity &&
        (match q1.entries[q1.size - 1]? with | some e => decide (e.dist < d) | none => false) then some q1
      else
        let idx := if q1.size > 0 then q1.lowerBound pad d else 0
        let es := if q1.size == q1.capacity then q1.entries.take (q1.size - 1) else q1.entries
        if idx > es.length then none
        else some { q1 with
          entries := es.insertIdx idx ⟨id, d, false⟩
          cursor := if idx < q1.cursor then idx else q1.cursor }) = some q' ∧
      q'.entries = (q.entries.orderedInsert le ⟨id, d, false⟩).take c ∧
      q'.capacity = c ∧ q'.auto = q.auto ∧ q'.searchL = q.searchL ∧
      ((q'.entries = q.entries ∧ q'.cursor = q.cursor) ∨
       (q'.cursor = min q.cursor (q.entries.findIdx (fun e => decide (d ≤ e.dist))) ∧
        q.entries.findIdx (fun e => decide (d ≤ e.dist)) < c)) := by
    intro c hc q1 h1 h2 h3 h4 h5 h6
    have hs1 : q1.size = q.size := by unfold Queue.size; rw [h1]
    have hne : (q1.size == q1.capacity) = false := by simp; omega
    simp only [hne, Bool.and_false, Bool.false_and, Bool.false_eq_true, if_false, h6]
    rw [if_neg (by rw [h1]; omega)]
    refine ⟨_, rfl, ?_, h2, h5, h4, Or.inr ⟨?_, by omega⟩⟩
    · simp only [h1]
      rw [hoi, List.take_of_length_le (by rw [List.orderedInsert_length]; omega)]
    · simp only [h3]
      split <;> omega
  unfold Queue.insert
  simp only
  by_cases hg : (q.auto && q.size == q.capacity) = true
  · simp only [hg, if_true, grown]
    refine hroom (q.capacity + max 1 (q.capacity / 2)) ?_
      { q with capacity := q.capacity + max 1 (q.capacity / 2) } rfl rfl rfl rfl rfl ?_
    · simp at hg; omega
    · exact hidx
  · simp only [hg, grown]
    simp only [if_false, Bool.false_eq_true]
    by_cases hfull : q.size = q.capacity
    · have hauto : q.auto = false := by
        simp only [hfull, beq_self_eq_true, Bool.and_true] at hg; simpa using hg
      have hcap : 1 ≤ q.capacity := by simpa [hauto] using hcap
      rw [if_neg (by simp; omega)]
      have hk : q.size - 1 < q.entries.length := by omega
      rw [List.getElem?_eq_getElem hk]
      simp only [hauto, hfull, beq_self_eq_true, Bool.not_false, Bool.true_and, decide_eq_true_eq, if_true]
      have hsz1 : q.capacity - 1 = q.size - 1 := by omega
      by_cases hlt : q.entries[q.size - 1].dist < d
      · simp only [hsz1]
        rw [if_pos hlt]
        refine ⟨q, rfl, ?_, rfl, by simp [hauto], rfl, Or.inl ⟨rfl, rfl⟩⟩
        have hall : ∀ x ∈ q.entries, x.dist < d := by
          intro x hx
          obtain ⟨i, hi, rfl⟩ := List.getElem_of_mem hx
          rcases Nat.lt_or_ge i (q.size - 1) with h | h
          · exact lt_of_le_of_lt (List.pairwise_iff_getElem.1 hs _ _ _ _ h) hlt
          · have : i = q.size - 1 := by omega
            subst this; exact hlt
        rw [orderedInsert_all_lt _ _ hall, ← hfull, hlen, List.take_left]
      · simp only [hsz1]
        rw [if_neg hlt]
        have hle : q.entries.findIdx (fun e => decide (d ≤ e.dist)) ≤ q.size - 1 := by
          by_contra hcon
          have := List.not_of_lt_findIdx (xs := q.entries) (p := fun e => decide (d ≤ e.dist))
            (i := q.size - 1) (by omega)
          simp at this
          exact hlt this
        have hidx' : (if q.capacity > 0 then q.lowerBound pad d else 0)
          = q.entries.findIdx (fun e => decide (d ≤ e.dist)) := by rw [← hfull]; exact hidx
        rw [hidx', if_neg (by rw [List.length_take]; omega)]
        refine ⟨_, rfl, ?_, rfl, rfl, rfl, Or.inr ⟨?_, by omega⟩⟩
        · simp only
          rw [insertIdx_take _ _ _ _ hle (by omega), hoi]
          congr 1; omega
        · simp only; split <;> omega
    · exact hroom _ (by omega) q rfl rfl rfl rfl rfl hidx

/-! ### Feeding a sequence -/

theorem take_orderedInsert (r : Entry I D → Entry I D → Prop) [DecidableRel r] (e : Entry I D)
    (l : List (Entry I D)) (n : Nat) :
    ((l.take n).orderedInsert r e).take n = (l.orderedInsert r e).take n := by
  induction l generalizing n with
  | nil => simp
  | cons a l ih =>
    cases n with
    | zero => simp
    | succ n =>
      rw [List.take_succ_cons, List.orderedInsert_cons, List.orderedInsert_cons]
      split
      · cases n with
        | zero => simp
        | succ n => simp [List.take_succ_cons, List.take_take]
      · rw [List.take_succ_cons, List.take_succ_cons, ih]

theorem contents_orderedInsert (es : List (Entry I D)) (id : I) (d : D) :
    (es.orderedInsert le ⟨id, d, false⟩).map (fun e => (e.id, e.dist))
      = (es.map fun e => (e.id, e.dist)).orderedInsert (fun a b => a.2 ≤ b.2) (id, d) := by
  induction es with
  | nil => rfl
  | cons a es ih =>
    rw [List.orderedInsert_cons, List.map_cons, List.orderedInsert_cons]
    by_cases h : d ≤ a.dist
    · simp [le, h]
    · simp only [le, h, if_false, List.map_cons, ih]

/-- The part of the state invariant that survives `drain_best`. -/
structure WInv (q : Queue I D) : Prop where
  sorted : q.entries.Pairwise le
  cap : q.auto = true ∨ 1 ≤ q.capacity
  size_le : q.size ≤ q.capacity
  cursor_le : q.cursor ≤ q.size
  before : ∀ i (h : i < q.entries.length), i < q.cursor → q.entries[i].visited = true

/-- the pair version of `take_orderedInsert` -/
theorem take_orderedInsert' {α : Type} (r : α → α → Prop) [DecidableRel r] (e : α)
    (l : List α) (n : Nat) :
    ((l.take n).orderedInsert r e).take n = (l.orderedInsert r e).take n := by
  induction l generalizing n with
  | nil => simp
  | cons a l ih =>
    cases n with
    | zero => simp
    | succ n =>
      rw [List.take_succ_cons, List.orderedInsert_cons, List.orderedInsert_cons]
      split
      · cases n with
        | zero => simp
        | succ n => simp [List.take_succ_cons, List.take_take]
      · rw [List.take_succ_cons, List.take_succ_cons, ih]

/-! ### The history invariant -/

structure Inv (q : Queue I D) : Prop where
  sorted : q.entries.Pairwise le
  cap : q.auto = true ∨ 1 ≤ q.capacity
  size_le : q.size ≤ q.capacity
  cursor_le : q.cursor ≤ q.size
  before : ∀ i (h : i < q.entries.length), i < q.cursor → q.entries[i].visited = true
  at_cursor : ∀ (h : q.cursor < q.entries.length), q.entries[q.cursor].visited = false

theorem Inv.toW {q : Queue I D} (h : Inv q) : WInv q :=
  ⟨h.sorted, h.cap, h.size_le, h.cursor_le, h.before⟩

theorem insertIdx_visited (es : List (Entry I D)) (k : Nat) (e : Entry I D) (c : Nat)
    (hk : k ≤ es.length) :
    (es.insertIdx k e)[c]? = if c < k then es[c]? else if c = k then some e else es[c-1]? := by
  rw [List.getElem?_insertIdx]
  split
  · rfl
  · split
    · rename_i h; subst h; simp [hk]
    · rfl

theorem orderedInsert_getElem? (es : List (Entry I D)) (e : Entry I D) (c : Nat) :
    (es.orderedInsert le e)[c]? =
      let k := es.findIdx (fun x => decide (e.dist ≤ x.dist))
      if c < k then es[c]? else if c = k then some e else es[c-1]? := by
  rw [← insertIdx_findIdx, insertIdx_visited _ _ _ _ (List.findIdx_le_length ..)]

theorem insert_inv (pad : D) (q : Queue I D) (h : Inv q) (id : I) (d : Option D) :
    ∃ q', q.insert pad id d = some q' ∧ Inv q' := by
  cases d with
  | none => exact ⟨q, rfl, h⟩
  | some d =>
    obtain ⟨q', h1, h2, h3, h4, h5, h6⟩ := insert_core pad q id d h.cap h.size_le h.sorted
    refine ⟨q', h1, ?_⟩
    have hgrow : q.capacity ≤ grown q := by unfold grown; split <;> omega
    have hgrow1 : 1 ≤ grown q := by
      have := h.cap
      have := h.size_le
      unfold grown; split
      · omega
      · rename_i hx
        rcases h.cap with hc | hc
        · simp [hc] at hx; omega
        · exact hc
    have hsorted : q'.entries.Pairwise le := by
      rw [h2]
      have : (q.entries.orderedInsert le ⟨id, d, false⟩).Pairwise le := by
        haveI : Std.Total (le : Entry I D → Entry I D → Prop) := ⟨fun a b => le_total a.dist b.dist⟩
        haveI : IsTrans (Entry I D) le := ⟨fun a b c h1 h2 => le_trans (α := D) h1 h2⟩
        exact List.Pairwise.orderedInsert _ _ h.sorted
      exact this.sublist (List.take_sublist _ _)
    have hsize : q'.size = min (grown q) (q.size + 1) := by
      unfold Queue.size; rw [h2, List.length_take, List.orderedInsert_length]
    have hcl := h.cursor_le
    have hgs : q.size ≤ grown q := Nat.le_trans h.size_le hgrow
    have hget : ∀ c, q'.entries[c]? = if c < grown q then
        (let k := q.entries.findIdx (fun x => decide (d ≤ x.dist))
         if c < k then q.entries[c]? else if c = k then some ⟨id, d, false⟩ else q.entries[c-1]?) else none := by
      intro c
      rw [h2, List.getElem?_take]
      split
      · rw [orderedInsert_getElem?]
      · rfl
    have hkl := List.findIdx_le_length (xs := q.entries) (p := fun x => decide (d ≤ x.dist))
    have hes : q.entries.length = q.size := rfl
    refine ⟨hsorted, ?_, ?_, ?_, ?_, ?_⟩
    · rw [h3, h4]; right; exact hgrow1
    · rw [hsize, h3]; omega
    · rw [hsize]
      rcases h6 with ⟨h6, h7⟩ | ⟨h6, h7⟩
      · have : q'.size = q.size := by unfold Queue.size; rw [h6]
        rw [h7]; omega
      · rw [h6]; omega
    · intro i hi hic
      rcases h6 with ⟨h6, h7⟩ | ⟨h6, h7⟩
      · rw [h7] at hic
        have := h.before i (by rw [← h6]; exact hi) hic
        simp only [h6]; exact this
      · rw [h6] at hic
        have hgi := hget i
        rw [List.getElem?_eq_getElem hi, if_pos (by omega)] at hgi
        simp only at hgi
        rw [if_pos (by omega), List.getElem?_eq_getElem (by omega)] at hgi
        simp only [Option.some.injEq] at hgi
        rw [hgi]
        exact h.before i (by omega) (by omega)
    · intro hc
      rcases h6 with ⟨h6, h7⟩ | ⟨h6, h7⟩
      · have := h.at_cursor (by rw [← h6, ← h7]; exact hc)
        simp only [h6, h7]; exact this
      · have hgi := hget q'.cursor
        rw [List.getElem?_eq_getElem hc] at hgi
        have hlt : q'.cursor < grown q := by
          have : q'.entries.length = q'.size := rfl
          omega
        rw [if_pos hlt] at hgi
        simp only at hgi
        by_cases hck : q'.cursor < q.entries.findIdx (fun x => decide (d ≤ x.dist))
        · have hcc : q'.cursor = q.cursor := by omega
          rw [if_pos hck, List.getElem?_eq_getElem (by omega)] at hgi
          simp only [Option.some.injEq] at hgi
          rw [hgi]
          have := h.at_cursor (by omega)
          simp only [hcc]; exact this
        · rw [if_neg hck, if_pos (by omega)] at hgi
          simp only [Option.some.injEq] at hgi
          rw [hgi]

theorem advance_spec (es : List (Entry I D)) (c : Nat) (hc : c ≤ es.length) :
    c ≤ advance es c ∧ advance es c ≤ es.length ∧
    (∀ i (h : i < es.length), c ≤ i → i < advance es c → es[i].visited = true) ∧
    (∀ (h : advance es c < es.length), es[advance es c].visited = false) := by
  fun_induction advance es c with
  | case1 c h hv ih =>
    obtain ⟨h1, h2, h3, h4⟩ := ih (by omega)
    refine ⟨by omega, h2, ?_, h4⟩
    intro i hi hci hlt
    rcases Nat.eq_or_lt_of_le hci with rfl | hlt'
    · exact hv
    · exact h3 i hi hlt' hlt
  | case2 c h hv =>
    exact ⟨Nat.le_refl _, hc, fun i _ _ _ => by omega, fun _ => by simpa using hv⟩
  | case3 c h =>
    exact ⟨Nat.le_refl _, hc, fun i _ _ _ => by omega, fun h' => absurd h' h⟩

theorem pairwise_set (es : List (Entry I D)) (i : Nat) (e : Entry I D) (hi : i < es.length)
    (he : e.dist = es[i].dist) (h : es.Pairwise le) : (es.set i e).Pairwise le := by
  rw [List.pairwise_iff_getElem] at h ⊢
  intro a b ha hb hab
  simp only [List.length_set] at ha hb
  have key : ∀ c (hc : c < es.length), ((es.set i e)[c]'(by simpa using hc)).dist = es[c].dist := by
    intro c hc
    rw [List.getElem_set]
    split
    · rename_i h; subst h; exact he
    · rfl
  have := h a b ha hb hab
  unfold le at *
  rw [key a ha, key b hb]; exact this

/-- Full description of one pop in a good state. -/
theorem pop_core (q : Queue I D) (h : WInv q) :
    (∃ e, ∃ hc : q.cursor < q.entries.length, q.cursor < q.searchL ∧ q.entries[q.cursor] = e ∧
      ∃ q', q.pop = some (some (e.id, e.dist), q') ∧ Inv q' ∧
        q'.entries = q.entries.set q.cursor { e with visited := true } ∧
        q'.capacity = q.capacity ∧ q'.auto = q.auto ∧ q'.searchL = q.searchL) ∨
    (min q.searchL q.size ≤ q.cursor ∧ q.pop = some (none, q)) := by
  have hes : q.entries.length = q.size := rfl
  unfold Queue.pop Queue.hasNotVisited
  by_cases hc : q.cursor < min q.searchL q.size
  · left
    refine ⟨q.entries[q.cursor]'(by omega), by omega, by omega, rfl, ?_⟩
    have hlt : q.cursor < q.entries.length := by omega
    simp only [hc, decide_true, Bool.not_true, Bool.false_eq_true, if_false]
    rw [if_neg (by have := h.size_le; omega), List.getElem?_eq_getElem hlt]
    refine ⟨_, rfl, ?_, rfl, rfl, rfl, rfl⟩
    set es := q.entries.set q.cursor { q.entries[q.cursor] with visited := true } with hes'
    have hl : es.length = q.entries.length := by simp [es]
    obtain ⟨a1, a2, a3, a4⟩ := advance_spec es (q.cursor + 1) (by omega)
    refine ⟨?_, h.cap, ?_, ?_, ?_, ?_⟩
    · exact pairwise_set _ _ _ hlt rfl h.sorted
    · unfold Queue.size; simp only [hl]; exact h.size_le
    · unfold Queue.size; simp only; exact a2
    · intro i hi hic
      simp only at hi hic ⊢
      rcases Nat.lt_trichotomy i q.cursor with hlt' | heq | hgt
      · simp only [hes', List.getElem_set]
        rw [if_neg (by omega)]
        exact h.before i (by omega) hlt'
      · simp [hes', List.getElem_set, heq]
      · exact a3 i hi hgt hic
    · exact a4
  · right
    refine ⟨by omega, ?_⟩
    simp [hc]

theorem reconfigure_inv (q : Queue I D) (h : Inv q) (l : Nat) (hl : 1 ≤ l) : Inv (q.reconfigure l) := by
  unfold Queue.reconfigure
  simp only
  have hes : q.entries.length = q.size := rfl
  have hcl := h.cursor_le
  split
  · rename_i hlt
    have hlt : l < q.size := hlt
    refine ⟨?_, Or.inr hl, ?_, ?_, ?_, ?_⟩
    · exact h.sorted.sublist (List.take_sublist _ _)
    · unfold Queue.size; simp
    · unfold Queue.size; simp; omega
    · intro i hi hic
      simp only [List.length_take] at hi hic ⊢
      rw [List.getElem_take]
      exact h.before i (by omega) (by omega)
    · intro hc
      simp only [List.length_take] at hc ⊢
      rw [List.getElem_take]
      have := h.at_cursor (by omega)
      have e : min q.cursor l = q.cursor := by omega
      simp only [e]; exact this
  · rename_i hlt
    have hlt : ¬ l < q.size := hlt
    refine ⟨h.sorted, Or.inr hl, ?_, h.cursor_le, h.before, h.at_cursor⟩
    show q.size ≤ l
    omega

theorem clear_inv (q : Queue I D) (h : Inv q) : Inv q.clear := by
  unfold Queue.clear
  refine ⟨by simp, h.cap, by simp [Queue.size], by simp, ?_, ?_⟩ <;> simp

theorem new_inv (l : Nat) (hl : 1 ≤ l) : Inv (Queue.new l : Queue I D) := by
  refine ⟨by simp [Queue.new], Or.inr hl, ?_, ?_, ?_, ?_⟩ <;> simp [Queue.new, Queue.size]

theorem newAuto_inv (l : Nat) : Inv (Queue.newAuto l : Queue I D) := by
  refine ⟨by simp [Queue.newAuto], Or.inl rfl, ?_, ?_, ?_, ?_⟩ <;> simp [Queue.newAuto, Queue.size]

end Verif.Queue
