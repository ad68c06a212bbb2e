import Verif.Tools.LabelGenModel
import Mathlib.Data.List.Perm.Basic
import Mathlib.Data.List.Range

/-!
# Generated label files, and base and query labels: theorems
-/

namespace Verif.Tools.LabelGen

/-! ## Specification -/

/-- Splitting at the elements that satisfy `p`. -/
def splitBy {α : Type} (p : α → Bool) : List α → List (List α)
  | [] => [[]]
  | c :: cs =>
    if p c then [] :: splitBy p cs
    else
      match splitBy p cs with
      | [] => [[c]]
      | h :: t => (c :: h) :: t

/-- The labels of a line: numbers separated by commas. -/
def readLine (ts : List Tok) : Option (List Nat) :=
  (splitBy (fun t => t == .comma) ts).mapM (fun w => match w with | [.num n] => some n | _ => none)

/-- The lines of a file: an empty file has none. -/
def readFile (ts : List Tok) : Option (List (List Nat)) :=
  if ts = [] then some [] else (splitBy (fun t => t == .newline) ts).mapM readLine

/-! ## Lemmas -/

theorem splitBy_none {α : Type} (p : α → Bool) (l : List α) (h : ∀ x ∈ l, p x = false) : splitBy p l = [l] := by
  induction l with
  | nil => rfl
  | cons a l ih =>
    have h1 := h a (by simp)
    have h2 := ih (fun x hx => h x (by simp [hx]))
    simp [splitBy, h1, h2]

theorem splitBy_append {α : Type} (p : α → Bool) (l : List α) (s : α) (r : List α) (h : ∀ x ∈ l, p x = false)
    (hs : p s = true) : splitBy p (l ++ s :: r) = l :: splitBy p r := by
  induction l with
  | nil => simp [splitBy, hs]
  | cons a l ih =>
    have h1 := h a (by simp)
    have h2 := ih (fun x hx => h x (by simp [hx]))
    simp [splitBy, h1, h2]

/-- The tokens of the labels of a line; `w` tells that a label came before. -/
def renderLine : Bool → List Nat → List Tok
  | _, [] => []
  | w, n :: ns => (if w then [Tok.comma] else []) ++ Tok.num n :: renderLine true ns

/-- The tokens of lines. -/
def render : List (List Nat) → List Tok
  | [] => []
  | [l] => renderLine false l
  | l :: ls => renderLine false l ++ Tok.newline :: render ls

theorem renderLine_no_newline (w : Bool) (l : List Nat) : ∀ t ∈ renderLine w l, (t == Tok.newline) = false := by
  induction l generalizing w with
  | nil => simp [renderLine]
  | cons n l ih =>
    intro t ht
    unfold renderLine at ht
    cases w
    · simp only [Bool.false_eq_true, ↓reduceIte, List.nil_append, List.mem_cons] at ht
      rcases ht with rfl | ht
      · rfl
      · exact ih true t ht
    · simp only [↓reduceIte, List.cons_append, List.nil_append, List.mem_cons] at ht
      rcases ht with rfl | rfl | ht
      · rfl
      · rfl
      · exact ih true t ht

theorem readLine_render (n : Nat) (l : List Nat) : readLine (renderLine false (n :: l)) = some (n :: l) := by
  have key : ∀ (l : List Nat) (n : Nat), splitBy (fun t => t == Tok.comma) (Tok.num n :: renderLine true l) =
      [Tok.num n] :: l.map (fun m => [Tok.num m]) := by
    intro l
    induction l with
    | nil => intro n; simp [renderLine, splitBy]
    | cons m l ih =>
      intro n
      have : Tok.num n :: renderLine true (m :: l) = [Tok.num n] ++ Tok.comma :: (Tok.num m :: renderLine true l) := by
        simp [renderLine]
      rw [this, splitBy_append _ _ _ _ (by simp) (by simp), ih]
      simp
  unfold readLine
  have : renderLine false (n :: l) = Tok.num n :: renderLine true l := by simp [renderLine]
  rw [this, key]
  have hm : ∀ l : List Nat, (l.map (fun m => [Tok.num m])).mapM
      (fun w => match w with | [.num n] => some n | _ => none) = some l := by
    intro l
    induction l with
    | nil => rfl
    | cons a l ih => simp [List.mapM_cons, ih]
  have := hm (n :: l)
  simpa using this

theorem readFile_render (ls : List (List Nat)) (h : ∀ l ∈ ls, l ≠ []) : readFile (render ls) = some ls := by
  have key : ∀ ls : List (List Nat), ls ≠ [] → (∀ l ∈ ls, l ≠ []) →
      splitBy (fun t => t == Tok.newline) (render ls) = ls.map (renderLine false) := by
    intro ls
    induction ls with
    | nil => intro h; exact absurd rfl h
    | cons l ls ih =>
      intro _ h
      cases ls with
      | nil => simp [render, splitBy_none _ _ (renderLine_no_newline false l)]
      | cons l' ls =>
        simp only [render]
        rw [splitBy_append _ _ _ _ (renderLine_no_newline false l) (by simp)]
        have := ih (by simp) (fun x hx => h x (by simp [hx]))
        rw [this]
        simp
  have hne : ls ≠ [] → render ls ≠ [] := by
    intro hne
    cases ls with
    | nil => exact absurd rfl hne
    | cons l ls =>
      cases l with
      | nil => exact absurd rfl (h [] (by simp))
      | cons a l => cases ls <;> simp [render, renderLine]
  unfold readFile
  by_cases he : ls = []
  · subst he
    simp [render]
  · rw [if_neg (hne he), key ls he h]
    clear hne key he
    induction ls with
    | nil => rfl
    | cons l ls ih =>
      have hl := h l (by simp)
      cases l with
      | nil => exact absurd rfl hl
      | cons a l =>
        rw [List.map_cons, List.mapM_cons, readLine_render, ih (fun x hx => h x (by simp [hx]))]
        rfl

theorem randomLoop_eq (coin : Nat → Bool) (js : List Nat) : ∀ w, randomLoop coin js w =
    (renderLine w (js.filter coin), w || !(js.filter coin).isEmpty) := by
  induction js with
  | nil => intro w; simp [randomLoop, renderLine]
  | cons j js ih =>
    intro w
    unfold randomLoop
    by_cases h : coin j = true
    · simp [h, ih, renderLine]
    · simp [h, ih]

theorem zipfLoop_eq (coin : Nat → Bool) (js : List Nat) (hn : js.Nodup) : ∀ (f : Nat → Nat) w,
    zipfLoop coin js f w =
      (renderLine w (js.filter (fun j => coin j && decide (0 < f j))),
        w || !(js.filter (fun j => coin j && decide (0 < f j))).isEmpty,
        fun j => if j ∈ js.filter (fun j => coin j && decide (0 < f j)) then f j - 1 else f j) := by
  induction js with
  | nil => intro f w; simp [zipfLoop, renderLine]
  | cons j js ih =>
    intro f w
    have hj : j ∉ js := (List.nodup_cons.1 hn).1
    have ih := ih (List.nodup_cons.1 hn).2
    unfold zipfLoop
    by_cases h : (coin j && decide (0 < f j)) = true
    · have hf : js.filter (fun i => coin i && decide (0 < Function.update f j (f j - 1) i)) =
          js.filter (fun i => coin i && decide (0 < f i)) := by
        apply List.filter_congr
        intro i hi
        have : i ≠ j := fun e => hj (e ▸ hi)
        rw [Function.update_of_ne this]
      have hjf : j ∉ js.filter (fun i => coin i && decide (0 < f i)) := fun hc => hj (List.mem_of_mem_filter hc)
      rw [if_pos h, ih, hf, List.filter_cons, if_pos h]
      simp only [renderLine, Bool.true_or, List.isEmpty_cons, Bool.not_false, Bool.or_true, Prod.mk.injEq, true_and]
      funext i
      by_cases hi : i = j
      · subst hi
        simp [hjf]
      · simp [hi]
    · rw [if_neg h, ih, List.filter_cons, if_neg h]

/-- The labels of a point, or zero when there are none. -/
def orZero (l : List Nat) : List Nat := if l = [] then [0] else l

theorem orZero_ne (l : List Nat) : orZero l ≠ [] := by
  unfold orZero
  split <;> simp_all

theorem point_eq (l : List Nat) : renderLine false l ++ (if (false || !l.isEmpty) then [] else [Tok.num 0]) =
    renderLine false (orZero l) := by
  cases l with
  | nil => simp [orZero, renderLine]
  | cons a l => simp [orZero]

/-- The lines of the random distribution. -/
def randomLines (r : Rand) (l : Nat) : Nat → Nat → List (List Nat)
  | 0, _ => []
  | k + 1, i => orZero ((List.range' 1 l).filter (r.coin i)) :: randomLines r l k (i + 1)

theorem render_cons (l : List Nat) (ls : List (List Nat)) :
    render (l :: ls) = renderLine false l ++ (if ls = [] then [] else [Tok.newline]) ++ render ls := by
  cases ls <;> simp [render]

theorem randomPoints_eq (r : Rand) (n l : Nat) : ∀ k i, i + k = n →
    randomPoints r n l k i = render (randomLines r l k i) := by
  intro k
  induction k with
  | zero => intro i _; rfl
  | succ k ih =>
    intro i hi
    simp only [randomPoints, randomLines, randomLoop_eq]
    rw [ih (i + 1) (by omega), render_cons, point_eq]
    congr 2
    cases k with
    | zero =>
      rw [if_neg (by omega)]
      simp [randomLines]
    | succ k =>
      rw [if_pos (by omega)]
      simp [randomLines]

/-- The lines of the Zipf distribution. -/
def zipfLines (r : Rand) : Nat → Nat → (Nat → Nat) → List (List Nat)
  | 0, _, _ => []
  | k + 1, i, f =>
    let l := r.order.filter (fun j => r.coin i j && decide (0 < f j))
    orZero l :: zipfLines r k (i + 1) (fun j => if j ∈ l then f j - 1 else f j)

theorem zipfPoints_eq (r : Rand) (hn : r.order.Nodup) (n : Nat) : ∀ k i f, i + k = n →
    zipfPoints r n k i f = render (zipfLines r k i f) := by
  intro k
  induction k with
  | zero => intro i f _; rfl
  | succ k ih =>
    intro i f hi
    simp only [zipfPoints, zipfLines, zipfLoop_eq _ _ hn]
    rw [ih (i + 1) _ (by omega), render_cons, point_eq]
    congr 2
    cases k with
    | zero =>
      rw [if_neg (by omega)]
      simp [zipfLines]
    | succ k =>
      rw [if_pos (by omega)]
      simp [zipfLines]

/-- The lines with one label. -/
def oneLines (r : Rand) : Nat → Nat → List (List Nat)
  | 0, _ => []
  | k + 1, i => [r.pick i] :: oneLines r k (i + 1)

theorem onePoints_eq (r : Rand) (n : Nat) : ∀ k i, i + k = n → onePoints r n k i = render (oneLines r k i) := by
  intro k
  induction k with
  | zero => intro i _; rfl
  | succ k ih =>
    intro i hi
    simp only [onePoints, oneLines]
    rw [ih (i + 1) (by omega), render_cons]
    congr 2
    cases k with
    | zero =>
      rw [if_neg (by omega)]
      simp [oneLines]
    | succ k =>
      rw [if_pos (by omega)]
      simp [oneLines]

/-- Zero alone, or distinct labels from 1 to `l`. -/
def LineOk (l : Nat) (line : List Nat) : Prop :=
  line = [0] ∨ (line ≠ [] ∧ line.Nodup ∧ ∀ j ∈ line, 1 ≤ j ∧ j ≤ l)

theorem orZero_ok (l : Nat) (js : List Nat) (p : Nat → Bool) (hn : js.Nodup) (hm : ∀ j ∈ js, 1 ≤ j ∧ j ≤ l) :
    LineOk l (orZero (js.filter p)) := by
  unfold orZero
  split
  · exact .inl rfl
  · rename_i h
    exact .inr ⟨h, hn.filter p, fun j hj => hm j (List.mem_of_mem_filter hj)⟩

/-! ## Theorems on generated files -/

/-- C128: a file with the random distribution has one line for every point, with distinct labels from 1 to `l`, or zero. -/
theorem C128_random (r : Rand) (n l : Nat) : ∃ ls, (generate r .random n l).1 = .ok ∧
    readFile (generate r .random n l).2 = some ls ∧ ls.length = n ∧ (∀ line ∈ ls, LineOk l line) ∧
    ∀ i line, ls[i]? = some line → ∀ j, 1 ≤ j → j ≤ l → (j ∈ line ↔ r.coin i j = true) := by
  have hlen : ∀ k i, (randomLines r l k i).length = k := by
    intro k
    induction k with
    | zero => intro i; rfl
    | succ k ih => intro i; simp [randomLines, ih]
  have hok : ∀ k i, ∀ line ∈ randomLines r l k i, LineOk l line := by
    intro k
    induction k with
    | zero => intro i line h; simp [randomLines] at h
    | succ k ih =>
      intro i line h
      rcases List.mem_cons.1 h with rfl | h
      · refine orZero_ok l _ _ List.nodup_range' (fun j hj => ?_)
        rw [List.mem_range'_1] at hj
        omega
      · exact ih _ _ h
  have hget : ∀ k i m line, (randomLines r l k i)[m]? = some line → ∀ j, 1 ≤ j → j ≤ l →
      (j ∈ line ↔ r.coin (i + m) j = true) := by
    intro k
    induction k with
    | zero => intro i m line h; simp [randomLines] at h
    | succ k ih =>
      intro i m line h j h1 h2
      cases m with
      | zero =>
        simp only [randomLines, List.getElem?_cons_zero, Option.some.injEq] at h
        subst h
        have hj : j ∈ List.range' 1 l := by
          rw [List.mem_range'_1]
          omega
        unfold orZero
        rw [Nat.add_zero]
        split
        · rename_i he
          have : j ∉ (List.range' 1 l).filter (r.coin i) := by rw [he]; simp
          rw [List.mem_filter] at this
          constructor
          · intro hc
            simp only [List.mem_singleton] at hc
            omega
          · exact fun hc => absurd ⟨hj, hc⟩ this
        · rw [List.mem_filter]
          exact ⟨fun hc => hc.2, fun hc => ⟨hj, hc⟩⟩
      | succ m =>
        simp only [randomLines, List.getElem?_cons_succ] at h
        have := ih (i + 1) m line h j h1 h2
        rwa [show i + 1 + m = i + (m + 1) by omega] at this
  refine ⟨randomLines r l n 0, rfl, ?_, hlen n 0, hok n 0, fun i line h j h1 h2 => ?_⟩
  · show readFile (randomPoints r n l n 0) = _
    rw [randomPoints_eq r n l n 0 (by omega)]
    refine readFile_render _ (fun line hl => ?_)
    rcases hok n 0 line hl with h | h
    · rw [h]
      simp
    · exact h.1
  · have := hget n 0 i line h j h1 h2
    rwa [Nat.zero_add] at this

/-- How many lines have a label. -/
def uses (j : Nat) (ls : List (List Nat)) : Nat := ls.countP (fun l => l.contains j)

/-- C128: the same for the Zipf distribution, whatever the order of the hash map; label `j` is on at most `0.7 n / j`
lines, and on every line for which it is drawn until then. -/
theorem C128_zipf (r : Rand) (n l : Nat) (ho : r.order.Perm (List.range' 1 l)) : ∃ ls, (generate r .zipf n l).1 = .ok ∧
    readFile (generate r .zipf n l).2 = some ls ∧ ls.length = n ∧ (∀ line ∈ ls, LineOk l line) ∧
    (∀ j, 1 ≤ j → uses j ls ≤ 7 * n / 10 / j) ∧
    ∀ i line, ls[i]? = some line → ∀ j, 1 ≤ j → j ≤ l →
      (j ∈ line ↔ r.coin i j = true ∧ uses j (ls.take i) < min (7 * n / 10) (2 ^ 32 - 1) / j) := by
  have hnd : r.order.Nodup := ho.nodup_iff.2 List.nodup_range'
  have hmem : ∀ j ∈ r.order, 1 ≤ j ∧ j ≤ l := by
    intro j hj
    have := ho.mem_iff.1 hj
    rw [List.mem_range'_1] at this
    omega
  have hlen : ∀ k i f, (zipfLines r k i f).length = k := by
    intro k
    induction k with
    | zero => intro i f; rfl
    | succ k ih => intro i f; simp [zipfLines, ih]
  have hok : ∀ k i f, ∀ line ∈ zipfLines r k i f, LineOk l line := by
    intro k
    induction k with
    | zero => intro i f line h; simp [zipfLines] at h
    | succ k ih =>
      intro i f line h
      rcases List.mem_cons.1 h with rfl | h
      · exact orZero_ok l _ _ hnd hmem
      · exact ih _ _ _ h
  have huse : ∀ k i f j, 1 ≤ j → uses j (zipfLines r k i f) ≤ f j := by
    intro k
    induction k with
    | zero => intro i f j _; simp [uses, zipfLines]
    | succ k ih =>
      intro i f j h1
      have := ih (i + 1) (fun j => if j ∈ r.order.filter (fun j => r.coin i j && decide (0 < f j)) then f j - 1 else f j) j h1
      unfold uses at this ⊢
      simp only [zipfLines, List.countP_cons]
      by_cases hj : j ∈ r.order.filter (fun j => r.coin i j && decide (0 < f j))
      · rw [if_pos hj] at this
        have hf : 0 < f j := by
          have := (List.mem_filter.1 hj).2
          simp only [Bool.and_eq_true, decide_eq_true_eq] at this
          exact this.2
        split <;> omega
      · rw [if_neg hj] at this
        have hno : ((orZero (r.order.filter (fun j => r.coin i j && decide (0 < f j)))).contains j) = false := by
          rw [List.contains_eq_mem, decide_eq_false_iff_not]
          unfold orZero
          split
          · simp only [List.mem_singleton]
            omega
          · exact hj
        rw [hno]
        simpa using this
  have hget : ∀ k i f m line, (zipfLines r k i f)[m]? = some line → ∀ j, 1 ≤ j → j ≤ l →
      (j ∈ line ↔ r.coin (i + m) j = true ∧ uses j ((zipfLines r k i f).take m) < f j) := by
    intro k
    induction k with
    | zero => intro i f m line h; simp [zipfLines] at h
    | succ k ih =>
      intro i f m line h j h1 h2
      have hjo : j ∈ r.order := ho.mem_iff.2 (by
        rw [List.mem_range'_1]
        omega)
      have hz : j ∈ orZero (r.order.filter (fun j => r.coin i j && decide (0 < f j))) ↔
          j ∈ r.order.filter (fun j => r.coin i j && decide (0 < f j)) := by
        unfold orZero
        split
        · rename_i he
          rw [he]
          simp only [List.mem_singleton, List.not_mem_nil, iff_false]
          omega
        · exact Iff.rfl
      cases m with
      | zero =>
        simp only [zipfLines, List.getElem?_cons_zero, Option.some.injEq] at h
        subst h
        rw [hz, List.mem_filter]
        simp [hjo, uses]
      | succ m =>
        simp only [zipfLines, List.getElem?_cons_succ] at h
        have := ih (i + 1) _ m line h j h1 h2
        rw [show i + 1 + m = i + (m + 1) by omega] at this
        rw [this]
        simp only [zipfLines, List.take_succ_cons]
        unfold uses
        rw [List.countP_cons]
        by_cases hj : j ∈ r.order.filter (fun j => r.coin i j && decide (0 < f j))
        · have hf : 0 < f j := by
            have := (List.mem_filter.1 hj).2
            simp only [Bool.and_eq_true, decide_eq_true_eq] at this
            exact this.2
          have hc : (orZero (r.order.filter (fun j => r.coin i j && decide (0 < f j)))).contains j = true := by
            rw [List.contains_eq_mem, decide_eq_true_eq]
            exact hz.2 hj
          rw [if_pos hj, if_pos hc]
          exact and_congr_right (fun _ => by omega)
        · have hc : ¬ (orZero (r.order.filter (fun j => r.coin i j && decide (0 < f j)))).contains j = true := by
            rw [List.contains_eq_mem, decide_eq_true_eq]
            exact fun hc => hj (hz.1 hc)
          rw [if_neg hj, if_neg hc]
          exact and_congr_right (fun _ => by omega)
  refine ⟨zipfLines r n 0 (freqMap n), rfl, ?_, hlen _ _ _, hok _ _ _, fun j h1 => ?_, fun i line h j h1 h2 => ?_⟩
  · show readFile (zipfPoints r n n 0 (freqMap n)) = _
    rw [zipfPoints_eq r hnd n n 0 _ (by omega)]
    refine readFile_render _ (fun line hl => ?_)
    rcases hok _ _ _ line hl with h | h
    · rw [h]
      simp
    · exact h.1
  · refine le_trans (huse n 0 (freqMap n) j h1) ?_
    exact Nat.div_le_div_right (Nat.min_le_left _ _)
  · have := hget n 0 (freqMap n) i line h j h1 h2
    rwa [Nat.zero_add] at this

/-- C128 (partial: not from 1 on, see `C128_one_refuted`): one label for every point, below the number of labels. -/
theorem C128_one_partial (r : Rand) (n l : Nat) (hp : ∀ i, r.pick i < l) : (generate r .onePerPoint n l).1 = .ok ∧
    ∃ ls, readFile (generate r .onePerPoint n l).2 = some ls ∧ ls.length = n ∧
      ∀ i, i < n → ls[i]? = some [r.pick i] := by
  have hl : 0 < l := lt_of_le_of_lt (Nat.zero_le _) (hp 0)
  have hg : generate r .onePerPoint n l = (.ok, onePoints r n n 0) := by
    show (if 0 < n ∧ l = 0 then (End.panic, []) else (End.ok, onePoints r n n 0)) = _
    rw [if_neg (by omega)]
  rw [hg]
  have hlen : ∀ k i, (oneLines r k i).length = k := by
    intro k
    induction k with
    | zero => intro i; rfl
    | succ k ih => intro i; simp [oneLines, ih]
  have hget : ∀ k i m, m < k → (oneLines r k i)[m]? = some [r.pick (i + m)] := by
    intro k
    induction k with
    | zero => intro i m h; omega
    | succ k ih =>
      intro i m h
      cases m with
      | zero => rfl
      | succ m =>
        simp only [oneLines, List.getElem?_cons_succ]
        rw [ih (i + 1) m (by omega), show i + 1 + m = i + (m + 1) by omega]
  have hne : ∀ k i, ∀ line ∈ oneLines r k i, line ≠ [] := by
    intro k
    induction k with
    | zero => intro i line h; simp [oneLines] at h
    | succ k ih =>
      intro i line h
      rcases List.mem_cons.1 h with rfl | h
      · simp
      · exact ih _ _ h
  refine ⟨rfl, oneLines r n 0, ?_, hlen n 0, fun i hi => ?_⟩
  · show readFile (onePoints r n n 0) = _
    rw [onePoints_eq r n n 0 (by omega)]
    exact readFile_render _ (hne n 0)
  · have := hget n 0 i hi
    rwa [Nat.zero_add] at this

/-- C128 (refuted: one label from 1 to `l` for every point, as in the other distributions): zero, which stands for no label
there, is a label here, and `l` is none. -/
theorem C128_one_refuted (l : Nat) (hl : 0 < l) : ∃ r : Rand, (∀ i, r.pick i < l) ∧ ∀ n i, i < n →
    ∃ ls, readFile (generate r .onePerPoint n l).2 = some ls ∧ ls[i]? = some [0] := by
  refine ⟨⟨fun _ _ => false, fun _ => 0, []⟩, fun _ => hl, fun n i hi => ?_⟩
  obtain ⟨_, ls, h1, _, h3⟩ := C128_one_partial ⟨fun _ _ => false, fun _ => 0, []⟩ n l (fun _ => hl)
  exact ⟨ls, h1, h3 i hi⟩

/-- C128 (refuted: a call that succeeds wrote a line for every point): any other name of a distribution gives an empty file
and success. -/
theorem C128_unknown_refuted (r : Rand) (n l : Nat) (hn : 0 < n) :
    (generate r .other n l).1 = .ok ∧ readFile (generate r .other n l).2 = some [] ∧ ([] : List (List Nat)).length ≠ n := by
  refine ⟨rfl, rfl, ?_⟩
  simp
  omega

/-- C128 (refuted: every number of labels is accepted): one label for every point out of none panics, while the other
distributions write zeros. -/
theorem C128_no_labels_refuted (r : Rand) (n : Nat) (hn : 0 < n) : (generate r .onePerPoint n 0).1 = .panic ∧
    ∃ ls, (generate r .random n 0).1 = .ok ∧ readFile (generate r .random n 0).2 = some ls ∧ ∀ line ∈ ls, line = [0] := by
  constructor
  · show (if 0 < n ∧ 0 = 0 then (End.panic, []) else (End.ok, onePoints r n n 0)).1 = _
    rw [if_pos ⟨hn, rfl⟩]
  · obtain ⟨ls, h1, h2, _, h4, _⟩ := C128_random r n 0
    refine ⟨ls, h1, h2, fun line hl => ?_⟩
    rcases h4 line hl with h | ⟨h5, _, h6⟩
    · exact h
    · cases line with
      | nil => exact absurd rfl h5
      | cons a line =>
        have := h6 a (by simp)
        omega

/-! ## Base and query labels -/

/-- Joining with a separator. -/
def join (sep : Char) : List Str → Str
  | [] => []
  | [s] => s
  | s :: ss => s ++ sep :: join sep ss

theorem split_none (sep : Char) (s : Str) (h : sep ∉ s) : split sep s = [s] := by
  induction s with
  | nil => rfl
  | cons c s ih =>
    simp only [List.mem_cons, not_or] at h
    simp [split, ih h.2, Ne.symm h.1]

theorem split_append (sep : Char) (s r : Str) (h : sep ∉ s) : split sep (s ++ sep :: r) = s :: split sep r := by
  induction s with
  | nil => simp [split]
  | cons c s ih =>
    simp only [List.mem_cons, not_or] at h
    simp [split, ih h.2, Ne.symm h.1]

theorem split_join (sep : Char) (ss : List Str) (hne : ss ≠ []) (h : ∀ s ∈ ss, sep ∉ s) : split sep (join sep ss) = ss := by
  induction ss with
  | nil => exact absurd rfl hne
  | cons s ss ih =>
    cases ss with
    | nil => exact split_none sep s (h s (by simp))
    | cons t ss =>
      simp only [join]
      rw [split_append sep s _ (h s (by simp)), ih (by simp) (fun x hx => h x (by simp [hx]))]

/-- A label: no separator, and no white space at the ends. -/
def Label (space : Char → Bool) (s : Str) : Prop :=
  ',' ∉ s ∧ '&' ∉ s ∧ '|' ∉ s ∧ (∀ c ∈ s.head?, space c = false) ∧ (∀ c ∈ s.getLast?, space c = false)

/-- The text is the label with white space around it. -/
def Padded (space : Char → Bool) (text label : Str) : Prop :=
  ∃ a b : Str, text = a ++ label ++ b ∧ (∀ c ∈ a, space c = true) ∧ (∀ c ∈ b, space c = true)

theorem dropWhile_all (space : Char → Bool) (a s : Str) (h : ∀ c ∈ a, space c = true) :
    (a ++ s).dropWhile space = s.dropWhile space := by
  induction a with
  | nil => rfl
  | cons c a ih =>
    rw [List.cons_append, List.dropWhile_cons, if_pos (h c (by simp)), ih (fun x hx => h x (by simp [hx]))]

theorem dropWhile_head (space : Char → Bool) (s : Str) (h : ∀ c ∈ s.head?, space c = false) : s.dropWhile space = s := by
  cases s with
  | nil => rfl
  | cons c s => rw [List.dropWhile_cons, if_neg (by rw [h c (by simp)]; decide)]

theorem trim_padded (space : Char → Bool) (text label : Str) (hl : Label space label) (h : Padded space text label) :
    trim space text = label := by
  obtain ⟨a, b, rfl, ha, hb⟩ := h
  unfold trim
  rw [List.append_assoc, dropWhile_all space a _ ha]
  by_cases hn : label = []
  · subst hn
    have : ([] ++ b : Str).dropWhile space = [] := by
      have := dropWhile_all space b [] hb
      simpa using this
    rw [this]
    rfl
  · have h1 : (label ++ b).dropWhile space = label ++ b := by
      apply dropWhile_head
      intro c hc
      apply hl.2.2.2.1 c
      cases label with
      | nil => exact absurd rfl hn
      | cons x l => simpa using hc
    rw [h1, List.reverse_append, dropWhile_all space _ _ (by simpa using hb), dropWhile_head, List.reverse_reverse]
    intro c hc
    rw [List.head?_reverse] at hc
    exact hl.2.2.2.2 c hc

theorem trim_label (space : Char → Bool) (l : Str) (h : Label space l) : trim space l = l :=
  trim_padded space l l h ⟨[], [], by simp, by simp, by simp⟩

theorem isSubsetOf_iff (q : List (List Str)) (b : List Str) :
    isSubsetOf q b = true ↔ ∀ c ∈ q, ∃ l ∈ c, l ∈ b := by
  induction q with
  | nil => simp [isSubsetOf]
  | cons c q ih =>
    unfold isSubsetOf
    by_cases h : (c.any fun l => b.contains l) = true
    · rw [if_pos h, ih]
      simp only [List.mem_cons, forall_eq_or_imp]
      rw [List.any_eq_true] at h
      obtain ⟨l, hl, hb⟩ := h
      simp only [List.contains_eq_mem, decide_eq_true_eq] at hb
      exact ⟨fun h => ⟨⟨l, hl, hb⟩, h⟩, fun h => h.2⟩
    · rw [if_neg h]
      simp only [Bool.false_eq_true, List.mem_cons, forall_eq_or_imp, false_iff, not_and]
      rintro ⟨l, hl, hb⟩
      exact absurd (List.any_eq_true.2 ⟨l, hl, by simpa using hb⟩) h

theorem join_mem (sep c : Char) (hc : c ≠ sep) (ss : List Str) (h : ∀ s ∈ ss, c ∉ s) : c ∉ join sep ss := by
  induction ss with
  | nil => simp [join]
  | cons s ss ih =>
    cases ss with
    | nil => exact h s (by simp)
    | cons t ss =>
      simp only [join, List.mem_append, List.mem_cons, not_or]
      exact ⟨h s (by simp), hc, ih (fun x hx => h x (by simp [hx]))⟩

theorem map_trim (space : Char → Bool) (ls : List Str) (h : ∀ l ∈ ls, Label space l) : ls.map (trim space) = ls := by
  conv_rhs => rw [← List.map_id ls]
  exact List.map_congr_left (fun l hl => trim_label space l (h l hl))

/-- C128: a query `a|b&c` matches the base labels `x,y,z` exactly when each of its parts has a label among them. -/
theorem C128_matches (space : Char → Bool) (query : List (List Str)) (base : List Str) (hq : query ≠ [])
    (hc : ∀ c ∈ query, c ≠ [] ∧ ∀ l ∈ c, Label space l) (hb : base ≠ []) (hl : ∀ l ∈ base, Label space l) :
    isSubsetOf (fromQuery space (join '&' (query.map (join '|')))) (fromBase space (join ',' base)) = true ↔
      ∀ c ∈ query, ∃ l ∈ c, l ∈ base := by
  have h1 : fromBase space (join ',' base) = base := by
    unfold fromBase
    rw [split_join ',' base hb (fun s hs => (hl s hs).1), map_trim space base hl]
  have h2 : fromQuery space (join '&' (query.map (join '|'))) = query := by
    unfold fromQuery
    rw [split_join '&' _ (by simpa using hq)]
    · rw [List.map_map]
      conv_rhs => rw [← List.map_id query]
      apply List.map_congr_left
      intro c hcq
      simp only [Function.comp_apply, id]
      rw [split_join '|' c (hc c hcq).1 (fun s hs => ((hc c hcq).2 s hs).2.2.1), map_trim space c (hc c hcq).2]
    · intro s hs
      rw [List.mem_map] at hs
      obtain ⟨c, hcq, rfl⟩ := hs
      exact join_mem '|' '&' (by decide) c (fun s hs => ((hc c hcq).2 s hs).2.1)
  rw [h1, h2]
  exact isSubsetOf_iff query base

theorem map_padded (space : Char → Bool) (ts ls : List Str) (h : List.Forall₂ (Padded space) ts ls)
    (hl : ∀ l ∈ ls, Label space l) : ts.map (trim space) = ls := by
  induction h with
  | nil => rfl
  | cons h _ ih =>
    rw [List.map_cons, ih (fun l hl' => hl l (by simp [hl'])), trim_padded space _ _ (hl _ (by simp)) h]

theorem padded_mem (space : Char → Bool) (sep : Char) (hs : space sep = false) (t l : Str) (h : Padded space t l) (hl : sep ∉ l) :
    sep ∉ t := by
  obtain ⟨a, b, rfl, ha, hb⟩ := h
  simp only [List.mem_append, not_or]
  refine ⟨⟨fun c => ?_, hl⟩, fun c => ?_⟩
  · have := ha _ c
    rw [hs] at this
    cases this
  · have := hb _ c
    rw [hs] at this
    cases this

theorem forall2_left {α β : Type} {R : α → β → Prop} {as : List α} {bs : List β} (h : List.Forall₂ R as bs) :
    ∀ a ∈ as, ∃ b ∈ bs, R a b := by
  induction h with
  | nil => simp
  | cons h _ ih =>
    intro a ha
    rw [List.mem_cons] at ha
    rcases ha with rfl | ha
    · exact ⟨_, by simp, h⟩
    · obtain ⟨b, hb, hr⟩ := ih a ha
      exact ⟨b, by simp [hb], hr⟩

/-- C128: white space around the labels of the query and of the base does not change what matches. -/
theorem C128_padded (space : Char → Bool) (hs : space ',' = false ∧ space '&' = false ∧ space '|' = false)
    (query qtexts : List (List Str)) (base btexts : List Str) (hq : query ≠ [])
    (hc : ∀ c ∈ query, c ≠ [] ∧ ∀ l ∈ c, Label space l) (hb : base ≠ []) (hl : ∀ l ∈ base, Label space l)
    (hqt : List.Forall₂ (List.Forall₂ (Padded space)) qtexts query) (hbt : List.Forall₂ (Padded space) btexts base) :
    isSubsetOf (fromQuery space (join '&' (qtexts.map (join '|')))) (fromBase space (join ',' btexts)) = true ↔
      ∀ c ∈ query, ∃ l ∈ c, l ∈ base := by
  have h1 : fromBase space (join ',' btexts) = base := by
    unfold fromBase
    rw [split_join ',' btexts, map_padded space btexts base hbt hl]
    · rintro rfl
      cases hbt
      exact hb rfl
    · intro t ht
      obtain ⟨l, hlb, hp⟩ := forall2_left hbt t ht
      exact padded_mem space ',' hs.1 t l hp (hl l hlb).1
  have h2 : fromQuery space (join '&' (qtexts.map (join '|'))) = query := by
    unfold fromQuery
    rw [split_join '&']
    · clear hq
      induction hqt with
      | nil => rfl
      | @cons t c ts cs h _ ih =>
        have hcc := hc c (by simp)
        simp only [List.map_cons]
        rw [ih (fun c hc' => hc c (by simp [hc'])), split_join '|', map_padded space t c h hcc.2]
        · rintro rfl
          cases h
          exact hcc.1 rfl
        · intro x hx
          obtain ⟨l, hlc, hp⟩ := forall2_left h x hx
          exact padded_mem space '|' hs.2.2 x l hp (hcc.2 l hlc).2.2.1
    · intro e
      rw [List.map_eq_nil_iff] at e
      subst e
      cases hqt
      exact hq rfl
    · intro x hx
      rw [List.mem_map] at hx
      obtain ⟨t, ht, rfl⟩ := hx
      obtain ⟨c, hcq, hp⟩ := forall2_left hqt t ht
      apply join_mem '|' '&' (by decide)
      intro y hy
      obtain ⟨l, hlc, hp'⟩ := forall2_left hp y hy
      exact padded_mem space '&' hs.2.1 y l hp' ((hc c hcq).2 l hlc).2.1
  rw [h1, h2]
  exact isSubsetOf_iff query base

/-- Spaces around the labels of ` a | b &c` and `c , a`. -/
example : isSubsetOf (fromQuery (· == ' ') " a | b &c".toList) (fromBase (· == ' ') "c , a".toList) = true := by
  decide +kernel

example : Padded (· == ' ') " a ".toList "a".toList := ⟨[' '], [' '], by decide, by decide, by decide⟩

theorem trim_nil (space : Char → Bool) : trim space [] = [] := rfl

/-- C128 (refuted: a query that demands nothing matches every point): the empty query demands the empty label, so it matches
no point with proper labels. -/
theorem C128_empty_query_refuted (space : Char → Bool) (base : List Str) (hb : base ≠ []) (hl : ∀ l ∈ base, Label space l)
    (hne : ∀ l ∈ base, l ≠ []) : isSubsetOf (fromQuery space []) (fromBase space (join ',' base)) = false := by
  have := C128_matches space [[[]]] base (by simp) (by
    intro c hc
    simp only [List.mem_singleton] at hc
    subst hc
    refine ⟨by simp, fun l hl => ?_⟩
    simp only [List.mem_singleton] at hl
    subst hl
    exact ⟨by simp, by simp, by simp, by simp, by simp⟩) hb hl
  have he : join '&' (List.map (join '|') [[[]]]) = [] := rfl
  rw [he] at this
  rw [← Bool.not_eq_true, this]
  intro h
  obtain ⟨l, h1, h2⟩ := h [[]] (by simp)
  simp only [List.mem_singleton] at h1
  subst h1
  exact hne [] h2 rfl

/-! ## Concrete cases -/

def exRand : Rand := ⟨fun i j => (i + j) % 2 == 0, fun i => i % 3, [2, 3, 1]⟩

/-- Three points and three labels. -/
example : readFile (generate exRand .random 3 3).2 = some [[2], [1, 3], [2]] ∧
    readFile (generate exRand .zipf 3 3).2 = some [[2], [1], [0]] ∧
    readFile (generate exRand .onePerPoint 3 3).2 = some [[0], [1], [2]] := by
  decide +kernel

example : exRand.order.Perm (List.range' 1 3) := by decide

example : ∀ i, exRand.pick i < 3 := fun i => Nat.mod_lt _ (by decide)

/-- `a|b&c` matches `b,c` and not `a,b`. -/
example : isSubsetOf (fromQuery (· == ' ') "a|b&c".toList) (fromBase (· == ' ') "b,c".toList) = true ∧
    isSubsetOf (fromQuery (· == ' ') "a|b&c".toList) (fromBase (· == ' ') "a,b".toList) = false := by
  decide +kernel

example : Label (· == ' ') "CAT=a b".toList := by
  unfold Label
  decide +kernel

end Verif.Tools.LabelGen
