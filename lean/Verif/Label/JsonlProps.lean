import Verif.Label.JsonlModel
import Mathlib.Data.List.Basic
import Mathlib.Data.List.Forall2

/-!
# Reading JSONL files of labels, queries and ground truth: theorems
-/

namespace Verif.Label.Jsonl

/-! ## Specification -/

/-- A line with its end, written in the Unix or the Windows manner. -/
def ended (windows : Bool) (l : List Nat) : List Nat := l ++ if windows then [13, 10] else [10]

/-- A line that can be read back: no newline in it, and with a Unix end no carriage return at its end. -/
def Plain (windows : Bool) (l : List Nat) : Prop := 10 ∉ l ∧ (windows = false → l.getLast? ≠ some 13)

/-- All lines are UTF-8 and parse to the values, in order. -/
def Parses {α E : Type} (utf8 : List Nat → Bool) (parse : List Nat → Except E α) (ls : List (List Nat)) (as : List α) : Prop :=
  List.Forall₂ (fun l a => utf8 l = true ∧ parse l = .ok a) ls as

/-! ## Lemmas -/

theorem rawLines_cons (b : Nat) (bs : List Nat) : rawLines (b :: bs) = if b = 10 then [10] :: rawLines bs
    else match rawLines bs with | [] => [[b]] | l :: ls => (b :: l) :: ls := rfl

theorem rawLines_line (l rest : List Nat) (h : 10 ∉ l) : rawLines (l ++ 10 :: rest) = (l ++ [10]) :: rawLines rest := by
  induction l with
  | nil => simp [rawLines]
  | cons b l ih =>
    have hb : b ≠ 10 := fun e => h (by simp [e])
    rw [List.cons_append, rawLines_cons, if_neg hb, ih (fun c => h (by simp [c]))]
    rfl

theorem rawLines_last (l : List Nat) (hne : l ≠ []) (h : 10 ∉ l) : rawLines l = [l] := by
  induction l with
  | nil => exact absurd rfl hne
  | cons b l ih =>
    have hb : b ≠ 10 := fun e => h (by simp [e])
    rw [rawLines_cons, if_neg hb]
    cases l with
    | nil => simp [rawLines]
    | cons c l =>
      rw [ih (by simp) (fun c => h (by simp [c]))]

theorem strip_ended (windows : Bool) (l : List Nat) (h : Plain windows l) : strip (ended windows l) = l := by
  unfold strip ended
  cases windows with
  | true =>
    have e : l ++ [13, 10] = (l ++ [13]) ++ [10] := by simp
    simp only [if_true]
    rw [e]
    simp
  | false =>
    simp only [Bool.false_eq_true, if_false]
    have := h.2 rfl
    simp [this]

theorem strip_plain (l : List Nat) (h : 10 ∉ l) : strip l = l := by
  unfold strip
  rw [if_neg]
  intro hc
  exact h (List.mem_of_getLast? hc)

theorem rawLines_ended (windows : Bool) (l rest : List Nat) (h : 10 ∉ l) :
    rawLines (ended windows l ++ rest) = ended windows l :: rawLines rest := by
  unfold ended
  cases windows with
  | true =>
    simp only [if_true]
    have e : l ++ [13, 10] ++ rest = (l ++ [13]) ++ 10 :: rest := by simp
    rw [e, rawLines_line _ _ (by simp [h])]
    simp
  | false =>
    simp only [Bool.false_eq_true, if_false]
    have e : l ++ [10] ++ rest = l ++ 10 :: rest := by simp
    rw [e, rawLines_line _ _ h]

section

variable {α E F : Type} {utf8 : List Nat → Bool} {parse : List Nat → Except E α}

theorem readLoop_ok (err : Nat → E → Err E F) (k : Nat) (ls : List (List Nat)) (as : List α) :
    readLoop utf8 parse err k ls = .ok as ↔ Parses utf8 parse ls as := by
  induction ls generalizing k as with
  | nil =>
    simp only [readLoop, Parses, List.forall₂_nil_left_iff, Except.ok.injEq]
    exact eq_comm
  | cons l ls ih =>
    unfold readLoop Parses
    rw [List.forall₂_cons_left_iff]
    by_cases hu : utf8 l = false
    · rw [if_pos hu]
      simp [hu]
    · rw [if_neg hu]
      have hu' : utf8 l = true := by simpa using hu
      cases hp : parse l with
      | error e => simp
      | ok a =>
        simp only
        cases hr : readLoop utf8 parse err (k + 1) ls with
        | error e =>
          simp only [reduceCtorEq, false_iff]
          rintro ⟨b, bs, _, h2, _⟩
          have := (ih (k + 1) bs).2 h2
          rw [hr] at this
          exact absurd this (by simp)
        | ok bs =>
          have h2 := (ih (k + 1) bs).1 hr
          simp only [Except.ok.injEq]
          constructor
          · rintro rfl
            exact ⟨a, bs, ⟨hu', rfl⟩, h2, rfl⟩
          · rintro ⟨b, cs, ⟨_, h3⟩, h4, rfl⟩
            have := (ih (k + 1) cs).2 h4
            rw [hr] at this
            cases this
            rw [h3]

theorem readLoop_err (err : Nat → E → Err E F) (k : Nat) (ls : List (List Nat)) (r : Err E F) :
    readLoop utf8 parse err k ls = .error r ↔ ∃ before l after as, ls = before ++ l :: after ∧ Parses utf8 parse before as ∧
      ((utf8 l = false ∧ r = .io) ∨ (utf8 l = true ∧ ∃ e, parse l = .error e ∧ r = err (k + before.length + 1) e)) := by
  induction ls generalizing k with
  | nil => simp [readLoop]
  | cons l ls ih =>
    unfold readLoop
    by_cases hu : utf8 l = false
    · rw [if_pos hu]
      simp only [Except.error.injEq]
      constructor
      · rintro rfl
        exact ⟨[], l, ls, [], rfl, List.Forall₂.nil, Or.inl ⟨hu, rfl⟩⟩
      · rintro ⟨before, x, after, as, h1, h2, h3⟩
        cases before with
        | nil =>
          simp only [List.nil_append, List.cons.injEq] at h1
          obtain ⟨rfl, rfl⟩ := h1
          rcases h3 with h3 | h3
          · exact h3.2.symm
          · exact absurd h3.1 (by simp [hu])
        | cons b bs =>
          simp only [List.cons_append, List.cons.injEq] at h1
          obtain ⟨rfl, rfl⟩ := h1
          cases h2 with
          | cons h _ => exact absurd h.1 (by simp [hu])
    · rw [if_neg hu]
      have hu' : utf8 l = true := by simpa using hu
      cases hp : parse l with
      | error e =>
        simp only [Except.error.injEq]
        constructor
        · rintro rfl
          exact ⟨[], l, ls, [], rfl, List.Forall₂.nil, Or.inr ⟨hu', e, hp, by simp⟩⟩
        · rintro ⟨before, x, after, as, h1, h2, h3⟩
          cases before with
          | nil =>
            simp only [List.nil_append, List.cons.injEq] at h1
            obtain ⟨rfl, rfl⟩ := h1
            rcases h3 with h3 | ⟨_, e', h4, h5⟩
            · exact absurd h3.1 (by simp [hu'])
            · rw [hp] at h4
              cases h4
              rw [h5]
              simp
          | cons b bs =>
            simp only [List.cons_append, List.cons.injEq] at h1
            obtain ⟨rfl, rfl⟩ := h1
            cases h2 with
            | cons h _ => exact absurd h.2 (by simp [hp])
      | ok a =>
        simp only
        have hih := ih (k + 1)
        cases hr : readLoop utf8 parse err (k + 1) ls with
        | ok as =>
          rw [hr] at hih
          simp only [reduceCtorEq, false_iff] at hih ⊢
          rintro ⟨before, x, after, as, h1, h2, h3⟩
          cases before with
          | nil =>
            simp only [List.nil_append, List.cons.injEq] at h1
            obtain ⟨rfl, rfl⟩ := h1
            rcases h3 with h3 | ⟨_, e', h4, h5⟩
            · exact absurd h3.1 (by simp [hu'])
            · exact absurd h4 (by simp [hp])
          | cons b bs =>
            simp only [List.cons_append, List.cons.injEq] at h1
            obtain ⟨rfl, rfl⟩ := h1
            cases h2 with
            | cons h h' =>
              refine hih ⟨bs, x, after, _, rfl, h', ?_⟩
              rcases h3 with h3 | ⟨h4, e', h5, h6⟩
              · exact Or.inl h3
              · exact Or.inr ⟨h4, e', h5, by rw [h6]; congr 1; simp; omega⟩
        | error e =>
          rw [hr] at hih
          simp only [Except.error.injEq] at hih ⊢
          rw [hih]
          constructor
          · rintro ⟨before, x, after, as, h1, h2, h3⟩
            refine ⟨l :: before, x, after, a :: as, by rw [h1]; rfl, List.Forall₂.cons ⟨hu', hp⟩ h2, ?_⟩
            rcases h3 with h3 | ⟨h4, e', h5, h6⟩
            · exact Or.inl h3
            · exact Or.inr ⟨h4, e', h5, by rw [h6]; congr 1; simp; omega⟩
          · rintro ⟨before, x, after, as, h1, h2, h3⟩
            cases before with
            | nil =>
              simp only [List.nil_append, List.cons.injEq] at h1
              obtain ⟨rfl, rfl⟩ := h1
              rcases h3 with h3 | ⟨_, e', h4, h5⟩
              · exact absurd h3.1 (by simp [hu'])
              · exact absurd h4 (by simp [hp])
            | cons b bs =>
              simp only [List.cons_append, List.cons.injEq] at h1
              obtain ⟨rfl, rfl⟩ := h1
              cases h2 with
              | cons h h' =>
                refine ⟨bs, x, after, _, rfl, h', ?_⟩
                rcases h3 with h3 | ⟨h4, e', h5, h6⟩
                · exact Or.inl h3
                · exact Or.inr ⟨h4, e', h5, by rw [h6]; congr 1; simp; omega⟩

end

/-! ## Theorems -/

/-- C134: a file of lines, each with a Unix or a Windows end, and the last with an end or without, is read as these lines. -/
theorem C134_lines (ls : List (Bool × List Nat)) (h : ∀ l ∈ ls, Plain l.1 l.2) (last : List Nat) (hl : 10 ∉ last) :
    lines ((ls.map (fun l => ended l.1 l.2)).flatten ++ last) = ls.map Prod.snd ++ if last = [] then [] else [last] := by
  unfold lines
  induction ls with
  | nil =>
    by_cases hn : last = []
    · subst hn
      rfl
    · simp only [List.map_nil, List.flatten_nil, List.nil_append]
      rw [rawLines_last last hn hl, if_neg hn, List.map_singleton, strip_plain last hl]
  | cons l ls ih =>
    have hp := h l (by simp)
    rw [List.map_cons, List.flatten_cons, List.append_assoc, rawLines_ended _ _ _ hp.1, List.map_cons, strip_ended _ _ hp,
      ih (fun x hx => h x (by simp [hx]))]
    rfl

section

variable {α E F : Type} (utf8 : List Nat → Bool) (parse : List Nat → Except E α)

/-- C134: labels and queries are read exactly if every line is UTF-8 and parses; the values are those of the lines in order. -/
theorem C134_read (file : List Nat) (as : List α) :
    readAll (F := F) utf8 parse file = .ok as ↔ Parses utf8 parse (lines file) as := readLoop_ok _ _ _ _

/-- C134: the error is that of the first line that is not UTF-8 or does not parse, with its number from one. -/
theorem C134_first_error (file : List Nat) (r : Err E F) :
    readAll utf8 parse file = .error r ↔ ∃ before l after as, lines file = before ++ l :: after ∧ Parses utf8 parse before as ∧
      ((utf8 l = false ∧ r = .io) ∨ (utf8 l = true ∧ ∃ e, parse l = .error e ∧ r = .line (before.length + 1) e)) := by
  unfold readAll
  rw [readLoop_err]
  simp

/-- C134: a blank line anywhere, also the last one, is an error if the parser refuses the empty text. -/
theorem C134_blank (file : List Nat) (h : [] ∈ lines file) (e : E) (hp : parse [] = .error e) :
    ∃ r, readAll (F := F) utf8 parse file = .error r := by
  cases hr : readAll (F := F) utf8 parse file with
  | error r => exact ⟨r, rfl⟩
  | ok as =>
    exfalso
    have hf := (C134_read utf8 parse file as).1 hr
    have : ∀ (ls : List (List Nat)) (as : List α), Parses utf8 parse ls as → [] ∉ ls := by
      intro ls
      induction ls with
      | nil => intro _ _; simp
      | cons l ls ih =>
        intro as h
        cases h with
        | cons h1 h2 =>
          rintro hm
          rcases List.mem_cons.1 hm with rfl | hm
          · rw [hp] at h1
            exact absurd h1.2 (by simp)
          · exact ih _ h2 hm
    exact this _ _ hf h

/-- C134: ground truth is read exactly if there is a first line that parses as metadata and the others parse as results. -/
theorem C134_ground_truth {μ : Type} (parseMeta : List Nat → Except E μ) (file : List Nat) (m : μ) (rs : List α) :
    readGroundTruth (F := F) utf8 parse parseMeta file = .ok (m, rs) ↔ ∃ first rest, lines file = first :: rest ∧
      utf8 first = true ∧ parseMeta first = .ok m ∧ Parses utf8 parse rest rs := by
  unfold readGroundTruth
  cases hl : lines file with
  | nil => simp
  | cons first rest =>
    simp only [List.cons.injEq]
    by_cases hu : utf8 first = false
    · rw [if_pos hu]
      simp only [reduceCtorEq, false_iff]
      rintro ⟨a, b, ⟨rfl, rfl⟩, h, _⟩
      exact absurd h (by simp [hu])
    · rw [if_neg hu]
      have hu' : utf8 first = true := by simpa using hu
      cases hp : parseMeta first with
      | error e =>
        simp only [reduceCtorEq, false_iff]
        rintro ⟨a, b, ⟨rfl, rfl⟩, _, h, _⟩
        exact absurd h (by simp [hp])
      | ok m' =>
        simp only
        have hok := fun as => readLoop_ok (utf8 := utf8) (parse := parse) (Err.result (E := E) (F := F)) 0 rest as
        cases hr : readLoop utf8 parse (Err.result (E := E) (F := F)) 0 rest with
        | error e =>
          simp only [reduceCtorEq, false_iff]
          rintro ⟨a, b, ⟨rfl, rfl⟩, _, _, h⟩
          have := (hok rs).2 h
          rw [hr] at this
          exact absurd this (by simp)
        | ok as =>
          simp only [Except.ok.injEq, Prod.mk.injEq]
          constructor
          · rintro ⟨rfl, rfl⟩
            exact ⟨first, rest, ⟨rfl, rfl⟩, hu', hp, (hok as).1 hr⟩
          · rintro ⟨a, b, ⟨rfl, rfl⟩, _, h1, h2⟩
            have := (hok rs).2 h2
            rw [hr] at this
            cases this
            rw [hp] at h1
            cases h1
            exact ⟨rfl, rfl⟩

/-- C134: the errors of ground truth: no line at all; a first line that is no metadata; else the first line after it that is no
result, counted from one after the metadata. -/
theorem C134_ground_truth_errors {μ : Type} (parseMeta : List Nat → Except E μ) (file : List Nat) :
    (lines file = [] → readGroundTruth (F := F) utf8 parse parseMeta file = .error .empty) ∧
    ∀ first rest, lines file = first :: rest →
      (utf8 first = false → readGroundTruth (F := F) utf8 parse parseMeta file = .error .io) ∧
      (∀ e, utf8 first = true → parseMeta first = .error e →
        readGroundTruth (F := F) utf8 parse parseMeta file = .error (.metadata e)) ∧
      (∀ m before l after as e, utf8 first = true → parseMeta first = .ok m → rest = before ++ l :: after →
        Parses utf8 parse before as → utf8 l = true → parse l = .error e →
        readGroundTruth (F := F) utf8 parse parseMeta file = .error (.result (before.length + 1) e)) := by
  unfold readGroundTruth
  refine ⟨fun h => by rw [h], fun first rest h => ⟨fun hu => by rw [h]; simp only; rw [if_pos hu], fun e hu hp => ?_,
    fun m before l after as e hu hp hr hb hl he => ?_⟩⟩
  · rw [h]
    simp only
    rw [if_neg (by simp [hu]), hp]
  · rw [h]
    simp only
    rw [if_neg (by simp [hu]), hp]
    simp only
    rw [(readLoop_err (Err.result (E := E) (F := F)) 0 rest (.result (before.length + 1) e)).2
      ⟨before, l, after, as, hr, hb, Or.inr ⟨hl, e, he, by simp⟩⟩]

/-- C134 (refuted: the number of queries in the metadata is that of the results): a file with its metadata only is accepted,
whatever number it announces. -/
theorem C134_count_refuted {μ : Type} (parseMeta : List Nat → Except E μ) (first : List Nat) (m : μ) (h : Plain false first)
    (hu : utf8 first = true) (hm : parseMeta first = .ok m) :
    readGroundTruth (F := F) utf8 parse parseMeta (first ++ [10]) = .ok (m, []) := by
  rw [C134_ground_truth]
  refine ⟨first, [], ?_, hu, hm, List.Forall₂.nil⟩
  have := C134_lines [(false, first)] (by simpa using h) [] (by simp)
  simpa [ended] using this

end

/-- C134: queries with filters are read exactly if all lines parse and all filters do; the results keep the ids and the order. A
line that does not parse is reported before any filter; else the error names the first query whose filter does not parse. -/
theorem C134_queries {E F φ ξ : Type} (utf8 : List Nat → Bool) (parse : List Nat → Except E (Nat × φ))
    (parseFilter : φ → Except F ξ) (file : List Nat) :
    (∀ r, readAll (F := F) utf8 parse file = .error r → readAndParse utf8 parse parseFilter file = .error r) ∧
    ∀ qs, readAll (F := F) utf8 parse file = .ok qs →
      (∀ xs, readAndParse utf8 parse parseFilter file = .ok xs ↔
        List.Forall₂ (fun q x => x.1 = q.1 ∧ parseFilter q.2 = .ok x.2) qs xs) ∧
      ∀ r, readAndParse utf8 parse parseFilter file = .error r ↔ ∃ before q after e, qs = before ++ q :: after ∧
        (∀ b ∈ before, ∃ x, parseFilter b.2 = .ok x) ∧ parseFilter q.2 = .error e ∧ r = .filter q.1 e := by
  refine ⟨fun r h => by unfold readAndParse; rw [h], fun qs h => ?_⟩
  have he : readAndParse utf8 parse parseFilter file = parseLoop (E := E) parseFilter qs := by
    unfold readAndParse
    rw [h]
  rw [he]
  clear he h
  constructor
  · intro xs
    induction qs generalizing xs with
    | nil =>
      simp only [parseLoop, Except.ok.injEq, List.forall₂_nil_left_iff]
      exact eq_comm
    | cons q qs ih =>
      obtain ⟨id, f⟩ := q
      unfold parseLoop
      rw [List.forall₂_cons_left_iff]
      cases hp : parseFilter f with
      | error e => simp [hp]
      | ok x =>
        simp only
        cases hr : parseLoop (E := E) parseFilter qs with
        | error e =>
          simp only [reduceCtorEq, false_iff]
          rintro ⟨b, bs, _, h2, _⟩
          have := (ih bs).2 h2
          rw [hr] at this
          exact absurd this (by simp)
        | ok ys =>
          simp only [Except.ok.injEq]
          constructor
          · rintro rfl
            exact ⟨(id, x), ys, ⟨rfl, rfl⟩, (ih ys).1 hr, rfl⟩
          · rintro ⟨⟨b1, b2⟩, bs, ⟨h1, h2⟩, h3, rfl⟩
            have := (ih bs).2 h3
            rw [hr] at this
            cases this
            simp only at h1 h2
            subst h2
            rw [h1]
  · intro r
    induction qs with
    | nil => simp [parseLoop]
    | cons q qs ih =>
      obtain ⟨id, f⟩ := q
      unfold parseLoop
      cases hp : parseFilter f with
      | error e =>
        simp only [Except.error.injEq]
        constructor
        · rintro rfl
          exact ⟨[], (id, f), qs, e, rfl, by simp, hp, rfl⟩
        · rintro ⟨before, q, after, e', h1, h2, h3, h4⟩
          cases before with
          | nil =>
            simp only [List.nil_append, List.cons.injEq] at h1
            obtain ⟨rfl, rfl⟩ := h1
            simp only at h3
            rw [hp] at h3
            cases h3
            exact h4.symm
          | cons b bs =>
            simp only [List.cons_append, List.cons.injEq] at h1
            obtain ⟨rfl, rfl⟩ := h1
            obtain ⟨x, hx⟩ := h2 (id, f) (by simp)
            simp only at hx
            rw [hp] at hx
            exact absurd hx (by simp)
      | ok x =>
        simp only
        have hiff : (∃ before q after e, (id, f) :: qs = before ++ q :: after ∧
              (∀ b ∈ before, ∃ x, parseFilter b.2 = .ok x) ∧ parseFilter q.2 = .error e ∧ r = Err.filter (E := E) q.1 e) ↔
            ∃ before q after e, qs = before ++ q :: after ∧
              (∀ b ∈ before, ∃ x, parseFilter b.2 = .ok x) ∧ parseFilter q.2 = .error e ∧ r = Err.filter (E := E) q.1 e := by
          constructor
          · rintro ⟨before, q, after, e', h1, h2, h3, h4⟩
            cases before with
            | nil =>
              simp only [List.nil_append, List.cons.injEq] at h1
              obtain ⟨rfl, rfl⟩ := h1
              simp only at h3
              rw [hp] at h3
              exact absurd h3 (by simp)
            | cons b bs =>
              simp only [List.cons_append, List.cons.injEq] at h1
              obtain ⟨rfl, rfl⟩ := h1
              exact ⟨bs, q, after, e', rfl, fun c hc => h2 c (by simp [hc]), h3, h4⟩
          · rintro ⟨before, q, after, e', h1, h2, h3, h4⟩
            refine ⟨(id, f) :: before, q, after, e', by rw [h1]; rfl, fun c hc => ?_, h3, h4⟩
            rcases List.mem_cons.1 hc with rfl | hc
            · exact ⟨x, hp⟩
            · exact h2 c hc
        rw [hiff, ← ih]
        cases parseLoop (E := E) parseFilter qs <;> simp

/-! ## Concrete cases -/

/-- A parser: one digit. -/
def exParse (l : List Nat) : Except Unit Nat :=
  match l with
  | [d] => if 48 ≤ d ∧ d < 58 then .ok (d - 48) else .error ()
  | _ => .error ()

example : readAll (F := Unit) (fun _ => true) exParse [49, 13, 10, 50, 10, 51] = .ok [1, 2, 3] ∧
    readAll (F := Unit) (fun _ => true) exParse [49, 10, 50, 10] = .ok [1, 2] ∧
    readAll (F := Unit) (fun _ => true) exParse [49, 10, 10, 50, 10] = .error (.line 2 ()) ∧
    readGroundTruth (F := Unit) (fun _ => true) exParse exParse [49, 10, 50, 10, 65] = .error (.result 2 ()) ∧
    readGroundTruth (F := Unit) (fun _ => true) exParse exParse [55, 10, 50] = .ok (7, [2]) := by decide +kernel

example : readAndParse (E := Unit) (F := Nat) (fun _ => true) (fun l => (exParse l).map (fun d => (d, d)))
    (fun d => if d < 5 then .ok (10 * d) else .error d) [49, 10, 55, 10, 51] = .error (.filter 7 7) := by decide +kernel

end Verif.Label.Jsonl
