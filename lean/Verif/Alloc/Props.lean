import Verif.Alloc.Model
import Mathlib.Data.Nat.Bitwise
/-
C111: memory from the allocators is aligned, inside its buffer and not shared; values are dropped once.
-/
namespace Verif.Alloc

/-! ### Arithmetic -/

theorem argMod_eq (k lhs : Nat) : argMod (2 ^ k) lhs = lhs % 2 ^ k := Nat.and_two_pow_sub_one_eq_mod lhs k

theorem align_spec (k lhs : Nat) :
    (lhs + alignOffset (2 ^ k) lhs) % 2 ^ k = 0 ∧ alignOffset (2 ^ k) lhs < 2 ^ k := by
  have hp : 0 < 2 ^ k := Nat.two_pow_pos k
  unfold alignOffset
  simp only [argMod_eq]
  have hlt := Nat.mod_lt lhs hp
  split
  · rename_i h
    exact ⟨by simpa using h, hp⟩
  · rename_i h
    refine ⟨?_, by omega⟩
    have h1 := Nat.div_add_mod lhs (2 ^ k)
    have h2 : lhs + (2 ^ k - lhs % 2 ^ k) = 2 ^ k * (lhs / 2 ^ k) + 2 ^ k := by omega
    rw [h2]
    simp

/-- Rounding up keeps the order. -/
theorem align_mono (k : Nat) {x y : Nat} (h : x ≤ y) : x + alignOffset (2 ^ k) x ≤ y + alignOffset (2 ^ k) y := by
  have hp : 0 < 2 ^ k := Nat.two_pow_pos k
  obtain ⟨hx, hxl⟩ := align_spec k x
  obtain ⟨hy, _⟩ := align_spec k y
  by_contra hc
  obtain ⟨u, hu⟩ := Nat.dvd_of_mod_eq_zero hx
  obtain ⟨v, hv⟩ := Nat.dvd_of_mod_eq_zero hy
  have h1 : v < u := by
    by_contra h2
    have : 2 ^ k * u ≤ 2 ^ k * v := Nat.mul_le_mul_left _ (by omega)
    omega
  have h2 : 2 ^ k * (v + 1) ≤ 2 ^ k * u := Nat.mul_le_mul_left _ h1
  rw [Nat.mul_succ] at h2
  omega

/-- Rounding up finds the next multiple. -/
theorem C111_next_multiple (k lhs : Nat) :
    (∀ x, nextMultiple (2 ^ k) lhs = some x → x % 2 ^ k = 0 ∧ lhs ≤ x ∧ x < word ∧
      ∀ y, lhs ≤ y → y % 2 ^ k = 0 → x ≤ y) ∧
    (nextMultiple (2 ^ k) lhs = none → ∀ y, lhs ≤ y → y % 2 ^ k = 0 → word ≤ y) := by
  obtain ⟨h1, h2⟩ := align_spec k lhs
  have least : ∀ y, lhs ≤ y → y % 2 ^ k = 0 → lhs + alignOffset (2 ^ k) lhs ≤ y := by
    intro y hy hm
    have := align_mono k hy
    have h0 : alignOffset (2 ^ k) y = 0 := by
      unfold alignOffset
      simp only [argMod_eq, hm, if_pos]
    omega
  constructor
  · intro x hx
    unfold nextMultiple at hx
    simp only at hx
    split at hx
    · cases hx
      exact ⟨h1, by omega, by assumption, least⟩
    · cases hx
  · intro hn y hy hm
    unfold nextMultiple at hn
    simp only at hn
    split at hn
    · cases hn
    · have := least y hy hm
      omega

/-! ### The bump allocator -/

theorem computeNext_some {base cap head n : Nat} {l : Layout} (h : computeNext base cap head l = some n) :
    n = head + alignOffset l.align (base + head) + l.size ∧ n ≤ cap := by
  unfold computeNext next nextMultiple at h
  simp only at h
  split at h
  · cases h
  · rename_i x hx
    split at hx
    · cases hx
    · rename_i y hy
      split at hy
      · cases hy
        split at hx
        · cases hx
          split at h
          · cases h
          · cases h
            refine ⟨by omega, by omega⟩
        · cases hx
      · cases hy

/-- Whether a request fits behind a head. -/
def Fits (base cap head : Nat) (l : Layout) : Prop := head + alignOffset l.align (base + head) + l.size ≤ cap

theorem computeNext_none {base cap head : Nat} {l : Layout} (hw : base + cap < word)
    (h : computeNext base cap head l = none) : ¬ Fits base cap head l := by
  unfold Fits
  intro hf
  unfold computeNext next nextMultiple at h
  simp only at h
  rw [if_pos (by omega)] at h
  simp only at h
  rw [if_pos (by omega)] at h
  simp only at h
  rw [if_neg (by omega)] at h
  cases h

/-- The alignment of a layout is a power of two. -/
def Valid (l : Layout) : Prop := ∃ k, l.align = 2 ^ k

theorem fits_mono {base cap h1 h2 : Nat} {l : Layout} (hv : Valid l) (h : h1 ≤ h2) (hf : Fits base cap h2 l) :
    Fits base cap h1 l := by
  obtain ⟨k, hk⟩ := hv
  unfold Fits at *
  rw [hk] at hf ⊢
  have := align_mono k (x := base + h1) (y := base + h2) (by omega)
  omega

/-- What a call knows. -/
def CallOk (base cap head : Nat) (c : Call) : Prop :=
  Valid c.layout ∧
  match c.pc with
  | .load => True
  | .cas old new => old ≤ head ∧ new = old + alignOffset c.layout.align (base + old) + c.layout.size ∧ new ≤ cap
  | .ok p => base ≤ p ∧ p + c.layout.size ≤ base + head ∧ p % c.layout.align = 0
  | .err => ¬ Fits base cap head c.layout

/-- Two calls got different memory. -/
def Apart (c d : Call) : Prop :=
  ∀ p q, c.pc = .ok p → d.pc = .ok q → p + c.layout.size ≤ q ∨ q + d.layout.size ≤ p

/-- The invariant. -/
structure Inv (base cap : Nat) (s : State) : Prop where
  head : s.head ≤ cap
  calls : ∀ c ∈ s.calls, CallOk base cap s.head c
  apart : ∀ (i j : Nat) (c d : Call), i ≠ j → s.calls[i]? = some c → s.calls[j]? = some d → Apart c d

theorem callOk_mono {base cap h1 h2 : Nat} {c : Call} (h : h1 ≤ h2) (hc : CallOk base cap h1 c) : CallOk base cap h2 c := by
  obtain ⟨hv, hc⟩ := hc
  refine ⟨hv, ?_⟩
  cases hp : c.pc with
  | load => trivial
  | cas old new => rw [hp] at hc; exact ⟨by have := hc.1; omega, hc.2⟩
  | ok p => rw [hp] at hc; exact ⟨hc.1, by have := hc.2.1; omega, hc.2.2⟩
  | err => rw [hp] at hc; exact fun hf => hc (fits_mono hv h hf)

theorem tryAt_ok {base cap head : Nat} {l : Layout} (hw : base + cap < word) (hv : Valid l) :
    CallOk base cap head ⟨l, tryAt base cap head l⟩ ∧ ∀ p, tryAt base cap head l ≠ .ok p := by
  unfold tryAt
  cases hc : computeNext base cap head l with
  | none => exact ⟨⟨hv, computeNext_none hw hc⟩, by simp⟩
  | some n => exact ⟨⟨hv, Nat.le_refl _, computeNext_some hc⟩, by simp⟩

theorem stepCall_ok {base cap head : Nat} {c : Call} (hw : base + cap < word) (hh : head ≤ cap)
    (hc : CallOk base cap head c) :
    head ≤ (stepCall base cap head c).1 ∧ (stepCall base cap head c).1 ≤ cap ∧
    CallOk base cap (stepCall base cap head c).1 (stepCall base cap head c).2 ∧
    (stepCall base cap head c).2.layout = c.layout ∧
    ∀ p, (stepCall base cap head c).2.pc = .ok p → c.pc = .ok p ∨ base + head ≤ p := by
  obtain ⟨hv, hp⟩ := hc
  cases hpc : c.pc with
  | load =>
    have h := tryAt_ok (head := head) hw hv
    simp only [stepCall, hpc]
    exact ⟨Nat.le_refl _, hh, h.1, trivial, fun p hx => absurd hx (h.2 p)⟩
  | cas old new =>
    rw [hpc] at hp
    obtain ⟨h1, h2, h3⟩ := hp
    simp only [stepCall, hpc]
    by_cases he : head = old
    · rw [if_pos he]
      obtain ⟨k, hk⟩ := hv
      have hsp := align_spec k (base + old)
      rw [← hk] at hsp
      refine ⟨by simp only; omega, h3, ⟨⟨k, hk⟩, ?_⟩, rfl, ?_⟩
      · exact ⟨by omega, by simp only; omega, hsp.1⟩
      · intro p hx
        cases hx
        right
        omega
    · rw [if_neg he]
      have h := tryAt_ok (head := head) hw hv
      exact ⟨Nat.le_refl _, hh, h.1, rfl, fun p hx => absurd hx (h.2 p)⟩
  | ok p =>
    rw [hpc] at hp
    simp only [stepCall, hpc]
    exact ⟨Nat.le_refl _, hh, ⟨hv, hp⟩, trivial, fun q hx => .inl hx⟩
  | err =>
    rw [hpc] at hp
    simp only [stepCall, hpc]
    exact ⟨Nat.le_refl _, hh, ⟨hv, hp⟩, trivial, fun q hx => .inl hx⟩

/-- Layouts in a history are valid. -/
def ValidEvents (es : List Event) : Prop := ∀ l, Event.call l ∈ es → Valid l

theorem inv_step {base cap : Nat} {s : State} (hw : base + cap < word) (h : Inv base cap s) (e : Event)
    (hv : ∀ l, e = .call l → Valid l) : Inv base cap (step base cap s e) := by
  cases e with
  | call l =>
    refine ⟨h.head, ?_, ?_⟩
    · intro c hc
      rcases List.mem_append.1 hc with hc | hc
      · exact h.calls c hc
      · rw [List.mem_singleton.1 hc]
        exact ⟨hv l rfl, trivial⟩
    · have key : ∀ (i : Nat) (c : Call) p, (s.calls ++ [⟨l, .load⟩])[i]? = some c → c.pc = .ok p →
          s.calls[i]? = some c := by
        intro i c p hi hp
        rw [List.getElem?_append] at hi
        split at hi
        · exact hi
        · have := List.mem_of_getElem? hi
          rw [List.mem_singleton.1 this] at hp
          cases hp
      intro i j c d hij hi hj p q hp hq
      exact h.apart i j c d hij (key i c p hi hp) (key j d q hj hq) p q hp hq
  | run i =>
    show Inv base cap (match s.calls[i]? with | none => s | some c => _)
    cases hi : s.calls[i]? with
    | none => exact h
    | some c =>
      obtain ⟨g1, g2, g3, g4, g5⟩ := stepCall_ok hw h.head (h.calls c (List.mem_of_getElem? hi))
      show Inv base cap ⟨(stepCall base cap s.head c).1, s.calls.set i (stepCall base cap s.head c).2⟩
      refine ⟨g2, ?_, ?_⟩
      · intro d hd
        rcases List.mem_or_eq_of_mem_set hd with hd | rfl
        · exact callOk_mono g1 (h.calls d hd)
        · exact g3
      · have sym : ∀ (j : Nat) (d : Call) (p q : Nat), i ≠ j → s.calls[j]? = some d →
            (stepCall base cap s.head c).2.pc = .ok p → d.pc = .ok q →
            p + c.layout.size ≤ q ∨ q + d.layout.size ≤ p := by
          intro j d p q hij hj hp hq
          rcases g5 p hp with hp' | hp'
          · exact h.apart i j c d hij hi hj p q hp' hq
          · right
            have := (h.calls d (List.mem_of_getElem? hj)).2
            rw [hq] at this
            have := this.2.1
            omega
        intro a b c1 d1 hab ha hb p q hp hq
        rw [List.getElem?_set] at ha hb
        by_cases hia : i = a
        · subst hia
          rw [if_pos rfl] at ha
          rw [if_neg hab] at hb
          split at ha
          · cases ha
            rw [g4]
            exact sym b d1 p q hab hb hp hq
          · cases ha
        · rw [if_neg hia] at ha
          by_cases hib : i = b
          · subst hib
            rw [if_pos rfl] at hb
            split at hb
            · cases hb
              rw [g4]
              exact (sym a c1 q p (fun h => hab h.symm) ha hq hp).symm
            · cases hb
          · rw [if_neg hib] at hb
            exact h.apart a b c1 d1 hab ha hb p q hp hq

theorem inv_run {base cap : Nat} (hw : base + cap < word) (es : List Event) (hv : ValidEvents es) :
    Inv base cap (run base cap es) := by
  unfold run
  have h0 : Inv base cap init := ⟨Nat.zero_le _, by simp [init], by simp [init]⟩
  generalize init = s at h0
  induction es generalizing s with
  | nil => exact h0
  | cons e es ih =>
    exact ih (fun l hl => hv l (by simp [hl])) _ (inv_step hw h0 e fun l hl => hv l (by simp [hl]))

/-- In every interleaving of calls from any number of threads: each address that was handed out is aligned as asked,
its memory lies inside the buffer, and no two calls share memory. -/
theorem C111_bump (base cap : Nat) (hw : base + cap < word) (es : List Event) (hv : ValidEvents es) :
    (∀ c ∈ (run base cap es).calls, ∀ p, c.pc = .ok p →
      p % c.layout.align = 0 ∧ base ≤ p ∧ p + c.layout.size ≤ base + cap) ∧
    ∀ (i j : Nat) (c d : Call), i ≠ j → (run base cap es).calls[i]? = some c → (run base cap es).calls[j]? = some d →
      ∀ p q, c.pc = .ok p → d.pc = .ok q → p + c.layout.size ≤ q ∨ q + d.layout.size ≤ p := by
  have h := inv_run hw es hv
  refine ⟨?_, h.apart⟩
  intro c hc p hp
  have := (h.calls c hc).2
  rw [hp] at this
  exact ⟨this.2.2, this.1, by have := this.2.1; have := h.head; omega⟩

/-- Memory that was handed out stays with its call, whatever happens afterwards. -/
theorem C111_kept (base cap : Nat) (s : State) (e : Event) (i p : Nat) (l : Layout)
    (h : s.calls[i]? = some ⟨l, .ok p⟩) : (step base cap s e).calls[i]? = some ⟨l, .ok p⟩ := by
  have hlen : i < s.calls.length := by
    by_contra hc
    rw [List.getElem?_eq_none (by omega)] at h
    cases h
  cases e with
  | call l' =>
    show (s.calls ++ [_])[i]? = _
    rw [List.getElem?_append_left hlen]
    exact h
  | run j =>
    show (match s.calls[j]? with | none => s | some c => _ : State).calls[i]? = _
    cases hj : s.calls[j]? with
    | none => exact h
    | some c =>
      show (s.calls.set j (stepCall base cap s.head c).2)[i]? = _
      rw [List.getElem?_set]
      by_cases hji : j = i
      · subst hji
        rw [h] at hj
        cases hj
        rw [if_pos rfl, if_pos hlen]
        rfl
      · rw [if_neg hji]
        exact h

/-- A call fails only if there is no room: its request does not fit behind the head now (nor did it when it failed,
as the head only moves forward). -/
theorem C111_fails_only_full (base cap : Nat) (hw : base + cap < word) (es : List Event) (hv : ValidEvents es) :
    ∀ c ∈ (run base cap es).calls, c.pc = .err →
      ∀ p, base + (run base cap es).head ≤ p → p % c.layout.align = 0 → base + cap < p + c.layout.size := by
  intro c hc he p hp hm
  have h := inv_run hw es hv
  obtain ⟨⟨k, hk⟩, hf⟩ := h.calls c hc
  rw [he] at hf
  simp only [Fits, hk] at hf
  rw [hk] at hm
  have := align_mono k hp
  have h0 : alignOffset (2 ^ k) p = 0 := by
    unfold alignOffset
    simp only [argMod_eq, hm, if_pos]
  omega

/-- Calls do not hinder each other: an exchange fails only if another call got memory, or moved the head, meanwhile. -/
theorem C111_progress (base cap : Nat) (hw : base + cap < word) (es : List Event) (hv : ValidEvents es) (i : Nat)
    (l : Layout) (old new : Nat) (h : (run base cap es).calls[i]? = some ⟨l, .cas old new⟩) :
    (∃ p, (step base cap (run base cap es) (.run i)).calls[i]? = some ⟨l, .ok p⟩) ∨ old < (run base cap es).head := by
  have hinv := inv_run hw es hv
  have hlen : i < (run base cap es).calls.length := by
    by_contra hc
    rw [List.getElem?_eq_none (by omega)] at h
    cases h
  have hc := (hinv.calls _ (List.mem_of_getElem? h)).2
  by_cases he : (run base cap es).head = old
  · left
    refine ⟨base + old + alignOffset l.align (base + old), ?_⟩
    show (match (run base cap es).calls[i]? with | none => _ | some c => _ : State).calls[i]? = _
    rw [h]
    show ((run base cap es).calls.set i (stepCall base cap (run base cap es).head ⟨l, .cas old new⟩).2)[i]? = _
    rw [List.getElem?_set_self hlen]
    simp [stepCall, he]
  · right
    have := hc.1
    omega

example : ValidEvents [.call ⟨3, 1⟩, .call ⟨8, 8⟩, .run 0, .run 1, .run 0, .run 1, .run 1] := by
  intro l hl
  simp at hl
  rcases hl with rfl | rfl
  · exact ⟨0, rfl⟩
  · exact ⟨3, rfl⟩

/-- Two calls from two threads; the second one has to try again. -/
example : run 4096 128 [.call ⟨3, 1⟩, .call ⟨8, 8⟩, .run 0, .run 1, .run 0, .run 1, .run 1] =
    ⟨16, [⟨⟨3, 1⟩, .ok 4096⟩, ⟨⟨8, 8⟩, .ok 4104⟩]⟩ := by decide +kernel

example : run 4096 16 [.call ⟨9, 1⟩, .call ⟨8, 8⟩, .run 0, .run 0, .run 1] =
    ⟨9, [⟨⟨9, 1⟩, .ok 4096⟩, ⟨⟨8, 8⟩, .err⟩]⟩ := by decide +kernel

/-! ### The owning pointer -/

variable {V : Type} [DecidableEq V]

/-- How often a value is made and dropped, and how often memory is taken and given back. -/
def Balanced (es : List (Ev V)) : Prop :=
  (∀ v, es.count (.drop v) = es.count (.make v)) ∧ ∀ n, es.count (.free n) = es.count (.alloc n)

omit [DecidableEq V] in
theorem map_drop_count [DecidableEq (Ev V)] (xs : List V) (e : Ev V) (h : ∀ v, e ≠ .drop v) :
    (xs.map Ev.drop).count e = 0 := by
  rw [List.count_eq_zero]
  intro hm
  obtain ⟨v, _, hv⟩ := List.mem_map.1 hm
  exact h v hv.symm

omit [DecidableEq V] in
theorem map_make_count [DecidableEq (Ev V)] (xs : List V) (e : Ev V) (h : ∀ v, e ≠ .make v) :
    (xs.map Ev.make).count e = 0 := by
  rw [List.count_eq_zero]
  intro hm
  obtain ⟨v, _, hv⟩ := List.mem_map.1 hm
  exact h v hv.symm

theorem map_count (xs : List V) (v : V) : (xs.map Ev.drop).count (.drop v) = (xs.map Ev.make).count (.make v) := by
  induction xs with
  | nil => rfl
  | cons x xs ih =>
    simp only [List.map_cons, List.count_cons, ih]
    by_cases h : x = v <;> simp [h]

/-- A pointer to a value with a size drops it once and gives its memory back once, whether or not there is room. -/
theorem C111_new_partial (size : Nat) (v : V) (room : Bool) (h : size ≠ 0) : Balanced (life (polyNew size v room)) := by
  unfold life polyNew
  rw [if_neg h]
  cases room
  · simp [Balanced, List.count_cons]
  · simp [Balanced, polyDrop, List.count_cons, h]

/-- Refutation for values without size: a pointer to such a value drops it when it is made, and again when the
pointer is dropped. -/
theorem C111_new_refuted (v : V) (room : Bool) :
    (life (polyNew 0 v room)).count (.make v) = 1 ∧ (life (polyNew 0 v room)).count (.drop v) = 2 := by
  simp [life, polyNew, polyDrop, List.count_cons]

/-- A pointer that is made in place: all sizes, failing constructors and allocators. -/
theorem C111_new_with (size : Nat) (made : Option V) (room : Bool) : Balanced (life (polyNewWith size made room)) := by
  unfold life polyNewWith
  by_cases hr : size ≠ 0 ∧ room = false
  · rw [if_pos hr]
    simp [Balanced]
  · rw [if_neg hr]
    by_cases hs : size = 0
    · cases made <;> simp [Balanced, polyDrop, List.count_cons, hs]
    · cases made <;> simp [Balanced, polyDrop, List.count_cons, hs]

/-- A pointer to many values: all sizes and numbers of items, iterators that panic at any item, failing allocators:
every item that was made is dropped once, and memory that was taken is given back once. -/
theorem C111_from_iter (size : Nat) (items : List V) (panics : Option Nat) (room : Bool) :
    Balanced (life (polyFromIter size items panics room)) := by
  have whole : Balanced ((if size * items.length = 0 then [] else [Ev.alloc (size * items.length)]) ++ items.map .make ++
      polyDrop ⟨items, size * items.length⟩) := by
    unfold polyDrop
    constructor
    · intro v
      simp only [List.count_append]
      rw [map_make_count _ _ (by simp), map_drop_count _ (.make v) (by simp), map_count]
      split <;> simp [List.count_cons]
    · intro n
      simp only [List.count_append]
      rw [map_make_count _ _ (by simp), map_drop_count _ _ (by simp), map_make_count _ _ (by simp),
        map_drop_count _ _ (by simp)]
      split
      · simp
      · simp only [List.count_cons, List.count_nil]
        by_cases hn : size * items.length = n <;> simp [hn]
  unfold life polyFromIter
  simp only
  split
  · simp [Balanced]
  · cases panics with
    | none => exact whole
    | some k =>
      simp only
      split
      · constructor
        · intro v
          simp only [List.count_append, List.append_nil]
          rw [map_make_count _ (.drop v) (by simp), map_drop_count _ (.make v) (by simp), map_count]
          split <;> simp [List.count_cons]
        · intro n
          simp only [List.count_append, List.append_nil]
          rw [map_make_count _ _ (by simp), map_drop_count _ _ (by simp), map_make_count _ _ (by simp),
            map_drop_count _ _ (by simp)]
          split
          · simp
          · simp only [List.count_cons, List.count_nil]
            by_cases hn : size * items.length = n <;> simp [hn]
      · exact whole

/-- When there is a pointer, and to what: it is made unless memory is needed and there is none, a constructor fails or an
iterator panics, and then it points to the value or to all items. -/
theorem C111_made (size : Nat) (v : V) (made : Option V) (items : List V) (panics : Option Nat) (room : Bool) :
    (polyNew size v room).1.map Poly.vals = (if size ≠ 0 ∧ room = false then none else some [v]) ∧
    (polyNewWith size made room).1.map Poly.vals =
      (if size ≠ 0 ∧ room = false then none else made.map fun v => [v]) ∧
    ((polyFromIter size items panics room).1 = none ↔
      (size ≠ 0 ∧ items ≠ [] ∧ room = false) ∨ ∃ k, panics = some k ∧ k < items.length) ∧
    ∀ p, (polyFromIter size items panics room).1 = some p → p.vals = items := by
  refine ⟨?_, ?_, ?_⟩
  · unfold polyNew
    by_cases hs : size = 0 <;> cases room <;> simp [hs]
  · unfold polyNewWith
    by_cases hs : size = 0 <;> cases room <;> cases made <;> simp [hs]
  · have hz : size * items.length ≠ 0 ↔ size ≠ 0 ∧ items ≠ [] := by
      rw [Ne, Nat.mul_eq_zero, List.length_eq_zero_iff, not_or]
    have hn : (size ≠ 0 ∧ items ≠ [] ∧ room = false) ↔ (size * items.length ≠ 0 ∧ room = false) := by
      rw [hz, and_assoc]
    rw [hn]
    unfold polyFromIter
    simp only
    by_cases hr : size * items.length ≠ 0 ∧ room = false
    · rw [if_pos hr]
      exact ⟨⟨fun _ => .inl hr, fun _ => rfl⟩, fun p h => nomatch h⟩
    · rw [if_neg hr]
      cases panics with
      | none =>
        refine ⟨⟨fun h => (nomatch h), ?_⟩, fun p h => (by cases h; rfl)⟩
        rintro (h | ⟨k, h, _⟩)
        · exact absurd h hr
        · cases h
      | some k =>
        simp only
        by_cases hk : k < items.length
        · rw [if_pos hk]
          exact ⟨⟨fun _ => .inr ⟨k, rfl, hk⟩, fun _ => rfl⟩, fun p h => nomatch h⟩
        · rw [if_neg hk]
          refine ⟨⟨fun h => (nomatch h), ?_⟩, fun p h => (by cases h; rfl)⟩
          rintro (h | ⟨j, h, hj⟩)
          · exact absurd h hr
          · cases h
            exact absurd hj hk

example : life (polyFromIter 4 ["a", "b", "c"] (some 2) true) =
    [.alloc 12, .make "a", .make "b", .drop "a", .drop "b", .free 12] := by decide

end Verif.Alloc
