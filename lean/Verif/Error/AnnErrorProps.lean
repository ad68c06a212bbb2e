import Verif.Error.AnnErrorModel

/-!
# The common error type: theorems
-/

namespace Verif.Error.AnnError

variable {α ε : Type}

/-! ## Specification: an error as the list of what was put in -/

/-- One thing put into an error: a value of a user's type and the caller's location. -/
structure Layer (α : Type) where
  ty : Nat
  value : α
  loc : Loc
deriving DecidableEq, Repr

/-- How an error is made: from an error with its sources, or from a message. -/
inductive Origin (α : Type)
  | error (l : Layer α) (sources : List α)
  | message (l : Layer α)

/-- What the origin was made from. -/
def Origin.layer : Origin α → Layer α
  | .error l _ => l
  | .message l => l

/-- The sources of the origin. -/
def Origin.sources : Origin α → List α
  | .error _ s => s
  | .message _ => []

/-- The calls that make an error: an origin, then contexts, the oldest first. -/
def make (o : Origin α) (contexts : List (Layer α)) : Chain α :=
  contexts.foldl (fun e c => context e (.user c.ty) c.value c.loc)
    (match o with
      | .error l s => new (.user l.ty) l.value s l.loc
      | .message l => message (.user l.ty) l.value l.loc)

/-- What was put in, the newest first. -/
def history (o : Origin α) (contexts : List (Layer α)) : List (Layer α) := contexts.reverse ++ [o.layer]

/-! ## Lemmas -/

/-- The chain of a history. -/
def chainOf (sources : List α) (base : Layer α) : List (Layer α) → Chain α
  | [] => .root (located (.user base.ty) base.value base.loc) sources
  | c :: cs => .context (located (.user c.ty) c.value c.loc) (chainOf sources base cs)

theorem make_eq (o : Origin α) (contexts : List (Layer α)) :
    make o contexts = chainOf o.sources o.layer contexts.reverse := by
  unfold make
  rw [← List.foldr_reverse]
  generalize contexts.reverse = cs
  induction cs with
  | nil => cases o <;> rfl
  | cons c cs ih => simp only [List.foldr_cons, chainOf, ih]; rfl

theorem ref_user (n : Nat) (sources : List α) (base : Layer α) (cs : List (Layer α)) :
    anyhowRef (.user n) (chainOf sources base cs) = none := by
  induction cs with
  | nil => simp [chainOf, anyhowRef, located]
  | cons c cs ih => simp [chainOf, anyhowRef, located, ih]

theorem ref_located (n : Nat) (sources : List α) (base : Layer α) (cs : List (Layer α)) :
    anyhowRef (.located (.user n)) (chainOf sources base cs) =
      ((cs ++ [base]).find? (fun l => l.ty == n)).map (fun l => located (.user l.ty) l.value l.loc) := by
  induction cs with
  | nil =>
    by_cases h : base.ty = n
    · simp [chainOf, anyhowRef, located, h]
    · simp [chainOf, anyhowRef, located, h]
  | cons c cs ih =>
    by_cases h : c.ty = n
    · simp [chainOf, anyhowRef, located, h]
    · simp only [chainOf, anyhowRef, located, Ty.located.injEq, Ty.user.injEq, h, ↓reduceIte, List.cons_append]
      rw [ih, List.find?_cons_of_neg (by simpa using h)]
      rfl

/-! ## Theorems -/

/-- C129: a reference to a type is one to the newest value of it, whether origin or context. -/
theorem C129_newest (o : Origin α) (contexts : List (Layer α)) (n : Nat) :
    downcastRef (.user n) (make o contexts) =
      ((history o contexts).find? (fun l => l.ty == n)).map (·.value) := by
  unfold downcastRef history
  rw [make_eq, ref_user, ref_located]
  simp [located, Function.comp_def]

/-- C129: an error "is" of a type exactly when its origin or a context is. -/
theorem C129_is (o : Origin α) (contexts : List (Layer α)) (n : Nat) :
    is (.user n) (make o contexts) = true ↔ o.layer.ty = n ∨ ∃ c ∈ contexts, c.ty = n := by
  unfold is anyhowIs
  rw [make_eq, ref_user, ref_located]
  simp only [Option.isSome_map, Option.isSome_none, Bool.or_false, List.find?_isSome, List.mem_append, List.mem_reverse,
    List.mem_singleton, beq_iff_eq]
  constructor
  · rintro ⟨l, h | rfl, e⟩
    · exact .inr ⟨l, h, e⟩
    · exact .inl e
  · rintro (h | ⟨c, h, e⟩)
    · exact ⟨_, .inr rfl, h⟩
    · exact ⟨c, .inl h, e⟩

/-- C129: the three ways to ask for a type agree, and asking in vain gives the same error back. -/
theorem C129_agree (o : Origin α) (contexts : List (Layer α)) (n : Nat) :
    (is (.user n) (make o contexts) = (downcastRef (.user n) (make o contexts)).isSome) ∧
    downcast (.user n) (make o contexts) =
      (match downcastRef (.user n) (make o contexts) with
        | some v => .ok v
        | none => .error (make o contexts)) := by
  unfold is anyhowIs downcast downcastRef anyhowDowncast
  rw [make_eq, ref_user, ref_located]
  simp only [ref_located]
  cases ((contexts.reverse ++ [o.layer]).find? (fun l => l.ty == n)) <;> simp [located]

/-- C129 (partial: a context of the type of the origin hides it, see `C129_original_refuted`): the original error is
retrieved through any contexts of other types. -/
theorem C129_original_partial (o : Origin α) (contexts : List (Layer α)) (h : ∀ c ∈ contexts, c.ty ≠ o.layer.ty) :
    downcast (.user o.layer.ty) (make o contexts) = .ok o.layer.value := by
  rw [(C129_agree o contexts _).2, C129_newest]
  unfold history
  rw [List.find?_append, List.find?_eq_none.2 (by simpa using h)]
  simp

/-- C129 (refuted: downcasting retrieves the original error): a context of the same type is found instead. -/
theorem C129_original_refuted (o : Origin α) (contexts : List (Layer α)) (v : α) (loc : Loc) :
    downcast (.user o.layer.ty) (make o (contexts ++ [⟨o.layer.ty, v, loc⟩])) = .ok v := by
  rw [(C129_agree o _ _).2, C129_newest]
  simp [history]

/-- C129: what is displayed is everything that was put in, the newest first, each with the location of its caller, and then
the sources of an origin that is an error. -/
theorem C129_display (o : Origin α) (contexts : List (Layer α)) :
    display (make o contexts) =
      (history o contexts).map (fun l => (l.value, some l.loc)) ++ o.sources.map (fun s => (s, none)) := by
  rw [make_eq]
  unfold history
  induction contexts.reverse with
  | nil => simp [chainOf, display, located]
  | cons c cs ih => simp [chainOf, display, located, ih]

/-- The newest layer of a type changed. -/
def change (n : Nat) (f : α → α) : List (Layer α) → List (Layer α)
  | [] => []
  | l :: ls => if l.ty = n then { l with value := f l.value } :: ls else l :: change n f ls

theorem write_chain (n : Nat) (f : α → α) (sources : List α) (base : Layer α) (cs : List (Layer α)) :
    ∃ base' cs', change n f (cs ++ [base]) = cs' ++ [base'] ∧ cs'.length = cs.length ∧
      anyhowWrite (.located (.user n)) f (chainOf sources base cs) = chainOf sources base' cs' := by
  induction cs with
  | nil =>
    by_cases h : base.ty = n
    · exact ⟨{ base with value := f base.value }, [], by simp [change, h], rfl,
        by simp [chainOf, anyhowWrite, located, h]⟩
    · exact ⟨base, [], by simp [change, h], rfl, by simp [chainOf, anyhowWrite, located, h]⟩
  | cons c cs ih =>
    obtain ⟨b', cs', h1, h2, h3⟩ := ih
    by_cases h : c.ty = n
    · exact ⟨base, { c with value := f c.value } :: cs, by simp [change, h], rfl,
        by simp [chainOf, anyhowWrite, located, h]⟩
    · refine ⟨b', c :: cs', by simp [change, h, h1], by simp [h2], ?_⟩
      simp only [chainOf, anyhowWrite, located, Ty.located.injEq, Ty.user.injEq, h, ↓reduceIte]
      rw [h3]

/-- C129: a write through a mutable reference exists exactly for the types the error is of, and changes the newest value of
that type and nothing else. -/
theorem C129_write (o : Origin α) (contexts : List (Layer α)) (n : Nat) (f : α → α) :
    (is (.user n) (make o contexts) = false ∧ writeMut (.user n) f (make o contexts) = none) ∨
    (is (.user n) (make o contexts) = true ∧ ∃ o' contexts', writeMut (.user n) f (make o contexts) =
      some (make o' contexts') ∧ o'.sources = o.sources ∧ history o' contexts' = change n f (history o contexts)) := by
  have hu : anyhowIs (.user n) (make o contexts) = false := by
    unfold anyhowIs
    rw [make_eq, ref_user]
    rfl
  have hi : is (.user n) (make o contexts) = anyhowIs (.located (.user n)) (make o contexts) := by
    unfold is
    rw [hu, Bool.or_false]
  unfold writeMut
  rw [hu, hi]
  cases hl : anyhowIs (.located (.user n)) (make o contexts) with
  | false => exact .inl ⟨rfl, by simp⟩
  | true =>
    refine .inr ⟨rfl, ?_⟩
    simp only [Bool.false_eq_true, ↓reduceIte, Option.some.injEq]
    obtain ⟨b', cs', h1, _, h3⟩ := write_chain n f o.sources o.layer contexts.reverse
    refine ⟨.error b' o.sources, cs'.reverse, ?_, rfl, ?_⟩
    · rw [make_eq, make_eq, h3, List.reverse_reverse]
      rfl
    · unfold history
      rw [h1, List.reverse_reverse]
      rfl

/-- C129: after a write, the type reads as the new value and every other type as before. -/
theorem C129_write_read (o : Origin α) (contexts : List (Layer α)) (n : Nat) (f : α → α) (e : Chain α)
    (h : writeMut (.user n) f (make o contexts) = some e) :
    downcastRef (.user n) e = (downcastRef (.user n) (make o contexts)).map f ∧
    ∀ m, m ≠ n → downcastRef (.user m) e = downcastRef (.user m) (make o contexts) := by
  rcases C129_write o contexts n f with ⟨_, h2⟩ | ⟨_, o', c', h2, _, h4⟩
  · rw [h] at h2
    exact absurd h2 (by simp)
  · rw [h] at h2
    obtain rfl := Option.some.inj h2
    simp only [C129_newest, h4]
    generalize history o contexts = hs
    constructor
    · induction hs with
      | nil => rfl
      | cons l ls ih =>
        by_cases hl : l.ty = n
        · simp [change, hl]
        · simpa [change, hl] using ih
    · intro m hm
      induction hs with
      | nil => rfl
      | cons l ls ih =>
        by_cases hl : l.ty = n
        · have : ¬ n = m := fun e => hm e.symm
          simp [change, hl, this]
        · by_cases hlm : l.ty = m
          · simp [change, hl, hlm, hm]
          · simpa [change, hl, hlm] using ih

/-- C129: context is added to failures only, the closure is called for them only and once, and both forms agree. -/
theorem C129_result {β : Type} (conv : ε → Chain α) (t : Ty) (f : Unit → α) (loc : Loc) :
    (∀ b : β, contextResult conv (.ok b) t (f ()) loc = .ok b ∧ withContext conv (.ok b) t f loc = (0, .ok b)) ∧
    ∀ e : ε, contextResult (β := β) conv (.error e) t (f ()) loc = .error (context (conv e) t (f ()) loc) ∧
      withContext (β := β) conv (.error e) t f loc = (1, .error (context (conv e) t (f ()) loc)) :=
  ⟨fun _ => ⟨rfl, rfl⟩, fun _ => ⟨rfl, rfl⟩⟩

/-! ## Concrete cases -/

def exOrigin : Origin Nat := .error ⟨1, 42, (7, 10)⟩ [43]

def exContexts : List (Layer Nat) := [⟨2, 50, (7, 20)⟩, ⟨3, 60, (8, 30)⟩, ⟨2, 70, (9, 40)⟩]

example : display (make exOrigin exContexts) =
    [(70, some (9, 40)), (60, some (8, 30)), (50, some (7, 20)), (42, some (7, 10)), (43, none)] := by decide +kernel

example : downcastRef (.user 1) (make exOrigin exContexts) = some 42 ∧
    downcastRef (.user 2) (make exOrigin exContexts) = some 70 ∧ is (.user 4) (make exOrigin exContexts) = false := by
  decide +kernel

example : ∀ c ∈ exContexts, c.ty ≠ exOrigin.layer.ty := by decide

example : (writeMut (.user 2) (· + 1) (make exOrigin exContexts)).map display =
    some [(71, some (9, 40)), (60, some (8, 30)), (50, some (7, 20)), (42, some (7, 10)), (43, none)] := by decide +kernel

end Verif.Error.AnnError
