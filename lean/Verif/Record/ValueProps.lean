import Verif.Record.ValueModel
import Verif.Record.NumberProps
import Verif.Record.TextProps
/-
C35: saved values load back unchanged.
-/
namespace Verif.Record

/-- The number a reader gets back: a non-negative `i64` comes back as the same number stored as `u64`. -/
def Num.canon : Num → Num
  | .i64 v => if 0 ≤ v then .u64 v.toNat else .i64 v
  | n => n

/-- Same number, whatever the storage class. -/
def Num.same : Num → Num → Prop
  | .f64 a, .f64 b => a = b
  | .u64 a, .u64 b => a = b
  | .i64 a, .i64 b => a = b
  | .u64 a, .i64 b => (a : Int) = b
  | .i64 a, .u64 b => a = (b : Int)
  | _, _ => False

mutual
/-- Two value trees are the same up to the storage class of their integers. -/
def Value.same : Value → Value → Prop
  | .null, .null => True
  | .bool a, .bool b => a = b
  | .num a, .num b => a.same b
  | .str a, .str b => a = b
  | .arr a, .arr b => samelist a b
  | .obj a v, .obj b w => sameFields a b ∧ v = w
  | .handle a, .handle b => a = b
  | _, _ => False
def samelist : List Value → List Value → Prop
  | [], [] => True
  | a :: as, b :: bs => a.same b ∧ samelist as bs
  | _, _ => False
def sameFields : List (Str × Value) → List (Str × Value) → Prop
  | [], [] => True
  | (k, a) :: as, (l, b) :: bs => k = l ∧ a.same b ∧ sameFields as bs
  | _, _ => False
end

/-- Keys of a record. -/
def keysOf {α : Type} (fs : List (Str × α)) : List Str := fs.map Prod.fst

mutual
/-- The values the theorem covers: no string is one of the three numeric sentinels, record keys are distinct
(as in any hash map) and not reserved, version components are `u32`s. -/
def Value.Ok : Value → Prop
  | .str s => s ≠ "nan".toList ∧ s ≠ "inf".toList ∧ s ≠ "neg_inf".toList
  | .arr vs => okList vs
  | .obj fs v => (keysOf fs).Nodup ∧ okFields fs ∧ v.major < 4294967296 ∧ v.minor < 4294967296
  | _ => True
def okList : List Value → Prop
  | [] => True
  | v :: vs => v.Ok ∧ okList vs
def okFields : List (Str × Value) → Prop
  | [] => True
  | (k, v) :: fs => k.head? ≠ some '$' ∧ v.Ok ∧ okFields fs
end

mutual
def Value.canon : Value → Value
  | .null => .null
  | .bool b => .bool b
  | .num n => .num n.canon
  | .str s => .str s
  | .arr vs => .arr (canons vs)
  | .obj fs v => .obj (canonFields fs) v
  | .handle h => .handle h
def canons : List Value → List Value
  | [] => []
  | v :: vs => v.canon :: canons vs
def canonFields : List (Str × Value) → List (Str × Value)
  | [] => []
  | (k, v) :: fs => (k, v.canon) :: canonFields fs
end

theorem num_same_canon (n : Num) : n.same n.canon := by
  cases n with
  | u64 v => rfl
  | f64 v => rfl
  | i64 v =>
    simp only [Num.canon]
    split
    · rename_i h; simp only [Num.same]; omega
    · rfl

mutual
theorem same_canon : ∀ v : Value, v.same v.canon
  | .null => by simp [Value.canon, Value.same]
  | .bool b => by simp [Value.canon, Value.same]
  | .num n => by simp only [Value.canon, Value.same]; exact num_same_canon n
  | .str s => by simp [Value.canon, Value.same]
  | .arr vs => by simp only [Value.canon, Value.same]; exact samelist_canon vs
  | .obj fs v => by simp only [Value.canon, Value.same]; exact ⟨sameFields_canon fs, trivial⟩
  | .handle h => by simp [Value.canon, Value.same]
theorem samelist_canon : ∀ vs : List Value, samelist vs (canons vs)
  | [] => by simp [canons, samelist]
  | v :: vs => by simp only [canons, samelist]; exact ⟨same_canon v, samelist_canon vs⟩
theorem sameFields_canon : ∀ fs : List (Str × Value), sameFields fs (canonFields fs)
  | [] => by simp [canonFields, sameFields]
  | (k, v) :: fs => by simp only [canonFields, sameFields]; exact ⟨trivial, same_canon v, sameFields_canon fs⟩
end

theorem num_roundtrip (n : Num) : n.toJson.toValue = some (.num n.canon) := by
  cases n with
  | u64 v => simp [Num.toJson, Num.sentinel, Json.toValue, Num.canon]
  | i64 v => simp [Num.toJson, Num.sentinel, Json.toValue, Num.canon]
  | f64 v =>
    cases v with
    | nan => simp [Num.toJson, Num.sentinel, Json.toValue, Num.canon, fromSentinel]
    | inf neg =>
      cases neg
      · simp [Num.toJson, Num.sentinel, Json.toValue, Num.canon, fromSentinel, kInf, kNan]
      · simp [Num.toJson, Num.sentinel, Json.toValue, Num.canon, fromSentinel, kInf, kNan, kNegInf]
    | fin s m e => simp [Num.toJson, Num.sentinel, Json.toValue, Num.canon]

theorem insertField_fresh {α : Type} (fs : List (Str × α)) (k : Str) (v : α) (h : k ∉ keysOf fs) :
    insertField fs k v = fs ++ [(k, v)] := by
  induction fs with
  | nil => rfl
  | cons f fs ih =>
    obtain ⟨k', v'⟩ := f
    simp only [keysOf, List.map_cons, List.mem_cons, not_or] at h
    simp only [insertField]
    rw [if_neg (fun e => h.1 e.symm), ih h.2]
    rfl

theorem keysOf_canon (fs : List (Str × Value)) : keysOf (canonFields fs) = keysOf fs := by
  induction fs with
  | nil => rfl
  | cons f fs ih =>
    obtain ⟨k, v⟩ := f
    simp only [canonFields, keysOf, List.map_cons] at ih ⊢
    rw [ih]

theorem sentinel_none {s : Str} (h : s ≠ "nan".toList ∧ s ≠ "inf".toList ∧ s ≠ "neg_inf".toList) :
    fromSentinel s = none := by
  have h1 : s ≠ kNan := h.1
  have h2 : s ≠ kInf := h.2.1
  have h3 : s ≠ kNegInf := h.2.2
  unfold fromSentinel
  rw [if_neg h1, if_neg h2, if_neg h3]

theorem reserved_ne {k : Str} (h : k.head? ≠ some '$') : k ≠ kVersion ∧ k ≠ kHandle := by
  constructor <;> (rintro rfl; exact h rfl)

mutual
theorem roundtrip : ∀ v : Value, v.Ok → v.toJson.toValue = some v.canon
  | .null, _ => by simp [Value.toJson, Json.toValue, Value.canon]
  | .bool b, _ => by simp [Value.toJson, Json.toValue, Value.canon]
  | .num n, _ => by simp only [Value.toJson, Value.canon]; exact num_roundtrip n
  | .str s, h => by
    simp only [Value.Ok] at h
    simp only [Value.toJson, Json.toValue, Value.canon, sentinel_none h]
  | .arr vs, h => by
    simp only [Value.Ok] at h
    simp only [Value.toJson, Json.toValue, Value.canon, roundtrips vs h, Option.map_some]
  | .obj fs v, h => by
    simp only [Value.Ok] at h
    obtain ⟨h1, h2, h3, h4⟩ := h
    simp only [Value.toJson, Json.toValue, Value.canon]
    rw [roundtripFields fs {} _ h1 (by simp [keysOf]) h2]
    simp only [toAcc, if_true, C37_round_trip v h3 h4, Option.bind_some, Acc.finish, List.nil_append]
  | .handle h, _ => by
    simp only [Value.toJson, Json.toValue, Value.canon]
    have : kHandle ≠ kVersion := by decide
    simp [toAcc, this, Acc.finish]
theorem roundtrips : ∀ vs : List Value, okList vs → toValues (toJsons vs) = some (canons vs)
  | [], _ => by simp [toJsons, toValues, canons]
  | v :: vs, h => by
    simp only [okList] at h
    simp only [toJsons, toValues, canons, roundtrip v h.1, roundtrips vs h.2]
theorem roundtripFields : ∀ (fs : List (Str × Value)) (a : Acc) (rest : List (Str × Json)),
    (keysOf fs).Nodup → (∀ k ∈ keysOf fs, k ∉ keysOf a.fields) → okFields fs →
    toAcc a (toJsonFields fs ++ rest) = toAcc { a with fields := a.fields ++ canonFields fs } rest
  | [], a, rest, _, _, _ => by simp [toJsonFields, canonFields]
  | (k, v) :: fs, a, rest, hn, hd, h => by
    simp only [okFields] at h
    obtain ⟨hk, hv, hfs⟩ := h
    obtain ⟨hk1, hk2⟩ := reserved_ne hk
    have hn' : k ∉ keysOf fs ∧ (keysOf fs).Nodup := by simpa [keysOf] using hn
    simp only [toJsonFields, List.cons_append, toAcc, canonFields]
    rw [if_neg hk1, if_neg hk2]
    simp only [roundtrip v hv]
    rw [roundtripFields fs _ rest hn'.2 ?_ hfs]
    · rw [insertField_fresh _ _ _ (hd k (by simp [keysOf]))]
      simp
    · intro k' hk'
      simp only
      rw [insertField_fresh _ _ _ (hd k (by simp [keysOf]))]
      have h1 : k' ∉ keysOf a.fields := hd k' (by simp only [keysOf, List.map_cons, List.mem_cons] at hk' ⊢; exact Or.inr hk')
      intro hm
      simp only [keysOf, List.map_append, List.mem_append, List.map_cons, List.map_nil, List.mem_singleton] at hm
      rcases hm with hm | hm
      · exact h1 hm
      · exact hn'.1 (hm ▸ hk')
end

/-- C35 (disk): a value tree without sentinel-like strings loads back as the same tree; integers keep their
value.  Missing: strings equal to a sentinel (see `C35_sentinel_strings`); the JSON text layer is not
modelled. -/
theorem C35_disk_round_trip_partial (v : Value) (h : v.Ok) : ∃ w, v.toJson.toValue = some w ∧ v.same w :=
  ⟨v.canon, roundtrip v h, same_canon v⟩

/-- C35: the storage class does not matter to a reader of an integer type. -/
theorem C35_same_reads_same (a b : Num) (h : a.same b) (lo hi : Int) : a.asInt lo hi = b.asInt lo hi := by
  cases a <;> cases b <;> simp only [Num.same] at h <;> try exact h.elim
  · subst h; rfl
  · simp only [Num.asInt, h]
  · simp only [Num.asInt, h]
  · subst h; rfl
  · subst h; rfl

mutual
theorem intoOwned_eq : ∀ v : Value, v.intoOwned = v
  | .null => by simp [Value.intoOwned]
  | .bool b => by simp [Value.intoOwned]
  | .num n => by simp [Value.intoOwned]
  | .str s => by simp [Value.intoOwned]
  | .arr vs => by simp [Value.intoOwned, intoOwneds_eq vs]
  | .obj fs v => by simp [Value.intoOwned, intoOwnedFields_eq fs]
  | .handle h => by simp [Value.intoOwned]
theorem intoOwneds_eq : ∀ vs : List Value, intoOwneds vs = vs
  | [] => by simp [intoOwneds]
  | v :: vs => by simp [intoOwneds, intoOwned_eq v, intoOwneds_eq vs]
theorem intoOwnedFields_eq : ∀ fs : List (Str × Value), intoOwnedFields fs = fs
  | [] => by simp [intoOwnedFields]
  | (k, v) :: fs => by simp [intoOwnedFields, intoOwned_eq v, intoOwnedFields_eq fs]
end

/-- C35 (memory): the in-memory path hands back every value tree as it is. -/
theorem C35_memory_round_trip (v : Value) : v.intoOwned = v := intoOwned_eq v

/-! Typed values -/

/-- A type whose options are not nested directly. -/
def Ty.plain : Ty → Prop
  | .vec t => t.plain
  | .option (.option _) => False
  | .option t => t.plain
  | _ => True

/-- A value of the type: integers in range, strings not a sentinel. -/
def Ty.Fits : (t : Ty) → t.Val → Prop
  | .bool, _ => True
  | .int lo hi, n => lo ≤ (show Int from n) ∧ (show Int from n) ≤ hi
  | .f64, _ => True
  | .string, s => s ≠ "nan".toList ∧ s ≠ "inf".toList ∧ s ≠ "neg_inf".toList
  | .vec t, vs => ∀ x ∈ (show List t.Val from vs), Ty.Fits t x
  | .option t, o =>
    match (show Option t.Val from o) with
    | none => True
    | some x => Ty.Fits t x

theorem toJsons_map (vs : List Value) : toJsons vs = vs.map Value.toJson := by
  induction vs with
  | nil => simp [toJsons]
  | cons v vs ih => simp [toJsons, ih]

theorem save_ok : ∀ (t : Ty) (x : t.Val), t.Fits x → (t.save x).Ok
  | .bool, _, _ => by simp [Ty.save, Value.Ok]
  | .int _ _, _, _ => by simp [Ty.save, Value.Ok]
  | .f64, _, _ => by simp [Ty.save, Value.Ok]
  | .string, s, h => by simp only [Ty.save, Value.Ok]; exact h
  | .vec t, vs, h => by
    simp only [Ty.save, Value.Ok]
    have h' : ∀ x ∈ (show List t.Val from vs), t.Fits x := h
    clear h
    revert h'
    generalize (show List t.Val from vs) = l
    intro h'
    induction l with
    | nil => simp [okList]
    | cons x xs ih =>
      simp only [List.map_cons, okList]
      exact ⟨save_ok t x (h' x (by simp)), ih (fun y hy => h' y (by simp [hy]))⟩
  | .option t, o, h => by
    cases o with
    | none => simp [Ty.save, Value.Ok]
    | some x => simp only [Ty.save]; exact save_ok t x h

theorem canons_map (vs : List Value) : canons vs = vs.map Value.canon := by
  induction vs with
  | nil => simp [canons]
  | cons v vs ih => simp [canons, ih]

theorem save_not_null : ∀ (t : Ty) (x : t.Val), (∀ s, t ≠ .option s) → (t.save x).canon ≠ .null
  | .bool, _, _ => by simp [Ty.save, Value.canon]
  | .int _ _, _, _ => by simp [Ty.save, Value.canon]
  | .f64, _, _ => by simp [Ty.save, Value.canon]
  | .string, _, _ => by simp [Ty.save, Value.canon]
  | .vec _, _, _ => by simp [Ty.save, Value.canon]
  | .option s, _, h => absurd rfl (h s)

theorem load_option (t : Ty) (v : Value) (h : v ≠ .null) :
    Ty.load (.option t) v = (Ty.load t v).map (fun x => (some x : Option t.Val)) := by
  have : v.isNull = false := by cases v <;> first | rfl | exact absurd rfl h
  simp only [Ty.load, this]; rfl

theorem allSome_map {α β : Type} (f : α → Option β) (g : α → β) (xs : List α)
    (h : ∀ x ∈ xs, f x = some (g x)) : allSome (xs.map f) = some (xs.map g) := by
  induction xs with
  | nil => rfl
  | cons x xs ih =>
    simp only [List.map_cons, h x (by simp), allSome, ih (fun y hy => h y (by simp [hy])), Option.map_some]

theorem load_canon : ∀ (t : Ty) (x : t.Val), t.plain → t.Fits x → Ty.load t (t.save x).canon = some x
  | .bool, _, _, _ => by simp only [Ty.save, Value.canon, Ty.load, Value.asBool]; rfl
  | .int lo hi, n, _, h => by
    obtain ⟨h1, h2⟩ := h
    simp only [Ty.save, Value.canon, Ty.load, Value.asNumber, Option.bind_some]
    have hs : ∀ a : Num, a = .u64 (show Int from n).toNat ∧ 0 ≤ (show Int from n) ∨ a = .i64 n →
        a.canon.asInt lo hi = some n := by
      intro a ha
      rw [← C35_same_reads_same a a.canon (num_same_canon a)]
      rcases ha with ⟨rfl, h0⟩ | rfl
      · refine ((C36_int_of_int lo hi 0 _).2 _).2 ⟨?_, h1, h2⟩
        exact (Int.toNat_of_nonneg h0).symm
      · exact ((C36_int_of_int lo hi _ _).1).2 ⟨rfl, h1, h2⟩
    apply hs
    split
    · rename_i h0; exact Or.inl ⟨rfl, Int.le_trans h0 h1⟩
    · exact Or.inr rfl
  | .f64, v, _, _ => by
    simp only [Ty.save, Value.canon, Ty.load, Num.canon, Value.asNumber, Option.bind_some]
    exact (C36_float_of_float 53 id rfl v v).2
  | .string, _, _, _ => by simp only [Ty.save, Value.canon, Ty.load, Value.asStr]; rfl
  | .vec t, vs, hp, h => by
    simp only [Ty.save, Value.canon, Ty.load, canons_map, Value.asArray]
    have hp' : t.plain := hp
    have := allSome_map (fun x => Ty.load t (t.save x).canon) id (show List t.Val from vs)
      (fun x hx => load_canon t x hp' (h x hx))
    rw [List.map_id] at this
    have key : ∀ l : List t.Val, allSome (List.map t.load (List.map Value.canon (List.map t.save l))) =
        allSome (l.map (fun x => Ty.load t (t.save x).canon)) := by
      intro l
      rw [List.map_map, List.map_map]
      rfl
    exact (key vs).trans this
  | .option t, o, hp, h => by
    cases o with
    | none => simp only [Ty.save, Value.canon]; rfl
    | some x =>
      have hno : ∀ s, t ≠ .option s := by
        rintro s rfl
        exact hp
      have hp' : t.plain := by
        cases t <;> first | exact hp | exact absurd rfl (hno _)
      simp only [Ty.save]
      rw [load_option t _ (save_not_null t x hno), load_canon t x hp' h]
      rfl

/-- C35, typed: a value of any type built from booleans, integers, `f64`, `String`, `Vec` and non-nested
`Option` is read back from the manifest as it was, provided it contains no sentinel-like string. -/
theorem C35_typed_round_trip_partial (t : Ty) (x : t.Val) (hp : t.plain) (hx : t.Fits x) :
    ((t.save x).toJson.toValue).bind (Ty.load t) = some x := by
  rw [roundtrip _ (save_ok t x hx)]
  exact load_canon t x hp hx

/-- C35 fails for the sentinel strings: a saved `String` "nan" cannot be loaded from disk at all. -/
theorem C35_sentinel_strings :
    ((Ty.save .string "nan".toList).toJson.toValue).bind (Ty.load .string) = none ∧
    ((Ty.save .string "inf".toList).toJson.toValue).bind (Ty.load .string) = none ∧
    ((Ty.save .string "neg_inf".toList).toJson.toValue).bind (Ty.load .string) = none ∧
    Ty.load .string (Ty.save .string "nan".toList).intoOwned = some "nan".toList := by
  refine ⟨rfl, rfl, rfl, rfl⟩

/-- C35 fails for nested options: `Some(None)` comes back as `None`, on disk and in memory. -/
theorem C35_nested_option :
    ((Ty.save (.option (.option .bool)) (some none : Option (Option Bool))).toJson.toValue).bind
      (Ty.load (.option (.option .bool))) = some (none : Option (Option Bool)) ∧
    Ty.load (.option (.option .bool)) (Ty.save (.option (.option .bool)) (some none : Option (Option Bool))) =
      some (none : Option (Option Bool)) := ⟨rfl, rfl⟩

/-- C35: an object must be a versioned record or a bare handle; everything else is rejected. -/
theorem C35_rejects_unversioned (fs : List (Str × Json)) (h : ∀ f ∈ fs, f.1 ≠ kVersion ∧ f.1 ≠ kHandle) :
    (Json.obj fs).toValue = none := by
  have key : ∀ (fs : List (Str × Json)) (a : Acc), (∀ f ∈ fs, f.1 ≠ kVersion ∧ f.1 ≠ kHandle) →
      a.version = none → a.handle = none → (toAcc a fs).bind Acc.finish = none := by
    intro fs
    induction fs with
    | nil => intro a _ h1 h2; simp [toAcc, Acc.finish, h1, h2]
    | cons f fs ih =>
      intro a h h1 h2
      obtain ⟨k, j⟩ := f
      have hk := h (k, j) (by simp)
      simp only [toAcc]
      rw [if_neg hk.1, if_neg hk.2]
      cases j.toValue with
      | none => rfl
      | some v => exact ih _ (fun f hf => h f (by simp [hf])) h1 h2
  simp only [Json.toValue]
  exact key fs {} h rfl rfl

/-- C35: an accepted object is either a record with a version and no `$handle` entry, or a bare handle with no
other entry. -/
theorem C35_accepted_objects (fs : List (Str × Json)) (v : Value) (h : (Json.obj fs).toValue = some v) :
    (∃ name, v = .handle name ∧ fs ≠ [] ∧ ∀ f ∈ fs, f.1 = kHandle) ∨
    (∃ fields version, v = .obj fields version ∧ (∃ f ∈ fs, f.1 = kVersion) ∧ ∀ f ∈ fs, f.1 ≠ kHandle) := by
  have hins : ∀ (l : List (Str × Value)) (k : Str) (x : Value), insertField l k x ≠ [] := by
    intro l k x
    cases l with
    | nil => simp [insertField]
    | cons a l => unfold insertField; split <;> simp
  have key : ∀ (fs : List (Str × Json)) (a b : Acc), toAcc a fs = some b →
      (b.version.isSome = true ↔ a.version.isSome = true ∨ ∃ f ∈ fs, f.1 = kVersion) ∧
      (b.handle.isSome = true ↔ a.handle.isSome = true ∨ ∃ f ∈ fs, f.1 = kHandle) ∧
      (b.fields ≠ [] ↔ a.fields ≠ [] ∨ ∃ f ∈ fs, f.1 ≠ kVersion ∧ f.1 ≠ kHandle) := by
    intro fs
    induction fs with
    | nil => intro a b h; simp only [toAcc, Option.some.injEq] at h; subst h; simp
    | cons f fs ih =>
      intro a b h
      obtain ⟨k, j⟩ := f
      simp only [toAcc] at h
      have hvh : kVersion ≠ kHandle := by decide
      by_cases h1 : k = kVersion
      · rw [if_pos h1] at h
        subst h1
        split at h
        · split at h
          · obtain ⟨g1, g2, g3⟩ := ih _ _ h
            refine ⟨?_, ?_, ?_⟩
            · rw [g1]; simp
            · rw [g2]; simp [hvh]
            · rw [g3]; simp
          · simp at h
        · simp at h
      · rw [if_neg h1] at h
        by_cases h2 : k = kHandle
        · rw [if_pos h2] at h
          subst h2
          split at h
          · obtain ⟨g1, g2, g3⟩ := ih _ _ h
            refine ⟨?_, ?_, ?_⟩
            · rw [g1]; simp [Ne.symm hvh]
            · rw [g2]; simp
            · rw [g3]; simp
          · simp at h
        · rw [if_neg h2] at h
          split at h
          · obtain ⟨g1, g2, g3⟩ := ih _ _ h
            refine ⟨?_, ?_, ?_⟩
            · rw [g1]; simp [h1]
            · rw [g2]; simp [h2]
            · rw [g3]; simp [h1, h2, hins]
          · simp at h
  simp only [Json.toValue] at h
  cases ha : toAcc {} fs with
  | none => rw [ha] at h; simp at h
  | some b =>
    obtain ⟨g1, g2, g3⟩ := key fs {} b ha
    rw [ha] at h
    simp only [Option.bind_some] at h
    unfold Acc.finish at h
    simp only [Option.isSome_none, Bool.false_eq_true, false_or, ne_eq, not_true_eq_false] at g1 g2 g3
    cases hh : b.handle with
    | some name =>
      rw [hh] at h
      simp only at h
      split at h
      · simp at h
      · rename_i hc
        simp only [Option.some.injEq] at h
        left
        refine ⟨name, h.symm, ?_, ?_⟩
        · rw [hh] at g2
          obtain ⟨f, hf, -⟩ := g2.1 rfl
          intro e; rw [e] at hf; simp at hf
        · intro f hf
          by_contra hne
          by_cases hv : f.1 = kVersion
          · exact hc (by rw [g1.2 ⟨f, hf, hv⟩]; rfl)
          · have := g3.2 ⟨f, hf, hv, hne⟩
            apply hc
            cases hfl : b.fields with
            | nil => exact absurd hfl this
            | cons _ _ => simp
    | none =>
      rw [hh] at h
      cases hv : b.version with
      | none => rw [hv] at h; simp at h
      | some ver =>
        rw [hv] at h
        simp only [Option.some.injEq] at h
        right
        refine ⟨_, _, h.symm, g1.1 (by rw [hv]; rfl), ?_⟩
        intro f hf hk
        have := g2.2 ⟨f, hf, hk⟩
        rw [hh] at this; simp at this

/-- C35: a vector is loaded only if every element is, and element by element. -/
theorem C35_vector_elementwise (t : Ty) (vs : List Value) (xs : List t.Val) :
    Ty.load (.vec t) (.arr vs) = some xs ↔ List.Forall₂ (fun v x => Ty.load t v = some x) vs xs := by
  have key : ∀ (vs : List Value) (xs : List t.Val),
      allSome (vs.map (Ty.load t)) = some xs ↔ List.Forall₂ (fun v x => Ty.load t v = some x) vs xs := by
    intro vs
    induction vs with
    | nil =>
      intro xs
      simp only [List.map_nil, allSome, Option.some.injEq]
      constructor
      · rintro rfl; exact .nil
      · intro h; cases h; rfl
    | cons v vs ih =>
      intro xs
      rw [List.map_cons]
      cases hv : Ty.load t v with
      | none =>
        simp only [allSome]
        constructor
        · intro h; simp at h
        · intro h
          cases h with
          | cons h1 _ => rw [hv] at h1; simp at h1
      | some y =>
        simp only [allSome, Option.map_eq_some_iff]
        constructor
        · rintro ⟨ys, h1, rfl⟩
          exact .cons hv ((ih ys).1 h1)
        · intro h
          cases h with
          | cons h1 h2 =>
            rw [hv] at h1
            cases h1
            exact ⟨_, (ih _).2 h2, rfl⟩
  exact key vs xs

example : (Json.obj [(kHandle, .str ['x']), (['a'], .null)]).toValue = none ∧
    Ty.load (.vec .bool) (.arr [.bool true, .null]) = none := ⟨rfl, rfl⟩

/-- A non-trivial tree that meets the hypothesis: a record with a negative and a positive integer, an infinity,
an option list and an artifact handle. -/
example : (Value.obj [(['a'], .num (.i64 5)), (['b'], .num (.f64 (.inf true))),
    (['c'], .arr [.null, .str ['x'], .num (.i64 (-3))]), (['d'], .handle ['0', '0', '0'])] ⟨1, 2⟩).Ok := by
  simp [Value.Ok, okFields, okList, keysOf]

example : (Ty.vec (.option .string)).plain ∧
    (Ty.vec (.option .string)).Fits [some ['x'], none] := by
  constructor
  · simp [Ty.plain]
  · intro x hx
    rcases List.mem_cons.1 hx with rfl | hx
    · refine ⟨?_, ?_, ?_⟩ <;> (intro h; revert h; show (['x'] : List Char) = _ → False; decide)
    · rcases List.mem_cons.1 hx with rfl | hx
      · trivial
      · simp at hx

end Verif.Record
