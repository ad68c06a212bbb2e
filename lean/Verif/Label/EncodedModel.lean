import Verif.Label.IndexModel
/-
Model of integer-encoded attributes and of the inline beta search that uses them.

Sources: /repo/diskann-label-filter/src/attribute.rs 66-111, encoded_attribute_provider/{attribute_encoder,
roaring_attribute_store,encoded_attribute_accessor,ast_id_expr,ast_label_id_mapper,encoded_filter_expr,
document_provider}.rs, set/{roaring_set,roaring_set_provider}.rs, inline_beta_search/{predicate_evaluator,
inline_beta_filter,encoded_document_accessor}.rs.

A roaring treemap is the list of its members without repetition, a hash map the list of its entries; both are trusted.
Every store operation runs under the write locks it takes, so an execution is a sequence of operations.  A vector id
is a natural number (`into_usize` is injective on the id types); poisoned locks and the overflow of the 64 bit running
index are not modelled.
-/
namespace Verif.Label.Encoded

/-- `to_bits_helper` (attribute.rs 70-78): one pattern for every NaN, one for both zeros. -/
def canonBits (b : Nat) : Nat :=
  if fNaNb b then 9221120237041090560 else if fVal b = 0 then 0 else b

/-- `PartialEq for AttributeValue` (attribute.rs 97-109). -/
def valEq : AttrVal → AttrVal → Bool
  | .bool a, .bool b => a == b
  | .int a, .int b => a == b
  | .real a, .real b => canonBits a == canonBits b
  | .str a, .str b => a == b
  | .empty, .empty => true
  | _, _ => false

/-- `Hash for AttributeValue` (attribute.rs 83-94): what is written to the hasher, the discriminant first. -/
def hashInput : AttrVal → List Int
  | .empty => [0]
  | .bool b => [1, if b then 1 else 0]
  | .int n => [2, n]
  | .real b => [3, (canonBits b : Int)]
  | .str s => 4 :: (s.map Int.ofNat ++ [255])

/-- An attribute: field name and value (`Attribute`, attribute.rs 22-26; `InternalAttribute`,
attribute_encoder.rs 21-25). -/
abbrev Attr := Bytes × AttrVal

/-- Derived `PartialEq for InternalAttribute` (attribute_encoder.rs 21). -/
def attrEq (a b : Attr) : Bool := a.1 == b.1 && valEq a.2 b.2

/-- `AttributeEncoder` (attribute_encoder.rs 55-58). -/
structure Encoder where
  table : List (Attr × Nat)
  next : Nat
deriving Repr

/-- `AttributeEncoder::new` (attribute_encoder.rs 61-66). -/
def Encoder.new : Encoder := ⟨[], 0⟩

/-- `AttributeEncoder::get` (attribute_encoder.rs 87-97). -/
def Encoder.get (e : Encoder) (a : Attr) : Option Nat := (e.table.find? (fun p => attrEq p.1 a)).map (·.2)

/-- The two arms of the entry in `AttributeEncoder::insert` (attribute_encoder.rs 74-80). -/
def Encoder.insertAt (e : Encoder) (a : Attr) : Option Nat → Encoder × Nat
  | some i => (e, i)
  | none => (⟨e.table ++ [(a, e.next)], e.next + 1⟩, e.next)

/-- `AttributeEncoder::insert` (attribute_encoder.rs 72-81). -/
def Encoder.insert (e : Encoder) (a : Attr) : Encoder × Nat := e.insertAt a (e.get a)

/-- `RoaringTreemapSetProvider` (roaring_set_provider.rs 150-152): the set stored under every key. -/
abbrev Sets := List (Nat × List Nat)

/-- `SetProvider::get` (roaring_set_provider.rs 93-98). -/
def Sets.get (s : Sets) (k : Nat) : Option (List Nat) := (s.find? (fun p => p.1 == k)).map (·.2)

/-- `SetProvider::exists` (roaring_set_provider.rs 104-106). -/
def Sets.has (s : Sets) (k : Nat) : Bool := (Sets.get s k).isSome

/-- `HashMap::insert`. -/
def Sets.put (s : Sets) (k : Nat) (v : List Nat) : Sets := (k, v) :: s.filter (fun p => p.1 != k)

/-- `RoaringTreemap::insert` (roaring_set.rs 29-32): was the value new? -/
def addTo (v : List Nat) (x : Nat) : List Nat × Bool := if v.contains x then (v, false) else (v ++ [x], true)

/-- `SetProvider::insert` (roaring_set_provider.rs 108-114). -/
def Sets.insert (s : Sets) (k x : Nat) : Sets × Bool :=
  (Sets.put s k (addTo ((Sets.get s k).getD []) x).1, (addTo ((Sets.get s k).getD []) x).2)

/-- The loop of `insert_values` (roaring_set_provider.rs 121-124): `all_inserted && insert(..)` does not insert once
`all_inserted` is false. -/
def addAll : List Nat → Bool → List Nat → List Nat × Bool
  | v, ok, [] => (v, ok)
  | v, true, x :: xs => addAll (addTo v x).1 (addTo v x).2 xs
  | v, false, _ :: xs => addAll v false xs

/-- `SetProvider::insert_values` (roaring_set_provider.rs 116-126). -/
def Sets.insertValues (s : Sets) (k : Nat) (xs : List Nat) : Sets × Bool :=
  (Sets.put s k (addAll ((Sets.get s k).getD []) true xs).1, (addAll ((Sets.get s k).getD []) true xs).2)

/-- `SetProvider::delete` (roaring_set_provider.rs 128-130). -/
def Sets.delete (s : Sets) (k : Nat) : Sets × Bool := (s.filter (fun p => p.1 != k), Sets.has s k)

/-- The arms of `delete_from_set`. -/
def Sets.deleteIn (s : Sets) (k x : Nat) : Option (List Nat) → Sets × Bool
  | some v => (Sets.put s k (v.filter (fun y => y != x)), v.contains x)
  | none => (s, false)

/-- `SetProvider::delete_from_set` (roaring_set_provider.rs 132-138). -/
def Sets.deleteFrom (s : Sets) (k x : Nat) : Sets × Bool := Sets.deleteIn s k x (Sets.get s k)

/-- `RoaringAttributeStore` (roaring_attribute_store.rs 21-28). -/
structure AStore where
  enc : Encoder
  index : Sets
  inv : Sets
deriving Repr

/-- `RoaringAttributeStore::new` (roaring_attribute_store.rs 38-44). -/
def AStore.new : AStore := ⟨Encoder.new, [], []⟩

/-- The loop of `delete` over the attributes of the vector (roaring_attribute_store.rs 99-101). -/
def delLoop (id : Nat) : Sets → Bool → List Nat → Sets × Bool
  | inv, ok, [] => (inv, ok)
  | inv, true, a :: as => delLoop id (Sets.deleteFrom inv a id).1 (Sets.deleteFrom inv a id).2 as
  | inv, false, _ :: as => delLoop id inv false as

/-- The end of `delete` (roaring_attribute_store.rs 102-114): `none` is the error. -/
def AStore.deleteEnd (s : AStore) (id : Nat) (r : Sets × Bool) : AStore × Option Bool :=
  if r.2 then
    if (Sets.delete s.index id).2 then (⟨s.enc, (Sets.delete s.index id).1, r.1⟩, some true)
    else (⟨s.enc, (Sets.delete s.index id).1, r.1⟩, none)
  else (⟨s.enc, s.index, r.1⟩, none)

/-- The arms of the lookup in `delete` (roaring_attribute_store.rs 87-92). -/
def AStore.deleteOf (s : AStore) (id : Nat) : Option (List Nat) → AStore × Option Bool
  | some labels => s.deleteEnd id (delLoop id s.inv true labels)
  | none => (s, some false)

/-- `AttributeStore::delete` (roaring_attribute_store.rs 69-115). -/
def AStore.delete (s : AStore) (id : Nat) : AStore × Option Bool := s.deleteOf id (Sets.get s.index id)

/-- `AttributeStore::id_exists` (roaring_attribute_store.rs 117-123). -/
def AStore.idExists (s : AStore) (id : Nat) : Bool := Sets.has s.index id

/-- The loop over the old attributes in `set_element` (roaring_attribute_store.rs 155-159). -/
def dropLoop (id : Nat) : Sets → List Nat → Sets
  | inv, [] => inv
  | inv, a :: as => dropLoop id (Sets.deleteFrom inv a id).1 as

/-- One round of the loop over the new attributes in `set_element` (roaring_attribute_store.rs 166-170). -/
def AStore.addAttr (id : Nat) (s : AStore) (a : Attr) : AStore :=
  ⟨(s.enc.insert a).1, (Sets.insert s.index id (s.enc.insert a).2).1, (Sets.insert s.inv (s.enc.insert a).2 id).1⟩

/-- The store of `set_element` after the old attributes are gone (roaring_attribute_store.rs 152-163). -/
def AStore.cleared (s : AStore) (id : Nat) : AStore :=
  ⟨s.enc, (Sets.delete s.index id).1, dropLoop id s.inv ((Sets.get s.index id).getD [])⟩

/-- `AttributeStore::set_element` (roaring_attribute_store.rs 125-173): `none` is the error. -/
def AStore.setElement (s : AStore) (id : Nat) (attrs : List Attr) : AStore × Option Bool :=
  if attrs.isEmpty then (s, none) else (attrs.foldl (AStore.addAttr id) (s.cleared id), some true)

/-- `ASTIdExpr<u64>` (ast_id_expr.rs 21-34). -/
inductive IdExpr
  | and (es : List IdExpr)
  | or (es : List IdExpr)
  | not (e : IdExpr)
  | term (id : Nat)

/-- Why a filter cannot be encoded. -/
inductive MapErr
  | json
  | unknown
  | unsupported
deriving DecidableEq, Repr

/-- `_lookup` (ast_label_id_mapper.rs 34-47). -/
def lookupId (enc : Encoder) (a : Attr) : Except MapErr IdExpr :=
  match enc.get a with
  | some i => .ok (.term i)
  | none => .error .unknown

/-- `visit_compare` (ast_label_id_mapper.rs 89-134). -/
def mapCmp (enc : Encoder) (field : Bytes) : CmpOp → Except MapErr IdExpr
  | .eq v =>
    match tryFrom v with
    | some a => lookupId enc (field, a)
    | none => .error .json
  | .ne _ => .error .unsupported
  | .lt _ => .error .unsupported
  | .lte _ => .error .unsupported
  | .gt _ => .error .unsupported
  | .gte _ => .error .unsupported

mutual
/-- `visit` of the mapper (ast_label_id_mapper.rs 54-86); the encoder is the one at the time of the query. -/
def mapExpr (enc : Encoder) : Expr → Except MapErr IdExpr
  | .and es =>
    match mapExprs enc es with
    | .ok xs => .ok (.and xs)
    | .error e => .error e
  | .or es =>
    match mapExprs enc es with
    | .ok xs => .ok (.or xs)
    | .error e => .error e
  | .not e =>
    match mapExpr enc e with
    | .ok x => .ok (.not x)
    | .error e => .error e
  | .cmp f op => mapCmp enc f op
def mapExprs (enc : Encoder) : List Expr → Except MapErr (List IdExpr)
  | [] => .ok []
  | e :: es =>
    match mapExpr enc e with
    | .error e => .error e
    | .ok x =>
      match mapExprs enc es with
      | .error e => .error e
      | .ok xs => .ok (x :: xs)
end

mutual
/-- `PredicateEvaluator` (predicate_evaluator.rs 46-92); `contains` of a roaring treemap does not fail. -/
def evalId (labels : List Nat) : IdExpr → Bool
  | .and es => evalIdAll labels es
  | .or es => evalIdAny labels es
  | .not e => !evalId labels e
  | .term i => labels.contains i
def evalIdAll (labels : List Nat) : List IdExpr → Bool
  | [] => true
  | e :: es => if evalId labels e then evalIdAll labels es else false
def evalIdAny (labels : List Nat) : List IdExpr → Bool
  | [] => false
  | e :: es => if evalId labels e then true else evalIdAny labels es
end

/-- `InlineBetaComputer::apply` (inline_beta_filter.rs 105-124). -/
def applyBeta {K : Type} [Mul K] (beta : K) (e : IdExpr) (d : K) (labels : List Nat) : K :=
  if evalId labels e then d * beta else d

/-- The loop of `start_point_distances` and `expand_beam` (encoded_document_accessor.rs 97-101, 123-127) over the
candidates of the inner accessor: what the callback receives, and whether the loop ends without an error.  The read
lock is taken for every candidate, so each comes with the index of its time. -/
def scoreLoop {K : Type} [Mul K] (beta : K) (e : IdExpr) : List (Sets × Nat × K) → List (Nat × K) × Bool
  | [] => ([], true)
  | (ix, id, d) :: rest =>
    match Sets.get ix id with
    | none => ([], false)
    | some labels => ((id, applyBeta beta e d labels) :: (scoreLoop beta e rest).1, (scoreLoop beta e rest).2)

/-- The loop of `FilterResults::post_process` (inline_beta_filter.rs 155-167): the candidates handed to the inner
post-processor, or an error. -/
def postLoop {K : Type} (e : IdExpr) : List (Sets × Nat × K) → Option (List (Nat × K))
  | [] => some []
  | (ix, id, d) :: rest =>
    match Sets.get ix id with
    | none => none
    | some labels =>
      match postLoop e rest with
      | none => none
      | some out => some (if evalId labels e then (id, d) :: out else out)

/-- `ElementStatus` (diskann/src/provider.rs 222-240). -/
inductive Status
  | valid
  | deleted
deriving DecidableEq, Repr

/-- The decision of `status_by_internal_id` (document_provider.rs 146-159) on what the attribute store and the data
provider say; `none` is an error. -/
def docStatus (inAttrs : Bool) : Option Status → Option Status
  | none => none
  | some st =>
    if inAttrs && decide (st = .deleted) then none
    else if !inAttrs && decide (st = .valid) then none
    else some st

/-- `DocumentProvider` (document_provider.rs 19-22) over a data provider that is the status it gives every id. -/
structure Docs2 where
  status : Nat → Option Status
  attrs : AStore

/-- `SetElement::set_element` (document_provider.rs 83-100); the data provider assigns `id` and marks it valid.  On an
error of the attribute store the guard is dropped, and the data provider puts `id` back to what it was. -/
def Docs2.set (p : Docs2) (id : Nat) (as : List Attr) : Docs2 × Bool :=
  if (p.attrs.setElement id as).2 = none then (⟨p.status, (p.attrs.setElement id as).1⟩, false)
  else (⟨fun j => if j = id then some .valid else p.status j, (p.attrs.setElement id as).1⟩, true)

/-- `Delete::delete` (document_provider.rs 109-115): only the data provider. -/
def Docs2.delete (p : Docs2) (id : Nat) : Docs2 :=
  ⟨fun j => if j = id then some .deleted else p.status j, p.attrs⟩

/-- `Delete::release` (document_provider.rs 117-127); `after` is what the data provider says about a released id. -/
def Docs2.release (after : Option Status) (p : Docs2) (id : Nat) : Docs2 :=
  ⟨fun j => if j = id then after else p.status j, (p.attrs.delete id).1⟩

/-- `status_by_internal_id` (document_provider.rs 129-160). -/
def Docs2.statusOf (p : Docs2) (id : Nat) : Option Status := docStatus (p.attrs.idExists id) (p.status id)

end Verif.Label.Encoded
