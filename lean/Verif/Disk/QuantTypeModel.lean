import Verif.Record.TextModel
/-
Model of the textual form of quantization types: how the disk index build configuration prints, stores and
reads back the quantizer it was asked to use.

Source: /repo/diskann-disk/src/build/configuration/quantization_types.rs 24-223.  Strings are lists of
characters.  Unicode tables (`char::is_whitespace`, `char::to_lowercase`) and the text of an `f64` are
parameters: `Text` fixes what they do on ASCII and `Num` says which texts stand for which numbers.
-/
namespace Verif.Disk.QuantType

open Verif.Record (Str dec digitVal splitOn)

/-- ASCII lower case of one character (`char::to_ascii_lowercase`). -/
def asciiLower (c : Char) : Char := if 65 ≤ c.toNat ∧ c.toNat ≤ 90 then Char.ofNat (c.toNat + 32) else c

/-- ASCII white space in the sense of `char::is_whitespace`: tab to carriage return, and space. -/
def asciiSpace (c : Char) : Bool := (9 ≤ c.toNat && c.toNat ≤ 13) || c.toNat == 32

/-- `char::is_whitespace` and `char::to_lowercase` (one character may become several), known on ASCII. -/
structure Text where
  space : Char → Bool
  lower : Char → Str
  space_ascii : ∀ c : Char, c.toNat < 128 → space c = asciiSpace c
  lower_ascii : ∀ c : Char, c.toNat < 128 → lower c = [asciiLower c]

/-- `f64` with its `FromStr` and `ToString`, and the test of `Positive::new`
(/repo/diskann-quantization/src/num.rs 28-34).  What is known of them: printing a positive number and
reading it gives the number back, the printed text has only lower case ASCII letters, digits and signs
(`inf`, `2.98`, `1e300` is printed in full), and `none` is not a number. -/
structure Num where
  F : Type
  read : Str → Option F
  print : F → Str
  positive : F → Bool
  read_print : ∀ x, positive x = true → read (print x) = some x
  print_plain : ∀ x, positive x = true → ∀ c ∈ print x,
    c.toNat < 128 ∧ asciiLower c = c ∧ asciiSpace c = false ∧ c ≠ '_'
  read_none : read ['n', 'o', 'n', 'e'] = none

/-- `QuantizationType` (24-46).  `SphericalBits` (54-57) has one value, so `spherical` carries nothing. -/
inductive QType (F : Type)
  | fp
  | pq (chunks : Nat)
  | sq (nbits : Nat) (dev : Option F)
  | spherical

/-- `str::trim`: white space is dropped at both ends. -/
def trim (T : Text) (s : Str) : Str := ((s.dropWhile T.space).reverse.dropWhile T.space).reverse

/-- `str::to_lowercase` (ignoring the context-dependent final sigma, which yields no ASCII character). -/
def toLower (T : Text) (s : Str) : Str := s.flatMap T.lower

/-- The digit loop of `usize::from_str_radix` on a 64-bit machine. -/
def readDigits : Nat → Str → Option Nat
  | acc, [] => some acc
  | acc, c :: cs =>
    match digitVal c with
    | none => none
    | some d => if acc * 10 + d < 2 ^ 64 then readDigits (acc * 10 + d) cs else none

/-- `str::parse::<usize>` (142, 159): an optional `+`, then at least one digit. -/
def readUsize : Str → Option Nat
  | [] => none
  | c :: cs => if c = '+' then (if cs = [] then none else readDigits 0 cs) else readDigits 0 (c :: cs)

/-- The standard deviation of `sq` (166-182): parsed, then checked by `Positive::new`. -/
def readDev (N : Num) (s : Str) : Option N.F :=
  match N.read s with
  | none => none
  | some x => if N.positive x then some x else none

/-- The parts after the first, for each name (127-202).  `none` is a `QuantizationTypeParseError`. -/
def fromParts (N : Num) : List Str → Option (QType N.F)
  | [] => none
  | name :: rest =>
    if name = ['f', 'p'] then
      (if rest.length + 1 ≠ 1 then none else some .fp)
    else if name = ['p', 'q'] then
      (match rest with
      | [a] =>
        match readUsize a with
        | none => none
        | some n => if n = 0 then none else some (.pq n)
      | _ => none)
    else if name = ['s', 'q'] then
      (match rest with
      | [a] =>
        match readUsize a with
        | none => none
        | some n => some (.sq n none)
      | [a, b] =>
        match readUsize a with
        | none => none
        | some n =>
          match readDev N b with
          | none => none
          | some x => some (.sq n (some x))
      | _ => none)
    else if name = ['s', 'p', 'h', 'e', 'r', 'i', 'c', 'a', 'l'] then
      (match rest with
      | [a] => if a = ['1'] then some .spherical else none
      | _ => none)
    else none

/-- `QuantizationType::from_str` (121-203), also what `Deserialize` runs (95-119). -/
def fromStr (T : Text) (N : Num) (s : Str) : Option (QType N.F) :=
  fromParts N (splitOn '_' (toLower T (trim T s)))

/-- `Display for QuantizationType` (205-223), also what `Serialize` stores (86-93). -/
def display (N : Num) : QType N.F → Str
  | .pq n => ['P', 'Q', '_'] ++ dec n
  | .fp => ['F', 'P']
  | .spherical => ['S', 'P', 'H', 'E', 'R', 'I', 'C', 'A', 'L', '_', '1']
  | .sq n d =>
    ['S', 'Q', '_'] ++ dec n ++ '_' ::
      (match d with
      | some x => N.print x
      | none => ['N', 'o', 'n', 'e'])

end Verif.Disk.QuantType
