import Verif.Model.Frame
/-!
# JSON strings

The part of JSON (RFC 8259) about strings and white space. `serde_json`, which the decoder uses, is not part of the repository; it is modelled after
the RFC.
-/

namespace Defmt.Symbol

open Parser

/-- `char::is_control`: general category `Cc`. -/
def isControl (c : Char) : Bool := c.toNat < 0x20 || (0x7f ≤ c.toNat && c.toNat ≤ 0x9f)

/-- `write!(escaped, "\\u{:04x}", c as u32)` -/
def unicodeEscape (c : Char) : List Char :=
  c!"\\u" ++ List.replicate (4 - (Nat.toDigits 16 c.toNat).length) '0' ++ Nat.toDigits 16 c.toNat

/-! ### JSON (RFC 8259) -/

/-- Value of a hexadecimal digit. -/
def hexValue (c : Char) : Option Nat :=
  if '0' ≤ c ∧ c ≤ '9' then some (c.toNat - 48)
  else if 'a' ≤ c ∧ c ≤ 'f' then some (c.toNat - 87)
  else if 'A' ≤ c ∧ c ≤ 'F' then some (c.toNat - 55)
  else none

/-- Where in a JSON string the reader is: between characters, after a backslash, inside the digits of `\uXXXX` (with
the number of digits still to come, the value so far, and the high surrogate before it, if any), or after a high surrogate,
before the `\` or the `u` of the low surrogate that has to follow. -/
inductive StrState where
  | normal
  | escape
  | hex (left value : Nat) (high : Option Nat)
  | lowBackslash (high : Nat)
  | lowU (high : Nat)
deriving DecidableEq, Repr

/-- The two character escapes of RFC 8259, section 7. -/
def simpleEscape (c : Char) : Option Char :=
  if c = '"' then some '"'
  else if c = '\\' then some '\\'
  else if c = '/' then some '/'
  else if c = 'b' then some (Char.ofNat 8)
  else if c = 'f' then some (Char.ofNat 12)
  else if c = 'n' then some '\n'
  else if c = 'r' then some '\r'
  else if c = 't' then some '\t'
  else none

/-- What four digits (after the high surrogate `high`, if any) mean: a character, or a high surrogate. -/
def hexMeaning (value : Nat) : Option Nat → Option (Char ⊕ Nat)
  | none =>
    if 0xD800 ≤ value ∧ value ≤ 0xDBFF then some (.inr value)
    else if 0xDC00 ≤ value ∧ value ≤ 0xDFFF then none
    else some (.inl (Char.ofNat value))
  | some high =>
    if 0xDC00 ≤ value ∧ value ≤ 0xDFFF then
      some (.inl (Char.ofNat (0x10000 + (high - 0xD800) * 0x400 + (value - 0xDC00))))
    else none

/-- Put a character in front of what is read. -/
def push (c : Char) : Option (List Char × List Char) → Option (List Char × List Char)
  | none => none
  | some (s, rest) => some (c :: s, rest)

/-- Read the rest of a JSON string, after the opening quote: its value, and what comes after the closing quote. -/
def readString : StrState → List Char → Option (List Char × List Char)
  | _, [] => none
  | .normal, c :: rest =>
    if c = '"' then some ([], rest)
    else if c = '\\' then readString .escape rest
    else if c.toNat < 0x20 then none
    else push c (readString .normal rest)
  | .escape, c :: rest =>
    if c = 'u' then readString (.hex 4 0 none) rest
    else match simpleEscape c with
      | some d => push d (readString .normal rest)
      | none => none
  | .hex left value high, c :: rest =>
    match hexValue c with
    | none => none
    | some d =>
      if left ≤ 1 then
        match hexMeaning (value * 16 + d) high with
        | none => none
        | some (.inl ch) => push ch (readString .normal rest)
        | some (.inr h) => readString (.lowBackslash h) rest
      else readString (.hex (left - 1) (value * 16 + d) high) rest
  | .lowBackslash high, c :: rest => if c = '\\' then readString (.lowU high) rest else none
  | .lowU high, c :: rest => if c = 'u' then readString (.hex 4 0 (some high)) rest else none

/-- White space (RFC 8259, section 2). -/
def skipSpace : List Char → List Char
  | [] => []
  | c :: rest => if c = ' ' ∨ c = '\t' ∨ c = '\n' ∨ c = '\r' then skipSpace rest else c :: rest

/-- Skip white space and the character `c`. -/
def expect (c : Char) (s : List Char) : Option (List Char) :=
  match skipSpace s with
  | d :: rest => if d = c then some rest else none
  | [] => none

/-- White space and a string. -/
def readQuoted (s : List Char) : Option (List Char × List Char) :=
  match expect '"' s with
  | none => none
  | some s => readString .normal s

end Defmt.Symbol
