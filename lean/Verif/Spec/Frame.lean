import Verif.Model.Parser
/-! Specification side of the display properties: numerals, times, byte string literals. -/

namespace Defmt.Display

/-- `Numeral alphabet cs n`: `cs` is the way to write `n` in the base given by the alphabet, without
superfluous leading zeros. -/
inductive Numeral (alphabet : List Char) : List Char → Nat → Prop where
  | digit {c : Char} {d : Nat} : alphabet[d]? = some c → Numeral alphabet [c] d
  | snoc {cs : List Char} {n : Nat} {c : Char} {d : Nat} :
    Numeral alphabet cs n → n ≠ 0 → alphabet[d]? = some c →
      Numeral alphabet (cs ++ [c]) (n * alphabet.length + d)

def binaryDigits : List Char := c!"01"
def octalDigits : List Char := c!"01234567"
def decimalDigits : List Char := c!"0123456789"
def hexadecimalDigits : List Char := c!"0123456789abcdef"
def upperHexDigits : List Char := c!"0123456789ABCDEF"

/-- `out` is the number `n` written with the alphabet: prefix, then zeros, then the numeral; zeros
are used only to reach the width. -/
def NumberText (alphabet pre : List Char) (width n : Nat) (out : List Char) : Prop :=
  ∃ zeros ds, out = pre ++ List.replicate zeros '0' ++ ds ∧ Numeral alphabet ds n ∧
    out.length = max width (pre.length + ds.length)

/-- Exactly `w` decimal digits for `n`. -/
def fixedDigits : Nat → Nat → List Char
  | 0, _ => []
  | w + 1, n => fixedDigits w (n / 10) ++ [Char.ofNat (48 + n % 10)]

/-- hexadecimal digit -/
def hexValue (c : Char) : Option Nat := hexadecimalDigits.findIdx? (· == c)

/-- The escapes of one letter in a Rust byte string literal. -/
def letterEscapes : List (Char × UInt8) := [('t', 9), ('n', 10), ('r', 13), ('\\', 92), ('"', 34)]

/-- The inner part of a Rust byte string literal up to and including the closing quote: plain
ASCII, the escapes of one letter, `\xNN`. -/
def readLiteralBody : List Char → Option (List UInt8)
  | [] => none
  | c :: rest =>
    if c = '"' then if rest = [] then some [] else none
    else if c = '\\' then
      match rest with
      | [] => none
      | e :: rest =>
        if e = 'x' then
          match rest with
          | a :: b :: rest =>
            match hexValue a, hexValue b with
            | some x, some y => (readLiteralBody rest).map (UInt8.ofNat (16 * x + y) :: ·)
            | _, _ => none
          | _ => none
        else
          match letterEscapes.lookup e with
          | some v => (readLiteralBody rest).map (v :: ·)
          | none => none
    else if c.toNat < 128 then (readLiteralBody rest).map (UInt8.ofNat c.toNat :: ·)
    else none

/-- Value of a Rust byte string literal `b"..."`. -/
def readByteString : List Char → Option (List UInt8)
  | 'b' :: '"' :: rest => readLiteralBody rest
  | _ => none

/-- How a byte is written in a byte string literal: printable ASCII characters as themselves (quote and backslash after a backslash), tab and ends of
lines with their letter, everything else as two lower case hexadecimal digits. -/
def literalByte (b : UInt8) : List Char :=
  let n := b.toNat
  let hex := c!"0123456789abcdef"
  if 32 ≤ n ∧ n ≤ 126 then
    let c := Char.ofNat n
    if c = '"' ∨ c = '\\' then ['\\', c] else [c]
  else if n = 9 then c!"\\t"
  else if n = 10 then c!"\\n"
  else if n = 13 then c!"\\r"
  else ['\\', 'x', hex.getD (n / 16) '?', hex.getD (n % 16) '?']

/-- names separated by `" | "` -/
def separated (sep : List Char) : List (List Char) → List Char
  | [] => []
  | [a] => a
  | a :: as => a ++ sep ++ separated sep as

/-- `Filled shown fs m`: `m` is the text of the fragments in order, every parameter replaced by a
text that `shown` allows for it. -/
inductive Filled (shown : Parser.Parameter → List Char → Prop) : List Parser.Fragment → List Char → Prop where
  | nil : Filled shown [] []
  | literal {text fs m} : Filled shown fs m → Filled shown (.literal text :: fs) (text ++ m)
  | param {p s fs m} : shown p s → Filled shown fs m → Filled shown (.param p :: fs) (s ++ m)

/-- `Each shown as ss`: the texts `ss` are shown for the `as`, one for each. -/
inductive Each {α : Type} (shown : α → List Char → Prop) : List α → List (List Char) → Prop where
  | nil : Each shown [] []
  | cons {a s as ss} : shown a s → Each shown as ss → Each shown (a :: as) (s :: ss)

end Defmt.Display
