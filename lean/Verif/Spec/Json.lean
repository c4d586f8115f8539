import Verif.Model.Json
/-! The grammar of JSON (RFC 8259): `JsonText s j` says that `s` is a JSON text with the value `j`. -/

namespace Defmt.Json

open Parser

/-- white space (section 2) -/
def Ws (s : List Char) : Prop := ∀ c ∈ s, c = ' ' ∨ c = '\t' ∨ c = '\n' ∨ c = '\r'

/-- a hexadecimal digit and its value -/
def HexDigit (c : Char) (v : Nat) : Prop := v < 16 ∧ (c = Nat.digitChar v ∨ c = (Nat.digitChar v).toUpper)

/-- four hexadecimal digits and their value -/
def Hex4 (s : List Char) (n : Nat) : Prop :=
  ∃ x1 x2 x3 x4 a b c d, s = [x1, x2, x3, x4] ∧ HexDigit x1 a ∧ HexDigit x2 b ∧ HexDigit x3 c ∧ HexDigit x4 d ∧
    n = a * 4096 + b * 256 + c * 16 + d

/-- the escapes with two characters: the letter and what it stands for -/
def twoCharacters : List (Char × Char) :=
  [('"', '"'), ('\\', '\\'), ('/', '/'), ('b', Char.ofNat 8), ('f', Char.ofNat 12), ('n', Char.ofNat 10), ('r', Char.ofNat 13), ('t', Char.ofNat 9)]

/-- The inside of a string and its value (section 7). -/
inductive StringBody : List Char → List Char → Prop where
  | nil : StringBody [] []
  | plain {c t v} : c ≠ '"' → c ≠ '\\' → 0x20 ≤ c.toNat → StringBody t v → StringBody (c :: t) (c :: v)
  | escape {e d t v} : (e, d) ∈ twoCharacters → StringBody t v → StringBody ('\\' :: e :: t) (d :: v)
  | unicode {ds n t v} : Hex4 ds n → (n < 0xD800 ∨ 0xDFFF < n) → StringBody t v → StringBody ('\\' :: 'u' :: (ds ++ t)) (Char.ofNat n :: v)
  | pair {ds es high low t v} : Hex4 ds high → 0xD800 ≤ high → high ≤ 0xDBFF → Hex4 es low → 0xDC00 ≤ low → low ≤ 0xDFFF → StringBody t v →
      StringBody ('\\' :: 'u' :: (ds ++ '\\' :: 'u' :: (es ++ t))) (Char.ofNat (0x10000 + (high - 0xD800) * 0x400 + (low - 0xDC00)) :: v)

/-- one or more digits -/
def Digits (ds : List Char) : Prop := ds ≠ [] ∧ ∀ c ∈ ds, '0' ≤ c ∧ c ≤ '9'

/-- the parts of a number (section 6) -/
def IntPart (ds : List Char) : Prop := Digits ds ∧ (ds.head? = some '0' → ds = ['0'])
def FracPart (s : List Char) : Prop := s = [] ∨ ∃ ds, Digits ds ∧ s = '.' :: ds
def ExpPart (s : List Char) : Prop := s = [] ∨ ∃ e sign ds, (e = 'e' ∨ e = 'E') ∧ (sign = [] ∨ sign = ['+'] ∨ sign = ['-']) ∧ Digits ds ∧ s = e :: sign ++ ds

/-- A number. -/
inductive Number : List Char → Json → Prop where
  | positive {ds} : IntPart ds → Number ds (.num (digitsValue ds))
  | negative {ds} : IntPart ds → Number ('-' :: ds) (.num (- (digitsValue ds : Int)))
  | decimal {sign ds fraction exponent} : (sign = [] ∨ sign = ['-']) → IntPart ds → FracPart fraction → ExpPart exponent →
      (fraction ≠ [] ∨ exponent ≠ []) → Number (sign ++ ds ++ fraction ++ exponent) (.decimal (sign ++ ds ++ fraction ++ exponent))

mutual

/-- A value, without white space around it (section 3). -/
inductive Value : List Char → Json → Prop where
  | null : Value c!"null" .null
  | true : Value c!"true" (.bool true)
  | false : Value c!"false" (.bool false)
  | number {t j} : Number t j → Value t j
  | string {t v} : StringBody t v → Value ('"' :: (t ++ ['"'])) (.str v)
  | emptyArray {w} : Ws w → Value ('[' :: (w ++ [']'])) (.arr [])
  | array {t es} : Elements t es → Value ('[' :: (t ++ [']'])) (.arr es)
  | emptyObject {w} : Ws w → Value ('{' :: (w ++ ['}'])) (.obj [])
  | object {t ms} : Members t ms → Value ('{' :: (t ++ ['}'])) (.obj ms)

/-- The elements of an array (section 5). -/
inductive Elements : List Char → List Json → Prop where
  | one {w t w' j} : Ws w → Value t j → Ws w' → Elements (w ++ (t ++ w')) [j]
  | more {w t w' j rest es} : Ws w → Value t j → Ws w' → Elements rest es → Elements (w ++ (t ++ (w' ++ ',' :: rest))) (j :: es)

/-- The members of an object (section 4). -/
inductive Members : List Char → List (List Char × Json) → Prop where
  | one {w k key w1 w2 t j w3} : Ws w → StringBody k key → Ws w1 → Ws w2 → Value t j → Ws w3 →
      Members (w ++ '"' :: (k ++ '"' :: (w1 ++ ':' :: (w2 ++ (t ++ w3))))) [(key, j)]
  | more {w k key w1 w2 t j w3 rest ms} : Ws w → StringBody k key → Ws w1 → Ws w2 → Value t j → Ws w3 → Members rest ms →
      Members (w ++ '"' :: (k ++ '"' :: (w1 ++ ':' :: (w2 ++ (t ++ (w3 ++ ',' :: rest)))))) ((key, j) :: ms)

end

/-- A JSON text (section 2). -/
def JsonText (s : List Char) (j : Json) : Prop := ∃ w t w', s = w ++ (t ++ w') ∧ Ws w ∧ Value t j ∧ Ws w'

end Defmt.Json
