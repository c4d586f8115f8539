import Verif.Model.Parser
/-!
# What a format string means

Independent of the scanner: how text and parameters are written (`render`), which texts are the
parameters of a string (`paramTexts`), how arguments are numbered (`number`).
-/

namespace Defmt.Parser

/-- Writing text in a format string: braces are doubled (book/src/format-slices etc. follow
`core::fmt`). -/
def escape : List Char → List Char
  | [] => []
  | c :: cs => if c = '{' ∨ c = '}' then c :: c :: escape cs else c :: escape cs

/-- The texts between `{` and the next `}`, for every `{` that is not part of `{{`. -/
def paramTexts : List Char → List (List Char)
  | [] => []
  | '{' :: '{' :: r => paramTexts r
  | '{' :: r => r.takeWhile (· ≠ '}') :: paramTexts r
  | _ :: r => paramTexts r

/-- The explicit argument index a parameter text starts with. -/
def explicitIndex (text : List Char) : Option Nat :=
  let ds := text.takeWhile Char.isDigit
  if ds = [] then none else some (Nat.ofDigitChars 10 ds 0)

/-- Argument numbering: the k-th parameter without explicit index refers to argument
`k` (starting at `next`), the others to their explicit index. -/
def number (next : Nat) : List (Option Nat) → List Nat
  | [] => []
  | some i :: r => i :: number next r
  | none :: r => next :: number (next + 1) r

/-- Same type, where all bitfields are considered the same type. -/
def SameKind (a b : Ty) : Prop :=
  a = b ∨ ∃ s e s' e', a = .bitField s e ∧ b = .bitField s' e'

/-- The argument indices are exactly `0, …, n-1`. -/
def Dense (ps : List Parameter) (n : Nat) : Prop :=
  (∀ p ∈ ps, p.index < n) ∧ ∀ i < n, ∃ p ∈ ps, p.index = i

/-- All uses of one argument have the same type. -/
def Consistent (ps : List Parameter) : Prop :=
  ∀ p ∈ ps, ∀ q ∈ ps, p.index = q.index → SameKind p.ty q.ty

/-! ## Written form of parameters -/

/-- A number in decimal. -/
def decimal (n : Nat) : List Char := Nat.toDigits 10 n

/-- The type as written after `=` (`spaces` are the optional blanks in array types). -/
def renderTy (spaces : Nat) : Ty → List Char
  | .bitField s e => decimal s ++ c!".." ++ decimal e
  | .bool => c!"bool"
  | .char => c!"char"
  | .debug => c!"__internal_Debug"
  | .display => c!"__internal_Display"
  | .formatSequence => c!"__internal_FormatSequence"
  | .f32 => c!"f32"
  | .f64 => c!"f64"
  | .format => c!"?"
  | .formatArray n => c!"[?;" ++ List.replicate spaces ' ' ++ decimal n ++ c!"]"
  | .formatSlice => c!"[?]"
  | .i8 => c!"i8"
  | .i16 => c!"i16"
  | .i32 => c!"i32"
  | .i64 => c!"i64"
  | .i128 => c!"i128"
  | .isize => c!"isize"
  | .istr => c!"istr"
  | .str => c!"str"
  | .u8 => c!"u8"
  | .u16 => c!"u16"
  | .u32 => c!"u32"
  | .u64 => c!"u64"
  | .u128 => c!"u128"
  | .usize => c!"usize"
  | .u8Slice => c!"[u8]"
  | .u8Array n => c!"[u8;" ++ List.replicate spaces ' ' ++ decimal n ++ c!"]"

/-- Types that exist: bit ranges are nonempty and within 128 bits, array lengths fit in `usize`. -/
def Ty.Valid : Ty → Prop
  | .bitField s e => s < e ∧ e ≤ 128
  | .formatArray n | .u8Array n => n < 2 ^ 64
  | _ => True

/-- Zero padding as written: nothing for 0. -/
def renderPad (n : Nat) : List Char := if n = 0 then [] else '0' :: decimal n

def renderAlt (alternate : Bool) : List Char := if alternate then c!"#" else []

/-- The hint as written after `:`. -/
def renderHint : Hint → List Char
  | .noHint n => '0' :: decimal n
  | .hexadecimal a u n => renderAlt a ++ renderPad n ++ (if u then c!"X" else c!"x")
  | .octal a n => renderAlt a ++ renderPad n ++ c!"o"
  | .binary a n => renderAlt a ++ renderPad n ++ c!"b"
  | .ascii => c!"a"
  | .debug => c!"?"
  | .seconds .micros => c!"us"
  | .seconds .millis => c!"ms"
  | .seconds .seconds => []
  | .time .micros => c!"tus"
  | .time .millis => c!"tms"
  | .time .seconds => c!"ts"
  | .iso8601 .millis => c!"iso8601ms"
  | .iso8601 .seconds => c!"iso8601s"
  | .iso8601 .micros => []
  | .bitflags n p d c =>
    c!"__internal_bitflags_" ++ n ++ c!"@" ++ p ++ c!"@" ++ d ++
      (match c with | none => [] | some c => c!"@" ++ c)
  | .cbor => c!"cbor"
  | .unknown s => s

/-- A text without `@` and braces. -/
def Plain (s : List Char) : Prop := '@' ∉ s ∧ '{' ∉ s ∧ '}' ∉ s

/-- Hints that can be written: padding fits in `usize`, the parts of a bitflags hint are plain,
seconds/dates exist only in the documented precisions. A hint `unknown s` stands for a hint of a
future version: any nonempty text without braces that today's parser does not know; only the host
accepts it. -/
def Hint.Valid (mode : Mode) : Hint → Prop
  | .noHint n | .hexadecimal _ _ n | .octal _ n | .binary _ n => n < 2 ^ 64
  | .seconds p => p ≠ .seconds
  | .iso8601 p => p ≠ .micros
  | .bitflags n p d c => Plain n ∧ Plain p ∧ Plain d ∧ ∀ c' ∈ c, Plain c'
  | .unknown s => mode = .forwardsCompatible ∧ s ≠ [] ∧ '{' ∉ s ∧ '}' ∉ s ∧ parseHint s = none
  | _ => True

/-- A parameter as the user writes it. -/
structure Written where
  index : Option Nat
  ty : Option Ty
  spaces : Nat
  hint : Option Hint

def indexPart : Option Nat → List Char
  | none => []
  | some i => decimal i

def typePart (spaces : Nat) : Option Ty → List Char
  | none => []
  | some t => '=' :: renderTy spaces t

def hintPart : Option Hint → List Char
  | none => []
  | some h => ':' :: renderHint h

/-- The text between the braces. -/
def Written.text (w : Written) : List Char :=
  indexPart w.index ++ typePart w.spaces w.ty ++ hintPart w.hint

/-- No type written means `=?`. -/
def Written.type (w : Written) : Ty :=
  match w.ty with
  | none => .format
  | some t => t

def Written.Valid (mode : Mode) (w : Written) : Prop :=
  (∀ i ∈ w.index, i < 2 ^ 64) ∧ (∀ t ∈ w.ty, t.Valid) ∧ (∀ h ∈ w.hint, h.Valid mode)

/-- A format string: pieces of text and parameters. -/
inductive Item where
  | text (t : List Char)
  | param (w : Written)

/-- The format string as written. -/
def render : List Item → List Char
  | [] => []
  | .text t :: r => escape t ++ render r
  | .param w :: r => '{' :: w.text ++ '}' :: render r

/-- The fragments it stands for; `next` is the next implicit argument. -/
def meaning (next : Nat) : List Item → List Fragment
  | [] => []
  | .text t :: r => .literal t :: meaning next r
  | .param w :: r =>
    match w.index with
    | some i => .param ⟨i, w.type, w.hint⟩ :: meaning next r
    | none => .param ⟨next, w.type, w.hint⟩ :: meaning (next + 1) r

/-- Texts are nonempty, two texts are not adjacent (they would be one), parameters are valid. -/
def ItemsValid (mode : Mode) : List Item → Prop
  | [] => True
  | .text t :: r => t ≠ [] ∧ (∀ t' r', r ≠ .text t' :: r') ∧ ItemsValid mode r
  | .param w :: r => w.Valid mode ∧ ItemsValid mode r

end Defmt.Parser

namespace Defmt.Parser

/-- The type text of a parameter text: after the index, what follows `=` up to `:`. -/
def typeText (text : List Char) : Option (List Char) :=
  match text.dropWhile Char.isDigit with
  | '=' :: r => some (r.takeWhile (· ≠ ':'))
  | _ => none

/-- If a type starts with a digit, the number is followed by `..` (as in every bit range). -/
def RangeLike (ty : List Char) : Prop :=
  ∀ d r, ty = d :: r → d.isDigit = true → ∃ rest, ty.dropWhile Char.isDigit = '.' :: '.' :: rest

/-- No opening brace directly next to a closing brace. -/
def Unmixed : List Char → Prop
  | [] => True
  | [_] => True
  | a :: b :: r => ¬(a = '{' ∧ b = '}') ∧ ¬(a = '}' ∧ b = '{') ∧ Unmixed (b :: r)

end Defmt.Parser
