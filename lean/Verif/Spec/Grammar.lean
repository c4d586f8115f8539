import Verif.Spec.Parser
/-!
# Which format strings there are

The grammar of format strings as a relation: a text of a parameter and what it means, a format string
as pieces of text and parameters.
-/

namespace Defmt.Parser

/-- `s` is a number below `bound` in decimal; leading zeros are allowed. -/
def Number (bound : Nat) (s : List Char) (n : Nat) : Prop :=
  s ≠ [] ∧ (∀ c ∈ s, c.isDigit = true) ∧ Nat.ofDigitChars 10 s 0 = n ∧ n < bound

/-- Types that are a single word. -/
def Ty.Word : Ty → Prop
  | .bitField .. | .formatArray _ | .u8Array _ => False
  | _ => True

/-- A type as written after `=`. -/
inductive TypeText : List Char → Ty → Prop where
  | word {t : Ty} : t.Word → TypeText (renderTy 0 t) t
  | u8Array {k ds n} : Number (2 ^ 64) ds n → TypeText (c!"[u8;" ++ List.replicate k ' ' ++ ds ++ c!"]") (.u8Array n)
  | formatArray {k ds n} : Number (2 ^ 64) ds n → TypeText (c!"[?;" ++ List.replicate k ' ' ++ ds ++ c!"]") (.formatArray n)
  | bits {a b s e} : Number 256 a s → Number 256 b e → s < e → e ≤ 128 → TypeText (a ++ c!".." ++ b) (.bitField s e)

/-- The words for hints. All can be written with `#` and zero padding, only some of them use these. -/
def hintWords (alternate : Bool) (pad : Nat) : List (List Char × Hint) :=
  [(c!"", .noHint pad), (c!"x", .hexadecimal alternate false pad), (c!"X", .hexadecimal alternate true pad),
   (c!"b", .binary alternate pad), (c!"o", .octal alternate pad), (c!"a", .ascii), (c!"?", .debug), (c!"cbor", .cbor),
   (c!"us", .seconds .micros), (c!"ms", .seconds .millis), (c!"tus", .time .micros), (c!"tms", .time .millis),
   (c!"ts", .time .seconds), (c!"iso8601ms", .iso8601 .millis), (c!"iso8601s", .iso8601 .seconds)]

/-- `#` or nothing -/
inductive AltText : List Char → Bool → Prop where
  | yes : AltText c!"#" true
  | no : AltText [] false

/-- `0` and the width, or nothing -/
inductive PadText : List Char → Nat → Prop where
  | width {ds n} : Number (2 ^ 64) ds n → PadText ('0' :: ds) n
  | none : PadText [] 0

/-- What the `bitflags!` macro writes. -/
inductive FlagsText : List Char → Hint → Prop where
  | noCrate {n p d} : '@' ∉ n → '@' ∉ p → '@' ∉ d → FlagsText (n ++ c!"@" ++ p ++ c!"@" ++ d) (.bitflags n p d none)
  | withCrate {n p d c} : '@' ∉ n → '@' ∉ p → '@' ∉ d → '@' ∉ c →
      FlagsText (n ++ c!"@" ++ p ++ c!"@" ++ d ++ c!"@" ++ c) (.bitflags n p d (some c))
  | other {s} : s.count '@' ≠ 2 → s.count '@' ≠ 3 → FlagsText s (.unknown (c!"__internal_bitflags_" ++ s))

/-- A hint this version knows. -/
inductive KnownHint : List Char → Hint → Prop where
  | word {a p s alternate pad h} : AltText a alternate → PadText p pad → (s, h) ∈ hintWords alternate pad →
      KnownHint (a ++ p ++ s) h
  | flags {a p s alternate pad h} : AltText a alternate → PadText p pad → FlagsText s h →
      KnownHint (a ++ p ++ (c!"__internal_bitflags_" ++ s)) h

/-- A hint as written after `:`. The host takes any other text as unknown hint. -/
inductive HintText (m : Mode) : List Char → Hint → Prop where
  | known {s h} : s ≠ [] → KnownHint s h → HintText m s h
  | unknown {s} : m = .forwardsCompatible → s ≠ [] → (∀ h, ¬ KnownHint s h) → HintText m s (.unknown s)

/-- the optional index -/
inductive IndexPart : List Char → Option Nat → Prop where
  | none : IndexPart [] none
  | some {ds n} : Number (2 ^ 64) ds n → IndexPart ds (some n)

/-- the optional type -/
inductive TypePart : List Char → Ty → Prop where
  | none : TypePart [] .format
  | some {s t} : TypeText s t → TypePart ('=' :: s) t

/-- the optional hint -/
inductive HintPart (m : Mode) : List Char → Option Hint → Prop where
  | none : HintPart m [] none
  | some {s h} : HintText m s h → HintPart m (':' :: s) (some h)

/-- The text between the braces of a parameter: index, type and hint, all optional. -/
inductive ParamText (m : Mode) : List Char → Param → Prop where
  | mk {a b c index ty hint} : IndexPart a index → TypePart b ty → HintPart m c hint →
      ParamText m (a ++ b ++ c) ⟨index, ty, hint⟩

/-- The next run of braces, and what follows. -/
def braces (s : List Char) : List Char := s.takeWhile (fun c => c = '{' ∨ c = '}')

/-- In every run of braces there is an even number of each. -/
def EvenRuns (s : List Char) : Prop :=
  ∀ a b, s = a ++ b → (∀ c, a.getLast? = some c → c ≠ '{' ∧ c ≠ '}') →
    (braces b).count '{' % 2 = 0 ∧ (braces b).count '}' % 2 = 0

/-- Every pair of `c` becomes a single `c`, from the left. -/
def single (c : Char) : List Char → List Char
  | a :: b :: r => if a = c ∧ b = c then c :: single c r else a :: single c (b :: r)
  | r => r

/-- `raw` is text, i.e. without parameters, written in a format string, and stands for `t`. -/
def TextWritten (raw t : List Char) : Prop :=
  raw ≠ [] ∧ paramTexts raw = [] ∧ EvenRuns raw ∧ t = single '}' (single '{' raw)

/-- A piece of a format string. -/
inductive Piece where
  | text (raw : List Char)
  | param (text : List Char)

/-- The string the pieces make. -/
def glue : List Piece → List Char
  | [] => []
  | .text raw :: r => raw ++ glue r
  | .param text :: r => '{' :: text ++ '}' :: glue r

/-- What the pieces mean; `next` is the next implicit argument. No two texts are adjacent. -/
inductive Means (m : Mode) : Nat → List Piece → List Fragment → Prop where
  | nil {next} : Means m next [] []
  | text {next raw t r fs} : TextWritten raw t → (∀ raw' r', r ≠ .text raw' :: r') → Means m next r fs →
      Means m next (.text raw :: r) (.literal t :: fs)
  | explicit {next text i ty hint r fs} : '{' ∉ text → '}' ∉ text → ParamText m text ⟨some i, ty, hint⟩ → Means m next r fs →
      Means m next (.param text :: r) (.param ⟨i, ty, hint⟩ :: fs)
  | implicit {next text ty hint r fs} : '{' ∉ text → '}' ∉ text → ParamText m text ⟨none, ty, hint⟩ → Means m (next + 1) r fs →
      Means m next (.param text :: r) (.param ⟨next, ty, hint⟩ :: fs)

end Defmt.Parser
