import Verif.Spec.LogFormat
import Verif.Spec.Grammar
/-!
# What is read from any text between brackets
-/

namespace Defmt.LogFormat

open Parser

/-- A word that means something: a specifier, a colour (also `severity` and `werror`), a style. The number of `f`s is taken modulo 256; what is the name
of a colour, `colored` decides. -/
inductive WordText (t : Term) : List Char → Metadata ⊕ Param → Prop
  | metadata {w m} : MetadataText w m → WordText t w (.inl m)
  | files (n : Nat) : 256 ≤ n → WordText t (List.replicate n 'f') (.inl (.fileName (n % 256)))
  | severity : WordText t c!"severity" (.inr (.color .severity))
  | werror : WordText t c!"werror" (.inr (.color .warnError))
  | color {w c} : (∀ x ∈ w, t.alphabetic x = true) → t.colorFromStr w = some c → WordText t w (.inr (.color (.color c)))
  | bold : WordText t c!"bold" (.inr (.style .bold))
  | italic : WordText t c!"italic" (.inr (.style .italic))
  | underline : WordText t c!"underline" (.inr (.style .underline))
  | strike : WordText t c!"strike" (.inr (.style .strike))
  | dimmed : WordText t c!"dimmed" (.inr (.style .dimmed))

/-- A piece of the text, and what follows it: a whole word, or a whole number, perhaps after `<`, `^` or `>`. -/
inductive Piece (t : Term) : List Char → Metadata ⊕ Param → List Char → Prop
  | word {w x rest} : WordText t w x → (∀ c, rest.head? = some c → t.alphabetic c = false) → Piece t w x rest
  | number (a : Option Alignment) {ds n rest} : Number (2 ^ 64) ds n →
      (∀ c, rest.head? = some c → isDigit c = false) →
      Piece t (alignmentText a ++ ds) (.inr (.width n (if ds.head? = some '0' then .zero else .space) a)) rest

/-- `Reads t s xs rest`: `s` is a list of pieces with a colon between two of them, and `rest`. -/
inductive Reads (t : Term) : List Char → List (Metadata ⊕ Param) → List Char → Prop
  | last {w x rest} : Piece t w x rest → Reads t (w ++ rest) [x] rest
  | more {w x s xs rest} : Piece t w x (':' :: s) → Reads t s xs rest → Reads t (w ++ ':' :: s) (x :: xs) rest

/-- One specifier, at any place among the pieces, and parameters of which none is given twice. -/
def FieldOf (xs : List (Metadata ⊕ Param)) (m : Metadata) (ps : List Param) : Prop :=
  xs.filterMap Sum.getLeft? = [m] ∧ xs.filterMap Sum.getRight? = ps ∧ ParamsAllowed ps

/-- A text without brackets, percent signs and backslashes -/
def Simple (s : List Char) : Prop := ∀ c ∈ s, c ≠ '{' ∧ c ≠ '}' ∧ c ≠ '%' ∧ c ≠ '\\'

/-! ## Groups -/

/-- No piece can be read at the start. -/
def NoPiece (t : Term) (s : List Char) : Prop := ∀ w x rest, Piece t w x rest → s ≠ w ++ rest

/-- `Leads t s xs g`: pieces, each with a colon after it, and then `g`. -/
inductive Leads (t : Term) : List Char → List (Metadata ⊕ Param) → List Char → Prop
  | nil {g} : Leads t g [] g
  | cons {w x s xs g} : Piece t w x (':' :: s) → Leads t s xs g → Leads t (w ++ ':' :: s) (x :: xs) g

/-- A field as it is read in a group: as many pieces as possible, `rest` is what follows them. -/
def FieldRead (t : Term) (s : List Char) (seg : Segment) (rest : List Char) : Prop :=
  ∃ xs m ps, Reads t s xs rest ∧ (∀ w x r, Piece t w x r → rest ≠ ':' :: (w ++ r)) ∧ FieldOf xs m ps ∧ seg = .field m (formatOf ps)

/-- `Body between t s segs ps`: the inside of a group. Texts and pairs of brackets, which stand for `segs` (`between` says what the text
between a pair of brackets stands for), and parameters, each after a percent sign, in any order. A bracket that is never closed
ends it. -/
inductive Body (between : List Char → Segment → Prop) (t : Term) : List Char → List Segment → List Param → Prop
  | nil : Body between t [] [] []
  | unclosed {s n} : Inside s n → Body between t ('{' :: s) [] []
  | text {w rest segs ps} : w ≠ [] → (∀ c ∈ w, c ≠ '{' ∧ c ≠ '%') → (∀ c, rest.head? = some c → c = '{' ∨ c = '%') →
      Body between t rest segs ps → Body between t (w ++ rest) (.text w :: segs) ps
  | bracket {content seg rest segs ps} : Inside content 0 → between content seg → Body between t rest segs ps →
      Body between t ('{' :: content ++ ['}'] ++ rest) (seg :: segs) ps
  | param {w p rest segs ps} : Piece t w (.inr p) rest → Body between t rest segs ps → Body between t ('%' :: (w ++ rest)) segs (p :: ps)

/-- `Items between t s segs ps`: the text between brackets in a group. Fields and parameters, with a percent sign between two of them,
perhaps with a group as the last one (one of the parts of a group is a specifier, and no parameter is given twice). A text is taken for a
field if it can be, else for a parameter, else for a group. What follows the last one is ignored. -/
inductive Items (between : List Char → Segment → Prop) (t : Term) : List Char → List Segment → List Param → Prop
  | lastField {s seg rest} : FieldRead t s seg rest → rest.head? ≠ some '%' → Items between t s [seg] []
  | field {s seg s' segs ps} : FieldRead t s seg ('%' :: s') → Items between t s' segs ps → Items between t s (seg :: segs) ps
  | lastParam {w p rest} : (∀ seg r, ¬ FieldRead t (w ++ rest) seg r) → Piece t w (.inr p) rest → rest.head? ≠ some '%' →
      Items between t (w ++ rest) [] [p]
  | param {w p s' segs ps} : (∀ seg r, ¬ FieldRead t (w ++ '%' :: s') seg r) → Piece t w (.inr p) ('%' :: s') →
      Items between t s' segs ps → Items between t (w ++ '%' :: s') segs (p :: ps)
  | group {s segs qs} : (∀ seg r, ¬ FieldRead t s seg r) → (∀ w p rest, Piece t w (.inr p) rest → s ≠ w ++ rest) →
      Body between t s segs qs → (∃ m f, Segment.field m f ∈ segs) → ParamsAllowed qs →
      Items between t s [.nested segs (formatOf qs)] []

/-- `Between t inGroup s seg`: what a text between brackets stands for, outside groups and in a group. In a group in a group it is again as
outside.

Outside: a field; or a group. Parameters may be written before the group, with colons, but have no effect. In a group: one field or
one group. Parameters may be written after it, with percent signs, or before it, but have no effect. -/
inductive Between (t : Term) : Bool → List Char → Segment → Prop
  | field {s xs rest m ps} : Reads t s xs rest → rest.head? ≠ some ':' → FieldOf xs m ps → Between t false s (.field m (formatOf ps))
  | group {s ps g segs qs} : Leads t s (ps.map .inr) g → ParamsAllowed ps → NoPiece t g → Body (Between t true) t g segs qs →
      (∃ m f, Segment.field m f ∈ segs) → ParamsAllowed qs → Between t false s (.nested segs (formatOf qs))
  | item {s seg ps} : Items (Between t false) t s [seg] ps → ParamsAllowed ps → Between t true s seg

/-- What a pair of brackets outside groups stands for. -/
def Bracket (t : Term) (b : List Char) (seg : Segment) : Prop := ∃ content, b = '{' :: content ++ ['}'] ∧ Between t false content seg

end Defmt.LogFormat
