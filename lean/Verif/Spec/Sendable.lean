import Verif.Spec.Encoder
/-!
Specification side of C104: the strings of a program, and the frames that say what they are about.
-/

namespace Defmt.Encoder

open Parser Decoder

/-- All the bytes that are sent for a parameter of this type mean something: not a bitfield whose size is rounded up beyond bit 128.
(And the length of an array fits in 32 bits.) -/
def ExactTy : Ty → Prop
  | .bitField s e => ∃ d, wireOctets s e = some d ∧ d + s / 8 ≤ 16
  | .formatArray n => n < 2 ^ 32
  | _ => True

/-- The macros accept this format string. -/
def Accepted (s : List Char) : Prop := ∃ n tys, argTypes s n = some tys ∧ ∀ ty ∈ tys, ExactTy ty

/-- The macros accept the string, or it is the one of manual implementations of `Format`; if it has several parts, it can also be that
of an enum: each part is accepted or is no format string (then the string is not that of an enum), and the number of parts is
not one of those for which the sides disagree about the width of the discriminant (C24). -/
structure FromMacro (s : List Char) : Prop where
  whole : s = sequenceFormat ∨ Accepted s
  parts : '|' ∈ s → ∀ v ∈ Parser.splitAt '|' s, Accepted v ∨ ∀ fs, parse v .forwardsCompatible ≠ .ok fs
  count : (Parser.splitAt '|' s).length ∉ [2 ^ 8, 2 ^ 16, 2 ^ 32] ∧ (Parser.splitAt '|' s).length < 2 ^ 64

/-- The string of a log statement or of `println!`. -/
def LogTag (tag : Tag) : Prop := tag.toLevel ≠ none ∨ tag = .println

/-- The table of a program: addresses have 16 bits, the strings come from the macros, those of log statements and of the timestamp
are accepted by them. -/
structure Strings (t : Table) : Prop where
  address : ∀ i e, t.entries i = some e → i < 2 ^ 16
  fromMacro : ∀ i e, t.entries i = some e → FromMacro e.string
  log : ∀ i e, t.entries i = some e → LogTag e.tag → Accepted e.string
  timestamp : ∀ e, t.timestamp = some e → Accepted e.string

mutual

/-- No manual implementation is a direct part of another one. -/
def Flat : Arg → Prop
  | .format _ as => FlatAll as
  | .formatSlice as => FlatAll as
  | .formatSequence as => FlatAll as ∧ ∀ a ∈ as, ∀ bs, a ≠ .format sequenceFormat bs
  | _ => True

def FlatAll : List Arg → Prop
  | [] => True
  | a :: as => Flat a ∧ FlatAll as

end

end Defmt.Encoder
