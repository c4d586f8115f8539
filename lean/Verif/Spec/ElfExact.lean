import Verif.Spec.Elf
import Verif.Spec.Grammar
/-! Exactly which ELF files the decoder accepts. -/

namespace Defmt.Elf

open Parser Symbol

/-- The name of a symbol with the version `v`: the beginning that the linker script writes, `v`, and quotes. (The beginning is
removed as often as it is there, and so are the quotes.) -/
def VersionName (v name : List Char) : Prop :=
  ∃ a b k, 0 < a + b ∧ name = (List.replicate a c!"\"_defmt_version_ = ").flatten ++
    (List.replicate b c!"_defmt_version_ = ").flatten ++ v ++ List.replicate k '"'

/-- Two colons in a row do not occur. -/
def NoColons (s : List Char) : Prop := ¬ c!"::" <:+: s

/-- The data of a flag: the name of the type, the index of the flag (below 2^128; a plus sign is allowed) and the name of the
flag, separated by two colons. -/
def FlagData (s : List Char) : Prop :=
  ∃ type plus digits flag n, s = type ++ c!"::" ++ (plus ++ digits) ++ c!"::" ++ flag ∧ NoColons (type ++ [':']) ∧
    (plus = [] ∨ plus = ['+']) ∧ Number (2 ^ 128) digits n ∧ NoColons flag

/-- A symbol that says it is a flag. -/
def IsFlagSymbol (s : ElfSymbol) (data : List Char) : Prop :=
  ∃ h, HasParts s h ∧ h.tag = c!"defmt_bitflags_value" ∧ h.data = data

/-- A symbol that can be read: unrelated, or with a name in JSON; a flag is a static of 16 bytes inside of the section, the
contents of which can be read. -/
def CanBeRead (section_ : Option (List UInt8)) (s : ElfSymbol) : Prop :=
  Unrelated s ∨ (∃ h, HasParts s h) ∧ ∀ data, IsFlagSymbol s data → FlagData data ∧ s.size = 16 ∧
    ∃ bytes, section_ = some bytes ∧ s.address + 16 ≤ bytes.length ∧ s.address + 16 < 2 ^ 64

/-- The file says which version of the wire format and which encoding it uses, once each, and they are supported (the
version may be any if it is not checked). -/
def HeaderOk (check : Bool) (symbols : List ElfSymbol) : Prop :=
  ExactlyOne IsVersionSymbol symbols ∧ ExactlyOne IsEncodingSymbol symbols ∧
  (check = true → ∃ s ∈ symbols, ∃ name, s.name = some name ∧ (VersionName c!"3" name ∨ VersionName c!"4" name)) ∧
  ∃ s ∈ symbols, s.name = some c!"_defmt_encoding_ = raw" ∨ s.name = some c!"_defmt_encoding_ = rzcobs"

end Defmt.Elf
