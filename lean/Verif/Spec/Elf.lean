import Verif.Model.Bitflags
import Verif.Spec.Encoder
/-! What the symbols of an ELF file with defmt data look like. -/

namespace Defmt.Elf

open Parser Symbol

/-- The symbol that carries the version of the wire format; linkers may keep the quotes of the linker script. -/
def IsVersionSymbol (s : ElfSymbol) : Prop :=
  ∃ rest, s.name = some (c!"_defmt_version_ = " ++ rest) ∨ s.name = some (c!"\"_defmt_version_ = " ++ rest)

/-- The symbol that carries the encoding. -/
def IsEncodingSymbol (s : ElfSymbol) : Prop := ∃ rest, s.name = some (c!"_defmt_encoding_ = " ++ rest)

/-- A symbol of the `.defmt` section that was made by a macro. -/
def MadeBy (m : MacroSymbol) (s : ElfSymbol) : Prop := s.name = some m.mangle ∧ s.inDefmt = true

/-- The parts of the JSON name of a symbol of the `.defmt` section. -/
def HasParts (s : ElfSymbol) (h : HostSymbol) : Prop := s.inDefmt = true ∧ ∃ n, s.name = some n ∧ demangle n = some h

/-- A timestamp definition. -/
def IsTimestampSymbol (s : ElfSymbol) : Prop := ∃ h, HasParts s h ∧ h.tag = c!"defmt_timestamp"

/-- No two symbols of the list (at different places) have the property `P`. -/
def NoTwo (P : ElfSymbol → Prop) (l : List ElfSymbol) : Prop := l.Pairwise (fun a b => ¬ (P a ∧ P b))

/-- Exactly one has. -/
def ExactlyOne (P : ElfSymbol → Prop) (l : List ElfSymbol) : Prop := NoTwo P l ∧ ∃ s ∈ l, P s

/-- The tags of format strings and of interned strings, and what they are called in the symbols. -/
def tagName : Tag → List Char
  | .prim => c!"defmt_prim"
  | .derived => c!"defmt_derived"
  | .bitflags => c!"defmt_bitflags"
  | .write => c!"defmt_write"
  | .timestamp => c!"defmt_timestamp"
  | .bitflagsValue => c!"defmt_bitflags_value"
  | .str => c!"defmt_str"
  | .println => c!"defmt_println"
  | .trace => c!"defmt_trace"
  | .debug => c!"defmt_debug"
  | .info => c!"defmt_info"
  | .warn => c!"defmt_warn"
  | .error => c!"defmt_error"

/-- Two symbols of messages at the same address are the same message. (The linker gives every message its own byte.) -/
def DistinctAddresses (f : ElfFile) : Prop :=
  ∀ s ∈ f.symbols, ∀ s' ∈ f.symbols, ∀ n n', s.inDefmt = true → s'.inDefmt = true →
    s.name = some n → s'.name = some n' → demangle n ≠ none → demangle n' ≠ none →
    s.address = s'.address → n = n'

/-- Two flags of one bitflags type with the same index are the same flag. (The macro counts the flags.) -/
def DistinctIndices (f : ElfFile) : Prop :=
  ∀ data, f.defmtSection = some data → ∀ s ∈ f.symbols, ∀ s' ∈ f.symbols, ∀ key n n' i v v',
    symbolItem data s = .ok (.flag key n i v) → symbolItem data s' = .ok (.flag key n' i v') → n = n' ∧ v = v'

/-- Symbols that have nothing to do with messages: no name, in another section, or with one of the names that the
linker script and the assembler make. -/
def Unrelated (s : ElfSymbol) : Prop :=
  s.inDefmt = false ∨ s.name = none ∨ s.name = some [] ∨ s.name = some c!"$d" ∨
  ∃ rest, s.name = some (c!"$d." ++ rest) ∨ s.name = some (c!"_defmt" ++ rest) ∨ s.name = some (c!"__DEFMT_MARKER" ++ rest)

/-- A static of 16 bytes in the `.defmt` section (which starts at address 0) with the given value. -/
def HoldsValue (data : List UInt8) (s : ElfSymbol) (value : Nat) : Prop :=
  s.size = 16 ∧ s.address + 16 ≤ data.length ∧ s.address + 16 < 2 ^ 64 ∧ value < 2 ^ 128 ∧
  (data.drop s.address).take 16 = Encoder.le 16 value

end Defmt.Elf

namespace Defmt.Bitflags

open Parser Symbol Elf

/-- The unsigned integer types. -/
def reprs : List (List Char × Ty) := [(c!"u8", .u8), (c!"u16", .u16), (c!"u32", .u32), (c!"u64", .u64), (c!"u128", .u128)]

/-- Characters of the names of types, flags, packages and crates. -/
def IsName (s : List Char) : Prop := ∀ c ∈ s, c ≠ '@' ∧ c ≠ '{' ∧ c ≠ '}' ∧ c ≠ ':'

instance (s : List Char) : Decidable (IsName s) := by unfold IsName; infer_instance

/-- What the compiler guarantees about the definition. -/
structure Definition.Ok (d : Definition) : Prop where
  ty : ∃ t, (d.ty, t) ∈ reprs
  name : IsName d.name
  flags : ∀ f ∈ d.flags, IsName f.name
  package : IsName d.package
  crateName : IsName d.crateName
  count : d.flags.length ≤ 2 ^ 128

/-- A symbol that claims to be a flag of the definition. -/
def IsFlagOf (d : Definition) (s : ElfSymbol) : Prop :=
  ∃ h, HasParts s h ∧ h.tag = c!"defmt_bitflags_value" ∧ h.package = d.package ∧ h.crateName = some d.crateName ∧
    h.disambiguator = decimal d.disambiguator ∧ ∃ rest, h.data = d.name ++ c!"::" ++ rest

/-- The file contains the statics of the flags (those that are not removed by `#[cfg]`), in any order and among any other
symbols, and nothing else that claims to be a flag of the definition. -/
def Definition.Placed (d : Definition) (f : ElfFile) : Prop :=
  ∃ (data : List UInt8) (static : Nat → ElfSymbol) (others : List ElfSymbol), f.defmtSection = some (some data) ∧
    f.symbols.Perm (d.enabled.map (fun x => static x.1) ++ others) ∧
    (∀ x ∈ d.enabled, MadeBy (d.flagSymbol x.1 x.2.name) (static x.1) ∧ HoldsValue data (static x.1) x.2.value) ∧
    ∀ s ∈ others, ¬ IsFlagOf d s

end Defmt.Bitflags
