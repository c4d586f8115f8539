import Verif.Model.Symbol
/-!
# Reading the table from the symbols of an ELF file

Models `parse_impl` and `check_version` (decoder/src/elf2table/mod.rs:20-251) and the parts of decoder/src/lib.rs they
use. The `object` crate is not modelled: an ELF file is the list of its symbols and the contents of its `.defmt`
section.

`BTreeMap` and `HashMap` are partial functions. Addresses are `u64` and the host's `usize` has 64 bits. Where
`addr + 16` overflows, a debug build of the decoder panics; that is `Outcome.panic` here.
-/

namespace Defmt.Elf

open Parser Symbol Decoder

/-- What `parse_impl` uses of an `object::Symbol`. -/
structure ElfSymbol where
  /-- `entry.name()`; `none` if it is an error (not UTF-8) -/
  name : Option (List Char)
  /-- `entry.section_index() == Some(defmt_section.index())` -/
  inDefmt : Bool
  address : Nat
  size : Nat
deriving DecidableEq, Repr

/-- What `parse_impl` uses of an `object::File`. -/
structure ElfFile where
  symbols : List ElfSymbol
  /-- `section_by_name(".defmt")`, and its `data()`, which may be an error -/
  defmtSection : Option (Option (List UInt8))
deriving DecidableEq, Repr

/-- `enum Encoding` (decoder/src/lib.rs:122-130). -/
inductive Encoding where
  | raw | rzcobs
deriving DecidableEq, Repr

/-- `struct TableEntry` (decoder/src/lib.rs:80-84). -/
structure TableEntry where
  string : Entry
  rawSymbol : List Char
deriving DecidableEq, Repr

/-- `struct Table` (decoder/src/lib.rs:155-161). -/
structure FullTable where
  timestamp : Option TableEntry
  entries : Nat → Option TableEntry
  bitflags : BitflagsKey → Option (List (List Char × Nat))
  encoding : Encoding

/-- The errors of `parse_impl`, in the order of the source. -/
inductive ElfError where
  | multipleVersions | multipleEncodings | noSection | noVersion | versionMismatch | unknownEncoding | noEncoding
  | demangle | multipleTimestamps | flagSize | sectionData | flagOutside | flagIndex | flagMalformed
deriving DecidableEq, Repr

def versionPrefix : List Char := c!"_defmt_version_ = "
def quotedVersionPrefix : List Char := c!"\"_defmt_version_ = "
def encodingPrefix : List Char := c!"_defmt_encoding_ = "

/-- `str::trim_start_matches(pat)`: the pattern is removed as often as it is there. `fuel` is the length of the text. -/
def trimStart (pat : List Char) : Nat → List Char → List Char
  | 0, s => s
  | fuel + 1, s => match stripPrefix pat s with
    | some rest => trimStart pat fuel rest
    | none => s

/-- `str::trim_end_matches(c)` -/
def trimEnd (c : Char) (s : List Char) : List Char := (s.reverse.dropWhile (· = c)).reverse

/-- `str::starts_with` -/
def hasPrefix (pat s : List Char) : Bool := (stripPrefix pat s).isSome

/-- `try_get_version` (mod.rs:28-39). -/
def tryGetVersion (name : List Char) : Option (List Char) :=
  if hasPrefix quotedVersionPrefix name || hasPrefix versionPrefix name then
    let a := trimStart quotedVersionPrefix name.length name
    some (trimEnd '"' (trimStart versionPrefix a.length a))
  else none

/-- `try_get_encoding` (mod.rs:43-46). -/
def tryGetEncoding (name : List Char) : Option (List Char) := stripPrefix encodingPrefix name

/-- One step of the first pass for the version (mod.rs:56-65); `encoding` works in the same way (67-76). -/
def setOnce (e : ElfError) (old new : Option (List Char)) : Except ElfError (Option (List Char)) :=
  match new with
  | none => .ok old
  | some v => match old with
    | some _ => .error e
    | none => .ok (some v)

/-- The first pass (mod.rs:48-77). -/
def firstPass : List ElfSymbol → Option (List Char) → Option (List Char) →
    Except ElfError (Option (List Char) × Option (List Char))
  | [], version, encoding => .ok (version, encoding)
  | sym :: rest, version, encoding =>
    match sym.name with
    | none => firstPass rest version encoding
    | some name =>
      match setOnce .multipleVersions version (tryGetVersion name) with
      | .error e => .error e
      | .ok version =>
        match setOnce .multipleEncodings encoding (tryGetEncoding name) with
        | .error e => .error e
        | .ok encoding => firstPass rest version encoding

/-- `DEFMT_VERSIONS` (decoder/src/lib.rs:8). -/
def supportedVersions : List (List Char) := [c!"3", c!"4"]

/-- `FromStr for Encoding` (decoder/src/lib.rs:132-142). -/
def Encoding.fromStr (s : List Char) : Option Encoding :=
  if s = c!"raw" then some .raw
  else if s = c!"rzcobs" then some .rzcobs
  else none

/-- What one symbol adds to the table. -/
inductive Item where
  | skip
  | timestamp (e : TableEntry)
  | flag (key : BitflagsKey) (name : List Char) (index value : Nat)
  | entry (address : Nat) (e : TableEntry)
deriving DecidableEq, Repr

/-- Names that are not symbols of messages (mod.rs:116-135). -/
def isSkipped (name : List Char) : Bool :=
  name = [] || (name = c!"$d" || hasPrefix c!"$d." name) || (hasPrefix c!"_defmt" name || hasPrefix c!"__DEFMT_MARKER" name)

/-- `str::split("::")` -/
def splitColons : List Char → List (List Char)
  | [] => [[]]
  | [c] => [[c]]
  | c :: c' :: rest =>
    if c = ':' ∧ c' = ':' then [] :: splitColons rest
    else match splitColons (c' :: rest) with
      | [] => [[c]]
      | piece :: pieces => (c :: piece) :: pieces

/-- The digits of `str::parse::<u128>()`: at least one, only digits, no overflow. -/
def parseU128Digits (s : List Char) : Option Nat :=
  if s.all isDigit then parseDigits (2 ^ 128) s else none

/-- `str::parse::<u128>()`: a plus sign may come before the digits. -/
def parseU128 (s : List Char) : Option Nat :=
  match stripPrefix c!"+" s with
  | some rest => parseU128Digits rest
  | none => parseU128Digits s

/-- `defmt_data.get(addr..addr + 16)` -/
def getValue (data : List UInt8) (address : Nat) : Option Nat :=
  if address + 16 ≤ data.length then some (leNat ((data.drop address).take 16)) else none

/-- The arm for `Tag::BitflagsValue` (mod.rs:152-194). -/
def flagItem (data : Option (List UInt8)) (sym : ElfSymbol) (s : HostSymbol) : Outcome ElfError Item :=
  if sym.size ≠ 16 then .err .flagSize
  else match data with
    | none => .err .sectionData
    | some data =>
      if sym.address + 16 ≥ 2 ^ 64 then .panic
      else match getValue data sym.address with
        | none => .err .flagOutside
        | some value =>
          match splitColons s.data with
          | [name, index, flagName] =>
            match parseU128 index with
            | none => .err .flagIndex
            | some index =>
              .ok (.flag { name := name, package := s.package, disambiguator := s.disambiguator, crateName := s.crateName }
                flagName index value)
          | _ => .err .flagMalformed

/-- One round of the second pass without its effect on the maps (mod.rs:112-212). That there is a timestamp already is
checked in `addItem`. -/
def symbolItem (data : Option (List UInt8)) (sym : ElfSymbol) : Outcome ElfError Item :=
  match sym.name with
  | none => .ok .skip
  | some name =>
    if isSkipped name then .ok .skip
    else if !sym.inDefmt then .ok .skip
    else match demangle name with
      | none => .err .demangle
      | some s =>
        match s.knownTag with
        | some .timestamp => .ok (.timestamp ⟨⟨.timestamp, s.data⟩, name⟩)
        | some .bitflagsValue => flagItem data sym s
        | some tag => .ok (.entry sym.address ⟨⟨tag, s.data⟩, name⟩)
        | none => .ok .skip

/-- The state of the second pass: `map`, `bitflags_map` (a key that is not there has the empty list) and `timestamp`. -/
structure Pass where
  map : Nat → Option TableEntry
  flags : BitflagsKey → List (List Char × Nat × Nat)
  timestamp : Option TableEntry

/-- The effect of one symbol (mod.rs:139-150, 188-193, 195-203). -/
def addItem (p : Pass) : Item → Except ElfError Pass
  | .skip => .ok p
  | .timestamp e => match p.timestamp with
    | some _ => .error .multipleTimestamps
    | none => .ok { p with timestamp := some e }
  | .flag key name index value =>
    .ok { p with flags := fun k => if k = key then p.flags k ++ [(name, index, value)] else p.flags k }
  | .entry address e => .ok { p with map := fun a => if a = address then some e else p.map a }

/-- The second pass (mod.rs:107-213). -/
def secondPass (data : Option (List UInt8)) : List ElfSymbol → Pass → Outcome ElfError Pass
  | [], p => .ok p
  | sym :: rest, p =>
    match symbolItem data sym with
    | .err e => .err e
    | .panic => .panic
    | .ok item =>
      match addItem p item with
      | .error e => .err e
      | .ok p => secondPass data rest p

/-- `values.sort_by_key(|(_, index, _)| *index)`, a stable sort, and dropping the index (mod.rs:221-225). -/
def sortFlags (values : List (List Char × Nat × Nat)) : List (List Char × Nat) :=
  (values.mergeSort (fun a b => a.2.1 ≤ b.2.1)).map (fun v => (v.1, v.2.2))

/-- `parse_impl` (mod.rs:20-237). -/
def parseImpl (f : ElfFile) (checkVersion : Bool) : Outcome ElfError (Option FullTable) :=
  match firstPass f.symbols none none with
  | .error e => .err e
  | .ok (version, encoding) =>
    match f.defmtSection, version with
    | none, none => .ok none
    | none, some _ => .err .noSection
    | some _, none => .err .noVersion
    | some data, some version =>
      if checkVersion && !supportedVersions.contains version then .err .versionMismatch
      else match encoding with
        | none => .err .noEncoding
        | some e =>
          match Encoding.fromStr e with
          | none => .err .unknownEncoding
          | some encoding =>
            match secondPass data f.symbols { map := fun _ => none, flags := fun _ => [], timestamp := none } with
            | .err e => .err e
            | .panic => .panic
            | .ok p => .ok (some {
                timestamp := p.timestamp
                entries := p.map
                bitflags := fun key => if p.flags key = [] then none else some (sortFlags (p.flags key))
                encoding := encoding })

/-- The part of the table that decoding uses (Model/Decoder.lean). -/
def FullTable.decoding (t : FullTable) : Table where
  timestamp := t.timestamp.map (·.string)
  entries := fun i => (t.entries i).map (·.string)

end Defmt.Elf
