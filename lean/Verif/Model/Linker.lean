import Verif.Model.Bitflags
import Verif.Model.Encoder
/-!
# From the macros to the `.defmt` section: statics, section names and the linker script

Models `linker_section` and `static_variable` (macros/src/construct.rs:66-99), the sections that the macros choose
(log.rs:39-45, println.rs:38, write.rs:38, intern.rs:8, internp.rs:8-27, derives/format/codegen.rs:40, items/bitflags.rs:26-32 and
67-98, items/timestamp.rs:32-56), the statics of the crate itself (defmt/src/lib.rs:33-50), the linker script
(defmt/defmt.x.in) and `IdRanges::get` (defmt/src/lib.rs:435-472).

The linker is not part of the repository. Modelled is what the documentation of `ld` says about the commands of the script: an input
section goes to the first pattern that matches its name; sections that nothing refers to are removed unless a `KEEP` pattern
matches; sections that match the same pattern stay in the order of the input; every static is placed at the next address that has its
alignment. The section `.defmt` starts at address 0 (it is not loaded), as the decoder also assumes. The compiler may put
statics of the same section name into one input section or into several. Alignments are powers of two, so that being aligned
in an input section is the same as being aligned in `.defmt`. Only the section names for ELF are modelled, not those for macOS. The
`EXTERN` and `PROVIDE` lines of the script are in `Model/Resolve`.
-/

namespace Defmt.Linker

open Parser Symbol Elf Bitflags Decoder

/-! ### What the macros make -/

/-- The macros that intern a string. -/
inductive Kind where
  | log (level : Level) | println | write | str | prim | derived | bitflags | timestamp
deriving DecidableEq, Repr

/-- `Level::as_str` (parser/src/lib.rs:110-120) -/
def levelName : Level → List Char
  | .trace => c!"trace"
  | .debug => c!"debug"
  | .info => c!"info"
  | .warn => c!"warn"
  | .error => c!"error"

/-- The argument `tag` of `interned_string`, `static_variable` or `mangled_symbol_name`. -/
def Kind.tag : Kind → List Char
  | .log level => levelName level
  | .println => c!"println"
  | .write => c!"write"
  | .str => c!"str"
  | .prim => c!"prim"
  | .derived => c!"derived"
  | .bitflags => c!"bitflags"
  | .timestamp => c!"timestamp"

/-- The argument `prefix`: log.rs:43, internp.rs:11; `None` in all other places. -/
def Kind.prefix : Kind → Option (List Char)
  | .log level => some (levelName level)
  | .prim => some c!"prim"
  | _ => none

/-- A string that is interned, with the environment of the macro. -/
structure Interned where
  kind : Kind
  package : List Char
  crateName : List Char
  disambiguator : Nat
  string : List Char
deriving DecidableEq, Repr

def Interned.symbol (x : Interned) : MacroSymbol := .new x.package x.crateName x.disambiguator x.kind.tag x.string

/-- `linker_section(false, prefix, symbol)` (construct.rs:66-79). -/
def linkerSection (pre : Option (List Char)) (symbol : List Char) : List Char :=
  match pre with
  | some p => c!".defmt" ++ (c!"." ++ p ++ c!"." ++ symbol)
  | none => c!".defmt" ++ (c!"." ++ symbol)

/-- A static variable: `export_name`, alignment, contents. -/
structure Static where
  symbol : List Char
  align : Nat
  bytes : List UInt8
deriving DecidableEq, Repr

/-- What depends on the target: alignment of `u128`, size (and alignment) of a reference. -/
structure Target where
  u128Align : Nat
  pointer : Nat
deriving DecidableEq, Repr

/-- A static and its `link_section`. -/
abbrev Part := List Char × Static

/-- `static_variable` (construct.rs:81-99), also internp.rs:20-23. -/
def Interned.part (x : Interned) : Part :=
  (linkerSection x.kind.prefix x.symbol.mangle, ⟨x.symbol.mangle, 1, [0]⟩)

/-- What in the crates of a program makes statics for `.defmt`. -/
inductive Item where
  | interned (x : Interned)
  /-- `timestamp!` -/
  | timestamp (package crateName : List Char) (disambiguator : Nat) (string : List Char)
  /-- `bitflags!` -/
  | bitflags (d : Definition)
  /-- the crate `defmt`, with the feature `encoding-raw` or without it -/
  | defmt (raw : Bool)
deriving DecidableEq, Repr

/-- `__DEFMT_MARKER_TIMESTAMP_WAS_DEFINED` (items/timestamp.rs:50-55). Its contents (an address) are not modelled. -/
def timestampMarker (t : Target) : Part :=
  (c!".defmt.end.timestamp", ⟨c!"__DEFMT_MARKER_TIMESTAMP_WAS_DEFINED", t.pointer, List.replicate t.pointer 0⟩)

/-- A static of `codegen_flag_statics` (items/bitflags.rs:82-95). -/
def flagPart (t : Target) (d : Definition) (x : Nat × Flag) : Part :=
  (c!".defmt.end", ⟨(d.flagSymbol x.1 x.2.name).mangle, t.u128Align, Encoder.le 16 x.2.value⟩)

/-- The interned string of a `bitflags!` (items/bitflags.rs:26-32). -/
def flagsInterned (d : Definition) : Interned := ⟨.bitflags, d.package, d.crateName, d.disambiguator, d.formatString⟩

/-- The statics of an item. -/
def Item.parts (t : Target) : Item → List Part
  | .interned x => [x.part]
  | .timestamp p c n s => [(⟨.timestamp, p, c, n, s⟩ : Interned).part, timestampMarker t]
  | .bitflags d => (flagsInterned d).part :: d.enabled.map (flagPart t d)
  | .defmt raw => [(c!".defmt.end", ⟨c!"_defmt_version_ = 4", 1, [0]⟩),
      (c!".defmt.end", ⟨if raw then c!"_defmt_encoding_ = raw" else c!"_defmt_encoding_ = rzcobs", 1, [0]⟩)]

/-! ### The linker -/

/-- An input section of an object file. `referenced`: something in the program refers to it. -/
structure Input where
  name : List Char
  statics : List Static
  referenced : Bool
deriving DecidableEq, Repr

/-- The ends of a list, the list itself first. -/
def suffixes : List Char → List (List Char)
  | [] => [[]]
  | c :: cs => (c :: cs) :: suffixes cs

/-- Does a pattern with `*` match a name? -/
def glob : List Char → List Char → Bool
  | [], s => s.isEmpty
  | p :: ps, s =>
    if p = '*' then (suffixes s).any (glob ps)
    else match s with
      | [] => false
      | c :: cs => p = c && glob ps cs

/-- The commands of an output section: `. = n`, `symbol = .`, `*(patterns)`, `KEEP(*(patterns))`. -/
inductive Command where
  | dot (n : Nat)
  | marker (name : List Char)
  | input (keep : Bool) (patterns : List (List Char))
deriving DecidableEq, Repr

/-- The output section `.defmt` (defmt.x.in:14-47). -/
def script : List Command := [
  .dot 1,
  .input false [c!".defmt.prim.*"],
  .marker c!"__DEFMT_MARKER_TRACE_START",
  .input false [c!".defmt.trace.*"],
  .marker c!"__DEFMT_MARKER_TRACE_END",
  .marker c!"__DEFMT_MARKER_DEBUG_START",
  .input false [c!".defmt.debug.*"],
  .marker c!"__DEFMT_MARKER_DEBUG_END",
  .marker c!"__DEFMT_MARKER_INFO_START",
  .input false [c!".defmt.info.*"],
  .marker c!"__DEFMT_MARKER_INFO_END",
  .marker c!"__DEFMT_MARKER_WARN_START",
  .input false [c!".defmt.warn.*"],
  .marker c!"__DEFMT_MARKER_WARN_END",
  .marker c!"__DEFMT_MARKER_ERROR_START",
  .input false [c!".defmt.error.*"],
  .marker c!"__DEFMT_MARKER_ERROR_END",
  .input false [c!".defmt.*"],
  .marker c!"__DEFMT_MARKER_END",
  .input true [c!".defmt.end", c!".defmt.end.*"]]

/-- The output section: its contents so far (their length is the location counter), the symbols of the statics in it, and
the markers. -/
structure Out where
  bytes : List UInt8
  symbols : List ElfSymbol
  markers : List (List Char × Nat)
deriving DecidableEq, Repr

/-- Fill up to the next address with the alignment. -/
def pad (align : Nat) (bytes : List UInt8) : List UInt8 :=
  bytes ++ List.replicate ((align - bytes.length % align) % align) 0

/-- Place a static. -/
def emitStatic (o : Out) (s : Static) : Out :=
  let bytes := pad s.align o.bytes
  { o with bytes := bytes ++ s.bytes, symbols := o.symbols ++ [⟨some s.symbol, true, bytes.length, s.bytes.length⟩] }

/-- The alignment of an input section is the largest of its statics. -/
def Input.align (i : Input) : Nat := i.statics.foldl (fun a s => max a s.align) 1

/-- Place an input section. -/
def emitInput (o : Out) (i : Input) : Out := i.statics.foldl emitStatic { o with bytes := pad i.align o.bytes }

/-- Does a name match one of the patterns? -/
def matchesAny (patterns : List (List Char)) (name : List Char) : Bool := patterns.any (glob · name)

/-- Execute the commands; `inputs` are the sections that no command has placed so far. -/
def run : List Command → List Input → Out → Out
  | [], _, o => o
  | .dot n :: cs, inputs, o => run cs inputs { o with bytes := o.bytes ++ List.replicate (n - o.bytes.length) 0 }
  | .marker m :: cs, inputs, o => run cs inputs { o with markers := o.markers ++ [(m, o.bytes.length)] }
  | .input _ patterns :: cs, inputs, o =>
    run cs (inputs.filter (fun i => !matchesAny patterns i.name)) ((inputs.filter (fun i => matchesAny patterns i.name)).foldl emitInput o)

/-- Is there a `KEEP` for sections with this name? -/
def kept (name : List Char) : Bool :=
  script.any (fun c => match c with
    | .input true patterns => matchesAny patterns name
    | _ => false)

inductive LinkError where
  /-- two statics have the same symbol -/
  | duplicateSymbol
  /-- ".defmt section cannot contain more than 65534 interned strings" -/
  | tooMany
deriving DecidableEq, Repr

/-- The value of a marker. -/
def Out.marker (o : Out) (name : List Char) : Nat := (o.markers.lookup name).getD 0

/-- The output section of the input sections that stay in the program. -/
def section_ (inputs : List Input) : Out :=
  run script (inputs.filter (fun i => i.referenced || kept i.name)) ⟨[], [], []⟩

/-- Link, with the `ASSERT` of the script (defmt.x.in:50). -/
def link (inputs : List Input) : Except LinkError Out :=
  if (inputs.flatMap (fun i => i.statics.map (·.symbol))).Nodup then
    if (section_ inputs).marker c!"__DEFMT_MARKER_END" < 65534 then .ok (section_ inputs) else .error .tooMany
  else .error .duplicateSymbol

/-- The symbols that the file has because of the section: those of the statics and the markers. -/
def Out.allSymbols (o : Out) : List ElfSymbol := o.symbols ++ o.markers.map (fun m => ⟨some m.1, true, m.2, 0⟩)

/-- `&S as *const u8 as u16` (construct.rs:51, internp.rs:24): what the program uses as the index of a static. -/
def index (s : ElfSymbol) : Nat := s.address % 2 ^ 16

/-- The names of the markers of a level. -/
def startMarker : Level → List Char
  | .trace => c!"__DEFMT_MARKER_TRACE_START"
  | .debug => c!"__DEFMT_MARKER_DEBUG_START"
  | .info => c!"__DEFMT_MARKER_INFO_START"
  | .warn => c!"__DEFMT_MARKER_WARN_START"
  | .error => c!"__DEFMT_MARKER_ERROR_START"

def endMarker : Level → List Char
  | .trace => c!"__DEFMT_MARKER_TRACE_END"
  | .debug => c!"__DEFMT_MARKER_DEBUG_END"
  | .info => c!"__DEFMT_MARKER_INFO_END"
  | .warn => c!"__DEFMT_MARKER_WARN_END"
  | .error => c!"__DEFMT_MARKER_ERROR_END"

/-- `IdRanges::get()` (defmt/src/lib.rs:435-472): the start and the end of the range of a level. -/
def idRange (o : Out) (level : Level) : Nat × Nat := (o.marker (startMarker level) % 2 ^ 16, o.marker (endMarker level) % 2 ^ 16)

end Defmt.Linker
