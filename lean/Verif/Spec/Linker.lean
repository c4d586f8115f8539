import Verif.Model.Linker
import Verif.Spec.Elf
/-! What the object files of a program contain, and the file that the linker makes. -/

namespace Defmt.Linker

open Parser Symbol Elf Bitflags Decoder

/-- The statics in the input sections, with the name of their section. -/
def partsOf (inputs : List Input) : List Part := inputs.flatMap (fun i => i.statics.map (fun s => (i.name, s)))

/-- The input sections contain exactly the statics of the items, in any order and grouped in any way. -/
def Compiled (t : Target) (items : List Item) (inputs : List Input) : Prop :=
  (partsOf inputs).Perm (items.flatMap (Item.parts t)) ∧ ∀ i ∈ inputs, i.statics ≠ []

structure Target.Ok (t : Target) : Prop where
  u128Align : 1 ≤ t.u128Align
  pointer : 1 ≤ t.pointer

/-- A string that something in the program refers to. -/
def Used (inputs : List Input) (x : Interned) : Prop :=
  ∃ i ∈ inputs, i.referenced = true ∧ i.name = x.part.1 ∧ x.part.2 ∈ i.statics

/-- The input sections that stay in the program: something refers to them, or they have one of the two names that the script
keeps. -/
def staying (inputs : List Input) : List Input :=
  inputs.filter (fun i => i.referenced || i.name == c!".defmt.end" || i.name.take 11 == c!".defmt.end.")

/-- The symbol of a string in the output. -/
def SymbolOf (x : Interned) (o : Out) (s : ElfSymbol) : Prop := s ∈ o.symbols ∧ s.name = some x.symbol.mangle

/-- An ELF file with this `.defmt` section: besides its symbols, there may be symbols of other sections, in any order. -/
def IsFileOf (o : Out) (f : ElfFile) : Prop :=
  f.defmtSection = some (some o.bytes) ∧ ∃ others, f.symbols.Perm (o.allSymbols ++ others) ∧
    ∀ s ∈ others, s.inDefmt = false ∧ ¬ IsVersionSymbol s ∧ ¬ IsEncodingSymbol s

/-- The tag by which the host knows the strings of a macro. -/
def Kind.hostTag : Kind → Tag
  | .log .trace => .trace
  | .log .debug => .debug
  | .log .info => .info
  | .log .warn => .warn
  | .log .error => .error
  | .println => .println
  | .write => .write
  | .str => .str
  | .prim => .prim
  | .derived => .derived
  | .bitflags => .bitflags
  | .timestamp => .timestamp

/-- The strings of `timestamp!` come from `Item.timestamp` only, and flags are what the compiler accepts. -/
def Item.Ok : Item → Prop
  | .interned x => x.kind ≠ .timestamp
  | .bitflags d => d.Ok ∧ ∀ f ∈ d.flags, f.value < 2 ^ 128
  | _ => True

end Defmt.Linker
