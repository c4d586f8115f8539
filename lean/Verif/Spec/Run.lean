import Verif.Model.Run
import Verif.Spec.Dwarf
/-! Specification side of C98 and C99: the life of `defmt-print`. -/

namespace Defmt.Run

open HostLog Elf Dwarf Parser

/-- What `defmt-print` gets from an ELF file: the table `t`, with its flags in `env'` and the locations of its statements in
`o'`. -/
structure Loaded (env : Env) (o : Options) (b : Binary) (t : FullTable) (env' : Env) (o' : Options) : Prop where
  table : parseImpl b.elf true = .ok (some t)
  env : env' = { env with bitflags := t.bitflags }
  opts : ∃ locs indices, o' = { o with locations := locs, indices := indices } ∧
    (∀ i, i ∈ indices ↔ ∃ e, t.entries i = some e ∧ IsMessage e.string) ∧
    ∃ symbols, (∀ s, s ∈ symbols ↔ ∃ i e, t.entries i = some e ∧ s = e.rawSymbol) ∧ getLocations b.units symbols = .ok locs

/-- The part of the life of `defmt-print` between two loads of the file: the file and the bytes read, chunk by chunk. -/
abbrev Part := Binary × List (List UInt8)

/-- `History source watch events f parts`: after the events, `f` is on the disk, and the file was loaded once for each of the parts. -/
inductive History (source : Source) (watch : Bool) (first : Option Binary) : List Event → Option Binary → List Part → Prop where
  | start {b} : first = some b → History source watch first [] first [(b, [])]
  | data {es f ps b cs bytes} : History source watch first es f (ps ++ [(b, cs)]) →
      History source watch first (es ++ [.data bytes]) f (ps ++ [(b, cs ++ [bytes])])
  /-- nobody notices that the file changes -/
  | unnoticed {es f ps f' n} : History source watch first es f ps → (watch && n) = false →
      History source watch first (es ++ [.file f' n]) f' ps
  /-- the change is noticed, and the file is loaded -/
  | noticed {es f ps b} : History source watch first es f ps → watch = true →
      History source watch first (es ++ [.file (some b) true]) (some b) (ps ++ [(b, [])])
  /-- the end of the standard input when watching: the file is loaded again -/
  | again {es b ps} : History source watch first es (some b) ps → watch = true → source = .stdin →
      History source watch first (es ++ [.closed]) (some b) (ps ++ [(b, [])])
  /-- the end of a connection: nothing is read -/
  | nothing {es f ps b cs} : History source watch first es f (ps ++ [(b, cs)]) → source ≠ .stdin →
      History source watch first (es ++ [.closed]) f (ps ++ [(b, cs ++ [[]])])

/-- `Transcript env o now parts ws n`: `ws` is what is written for the parts, one after another, each as if its file and its bytes were all there
ever was; `n` is the number of frames (with those skipped). -/
inductive Transcript (env : Env) (o : Options) (now : Nat → Int) : List Part → Writes → Nat → Prop where
  | nil : Transcript env o now [] [] 0
  | part {ps ws n b cs t env' o' ws' rest units} : Transcript env o now ps ws n → Loaded env o b t env' o' →
      HostLog.defmtPrint env' o' t.decoding.td t.timestamp.isSome (streamEncoding t.encoding) (fun k => now (n + k)) cs = some (ws', .wait rest) →
      Printer.defmtPrint t.decoding.td (streamEncoding t.encoding) cs = some (units, .wait rest) →
      Transcript env o now (ps ++ [(b, cs)]) (ws ++ ws') (n + units.length)

/-- waiting for input -/
def Reading (st : State) : Prop := ∃ s, st.status = .reading s

/-- What is wrong with a file that cannot be loaded. -/
inductive LoadFails : Option Binary → Failure → Prop where
  | missing : LoadFails none .file
  | table {b e} : parseImpl b.elf true = .err e → LoadFails (some b) (.table e)
  | notFound {b} : parseImpl b.elf true = .ok none → LoadFails (some b) .notFound
  | locations {b t e symbols} : parseImpl b.elf true = .ok (some t) →
      (∀ s, s ∈ symbols ↔ ∃ i x, t.entries i = some x ∧ s = x.rawSymbol) → getLocations b.units symbols = .error e →
      LoadFails (some b) (.locations e)

end Defmt.Run
