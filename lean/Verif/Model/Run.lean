import Verif.Model.HostLog
import Verif.Model.Dwarf
/-!
# `defmt-print` from its start to its end

Models `run`, `run_and_watch` and `Source::read` of `print/src/main.rs` with the files, the input and the notifications of the operating
system as events. Parsing of ELF and DWARF is as in `Model/Elf.lean` and `Model/Dwarf.lean`, the texts as in `Model/HostLog.lean`.

Simplifications: the command line, the creation of the source and of the watcher have succeeded; the working directory exists; a frame on
which the decoder panics (C16, C25) counts as malformed (`Table.td`); all that
happens between two `await`s happens at once; the warning that the locations are incomplete (203), which a second load prints to stderr with
`--verbose`, is left out; when a frame cannot be displayed (a panic, C33), also what was printed before it for the same
chunk is missing in the output.
-/

namespace Defmt.Run

open HostLog Elf Dwarf Parser

/-- An ELF file: the table part and the debug information. -/
structure Binary where
  elf : ElfFile
  units : List (Option DwarfUnit)

/-- `enum Source` (print/src/main.rs:82-86) -/
inductive Source where
  | stdin
  | tcp
  | serial
deriving DecidableEq, Repr

/-- Why `run` returns an error. -/
inductive Failure where
  /-- the file cannot be read (195) -/
  | file
  | table (e : ElfError)
  /-- ".defmt data not found" (196) -/
  | notFound
  | locations (e : DwarfError)
  /-- the input cannot be read (249) -/
  | input
  /-- a malformed frame without recovery (265) -/
  | malformed
deriving DecidableEq, Repr

/-- `raw_symbols` (decoder/src/lib.rs:215-217). The keys of the map are addresses of symbols of the file; the order does not matter. -/
def rawSymbols (f : ElfFile) (t : FullTable) : List (List Char) :=
  f.symbols.filterMap (fun s => (t.entries s.address).map (·.rawSymbol))

/-- `indices` (decoder/src/lib.rs:200-208), likewise -/
def indices (f : ElfFile) (t : FullTable) : List Nat :=
  (f.symbols.map (·.address)).filter (fun i => match t.entries i with
    | none => false
    | some e => isIndex e.string)

/-- `new_stream_decoder` and `encoding` (decoder/src/lib.rs:265-274): the type of Model/Printer.lean -/
def streamEncoding : Elf.Encoding → Defmt.Encoding
  | .raw => .raw
  | .rzcobs => .rzcobs

/-- The local variables of the main loop of `run` (print/src/main.rs:195-245). -/
structure Session where
  table : FullTable
  /-- with the flags of the table -/
  env : Env
  /-- with the locations of the table -/
  opts : Options
  fmt : Formatters
  /-- of the stream decoder -/
  buffer : List UInt8

inductive Status where
  | reading (s : Session)
  /-- `main` has returned `Ok` -/
  | finished
  /-- `main` has returned an error -/
  | failed (f : Failure)
  | panicked

/-- `run` up to the main loop (print/src/main.rs:183-245): the status and what `init_logger` prints. -/
def setup (env : Env) (o : Options) (file : Option Binary) : Status × Writes :=
  match file with
  | none => (.failed .file, [])
  | some b =>
    match parseImpl b.elf true with
    | .err e => (.failed (.table e), [])
    | .panic => (.panicked, [])
    | .ok none => (.failed .notFound, [])
    | .ok (some t) =>
      match getLocations b.units (rawSymbols b.elf t) with
      | .error e => (.failed (.locations e), [])
      | .ok locs =>
        let o := { o with locations := locs, indices := indices b.elf t }
        match newFormatters o t.timestamp.isSome with
        | none => (.panicked, [])
        | some fmt => (.reading ⟨t, { env with bitflags := t.bitflags }, o, fmt, []⟩, initLogger o)

/-- What happens outside. -/
inductive Event where
  /-- `read` returns bytes -/
  | data (bytes : List UInt8)
  /-- `read` returns no bytes: the input is closed -/
  | closed
  /-- `read` returns an error -/
  | broken
  /-- The file is written or removed. `notified`: the watcher reports the creation or the modification of the file. -/
  | file (f : Option Binary) (notified : Bool)

structure State where
  /-- the file on the disk -/
  file : Option Binary
  status : Status
  output : Writes
  /-- number of frames printed or skipped so far -/
  count : Nat

/-- The body of the main loop after `read` (print/src/main.rs:256-278); `now k` is the time at which the `k`-th unit is printed. The
fuel of `drain` suffices (`C98_fuel`), so that its `none` does not occur. -/
def feed (now : Nat → Int) (bytes : List UInt8) (s : Session) (st : State) : State :=
  let enc := streamEncoding s.table.encoding
  let buffer := Printer.received enc s.buffer bytes
  match Printer.drain s.table.decoding.td enc enc.canRecover (buffer.length + 1) buffer with
  | none => { st with status := .panicked }
  | some (units, next) =>
    match printLines s.env s.opts s.fmt (fun k => now (st.count + k)) units with
    | none => { st with status := .panicked }
    | some ws => { st with
        output := st.output ++ ws
        count := st.count + units.length
        status := match next with
          | .wait buffer => .reading { s with buffer := buffer }
          | .abort => .failed .malformed
          | .panicked => .panicked }

/-- `run` is called (again). -/
def restart (env : Env) (o : Options) (st : State) : State :=
  { st with status := (setup env o st.file).1, output := st.output ++ (setup env o st.file).2 }

/-- One event, for `run` (without `watch`) or for the loop of `run_and_watch` (print/src/main.rs:175-180). -/
def step (env : Env) (o : Options) (source : Source) (watch : Bool) (now : Nat → Int) (st : State) (e : Event) : State :=
  match st.status, e with
  | .reading s, .data bytes => feed now bytes s st
  | .reading s, .closed =>
    -- `Source::read` (109-119), then `break Ok(())` (251-254)
    if source = .stdin then
      if watch then restart env o st else { st with status := .finished }
    else feed now [] s st
  | .reading _, .broken => { st with status := .failed .input }
  | .reading _, .file f notified =>
    if watch && notified then restart env o { st with file := f } else { st with file := f }
  | _, .file f _ => { st with file := f }
  | _, _ => st

/-- `main` (print/src/main.rs:123-143) up to the first event; `canonicalize().unwrap()` (161) -/
def start (env : Env) (o : Options) (watch : Bool) (file : Option Binary) : State :=
  if watch && file.isNone then ⟨file, .panicked, [], 0⟩ else restart env o ⟨file, .finished, [], 0⟩

def runEvents (env : Env) (o : Options) (source : Source) (watch : Bool) (now : Nat → Int) (file : Option Binary) (events : List Event) : State :=
  events.foldl (step env o source watch now) (start env o watch file)

end Defmt.Run
