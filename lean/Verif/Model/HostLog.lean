import Verif.Model.Json
import Verif.Model.LogFormat
import Verif.Model.LogParser
import Verif.Model.Frame
import Verif.Model.Printer
/-!
# From frames to the output of `defmt-print`

Models `decoder/src/log/mod.rs`, `decoder/src/log/json_logger.rs`, `decoder/src/log/stdout_logger.rs`,
`decoder/defmt-json-schema/src/lib.rs` and the output part of `print/src/main.rs`. A result `none` is a panic.

Simplifications: the message of a frame is computed when the record is built (in the source, when the logger asks for it;
the same text); write errors of stdout and stderr (ignored by the source) do not occur; derived `Deserialize` is modelled for
objects (not for the arrays it also accepts).
-/

namespace Defmt.HostLog
open Json Parser LogFormat

/-- What the loggers use of a `log::Record`. -/
structure LogRecord where
  target : List Char
  level : Level
  args : List Char
  file : Option (List Char)
  line : Option Nat
  modulePath : Option (List Char)

/-- `DEFMT_TARGET_MARKER` (log/mod.rs:27) -/
def marker : List Char := c!"defmt@"

/-- `Payload` (log/mod.rs:79-83) -/
structure Payload where
  level : Option Level
  timestamp : List Char

/-- `Option<T>` as `serde` writes it -/
def optionJson {T : Type} (f : T → Json) : Option T → Json
  | none => .null
  | some a => f a

/-- `Serialize for log::Level`: the name of the variant in upper case -/
def levelJson (l : Level) : Json := .str (levelName l)

/-- `FromStr for log::Level`: the name, in any case. -/
def levelOfName (s : List Char) : Option Level :=
  [Level.error, .warn, .info, .debug, .trace].find? (fun l => levelName l = s.map Char.toUpper)

/-- `Deserialize for log::Level`: the name as a string, or as the only member of an object (`serde_json` reads a variant without
content also in this form). -/
def getLevel : Json → Option Level
  | .str s => levelOfName s
  | .obj [(s, .null)] => levelOfName s
  | _ => none

/-- `Serialize for Payload` -/
def Payload.toJson (p : Payload) : Json :=
  .obj [(c!"level", optionJson levelJson p.level), (c!"timestamp", .str p.timestamp)]

/-- `Deserialize for Payload` (log/mod.rs:79-83): derived, so an array of the fields in order is read as well -/
def Payload.ofJson : Json → Option Payload
  | .obj ms =>
    match optionalField ms c!"level" getLevel, required ms c!"timestamp" getString with
    | some level, some timestamp => some ⟨level, timestamp⟩
    | _, _ => none
  | .arr [.null, .str timestamp] => some ⟨none, timestamp⟩
  | .arr [level, .str timestamp] => (getLevel level).map (fun l => ⟨some l, timestamp⟩)
  | _ => none

/-- `timestamp_and_level_from_frame` (log/mod.rs:146-159); `to_string` panics when the timestamp cannot be displayed -/
def timestampAndLevel (env : Env) (frame : Frame) : Option Payload :=
  match frame.timestamp env with
  | none => some ⟨frame.level, []⟩
  | some none => none
  | some (some ts) => some ⟨frame.level, ts⟩

/-- `log_defmt` (log/mod.rs:30-54): the record for the logger. The level of the record is the default of the builder. -/
def logDefmt (env : Env) (frame : Frame) (file : Option (List Char)) (line : Option Nat) (modulePath : Option (List Char)) :
    Option LogRecord :=
  match timestampAndLevel env frame, frame.message env with
  | some payload, some message => some {
      target := marker ++ write payload.toJson
      level := .info
      args := message
      file := file
      line := line
      modulePath := modulePath }
  | _, _ => none

/-- `is_defmt_frame` (log/mod.rs:57-59) -/
def isDefmtFrame (target : List Char) : Bool := marker.isPrefixOf target

/-- `DefmtRecord::new` (log/mod.rs:87-95) with the accessors (97-120): `none` for a malformed payload (`expect` panics), `some
none` for a record that is not from `log_defmt`. -/
def defmtRecord (r : LogRecord) : Option (Option Record) :=
  match stripPrefix marker r.target with
  | none => some none
  | some payload =>
    match (read payload).bind Payload.ofJson with
    | none => none
    | some p => some (some {
        source := .defmt
        level := p.level
        timestamp := p.timestamp
        args := r.args
        file := r.file
        line := r.line
        modulePath := r.modulePath })

/-- A host record for the formatter (format/mod.rs:269-272). -/
def hostRecord (r : LogRecord) : Record where
  source := .host
  level := some r.level
  timestamp := []
  args := r.args
  file := r.file
  line := r.line
  modulePath := r.modulePath

/-! ### JSON -/

/-- `ModulePath` (defmt-json-schema/src/lib.rs:32-37) -/
structure ModulePath where
  crateName : List Char
  modules : List (List Char)
  function : List Char

/-- `Location` (defmt-json-schema/src/lib.rs:25-30) -/
structure Location where
  file : Option (List Char)
  line : Option Nat
  modulePath : Option ModulePath

/-- `JsonFrame` (defmt-json-schema/src/lib.rs:14-23) -/
structure JsonFrame where
  data : List Char
  hostTimestamp : Int
  level : Option Level
  location : Location
  targetTimestamp : List Char

/-- derived `Serialize` (defmt-json-schema/src/lib.rs:32-37) -/
def ModulePath.toJson (m : ModulePath) : Json :=
  .obj [(c!"crate_name", .str m.crateName), (c!"modules", .arr (m.modules.map .str)), (c!"function", .str m.function)]

/-- derived `Serialize` (defmt-json-schema/src/lib.rs:25-30) -/
def Location.toJson (l : Location) : Json :=
  .obj [(c!"file", optionJson .str l.file), (c!"line", optionJson (fun n => .num (Int.ofNat n)) l.line),
    (c!"module_path", optionJson ModulePath.toJson l.modulePath)]

/-- derived `Serialize` (defmt-json-schema/src/lib.rs:14-23) -/
def JsonFrame.toJson (f : JsonFrame) : Json :=
  .obj [(c!"data", .str f.data), (c!"host_timestamp", .num f.hostTimestamp), (c!"level", optionJson levelJson f.level),
    (c!"location", f.location.toJson), (c!"target_timestamp", .str f.targetTimestamp)]

/-- derived `Deserialize` (defmt-json-schema/src/lib.rs:32-37) -/
def ModulePath.ofJson : Json → Option ModulePath
  | .obj ms =>
    match required ms c!"crate_name" getString, required ms c!"modules" getStrings, required ms c!"function" getString with
    | some crateName, some modules, some function => some ⟨crateName, modules, function⟩
    | _, _, _ => none
  | _ => none

/-- derived `Deserialize` (defmt-json-schema/src/lib.rs:25-30); `line` is an `u32` -/
def Location.ofJson : Json → Option Location
  | .obj ms =>
    match optionalField ms c!"file" getString, optionalField ms c!"line" (getInteger 0 (2 ^ 32 - 1)),
        optionalField ms c!"module_path" ModulePath.ofJson with
    | some file, some line, some modulePath => some ⟨file, line.map Int.toNat, modulePath⟩
    | _, _, _ => none
  | _ => none

/-- derived `Deserialize` (defmt-json-schema/src/lib.rs:14-23); `host_timestamp` is an `i64`. Arrays of the fields in order, which are
read as well, are left out, also in the parts. -/
def JsonFrame.ofJson : Json → Option JsonFrame
  | .obj ms =>
    match required ms c!"data" getString, required ms c!"host_timestamp" (getInteger (- 2 ^ 63) (2 ^ 63 - 1)),
        optionalField ms c!"level" getLevel, required ms c!"location" Location.ofJson,
        required ms c!"target_timestamp" getString with
    | some data, some hostTimestamp, some level, some location, some targetTimestamp =>
      some ⟨data, hostTimestamp, level, location, targetTimestamp⟩
    | _, _, _, _, _ => none
  | _ => none

/-- `serde_json::from_str::<JsonFrame>` -/
def readFrame (line : List Char) : Option JsonFrame := (read line).bind JsonFrame.ofJson

/-- `serde_json::from_str::<SchemaVersion>` (defmt-json-schema/src/lib.rs:4-7); `schema_version` is an `u32` -/
def readVersion (line : List Char) : Option Int :=
  match read line with
  | some (.obj ms) => required ms c!"schema_version" (getInteger 0 (2 ^ 32 - 1))
  | _ => none

/-- `unix_timestamp_nanos().min(i64::MAX as i128) as i64` (json_logger.rs:31-33) -/
def hostTimestamp (now : Int) : Int := (BitVec.ofInt 64 (min now (2 ^ 63 - 1))).toInt

/-- `create_json_frame` (json_logger.rs:66-78) -/
def createJsonFrame (r : Record) (hostTimestamp : Int) : JsonFrame where
  data := r.args
  hostTimestamp := hostTimestamp
  level := r.level
  location := {
    file := r.file
    line := r.line
    modulePath := (createModulePath r.modulePath).map (fun m => ⟨m.1, m.2.1, m.2.2⟩) }
  targetTimestamp := r.timestamp

/-! ### loggers -/

inductive Sink where
  | stdout
  | stderr
deriving DecidableEq, Repr

/-- What is written: where and what, in order. -/
abbrev Writes := List (Sink × List Char)

structure Formatters where
  term : Term
  formatter : List Segment
  hostFormatter : List Segment

/-- `print_defmt_record`, `print_defmt_record_without_format` and the decision between them (stdout_logger.rs:26-34, 67-79) -/
def printDefmtRecord (fmt : Formatters) (r : Record) : Option Writes :=
  if r.level.isSome then (formatRecord fmt.term fmt.formatter r).map (fun s => [(.stdout, s ++ ['\n'])])
  else some [(.stdout, r.args ++ ['\n'])]

/-- `print_host_record` (stdout_logger.rs:81-84) -/
def printHostRecord (fmt : Formatters) (r : LogRecord) : Option Writes :=
  (formatRecord fmt.term fmt.hostFormatter (hostRecord r)).map (fun s => [(.stderr, s ++ ['\n'])])

/-- `StdoutLogger::log` (stdout_logger.rs:20-43) -/
def stdoutLog (fmt : Formatters) (shouldLog : List Char → Bool) (r : LogRecord) : Option Writes :=
  if !shouldLog r.target then some []
  else
    match defmtRecord r with
    | none => none
    | some (some record) => printDefmtRecord fmt record
    | some none => printHostRecord fmt r

/-- `JsonLogger::log` (json_logger.rs:22-41); `now` is the time of the host in nanoseconds -/
def jsonLog (fmt : Formatters) (shouldLog : List Char → Bool) (now : Int) (r : LogRecord) : Option Writes :=
  if !shouldLog r.target then some []
  else
    match defmtRecord r with
    | none => none
    | some (some record) => some [(.stdout, write (createJsonFrame record (hostTimestamp now)).toJson), (.stdout, ['\n'])]
    | some none => printHostRecord fmt r

/-- `print_schema_version` (json_logger.rs:58-62) -/
def printSchemaVersion : Writes := [(.stdout, write (.obj [(c!"schema_version", .num 1)])), (.stdout, ['\n'])]

/-! ### `defmt-print` -/

/-- `Location` (decoder/src/elf2table/mod.rs), keyed by the index of the log statement -/
structure Loc where
  file : List Char
  line : Nat
  module : List Char

/-- The options of `defmt-print` (print/src/main.rs:29-56) and what else its output depends on. -/
structure Options where
  json : Bool
  verbose : Bool
  showSkipped : Bool
  logFormat : Option (List Char)
  hostLogFormat : Option (List Char)
  /-- the terminal -/
  term : Term
  /-- `Table::get_locations` (Model/Dwarf.lean; put together in Model/Run.lean) -/
  locations : Nat → Option Loc
  /-- the indices of the table (`Table::indices`) -/
  indices : List Nat
  /-- `strip_prefix(current_dir).unwrap_or(..).display().to_string()` (print/src/main.rs:296-298) -/
  relative : List Char → List Char
  /-- `env!("CARGO_PKG_NAME") @ file!():line!()` in the note about skipped frames (print/src/main.rs:272) -/
  place : List Char

/-- "check if the locations info contains all the indicies" (print/src/main.rs:199-205). The warning is issued before a logger is
set and is lost (the first time). -/
def locs (o : Options) : Option (Nat → Option Loc) :=
  if o.indices.all (fun i => (o.locations i).isSome) then some o.locations else none

/-- `location_info` (print/src/main.rs:289-305); the line is cut to an `u32` -/
def locationInfo (o : Options) (f : Frame) : Option (List Char) × Option Nat × Option (List Char) :=
  match locs o with
  | none => (none, none, none)
  | some locs =>
    match locs f.index with
    | none => (none, none, none)
    | some loc => (some (o.relative loc.file), some (loc.line % 2 ^ 32), some loc.module)

/-- the format of `FormatterConfig` (print/src/main.rs:213-231), for frames and for host records -/
def formatOption (logFormat : Option (List Char)) (verbose : Bool) : FormatterFormat :=
  match logFormat with
  | some s => .custom s
  | none => if verbose then .default true else .default false

/-- `formatter` and `host_formatter` (print/src/main.rs:213-234); a host record has no timestamp -/
def newFormatters (o : Options) (hasTimestamp : Bool) : Option Formatters :=
  match newFormatter o.term (formatOption o.logFormat o.verbose) hasTimestamp .defmt,
      newFormatter o.term (formatOption o.hostLogFormat o.verbose) false .host with
  | some formatter, some hostFormatter => some ⟨o.term, formatter, hostFormatter⟩
  | _, _ => none

/-- the closure `should_log` (print/src/main.rs:236-241) -/
def shouldLog (o : Options) (target : List Char) : Bool :=
  match o.verbose with
  | false => isDefmtFrame target
  | true => true

/-- the logger installed by `init_logger` (log/mod.rs:129-144) -/
def log (o : Options) (fmt : Formatters) (now : Int) (r : LogRecord) : Option Writes :=
  if o.json then jsonLog fmt (shouldLog o) now r else stdoutLog fmt (shouldLog o) r

/-- what `init_logger` prints (log/mod.rs:135-141) -/
def initLogger (o : Options) : Writes := if o.json then printSchemaVersion else []

/-- `forward_to_logger` (print/src/main.rs:284-287) -/
def forwardToLogger (env : Env) (o : Options) (fmt : Formatters) (now : Int) (f : Frame) : Option Writes :=
  match logDefmt env f (locationInfo o f).1 (locationInfo o f).2.1 (locationInfo o f).2.2 with
  | none => none
  | some r => log o fmt now r

/-- the note about a skipped frame (print/src/main.rs:268-273) -/
def skippedNote (o : Options) : Writes :=
  if o.showSkipped || o.verbose then
    [(.stdout, c!"(HOST) malformed frame skipped\n"), (.stdout, c!"└─ " ++ o.place ++ ['\n'])]
  else []

/-- What the main loop prints for the units of `Model/Printer.lean` (print/src/main.rs:259-278); `now k` is the time at which the
`k`-th unit is printed. -/
def printLines (env : Env) (o : Options) (fmt : Formatters) (now : Nat → Int) : List (Printer.Line Frame) → Option Writes
  | [] => some []
  | .frame f :: rest =>
    match forwardToLogger env o fmt (now 0) f, printLines env o fmt (fun k => now (k + 1)) rest with
    | some w, some ws => some (w ++ ws)
    | _, _ => none
  | .skipped :: rest => (printLines env o fmt (fun k => now (k + 1)) rest).map (fun ws => skippedNote o ++ ws)

/-- What `defmt-print` writes for the bytes that arrive in `chunks` (`run`, print/src/main.rs:183-281, after the table is
loaded), and how the main loop ends. `td` is `Table::decode` and `hasTimestamp` is `Table::has_timestamp` (decoder/src/lib.rs:276-278). -/
def defmtPrint (env : Env) (o : Options) (td : List UInt8 → Except DecodeError (Frame × Nat)) (hasTimestamp : Bool)
    (enc : Encoding) (now : Nat → Int) (chunks : List (List UInt8)) : Option (Writes × Printer.Next) :=
  match newFormatters o hasTimestamp, Printer.defmtPrint td enc chunks with
  | some fmt, some (lines, next) => (printLines env o fmt now lines).map (fun ws => (initLogger o ++ ws, next))
  | _, _ => none

/-- what is written to `sink` -/
def textOf (sink : Sink) (ws : Writes) : List Char := (ws.filter (fun w => w.1 = sink)).flatMap Prod.snd

end Defmt.HostLog
