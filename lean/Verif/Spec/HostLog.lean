import Verif.Model.HostLog
import Verif.Spec.LogFormat
import Verif.Spec.Encoder
/-! Specification side of the output of `defmt-print`: C77 to C80. -/

namespace Defmt.HostLog
open Json Parser LogFormat

/-- The texts of a frame: its timestamp (empty if the program has no timestamp) and its message (see C59). -/
structure Texts (env : Env) (f : Frame) (timestamp message : List Char) : Prop where
  timestamp : f.timestamp env = some (some timestamp) ∨ (f.timestamp env = none ∧ timestamp = [])
  message : f.message env = some message

/-- The location of the log statement of a frame is known: the ELF file has locations for all log statements and `loc` is the one of
this statement. -/
def Located (o : Options) (f : Frame) (loc : Loc) : Prop :=
  (∀ i ∈ o.indices, ∃ l, o.locations i = some l) ∧ o.locations f.index = some loc

/-- The location of the log statement of a frame is not known. -/
def NotLocated (o : Options) (f : Frame) : Prop := ∀ loc, ¬ Located o f loc

/-- The record of the formatters (C65 to C69) has the texts and the location of the frame. -/
structure RecordOf (o : Options) (f : Frame) (timestamp message : List Char) (r : Record) : Prop where
  source : r.source = .defmt
  level : r.level = f.level
  timestamp : r.timestamp = timestamp
  args : r.args = message
  located : ∀ loc, Located o f loc → r.file = some (o.relative loc.file) ∧ (loc.line < 2 ^ 32 → r.line = some loc.line) ∧
    r.modulePath = some loc.module
  notLocated : NotLocated o f → r.file = none ∧ r.line = none ∧ r.modulePath = none

/-- The object tells everything about a frame that was received at the time `now` (in nanoseconds since 1970). -/
structure Reported (o : Options) (f : Frame) (now : Int) (timestamp message : List Char) (j : JsonFrame) : Prop where
  data : j.data = message
  level : j.level = f.level
  targetTimestamp : j.targetTimestamp = timestamp
  hostTimestamp : - 2 ^ 63 ≤ now → now < 2 ^ 63 → j.hostTimestamp = now
  /-- from the year 2262 on -/
  late : 2 ^ 63 ≤ now → j.hostTimestamp = 2 ^ 63 - 1
  file : ∀ loc, Located o f loc → j.location.file = some (o.relative loc.file)
  line : ∀ loc, Located o f loc → loc.line < 2 ^ 32 → j.location.line = some loc.line
  /-- a module path with the name of the function -/
  modulePath : ∀ loc, Located o f loc → ∀ crateName modules function,
    loc.module = pathText (crateName :: modules ++ [function]) → (∀ n ∈ crateName :: modules ++ [function], ':' ∉ n) →
    j.location.modulePath = some ⟨crateName, modules, function⟩
  notLocated : NotLocated o f → j.location = ⟨none, none, none⟩

/-- lines, each with its end -/
def textLines (lines : List (List Char)) : List Char := lines.flatMap (fun l => l ++ ['\n'])

/-- `lines` are the lines for the units that were received at the times `now 0`, `now 1`, ...: one line of JSON for every
frame, in order, and the lines `note` for what was skipped. Each line of JSON can be read on its own. -/
inductive JsonLines (env : Env) (o : Options) (note : List (List Char)) :
    (Nat → Int) → List (Printer.Line Frame) → List (List Char) → Prop where
  | nil {now} : JsonLines env o note now [] []
  | frame {now f ts m line j rest lines} : Texts env f ts m → '\n' ∉ line → readFrame line = some j →
      Reported o f (now 0) ts m j → JsonLines env o note (fun k => now (k + 1)) rest lines →
      JsonLines env o note now (.frame f :: rest) (line :: lines)
  | skipped {now rest lines} : JsonLines env o note (fun k => now (k + 1)) rest lines →
      JsonLines env o note now (.skipped :: rest) (note ++ lines)

/-- `text` is the text for the units: for every frame with a level the text of the formatter and the end of the
line, for the others (`println!`) the message and the end of the line; `note` is the text for what was skipped. -/
inductive PlainText (env : Env) (o : Options) (formatter : List Segment) (note : List Char) :
    List (Printer.Line Frame) → List Char → Prop where
  | nil : PlainText env o formatter note [] []
  | frame {f ts m r l s rest text} : Texts env f ts m → f.level = some l → RecordOf o f ts m r →
      formatRecord o.term formatter r = some s → PlainText env o formatter note rest text →
      PlainText env o formatter note (.frame f :: rest) (s ++ c!"\n" ++ text)
  | print {f ts m rest text} : Texts env f ts m → f.level = none → PlainText env o formatter note rest text →
      PlainText env o formatter note (.frame f :: rest) (m ++ c!"\n" ++ text)
  | skipped {rest text} : PlainText env o formatter note rest text →
      PlainText env o formatter note (.skipped :: rest) (note ++ text)

/-- The lines for a frame that was skipped: two with `-v` or `--show-skipped-frames`, none otherwise. They are not JSON. -/
def noteLines (o : Options) : List (List Char) :=
  if o.showSkipped = true ∨ o.verbose = true then [c!"(HOST) malformed frame skipped", c!"└─ " ++ o.place] else []

/-- the note about a skipped frame -/
def noteText (o : Options) : List Char :=
  if o.showSkipped = true ∨ o.verbose = true then textLines [c!"(HOST) malformed frame skipped", c!"└─ " ++ o.place] else []

/-- What the user sees of the location of a log statement: nothing without `-v`, otherwise a second line. -/
inductive PlaceShown (o : Options) (f : Frame) : List Char → Prop
  | quiet : o.verbose = false → PlaceShown o f []
  | located {loc} : o.verbose = true → Located o f loc →
      PlaceShown o f (c!"\n└─ " ++ loc.module ++ c!" @ " ++ o.relative loc.file ++ c!":" ++ leftPadded 4 (Nat.toDigits 10 loc.line))
  | notLocated : o.verbose = true → NotLocated o f → PlaceShown o f c!"\n└─ <mod path> @ <file>:0   "

/-- A log statement with the texts of its timestamp and of its message, what is shown of the message and of its location. -/
structure Statement where
  event : Encoder.LogEvent
  timestamp : List Char
  message : List Char
  shownMessage : List Char
  place : List Char

/-- The texts are those of the statement (C59). They may have any characters, if not more than `core::fmt` can pad are parts of escape sequences (see C56). The
message is shown as it is, unless it is one of `assert_eq!` (see C67). -/
structure Statement.Ok (env : Env) (o : Options) (t : Table) (s : Statement) : Prop where
  event : s.event.Ok t
  texts : Texts env s.event.frame s.timestamp s.message
  fewHidden : FewHidden o.term.maxWidth s.timestamp ∧ FewHidden o.term.maxWidth s.message
  shown : MessageShown s.message s.shownMessage
  place : PlaceShown o s.event.frame s.place

/-- What the user sees of a log statement with the default format: the timestamp if the program has one, the level in five columns,
the message, and the location if they asked for it; of `println!` only the message. -/
def Statement.shown (hasTimestamp : Bool) (s : Statement) : List Char :=
  match s.event.tag.toLevel with
  | none => s.message ++ c!"\n"
  | some l =>
    (if hasTimestamp then (if s.timestamp = [] then c!"<time>" else s.timestamp) ++ c!" " else []) ++
    leftPadded 5 (levelText l) ++ c!" " ++ s.shownMessage ++ s.place ++ c!"\n"

end Defmt.HostLog
