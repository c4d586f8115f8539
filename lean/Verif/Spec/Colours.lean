import Verif.Spec.Whole
import Verif.Spec.LogExact
/-! Specification side of C114: what a terminal with or without colours shows for log statements. -/

namespace Defmt.HostLog
open Json Parser LogFormat

/-- Characters without colour and style -/
def plainCells (s : List Char) : List Cell := s.map fun c => (c, [])

/-- What is shown for a message: the message with its own colours, or both values one below the other, the left one in red and the right one in green, if it is
the one of a failed `assert_eq!`. -/
inductive MessageCells (t : Term) (m : List Char) : List Cell → Prop
  | plain {v} : ¬ LikeDiff m → Contained m v → MessageCells t m v
  | diff {before left right x y} : LinesOf m (before ++ [left, right]) → before ≠ [] → Value c!" left: `" x left → Value c!"right: `" y right →
      Char.ofNat 27 ∉ m → MessageCells t m (diffCells t before x y)

/-- What is shown of the location of a log statement: nothing without `-v`, otherwise a second line. -/
inductive PlaceCells (o : Options) (f : Frame) : List Cell → Prop
  | quiet : o.verbose = false → PlaceCells o f []
  | located {loc module file} : o.verbose = true → Located o f loc → Contained loc.module module → Contained (o.relative loc.file) file →
      PlaceCells o f (plainCells c!"\n└─ " ++ module ++ plainCells c!" @ " ++ file ++ plainCells (c!":" ++ leftPadded 4 (Nat.toDigits 10 loc.line)))
  | notLocated : o.verbose = true → NotLocated o f → PlaceCells o f (plainCells c!"\n└─ <mod path> @ <file>:0   ")

/-- A log statement with the texts of its timestamp and of its message, and what is shown of them and of its location. -/
structure Painted where
  event : Encoder.LogEvent
  timestamp : List Char
  message : List Char
  timestampCells : List Cell
  messageCells : List Cell
  placeCells : List Cell

/-- The texts are those of the statement (C59). They may have escape sequences of their own that end where the text ends, not more than `core::fmt` can
pad (see C56). -/
structure Painted.Ok (env : Env) (o : Options) (t : Table) (s : Painted) : Prop where
  event : s.event.Ok t
  texts : Texts env s.event.frame s.timestamp s.message
  fewHidden : FewHidden o.term.maxWidth s.timestamp ∧ FewHidden o.term.maxWidth s.message
  timestamp : Contained s.timestamp s.timestampCells
  message : s.event.tag.toLevel ≠ none → MessageCells o.term s.message s.messageCells
  /-- `println!` -/
  printed : s.event.tag.toLevel = none → Contained s.message s.messageCells
  place : PlaceCells o s.event.frame s.placeCells

/-- What the user sees of a log statement with the default format: the timestamp if the program has one, the level in five columns and in its colour,
the message, and the location if they asked for it; of `println!` only the message. -/
def Painted.cells (o : Options) (hasTimestamp : Bool) (s : Painted) : List Cell :=
  match s.event.tag.toLevel with
  | none => s.messageCells ++ plainCells c!"\n"
  | some l =>
    (if hasTimestamp then (if s.timestamp = [] then plainCells c!"<time>" else s.timestampCells) ++ plainCells c!" " else []) ++
    styledText o.term (some (levelColor l)) [] (leftPadded 5 (levelText l)) ++ plainCells c!" " ++ s.messageCells ++ s.placeCells ++ plainCells c!"\n"

end Defmt.HostLog

namespace Defmt.Whole
open Linker LogFormat HostLog Encoder
open Parser hiding parse Written

/-- An execution of a log statement with the texts of its timestamp and of its message, and what is shown of them and of its location. -/
structure Coloured extends Execution where
  timestamp : List Char
  message : List Char
  timestampCells : List Cell
  messageCells : List Cell
  placeCells : List Cell

/-- The texts are what the values show (C59). They may have escape sequences of their own that end where the text ends. -/
structure Coloured.Ok (env : Env) (opts : Options) (inputs : List Input) (o : Out) (strings : Table) (format : Option (List Char)) (x : Coloured) : Prop
    extends Execution.Ok inputs o strings format x.toExecution where
  texts : Texts env (x.event format).frame x.timestamp x.message
  fewHidden : FewHidden opts.term.maxWidth x.timestamp ∧ FewHidden opts.term.maxWidth x.message
  timestamp : Contained x.timestamp x.timestampCells
  message : x.site.kind ≠ .println → MessageCells opts.term x.message x.messageCells
  printed : x.site.kind = .println → Contained x.message x.messageCells
  place : PlaceCells opts (x.event format).frame x.placeCells

/-- What the user sees of a log statement with the default format: the level in its colour. -/
def Coloured.cells (opts : Options) (format : Option (List Char)) (x : Coloured) : List Cell :=
  match x.site.kind with
  | .log level =>
    (match format with
      | none => []
      | some _ => (if x.timestamp = [] then plainCells c!"<time>" else x.timestampCells) ++ plainCells c!" ") ++
    styledText opts.term (some (levelColor level)) [] (leftPadded 5 (levelText level)) ++ plainCells c!" " ++ x.messageCells ++ x.placeCells ++
      plainCells c!"\n"
  | _ => x.messageCells ++ plainCells c!"\n"

end Defmt.Whole
