import Verif.Spec.Colours
/-! Specification side of C114, for texts that leave a colour in effect at their end. -/

namespace Defmt.HostLog
open Json Parser LogFormat

/-- `s.Spills t hasTimestamp active cells active'`: the line of a log statement in the default format, when the sequences `active` are in effect before it: `cells` are shown and
`active'` are in effect after it. Whatever is in effect stays so, until the level ends it on a terminal with colours. -/
inductive Statement.Spills (t : Term) (hasTimestamp : Bool) (s : Statement) : List (List Char) → List Cell → List (List Char) → Prop
  | print {active v after} : s.event.tag.toLevel = none → Rendered active (s.message ++ c!"\n") v after → s.Spills t hasTimestamp active v after
  | log {active l v now w after} : s.event.tag.toLevel = some l →
      Rendered active (if hasTimestamp then (if s.timestamp = [] then c!"<time>" else s.timestamp) ++ c!" " else []) v now →
      Rendered (if t.colorize then [] else now) (c!" " ++ s.message ++ s.place ++ c!"\n") w after →
      s.Spills t hasTimestamp active
        (v ++ (leftPadded 5 (levelText l)).map (fun c => (c, now ++ wantedStyle t (some (levelColor l)) [])) ++ w) after

/-- One line after the other. -/
inductive SpillsAll (t : Term) (hasTimestamp : Bool) : List (List Char) → List Statement → List Cell → List (List Char) → Prop
  | nil {active} : SpillsAll t hasTimestamp active [] [] active
  | cons {active s v now ss w after} : s.Spills t hasTimestamp active v now → SpillsAll t hasTimestamp now ss w after →
      SpillsAll t hasTimestamp active (s :: ss) (v ++ w) after

end Defmt.HostLog
