import Verif.Spec.LogFormat
/-!
What a line of output looks like, also for texts with sequences of their own and for groups that have a width and a colour or style (where it is not what the book says, see `C56_fails`).
-/

namespace Defmt.LogFormat

open Parser (isDigit)

/-- The number of places in a text at which all styles end (`ESC [ 0 m`). -/
def endings : List Char → Nat
  | [] => 0
  | c :: s => (if endSequence <+: c :: s then 1 else 0) + endings s

/-- The number of places at which a style ends in a text in this colour and style: none or one. -/
def styleEnds (t : Term) (fg : Option Color) (styles : List Style) : Nat := (wantedStyle t fg styles).length

/-- Is the piece one of the left value? -/
def Chunk.ofLeft : Chunk → Bool
  | .insert _ => false
  | _ => true

/-- Is the piece one of the right value? -/
def Chunk.ofRight : Chunk → Bool
  | .delete _ => false
  | _ => true

/-- The same for the values of a failed `assert_eq!`: six texts, and each piece of the values -/
def diffEnds (t : Term) (left right : List Char) : Nat :=
  if t.colorize = false then 0
  else 6 + ((t.diff left right).filter Chunk.ofLeft).length + ((t.diff left right).filter Chunk.ofRight).length

/-- What is missing of the width `width` of a group with this colour and style, within which a style ends `ends` times: the length of the
group's own sequence each time. -/
def reduced (t : Term) (fg : Option Color) (styles : List Style) (width ends : Nat) : Nat :=
  width - ends * (wantedStyle t fg styles).flatten.length

/-- `Contained s cells`: a text that may have sequences of its own and shows `cells`: it does not end within a sequence, and at its end no sequence is in
effect. -/
structure Contained (s : List Char) (cells : List Cell) : Prop where
  rendered : Rendered [] s cells []
  /-- not the first characters of a sequence at the end -/
  complete : ∀ a b, s = a ++ Char.ofNat 27 :: b → b ≠ [] ∧ ∀ params, (∀ c ∈ params, isDigit c = true ∨ c = ';') → b ≠ '[' :: params

mutual

/-- `Drawn t r l seg cells ends`: what a segment of the format shows for a record with level `l`, in which colours and styles, and how often a
style ends in it. As `Paints`, except for the width of groups,
and for texts that have sequences of their own. -/
inductive Drawn (t : Term) (r : Record) (l : Level) : Segment → List Cell → Nat → Prop
  | text {s v} : Contained s v → Drawn t r l (.text s) v (endings s)
  | field {m f w s v out} : FieldText r m w s → Contained s v →
      Padded (reduced t (wantedColor (fieldColor m f) l) (f.style.getD []) (f.width.getD w) (endings s)) (f.alignment.getD .left) (fillText f, []) v out →
      Drawn t r l (.field m f) (out.map fun c => (c.1, wantedStyle t (wantedColor (fieldColor m f) l) (f.style.getD []) ++ c.2))
        (endings s + styleEnds t (wantedColor (fieldColor m f) l) (f.style.getD []))
  | message {f v out} : r.source = .defmt → ¬ LikeDiff r.args → Contained r.args v →
      Padded (reduced t (wantedColor f.color l) (f.style.getD []) (f.width.getD 0) (endings r.args)) (f.alignment.getD .left) (fillText f, []) v out →
      Drawn t r l (.field .log f) (out.map fun c => (c.1, wantedStyle t (wantedColor f.color l) (f.style.getD []) ++ c.2))
        (endings r.args + styleEnds t (wantedColor f.color l) (f.style.getD []))
  | diff {f before left right x y} : r.source = .defmt → LinesOf r.args (before ++ [left, right]) → before ≠ [] →
      Value c!" left: `" x left → Value c!"right: `" y right → Char.ofNat 27 ∉ r.args →
      Drawn t r l (.field .log f) (diffCells t before x y) (diffEnds t x y)
  | hostMessage {f v} : r.source = .host → Contained r.args v → Drawn t r l (.field .log f) v (endings r.args)
  /-- a group: its width is reduced -/
  | group {segments f v out n} : DrawnAll t r l segments v n →
      Padded (reduced t (wantedColor f.color l) (f.style.getD []) (f.width.getD 0) n) (f.alignment.getD .left) (fillText f, []) v out →
      Drawn t r l (.nested segments f)
        (out.map fun c => (c.1, wantedStyle t (wantedColor f.color l) (f.style.getD []) ++ c.2))
        (n + styleEnds t (wantedColor f.color l) (f.style.getD []))

/-- One segment after the other -/
inductive DrawnAll (t : Term) (r : Record) (l : Level) : List Segment → List Cell → Nat → Prop
  | nil : DrawnAll t r l [] [] 0
  | cons {s ss a b n m} : Drawn t r l s a n → DrawnAll t r l ss b m → DrawnAll t r l (s :: ss) (a ++ b) (n + m)

end

end Defmt.LogFormat
