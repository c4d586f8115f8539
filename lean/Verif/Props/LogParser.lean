import Verif.Lemmas.LogPredefined
import Verif.Lemmas.LogRefused
import Verif.Lemmas.LogParts
import Verif.Props.LogOutput
/-!
# Properties C58, C64, C65: log formats

How a log format is written as described in the book (`Written`, `WrittenAll`, `ParamText`, ...) and what it shows
(`ShowsAll`) is in `Verif.Spec.LogFormat`.
-/

namespace Defmt

open LogFormat
open Parser hiding parse Written

/-! ### C58 -/

/-- **C58** fails: this string makes the parser panic. -/
theorem C58_fails (t : Term) : parse t c!"{s\\" = .panic := by rfl

/-- **C58** A string that does not end with a backslash is accepted or rejected. Partial: see `C58_fails`. -/
theorem C58_no_panic_partial (t : Term) {s : List Char} (h : s.getLast? ≠ some '\\') :
    (∃ segments, parse t s = .ok segments) ∨ parse t s = .err () := by
  have hp := parse_not_panic t h
  cases hx : parse t s with
  | ok segs => exact Or.inl ⟨segs, rfl⟩
  | err u => exact Or.inr rfl
  | panic => exact absurd hx hp

example : (c!"{t} [{L}] {s" : List Char).getLast? ≠ some '\\' := by decide

/-- A pair of brackets that stands for a segment: with `{s}` after it, it is a format with these two segments. -/
def StandsFor (t : Term) (b : List Char) (seg : Segment) : Prop := parse t (b ++ c!"{s}") = .ok [seg, .field .log {}]

/-- **C58** Exactly which strings make the parser panic: after texts and pairs of brackets that are accepted there is an
opening bracket that is never closed, and the string ends with a backslash that is not itself escaped. -/
theorem C58_exact {t : Term} (ht : t.Ok) (s : List Char) :
    parse t s = .panic ↔ ∃ before segs inner n, s = before ++ '{' :: (inner ++ ['\\']) ∧
      Parts (StandsFor t) before segs ∧ Inside inner n := by
  constructor
  · intro hp
    obtain ⟨before, segs, rest, e, hs, hparts, hstop⟩ := parts_exist t s.length s (Nat.le_refl _)
    have := parse_parts t hparts hstop
    rw [← hs, hp] at this
    have hb := parts_congr (Q := StandsFor t) (fun content seg h => (accepts_iff ht h seg).mp) hparts
    cases hstop with
    | ignored h => simp only at this; split at this <;> cases this
    | refused => cases this
    | unfinished h => exact ⟨before, segs, _, _, hs, hb, h⟩
  · rintro ⟨before, segs, inner, n, rfl, hb, hi⟩
    exact parse_parts t (parts_congr (fun content seg h => (accepts_iff ht h seg).mpr) hb) (.unfinished hi)

/-- **C64** Exactly which strings are accepted, and what they stand for: texts and pairs of brackets that are accepted, with
`{s}` among them, up to the end or to something that is ignored together with everything after it: a percent sign or a
bracket that is never closed. -/
theorem C64_exact {t : Term} (ht : t.Ok) (s : List Char) (segs : List Segment) :
    parse t s = .ok segs ↔ HasLog segs ∧ ∃ before rest, s = before ++ rest ∧ Parts (StandsFor t) before segs ∧
      Ignored rest := by
  constructor
  · intro hp
    obtain ⟨before, segs', rest, e, hs, hparts, hstop⟩ := parts_exist t s.length s (Nat.le_refl _)
    have := parse_parts t hparts hstop
    rw [← hs, hp] at this
    have hb := parts_congr (Q := StandsFor t) (fun content seg h => (accepts_iff ht h seg).mp) hparts
    cases hstop with
    | ignored h =>
      simp only at this
      split at this
      · rename_i hl
        simp only [Outcome.ok.injEq] at this
        subst this
        exact ⟨containsLog_hasLog _ hl, before, rest, hs, hb, h⟩
      · cases this
    | refused => cases this
    | unfinished h => cases this
  · rintro ⟨hl, before, rest, rfl, hb, hi⟩
    have := parse_parts t (parts_congr (fun content seg h => (accepts_iff ht h seg).mpr) hb)
      (.ignored hi)
    rw [this]
    simp only
    rw [if_pos (hasLog_contains hl)]

/-- **C64** A pair of brackets that stands for nothing makes the whole format be refused, whatever comes before and after it: it is
never ignored. -/
theorem C64_refused {t : Term} (ht : t.Ok) {content : List Char} (hc : Inside content 0)
    (h : ¬ ∃ seg, StandsFor t ('{' :: content ++ ['}']) seg) {before : List Char} {segs : List Segment}
    (hb : Parts (StandsFor t) before segs) (after : List Char) :
    parse t (before ++ ('{' :: content ++ ['}'] ++ after)) = .err () := by
  have hf : contentResult t content = .failure := by
    cases hr : contentResult t content with
    | ok r seg => exact absurd ⟨seg, (accepts_iff ht hc seg).mp ⟨content, r, rfl, hr⟩⟩ h
    | crash => exact absurd hr (contentResult_crash t hc)
    | error => exact absurd hr (contentResult_not_error t content)
    | failure => rfl
  exact parse_parts t (parts_congr (fun content seg h => (accepts_iff ht h seg).mpr) hb) (.refused after hc ⟨content, rfl, hf⟩)

/-- **C64** Exactly which strings are refused: those with a pair of brackets that stands for nothing, after texts and pairs of brackets
that are accepted, and those without `{s}` among what is not ignored. -/
theorem C64_refused_exact {t : Term} (ht : t.Ok) (s : List Char) :
    parse t s = .err () ↔ ∃ before segs rest, s = before ++ rest ∧ Parts (StandsFor t) before segs ∧
      ((Ignored rest ∧ ¬ HasLog segs) ∨
        ∃ content after, rest = '{' :: content ++ ['}'] ++ after ∧ Inside content 0 ∧ ¬ ∃ seg, StandsFor t ('{' :: content ++ ['}']) seg) := by
  constructor
  · intro hp
    obtain ⟨before, segs, rest, e, hs, hparts, hstop⟩ := parts_exist t s.length s (Nat.le_refl _)
    have := parse_parts t hparts hstop
    rw [← hs, hp] at this
    have hb := parts_congr (Q := StandsFor t) (fun content seg h => (accepts_iff ht h seg).mp) hparts
    refine ⟨before, segs, rest, hs, hb, ?_⟩
    cases hstop with
    | ignored h =>
      simp only at this
      split at this
      · cases this
      · rename_i hl
        exact .inl ⟨h, fun hh => hl (hasLog_contains hh)⟩
    | @refused content after hi hr =>
      refine .inr ⟨content, after, rfl, hi, ?_⟩
      rintro ⟨seg, hseg⟩
      obtain ⟨c, hc, hres⟩ := hr
      obtain ⟨c', r, hc', hres'⟩ := (accepts_iff ht hi seg).mpr hseg
      cases bracket_inj hc
      cases bracket_inj hc'
      rw [hres] at hres'
      cases hres'
    | unfinished h => cases this
  · rintro ⟨before, segs, rest, rfl, hb, ⟨hi, hl⟩ | ⟨content, after, rfl, hi, hn⟩⟩
    · have := parse_parts t (parts_congr (fun content seg h => (accepts_iff ht h seg).mpr) hb) (.ignored hi)
      rw [this]
      simp only
      rw [if_neg (fun hh => hl (containsLog_hasLog _ hh))]
    · exact C64_refused ht hi hn hb after

/-- `{s}` and a misspelt specifier in a group: the hypotheses hold, so this is refused -/
example (after : List Char) : parse (demoTerm true) (c!"{s}" ++ (c!"{[{X}]%bold}" ++ after)) = .err () := by
  have hi : Inside c!"[{X}]%bold" 0 :=
    .plain (s := c!"[{X}]%bol") (.plain (s := c!"[{X}]%bo") (.plain (s := c!"[{X}]%b") (.plain (s := c!"[{X}]%")
      (.plain (s := c!"[{X}]") (.plain (s := c!"[{X}") (.closed (s := c!"[{X") (.plain (s := c!"[{") (.opened (s := c!"[")
        (.plain (s := []) .nil (by decide) (by decide) (by decide))) (by decide) (by decide) (by decide)))
        (by decide) (by decide) (by decide)) (by decide) (by decide) (by decide)) (by decide) (by decide) (by decide))
        (by decide) (by decide) (by decide)) (by decide) (by decide) (by decide)) (by decide) (by decide) (by decide)
  have hb : Parts (StandsFor (demoTerm true)) c!"{s}" [.field .log {}] := .bracket (content := c!"s") (rest := []) inside_log rfl .nil
  refine C64_refused (demoTerm_ok true) (content := c!"[{X}]%bold") hi ?_ hb after
  rintro ⟨seg, h⟩
  have : parse (demoTerm true) ('{' :: c!"[{X}]%bold" ++ ['}'] ++ c!"{s}") = .err () := rfl
  rw [StandsFor, this] at h
  cases h

/-- panics: `{s}`, a text and an open bracket -/
example : parse (demoTerm true) c!"{s} {L\\}\\" = .panic := by
  rw [C58_exact (demoTerm_ok true)]
  refine ⟨c!"{s} ", [.field .log {}, .text c!" "], c!"L\\}", 0, rfl, ?_, ?_⟩
  · exact .bracket (content := c!"s") (rest := c!" ") inside_log rfl
      (.text (w := c!" ") (rest := []) (by simp) (by decide) (by simp) .nil)
  · exact .escape (s := c!"L") '}' (.plain (s := []) .nil (by decide) (by decide) (by decide))

/-- **C58** fails: making a formatter from a string that is not accepted panics. -/
theorem C58_rejected_panics (t : Term) {s : List Char} (h : ∀ segments, parse t s ≠ .ok segments)
    (isTimestampAvailable : Bool) (source : Source) :
    newFormatter t (.custom s) isTimestampAvailable source = none := by
  simp only [newFormatter, formatString]
  cases hx : parse t s with
  | ok segs => exact absurd hx (h segs)
  | err _ => rfl
  | panic => rfl

/-- a format without `{s}` is not accepted -/
example (segments : List Segment) : parse (demoTerm true) c!"{t} {L}" ≠ .ok segments := by
  have : parse (demoTerm true) c!"{t} {L}" = .err () := by rfl
  rw [this]
  simp

/-- **C58** The formatter for a string that is accepted has the segments. -/
theorem C58_accepted (t : Term) {s : List Char} {segments : List Segment} (h : parse t s = .ok segments)
    (isTimestampAvailable : Bool) (source : Source) :
    newFormatter t (.custom s) isTimestampAvailable source = some segments := by
  simp only [newFormatter, formatString, h]

/-! ### C64 -/

/-- **C64** A format written as the book says is accepted exactly if it has `{s}`, and then stands for what the book
says. Partial: `WrittenAll` restricts groups (`StartsGroup`, each group has a specifier) and colours (one word), see
`C64_bright`, `C64_groups` and `C64_ignored`. -/
theorem C64_documented_partial {t : Term} (ht : t.Ok) {s : List Char} {segments : List Segment}
    (h : WrittenAll t false s segments) :
    (HasLog segments → parse t s = .ok segments) ∧ (¬ HasLog segments → parse t s = .err ()) := by
  constructor
  · intro hl
    rw [parse_written ht h, if_pos (hasLog_contains hl)]
  · intro hl
    rw [parse_written ht h, if_neg]
    intro hc
    exact hl (containsLog_hasLog _ hc)

/-- **C64** A string stands for one list of segments. -/
theorem C64_unambiguous {t : Term} (ht : t.Ok) {s : List Char} {a b : List Segment}
    (h1 : WrittenAll t false s a) (h2 : WrittenAll t false s b) : a = b := by
  have e1 := many0_written ht h1
  have e2 := many0_written ht h2
  rw [e1] at e2
  simpa using e2

/-- the example of the book -/
theorem C64_book {t : Term} (ht : t.Ok) : WrittenAll t false c!"{{[{L}]%bold} {f}:{l}%35} {s}" bookSegments := by
  have hbody : WrittenAll t true c!"{[{L}]%bold} {f}:{l}"
      [.nested [.text c!"[", .field .logLevel {}, .text c!"]"] { style := some [.bold] }, .text c!" ",
        .field (.fileName 1) {}, .text c!":", .field .lineNumber {}] :=
    .segment (written_level ht) (.text (s := c!" ") (by simp [PlainText]) (written_plain t (.fileName 1 (by decide) (by decide)))
      (.text (s := c!":") (by simp [PlainText]) (written_plain t .lineNumber) .nil))
  have hgroup := Written.group (t := t) (params := c!"%35") hbody
    (startsGroup_symbol ht (by decide) (by decide) (by decide) (by decide))
    ⟨.lineNumber, {}, by simp⟩ (.cons (ss := []) (.width none 35 (by decide) (by decide)) .nil)
    (by decide)
  exact .segment hgroup (.text (s := c!" ") (by simp [PlainText]) (written_plain t .log) .nil)

example : HasLog bookSegments := .field (f := {}) (by simp [bookSegments])

/-- a group that starts with text, and parameters -/
example (t : Term) (ht : t.Ok) : WrittenAll t false c!"{<{t:dimmed:>08}>%werror} {s:bold:italic}"
    [.nested [.text c!"<", .field .timestamp
        { width := some 8, padding := some .zero, alignment := some .right, style := some [.dimmed] }, .text c!">"]
        { color := some .warnError },
      .text c!" ", .field .log { style := some [.bold, .italic] }] := by
  have hT := Written.field (t := t) (params := c!":dimmed:>08") .timestamp
    (.cons .dimmed (.cons (ss := []) (.zeroWidth (some .right) 8 (by decide)) .nil))
    (by decide)
  have hbody : WrittenAll t true c!"<{t:dimmed:>08}>" _ :=
    .text (s := c!"<") (by simp [PlainText]) hT (.lastText (s := c!">") (by simp [PlainText]))
  have hstart : StartsGroup t c!"<{t:dimmed:>08}>" := by
    constructor
    · intro w rest he hw _
      have hw0 : w = [] := by
        cases w with
        | nil => rfl
        | cons x w =>
          simp only [List.cons_append, List.cons.injEq] at he
          have := hw x (by simp)
          rw [← he.1, ht.alphabetic _ (by decide)] at this
          exact absurd this (by decide)
      subst hw0
      refine ⟨by decide, Or.inl rfl, by decide, by decide, ?_, by decide⟩
      rw [ht.colors [] (by simp)]; decide
    · intro a d rest he
      cases a with
      | none => simp [alignmentText] at he; rw [← he.1]; decide
      | some a =>
        cases a with
        | left => simp [alignmentText] at he; rw [← he.1]; decide
        | right => simp [alignmentText] at he
        | center => simp [alignmentText] at he
  have hgroup := Written.group (t := t) (params := c!"%werror") hbody hstart
    ⟨.timestamp, _, by simp; rfl⟩ (.cons (ss := []) .werror .nil)
    (by decide)
  have hS := Written.field (t := t) (params := c!":bold:italic") .log (.cons .bold (.cons (ss := []) .italic .nil))
    (by decide)
  exact .segment hgroup (.text (s := c!" ") (by simp [PlainText]) hS .nil)

/-- **C64** The book has colours like `bright red`; a format with one is not accepted. -/
theorem C64_bright {t : Term} (ht : t.Ok) {name : List Char} {c : Color} (h : (name, c) ∈ colorNames)
    (hsp : ' ' ∈ name) (rest : List Char) : parse t (c!"{L:" ++ name ++ c!"}" ++ rest) = .err () := by
  obtain ⟨y, hy, hplain⟩ := bright_names _ h hsp
  simp only at hy
  have hname : ∀ c ∈ name, c ≠ '{' ∧ c ≠ '}' ∧ c ≠ '%' ∧ c ≠ '\\' := by
    intro c hc
    rw [hy] at hc
    simp only [List.mem_append, List.mem_cons] at hc
    rcases hc with hc | hc | hc
    · have key : ∀ c ∈ (c!"bright" : List Char), c ≠ '{' ∧ c ≠ '}' ∧ c ≠ '%' ∧ c ≠ '\\' := by decide
      exact key c (by simpa using hc)
    · subst hc; decide
    · exact hplain c hc
  have hpt : PlainText true name := ⟨by rw [hy]; simp, fun c hc => by
    have := hname c hc
    exact ⟨this.1, this.2.1, this.2.2.1, fun _ => this.2.2.2⟩⟩
  -- the words
  have hletters : ∀ c ∈ (c!"bright" : List Char), t.alphabetic c = true :=
    letters_alphabetic ht (by decide)
  have hstop : ∀ c, (' ' :: y).head? = some c → t.alphabetic c = false := by
    intro c hc
    simp at hc
    subst hc
    rw [ht.alphabetic _ (by decide)]; decide
  have hmeta : parseMetadata t name = .error := by
    rw [hy, parseMetadata, word_app _ hletters hstop]
    have : metadataOf c!"bright" = none := by decide
    simp [this]
  have hcolor : colorOf t c!"bright" = none := by
    rw [colorOf_ascii ht (by decide) (by decide) (by decide)]; decide
  have hwidth : parseWidth name = .error := by
    apply parseWidth_error
    intro a d r he
    rw [hy] at he
    cases a with
    | none => simp [alignmentText] at he; rw [← he.1]; decide
    | some a => cases a <;> simp [alignmentText] at he
  have hformat : parseFormat t name = .error := by
    rw [parseFormat, alt_second, alt_second, hwidth]
    · rw [hy, parseStyle, word_app _ hletters hstop]
      have : styleFromStr c!"bright" = none := by decide
      simp [this]
    · rw [hy, parseColor, word_app _ hletters hstop]
      simp [hcolor]
  have hnested : ∀ fuel, parseNested t (parseArgument t (fuel + 1) true) name = .failure := fun fuel => nested_plain hpt
  have hcontent : ∀ fuel, parseLogSegment t (parseArgument t (fuel + 1)) false (c!"L:" ++ name) = .failure := by
    intro fuel
    have h1 := parse_metadata_word ht MetadataText.logLevel (rest := ':' :: name) (by
      intro c hc; simp at hc; exact Or.inl hc.symm)
    simp only [parseLogSegment, separatedList1]
    have e : c!"L:" ++ name = c!"L" ++ ':' :: name := rfl
    rw [e, alt_first h1]
    simp only [List.length_cons, separatedLoop]
    rw [if_neg (by simp), if_neg (by simp), alt_second hmeta, alt_second hformat, hnested fuel]
  have hbal : Balanced (c!"L:" ++ name) := by
    apply balanced_plain
    intro c hc
    simp only [List.mem_append] at hc
    rcases hc with hc | hc
    · revert c; decide
    · have := hname c hc; exact ⟨this.1, this.2.1, this.2.2.2⟩
  have harg : ∀ fuel, parseArgument t (fuel + 2) false (c!"{L:" ++ name ++ c!"}" ++ rest) = .failure := by
    intro fuel
    have e : c!"{L:" ++ name ++ c!"}" ++ rest = '{' :: ((c!"L:" ++ name) ++ '}' :: rest) := by simp
    rw [e, parseArgument]
    simp only [take_balanced hbal, hcontent fuel]
    rfl
  simp only [parse, many0]
  obtain ⟨n, hn⟩ : ∃ n, (c!"{L:" ++ name ++ c!"}" ++ rest).length = n + 1 := ⟨(c!"L:" ++ name ++ c!"}" ++ rest).length, by simp⟩
  rw [hn, many0Loop]
  have : alt (parseArgument t (n + 1 + 1) false) parseString (c!"{L:" ++ name ++ c!"}" ++ rest) = .failure := by
    rw [alt, harg n]
  rw [this]

example : (c!"bright red", Color.brightRed) ∈ colorNames ∧ ' ' ∈ c!"bright red" := by decide

/-- **C64** A group in which there are only groups is not accepted. -/
theorem C64_groups : parse (demoTerm true) c!"{{[{L}]%bold}%35} {s}" = .err () := by rfl

/-- **C64** Parts of a format that is not as in the book are ignored and not rejected: what comes after `%` -/
theorem C64_ignored_percent : parse (demoTerm true) c!"{s} 100% {t}" = .ok [.field .log {}, .text c!" 100"] := by rfl

/-- what comes after a bracket that is not closed, -/
theorem C64_ignored_bracket : parse (demoTerm true) c!"{s} {t" = .ok [.field .log {}, .text c!" "] := by rfl

/-- the rest of a specifier after a comma, -/
theorem C64_ignored_comma : parse (demoTerm true) c!"{s:bold,underline}" =
    .ok [.field .log { style := some [.bold] }] := by rfl

/-- and a group that starts with a specifier. -/
theorem C64_ignored_group : parse (demoTerm true) c!"{s {f}%bold}" = .ok [.field .log {}] := by rfl

/-- **C64** 256 times `f` is the number 0, for which printing panics. -/
theorem C64_many_f : parse (demoTerm true) ('{' :: List.replicate 256 'f' ++ c!"}{s}") =
    .ok [.field (.fileName 0) {}, .field .log {}] := by
  set_option maxRecDepth 100000 in rfl

theorem C64_many_f_panics (t : Term) (r : Record) (hr : r.file ≠ none) (f : Format) :
    buildSegment t r (.field (.fileName 0) f) = none := by
  rw [buildSegment]
  cases hf : r.file with
  | none => exact absurd hf hr
  | some file => simp only [buildField, hf, fileNameText_zero]

/-! ### C68 -/

/-- **C68** A format in which something is given twice where the book does not allow it, or a group has no specifier of
its own, is not accepted, whatever follows. -/
theorem C68_refused {t : Term} (ht : t.Ok) {before s : List Char} {segments : List Segment}
    (hw : WrittenAll t false before segments) (h : Refused t s) (rest : List Char) :
    parse t (before ++ s ++ rest) = .err () := parse_refused ht hw h rest

/-- the examples of the book -/
example {t : Term} : Refused t c!"{L:red:green}" :=
  .field (params := c!":red:green") .logLevel (.cons (s := c!"red") (.color (c := .red) (by decide) (by decide))
    (.cons (s := c!"green") (ss := []) (.color (c := .green) (by decide) (by decide)) .nil)) (by decide)

example {t : Term} : Refused t c!"{s:bold:bold}" :=
  .field (params := c!":bold:bold") .log (.cons .bold (.cons (ss := []) .bold .nil)) (by decide)

/-- two widths, in a group -/
example {t : Term} (ht : t.Ok) : Refused t c!"{[{t:5:6}]%bold}" := by
  have h1 : Refused t c!"{t:5:6}" :=
    .field (params := c!":5:6") .timestamp (.cons (.width none 5 (by decide) (by decide))
      (.cons (ss := []) (.width none 6 (by decide) (by decide)) .nil)) (by decide)
  exact .inside (body := c!"[") (.lastText (by simp [PlainText]))
    (startsGroup_symbol (s := []) ht (by decide) (by decide) (by decide) (by decide))
    h1 (.lastText (s := c!"]") (by simp [PlainText])) (.cons (ss := []) .bold .nil)

example {t : Term} : WrittenAll t false c!"{t} " [.field .timestamp {}, .text c!" "] :=
  .segment (written_plain t .timestamp) (.lastText (by simp [PlainText]))

/-! ### C65, continued -/

/-- **C65** Format and record to line: a format as in the book prints the line as in the book, on a terminal without
colours. -/
theorem C65_format_partial {t : Term} (ht : t.Ok) (hoff : t.colorize = false) {s : List Char} {segments : List Segment}
    (h : WrittenAll t false s segments) (hl : HasLog segments) {r : Record} (hr : r.level ≠ none) {shown : List Char}
    (hs : PrintsAll t.maxWidth r segments shown) (isTimestampAvailable : Bool) (source : Source) :
    (newFormatter t (.custom s) isTimestampAvailable source).bind (fun formatter => formatRecord t formatter r) =
      some shown := by
  rw [C58_accepted t ((C64_documented_partial ht h).1 hl)]
  exact C65_plain_any ht hoff hr hs

/-- **C58**, **C65** The predefined default format is accepted. -/
theorem C58_default {t : Term} (ht : t.Ok) (withLocation hasTimestamp : Bool) (source : Source) :
    newFormatter t (.default withLocation) hasTimestamp source =
      some (hostSegments source ++ defaultSegments withLocation hasTimestamp) := by
  have hl : HasLog (hostSegments source ++ defaultSegments withLocation hasTimestamp) := by
    apply hasLog_append_right
    apply hasLog_append_left
    apply hasLog_append_right
    exact .field (f := {}) (by simp)
  have := (C64_documented_partial ht (written_default (t := t) withLocation hasTimestamp source)).1 hl
  simp only [newFormatter, this]

/-- **C58**, **C65** The predefined format for one line is accepted. -/
theorem C58_oneLine {t : Term} (ht : t.Ok) (withLocation hasTimestamp : Bool) (source : Source) :
    newFormatter t (.oneLine withLocation) hasTimestamp source =
      some (hostSegments source ++ oneLineSegments withLocation hasTimestamp) := by
  have hl : HasLog (hostSegments source ++ oneLineSegments withLocation hasTimestamp) := by
    apply hasLog_append_right
    apply hasLog_append_left
    apply hasLog_append_right
    exact .field (f := {}) (by simp)
  have := (C64_documented_partial ht (written_oneLine ht withLocation hasTimestamp source)).1 hl
  simp only [newFormatter, this]

/-! What the predefined formats print -/

/-- the location in the default format -/
theorem prints_location_part {t : Term} (hmax : 5 ≤ t.maxWidth) {r : Record} (hfile : FewHidden t.maxWidth (r.file.getD []))
    (hmod : FewHidden t.maxWidth (r.modulePath.getD [])) (withLocation : Bool) :
    PrintsAll t.maxWidth r (if withLocation then [.text c!"\n└─ ", .field .modulePath {}, .text c!" @ ", .field .filePath {}, .text c!":",
      .field .lineNumber {}] else []) (if withLocation then locationText r else []) := by
  cases withLocation with
  | false => exact .nil
  | true =>
    have hm : Prints t.maxWidth r (.field .modulePath {}) (r.modulePath.getD c!"<mod path>") := by
      cases hx : r.modulePath with
      | none => exact .field (.noModulePath hx) ((fits_none _ _).widened (by decide))
      | some m => rw [hx] at hmod; exact .field (.modulePath hx) (widened_none rfl rfl hmod)
    have hf : Prints t.maxWidth r (.field .filePath {}) (r.file.getD c!"<file>") := by
      cases hx : r.file with
      | none => exact .field (.noFilePath hx) ((fits_none _ _).widened (by decide))
      | some f => rw [hx] at hfile; exact .field (.filePath hx) (widened_none rfl rfl hfile)
    have hn : Prints t.maxWidth r (.field .lineNumber {}) (leftPadded 4 (Nat.toDigits 10 (r.line.getD 0))) := by
      have hfit := fun v => fits_left (max := t.maxWidth) (f := {}) (dw := 4) (w := 4) rfl (by omega) rfl (by simp) v
      cases hx : r.line with
      | none => exact .field (.noLineNumber hx) ((hfit _).widened (by decide))
      | some n => exact .field (.lineNumber hx) ((hfit _).widened (digits_plain n))
    have := (((((PrintsAll.one (.text (s := c!"\n└─ "))).append (.one hm)).append
      (.one (.text (s := c!" @ ")))).append (.one hf)).append
      (.one (.text (s := c!":")))).append (.one hn)
    exact this

/-- **C65** The line of the default format: timestamp, level in five columns, message; on a second line module path,
file and line number. -/
theorem C65_default {t : Term} (ht : t.Ok) (hoff : t.colorize = false) (hmax : 5 ≤ t.maxWidth)
    (withLocation hasTimestamp : Bool) (source : Source) {r : Record} {l : Level} (hl : r.level = some l)
    {message : List Char} (h : ArgsShown t.maxWidth r message) (hts : FewHidden t.maxWidth r.timestamp)
    (hfile : FewHidden t.maxWidth (r.file.getD [])) (hmod : FewHidden t.maxWidth (r.modulePath.getD [])) :
    (newFormatter t (.default withLocation) hasTimestamp source).bind (fun formatter => formatRecord t formatter r) =
      some (hostText source ++ (((if hasTimestamp then timestampText r ++ c!" " else []) ++
        (leftPadded 5 (levelText l) ++ c!" " ++ message)) ++
        (if withLocation then locationText r else []))) := by
  rw [C58_default ht]
  apply C65_plain_any ht hoff (by rw [hl]; simp)
  refine (prints_host _ r source).append ?_
  refine ((prints_timestamp_part _ hts hasTimestamp).append ?_).append ?_
  · exact ((PrintsAll.one (prints_level hmax hl)).append (.one .text)).append (.one (prints_message _ h))
  · exact prints_location_part hmax hfile hmod withLocation

example : ArgsShown 65535 demoRecord c!"hello" ∧ FewHidden 65535 demoRecord.timestamp ∧ FewHidden 65535 (demoRecord.file.getD []) ∧
    FewHidden 65535 (demoRecord.modulePath.getD []) :=
  ⟨⟨.plain (LogFormat.not_likeDiff (by decide)), fewHidden_plain _ (by decide)⟩, fewHidden_plain _ (by decide), fewHidden_plain _ (by decide),
    fewHidden_plain _ (by decide)⟩

/-- **C65** The line of the format for one line. The file name has up to three names of the path. -/
theorem C65_oneLine {t : Term} (ht : t.Ok) (hoff : t.colorize = false) (hmax : 5 ≤ t.maxWidth)
    (hasTimestamp : Bool) (source : Source) {r : Record} {l : Level} (hl : r.level = some l)
    {message : List Char} (h : ArgsShown t.maxWidth r message) (hts : FewHidden t.maxWidth r.timestamp)
    {crateName file : List Char} (hc : FieldText r .crateName 0 crateName) (hf : FieldText r (.fileName 3) 0 file)
    (hc' : FewHidden t.maxWidth crateName) (hf' : FewHidden t.maxWidth file)
    (hg : FewHidden t.maxWidth (c!"(" ++ crateName ++ c!" " ++ file ++ c!":" ++ Nat.toDigits 10 (r.line.getD 0) ++ c!")")) :
    (newFormatter t (.oneLine true) hasTimestamp source).bind (fun formatter => formatRecord t formatter r) =
      some (hostText source ++ (((if hasTimestamp then timestampText r ++ c!" " else []) ++
        (c!"[" ++ leftPadded 5 (levelText l) ++ c!"]" ++ c!" " ++ message)) ++
        (c!" " ++ (c!"(" ++ crateName ++ c!" " ++ file ++ c!":" ++ Nat.toDigits 10 (r.line.getD 0) ++ c!")")))) := by
  rw [C58_oneLine ht]
  apply C65_plain_any ht hoff (by rw [hl]; simp)
  refine (prints_host _ r source).append ?_
  have hw : ∀ (st : Option (List LogFormat.Style)) {v : List Char}, FewHidden t.maxWidth v → Widened t.maxWidth { style := st } 0 v v :=
    fun st v hv => widened_none rfl rfl hv
  refine ((prints_timestamp_part _ hts hasTimestamp).append ?_).append ?_
  · have hg : Prints t.maxWidth r levelGroup (c!"[" ++ leftPadded 5 (levelText l) ++ c!"]") :=
      .group (((PrintsAll.one (.text (s := c!"["))).append (.one (prints_level hmax hl))).append
        (.one (.text (s := c!"]")))) (hw _ (fewHidden_plain _ (by cases l <;> decide)))
    exact ((PrintsAll.one hg).append (.one (.text (s := c!" ")))).append (.one (prints_message _ h))
  · refine (PrintsAll.one (.text (s := c!" "))).append (.one (.group ?_ (hw _ hg)))
    have hn : Prints t.maxWidth r (.field .lineNumber { width := some 1, padding := some .space })
        (Nat.toDigits 10 (r.line.getD 0)) := by
      have hfit : ∀ n, Fits t.maxWidth { width := some 1, padding := some .space } 4 (Nat.toDigits 10 n) (Nat.toDigits 10 n) := by
        intro n
        have hpos : 0 < (Nat.toDigits 10 n).length := List.length_pos_iff.mpr (decimal_ne n)
        have := fits_left (max := t.maxWidth) (f := { width := some 1, padding := some .space }) (dw := 4) (w := 1) rfl
          (by omega) rfl (by simp) (Nat.toDigits 10 n)
        have e : 1 - (Nat.toDigits 10 n).length = 0 := by omega
        rw [leftPadded, e] at this
        simpa using this
      cases hx : r.line with
      | none => exact .field (.noLineNumber hx) ((hfit 0).widened (by decide))
      | some n => exact .field (.lineNumber hx) ((hfit n).widened (digits_plain n))
    exact ((((((PrintsAll.one (.text (s := c!"("))).append (.one (.field hc (hw _ hc')))).append
      (.one (.text (s := c!" ")))).append (.one (.field hf (hw none hf')))).append
      (.one (.text (s := c!":")))).append (.one hn)).append (.one (.text (s := c!")")))

example : (newFormatter (demoTerm false) (.oneLine true) true .defmt).bind
    (fun formatter => formatRecord (demoTerm false) formatter demoRecord) =
    some c!"0.000120 [INFO ] hello (my_crate src/foo/bar.rs:24)" := by decide +kernel

end Defmt
