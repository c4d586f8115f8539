import Verif.Lemmas.LogPredefined
import Verif.Lemmas.LogPaint
/-!
# Properties C55–C57, C65–C67: what is printed for a record

`Visible`, `Padded`, `LinesOf`, `FieldText`, `Shows`, ... are in `Verif.Spec.LogFormat`.
`Term` has the functions of other crates, `Term.Ok` what is assumed about them.
-/

namespace Defmt

open Parser LogFormat

/-! ### A terminal for examples -/

/-- codes as `colored` writes them -/
def demoCodes (fg : Option Color) (styles : List LogFormat.Style) : List Char :=
  (if styles = [] then [] else if fg = none then c!"1" else c!"1;") ++
  (match fg with
    | none => []
    | some .red => c!"31"
    | some .green => c!"32"
    | some .yellow => c!"33"
    | some _ => c!"97")

def demoTerm (colorize : Bool) : Term where
  colorFromStr := fun s => colorNames.lookup (s.map Char.toLower)
  alphabetic := Char.isAlpha
  colorize := colorize
  codes := demoCodes
  maxWidth := 65535
  diff := fun l r => [.delete l, .insert r]

theorem demoTerm_ok (colorize : Bool) : (demoTerm colorize).Ok where
  alphabetic := fun _ _ => rfl
  colors := fun _ _ => rfl
  codes := by
    intro fg styles c hc
    simp only [demoTerm, demoCodes, List.mem_append] at hc
    rcases hc with hc | hc
    · split at hc
      · cases hc
      · split at hc <;> revert c <;> decide
    · split at hc <;> revert c <;> decide
  notReset := by
    intro fg styles h
    cases fg with
    | none =>
      have hs : styles ≠ [] := fun hs => h ⟨rfl, hs⟩
      simp only [demoTerm, demoCodes, if_neg hs]
      decide
    | some c =>
      by_cases hs : styles = []
      · simp only [demoTerm, demoCodes, if_pos hs]; cases c <;> decide
      · simp only [demoTerm, demoCodes, if_neg hs]; cases c <;> decide
  diff := by
    intro l r
    have := IsDiff.delete l (IsDiff.insert r IsDiff.nil)
    simpa [demoTerm] using this
  maxWidth := by simp [demoTerm]

/-- a record for examples -/
def demoRecord : Record where
  source := .defmt
  level := some .info
  timestamp := c!"0.000120"
  args := c!"hello"
  file := some c!"/path/to/crate/src/foo/bar.rs"
  line := some 24
  modulePath := some c!"my_crate::foo::bar"

/-! ### C55 -/

/-- **C55** The JSON output has the crate, the modules and the function of a module path. -/
theorem C55_recovers {crateName function : List Char} {modules : List (List Char)}
    (h : ∀ n ∈ crateName :: modules ++ [function], ':' ∉ n) :
    createModulePath (some (pathText (crateName :: modules ++ [function]))) = some (crateName, modules, function) := by
  simp only [createModulePath]
  rw [splitColons_pathText (by simp) h]
  simp

example : pathText [c!"my_crate", c!"foo", c!"inner", c!"bar"] = c!"my_crate::foo::inner::bar" ∧
    ∀ n ∈ [c!"my_crate", c!"foo", c!"inner", c!"bar"], ':' ∉ n := by decide

/-- **C55** Nothing is lost or added: the parts joined are the path, whatever the path is. -/
theorem C55_join {p crateName function : List Char} {modules : List (List Char)}
    (h : createModulePath (some p) = some (crateName, modules, function)) :
    pathText (crateName :: modules ++ [function]) = p := by
  simp only [createModulePath] at h
  cases hs : Elf.splitColons p with
  | nil => exact absurd hs (splitColons_ne_nil p)
  | cons c rest =>
    rw [hs] at h
    simp only at h
    by_cases hr : rest = []
    · rw [if_pos hr] at h; cases h
    · rw [if_neg hr] at h
      simp only [Option.some.injEq, Prod.mk.injEq] at h
      obtain ⟨h1, h2, h3⟩ := h
      have hp := pathText_splitColons p
      rw [hs] at hp
      rw [← hp, ← h1, ← h2, ← h3]
      rcases List.eq_nil_or_concat rest with h0 | ⟨k, x, h0⟩
      · exact absurd h0 hr
      · rw [h0]; simp

/-- **C55** There is no module path in the output exactly if the record has none, or one without `::`. -/
theorem C55_none (p : Option (List Char)) :
    createModulePath p = none ↔ ∀ s, p = some s → ¬ c!"::" <:+: s := by
  cases p with
  | none => simp [createModulePath]
  | some s =>
    simp only [createModulePath, Option.some.injEq, forall_eq']
    rw [← splitColons_single]
    cases hs : Elf.splitColons s with
    | nil => exact absurd hs (splitColons_ne_nil s)
    | cons c rest =>
      cases rest with
      | nil => simp
      | cons a rest => simp

/-! ### C56 -/

/-- **C56** What is seen of a formatted text is the text, padded to the width with the fill character on the
requested side. Partial: the text must not contain the sequence that ends a style, if it gets a colour or style
itself and has a width (see `C56_fails`). -/
theorem C56_padded_partial {t : Term} (ht : t.Ok) {s v out : List Char} {f : Format} {defaultWidth : Nat}
    {level : Option Level} {color : Option LogColor} (hv : Visible s v)
    (h : buildFormatted t s f defaultWidth level color = some out)
    (hr : f.width.getD defaultWidth = 0 ∨ (applyColor color level = none ∧ f.style.getD [] = []) ∨
      t.colorize = false ∨ ¬ (Char.ofNat 27 :: c!"[0m") <:+: s) :
    ∃ shown, Visible out shown ∧
      Padded (f.width.getD defaultWidth) (f.alignment.getD .left) (fillText f) v shown := by
  have hv' := visible_iff.mp hv
  have key : stripAnsi out = padTo (f.width.getD defaultWidth) (f.alignment.getD .left)
      (fillOf (f.padding.getD .space)) (stripAnsi s) := by
    rcases hr with hr | hr | hr | hr
    · exact (buildFormatted_visible ht h (Or.inl hr)).1
    · exact (buildFormatted_visible ht h (Or.inr (Or.inl hr))).1
    · have hout := buildFormatted_some h
      simp only [writeColored, hr, true_or, if_true] at hout
      rw [hout]
      exact stripAnsi_padTo _ _ (fillOf_isFill _) s
    · exact (buildFormatted_visible ht h (Or.inr (Or.inr hr))).1
  refine ⟨_, visible_iff.mpr key, ?_⟩
  rw [hv', fillText_eq]
  exact padded_padTo _ _ _ _

/-- **C56** The text is in the output as it is, with the sequences in it. Partial as before. -/
theorem C56_contains_partial {t : Term} {s out : List Char} {f : Format} {defaultWidth : Nat}
    {level : Option Level} {color : Option LogColor}
    (h : buildFormatted t s f defaultWidth level color = some out)
    (hr : (applyColor color level = none ∧ f.style.getD [] = []) ∨
      t.colorize = false ∨ ¬ (Char.ofNat 27 :: c!"[0m") <:+: s) :
    s <:+: out := by
  have hout := buildFormatted_some h
  have hpad : ∀ w a fill, s <:+: padTo w a fill s := by
    intro w a fill
    cases a with
    | left => exact ⟨[], _, by simp only [padTo]; rfl⟩
    | right => exact ⟨_, [], by simp only [padTo, List.append_nil]; rfl⟩
    | center => exact ⟨_, _, rfl⟩
  simp only [writeColored] at hout
  split at hout
  · rw [hout]; exact hpad _ _ _
  · rename_i hnot
    rcases hr with hr | hr | hr
    · exact absurd (Or.inr hr) hnot
    · exact absurd (Or.inl hr) hnot
    · rw [escapeInner_eq hr] at hout
      rw [hout]
      exact (hpad _ _ _).trans ⟨_, _, rfl⟩

/-- **C56** A width that the formatter takes does not panic. -/
theorem C56_no_panic (t : Term) {s : List Char} (hs : Char.ofNat 27 ∉ s) {f : Format} {defaultWidth : Nat}
    (level : Option Level) (color : Option LogColor) (h : f.width.getD defaultWidth ≤ t.maxWidth)
    (hm : t.maxWidth < 2 ^ 64) : buildFormatted t s f defaultWidth level color ≠ none := by
  simp only [buildFormatted, stripAnsi_plain hs, Nat.sub_self, Nat.add_zero]
  rw [if_neg (by omega)]
  simp

/-- **C56** A larger one does, whatever the text is. -/
theorem C56_wide_panics (t : Term) (s : List Char) {f : Format} {defaultWidth : Nat}
    (level : Option Level) (color : Option LogColor) (h : t.maxWidth < f.width.getD defaultWidth) :
    buildFormatted t s f defaultWidth level color = none := by
  simp only [buildFormatted]
  rw [if_pos]
  omega

example : buildFormatted (demoTerm true) c!"bar.rs" { width := some 10, alignment := some .center } 0 (some .info)
    (some .severity) = some (Char.ofNat 27 :: c!"[32m  bar.rs  " ++ Char.ofNat 27 :: c!"[0m") := by decide +kernel

example : ¬ (Char.ofNat 27 :: c!"[0m") <:+: c!"bar.rs" := by decide

/-- the group `{[{L}]%bold%20}` -/
def boldGroup : Segment :=
  .nested [.text c!"[", .field .logLevel {}, .text c!"]"] { style := some [.bold], width := some 20 }

/-- **C56** fails for a group with a style and a width: on a terminal with colours `{[{L}]%bold%20}` does not fill the
width. The group shows `[INFO ]` and 9 spaces in place of 13. -/
theorem C56_fails : ∃ out, buildSegment (demoTerm true) demoRecord boldGroup = some out ∧
    Visible out c!"[INFO ]         " := by
  refine ⟨_, rfl, visible_iff.mpr ?_⟩
  decide +kernel

/-- without colours it is right -/
example : buildSegment (demoTerm false) demoRecord boldGroup = some c!"[INFO ]             " := by rfl

/-! ### C57 -/

/-- **C57** fails: printing a message panics, for instance this one, on any terminal and in any format of `{s}`. -/
theorem C57_fails (t : Term) (f : Format) (r : Record) (hr : r.source = .defmt)
    (h : r.args = c!"measured\n left: `\nright: `7`") : buildSegment t r (.field .log f) = none := by
  have hl : LinesOf r.args ([c!"measured"] ++ [c!" left: `", c!"right: `7`"]) := by
    rw [h, linesOf_iff]; decide
  have := (colorDiff_panic_iff (t := t) hl).mpr
    ⟨[c!"measured"], _, _, rfl, by simp, by decide, by decide, Or.inl rfl⟩
  rw [buildSegment, buildField, buildLog, hr]
  simp only [this]

/-- **C57** The messages that make the difference panic are those with at least three lines, of which the last two
start with `` left: ` `` and ``right: ` `` and end with a backtick that is not behind that start: it is the same
backtick in one of them. -/
theorem C57_panics_iff {t : Term} {m : List Char} {ls : List (List Char)} (h : LinesOf m ls) :
    colorDiff t m = .panic ↔
      ∃ before left right, ls = before ++ [left, right] ∧ before ≠ [] ∧
        (left = c!" left: `" ∨ ∃ v, Value c!" left: `" v left) ∧
        (right = c!"right: `" ∨ ∃ v, Value c!"right: `" v right) ∧
        (left = c!" left: `" ∨ right = c!"right: `") := by
  rw [colorDiff_panic_iff h]
  constructor
  · rintro ⟨b, l, r, h1, h2, h3, h4, h5⟩
    exact ⟨b, l, r, h1, h2, (isQuoted_iff leftStart_last).mp h3, (isQuoted_iff rightStart_last).mp h4, h5⟩
  · rintro ⟨b, l, r, h1, h2, h3, h4, h5⟩
    exact ⟨b, l, r, h1, h2, (isQuoted_iff leftStart_last).mpr h3, (isQuoted_iff rightStart_last).mpr h4, h5⟩

/-- **C57** No message without one of these two lines makes it panic. Partial: see `C57_fails`. -/
theorem C57_no_panic_partial (t : Term) {m : List Char} {ls : List (List Char)} (h : LinesOf m ls)
    (h1 : c!" left: `" ∉ ls) (h2 : c!"right: `" ∉ ls) : colorDiff t m ≠ .panic := by
  intro hp
  obtain ⟨b, l, r, e, _, _, _, hor⟩ := (C57_panics_iff h).mp hp
  rcases hor with hor | hor
  · exact h1 (by rw [e, hor]; simp)
  · exact h2 (by rw [e, hor]; simp)

/-- every text has lines -/
theorem C57_lines (m : List Char) : ∃ ls, LinesOf m ls ∧ ∀ ls', LinesOf m ls' → ls' = ls :=
  ⟨lines m, linesOf_lines m, fun _ h => (linesOf_eq h).symm⟩

example : LinesOf c!"a\r\n left: `1`\nright: `2`" [c!"a", c!" left: `1`", c!"right: `2`"] :=
  linesOf_iff.mpr (by decide)

/-! ### C65 -/

/-- **C65** On a terminal without colours the line for a record is what the segments of the format show, one after the
other. -/
theorem C65_plain {t : Term} (ht : t.Ok) (hoff : t.colorize = false) {r : Record} (hl : r.level ≠ none)
    {segments : List Segment} {shown : List Char} (h : ShowsAll t.maxWidth r segments shown) :
    formatRecord t segments r = some shown := by
  have hs : r.level.isSome = true := by cases hx : r.level <;> simp_all
  simp only [formatRecord, hs, if_true]
  exact (showsAll_off ht hoff h).1

/-- **C65** The same whatever characters the texts of the format and of the record have: the characters of sequences in them do not count for the widths. -/
theorem C65_plain_any {t : Term} (ht : t.Ok) (hoff : t.colorize = false) {r : Record} (hl : r.level ≠ none)
    {segments : List Segment} {out : List Char} (h : PrintsAll t.maxWidth r segments out) :
    formatRecord t segments r = some out := by
  have hs : r.level.isSome = true := by cases hx : r.level <;> simp_all
  simp only [formatRecord, hs, if_true]
  exact printsAll_off ht hoff h

/-- **C65** On a terminal with colours the same characters are visible, if no group with a colour or a style has a
width. Partial: see `C56_fails`. -/
theorem C65_visible_partial {t : Term} (ht : t.Ok) {r : Record} (hl : r.level ≠ none) {max : Nat}
    {segments : List Segment} {shown out : List Char} (h : ShowsAll max r segments shown)
    (hg : GroupsSimple segments) (ho : formatRecord t segments r = some out) : Visible out shown := by
  have hs : r.level.isSome = true := by cases hx : r.level <;> simp_all
  simp only [formatRecord, hs, if_true] at ho
  exact visible_iff.mpr (showsAll_visible ht h hg ho).1

/-- **C65** What is shown is determined. -/
theorem C65_unique {max : Nat} (hmax : max < 2 ^ 64) {r : Record} (hl : r.level ≠ none) {segments : List Segment}
    {a b : List Char} (h1 : ShowsAll max r segments a) (h2 : ShowsAll max r segments b) : a = b := by
  let t : Term := { demoTerm false with maxWidth := max }
  have ht : t.Ok := { demoTerm_ok false with maxWidth := hmax }
  have e1 := C65_plain ht rfl hl (segments := segments) h1
  have e2 := C65_plain ht rfl hl (segments := segments) h2
  rw [e1] at e2
  exact Option.some.inj e2

/-- **C65** The output of `println!` is the message, whatever the format is. -/
theorem C65_println {t : Term} (ht : t.Ok) (hoff : t.colorize = false) {r : Record} (hl : r.level = none)
    {shown : List Char} (h : ArgsShown t.maxWidth r shown) (segments : List Segment) :
    formatRecord t segments r = some shown := by
  have hs : r.level.isSome = false := by rw [hl]; rfl
  have := prints_off ht hoff (prints_message t.maxWidth h)
  rw [buildSegment] at this
  simp only [formatRecord, hs, Bool.false_eq_true, if_false]
  exact this

/-- a message with a word in red in eight columns: the sequences are printed, but do not count -/
example : Prints 65535 { demoRecord with args := c!"a " ++ Char.ofNat 27 :: c!"[31mb" ++ Char.ofNat 27 :: c!"[0m" } (.field .log { width := some 8 })
    (c!"a " ++ Char.ofNat 27 :: c!"[31mb" ++ Char.ofNat 27 :: c!"[0m     ") := by
  refine .message rfl (not_likeDiff (by decide)) ⟨c!"a b", visible_iff.mpr (by decide +kernel), by decide, 0, 5, by decide, by decide, rfl⟩

/-- the example of the book: `"{{[{L}]%bold} {f}:{l}%35} {s}"` -/
def bookSegments : List Segment :=
  [.nested [.nested [.text c!"[", .field .logLevel {}, .text c!"]"] { style := some [.bold] }, .text c!" ",
      .field (.fileName 1) {}, .text c!":", .field .lineNumber {}] { width := some 35, padding := some .space },
    .text c!" ", .field .log {}]

example : ShowsAll 65535 demoRecord bookSegments c!"[INFO ] bar.rs:24                   hello" := by
  refine ShowsAll.cons (a := c!"[INFO ] bar.rs:24                  ") (b := c!" hello") ?_ ?_
  · refine Shows.group (v := c!"[INFO ] bar.rs:24  ") ?_ ⟨by decide, 0, 16, by decide, by decide, rfl⟩
    refine ShowsAll.cons (a := c!"[INFO ]") (b := c!" bar.rs:24  ") ?_ ?_
    · refine Shows.group (v := c!"[INFO ]") ?_ ⟨by decide, 0, 0, by decide, by decide, rfl⟩
      refine ShowsAll.cons (a := c!"[") (b := c!"INFO ]") (.text (by decide)) ?_
      refine ShowsAll.cons (a := c!"INFO ") (b := c!"]") ?_ ?_
      · exact Shows.field (FieldText.level rfl) (by decide) ⟨by decide, 0, 1, by decide, by decide, rfl⟩
      · exact ShowsAll.cons (b := []) (.text (by decide)) .nil
    · refine ShowsAll.cons (a := c!" ") (b := c!"bar.rs:24  ") (.text (by decide)) ?_
      refine ShowsAll.cons (a := c!"bar.rs") (b := c!":24  ") ?_ ?_
      · exact Shows.field (FieldText.fileNameAbsolute (dirs := [c!"path", c!"to", c!"crate", c!"src", c!"foo"])
          (names := [c!"bar.rs"]) rfl (by simp [PathName]) (by simp)) (by decide) (fits_none _ _)
      · refine ShowsAll.cons (a := c!":") (b := c!"24  ") (.text (by decide)) ?_
        refine ShowsAll.cons (a := c!"24  ") (b := []) ?_ .nil
        exact Shows.field (FieldText.lineNumber rfl) (by decide) ⟨by decide, 0, 2, by decide, by decide, rfl⟩
  · refine ShowsAll.cons (a := c!" ") (b := c!"hello") (.text (by decide)) ?_
    refine ShowsAll.cons (a := c!"hello") (b := []) ?_ .nil
    exact Shows.message rfl (by decide) (not_likeDiff (by decide)) (fits_none _ _)

example : GroupsSimple [.nested [.text c!"[", .field .logLevel {}, .text c!"]"] { style := some [.bold] }] :=
  .group (Or.inl rfl) (.text (.field (.text .nil))) .nil

/-! ### C66 -/

/-- **C66** `{ff}` prints the last two names of the path of the file, and so on. Partial: more names than an absolute
path has, and other paths, are not covered (see `C66_fails`). -/
theorem C66_last_names_partial {dirs names : List (List Char)} (h : ∀ n ∈ dirs ++ names, PathName n)
    (hne : names ≠ []) (absolute : Bool) (t : Term) (r : Record) (f : Format)
    (hr : r.file = some ((if absolute then c!"/" else []) ++ fileText (dirs ++ names))) :
    buildSegment t r (.field (.fileName names.length) f) =
      buildSegment t { r with file := some (fileText names) } (.field .filePath f) := by
  have hft : FieldText r (.fileName names.length) 0 (fileText names) := by
    cases absolute with
    | false => exact .fileName hr h hne
    | true => exact .fileNameAbsolute hr h hne
  rw [buildSegment, buildSegment]
  cases absolute with
  | false =>
    have hl : dirs ++ names ≠ [] := by simp [hne]
    simp only [Bool.false_eq_true, if_false, List.nil_append] at hr
    simp only [buildField, hr, fileNameText_eq (pathComponents_relative hl h) hl (List.length_pos_iff.mpr hne)]
    rw [drop_last]
    rfl
  | true =>
    have hl : dirs ++ names ≠ [] := by simp [hne]
    simp only [if_true] at hr
    simp only [buildField, hr]
    have e : c!"/" ++ fileText (dirs ++ names) = '/' :: fileText (dirs ++ names) := rfl
    simp only [e, fileNameText_eq (pathComponents_absolute hl h) (by simp) (List.length_pos_iff.mpr hne)]
    have := drop_last (c!"/" :: dirs) names
    rw [List.cons_append] at this
    rw [this]
    rfl

/-- **C66** fails: for the file `/a/b.rs` the specifier `{fff}` prints a path with two slashes. -/
theorem C66_fails_absolute (t : Term) (r : Record) (hr : r.file = some c!"/a/b.rs") (f : Format) :
    buildSegment t r (.field (.fileName 3) f) =
      buildSegment t { r with file := some c!"//a/b.rs" } (.field .filePath f) := by
  have : fileNameText 3 c!"/a/b.rs" = some c!"//a/b.rs" := by decide
  rw [buildSegment, buildSegment]
  simp only [buildField, hr, this]
  rfl

/-- **C66** fails: an empty file name makes `{f}` panic. -/
theorem C66_fails_empty (t : Term) (r : Record) (hr : r.file = some []) (n : Nat) (f : Format) :
    buildSegment t r (.field (.fileName n) f) = none := by
  have : fileNameText n [] = none := by simp [fileNameText, pathComponents, splitAt]
  rw [buildSegment]
  simp only [buildField, hr, this]

theorem pieces_exist (file : List Char) : ∃ pieces, pieces ≠ [] ∧ (∀ p ∈ pieces, '/' ∉ p) ∧ file = fileText pieces := by
  have h1 := splitAt_ne_nil '/' file
  cases hs : splitAt '/' file with
  | nil => exact absurd hs h1
  | cons w ws =>
    refine ⟨w :: ws, by simp, hs ▸ (splitAt_spec '/' file).2, ?_⟩
    rw [splitAt_join '/' file w ws hs]
    clear hs h1
    induction ws generalizing w with
    | nil => simp [fileText]
    | cons v ws ih =>
      rw [fileText_cons _ (by simp), ← ih v]
      simp

/-- **C66** exactly, for all paths: the last `n` parts of the path, where the root `/` counts as a part and has a slash after it
like the others; an empty path panics. -/
theorem C66_exact {pieces : List (List Char)} (hne : pieces ≠ []) (hs : ∀ p ∈ pieces, '/' ∉ p) {n : Nat} (hn : 0 < n) (t : Term)
    (r : Record) (hr : r.file = some (fileText pieces)) (f : Format) :
    buildSegment t r (.field (.fileName n) f) =
      if fileText pieces = [] then none
      else buildSegment t { r with file := some (fileText (lastOnes n (pathParts pieces))) } (.field .filePath f) := by
  split
  · rename_i he
    exact C66_fails_empty t r (by rw [hr, he]) n f
  · rename_i he
    have hp : pathComponents (fileText pieces) = pathParts pieces := by
      cases pieces with
      | nil => exact absurd rfl hne
      | cons a l =>
        simp only [pathComponents, splitAt_fileText hne hs, pathParts]
        split
        · cases hf : fileText (a :: l) with
          | nil => exact absurd hf he
          | cons c cs => rfl
        · rfl
    have hpn : pathParts pieces ≠ [] := by
      cases pieces with
      | nil => exact absurd rfl hne
      | cons a l => simp [pathParts]
    rw [buildSegment, buildSegment]
    simp only [buildField, hr, fileNameText_eq hp hpn hn]
    have : (pathParts pieces).drop ((pathParts pieces).length - min (pathParts pieces).length n) = lastOnes n (pathParts pieces) := by
      unfold lastOnes
      congr 1
      omega
    rw [this]
    rfl

/-- `/a/b.rs` with three parts, a path with dots -/
example : fileText (lastOnes 3 (pathParts [[], c!"a", c!"b.rs"])) = c!"//a/b.rs" ∧ fileText [[], c!"a", c!"b.rs"] = c!"/a/b.rs" ∧
    fileText (lastOnes 2 (pathParts [c!".", [], c!"src", c!".", c!"b.rs"])) = c!"src/b.rs" ∧
    fileText (lastOnes 9 (pathParts [c!".", c!"src", c!"..", c!"b.rs"])) = c!"./src/../b.rs" := by decide

example : fileText ([c!"path", c!"src"] ++ [c!"foo", c!"bar.rs"]) = c!"path/src/foo/bar.rs" := by decide
example : ∀ n ∈ [c!"path", c!"src"] ++ [c!"foo", c!"bar.rs"], PathName n := by simp [PathName]

/-! ### C67 -/

/-- **C67** For the message of a failed `assert_eq!` both values are shown in full, one below the other. -/
theorem C67_diff {t : Term} (ht : t.Ok) (hoff : t.colorize = false) {r : Record} (hr : r.source = .defmt)
    {before : List (List Char)} {left right x y : List Char} (h : LinesOf r.args (before ++ [left, right]))
    (hb : before ≠ []) (hl : Value c!" left: `" x left) (hr' : Value c!"right: `" y right) (f : Format) :
    buildSegment t r (.field .log f) = some (diffShown before x y) := by
  rw [buildSegment, buildField, buildLog, hr]
  simp only [colorDiff_values h hb hl hr', diffText_off ht hoff]

/-- **C67** With colours the same characters are visible. -/
theorem C67_visible {t : Term} (ht : t.Ok) {r : Record} (hr : r.source = .defmt)
    {before : List (List Char)} {left right x y : List Char} (h : LinesOf r.args (before ++ [left, right]))
    (hb : before ≠ []) (hl : Value c!" left: `" x left) (hr' : Value c!"right: `" y right) (f : Format)
    (e1 : ∀ l ∈ before, Char.ofNat 27 ∉ l) (e2 : Char.ofNat 27 ∉ x) (e3 : Char.ofNat 27 ∉ y) :
    ∃ out, buildSegment t r (.field .log f) = some out ∧ Visible out (diffShown before x y) := by
  refine ⟨diffText t before x y, ?_, visible_iff.mpr (diffText_visible ht ?_ e2 e3)⟩
  · rw [buildSegment, buildField, buildLog, hr]
    simp only [colorDiff_values h hb hl hr']
  · clear hb h
    induction before with
    | nil => simp [textOfLines]
    | cons a l ih =>
      have := ih fun l hl => e1 l (by simp [hl])
      have ha := e1 a (by simp)
      cases l with
      | nil => exact ha
      | cons b l =>
        simp only [textOfLines, List.mem_append, not_or]
        exact ⟨⟨ha, by decide⟩, this⟩

/-- **C67** Every other message is shown as it is (or is one of the messages of `C57_panics_iff`). -/
theorem C67_other (t : Term) (r : Record) (hr : r.source = .defmt) (f : Format) (ls : List (List Char))
    (hls : LinesOf r.args ls)
    (h : ¬ ∃ before left right x y, ls = before ++ [left, right] ∧ before ≠ [] ∧
      Value c!" left: `" x left ∧ Value c!"right: `" y right)
    (hp : colorDiff t r.args ≠ .panic) :
    buildSegment t r (.field .log f) = buildFormatted t r.args f 0 r.level f.color := by
  rw [buildSegment, buildField, buildLog, hr]
  rcases colorDiff_cases t r.args with h1 | h1 | ⟨b, l, r', x, y, h1, h2, h3, h4⟩
  · exact absurd h1 hp
  · simp only [h1]
  · exfalso
    exact h ⟨b, l, r', x, y, by rw [← linesOf_eq hls, linesOf_eq h1], h2, h3, h4⟩

example : buildSegment (demoTerm false)
    { demoRecord with args := c!"panicked at 'assertion failed: `(left == right)`'\n left: `[1, 2]`\nright: `[1]`" }
    (.field .log {}) =
    some c!"panicked at 'assertion failed: `(left == right)`'\ndiff < left / right >\n<[1, 2]\n>[1]" := by
  refine C67_diff (demoTerm_ok false) rfl (hr := rfl) (before := [c!"panicked at 'assertion failed: `(left == right)`'"])
    (left := c!" left: `[1, 2]`") (right := c!"right: `[1]`") (x := c!"[1, 2]") (y := c!"[1]")
    (linesOf_iff.mpr ?_) (by simp) (by rw [Value]; rfl) (by rw [Value]; rfl) {}
  decide +kernel

/-! ### C69 -/

/-- **C69** Colours and styles: each character of a line is shown with the colour and the styles asked for, of its
specifier and of the groups around it, and with no others; at the end of the line none is in effect. Partial: not for
groups with a width and a colour or style, see `C56_fails`; texts with escape characters are not covered. -/
theorem C69_painted_partial {t : Term} (ht : t.Ok) {segments : List Segment} {r : Record} {l : Level}
    (hl : r.level = some l) {cells : List Cell} (h : PaintsAll t r l segments cells) (hg : GroupsSimple segments)
    {line : List Char} (ho : formatRecord t segments r = some line) : Rendered [] line cells [] := by
  simp only [formatRecord, hl, Option.isSome_some, if_true] at ho
  exact (paintsAll_shown ht hl h hg ho).rendered

/-- a terminal shows one thing -/
theorem C69_unique {active active1 active2 : List (List Char)} {s : List Char} {v w : List Cell}
    (h1 : Rendered active s v active1) (h2 : Rendered active s w active2) : v = w ∧ active1 = active2 := h1.unique h2

/-- On a terminal without colours no sequence is written. -/
theorem C69_off {t : Term} (ht : t.Ok) (hoff : t.colorize = false) {segments : List Segment} {r : Record}
    (hl : r.level ≠ none) {out : List Char} (h : ShowsAll t.maxWidth r segments out) :
    ∃ line, formatRecord t segments r = some line ∧ Char.ofNat 27 ∉ line := by
  obtain ⟨h1, h2⟩ := showsAll_off ht hoff h
  refine ⟨out, ?_, h2⟩
  cases hr : r.level with
  | none => exact absurd hr hl
  | some l => simp only [formatRecord, hr, Option.isSome_some, if_true]; exact h1

/-- a level in a bold group, a message: the brackets are bold, the level bold and green, the message neither -/
example : ∃ line, formatRecord (demoTerm true)
      [.nested [.text c!"[", .field .logLevel {}, .text c!"]"] { style := some [.bold] }, .field .log {}] demoRecord
        = some line ∧
    Rendered [] line
      (let bold := Char.ofNat 27 :: c!"[1m"
       let green := Char.ofNat 27 :: c!"[32m"
       [('[', [bold]), ('I', [bold, green]), ('N', [bold, green]), ('F', [bold, green]), ('O', [bold, green]),
        (' ', [bold, green]), (']', [bold]), ('h', []), ('e', []), ('l', []), ('l', []), ('o', [])]) [] := by
  refine ⟨_, rfl, ?_⟩
  apply C69_painted_partial (demoTerm_ok true) (r := demoRecord) (l := .info) rfl
    (segments := [.nested [.text c!"[", .field .logLevel {}, .text c!"]"] { style := some [.bold] }, .field .log {}])
  · have hlev : Fits (demoTerm true).maxWidth {} 5 c!"INFO" c!"INFO " :=
      ⟨by simp [demoTerm], 0, 1, by decide, by decide, rfl⟩
    have h1 := PaintsAll.cons (t := demoTerm true) (r := demoRecord) (l := .info) (Paints.text (s := c!"[") (by decide))
      (.cons (.field (f := {}) (FieldText.level rfl) (by decide) hlev) (.cons (.text (s := c!"]") (by decide)) .nil))
    exact .cons (.group (f := { style := some [.bold] }) h1 ⟨0, 0, rfl, rfl, rfl⟩)
      (.cons (.message (f := {}) rfl (by decide) (not_likeDiff (by decide)) (fits_none _ _)) .nil)
  · exact .group (Or.inl rfl) (.text (.field (.text .nil))) (.field .nil)
  · rfl

/-- the values of a failed `assert_eq!` in colours -/
example : ∃ line, formatRecord (demoTerm true) [.field .log {}]
      { demoRecord with args := c!"failed\n left: `1`\nright: `2`" } = some line ∧
    Rendered [] line (diffCells (demoTerm true) [c!"failed"] c!"1" c!"2") [] := by
  refine ⟨_, rfl, ?_⟩
  apply C69_painted_partial (demoTerm_ok true) (l := .info) (segments := [.field .log {}])
    (r := { demoRecord with args := c!"failed\n left: `1`\nright: `2`" }) rfl
  · have := PaintsAll.cons (t := demoTerm true) (r := { demoRecord with args := c!"failed\n left: `1`\nright: `2`" }) (l := .info)
      (Paints.diff (f := {}) (before := [c!"failed"]) (left := c!" left: `1`") (right := c!"right: `2`") (x := c!"1") (y := c!"2")
        rfl (linesOf_iff.mpr (by decide)) (by simp) (by rw [Value]; rfl) (by rw [Value]; rfl) (by decide)) .nil
    rwa [List.append_nil] at this
  · exact .field .nil
  · rfl

end Defmt
