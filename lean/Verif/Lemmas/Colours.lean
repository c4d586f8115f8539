import Verif.Props.HostLog
import Verif.Props.LogExact
import Verif.Spec.Colours
/-! Lemmas about the colours on the terminal. -/

namespace Defmt

open LogFormat HostLog
open Parser hiding parse Written

/-- a field with its format: shown if it does not panic -/
theorem drawn_unstyled {t : Term} {s : List Char} {v : List Cell} (hv : Contained s v) (color : Option Color) (hc : color = none) :
    Padded (reduced t color [] 0 (endings s)) .left (' ', []) v v ∧
      v = v.map (fun c => (c.1, wantedStyle t color [] ++ c.2)) ∧ endings s = endings s + styleEnds t color [] := by
  have e : wantedStyle t color [] = [] := by rw [wantedStyle, if_pos (Or.inr ⟨hc, rfl⟩)]
  refine ⟨⟨0, 0, by simp, ?_, rfl⟩, by rw [e]; simp, by rw [styleEnds, e]; rfl⟩
  rw [reduced]
  omega

/-- the text of a field without colour, style and width -/
theorem drawn_field {t : Term} (ht : t.Ok) {r : Record} {l : Level} (hl : r.level = some l) {m : Metadata} (hm : m ≠ .logLevel) {s : List Char} {v : List Cell}
    (hf : FieldText r m 0 s) (hv : Contained s v) (hh : FewHidden t.maxWidth s) :
    ∃ out, buildSegment t r (.field m {}) = some out ∧ Shown out v := by
  have hd : Drawn t r l (.field m {}) v (endings s) := by
    have hcol : wantedColor (fieldColor m {}) l = none := by
      rw [fieldColor, if_neg (by simp [hm])]; rfl
    obtain ⟨h1, h2, h3⟩ := drawn_unstyled (t := t) hv (wantedColor (fieldColor m {}) l) hcol
    have key : Drawn t r l (.field m {}) (v.map fun c => (c.1, wantedStyle t (wantedColor (fieldColor m {}) l) [] ++ c.2))
        (endings s + styleEnds t (wantedColor (fieldColor m {}) l) []) := Drawn.field hf hv h1
    rw [← h2, ← h3] at key
    exact key
  cases ho : buildSegment t r (.field m {}) with
  | some out => exact ⟨out, rfl, (drawn_shown ht hl hd ho).1⟩
  | none =>
    exfalso
    obtain ⟨color, hc, _⟩ := buildField_text (t := t) hf {}
    obtain ⟨seen, h1, h2⟩ := hh
    rw [buildSegment, hc, C56_panics_iff ht h1] at ho
    have e : (Option.getD (none : Option Nat) 0) = 0 := rfl
    simp only [e] at ho
    omega

theorem drawn_level {t : Term} (ht : t.Ok) (hmax : 5 ≤ t.maxWidth) {r : Record} {l : Level} (hl : r.level = some l) :
    ∃ out, buildSegment t r (.field .logLevel {}) = some out ∧ Shown out (styledText t (some (levelColor l)) [] (leftPadded 5 (levelText l))) := by
  have hp := level_plain l
  have hcol : wantedColor (fieldColor .logLevel {}) l = some (levelColor l) := by
    rw [fieldColor, if_pos ⟨rfl, rfl⟩]; rfl
  have hd : Drawn t r l (.field .logLevel {}) (styledText t (some (levelColor l)) [] (leftPadded 5 (levelText l)))
      (endings (levelText l) + styleEnds t (some (levelColor l)) []) := by
    have hpad : Padded (reduced t (some (levelColor l)) [] 5 (endings (levelText l))) .left (' ', []) ((levelText l).map fun c => ((c, []) : Cell))
        ((leftPadded 5 (levelText l)).map fun c => ((c, []) : Cell)) := by
      rw [endings_plain hp, reduced, Nat.zero_mul]
      refine padded_map (fun c => ((c, []) : Cell)) ⟨0, 5 - (levelText l).length, by simp [leftPadded], ?_, rfl⟩
      simp only [leftPadded, List.length_append, List.length_replicate]
      omega
    have := Drawn.field (t := t) (l := l) (f := {}) (FieldText.level hl) (contained_plain hp) (out := (leftPadded 5 (levelText l)).map fun c => ((c, []) : Cell))
      (by rw [hcol]; exact hpad)
    rw [hcol] at this
    simpa [styledText, Function.comp_def] using this
  cases ho : buildSegment t r (.field .logLevel {}) with
  | some out => exact ⟨out, rfl, (drawn_shown ht hl hd ho).1⟩
  | none =>
    exfalso
    obtain ⟨color, hc, _⟩ := buildField_text (t := t) (FieldText.level hl) {}
    rw [buildSegment, hc, C56_panics_iff ht (visible_iff.mpr (stripAnsi_plain hp))] at ho
    have e : (Option.getD (none : Option Nat) 5) = 5 := rfl
    simp only [e] at ho
    omega

theorem drawn_message {t : Term} (ht : t.Ok) {r : Record} {l : Level} (hl : r.level = some l) (hs : r.source = .defmt) {v : List Cell}
    (hv : MessageCells t r.args v) (hh : FewHidden t.maxWidth r.args) :
    ∃ out, buildSegment t r (.field .log {}) = some out ∧ Shown out v := by
  cases hv with
  | plain hd hc =>
    have hd' : Drawn t r l (.field .log {}) v (endings r.args) := by
      obtain ⟨h1, h2, h3⟩ := drawn_unstyled (t := t) hc (wantedColor none l) rfl
      have key : Drawn t r l (.field .log {}) (v.map fun c => (c.1, wantedStyle t (wantedColor none l) [] ++ c.2))
          (endings r.args + styleEnds t (wantedColor none l) []) := Drawn.message hs hd hc h1
      rw [← h2, ← h3] at key
      exact key
    cases ho : buildSegment t r (.field .log {}) with
    | some out => exact ⟨out, rfl, (drawn_shown ht hl hd' ho).1⟩
    | none =>
      exfalso
      obtain ⟨seen, h1, h2⟩ := hh
      rw [buildSegment] at ho
      simp only [buildField, buildLog, hs, colorDiff_notLike t hd] at ho
      rw [C56_panics_iff ht h1] at ho
      have e : (Option.getD (none : Option Nat) 0) = 0 := rfl
      simp only [e] at ho
      omega
  | diff hlines hb hx hy he =>
    have hd' := Drawn.diff (t := t) (l := l) (f := {}) hs hlines hb hx hy he
    cases ho : buildSegment t r (.field .log {}) with
    | some out => exact ⟨out, rfl, (drawn_shown ht hl hd' ho).1⟩
    | none =>
      rw [buildSegment] at ho
      simp only [buildField, buildLog, hs, colorDiff_values hlines hb hx hy] at ho
      cases ho

theorem drawn_lineNumber {t : Term} (ht : t.Ok) (hmax : 5 ≤ t.maxWidth) {r : Record} {l : Level} (hl : r.level = some l) :
    ∃ out, buildSegment t r (.field .lineNumber {}) = some out ∧ Shown out (plainCells (leftPadded 4 (Nat.toDigits 10 (r.line.getD 0)))) := by
  have hp : Char.ofNat 27 ∉ Nat.toDigits 10 (r.line.getD 0) := digits_plain _
  have hf : FieldText r .lineNumber 4 (Nat.toDigits 10 (r.line.getD 0)) := by
    cases hx : r.line with
    | none => exact .noLineNumber hx
    | some n => exact .lineNumber hx
  have hcol : wantedColor (fieldColor .lineNumber {}) l = none := rfl
  have e0 : wantedStyle t none [] = [] := by rw [wantedStyle, if_pos (Or.inr ⟨rfl, rfl⟩)]
  have hd : Drawn t r l (.field .lineNumber {}) (plainCells (leftPadded 4 (Nat.toDigits 10 (r.line.getD 0)))) (endings (Nat.toDigits 10 (r.line.getD 0)) + styleEnds t none []) := by
    have hpad : Padded (reduced t none [] 4 (endings (Nat.toDigits 10 (r.line.getD 0)))) .left (' ', [])
        ((Nat.toDigits 10 (r.line.getD 0)).map fun c => ((c, []) : Cell)) ((leftPadded 4 (Nat.toDigits 10 (r.line.getD 0))).map fun c => ((c, []) : Cell)) := by
      rw [endings_plain hp, reduced, Nat.zero_mul]
      refine padded_map (fun c => ((c, []) : Cell)) ⟨0, 4 - (Nat.toDigits 10 (r.line.getD 0)).length, by simp [leftPadded], ?_, rfl⟩
      simp only [leftPadded, List.length_append, List.length_replicate]
      omega
    have := Drawn.field (t := t) (l := l) (f := {}) hf (contained_plain hp) (out := (leftPadded 4 (Nat.toDigits 10 (r.line.getD 0))).map fun c => ((c, []) : Cell))
      (by rw [hcol]; exact hpad)
    rw [hcol] at this
    simpa [plainCells, e0, Function.comp_def] using this
  cases ho : buildSegment t r (.field .lineNumber {}) with
  | some out => exact ⟨out, rfl, (drawn_shown ht hl hd ho).1⟩
  | none =>
    exfalso
    obtain ⟨color, hc, _⟩ := buildField_text (t := t) hf {}
    rw [buildSegment, hc, C56_panics_iff ht (visible_iff.mpr (stripAnsi_plain hp))] at ho
    have e : (Option.getD (none : Option Nat) 4) = 4 := rfl
    simp only [e] at ho
    omega

/-- segments that are built and shown -/
def Builds (t : Term) (r : Record) (segments : List Segment) (v : List Cell) : Prop :=
  ∃ out, buildSegments t r segments = some out ∧ Shown out v

theorem Builds.nil {t : Term} {r : Record} : Builds t r [] [] := ⟨[], by rw [buildSegments], rfl, rfl, rfl⟩

theorem Builds.cons {t : Term} {r : Record} {s : Segment} {ss : List Segment} {a b : List Cell}
    (h : ∃ out, buildSegment t r s = some out ∧ Shown out a) (hs : Builds t r ss b) : Builds t r (s :: ss) (a ++ b) := by
  obtain ⟨o1, h1, h2⟩ := h
  obtain ⟨o2, h3, h4⟩ := hs
  exact ⟨o1 ++ o2, by rw [buildSegments, h1, h3], h2.append h4⟩

theorem Builds.append {t : Term} {r : Record} {ss ss' : List Segment} {a b : List Cell} (h : Builds t r ss a) (hs : Builds t r ss' b) :
    Builds t r (ss ++ ss') (a ++ b) := by
  induction ss generalizing a with
  | nil =>
    obtain ⟨out, h1, h2⟩ := h
    rw [buildSegments] at h1
    cases h1
    obtain ⟨_, h4, _⟩ := h2
    have : a = [] := h4.symm
    subst this
    exact hs
  | cons s ss ih =>
    obtain ⟨out, h1, h2⟩ := h
    rw [buildSegments] at h1
    cases hx : buildSegment t r s with
    | none => rw [hx] at h1; cases h1
    | some x =>
      cases hy : buildSegments t r ss with
      | none => rw [hx, hy] at h1; cases h1
      | some y =>
        rw [hx, hy] at h1
        cases h1
        obtain ⟨o2, h3, h4⟩ := hs
        refine ⟨x ++ y ++ o2, ?_, h2.append h4⟩
        have hxy : buildSegments t r (ss ++ ss') = some (y ++ o2) := by
          clear hx ih h2
          induction ss generalizing y with
          | nil => rw [buildSegments] at hy; cases hy; exact h3
          | cons s' ss ih =>
            rw [buildSegments] at hy
            rw [List.cons_append, buildSegments]
            cases hx' : buildSegment t r s' with
            | none => rw [hx'] at hy; cases hy
            | some x' =>
              cases hy' : buildSegments t r ss with
              | none => rw [hx', hy'] at hy; cases hy
              | some y' =>
                rw [hx', hy'] at hy
                cases hy
                rw [ih y' hy']
                simp
        rw [List.cons_append, buildSegments, hx, hxy]
        simp

theorem builds_text {t : Term} {r : Record} {s : List Char} (h : Char.ofNat 27 ∉ s) :
    ∃ out, buildSegment t r (.text s) = some out ∧ Shown out (plainCells s) := ⟨s, by rw [buildSegment], shown_plain h⟩


theorem Builds.one {t : Term} {r : Record} {s : Segment} {a : List Cell} (h : ∃ out, buildSegment t r s = some out ∧ Shown out a) : Builds t r [s] a := by
  have := Builds.cons h (Builds.nil (t := t) (r := r))
  rwa [List.append_nil] at this

/-- the line of a statement in the default format -/
theorem painted_statement {env : Env} {o : Options} (ht : o.term.Ok) (hmax : 5 ≤ o.term.maxWidth) {t : Table} {s : Painted} (hs : s.Ok env o t)
    {hasTimestamp : Bool} {note : List Char}
    (hesc : ∀ loc, Located o s.event.frame loc → loc.line < 2 ^ 32 ∧ FewHidden o.term.maxWidth (o.relative loc.file) ∧ FewHidden o.term.maxWidth loc.module)
    {rest : List (Printer.Line Frame)} {text : List Char} {cells : List Cell}
    (h : HostLog.PlainText env o (defaultSegments o.verbose hasTimestamp) note rest text) (hcells : Shown text cells) :
    ∃ text', HostLog.PlainText env o (defaultSegments o.verbose hasTimestamp) note (.frame s.event.frame :: rest) text' ∧
      Shown text' (s.cells o hasTimestamp ++ cells) := by
  have hnl : Shown c!"\n" (plainCells c!"\n") := shown_plain (by decide)
  unfold Painted.cells
  cases hl : s.event.tag.toLevel with
  | none => exact ⟨_, .print hs.texts hl h, ((((hs.printed hl).shown).append hnl).append hcells)⟩
  | some l =>
    have hr := recordOf_ok o s.event.frame s.timestamp s.message
    have hlev : (recordOf o s.event.frame s.timestamp s.message).level = some l := hl
    generalize hrec : recordOf o s.event.frame s.timestamp s.message = r at hr hlev
    have sp : Builds o.term r [.text c!" "] (plainCells c!" ") := .one (builds_text (by decide))
    have h1 : Builds o.term r (if hasTimestamp then [.field .timestamp {}, .text c!" "] else [])
        (if hasTimestamp then (if s.timestamp = [] then plainCells c!"<time>" else s.timestampCells) ++ plainCells c!" " else []) := by
      cases hasTimestamp with
      | false => exact .nil
      | true =>
        simp only [if_true]
        refine Builds.cons ?_ sp
        by_cases he : s.timestamp = []
        · rw [if_pos he]
          exact drawn_field ht hlev (by simp) (.noTimestamp (.inr (by rw [hr.timestamp, he]))) (contained_plain (by decide)) (fewHidden_plain _ (by decide))
        · rw [if_neg he]
          have hf := FieldText.timestamp (r := r) hr.source (by rw [hr.timestamp]; exact he)
          rw [hr.timestamp] at hf
          exact drawn_field ht hlev (by simp) hf hs.timestamp hs.fewHidden.1
    have h2 : Builds o.term r [.field .logLevel {}, .text c!" ", .field .log {}]
        (styledText o.term (some (levelColor l)) [] (leftPadded 5 (levelText l)) ++ (plainCells c!" " ++ s.messageCells)) := by
      refine .cons (drawn_level ht hmax hlev) (.cons (builds_text (by decide)) (.one ?_))
      have hm := hs.message (by rw [hl]; simp)
      have hh := hs.fewHidden.2
      rw [← hr.args] at hm hh
      exact drawn_message ht hlev hr.source hm hh
    have h3 : Builds o.term r (if o.verbose then [.text c!"\n└─ ", .field .modulePath {}, .text c!" @ ", .field .filePath {}, .text c!":",
        .field .lineNumber {}] else []) s.placeCells := by
      have hp := hs.place
      generalize s.placeCells = p at hp
      cases hp with
      | quiet hv => rw [hv]; exact .nil
      | @located loc vm vf hv hloc hm hf =>
        rw [hv]
        obtain ⟨g1, g2, g3⟩ := hesc _ hloc
        obtain ⟨l1, l2, l3⟩ := hr.located _ hloc
        have a1 := drawn_field ht hlev (m := .modulePath) (by simp) (.modulePath l3) hm g3
        have a2 := drawn_field ht hlev (m := .filePath) (by simp) (.filePath l1) hf g2
        have a3 := drawn_lineNumber ht hmax hlev
        rw [l2 g1] at a3
        have := Builds.cons (builds_text (s := c!"\n└─ ") (by decide)) (.cons a1 (.cons (builds_text (s := c!" @ ") (by decide)) (.cons a2
          (.cons (builds_text (s := c!":") (by decide)) (.one a3)))))
        refine cast ?_ this
        congr 1
        simp [plainCells]
      | notLocated hv hloc =>
        rw [hv]
        obtain ⟨l1, l2, l3⟩ := hr.notLocated hloc
        have a1 := drawn_field ht hlev (m := .modulePath) (by simp) (.noModulePath l3) (contained_plain (by decide)) (fewHidden_plain _ (by decide))
        have a2 := drawn_field ht hlev (m := .filePath) (by simp) (.noFilePath l1) (contained_plain (by decide)) (fewHidden_plain _ (by decide))
        have a3 := drawn_lineNumber ht hmax hlev
        rw [l2] at a3
        have := Builds.cons (builds_text (s := c!"\n└─ ") (by decide)) (.cons a1 (.cons (builds_text (s := c!" @ ") (by decide)) (.cons a2
          (.cons (builds_text (s := c!":") (by decide)) (.one a3)))))
        exact this
    obtain ⟨out, h4, h5⟩ := (h1.append h2).append h3
    have h6 : formatRecord o.term (defaultSegments o.verbose hasTimestamp) r = some out := by
      rw [formatRecord, hlev]
      exact h4
    refine ⟨_, HostLog.PlainText.frame hs.texts hl hr h6 h, ?_⟩
    have := (h5.append hnl).append hcells
    simpa only [List.append_assoc] using this

/-- the statement that `C114_system` speaks about -/
def Whole.Coloured.painted (format : Option (List Char)) (x : Whole.Coloured) : Painted :=
  ⟨x.event format, x.timestamp, x.message, x.timestampCells, x.messageCells, x.placeCells⟩

theorem coloured_level (format : Option (List Char)) {x : Whole.Coloured} (h : Whole.Logs x.site.kind) :
    (x.painted format).event.tag.toLevel = none ↔ x.site.kind = .println := by
  show x.site.kind.hostTag.toLevel = none ↔ _
  cases hk : x.site.kind with
  | log level => cases level <;> simp [Linker.Kind.hostTag, Tag.toLevel]
  | println => simp [Linker.Kind.hostTag, Tag.toLevel]
  | _ => rw [hk] at h; exact h.elim

theorem coloured_painted {env : Env} {opts : Options} {inputs : List Linker.Input} {o : Linker.Out} {strings t : Table} {format : Option (List Char)}
    {x : Whole.Coloured} (he : (x.event format).Ok t) (hx : x.Ok env opts inputs o strings format) : (x.painted format).Ok env opts t where
  event := he
  texts := hx.texts
  fewHidden := hx.fewHidden
  timestamp := hx.timestamp
  message h := hx.message (fun hk => h ((coloured_level format hx.logs).mpr hk))
  printed h := hx.printed ((coloured_level format hx.logs).mp h)
  place := hx.place

theorem coloured_cells (opts : Options) (format : Option (List Char)) (x : Whole.Coloured) (hx : Whole.Logs x.site.kind) :
    (x.painted format).cells opts format.isSome = x.cells opts format := by
  unfold Painted.cells Whole.Coloured.cells
  have : (x.painted format).event.tag = x.site.kind.hostTag := rfl
  rw [this]
  cases hk : x.site.kind with
  | log level => cases level <;> cases format <;> rfl
  | println => rfl
  | _ => rw [hk] at hx; exact hx.elim

end Defmt
