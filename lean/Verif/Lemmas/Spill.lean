import Verif.Lemmas.Colours
import Verif.Spec.Spill
/-! Lemmas about texts that leave a colour in effect. -/

namespace Defmt

open LogFormat HostLog
open Parser hiding parse Written

/-- the same terminal without colours -/
def offTerm (t : Term) : Term := { t with colorize := false }

theorem offTerm_ok {t : Term} (h : t.Ok) : (offTerm t).Ok := ⟨h.alphabetic, h.colors, h.codes, h.notReset, h.diff, h.maxWidth⟩

theorem buildFormatted_off (t : Term) (s : List Char) (dw : Nat) (level : Option Level) :
    buildFormatted t s {} dw level none = buildFormatted (offTerm t) s {} dw level none := by
  unfold buildFormatted
  simp [writeColored, applyColor, offTerm]

/-- fields without colour are the same on both -/
theorem buildSegment_off (t : Term) (r : Record) {m : Metadata} (hm : m ≠ .logLevel) (hd : m = .log → ¬ LikeDiff r.args) :
    buildSegment t r (.field m {}) = buildSegment (offTerm t) r (.field m {}) := by
  rw [buildSegment, buildSegment]
  cases m with
  | logLevel => exact absurd rfl hm
  | log =>
    simp only [buildField, buildLog, colorDiff_notLike _ (hd rfl)]
    cases r.source with
    | host => rfl
    | defmt => exact buildFormatted_off t _ _ _
  | fileName n =>
    simp only [buildField]
    cases r.file with
    | none => exact buildFormatted_off t _ _ _
    | some f =>
      cases h : fileNameText n f with
      | none => simp [h]
      | some x => simp only [h]; exact buildFormatted_off t _ _ _
  | _ => exact buildFormatted_off t _ _ _

theorem buildSegments_append {t : Term} {r : Record} {a b : List Segment} {x y : List Char} (ha : buildSegments t r a = some x)
    (hb : buildSegments t r b = some y) : buildSegments t r (a ++ b) = some (x ++ y) := by
  induction a generalizing x with
  | nil => rw [buildSegments] at ha; cases ha; exact hb
  | cons s ss ih =>
    rw [buildSegments] at ha
    rw [List.cons_append, buildSegments]
    cases h1 : buildSegment t r s with
    | none => rw [h1] at ha; cases ha
    | some p =>
      cases h2 : buildSegments t r ss with
      | none => rw [h1, h2] at ha; cases ha
      | some q =>
        rw [h1, h2] at ha
        cases ha
        rw [ih h2]
        simp

/-- segments without colour are the same on both -/
theorem buildSegments_off (t : Term) (r : Record) (hd : ¬ LikeDiff r.args) : ∀ segments : List Segment,
    (∀ s ∈ segments, (∃ x, s = .text x) ∨ ∃ m, m ≠ .logLevel ∧ s = .field m {}) →
    buildSegments t r segments = buildSegments (offTerm t) r segments
  | [], _ => by rw [buildSegments, buildSegments]
  | s :: ss, h => by
    rw [buildSegments, buildSegments, buildSegments_off t r hd ss (fun s hs => h s (by simp [hs]))]
    rcases h s (by simp) with ⟨x, rfl⟩ | ⟨m, hm, rfl⟩
    · rw [buildSegment, buildSegment]
    · rw [buildSegment_off t r hm (fun _ => hd)]

theorem escapeInner_plain' (q : List Char) {s : List Char} (h : esc ∉ s) : escapeInner q s = s := by
  have := escapeInner_before q h []
  simpa [escapeInner] using this

/-- the text of the level -/
def levelPart (t : Term) (l : Level) : List Char :=
  if t.colorize = false then leftPadded 5 (levelText l)
  else styleOf t (some (levelColor l)) [] ++ leftPadded 5 (levelText l) ++ endSequence

theorem build_level {t : Term} (hmax : 5 ≤ t.maxWidth) {r : Record} {l : Level} (hl : r.level = some l) :
    buildSegment t r (.field .logLevel {}) = some (levelPart t l) := by
  have hp := level_plain l
  have hs : stripAnsi (levelText l) = levelText l := stripAnsi_plain hp
  have hn : levelName l = levelText l := by cases l <;> rfl
  have hc : colorForLevel l = levelColor l := by cases l <;> rfl
  have hpad : ∀ n, padTo n .left ' ' (levelText l) = leftPadded n (levelText l) := fun n => rfl
  rw [buildSegment]
  simp only [buildField, hl, hn, buildFormatted, hs, Nat.sub_self, Option.getD_none, Nat.add_zero, applyColor, Option.map_some, hc]
  rw [if_neg (by omega)]
  simp only [writeColored, levelPart]
  cases hcol : t.colorize with
  | false => simp [fillOf, hpad]
  | true => simp [fillOf, hpad, escapeInner_plain' _ hp, endSequence_eq]

/-- the line of the default format -/
theorem default_text {t : Term} (ht : t.Ok) (hmax : 5 ≤ t.maxWidth) (withLocation hasTimestamp : Bool) {r : Record} {l : Level} (hl : r.level = some l)
    (hsrc : r.source = .defmt) (hd : ¬ LikeDiff r.args) (hm : FewHidden t.maxWidth r.args) (hts : FewHidden t.maxWidth r.timestamp)
    (hfile : FewHidden t.maxWidth (r.file.getD [])) (hmod : FewHidden t.maxWidth (r.modulePath.getD [])) :
    formatRecord t (defaultSegments withLocation hasTimestamp) r =
      some ((if hasTimestamp then timestampText r ++ c!" " else []) ++ (levelPart t l ++ ((c!" " ++ r.args) ++ (if withLocation then locationText r else [])))) := by
  have ho := offTerm_ok ht
  have hoff : (offTerm t).colorize = false := rfl
  have a1 := printsAll_off ho hoff (prints_timestamp_part (offTerm t).maxWidth (r := r) hts hasTimestamp)
  have a2 := printsAll_off ho hoff ((PrintsAll.one (max := (offTerm t).maxWidth) (r := r) (.text (s := c!" "))).append
    (.one (prints_message _ (shown := r.args) (by rw [ArgsShown.eq_def, hsrc]; exact ⟨.plain hd, hm⟩))))
  have a3 := printsAll_off ho hoff (prints_location_part (t := offTerm t) hmax (r := r) hfile hmod withLocation)
  rw [← buildSegments_off t r hd _ (by
    cases hasTimestamp with
    | false => simp
    | true => intro s hs; simp at hs; rcases hs with rfl | rfl <;> simp)] at a1
  rw [← buildSegments_off t r hd _ (by
    intro s hs; simp at hs; rcases hs with rfl | rfl <;> simp)] at a2
  rw [← buildSegments_off t r hd _ (by
    cases withLocation with
    | false => simp
    | true => intro s hs; simp at hs; rcases hs with rfl | rfl | rfl | rfl | rfl | rfl <;> simp)] at a3
  have a4 : buildSegments t r [.field .logLevel {}] = some (levelPart t l) := by
    rw [buildSegments, build_level hmax hl, buildSegments]; simp
  have := buildSegments_append a1 (buildSegments_append a4 (buildSegments_append a2 a3))
  rw [formatRecord, hl]
  simpa [defaultSegments] using this

/-! ### What the terminal shows -/

theorem closed_end {s : List Char} {c : Char} (h : c ≠ esc) (h1 : c ≠ '[') (h2 : isDigit c = false) (h3 : c ≠ ';') : Closed (s ++ [c]) := by
  unfold Closed
  rw [stateAfter_append]
  generalize stateAfter .text s = st
  cases st with
  | text => simp [stateAfter, ansiStep, h]
  | esc => simp [stateAfter, ansiStep, h, h1]
  | params seen =>
    by_cases hm : c = 'm'
    · simp [stateAfter, ansiStep, hm]
    · simp [stateAfter, ansiStep, h, h2, h3, hm]

/-- `Rendered` for texts without an unfinished sequence -/
theorem rendered_iff_closed {s : List Char} {active after : List (List Char)} {v : List Cell} :
    Rendered active s v after ↔ renderFrom .text active s = v ∧ activeAfter .text active s = after := by
  have h := rendered_renderFrom s .text active trivial
  constructor
  · intro hr
    obtain ⟨h1, h2⟩ := h.unique hr
    exact ⟨h1, h2⟩
  · rintro ⟨rfl, rfl⟩
    exact h

theorem LogFormat.Rendered.append_closed {a b : List Char} (ha : Closed a) {active now after : List (List Char)} {v w : List Cell}
    (h1 : Rendered active a v now) (h2 : Rendered now b w after) : Rendered active (a ++ b) (v ++ w) after := by
  rw [rendered_iff_closed] at *
  obtain ⟨rfl, rfl⟩ := h1
  obtain ⟨rfl, rfl⟩ := h2
  exact ⟨renderFrom_closed ha _ _, activeAfter_closed ha _ _⟩

theorem rendered_exists (active : List (List Char)) (s : List Char) : ∃ v after, Rendered active s v after :=
  ⟨_, _, rendered_renderFrom s .text active trivial⟩

end Defmt
