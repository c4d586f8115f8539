import Verif.Lemmas.LogFormat
import Verif.Lemmas.Bitflags
/-!
Lemmas about the texts of log records: module paths, file names, lines.
-/

namespace Defmt.LogFormat

open Parser Elf

/-! ## Module paths -/

theorem splitColons_ne_nil (s : List Char) : splitColons s ≠ [] := by
  fun_induction splitColons s with
  | case1 => simp
  | case2 => simp
  | case3 => simp
  | case4 => simp
  | case5 => simp

theorem pathText_cons (a : List Char) {l : List (List Char)} (h : l ≠ []) :
    pathText (a :: l) = a ++ c!"::" ++ pathText l := by
  cases l with
  | nil => exact absurd rfl h
  | cons b l => rfl

theorem pathText_splitColons (s : List Char) : pathText (splitColons s) = s := by
  fun_induction splitColons s with
  | case1 => rfl
  | case2 => rfl
  | case3 c c' rest h ih =>
    rw [pathText_cons _ (splitColons_ne_nil rest), ih]
    simp [h.1, h.2]
  | case4 c c' rest h h' => exact absurd h' (splitColons_ne_nil _)
  | case5 c c' rest h piece pieces h' ih =>
    rw [h'] at ih
    cases pieces with
    | nil =>
      simp only [pathText] at ih ⊢
      rw [ih]
    | cons p ps =>
      simp only [pathText] at ih ⊢
      simp only [List.cons_append, ih]

theorem splitColons_pathText {l : List (List Char)} (hl : l ≠ []) (h : ∀ n ∈ l, ':' ∉ n) :
    splitColons (pathText l) = l := by
  induction l with
  | nil => exact absurd rfl hl
  | cons a l ih =>
    cases l with
    | nil => exact splitColons_none (h a (by simp))
    | cons b l =>
      rw [pathText_cons _ (by simp), splitColons_append (h a (by simp))]
      rw [ih (by simp) fun n hn => h n (by simp [hn])]

theorem splitColons_single {s : List Char} : (∃ a, splitColons s = [a]) ↔ ¬ c!"::" <:+: s := by
  fun_induction splitColons s with
  | case1 => simp
  | case2 c => simp [List.infix_cons_iff]
  | case3 c c' rest h ih =>
    constructor
    · rintro ⟨a, ha⟩
      simp [splitColons_ne_nil] at ha
    · intro hn
      exact absurd ⟨[], rest, by simp [h.1, h.2]⟩ hn
  | case4 c c' rest h h' => exact absurd h' (splitColons_ne_nil _)
  | case5 c c' rest h piece pieces h' ih =>
    rw [h'] at ih
    have hin : c!"::" <:+: c :: c' :: rest ↔ c!"::" <:+: c' :: rest := by
      rw [List.infix_cons_iff]
      constructor
      · rintro (⟨t, ht⟩ | h2)
        · simp at ht
          exact absurd ⟨ht.1.symm, ht.2.1.symm⟩ h
        · exact h2
      · exact Or.inr
    rw [hin, ← ih]
    simp

/-! ## Lines -/

theorem splitAt_textOfLines {l : List (List Char)} (hl : l ≠ []) (h : ∀ n ∈ l, '\n' ∉ n) :
    splitAt '\n' (textOfLines l) = l := by
  induction l with
  | nil => exact absurd rfl hl
  | cons a l ih =>
    cases l with
    | nil => exact splitAt_plain _ _ (h a (by simp))
    | cons b l =>
      have : textOfLines (a :: b :: l) = a ++ '\n' :: textOfLines (b :: l) := by simp [textOfLines]
      rw [this, Parser.splitAt_append _ _ _ (h a (by simp))]
      rw [ih (by simp) fun n hn => h n (by simp [hn])]

theorem stripCr_plain {l : List Char} (h : '\r' ∉ l) : stripCr l = l := by
  simp only [stripCr]
  rw [if_neg]
  intro hl
  exact h (List.mem_of_getLast? hl)

theorem piecesToLines_plain {l : List (List Char)} (h : ∀ n ∈ l, '\r' ∉ n)
    (hlast : l.getLast? ≠ some []) : piecesToLines l = l := by
  induction l with
  | nil => rfl
  | cons a l ih =>
    cases l with
    | nil =>
      simp only [piecesToLines]
      rw [if_neg]
      intro ha; subst ha; simp at hlast
    | cons b l =>
      simp only [piecesToLines]
      rw [stripCr_plain (h a (by simp)), ih (fun n hn => h n (by simp [hn])) (by simpa using hlast)]

theorem lines_textOfLines {l : List (List Char)} (h : ∀ n ∈ l, PlainLine n) (hl : l ≠ [])
    (hlast : l.getLast? ≠ some []) : lines (textOfLines l) = l := by
  rw [lines, splitAt_textOfLines hl fun n hn => (h n hn).1]
  exact piecesToLines_plain (fun n hn => (h n hn).2) hlast

theorem joinLines_eq (l : List (List Char)) : joinLines l = textOfLines l := by
  induction l with
  | nil => rfl
  | cons a l ih =>
    cases l with
    | nil => rfl
    | cons b l => simp only [joinLines, textOfLines] at ih ⊢; simp [ih]

/-! ## The output of `assert_eq!` -/

theorem isQuoted_iff {start line : List Char} (hs : start.getLast? = some '`') :
    isQuoted start line = true ↔ line = start ∨ ∃ x, line = start ++ x ++ c!"`" := by
  simp only [isQuoted, Bool.and_eq_true, beq_iff_eq, Option.isSome_iff_exists]
  constructor
  · rintro ⟨⟨r, hr⟩, hl⟩
    have hr := stripPrefix_eq hr
    rcases List.eq_nil_or_concat r with h0 | ⟨x, c, hx⟩
    · left; rw [hr, h0, List.append_nil]
    · right
      refine ⟨x, ?_⟩
      rw [hr, hx] at hl
      have : c = '`' := by simpa using hl
      rw [hr, hx, this]; simp
  · rintro (h | ⟨x, h⟩)
    · subst h
      exact ⟨⟨[], by simpa using stripPrefix_append line []⟩, hs⟩
    · refine ⟨⟨x ++ c!"`", ?_⟩, ?_⟩
      · rw [h, List.append_assoc, stripPrefix_append]
      · rw [h]; simp

theorem quoted_full (start x : List Char) : quoted start (start ++ x ++ c!"`") = some x := by
  simp only [quoted, List.length_append, List.length_cons, List.length_nil]
  rw [if_neg (by omega)]
  have h1 : start.length + x.length + (0 + 1) - 1 - start.length = x.length := by omega
  rw [h1, List.append_assoc, List.drop_left]
  simp

theorem quoted_self {start : List Char} (h : start ≠ []) : quoted start start = none := by
  simp only [quoted]
  rw [if_pos]
  have := List.length_pos_iff.mpr h
  omega

theorem quoted_none {start line : List Char} (hs : start.getLast? = some '`')
    (hq : isQuoted start line = true) : quoted start line = none ↔ line = start := by
  have hne : start ≠ [] := by intro h; subst h; cases hs
  rcases (isQuoted_iff hs).mp hq with h | ⟨x, h⟩
  · subst h; simp [quoted_self hne]
  · constructor
    · intro hn; rw [h, quoted_full] at hn; cases hn
    · intro he; rw [he]; exact quoted_self hne

/-- a text without an unfinished sequence at its end -/
def Closed (s : List Char) : Prop := stateAfter .text s = .text

theorem stateAfter_append (st : AnsiState) (a b : List Char) :
    stateAfter st (a ++ b) = stateAfter (stateAfter st a) b := by
  induction a generalizing st with
  | nil => rfl
  | cons c a ih => simp only [List.cons_append, stateAfter, ih]

theorem Closed.append {a b : List Char} (ha : Closed a) (hb : Closed b) : Closed (a ++ b) := by
  rw [Closed, stateAfter_append, ha]; exact hb

theorem stripAnsi_closed {a : List Char} (ha : Closed a) (b : List Char) :
    stripAnsi (a ++ b) = stripAnsi a ++ stripAnsi b := by
  simp only [stripAnsi]
  rw [stripFrom_append, stripFrom_eq .text a, ha]
  simp [AnsiState.pending]

theorem closed_plain {s : List Char} (h : esc ∉ s) : Closed s := by
  induction s with
  | nil => rfl
  | cons c s ih =>
    have hc : c ≠ esc := fun e => h (by simp [e])
    simp only [Closed, stateAfter, ansiStep, if_neg hc]
    exact ih fun hm => h (by simp [hm])

theorem stripAnsi_plain {s : List Char} (h : esc ∉ s) : stripAnsi s = s := by
  have := stripAnsi_chars (a := s) (fun c hc e => h (e ▸ hc)) []
  simpa [stripAnsi_nil] using this

theorem stateAfter_params (ps : List Char) (h : ∀ c ∈ ps, okParam c) (seen : List Char) :
    stateAfter (.params seen) (ps ++ ['m']) = .text := by
  induction ps generalizing seen with
  | nil => simp [stateAfter, ansiStep]
  | cons c ps ih =>
    have hc : isDigit c = true ∨ c = ';' := h c (by simp)
    simp only [List.cons_append, stateAfter, ansiStep, if_neg (okParam_ne_m (h c (by simp))), if_pos hc]
    exact ih (fun d hd => h d (by simp [hd])) _

theorem closed_sequence {q : List Char} (hq : Sequence q) : Closed q := by
  cases hq with
  | mk ps hps =>
    have h1 : ansiStep .text (Char.ofNat 27) = (.esc, []) := rfl
    have h2 : ansiStep .esc '[' = (.params [], []) := rfl
    simp only [Closed, List.cons_append, stateAfter, h1, h2]
    exact stateAfter_params ps hps []

theorem not_reset_of_plain {s : List Char} (h : esc ∉ s) : ¬ reset <:+: s := by
  rintro ⟨a, b, hab⟩
  apply h
  rw [← hab]
  simp [reset]

theorem paint_closed {t : Term} (ht : t.Ok) (fg : Option Color) (styles : List Style) {s : List Char}
    (hs : esc ∉ s) : Closed (paint t fg styles s) ∧ stripAnsi (paint t fg styles s) = s := by
  simp only [paint, writeColored]
  split
  · exact ⟨closed_plain hs, stripAnsi_plain hs⟩
  · rw [escapeInner_eq (not_reset_of_plain hs)]
    have hq := sequence_style ht fg styles
    refine ⟨((closed_sequence hq).append (closed_plain hs)).append (closed_sequence sequence_reset), ?_⟩
    rw [stripAnsi_reset, stripAnsi_sequence hq]
    exact stripAnsi_plain hs

theorem paint_off {t : Term} (h : t.colorize = false) (fg : Option Color) (styles : List Style)
    (s : List Char) : paint t fg styles s = s := by
  simp [paint, writeColored, h]

theorem isDiff_left_off {t : Term} (h : t.colorize = false) {l r : List Char} {cs : List Chunk}
    (hd : IsDiff l r cs) : cs.flatMap (leftChunk t) = l ∧ cs.flatMap (rightChunk t) = r := by
  induction hd with
  | nil => exact ⟨rfl, rfl⟩
  | equal s _ ih => simp [leftChunk, rightChunk, paint_off h, ih.1, ih.2]
  | delete s _ ih => simp [leftChunk, rightChunk, paint_off h, ih.1, ih.2]
  | insert s _ ih => simp [leftChunk, rightChunk, paint_off h, ih.1, ih.2]

theorem isDiff_left {t : Term} (ht : t.Ok) {l r : List Char} {cs : List Chunk} (hd : IsDiff l r cs)
    (hl : esc ∉ l) (hr : esc ∉ r) :
    (Closed (cs.flatMap (leftChunk t)) ∧ stripAnsi (cs.flatMap (leftChunk t)) = l) ∧
    (Closed (cs.flatMap (rightChunk t)) ∧ stripAnsi (cs.flatMap (rightChunk t)) = r) := by
  have hnil : Closed [] := rfl
  have step : ∀ {a b s l}, (Closed a ∧ stripAnsi a = s) → (Closed b ∧ stripAnsi b = l) →
      (Closed (a ++ b) ∧ stripAnsi (a ++ b) = s ++ l) := by
    intro a b s l ha hb
    exact ⟨ha.1.append hb.1, by rw [stripAnsi_closed ha.1, ha.2, hb.2]⟩
  induction hd with
  | nil => exact ⟨⟨hnil, rfl⟩, hnil, rfl⟩
  | equal s _ ih =>
    simp only [List.mem_append, not_or] at hl hr
    have := ih hl.2 hr.2
    simp only [List.flatMap_cons, leftChunk, rightChunk]
    exact ⟨step (paint_closed ht _ _ hl.1) this.1, step (paint_closed ht _ _ hr.1) this.2⟩
  | delete s _ ih =>
    simp only [List.mem_append, not_or] at hl
    have := ih hl.2 hr
    simp only [List.flatMap_cons, leftChunk, rightChunk, List.nil_append]
    exact ⟨step (paint_closed ht _ _ hl.1) this.1, this.2⟩
  | insert s _ ih =>
    simp only [List.mem_append, not_or] at hr
    have := ih hl hr.2
    simp only [List.flatMap_cons, leftChunk, rightChunk, List.nil_append]
    exact ⟨this.1, step (paint_closed ht _ _ hr.1) this.2⟩

/-! ## File names -/

theorem fileText_cons (a : List Char) {l : List (List Char)} (h : l ≠ []) :
    fileText (a :: l) = a ++ '/' :: fileText l := by
  cases l with
  | nil => exact absurd rfl h
  | cons b l => simp [fileText]

theorem splitAt_fileText {l : List (List Char)} (hl : l ≠ []) (h : ∀ n ∈ l, '/' ∉ n) :
    splitAt '/' (fileText l) = l := by
  induction l with
  | nil => exact absurd rfl hl
  | cons a l ih =>
    cases l with
    | nil => exact splitAt_plain _ _ (h a (by simp))
    | cons b l =>
      rw [fileText_cons _ (by simp), Parser.splitAt_append _ _ _ (h a (by simp))]
      rw [ih (by simp) fun n hn => h n (by simp [hn])]

theorem filter_names {l : List (List Char)} (h : ∀ n ∈ l, PathName n) :
    l.filter (fun piece => decide (piece ≠ [] ∧ piece ≠ c!".")) = l := by
  rw [List.filter_eq_self]
  intro n hn
  simpa using ⟨(h n hn).1, (h n hn).2.2⟩

theorem pathComponents_relative {l : List (List Char)} (hl : l ≠ []) (h : ∀ n ∈ l, PathName n) :
    pathComponents (fileText l) = l := by
  have hs := splitAt_fileText hl fun n hn => (h n hn).2.1
  cases l with
  | nil => exact absurd rfl hl
  | cons a l =>
    simp only [pathComponents, hs]
    rw [if_neg (h a (by simp)).1, filter_names fun n hn => h n (by simp [hn])]

theorem pathComponents_absolute {l : List (List Char)} (hl : l ≠ []) (h : ∀ n ∈ l, PathName n) :
    pathComponents ('/' :: fileText l) = c!"/" :: l := by
  have hs := splitAt_fileText hl fun n hn => (h n hn).2.1
  have : splitAt '/' ('/' :: fileText l) = [] :: l := by simp [splitAt, hs]
  simp only [pathComponents, this]
  rw [if_pos trivial, filter_names h]

theorem flatMap_slash {l : List (List Char)} (hl : l ≠ []) :
    (l.flatMap fun piece => piece ++ c!"/") = fileText l ++ c!"/" := by
  induction l with
  | nil => exact absurd rfl hl
  | cons a l ih =>
    cases l with
    | nil => simp [fileText]
    | cons b l =>
      rw [List.flatMap_cons, ih (by simp), fileText_cons a (l := b :: l) (by simp)]
      simp

theorem fileNameText_eq {n : Nat} {file : List Char} {l : List (List Char)} (h : pathComponents file = l)
    (hl : l ≠ []) (hn : 0 < n) :
    fileNameText n file = some (fileText (l.drop (l.length - min l.length n))) := by
  have hne : l.drop (l.length - min l.length n) ≠ [] := by
    intro h0
    have := congrArg List.length h0
    have hp := List.length_pos_iff.mpr hl
    simp only [List.length_drop, List.length_nil] at this
    omega
  simp only [fileNameText, h, flatMap_slash hne]
  simp

theorem fileNameText_zero (file : List Char) : fileNameText 0 file = none := by
  simp [fileNameText]

end Defmt.LogFormat
