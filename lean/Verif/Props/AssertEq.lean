import Verif.Props.Macros
import Verif.Props.LogOutput
/-! # Property C67 for the messages that `assert_eq!` sends -/

namespace Defmt

open Parser hiding parse Written
open Decoder Encoder Display Macros LogFormat

theorem linesOf_append {text : List Char} {before : List (List Char)} (h : LinesOf text before) :
    text.getLast? = some '\n' → ∀ rest ls, LinesOf rest ls → LinesOf (text ++ rest) (before ++ ls) := by
  have hlast : ∀ (l s : List Char), (l ++ '\n' :: s).getLast? = some '\n' → s = [] ∨ s.getLast? = some '\n' := by
    intro l s h
    cases s with
    | nil => exact .inl rfl
    | cons c s => right; rw [List.getLast?_append] at h; simpa using h
  have hempty : ∀ {ls : List (List Char)}, LinesOf [] ls → ls = [] := by
    intro ls h
    generalize he : ([] : List Char) = s at h
    cases h with
    | nil => rfl
    | last h1 h2 => exact absurd he.symm h2
    | lf => simp at he
    | crlf => simp at he
  induction h with
  | nil => intro e; simp at e
  | last h1 h2 =>
    intro e
    obtain ⟨x, hx⟩ := List.getLast?_eq_some_iff.mp e
    rw [hx] at h1; simp at h1
  | @lf l s ls h1 h2 h3 ih =>
    intro e rest ls' hr
    rw [List.append_assoc, List.cons_append, List.cons_append]
    refine .lf h1 h2 ?_
    rcases hlast _ _ e with rfl | e
    · rw [hempty h3]; exact hr
    · exact ih e rest ls' hr
  | @crlf l s ls h1 h3 ih =>
    intro e rest ls' hr
    rw [List.append_assoc, List.cons_append, List.cons_append, List.cons_append]
    refine .crlf h1 ?_
    rcases hlast (l ++ ['\r']) _ (by simpa using e) with rfl | e
    · rw [hempty h3]; exact hr
    · exact ih e rest ls' hr

theorem linesOf_values {head l r : List Char} {before : List (List Char)} (h : LinesOf (head ++ c!"\n") before) (hl : '\n' ∉ l) (hr : '\n' ∉ r) :
    LinesOf (head ++ c!"\n left: `" ++ l ++ c!"`\nright: `" ++ r ++ c!"`")
      (before ++ [c!" left: `" ++ l ++ c!"`", c!"right: `" ++ r ++ c!"`"]) := by
  have h2 : LinesOf (c!"right: `" ++ r ++ c!"`") [c!"right: `" ++ r ++ c!"`"] := .last (by simp [hr]) (by simp)
  have h1 : LinesOf ((c!" left: `" ++ l ++ c!"`") ++ '\n' :: (c!"right: `" ++ r ++ c!"`"))
      [c!" left: `" ++ l ++ c!"`", c!"right: `" ++ r ++ c!"`"] := .lf (by simp [hl]) (by rw [List.getLast?_append]; simp) h2
  have := linesOf_append h (by simp) _ _ h1
  simpa using this

/-- **C67** A failed `assert_eq!` without a message, from the target to the terminal: the host prints the left value and the right value, exactly
as `error!("{:?}", value)` would show them, one below the other. (Values that are shown in several lines are printed as they are.) -/
theorem C67_assert_eq {t : Term} (ht : t.Ok) (hoff : t.colorize = false) (left right : Val) (e : LogEvent)
    (he : e.call = binopCall .eq left right none) (env : Env) (l r : List Char) (hl : debugShown env e left l) (hr : debugShown env e right r)
    (hnl : '\n' ∉ l) (hnr : '\n' ∉ r) (record : Record) (hs : record.source = .defmt)
    (hm : e.frame.message env = some record.args) (f : Format) :
    buildSegment t record (.field .log f) =
      some (c!"panicked at 'assertion failed: `(left == right)`'\ndiff < left / right >\n<" ++ l ++ c!"\n>" ++ r) := by
  have h0 := ((C73_assert_eq_default left right e he).2 env _).mpr ⟨l, r, hl, hr, rfl⟩
  rw [hm] at h0
  have h1 : LinesOf record.args ([c!"panicked at 'assertion failed: `(left == right)`'"] ++
      [c!" left: `" ++ l ++ c!"`", c!"right: `" ++ r ++ c!"`"]) := by
    rw [Option.some.inj h0]
    have := linesOf_values (head := c!"panicked at 'assertion failed: `(left == right)`'") (before := [c!"panicked at 'assertion failed: `(left == right)`'"])
      (.lf (by decide) (by decide) .nil) hnl hnr
    simpa using this
  rw [C67_diff ht hoff hs h1 (by simp) rfl rfl f]
  simp [diffShown, textOfLines]

/-- **C67** The same with a message. `lines` are the lines of the message in its quotes. -/
theorem C67_assert_eq_message {t : Term} (ht : t.Ok) (hoff : t.colorize = false) (left right : Val) (c : Call) (table : Table) (hc : c.Ok table)
    (hk : c.args.length + 2 ≤ maxArgs) (hb : ¬ c!"__internal_bitflags_" <:+: c.fmt) (hj : implicits c.fmt = c.args.length)
    (e : LogEvent) (he : e.call = binopCall .eq left right (some c)) (env : Env) (message l r : List Char)
    (hmsg : ({ e with call := c } : LogEvent).frame.message env = some message)
    (hl : debugShown env e left l) (hr : debugShown env e right r) (hnl : '\n' ∉ l) (hnr : '\n' ∉ r)
    (lines : List (List Char)) (hlines : LinesOf (c!"panicked at 'assertion failed: `(left == right)`: " ++ message ++ c!"'\n") lines)
    (record : Record) (hs : record.source = .defmt) (hm : e.frame.message env = some record.args) (f : Format) :
    buildSegment t record (.field .log f) = some (textOfLines lines ++ c!"\ndiff < left / right >\n<" ++ l ++ c!"\n>" ++ r) := by
  have h0 := (C73_assert_eq_text left right c table hc hk hb hj env e he _).mpr ⟨message, l, r, hmsg, hl, hr, rfl⟩
  rw [hm] at h0
  have h1 : LinesOf record.args (lines ++ [c!" left: `" ++ l ++ c!"`", c!"right: `" ++ r ++ c!"`"]) := by
    rw [Option.some.inj h0]
    have := linesOf_values (head := c!"panicked at 'assertion failed: `(left == right)`: " ++ message ++ c!"'") (before := lines)
      (by simpa using hlines) hnl hnr
    simpa using this
  have hne : lines ≠ [] := by
    intro h
    subst h
    generalize hg : c!"panicked at 'assertion failed: `(left == right)`: " ++ message ++ c!"'\n" = g at hlines
    cases hlines
    simp at hg
  rw [C67_diff ht hoff hs h1 hne rfl rfl f]
  simp [diffShown]

/-- the hypotheses are met by `assert_eq!(1u8, 2u8)` and by `assert_eq!(1u8, 2u8, "x = {}", 7u8)` -/
example : buildSegment (demoTerm false)
    { demoRecord with args := c!"panicked at 'assertion failed: `(left == right)`'\n left: `1`\nright: `2`" } (.field .log {}) =
    some c!"panicked at 'assertion failed: `(left == right)`'\ndiff < left / right >\n<1\n>2" :=
  C67_assert_eq (demoTerm_ok false) rfl (byte 1) (byte 2) ⟨1, .error, none, binopCall .eq (byte 1) (byte 2) none⟩ rfl demoEnv c!"1" c!"2"
    (by decide +kernel) (by decide +kernel) (by decide) (by decide) _ rfl (by decide +kernel) {}

example : (⟨1, .error, none, binopCall .eq (byte 1) (byte 2) (some ⟨c!"x = {}", [byte 7]⟩)⟩ : LogEvent).frame.message demoEnv =
      some c!"panicked at 'assertion failed: `(left == right)`: x = 7'\n left: `1`\nright: `2`" ∧
    LinesOf (c!"panicked at 'assertion failed: `(left == right)`: " ++ c!"x = 7" ++ c!"'\n")
      [c!"panicked at 'assertion failed: `(left == right)`: x = 7'"] := by
  refine ⟨by decide +kernel, linesOf_iff.mpr (by decide +kernel)⟩

end Defmt
