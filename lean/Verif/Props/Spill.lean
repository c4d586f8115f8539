import Verif.Lemmas.Spill
import Verif.Props.Colours
/-!
# C114, continued: texts that leave a colour in effect
-/

namespace Defmt

open LogFormat HostLog
open Parser hiding parse Written
open Rtt (blocking)

theorem leftPadded_plain (l : Level) : esc ∉ leftPadded 5 (levelText l) := by cases l <;> decide

theorem closed_plain' {s : List Char} (h : esc ∉ s) : Closed s := (shown_plain h).1

theorem level_part {t : Term} (ht : t.Ok) (l : Level) (now : List (List Char)) :
    Closed (levelPart t l) ∧
    Rendered now (levelPart t l) ((leftPadded 5 (levelText l)).map (fun c => (c, now ++ wantedStyle t (some (levelColor l)) [])))
      (if t.colorize then [] else now) := by
  have hp := leftPadded_plain l
  cases hc : t.colorize with
  | false =>
    have e : wantedStyle t (some (levelColor l)) [] = [] := by rw [wantedStyle, if_pos (.inl hc)]
    rw [e, levelPart, if_pos hc]
    refine ⟨closed_plain' hp, rendered_iff_closed.mpr ?_⟩
    simpa using render_plain hp now
  | true =>
    have hne : ¬ (some (levelColor l) = none ∧ ([] : List LogFormat.Style) = []) := by simp
    have e : wantedStyle t (some (levelColor l)) [] = [styleOf t (some (levelColor l)) []] := by
      rw [wantedStyle, if_neg (by simp [hc])]; rfl
    have hq := sequence_style ht (some (levelColor l)) []
    have hq' := style_not_reset ht hne
    rw [e, levelPart, if_neg (by simp [hc])]
    refine ⟨((closed_sequence hq).append (closed_plain' hp)).append (closed_sequence sequence_reset), ?_⟩
    rw [List.append_assoc]
    refine Rendered.sequence hq hq' ?_
    have h1 : Rendered (now ++ [styleOf t (some (levelColor l)) []]) (leftPadded 5 (levelText l)) _ _ := rendered_iff_closed.mpr (render_plain hp _)
    have h2 : Rendered (now ++ [styleOf t (some (levelColor l)) []]) (endSequence ++ []) [] [] := .reset .nil
    have := h1.append_closed (closed_plain' hp) h2
    simpa using this

/-- the text of a statement -/
def Statement.colouredText (t : Term) (hasTimestamp : Bool) (s : Statement) : List Char :=
  match s.event.tag.toLevel with
  | none => s.message ++ c!"\n"
  | some l =>
    (if hasTimestamp then (if s.timestamp = [] then c!"<time>" else s.timestamp) ++ c!" " else []) ++
      (levelPart t l ++ (c!" " ++ s.message ++ s.place ++ c!"\n"))

theorem spills_text {t : Term} (ht : t.Ok) (hasTimestamp : Bool) (s : Statement) (active : List (List Char)) :
    Closed (Statement.colouredText t hasTimestamp s) ∧
    ∃ v after, s.Spills t hasTimestamp active v after ∧ Rendered active (Statement.colouredText t hasTimestamp s) v after := by
  have hnl : ∀ x, Closed (x ++ c!"\n") := fun x => closed_end (by decide) (by decide) (by decide) (by decide)
  unfold Statement.colouredText
  cases hl : s.event.tag.toLevel with
  | none =>
    obtain ⟨v, after, h⟩ := rendered_exists active (s.message ++ c!"\n")
    exact ⟨hnl _, v, after, .print hl h, h⟩
  | some l =>
    obtain ⟨v, now, h1⟩ := rendered_exists active (if hasTimestamp then (if s.timestamp = [] then c!"<time>" else s.timestamp) ++ c!" " else [])
    obtain ⟨w, after, h2⟩ := rendered_exists (if t.colorize then [] else now) (c!" " ++ s.message ++ s.place ++ c!"\n")
    obtain ⟨h3, h4⟩ := level_part ht l now
    have hc : Closed (if hasTimestamp then (if s.timestamp = [] then c!"<time>" else s.timestamp) ++ c!" " else []) := by
      cases hasTimestamp with
      | false => exact closed_plain' (by simp)
      | true => exact closed_end (by decide) (by decide) (by decide) (by decide)
    refine ⟨hc.append (h3.append (hnl _)), _, after, .log hl h1 h2, ?_⟩
    have := h1.append_closed hc (h4.append_closed h3 h2)
    rwa [← List.append_assoc v] at this

theorem spill_statement {env : Env} {o : Options} (ht : o.term.Ok) (hmax : 5 ≤ o.term.maxWidth) {t : Table} {s : Statement} (hs : s.Ok env o t)
    (hd : ¬ LikeDiff s.message) {hasTimestamp : Bool} {note : List Char}
    (hesc : ∀ loc, Located o s.event.frame loc → loc.line < 2 ^ 32 ∧ FewHidden o.term.maxWidth (o.relative loc.file) ∧ FewHidden o.term.maxWidth loc.module)
    {rest : List (Printer.Line Frame)} {text : List Char}
    (h : HostLog.PlainText env o (defaultSegments o.verbose hasTimestamp) note rest text) :
    HostLog.PlainText env o (defaultSegments o.verbose hasTimestamp) note (.frame s.event.frame :: rest)
      (Statement.colouredText o.term hasTimestamp s ++ text) := by
  unfold Statement.colouredText
  cases hl : s.event.tag.toLevel with
  | none => exact .print hs.texts hl h
  | some l =>
    have hr := recordOf_ok o s.event.frame s.timestamp s.message
    obtain ⟨hplace, hfile, hmod⟩ := place_text hs hesc
    have hf := default_text ht hmax o.verbose hasTimestamp (r := recordOf o s.event.frame s.timestamp s.message) (l := l) hl rfl hd hs.fewHidden.2
      hs.fewHidden.1 hfile hmod
    rw [hplace] at hf
    have := HostLog.PlainText.frame hs.texts hl hr hf h
    refine cast ?_ this
    congr 1
    simp only [timestampText, recordOf, true_and, ite_not]
    cases hasTimestamp <;> simp

/-- **C114** Texts with any characters, also colours that do not end: with the default format every line begins in the colours that the one before left in effect,
and on a terminal with colours nothing of this is left after the level. -/
theorem C114_any_text (env : Env) (o : Options) (hj : o.json = false) (hlf : o.logFormat = none)
    (hhf : o.hostLogFormat = none) (ht : o.term.Ok) (hmax : 5 ≤ o.term.maxWidth)
    (hloc : ∀ i loc, o.locations i = some loc → loc.line < 2 ^ 32 ∧ FewHidden o.term.maxWidth (o.relative loc.file) ∧ FewHidden o.term.maxWidth loc.module)
    (t : Table) (statements : List Statement) (hs : ∀ s ∈ statements, s.Ok env o t) (hd : ∀ s ∈ statements, ¬ LikeDiff s.message)
    (enc : Encoding) (now : Nat → Int) (chunks : List (List UInt8)) (next : Printer.Next)
    (hu : Printer.defmtPrint t.td enc chunks = some (statements.map (fun s => .frame s.event.frame), next)) :
    ∃ ws cells after, HostLog.defmtPrint env o t.td t.timestamp.isSome enc now chunks = some (ws, next) ∧
      SpillsAll o.term t.timestamp.isSome [] statements cells after ∧ Rendered [] (textOf .stdout ws) cells after ∧ textOf .stderr ws = [] := by
  have key : HostLog.PlainText env o (defaultSegments o.verbose t.timestamp.isSome) (noteText o) (statements.map (fun s => .frame s.event.frame))
      (statements.flatMap (Statement.colouredText o.term t.timestamp.isSome)) := by
    clear hu
    induction statements with
    | nil => exact .nil
    | cons s ss ih =>
      rw [List.map_cons, List.flatMap_cons]
      exact spill_statement ht hmax (hs s (by simp)) (hd s (by simp)) (fun loc h => hloc _ _ h.2)
        (ih (fun s h => hs s (by simp [h])) (fun s h => hd s (by simp [h])))
  have cells : ∀ active, ∃ v after, SpillsAll o.term t.timestamp.isSome active statements v after ∧
      Rendered active (statements.flatMap (Statement.colouredText o.term t.timestamp.isSome)) v after := by
    clear hu key hs hd
    induction statements with
    | nil => exact fun active => ⟨[], active, .nil, .nil⟩
    | cons s ss ih =>
      intro active
      obtain ⟨h1, v, now, h2, h3⟩ := spills_text ht t.timestamp.isSome s active
      obtain ⟨w, after, h4, h5⟩ := ih now
      exact ⟨v ++ w, after, .cons h2 h4, by rw [List.flatMap_cons]; exact h3.append_closed h1 h5⟩
  obtain ⟨ws, h3, h4, h5⟩ := C80_text env o hj t.td t.timestamp.isSome enc now chunks _ _ (default_formatters ht hlf hhf _) _ next hu
    (fun f loc _ h => (hloc _ _ h.2).1) _ key
  obtain ⟨v, after, h6, h7⟩ := cells []
  exact ⟨ws, v, after, h3, h6, by rw [h4]; exact h7, h5⟩

/-- **C114** What a statement leaves in effect: on a terminal with colours, only what its own message and location leave. What the statements before it left has no
influence, unless it is a `println!`. -/
theorem C114_level_ends (t : Term) (hc : t.colorize = true) (hasTimestamp : Bool) (s : Statement) (hl : s.event.tag.toLevel ≠ none)
    (active active' after after' : List (List Char)) (v v' : List Cell) (h : s.Spills t hasTimestamp active v after)
    (h' : s.Spills t hasTimestamp active' v' after') : after = after' := by
  cases h with
  | print h0 _ => exact absurd h0 hl
  | log h0 h1 h2 =>
    cases h' with
    | print h0' _ => exact absurd h0' hl
    | log h0' h1' h2' =>
      rw [hc, if_pos rfl] at h2 h2'
      exact (h2.unique h2').2

/-! ### A message that does not end its colour -/

/-- ESC [ 31 m -/
def redSequence : List Char := Char.ofNat 27 :: c!"[31m"

/-- `info!("\x1b[31mhi")` and `println!("ok")` -/
def redTable : Table := ⟨none, fun i => if i = 1 then some ⟨.info, redSequence ++ c!"hi"⟩ else if i = 2 then some ⟨.println, c!"ok"⟩ else none⟩

def redStatement : Statement := ⟨⟨1, .info, none, ⟨redSequence ++ c!"hi", []⟩⟩, [], redSequence ++ c!"hi", redSequence ++ c!"hi", []⟩

def okStatement : Statement := ⟨⟨2, .println, none, ⟨c!"ok", []⟩⟩, [], c!"ok", c!"ok", []⟩

set_option maxRecDepth 100000 in
/-- **C114** fails for such messages: on a terminal with colours, the text of the next statement is red too. -/
theorem C114_fails_spill : ∃ ws next, HostLog.defmtPrint demoEnv (colourOptions false) redTable.td false .raw (fun k => k) [[1, 0, 2, 0]] = some (ws, next) ∧
    Rendered [] (textOf .stdout ws) (c!"INFO ".map (fun c => (c, [Char.ofNat 27 :: c!"[32m"])) ++ plainCells c!" " ++
      c!"hi\nok\n".map (fun c => (c, [redSequence]))) [redSequence] := by
  have h : (HostLog.defmtPrint demoEnv (colourOptions false) redTable.td false .raw (fun k => k) [[1, 0, 2, 0]]).map (fun r => textOf .stdout r.1) =
      some (Char.ofNat 27 :: c!"[32mINFO " ++ Char.ofNat 27 :: c!"[0m " ++ redSequence ++ c!"hi\nok\n") := by decide +kernel
  cases hx : HostLog.defmtPrint demoEnv (colourOptions false) redTable.td false .raw (fun k => k) [[1, 0, 2, 0]] with
  | none => rw [hx] at h; cases h
  | some r =>
    rw [hx] at h
    simp only [Option.map_some, Option.some.injEq] at h
    refine ⟨r.1, r.2, rfl, ?_⟩
    rw [h, rendered_iff_closed]
    decide +kernel

/-- the hypotheses of `C114_any_text` are met by these statements -/
example : ∀ s ∈ [redStatement, okStatement], s.Ok demoEnv (colourOptions false) redTable ∧ ¬ LikeDiff s.message := by
  intro s hs
  simp only [List.mem_cons, List.not_mem_nil, or_false] at hs
  have h1 : ¬ LikeDiff (redSequence ++ c!"hi") := LogFormat.not_likeDiff (by decide +kernel)
  have h2 : ¬ LikeDiff c!"ok" := LogFormat.not_likeDiff (by decide +kernel)
  rcases hs with rfl | rfl
  · exact ⟨⟨⟨by decide, rfl, ⟨[], by decide +kernel, trivial⟩, trivial⟩, ⟨.inr ⟨rfl, rfl⟩, by decide +kernel⟩,
      ⟨fewHidden_plain _ (by decide), ⟨c!"hi", visible_iff.mpr (by decide +kernel), by decide +kernel⟩⟩, .plain h1, .quiet rfl⟩, h1⟩
  · exact ⟨⟨⟨by decide, rfl, ⟨[], by decide +kernel, trivial⟩, trivial⟩, ⟨.inr ⟨rfl, rfl⟩, by decide +kernel⟩,
      ⟨fewHidden_plain _ (by decide), fewHidden_plain _ (by decide +kernel)⟩, .plain h2, .quiet rfl⟩, h2⟩

end Defmt
