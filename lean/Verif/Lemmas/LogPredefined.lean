import Verif.Lemmas.LogGrammar
import Verif.Lemmas.LogLine
/-!
The predefined log formats.
-/

namespace Defmt.LogFormat

open Parser hiding parse Written

theorem allowed_nil : ParamsAllowed [] := by simp [ParamsAllowed]

/-- a specifier without parameters -/
theorem written_plain (t : Term) {name : List Char} {m : Metadata} (h : MetadataText name m) :
    Written t ('{' :: name ++ ['}']) (.field m {}) := by
  have := Written.field (t := t) h .nil allowed_nil
  simpa [formatOf] using this

theorem startsGroup_symbol {t : Term} (ht : t.Ok) {c : Char} {s : List Char} (hc : c.toNat < 128)
    (ha : c.isAlpha = false) (hd : isDigit c = false) (h : c ∉ c!"<^>") : StartsGroup t (c :: s) := by
  have hal : t.alphabetic c = false := by rw [ht.alphabetic c hc]; exact ha
  constructor
  · intro w rest he hw _
    have hw0 : w = [] := by
      cases w with
      | nil => rfl
      | cons x w =>
        simp only [List.cons_append, List.cons.injEq] at he
        have := hw x (by simp)
        rw [← he.1, hal] at this
        cases this
    subst hw0
    refine ⟨by decide, Or.inl rfl, by decide, by decide, ?_, by decide⟩
    rw [ht.colors [] (by simp)]; decide
  · intro a d rest he
    simp only [List.mem_cons, List.not_mem_nil, or_false, not_or] at h
    cases a with
    | none => simp [alignmentText] at he; rw [← he.1]; exact hd
    | some a => cases a <;> simp [alignmentText] at he <;> simp [he.1] at h

/-- the group `{[{L}]%bold}` -/
theorem written_level {t : Term} (ht : t.Ok) : Written t c!"{[{L}]%bold}"
    (.nested [.text c!"[", .field .logLevel {}, .text c!"]"] { style := some [.bold] }) := by
  have hL := written_plain t .logLevel
  have hbody : WrittenAll t true c!"[{L}]" [.text c!"[", .field .logLevel {}, .text c!"]"] :=
    .text (s := c!"[") (by simp [PlainText]) hL (.lastText (by simp [PlainText]))
  have := Written.group (t := t) (params := c!"%bold") hbody
    (startsGroup_symbol ht (by decide) (by decide) (by decide) (by decide))
    ⟨_, _, by simp; exact ⟨rfl, rfl⟩⟩ (.cons .bold .nil) (by decide)
  exact this

/-- the bright colours in `colorNames` -/
theorem bright_names : ∀ x ∈ colorNames, ' ' ∈ x.1 → ∃ y, x.1 = c!"bright" ++ ' ' :: y ∧
    ∀ c ∈ y, c ≠ '{' ∧ c ≠ '}' ∧ c ≠ '%' ∧ c ≠ '\\' := by
  intro x hx hsp
  refine ⟨x.1.drop 7, ?_⟩
  revert x
  decide

theorem written_hosted {t : Term} {s rest : List Char} {seg : Segment} {segs : List Segment}
    (h : Written t s seg) (hr : WrittenAll t false rest segs) (source : Source) :
    WrittenAll t false (hostText source ++ (s ++ rest)) (hostSegments source ++ seg :: segs) := by
  cases source with
  | defmt =>
    simp only [hostText, hostSegments, reduceCtorEq, if_false, List.nil_append]
    exact .segment h hr
  | host =>
    simp only [hostText, hostSegments, if_true]
    exact .text (by simp [PlainText]) h hr

theorem written_default {t : Term} (withLocation hasTimestamp : Bool) (source : Source) :
    WrittenAll t false (formatString (.default withLocation) hasTimestamp source)
      (hostSegments source ++ defaultSegments withLocation hasTimestamp) := by
  have sp : PlainText false c!" " := by simp [PlainText]
  have hL := written_plain t .logLevel
  have hT := written_plain t .timestamp
  have hS := written_plain t .log
  have hloc : WrittenAll t false c!"\n└─ {m} @ {F}:{l}" [.text c!"\n└─ ", .field .modulePath {}, .text c!" @ ",
      .field .filePath {}, .text c!":", .field .lineNumber {}] :=
    .text (s := c!"\n└─ ") (by simp [PlainText]) (written_plain t .modulePath)
      (.text (s := c!" @ ") (by simp [PlainText]) (written_plain t .filePath)
        (.text (s := c!":") (by simp [PlainText]) (written_plain t .lineNumber) .nil))
  cases withLocation with
  | false =>
    cases hasTimestamp with
    | false => exact written_hosted hL (.text sp hS .nil) source
    | true => exact written_hosted hT (.text sp hL (.text sp hS .nil)) source
  | true =>
    cases hasTimestamp with
    | false => exact written_hosted hL (.text sp hS hloc) source
    | true => exact written_hosted hT (.text sp hL (.text sp hS hloc)) source

theorem hasLog_append_right {a b : List Segment} (h : HasLog b) : HasLog (a ++ b) := by
  cases h with
  | field h => exact .field (by simp; exact Or.inr h)
  | nested h h' => exact .nested (by simp; exact Or.inr h) h'

theorem hasLog_append_left {a b : List Segment} (h : HasLog a) : HasLog (a ++ b) := by
  cases h with
  | field h => exact .field (by simp; exact Or.inl h)
  | nested h h' => exact .nested (by simp; exact Or.inl h) h'

theorem written_location {t : Term} (ht : t.Ok) : Written t c!"{({c:bold} {fff}:{l:1})%dimmed}" locationGroup := by
  have hC := Written.field (t := t) (params := c!":bold") .crateName (.cons (ss := []) .bold .nil)
    (by decide)
  have hl := Written.field (t := t) (params := c!":1") .lineNumber
    (.cons (ss := []) (.width none 1 (by decide) (by decide)) .nil)
    (by decide)
  have hbody : WrittenAll t true c!"({c:bold} {fff}:{l:1})" _ :=
    .text (s := c!"(") (by simp [PlainText]) hC (.text (s := c!" ") (by simp [PlainText])
      (written_plain t (.fileName 3 (by decide) (by decide)))
      (.text (s := c!":") (by simp [PlainText]) hl (.lastText (s := c!")") (by simp [PlainText]))))
  exact Written.group (t := t) (params := c!"%dimmed") hbody
    (startsGroup_symbol ht (by decide) (by decide) (by decide) (by decide))
    ⟨.fileName 3, {}, by simp⟩ (.cons (ss := []) .dimmed .nil)
    (by decide)

theorem written_oneLine {t : Term} (ht : t.Ok) (withLocation hasTimestamp : Bool) (source : Source) :
    WrittenAll t false (formatString (.oneLine withLocation) hasTimestamp source)
      (hostSegments source ++ oneLineSegments withLocation hasTimestamp) := by
  have sp : PlainText false c!" " := by simp [PlainText]
  have hL := written_level ht
  have hT := written_plain t .timestamp
  have hS := written_plain t .log
  have hloc : WrittenAll t false c!" {({c:bold} {fff}:{l:1})%dimmed}" [.text c!" ", locationGroup] :=
    .text sp (written_location ht) .nil
  cases withLocation with
  | false =>
    cases hasTimestamp with
    | false => exact written_hosted hL (.text sp hS .nil) source
    | true => exact written_hosted hT (.text sp hL (.text sp hS .nil)) source
  | true =>
    cases hasTimestamp with
    | false => exact written_hosted hL (.text sp hS hloc) source
    | true => exact written_hosted hT (.text sp hL (.text sp hS hloc)) source

theorem fits_left {max w : Nat} {f : Format} {dw : Nat} (hw : f.width.getD dw = w) (hm : w ≤ max)
    (ha : f.alignment = none) (hp : f.padding ≠ some .zero) (v : List Char) : Fits max f dw v (leftPadded w v) := by
  refine ⟨by omega, ?_⟩
  rw [hw, ha]
  have hfill : fillText f = ' ' := by
    obtain ⟨a, b, c, d, p⟩ := f
    cases p with
    | none => rfl
    | some p => cases p with
      | space => rfl
      | zero => exact absurd rfl hp
  rw [hfill]
  refine ⟨0, w - v.length, by simp [leftPadded], ?_, rfl⟩
  simp only [leftPadded, List.length_append, List.length_replicate]
  omega

theorem PrintsAll.append {max : Nat} {r : Record} {a b : List Segment} {x y : List Char} (ha : PrintsAll max r a x)
    (hb : PrintsAll max r b y) : PrintsAll max r (a ++ b) (x ++ y) := by
  induction a generalizing x with
  | nil => cases ha; exact hb
  | cons s a ih =>
    cases ha with
    | cons h1 h2 =>
      rw [List.append_assoc]
      exact .cons h1 (ih h2)

theorem PrintsAll.one {max : Nat} {r : Record} {s : Segment} {x : List Char} (h : Prints max r s x) :
    PrintsAll max r [s] x := by
  have := PrintsAll.cons h .nil
  simpa using this

/-- a text without escape characters -/
theorem Fits.widened {max : Nat} {f : Format} {dw : Nat} {s out : List Char} (hs : Char.ofNat 27 ∉ s) (h : Fits max f dw s out) :
    Widened max f dw s out := by
  refine ⟨s, visible_iff.mpr (stripAnsi_plain hs), ?_⟩
  rw [Nat.sub_self, Nat.add_zero]
  exact h

theorem fewHidden_plain (max : Nat) {s : List Char} (hs : Char.ofNat 27 ∉ s) : FewHidden max s :=
  ⟨s, visible_iff.mpr (stripAnsi_plain hs), by omega⟩

theorem fewHidden_short {max : Nat} {s : List Char} (hs : s.length ≤ max) : FewHidden max s :=
  ⟨stripAnsi s, visible_iff.mpr rfl, by omega⟩

/-- without a width any text is printed as it is -/
theorem widened_none {max : Nat} {f : Format} {dw : Nat} (hw : f.width.getD dw = 0) (ha : f.alignment = none) {s : List Char} (h : FewHidden max s) : Widened max f dw s s := by
  obtain ⟨seen, h1, h2⟩ := h
  refine ⟨seen, h1, by omega, 0, 0, by simp, ?_, by rw [ha]; rfl⟩
  rw [hw]
  omega

theorem prints_timestamp (max : Nat) {r : Record} (h : FewHidden max r.timestamp) :
    Prints max r (.field .timestamp {}) (timestampText r) := by
  by_cases hc : r.source = .defmt ∧ r.timestamp ≠ []
  · rw [timestampText, if_pos hc]
    exact .field (.timestamp hc.1 hc.2) (widened_none rfl rfl h)
  · rw [timestampText, if_neg hc]
    refine .field (.noTimestamp ?_) ((fits_none _ _).widened (by decide))
    cases hs : r.source with
    | host => exact Or.inl rfl
    | defmt =>
      right
      by_cases ht : r.timestamp = []
      · exact ht
      · exact absurd ⟨hs, ht⟩ hc

theorem prints_message (max : Nat) {r : Record} {shown : List Char} (h : ArgsShown max r shown) : Prints max r (.field .log {}) shown := by
  rw [ArgsShown.eq_def] at h
  cases hs : r.source with
  | host => simp only [hs] at h; subst h; exact .hostMessage hs
  | defmt =>
    simp only [hs] at h
    obtain ⟨h1, h2⟩ := h
    cases h1 with
    | plain hd => exact .message hs hd (widened_none rfl rfl h2)
    | diff a b c d => exact .diff hs a b c d

theorem level_plain (l : Level) : Char.ofNat 27 ∉ levelText l := by cases l <;> decide

theorem prints_level {max : Nat} (hmax : 5 ≤ max) {r : Record} {l : Level} (h : r.level = some l) :
    Prints max r (.field .logLevel {}) (leftPadded 5 (levelText l)) :=
  .field (.level h) ((fits_left rfl hmax rfl (by simp) _).widened (level_plain l))

theorem prints_host (max : Nat) (r : Record) (source : Source) :
    PrintsAll max r (hostSegments source) (hostText source) := by
  cases source with
  | defmt => exact .nil
  | host => exact .one .text

theorem prints_timestamp_part (max : Nat) {r : Record} (h : FewHidden max r.timestamp) (hasTimestamp : Bool) :
    PrintsAll max r (if hasTimestamp then [.field .timestamp {}, .text c!" "] else [])
      (if hasTimestamp then timestampText r ++ c!" " else []) := by
  cases hasTimestamp with
  | false => exact .nil
  | true => exact (PrintsAll.one (prints_timestamp max h)).append (.one .text)

theorem digits_plain (n : Nat) : Char.ofNat 27 ∉ Nat.toDigits 10 n := by
  intro h
  have := decimal_digits n _ h
  revert this
  decide

end Defmt.LogFormat
