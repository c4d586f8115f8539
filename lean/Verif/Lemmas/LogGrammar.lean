import Verif.Lemmas.LogParser
/-!
Documented log formats are parsed to what they stand for.
-/

namespace Defmt.LogFormat

open Parser

/-! ## Brackets -/

/-- a text in which brackets match -/
def Balanced (s : List Char) : Prop :=
  ∀ depth seen rest, takeUntilUnbalanced depth seen (s ++ rest) = takeUntilUnbalanced depth (seen ++ s) rest

theorem balanced_nil : Balanced [] := by intro d seen rest; simp

theorem Balanced.append {a b : List Char} (ha : Balanced a) (hb : Balanced b) : Balanced (a ++ b) := by
  intro d seen rest
  rw [List.append_assoc, ha, hb, List.append_assoc]

theorem balanced_plain {s : List Char} (h : ∀ c ∈ s, c ≠ '{' ∧ c ≠ '}' ∧ c ≠ '\\') : Balanced s := by
  induction s with
  | nil => exact balanced_nil
  | cons c s ih =>
    intro d seen rest
    obtain ⟨h1, h2, h3⟩ := h c (by simp)
    rw [List.cons_append, takeUntilUnbalanced.eq_def]
    simp only [if_neg h1, if_neg h2, if_neg h3]
    rw [ih fun x hx => h x (by simp [hx])]
    simp

theorem balanced_bracket {s : List Char} (h : Balanced s) : Balanced ('{' :: s ++ ['}']) := by
  intro d seen rest
  have h1 : ('{' : Char) ≠ '\\' := by decide
  have h2 : ('}' : Char) ≠ '\\' := by decide
  have h3 : ('}' : Char) ≠ '{' := by decide
  rw [List.cons_append, List.cons_append, List.append_assoc, takeUntilUnbalanced.eq_def]
  simp only [if_neg h1, if_pos]
  rw [h, List.singleton_append, takeUntilUnbalanced.eq_def]
  simp only [if_neg h2, if_neg h3, if_pos]
  rw [if_neg (by omega)]
  simp

theorem take_balanced {s : List Char} (h : Balanced s) (rest : List Char) :
    takeUntilUnbalanced 0 [] (s ++ '}' :: rest) = .ok ('}' :: rest) s := by
  have h2 : ('}' : Char) ≠ '\\' := by decide
  have h3 : ('}' : Char) ≠ '{' := by decide
  rw [h, takeUntilUnbalanced.eq_def]
  simp only [if_neg h2, if_neg h3, if_pos]
  simp

theorem argument_of_content {t : Term} {s : List Char} {seg : Segment} {fuel : Nat} {nest : Bool}
    (hb : Balanced s) (h : ∃ r, parseLogSegment t (parseArgument t fuel) nest s = .ok r seg) (rest : List Char) :
    parseArgument t (fuel + 1) nest ('{' :: s ++ ['}'] ++ rest) = .ok rest seg := by
  obtain ⟨r, hr⟩ := h
  have he : '{' :: s ++ ['}'] ++ rest = '{' :: (s ++ '}' :: rest) := by simp
  rw [he]
  simp only [parseArgument, take_balanced hb, hr]
  simp

/-! ## Parameters -/

/-- the text is over, or a separator follows -/
def Stop (rest : List Char) : Prop := ∀ c, rest.head? = some c → c = ':' ∨ c = '%'

def itemOf : Param → Item
  | .color c => .color c
  | .style s => .style s
  | .width w p a => .width w p a

theorem stop_alphabetic {t : Term} (ht : t.Ok) {rest : List Char} (h : Stop rest) :
    ∀ c, rest.head? = some c → t.alphabetic c = false := by
  intro c hc
  rcases h c hc with h | h
  · subst h; rw [ht.alphabetic _ (by decide)]; decide
  · subst h; rw [ht.alphabetic _ (by decide)]; decide

theorem stop_digit {rest : List Char} (h : Stop rest) : ∀ c, rest.head? = some c → isDigit c = false := by
  intro c hc
  rcases h c hc with h | h
  · subst h; decide
  · subst h; decide

theorem word_app {α : Type} {t : Term} (f : List Char → Option α) {s rest : List Char}
    (hs : ∀ c ∈ s, t.alphabetic c = true) (hr : ∀ c, rest.head? = some c → t.alphabetic c = false) :
    word t f (s ++ rest) = match f s with | none => .error | some a => .ok rest a := by
  simp only [word]
  rw [takeWhile_app _ _ _ hs hr, dropWhile_app _ _ _ hs hr]
  cases f s <;> rfl

/-- lower case letters -/
theorem letters_alphabetic {t : Term} (ht : t.Ok) {s : List Char}
    (h : s.all (fun c => decide (c.toNat < 128) && c.isAlpha) = true) : ∀ c ∈ s, t.alphabetic c = true := by
  intro c hc
  have := List.all_eq_true.mp h c hc
  simp only [Bool.and_eq_true, decide_eq_true_eq] at this
  rw [ht.alphabetic c this.1]; exact this.2

theorem letters_ascii {s : List Char}
    (h : s.all (fun c => decide (c.toNat < 128) && c.isAlpha) = true) : ∀ c ∈ s, c.toNat < 128 := by
  intro c hc
  have := List.all_eq_true.mp h c hc
  simp only [Bool.and_eq_true, decide_eq_true_eq] at this
  exact this.1

theorem colorOf_ascii {t : Term} (ht : t.Ok) {s : List Char} (h : ∀ c ∈ s, c.toNat < 128)
    (h1 : s ≠ c!"severity") (h2 : s ≠ c!"werror") :
    colorOf t s = (colorNames.lookup (s.map Char.toLower)).map LogColor.color := by
  simp only [colorOf, if_neg h1, if_neg h2, ht.colors s h]

/-- a word that is a colour -/
theorem parse_color_word {t : Term} (ht : t.Ok) {s : List Char} {c : LogColor} {rest : List Char}
    (hs : s.all (fun c => decide (c.toNat < 128) && c.isAlpha) = true) (hm : metadataOf s = none)
    (hc : colorOf t s = some c) (hr : Stop rest) :
    parseMetadata t (s ++ rest) = .error ∧ parseFormat t (s ++ rest) = .ok rest (.color c) := by
  have ha := letters_alphabetic ht hs
  have hr' := stop_alphabetic ht hr
  constructor
  · rw [parseMetadata, word_app _ ha hr']; simp [hm]
  · rw [parseFormat, alt, parseColor, word_app _ ha hr']; simp [hc]

/-- a word that is a style -/
theorem parse_style_word {t : Term} (ht : t.Ok) {s : List Char} {st : Style} {rest : List Char}
    (hs : s.all (fun c => decide (c.toNat < 128) && c.isAlpha) = true) (hm : metadataOf s = none)
    (hc : colorOf t s = none) (hst : styleFromStr s = some st) (hr : Stop rest) :
    parseMetadata t (s ++ rest) = .error ∧ parseFormat t (s ++ rest) = .ok rest (.style st) := by
  have ha := letters_alphabetic ht hs
  have hr' := stop_alphabetic ht hr
  constructor
  · rw [parseMetadata, word_app _ ha hr']; simp [hm]
  · rw [parseFormat, alt, parseColor, word_app _ ha hr']
    simp only [hc, Option.map_none]
    rw [alt, parseStyle, word_app _ ha hr']
    simp [hst]

/-- nothing alphabetic at the start -/
theorem word_none {α : Type} {t : Term} (f : List Char → Option α) {s : List Char}
    (h : ∀ c, s.head? = some c → t.alphabetic c = false) (hf : f [] = none) : word t f s = .error := by
  have := word_app (t := t) f (s := []) (rest := s) (by simp) h
  simpa [hf] using this

theorem colorOf_nil {t : Term} (ht : t.Ok) : colorOf t [] = none := by
  rw [colorOf_ascii ht (by simp) (by decide) (by decide)]; rfl

theorem metadata_none {t : Term} {s : List Char} (h : ∀ c, s.head? = some c → t.alphabetic c = false) :
    parseMetadata t s = .error := word_none _ h rfl

theorem format_not_word {t : Term} (ht : t.Ok) {s : List Char}
    (h : ∀ c, s.head? = some c → t.alphabetic c = false) : parseFormat t s = parseWidth s := by
  rw [parseFormat, alt, parseColor, word_none _ h (by simp [colorOf_nil ht])]
  simp only
  rw [alt, parseStyle, word_none _ h rfl]

theorem digit_ascii {c : Char} (h : isDigit c = true) : c.toNat < 128 := okParam_ascii (Or.inl h)

theorem digit_not_alpha {c : Char} (h : isDigit c = true) : c.isAlpha = false := by
  simp only [isDigit, Bool.and_eq_true, decide_eq_true_eq] at h
  have h1 : c.toNat ≤ 57 := h.2
  have h2 : 48 ≤ c.toNat := h.1
  have e : c.val.toNat = c.toNat := rfl
  have e1 : 'A'.val.toNat = 65 := rfl
  have e2 : 'a'.val.toNat = 97 := rfl
  simp only [Char.isAlpha, Char.isUpper, Char.isLower, Bool.or_eq_false_iff, Bool.and_eq_false_iff,
    decide_eq_false_iff_not, ge_iff_le, UInt32.le_iff_toNat_le]
  constructor
  · intro hh
    have := hh.1
    omega
  · left
    omega

theorem digit_not_alphabetic {t : Term} (ht : t.Ok) {c : Char} (h : isDigit c = true) : t.alphabetic c = false := by
  rw [ht.alphabetic c (digit_ascii h)]; exact digit_not_alpha h

theorem optAlignment_text (a : Option Alignment) {ds : List Char} (hne : ds ≠ [])
    (hd : ∀ c ∈ ds, isDigit c = true) (rest : List Char) :
    optAlignment (alignmentText a ++ ds ++ rest) = (ds ++ rest, a) := by
  cases a with
  | none =>
    cases ds with
    | nil => exact absurd rfl hne
    | cons c ds =>
      have hc := hd c (by simp)
      have h1 : c ≠ '^' := by rintro rfl; revert hc; decide
      have h2 : c ≠ '<' := by rintro rfl; revert hc; decide
      have h3 : c ≠ '>' := by rintro rfl; revert hc; decide
      simp [alignmentText, optAlignment, h1, h2, h3]
  | some a => cases a <;> simp [alignmentText, optAlignment]

theorem width_head {t : Term} (ht : t.Ok) (a : Option Alignment) {ds : List Char} (hne : ds ≠ [])
    (hd : ∀ c ∈ ds, isDigit c = true) (rest : List Char) :
    ∀ c, (alignmentText a ++ ds ++ rest).head? = some c → t.alphabetic c = false := by
  intro c hc
  cases a with
  | none =>
    cases ds with
    | nil => exact absurd rfl hne
    | cons d ds =>
      simp [alignmentText] at hc
      subst hc
      exact digit_not_alphabetic ht (hd _ (by simp))
  | some a =>
    cases a <;>
    · simp [alignmentText] at hc
      subst hc
      rw [ht.alphabetic _ (by decide)]; decide

theorem parse_width_text {t : Term} (ht : t.Ok) (a : Option Alignment) {ds : List Char} (hne : ds ≠ [])
    (hd : ∀ c ∈ ds, isDigit c = true) {w : Nat} (hw : parseDigits (2 ^ 64) ds = some w) {rest : List Char}
    (hr : Stop rest) :
    parseMetadata t (alignmentText a ++ ds ++ rest) = .error ∧
    parseFormat t (alignmentText a ++ ds ++ rest)
      = .ok rest (.width w (if ds.head? = some '0' then .zero else .space) a) := by
  have hh := width_head ht a hne hd rest
  refine ⟨metadata_none hh, ?_⟩
  rw [format_not_word ht hh]
  simp only [parseWidth, optAlignment_text a hne hd]
  rw [takeWhile_app _ _ _ hd (stop_digit hr), dropWhile_app _ _ _ hd (stop_digit hr), if_neg hne, hw]

theorem numeral_head {ds : List Char} {n : Nat} (h : Display.Numeral Display.decimalDigits ds n) :
    ds ≠ [] ∧ (n ≠ 0 → ds.head? ≠ some '0') := by
  induction h with
  | @digit c d hd =>
    refine ⟨by simp, fun hn hc => ?_⟩
    simp only [List.head?_cons, Option.some.injEq] at hc
    subst hc
    have key : ∀ d < 10, Display.decimalDigits[d]? = some '0' → d = 0 := by decide
    have hlt : d < 10 := by
      have := List.getElem?_eq_some_iff.mp hd
      exact this.1
    exact hn (key d hlt hd)
  | @snoc cs n c d h hn0 hd ih =>
    refine ⟨by simp, fun _ => ?_⟩
    cases cs with
    | nil => exact absurd rfl ih.1
    | cons x xs => simpa using ih.2 hn0

theorem toDigits_head {w : Nat} (h : 0 < w) : (Nat.toDigits 10 w).head? ≠ some '0' :=
  (numeral_head (Display.numeral_decimal w)).2 (by omega)

theorem parseDigits_zero {w : Nat} (h : w < 2 ^ 64) :
    parseDigits (2 ^ 64) ('0' :: Nat.toDigits 10 w) = some w := by
  have := parseDigits_decimal (n := w) (m := 2 ^ 64) h
  simp only [parseDigits, decimal_ne, if_false] at this
  simp only [parseDigits]
  have he : digitsValue ('0' :: Nat.toDigits 10 w) = digitsValue (decimal w) := by
    simp [digitsValue, decimal]
  rw [he]
  simpa using this

theorem color_names_words : ∀ x ∈ colorNames, ' ' ∉ x.1 →
    x.1.all (fun c => decide (c.toNat < 128) && c.isAlpha) = true ∧ metadataOf x.1 = none ∧
    x.1 ≠ c!"severity" ∧ x.1 ≠ c!"werror" ∧ colorNames.lookup (x.1.map Char.toLower) = some x.2 := by
  decide

theorem parse_param {t : Term} (ht : t.Ok) {s : List Char} {p : Param} (h : ParamText s p) {rest : List Char}
    (hr : Stop rest) :
    parseMetadata t (s ++ rest) = .error ∧ parseFormat t (s ++ rest) = .ok rest (itemOf p) := by
  cases h with
  | severity => exact parse_color_word ht (by decide) (by decide) (by simp [colorOf]) hr
  | werror => exact parse_color_word ht (by decide) (by decide) (by simp [colorOf]) hr
  | @color name c hmem hsp =>
    obtain ⟨h1, h2, h3, h4, h5⟩ := color_names_words _ hmem hsp
    refine parse_color_word ht h1 h2 ?_ hr
    rw [colorOf_ascii ht (letters_ascii h1) h3 h4, h5]; rfl
  | bold =>
    exact parse_style_word ht (by decide) (by decide)
      (by rw [colorOf_ascii ht (by decide) (by decide) (by decide)]; decide) (by decide) hr
  | italic =>
    exact parse_style_word ht (by decide) (by decide)
      (by rw [colorOf_ascii ht (by decide) (by decide) (by decide)]; decide) (by decide) hr
  | underline =>
    exact parse_style_word ht (by decide) (by decide)
      (by rw [colorOf_ascii ht (by decide) (by decide) (by decide)]; decide) (by decide) hr
  | strike =>
    exact parse_style_word ht (by decide) (by decide)
      (by rw [colorOf_ascii ht (by decide) (by decide) (by decide)]; decide) (by decide) hr
  | dimmed =>
    exact parse_style_word ht (by decide) (by decide)
      (by rw [colorOf_ascii ht (by decide) (by decide) (by decide)]; decide) (by decide) hr
  | width a w h0 hw =>
    have := parse_width_text ht a (decimal_ne w) (decimal_digits w) (parseDigits_decimal hw) hr
    have hh : ¬ (decimal w).head? = some '0' := toDigits_head h0
    rw [if_neg hh] at this
    exact this
  | zeroWidth a w hw =>
    have := parse_width_text ht a (ds := '0' :: Nat.toDigits 10 w) (by simp) ?_ (parseDigits_zero hw) hr
    · exact this
    · intro c hc
      simp only [List.mem_cons] at hc
      rcases hc with hc | hc
      · subst hc; decide
      · exact decimal_digits w c hc

theorem stop_params {sep : Char} (hsep : sep = ':' ∨ sep = '%') {s : List Char} {ps : List Param}
    (h : ParamsText sep s ps) : Stop s := by
  cases h with
  | nil => intro c hc; cases hc
  | cons _ _ =>
    intro c hc
    simp at hc
    subst hc; exact hsep

/-- the parameters of a specifier -/
theorem separated_params {t : Term} (ht : t.Ok) {p : List Char → PResult Item} {s : List Char} {ps : List Param}
    (h : ParamsText ':' s ps)
    (hp : ∀ i rest a, parseMetadata t i = .error → parseFormat t i = .ok rest a → p i = .ok rest a) :
    ∀ fuel acc, s.length < fuel → separatedLoop ':' p fuel s acc = .ok [] (acc ++ ps.map itemOf) := by
  induction h with
  | nil =>
    intro fuel acc hf
    cases fuel with
    | zero => omega
    | succ fuel => simp [separatedLoop]
  | @cons s q ss qs hq hs ih =>
    intro fuel acc hf
    cases fuel with
    | zero => omega
    | succ fuel =>
      obtain ⟨h1, h2⟩ := parse_param ht hq (stop_params (Or.inl rfl) hs)
      simp only [List.cons_append, separatedLoop]
      rw [if_neg (by simp), hp _ _ _ h1 h2]
      simp only
      rw [ih fuel _ (by simp at hf; omega)]
      simp

/-- the parameters of a group -/
theorem many0_params {t : Term} (ht : t.Ok) {p : List Char → PResult Item} {s : List Char} {ps : List Param}
    (h : ParamsText '%' s ps) (hnil : p [] = .error)
    (hp : ∀ i, p ('%' :: i) = parsePercent t ('%' :: i)) :
    ∀ fuel acc, s.length < fuel → many0Loop p fuel s acc = .ok [] (acc ++ ps.map itemOf) := by
  induction h with
  | nil =>
    intro fuel acc hf
    cases fuel with
    | zero => omega
    | succ fuel => simp [many0Loop, hnil]
  | @cons s q ss qs hq hs ih =>
    intro fuel acc hf
    cases fuel with
    | zero => omega
    | succ fuel =>
      obtain ⟨h1, h2⟩ := parse_param ht hq (stop_params (Or.inr rfl) hs)
      simp only [List.cons_append, many0Loop]
      rw [hp]
      simp only [parsePercent, parseFormatOrFail, h2]
      rw [if_neg (by simp; omega), ih fuel _ (by simp at hf; omega)]
      simp

/-! ## Building segments -/

theorem addAll_append (b : Builder) (xs ys : List Item) :
    b.addAll (xs ++ ys) = (b.addAll xs).bind fun b => b.addAll ys := by
  induction xs generalizing b with
  | nil => rfl
  | cons x xs ih =>
    simp only [List.cons_append, Builder.addAll]
    cases b.add x with
    | none => rfl
    | some b' => exact ih b'

/-- the variables after parameters -/
def withParams (b : Builder) (ps : List Param) : Builder where
  metadata := b.metadata
  nested := b.nested
  color := (b.color.toList ++ ps.filterMap Param.color?).head?
  style := if b.style.getD [] ++ ps.filterMap Param.style? = [] then b.style
    else some (b.style.getD [] ++ ps.filterMap Param.style?)
  width := (b.width.toList ++ ps.filterMap Param.width?).head?

theorem Param.colors_cons_color (c : LogColor) (ps : List Param) :
    (Param.color c :: ps).filterMap Param.color? = c :: ps.filterMap Param.color? := rfl
theorem Param.styles_cons_color (c : LogColor) (ps : List Param) :
    (Param.color c :: ps).filterMap Param.style? = ps.filterMap Param.style? := rfl
theorem Param.widths_cons_color (c : LogColor) (ps : List Param) :
    (Param.color c :: ps).filterMap Param.width? = ps.filterMap Param.width? := rfl
theorem Param.colors_cons_style (c : Style) (ps : List Param) :
    (Param.style c :: ps).filterMap Param.color? = ps.filterMap Param.color? := rfl
theorem Param.styles_cons_style (c : Style) (ps : List Param) :
    (Param.style c :: ps).filterMap Param.style? = c :: ps.filterMap Param.style? := rfl
theorem Param.widths_cons_style (c : Style) (ps : List Param) :
    (Param.style c :: ps).filterMap Param.width? = ps.filterMap Param.width? := rfl
theorem Param.colors_cons_width (w : Nat) (p : Padding) (a : Option Alignment) (ps : List Param) :
    (Param.width w p a :: ps).filterMap Param.color? = ps.filterMap Param.color? := rfl
theorem Param.styles_cons_width (w : Nat) (p : Padding) (a : Option Alignment) (ps : List Param) :
    (Param.width w p a :: ps).filterMap Param.style? = ps.filterMap Param.style? := rfl
theorem Param.widths_cons_width (w : Nat) (p : Padding) (a : Option Alignment) (ps : List Param) :
    (Param.width w p a :: ps).filterMap Param.width? = (w, p, a) :: ps.filterMap Param.width? := rfl

theorem addAll_params (ps : List Param) : ∀ b : Builder,
    (b.color.toList ++ ps.filterMap Param.color?).length ≤ 1 →
    (b.width.toList ++ ps.filterMap Param.width?).length ≤ 1 →
    (b.style.getD [] ++ ps.filterMap Param.style?).Nodup →
    b.addAll (ps.map itemOf) = some (withParams b ps) := by
  induction ps with
  | nil =>
    intro b _ _ _
    simp only [List.map_nil, Builder.addAll, withParams, List.filterMap_nil, List.append_nil]
    obtain ⟨m, c, s, w, n⟩ := b
    simp only [Option.some.injEq, Builder.mk.injEq, true_and, and_true]
    refine ⟨?_, ?_, ?_⟩
    · cases c <;> rfl
    · cases s with
      | none => rfl
      | some s => by_cases h : s = [] <;> simp [h]
    · cases w <;> rfl
  | cons p ps ih =>
    intro b h1 h2 h3
    cases p with
    | color c =>
      rw [Param.colors_cons_color] at h1
      rw [Param.widths_cons_color] at h2
      rw [Param.styles_cons_color] at h3
      have hc : b.color = none := by
        cases hb : b.color with
        | none => rfl
        | some x => simp [hb] at h1
      simp only [List.map_cons, itemOf, Builder.addAll, Builder.add, hc, Option.isNone_none, if_true]
      rw [ih]
      · simp only [withParams, hc, Param.colors_cons_color, Param.widths_cons_color, Param.styles_cons_color]
        rfl
      · simpa [hc] using h1
      · exact h2
      · exact h3
    | width w p a =>
      rw [Param.colors_cons_width] at h1
      rw [Param.widths_cons_width] at h2
      rw [Param.styles_cons_width] at h3
      have hc : b.width = none := by
        cases hb : b.width with
        | none => rfl
        | some x => simp [hb] at h2
      simp only [List.map_cons, itemOf, Builder.addAll, Builder.add, hc, Option.isNone_none, if_true]
      rw [ih]
      · simp only [withParams, hc, Param.colors_cons_width, Param.widths_cons_width, Param.styles_cons_width]
        rfl
      · exact h1
      · simpa [hc] using h2
      · exact h3
    | style s =>
      rw [Param.colors_cons_style] at h1
      rw [Param.widths_cons_style] at h2
      rw [Param.styles_cons_style] at h3
      have hs : (b.style.getD []).contains s = false := by
        rw [List.nodup_append] at h3
        have := h3.2.2
        rw [List.contains_eq_mem, decide_eq_false_iff_not]
        intro hm
        exact this s hm s (by simp) rfl
      simp only [List.map_cons, itemOf, Builder.addAll, Builder.add, hs, Bool.false_eq_true, if_false]
      rw [ih]
      · simp [withParams, Param.colors_cons_style, Param.widths_cons_style, Param.styles_cons_style]
      · exact h1
      · exact h2
      · simpa using h3

theorem withParams_format (b : Builder) (hc : b.color = none) (hs : b.style = none) (hw : b.width = none)
    (ps : List Param) : (withParams b ps).format = formatOf ps := by
  simp only [Builder.format, withParams, formatOf, hc, hs, hw]
  simp only [Option.toList_none, List.nil_append, Option.getD_none, Format.mk.injEq, true_and]
  cases (ps.filterMap Param.width?).head? <;> exact ⟨rfl, trivial⟩

theorem buildField1_params {m : Metadata} {ps : List Param} (h : ParamsAllowed ps) :
    buildField1 (.metadata m :: ps.map itemOf) = some (.field m (formatOf ps)) := by
  have := addAll_params ps { metadata := some m } (by simpa using h.1) (by simpa using h.2.1) (by simpa using h.2.2)
  simp only [buildField1, Builder.addAll, Builder.add, Option.isNone_none, if_true, this]
  simp only [withParams]
  have hf := withParams_format { metadata := some m } rfl rfl rfl ps
  simp only [withParams] at hf
  rw [hf]

theorem addAll_nested (segs : List Segment) : ∀ b : Builder, segs ≠ [] →
    b.addAll (segs.map Item.nested) = some { b with nested := some (b.nested.getD [] ++ segs) } := by
  induction segs with
  | nil => intro b h; exact absurd rfl h
  | cons s segs ih =>
    intro b _
    simp only [List.map_cons, Builder.addAll, Builder.add]
    cases segs with
    | nil => rfl
    | cons s' segs =>
      rw [ih _ (by simp)]
      simp

theorem buildGroup_params {segs : List Segment} {ps : List Param} (h : ParamsAllowed ps)
    (hf : ∃ m f, Segment.field m f ∈ segs) :
    buildGroup (segs.map Item.nested ++ ps.map itemOf) = some (.nested segs (formatOf ps)) := by
  obtain ⟨m, f, hm⟩ := hf
  have hne : segs ≠ [] := by rintro rfl; cases hm
  have hn := addAll_nested segs {} hne
  have := addAll_params ps { nested := some segs } (by simpa using h.1) (by simpa using h.2.1) (by simpa using h.2.2)
  simp only [buildGroup, addAll_append, hn, Option.bind_some, Option.getD_none, List.nil_append]
  simp only [this]
  have hfm := withParams_format { nested := some segs } rfl rfl rfl ps
  have hnest : (withParams { nested := some segs } ps).nested = some segs := rfl
  simp only [hnest]
  rw [if_pos, hfm]
  rw [List.any_eq_true]
  exact ⟨_, hm, rfl⟩

theorem buildField1_nested (s : Segment) : buildField1 [.nested s] = some s := by
  simp [buildField1, Builder.addAll, Builder.add]

/-! ## Metadata -/

theorem metadata_words {name : List Char} {m : Metadata} (h : MetadataText name m) :
    name.all (fun c => decide (c.toNat < 128) && c.isAlpha) = true ∧ metadataOf name = some m := by
  cases h with
  | fileName n h0 h =>
    constructor
    · rw [List.all_eq_true]
      intro c hc
      rw [(List.mem_replicate.mp hc).2]; decide
    · have hne : List.replicate n 'f' ≠ [] := by
        intro h'
        have := congrArg List.length h'
        simp at this; omega
      have key : ∀ c : Char, c ≠ 'f' → List.replicate n 'f' ≠ [c] := by
        intro c hc he
        have hmem : c ∈ List.replicate n 'f' := by rw [he]; simp
        exact hc (List.mem_replicate.mp hmem).2
      simp only [metadataOf]
      rw [if_neg (key _ (by decide)), if_neg (key _ (by decide)), if_neg (key _ (by decide)),
        if_neg (key _ (by decide)), if_neg (key _ (by decide)), if_neg (key _ (by decide)),
        if_neg (key _ (by decide)), if_pos ⟨hne, by simp⟩]
      simp only [List.length_replicate]
      rw [Nat.mod_eq_of_lt h]
  | _ => exact ⟨by decide, by decide⟩

theorem parse_metadata_word {t : Term} (ht : t.Ok) {name : List Char} {m : Metadata} (h : MetadataText name m)
    {rest : List Char} (hr : Stop rest) : parseMetadata t (name ++ rest) = .ok rest (.metadata m) := by
  obtain ⟨h1, h2⟩ := metadata_words h
  rw [parseMetadata, word_app _ (letters_alphabetic ht h1) (stop_alphabetic ht hr)]
  simp [h2]

theorem alt_first {α : Type} {p q : List Char → PResult α} {i rest : List Char} {a : α}
    (h : p i = .ok rest a) : alt p q i = .ok rest a := by simp [alt, h]

theorem alt_second {α : Type} {p q : List Char → PResult α} {i : List Char}
    (h : p i = .error) : alt p q i = q i := by simp [alt, h]

/-- a list of a metadata specifier and its parameters -/
theorem separated_field {t : Term} (ht : t.Ok) {p : List Char → PResult Item} {name : List Char} {m : Metadata}
    {s : List Char} {ps : List Param} (hn : MetadataText name m) (h : ParamsText ':' s ps)
    (hm : ∀ i rest a, parseMetadata t i = .ok rest a → p i = .ok rest a)
    (hp : ∀ i rest a, parseMetadata t i = .error → parseFormat t i = .ok rest a → p i = .ok rest a) :
    separatedList1 ':' p (name ++ s) = .ok [] (.metadata m :: ps.map itemOf) := by
  have h1 := parse_metadata_word ht hn (stop_params (Or.inl rfl) h)
  simp only [separatedList1, hm _ _ _ h1]
  rw [separated_params ht h hp _ _ (by omega)]
  rfl

theorem logSegment_field {t : Term} (ht : t.Ok) (arg : Bool → List Char → PResult Segment) (nest : Bool)
    {name : List Char} {m : Metadata}
    {s : List Char} {ps : List Param} (hn : MetadataText name m) (h : ParamsText ':' s ps) (ha : ParamsAllowed ps) :
    parseLogSegment t arg nest (name ++ s) = .ok [] (.field m (formatOf ps)) := by
  cases nest with
  | false =>
    simp only [parseLogSegment]
    rw [separated_field ht hn h (fun i rest a h => alt_first h)
      (fun i rest a h1 h2 => by rw [alt_second h1]; exact alt_first h2)]
    simp [buildField1_params ha]
  | true =>
    have hin : parseNestedLogSegment t (name ++ s) = .ok [] (.nested (.field m (formatOf ps))) := by
      simp only [parseNestedLogSegment]
      rw [separated_field ht hn h (fun i rest a h => alt_first h)
        (fun i rest a h1 h2 => by rw [alt_second h1]; exact h2)]
      simp [buildField1_params ha]
    simp only [parseLogSegment, if_true, separatedList1, alt_first hin]
    simp [separatedLoop, buildField1_nested]

/-! ## Groups -/

theorem written_head {t : Term} {s : List Char} {seg : Segment} (h : Written t s seg) : ∃ r, s = '{' :: r := by
  cases h with
  | field _ _ _ => exact ⟨_, rfl⟩
  | group _ _ _ _ _ => exact ⟨_, rfl⟩

theorem written_ne_nil {t : Term} {s : List Char} {seg : Segment} (h : Written t s seg) : 0 < s.length := by
  obtain ⟨r, hr⟩ := written_head h
  rw [hr]; simp

theorem brace_not_alphabetic {t : Term} (ht : t.Ok) : t.alphabetic '{' = false := by
  rw [ht.alphabetic _ (by decide)]; decide

/-- what may follow a text -/
def AfterText (rest : List Char) : Prop := ∀ c, rest.head? = some c → c = '{' ∨ c = '%'

theorem parseString_text {g : Bool} {s rest : List Char} (h : PlainText g s) (hr : AfterText rest) :
    parseString (s ++ rest) = .ok rest (.text s) := by
  have hs : ∀ c ∈ s, decide (c ≠ '{' ∧ c ≠ '%') = true := by
    intro c hc
    have := h.2 c hc
    simp [this.1, this.2.2.1]
  have hr' : ∀ c, rest.head? = some c → decide (c ≠ '{' ∧ c ≠ '%') = false := by
    intro c hc
    rcases hr c hc with h | h <;> subst h <;> decide
  simp only [parseString]
  rw [takeWhile_app _ _ _ hs hr', dropWhile_app _ _ _ hs hr', if_neg h.1]

theorem argument_not_brace (t : Term) (fuel : Nat) (nest : Bool) {i : List Char} (hi : i.head? ≠ some '{') :
    parseArgument t (fuel + 1) nest i = .error := by
  cases i with
  | nil => simp [parseArgument]
  | cons c r =>
    have : c ≠ '{' := by intro h; subst h; simp at hi
    simp [parseArgument, this]

theorem plainText_head {g : Bool} {s : List Char} (h : PlainText g s) (rest : List Char) :
    (s ++ rest).head? ≠ some '{' := by
  cases s with
  | nil => exact absurd rfl h.1
  | cons c s =>
    intro hc
    simp at hc
    exact (h.2 c (by simp)).1 hc

/-- a parser for the parts of a format or a group -/
structure PartParser (t : Term) (fuel : Nat) (nest : Bool) (g : Bool) {α : Type} (p : List Char → PResult α)
    (w : Segment → α) : Prop where
  segment : ∀ i rest seg, parseArgument t fuel nest i = .ok rest seg → p i = .ok rest (w seg)
  text : ∀ s rest, PlainText g s → AfterText rest → p (s ++ rest) = .ok rest (w (.text s))

/-- the parts of a format are parsed one after the other -/
def PartsParsed (t : Term) (g : Bool) (txt : List Char) (segs : List Segment) : Prop :=
  ∀ (α : Type) (fuel : Nat) (nest : Bool) (p : List Char → PResult α) (w : Segment → α),
    PartParser t fuel nest g p w → txt.length ≤ fuel → ∀ tail, AfterText tail →
    ∀ mfuel acc, (txt ++ tail).length < mfuel →
    ∃ mfuel', tail.length < mfuel' ∧
      many0Loop p mfuel (txt ++ tail) acc = many0Loop p mfuel' tail (acc ++ segs.map w)

/-- a specifier or a group is parsed -/
def SegmentParsed (t : Term) (s : List Char) (seg : Segment) : Prop :=
  Balanced s ∧ ∀ fuel nest rest, s.length ≤ fuel → parseArgument t fuel nest (s ++ rest) = .ok rest seg

theorem many0_step {α : Type} {p : List Char → PResult α} {s rest : List Char} {a : α}
    (hs : 0 < s.length) (h : p (s ++ rest) = .ok rest a) (mfuel : Nat) (acc : List α) :
    many0Loop p (mfuel + 1) (s ++ rest) acc = many0Loop p mfuel rest (acc ++ [a]) := by
  simp only [many0Loop, h]
  rw [if_neg (by rw [List.length_append]; omega)]

theorem partsParsed_nil (t : Term) (g : Bool) : PartsParsed t g [] [] := by
  intro α fuel nest p w _ _ tail _ mfuel acc hm
  exact ⟨mfuel, hm, by simp⟩

theorem partsParsed_segment {t : Term} {g : Bool} {s rest : List Char} {seg : Segment} {segs : List Segment}
    (hs : 0 < s.length) (h1 : SegmentParsed t s seg) (h2 : PartsParsed t g rest segs) :
    PartsParsed t g (s ++ rest) (seg :: segs) := by
  intro α fuel nest p w hp hf tail htail mfuel acc hm
  rw [List.append_assoc] at hm ⊢
  simp only [List.length_append] at hf hm
  cases mfuel with
  | zero => omega
  | succ mfuel =>
    rw [many0_step hs (hp.segment _ _ _ (h1.2 fuel nest (rest ++ tail) (by omega)))]
    obtain ⟨mf, h3, h4⟩ := h2 α fuel nest p w hp (by omega) tail htail mfuel (acc ++ [w seg])
      (by rw [List.length_append]; omega)
    exact ⟨mf, h3, by rw [h4]; simp⟩

theorem partsParsed_text {t : Term} {g : Bool} {s rest : List Char} {segs : List Segment}
    (hs : PlainText g s) (hrest : ∀ tail, AfterText tail → AfterText (rest ++ tail)) (h2 : PartsParsed t g rest segs) :
    PartsParsed t g (s ++ rest) (.text s :: segs) := by
  intro α fuel nest p w hp hf tail htail mfuel acc hm
  rw [List.append_assoc] at hm ⊢
  simp only [List.length_append] at hf hm
  have hlen : 0 < s.length := List.length_pos_iff.mpr hs.1
  cases mfuel with
  | zero => omega
  | succ mfuel =>
    rw [many0_step hlen (hp.text s (rest ++ tail) hs (hrest tail htail))]
    obtain ⟨mf, h3, h4⟩ := h2 α fuel nest p w hp (by omega) tail htail mfuel (acc ++ [w (.text s)])
      (by rw [List.length_append]; omega)
    exact ⟨mf, h3, by rw [h4]; simp⟩

theorem afterText_params {s : List Char} {ps : List Param} (h : ParamsText '%' s ps) : AfterText s := by
  cases h with
  | nil => intro c hc; cases hc
  | cons _ _ => intro c hc; simp at hc; exact Or.inr hc.symm

/-- the parser of the parts of a group -/
theorem groupParser (t : Term) (fuel : Nat) (nest : Bool) :
    PartParser t (fuel + 1) nest true
      (alt (mapNested (parseArgument t (fuel + 1) nest)) (alt (mapNested parseString) (parsePercent t)))
      Item.nested where
  segment := by
    intro i rest seg h
    apply alt_first
    simp [mapNested, h]
  text := by
    intro s rest hs hr
    rw [alt_second]
    · apply alt_first
      simp [mapNested, parseString_text hs hr]
    · simp [mapNested, argument_not_brace t fuel nest (plainText_head hs rest)]

theorem nested_group {t : Term} (ht : t.Ok) {fuel : Nat} {nest : Bool} {body params : List Char}
    {segs : List Segment} {ps : List Param} (hb : PartsParsed t true body segs)
    (hf : ∃ m f, Segment.field m f ∈ segs) (hp : ParamsText '%' params ps) (ha : ParamsAllowed ps)
    (hlen : body.length ≤ fuel + 1) :
    parseNested t (parseArgument t (fuel + 1) nest) (body ++ params) = .ok [] (.nested (.nested segs (formatOf ps))) := by
  obtain ⟨mf, h1, h2⟩ := hb Item (fuel + 1) nest _ _ (groupParser t fuel nest) hlen params (afterText_params hp)
    ((body ++ params).length + 1) [] (by omega)
  have h3 := many0_params ht hp
    (p := alt (mapNested (parseArgument t (fuel + 1) nest)) (alt (mapNested parseString) (parsePercent t)))
    (by
      rw [alt_second (by rw [mapNested, argument_not_brace t fuel nest (by simp)])]
      rw [alt_second (by simp [mapNested, parseString])]
      rfl)
    (by
      intro i
      rw [alt_second (by rw [mapNested, argument_not_brace t fuel nest (by simp)])]
      rw [alt_second (by simp [mapNested, parseString])])
    mf (segs.map Item.nested) h1
  simp only [parseNested, many0]
  rw [h2, List.nil_append, h3]
  simp [buildGroup_params ha hf]

theorem noKeyword_metadata {t : Term} {w : List Char} (h : NoKeyword t w) : metadataOf w = none := by
  obtain ⟨h1, h2, _⟩ := h
  simp only [List.mem_cons, List.not_mem_nil, or_false, not_or] at h1
  obtain ⟨a1, a2, a3, a4, a5, a6, a7⟩ := h1
  simp only [metadataOf, if_neg a1, if_neg a2, if_neg a3, if_neg a4, if_neg a5, if_neg a6, if_neg a7]
  rw [if_neg]
  rintro ⟨hne, hr⟩
  rcases h2 with h2 | ⟨c, hc, hcf⟩
  · exact hne h2
  · rw [hr] at hc
    exact hcf (List.mem_replicate.mp hc).2

theorem noKeyword_color {t : Term} {w : List Char} (h : NoKeyword t w) : colorOf t w = none := by
  obtain ⟨_, _, h1, h2, h3, _⟩ := h
  simp [colorOf, if_neg h1, if_neg h2, h3]

theorem noKeyword_style {t : Term} {w : List Char} (h : NoKeyword t w) : styleFromStr w = none := by
  obtain ⟨_, _, _, _, _, h1⟩ := h
  simp only [List.mem_cons, List.not_mem_nil, or_false, not_or] at h1
  obtain ⟨a1, a2, a3, a4, a5⟩ := h1
  simp only [styleFromStr, if_neg a1, if_neg a2, if_neg a3, if_neg a4, if_neg a5]

theorem takeWhile_none {p : Char → Bool} {s : List Char} (h : ∀ c, s.head? = some c → p c = false) :
    s.takeWhile p = [] := by
  cases s with
  | nil => rfl
  | cons c s => simp [h c rfl]

theorem parseWidth_error {s : List Char}
    (h : ∀ a d rest, s = alignmentText a ++ d :: rest → isDigit d = false) : parseWidth s = .error := by
  have key : ((optAlignment s).1.takeWhile isDigit) = [] := by
    apply takeWhile_none
    intro c hc
    cases s with
    | nil => cases hc
    | cons x s =>
      simp only [optAlignment] at hc
      have hcons : ∀ {l : List Char}, l.head? = some c → ∃ r, l = c :: r := by
        intro l hl
        cases l with
        | nil => cases hl
        | cons y l => simp at hl; exact ⟨l, by rw [hl]⟩
      split at hc
      · rename_i hx
        obtain ⟨r, hr⟩ := hcons hc
        exact h (some .center) c r (by simp only at hr; rw [hx, hr]; rfl)
      · split at hc
        · rename_i hx
          obtain ⟨r, hr⟩ := hcons hc
          exact h (some .left) c r (by simp only at hr; rw [hx, hr]; rfl)
        · split at hc
          · rename_i hx
            obtain ⟨r, hr⟩ := hcons hc
            exact h (some .right) c r (by simp only at hr; rw [hx, hr]; rfl)
          · obtain ⟨r, hr⟩ := hcons hc
            exact h none c r (by simpa [alignmentText] using hr)
  simp only [parseWidth, key, if_true]

/-- the start of a group is not a specifier or a parameter -/
theorem group_start_tail {t : Term} (ht : t.Ok) {body params : List Char} (hstart : StartsGroup t body)
    (hp : AfterText params) :
    parseMetadata t (body ++ params) = .error ∧ parseFormat t (body ++ params) = .error := by
  have hsplit : body = body.takeWhile t.alphabetic ++ body.dropWhile t.alphabetic :=
    (List.takeWhile_append_dropWhile).symm
  have hw : ∀ c ∈ body.takeWhile t.alphabetic, t.alphabetic c = true := 
    List.all_eq_true.mp List.all_takeWhile
  have hd : ∀ c, (body.dropWhile t.alphabetic).head? = some c → t.alphabetic c = false := by
    intro c hc
    have := List.head?_dropWhile_not t.alphabetic body
    rw [hc] at this
    simpa using this
  have hno := hstart.1 _ _ hsplit hw hd
  have hd' : ∀ c, (body.dropWhile t.alphabetic ++ params).head? = some c → t.alphabetic c = false := by
    intro c hc
    cases hdw : body.dropWhile t.alphabetic with
    | nil =>
      rw [hdw, List.nil_append] at hc
      rcases hp c hc with h | h <;> subst h <;> (rw [ht.alphabetic _ (by decide)]; decide)
    | cons x r =>
      rw [hdw] at hc hd
      exact hd c (by simpa using hc)
  have e : body ++ params = body.takeWhile t.alphabetic ++ (body.dropWhile t.alphabetic ++ params) := by
    rw [← List.append_assoc, ← hsplit]
  have hwidth : parseWidth (body ++ params) = .error := by
    apply parseWidth_error
    intro a d rest he
    have hper : ∀ c, params.head? = some c → c = '{' ∨ c = '%' := hp
    have hcase : ∀ (x : List Char), x ++ params = d :: rest → (x = [] ∧ (d = '{' ∨ d = '%')) ∨ ∃ r, x = d :: r := by
      intro x hx
      cases x with
      | nil => left; exact ⟨rfl, hper d (by simp at hx; rw [hx]; rfl)⟩
      | cons y x => right; simp at hx; exact ⟨x, by rw [hx.1]⟩
    have hpercent : ∀ d, d = '{' ∨ d = '%' → isDigit d = false := by
      intro d hd; rcases hd with h | h <;> subst h <;> decide
    cases a with
    | none =>
      rcases hcase body (by simpa [alignmentText] using he) with ⟨_, h⟩ | ⟨r, h⟩
      · exact hpercent d h
      · exact hstart.2 none d r (by simpa [alignmentText] using h)
    | some a =>
      have hc : ∃ x, alignmentText (some a) = [x] ∧ ¬ (x = '{' ∨ x = '%') := by cases a <;> exact ⟨_, rfl, by decide⟩
      obtain ⟨x, hx, hx'⟩ := hc
      rw [hx] at he
      cases body with
      | nil =>
        exfalso
        simp only [List.nil_append] at he
        exact hx' (hper x (by rw [he]; rfl))
      | cons y b =>
        simp only [List.cons_append, List.nil_append, List.cons.injEq] at he
        rcases hcase b he.2 with ⟨_, h⟩ | ⟨r, h⟩
        · exact hpercent d h
        · exact hstart.2 (some a) d r (by rw [hx, he.1, h]; rfl)
  constructor
  · rw [e, parseMetadata, word_app _ hw hd']
    simp [noKeyword_metadata hno]
  · rw [parseFormat, alt_second, alt_second, hwidth]
    · rw [e, parseStyle, word_app _ hw hd']
      simp [noKeyword_style hno]
    · rw [e, parseColor, word_app _ hw hd']
      simp [noKeyword_color hno]

theorem group_start {t : Term} (ht : t.Ok) {body params : List Char} {ps : List Param} (hstart : StartsGroup t body)
    (hp : ParamsText '%' params ps) :
    parseMetadata t (body ++ params) = .error ∧ parseFormat t (body ++ params) = .error :=
  group_start_tail ht hstart (afterText_params hp)

theorem logSegment_group {t : Term} (ht : t.Ok) {fuel : Nat} (nest : Bool) {body params : List Char}
    {segs : List Segment} {ps : List Param} (hb : PartsParsed t true body segs)
    (hstart : StartsGroup t body)
    (hf : ∃ m f, Segment.field m f ∈ segs) (hp : ParamsText '%' params ps) (ha : ParamsAllowed ps)
    (hlen : body.length ≤ fuel + 1) :
    parseLogSegment t (parseArgument t (fuel + 1)) nest (body ++ params) = .ok [] (.nested segs (formatOf ps)) := by
  obtain ⟨hm, hfmt⟩ := group_start ht hstart hp
  cases nest with
  | false =>
    simp only [parseLogSegment, separatedList1]
    rw [if_neg (by simp), alt_second hm, alt_second hfmt, nested_group ht hb hf hp ha hlen]
    simp [separatedLoop, buildField1_nested]
  | true =>
    have hn : parseNestedLogSegment t (body ++ params) = .error := by
      simp only [parseNestedLogSegment, separatedList1]
      rw [alt_second hm, hfmt]
    simp only [parseLogSegment, separatedList1]
    rw [if_pos trivial, alt_second hn, alt_second hfmt, nested_group ht hb hf hp ha hlen]
    simp [separatedLoop, buildField1_nested]

/-! ## Texts are balanced -/

theorem paramText_plain {s : List Char} {p : Param} (h : ParamText s p) :
    ∀ c ∈ s, c ≠ '{' ∧ c ≠ '}' ∧ c ≠ '\\' := by
  have digit : ∀ c, isDigit c = true → c ≠ '{' ∧ c ≠ '}' ∧ c ≠ '\\' := by
    intro c hc
    refine ⟨?_, ?_, ?_⟩ <;> rintro rfl <;> revert hc <;> decide
  have align : ∀ (a : Option Alignment), ∀ c ∈ alignmentText a, c ≠ '{' ∧ c ≠ '}' ∧ c ≠ '\\' := by
    intro a
    cases a with
    | none => intro c hc; cases hc
    | some a => cases a <;> decide
  cases h with
  | color hmem hsp =>
    have key : ∀ x ∈ colorNames, ∀ c ∈ x.1, c ≠ '{' ∧ c ≠ '}' ∧ c ≠ '\\' := by decide
    exact key _ hmem
  | width a w _ _ =>
    intro c hc
    simp only [List.mem_append] at hc
    rcases hc with hc | hc
    · exact align a c hc
    · exact digit c (decimal_digits w c hc)
  | zeroWidth a w _ =>
    intro c hc
    simp only [List.mem_append, List.mem_cons] at hc
    rcases hc with hc | hc | hc
    · exact align a c hc
    · subst hc; decide
    · exact digit c (decimal_digits w c hc)
  | _ => decide

theorem paramsText_plain {sep : Char} (hsep : sep = ':' ∨ sep = '%') {s : List Char} {ps : List Param}
    (h : ParamsText sep s ps) : ∀ c ∈ s, c ≠ '{' ∧ c ≠ '}' ∧ c ≠ '\\' := by
  induction h with
  | nil => intro c hc; cases hc
  | cons hp _ ih =>
    intro c hc
    simp only [List.cons_append, List.mem_cons, List.mem_append] at hc
    rcases hc with hc | hc | hc
    · subst hc; rcases hsep with h | h <;> subst h <;> decide
    · exact paramText_plain hp c hc
    · exact ih c hc

theorem metadataText_plain {name : List Char} {m : Metadata} (h : MetadataText name m) :
    ∀ c ∈ name, c ≠ '{' ∧ c ≠ '}' ∧ c ≠ '\\' := by
  cases h with
  | fileName n _ _ =>
    intro c hc
    rw [(List.mem_replicate.mp hc).2]; decide
  | _ => decide

/-- brackets match in the parts of a group; at the top there may be backslashes -/
def PartsBalanced (g : Bool) (s : List Char) : Prop := g = true → Balanced s

theorem plainText_balanced {g : Bool} {s : List Char} (h : PlainText g s) : PartsBalanced g s := by
  intro hg
  apply balanced_plain
  intro c hc
  have := h.2 c hc
  exact ⟨this.1, this.2.1, this.2.2.2 hg⟩

mutual

theorem written_parsed {t : Term} (ht : t.Ok) : ∀ {s seg}, Written t s seg → SegmentParsed t s seg
  | _, _, .field (name := name) (params := params) hn hp ha => by
    have hb : Balanced (name ++ params) :=
      (balanced_plain (metadataText_plain hn)).append (balanced_plain (paramsText_plain (Or.inl rfl) hp))
    refine ⟨?_, ?_⟩
    · have := balanced_bracket hb
      simpa using this
    · intro fuel nest rest hf
      cases fuel with
      | zero => simp at hf
      | succ fuel =>
        have := argument_of_content (t := t) (fuel := fuel) (nest := nest) hb
          ⟨[], logSegment_field ht (parseArgument t fuel) nest hn hp ha⟩ rest
        simpa using this
  | _, _, .group (body := body) (params := params) hall hstart hf hp ha => by
    obtain ⟨hbal, hparts⟩ := writtenAll_parsed ht hall
    have hb : Balanced (body ++ params) :=
      (hbal rfl).append (balanced_plain (paramsText_plain (Or.inr rfl) hp))
    have hne : body ≠ [] := by
      rintro rfl
      obtain ⟨m, f, hm⟩ := hf
      generalize hs : ([] : List Char) = s at hall
      cases hall with
      | nil => cases hm
      | segment hw _ =>
        obtain ⟨r, hr⟩ := written_head hw
        rw [hr] at hs; simp at hs
      | lastText hpl => exact hpl.1 hs.symm
      | text hpl _ _ => simp at hs; exact hpl.1 hs.1
    refine ⟨?_, ?_⟩
    · have := balanced_bracket hb
      simpa using this
    · intro fuel nest rest hfuel
      simp only [List.cons_append, List.length_cons, List.length_append, List.length_nil] at hfuel
      have hpos := List.length_pos_iff.mpr hne
      obtain ⟨n, rfl⟩ : ∃ n, fuel = n + 1 + 1 := ⟨fuel - 2, by omega⟩
      have := argument_of_content (t := t) (fuel := n + 1) (nest := nest) hb
        ⟨[], logSegment_group ht nest hparts hstart hf hp ha (by omega)⟩ rest
      simpa using this

theorem writtenAll_parsed {t : Term} (ht : t.Ok) : ∀ {g s segs}, WrittenAll t g s segs →
    PartsBalanced g s ∧ PartsParsed t g s segs
  | g, _, _, .nil => ⟨fun _ => balanced_nil, partsParsed_nil t g⟩
  | _, _, _, .segment hw hall => by
    have h1 := written_parsed ht hw
    have h2 := writtenAll_parsed ht hall
    exact ⟨fun hg => h1.1.append (h2.1 hg), partsParsed_segment (written_ne_nil hw) h1 h2.2⟩
  | g, s, _, .lastText hpl => by
    refine ⟨plainText_balanced hpl, ?_⟩
    have := partsParsed_text (t := t) (rest := []) hpl (fun tail h => h) (partsParsed_nil t g)
    simpa using this
  | _, _, _, .text hpl hw hall => by
    have h1 := written_parsed ht hw
    have h2 := writtenAll_parsed ht hall
    refine ⟨fun hg => (plainText_balanced hpl hg).append (h1.1.append (h2.1 hg)), ?_⟩
    refine partsParsed_text hpl ?_ (partsParsed_segment (written_ne_nil hw) h1 h2.2)
    intro tail _ c hc
    obtain ⟨r, hr⟩ := written_head hw
    rw [hr] at hc
    simp at hc
    exact Or.inl hc.symm

end

/-! ## `{s}` -/

mutual

theorem segmentContainsLog_iff : ∀ s : Segment, segmentContainsLog s = true →
    (∃ f, s = .field .log f) ∨ ∃ ss f, s = .nested ss f ∧ HasLog ss
  | .field m f, h => by
    simp only [segmentContainsLog, decide_eq_true_eq] at h
    exact Or.inl ⟨f, by rw [h]⟩
  | .text _, h => by cases h
  | .nested ss f, h => by
    simp only [segmentContainsLog] at h
    exact Or.inr ⟨ss, f, rfl, containsLog_hasLog ss h⟩

theorem containsLog_hasLog : ∀ ss : List Segment, containsLog ss = true → HasLog ss
  | [], h => by cases h
  | s :: ss, h => by
    simp only [containsLog, Bool.or_eq_true] at h
    rcases h with h | h
    · rcases segmentContainsLog_iff s h with ⟨f, hf⟩ | ⟨ss', f, hf, hl⟩
      · exact HasLog.field (f := f) (by rw [hf]; simp)
      · exact HasLog.nested (f := f) (segments' := ss') (by rw [hf]; simp) hl
    · cases containsLog_hasLog ss h with
      | field hm => exact HasLog.field (List.mem_cons_of_mem _ hm)
      | nested hm hl => exact HasLog.nested (List.mem_cons_of_mem _ hm) hl

end

theorem containsLog_mem {s : Segment} {ss : List Segment} (hm : s ∈ ss) (h : segmentContainsLog s = true) :
    containsLog ss = true := by
  induction ss with
  | nil => cases hm
  | cons x ss ih =>
    simp only [containsLog, Bool.or_eq_true]
    simp only [List.mem_cons] at hm
    rcases hm with hm | hm
    · subst hm; exact Or.inl h
    · exact Or.inr (ih hm)

theorem hasLog_contains {ss : List Segment} (h : HasLog ss) : containsLog ss = true := by
  induction h with
  | field hm => exact containsLog_mem hm (by simp [segmentContainsLog])
  | nested hm _ ih => exact containsLog_mem hm (by simpa [segmentContainsLog] using ih)

theorem containsLog_iff {ss : List Segment} : containsLog ss = true ↔ HasLog ss :=
  ⟨containsLog_hasLog ss, hasLog_contains⟩

/-! ## Whole formats -/

theorem topParser (t : Term) (fuel : Nat) :
    PartParser t (fuel + 1) false false (alt (parseArgument t (fuel + 1) false) parseString) id where
  segment := fun _ _ _ h => alt_first h
  text := by
    intro s rest hs hr
    rw [alt_second (argument_not_brace t fuel false (plainText_head hs rest))]
    exact parseString_text hs hr

theorem many0_written {t : Term} (ht : t.Ok) {s : List Char} {segs : List Segment} (h : WrittenAll t false s segs) :
    many0 (alt (parseArgument t (s.length + 1) false) parseString) s = .ok [] segs := by
  obtain ⟨mf, h1, h2⟩ := (writtenAll_parsed ht h).2 Segment (s.length + 1) false _ id (topParser t s.length)
    (by omega) [] (by intro c hc; cases hc) (s.length + 1) [] (by simp)
  simp only [List.append_nil, List.nil_append, List.map_id] at h2
  rw [many0, h2]
  cases mf with
  | zero => simp at h1
  | succ mf =>
    simp only [many0Loop]
    rw [alt_second (argument_not_brace t _ false (by simp))]
    simp [parseString]

theorem parse_written {t : Term} (ht : t.Ok) {s : List Char} {segs : List Segment} (h : WrittenAll t false s segs) :
    parse t s = if containsLog segs then .ok segs else .err () := by
  simp only [parse, many0_written ht h]

end Defmt.LogFormat
