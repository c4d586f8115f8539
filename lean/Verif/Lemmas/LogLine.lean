import Verif.Lemmas.LogOutput
/-!
What a format shows for a record.
-/

namespace Defmt.LogFormat

open Parser Elf

/-! ## Padding -/

theorem padded_unique {w : Nat} {a : Alignment} {fill : Char} {v shown : List Char}
    (h : Padded w a fill v shown) : shown = padTo w a fill v := by
  obtain ⟨b, c, h1, h2, h3⟩ := h
  have hlen := congrArg List.length h1
  simp only [List.length_append, List.length_replicate] at hlen
  have hsum : b + c = w - v.length := by omega
  cases a with
  | left =>
    simp only at h3
    subst h3
    simp only [padTo]
    rw [h1, ← hsum]
    simp
  | right =>
    simp only at h3
    subst h3
    simp only [padTo]
    rw [h1, ← hsum]
    simp
  | center =>
    simp only at h3
    simp only [padTo]
    have e1 : b = (w - v.length) / 2 := by omega
    have e2 : c = (w - v.length + 1) / 2 := by omega
    rw [h1, ← e1, ← e2]

theorem fillText_eq (f : Format) : fillText f = fillOf (f.padding.getD .space) := by
  obtain ⟨w, c, s, a, p⟩ := f
  cases p with
  | none => rfl
  | some p => cases p <;> rfl

theorem esc_padTo {w : Nat} {a : Alignment} {fill : Char} (hf : isFill fill) {v : List Char} (h : esc ∉ v) :
    esc ∉ padTo w a fill v := by
  have hn : ∀ n, esc ∉ List.replicate n fill := by
    intro n hm
    have := (List.mem_replicate.mp hm).2
    rcases hf with h | h <;> rw [h] at this <;> exact absurd this (by decide)
  cases a <;> simp only [padTo, List.mem_append, not_or]
  · exact ⟨⟨hn _, h⟩, hn _⟩
  · exact ⟨h, hn _⟩
  · exact ⟨hn _, h⟩

/-! ## Inner resets -/

theorem stateAfter_esc (st : AnsiState) (l : List Char) : stateAfter st (esc :: l) = stateAfter .esc l := by
  simp only [stateAfter, ansiStep_esc]

theorem stateAfter_reset (st : AnsiState) : stateAfter st reset = .text := by
  rw [reset, stateAfter_esc]
  rfl

theorem escapeInner_state {t : Term} (ht : t.Ok) (fg : Option Color) (styles : List Style) (s : List Char) :
    ∀ st, stateAfter st (escapeInner (styleOf t fg styles) s) = stateAfter st s ∧
      stripFrom st (escapeInner (styleOf t fg styles) s) = stripFrom st s := by
  have hq := sequence_style ht fg styles
  have hreset : ∀ st rest, stripFrom st (reset ++ rest) = st.pending ++ stripFrom .text rest := by
    intro st rest
    have hb : Breaks (reset ++ rest) := Or.inr ⟨_, rfl⟩
    rw [stripFrom_breaks st hb]
    have := stripAnsi_sequence sequence_reset rest
    simp only [stripAnsi] at this
    rw [this]
  fun_induction escapeInner (styleOf t fg styles) s with
  | case1 a b c d rest heq ih =>
    intro st
    have e : a :: b :: c :: d :: rest = reset ++ rest := by
      rw [← heq]; rfl
    rw [e]
    constructor
    · rw [List.append_assoc, stateAfter_append, stateAfter_append, stateAfter_append, stateAfter_reset]
      have hc : stateAfter .text (styleOf t fg styles) = .text := closed_sequence hq
      rw [hc]
      exact (ih .text).1
    · rw [List.append_assoc, hreset, hreset]
      have := stripAnsi_sequence hq (escapeInner (styleOf t fg styles) rest)
      simp only [stripAnsi] at this
      rw [this, (ih .text).2]
  | case2 a b c d rest hne ih =>
    intro st
    obtain ⟨h1, h2⟩ := ih (ansiStep st a).1
    constructor
    · rw [stateAfter, h1]
      rfl
    · rw [stripFrom, h2]
      rfl
  | case3 s h => intro st; exact ⟨rfl, rfl⟩

theorem stripAnsi_escapeInner {t : Term} (ht : t.Ok) (fg : Option Color) (styles : List Style) (s : List Char) :
    stripAnsi (escapeInner (styleOf t fg styles) s) = stripAnsi s := (escapeInner_state ht fg styles s .text).2

theorem escapeInner_length (style s : List Char) : s.length ≤ (escapeInner style s).length := by
  fun_induction escapeInner style s with
  | case1 a b c d rest heq ih =>
    simp only [List.length_append, List.length_cons]
    have : reset.length = 4 := rfl
    omega
  | case2 a b c d rest hne ih => simp only [List.length_cons] at *; omega
  | case3 s h => exact Nat.le_refl _

/-! ## Styled text -/

theorem closed_fill {fill : Char} (hf : isFill fill) (n : Nat) : Closed (List.replicate n fill) := by
  apply closed_plain
  intro hm
  have := (List.mem_replicate.mp hm).2
  rcases hf with h | h <;> rw [h] at this <;> exact absurd this (by decide)

theorem closed_padTo {w : Nat} {a : Alignment} {fill : Char} (hf : isFill fill) {s : List Char} (h : Closed s) :
    Closed (padTo w a fill s) := by
  cases a <;> simp only [padTo]
  · exact ((closed_fill hf _).append h).append (closed_fill hf _)
  · exact h.append (closed_fill hf _)
  · exact (closed_fill hf _).append h

/-- padding of a text in which sequences may have been added -/
theorem padTo_wide {w : Nat} {a : Alignment} {fill : Char} {s : List Char} (h : w ≤ s.length) :
    padTo w a fill s = s := by
  have : w - s.length = 0 := by omega
  cases a <;> simp [padTo, this]

/-- the visible part of a formatted text -/
theorem buildFormatted_visible {t : Term} (ht : t.Ok) {s : List Char} {f : Format} {dw : Nat}
    {level : Option Level} {color : Option LogColor} {out : List Char}
    (h : buildFormatted t s f dw level color = some out)
    (hw : f.width.getD dw = 0 ∨ (applyColor color level = none ∧ f.style.getD [] = []) ∨ ¬ reset <:+: s) :
    stripAnsi out = padTo (f.width.getD dw) (f.alignment.getD .left) (fillOf (f.padding.getD .space)) (stripAnsi s) ∧
    (Closed s → Closed out) := by
  have hout := buildFormatted_some h
  have hf := fillOf_isFill (f.padding.getD .space)
  simp only [writeColored] at hout
  split at hout
  · rw [hout]
    exact ⟨stripAnsi_padTo _ _ hf s, fun hc => closed_padTo hf hc⟩
  · rename_i hnot
    have hq := sequence_style ht (applyColor color level) (f.style.getD [])
    have key : ∀ p : List Char, stripAnsi (styleOf t (applyColor color level) (f.style.getD []) ++ p ++ reset)
        = stripAnsi p := by
      intro p
      rw [stripAnsi_reset, stripAnsi_sequence hq]
    have keyc : ∀ p : List Char, Closed p → Closed (styleOf t (applyColor color level) (f.style.getD []) ++ p ++ reset) := by
      intro p hp
      exact ((closed_sequence hq).append hp).append (closed_sequence sequence_reset)
    rcases hw with hw | hw | hw
    · rw [hw, Nat.zero_add, padTo_wide] at hout
      · rw [hout, key, hw, padTo_wide (by omega), stripAnsi_escapeInner ht]
        refine ⟨rfl, fun hc => keyc _ ?_⟩
        rw [Closed, (escapeInner_state ht _ _ s .text).1]; exact hc
      · have := escapeInner_length (styleOf t (applyColor color level) (f.style.getD [])) s
        omega
    · exact absurd (Or.inr hw) hnot
    · rw [escapeInner_eq hw] at hout
      rw [hout, key]
      exact ⟨stripAnsi_padTo _ _ hf s, fun hc => keyc _ (closed_padTo hf hc)⟩

/-- without colours -/
theorem buildFormatted_off {t : Term} (ht : t.Ok) (hoff : t.colorize = false) {s : List Char} (hs : esc ∉ s)
    {f : Format} {dw : Nat} (level : Option Level) (color : Option LogColor) {shown : List Char}
    (h : Fits t.maxWidth f dw s shown) :
    buildFormatted t s f dw level color = some shown ∧ esc ∉ shown := by
  have hpad := padded_unique h.2
  rw [fillText_eq] at hpad
  have hmax := ht.maxWidth
  have hfit := h.1
  constructor
  · simp only [buildFormatted, stripAnsi_plain hs, Nat.sub_self, Nat.add_zero]
    rw [if_neg (by omega)]
    simp [writeColored, hoff, hpad]
  · rw [hpad]
    exact esc_padTo (fillOf_isFill _) hs

/-! ## Lines that are not the output of `assert_eq!` -/

theorem splitAt_ne_nil (c : Char) (s : List Char) : splitAt c s ≠ [] := by
  cases s with
  | nil => simp [splitAt]
  | cons x s =>
    simp only [splitAt]
    split
    · simp
    · split <;> simp

theorem splitAt_infix (c : Char) (s : List Char) :
    ∀ w ws, splitAt c s = w :: ws → w <+: s ∧ ∀ p ∈ ws, c :: p <:+: s := by
  induction s with
  | nil => intro w ws h; simp [splitAt] at h; simp [h.1, h.2]
  | cons x s ih =>
    intro w ws h
    simp only [splitAt] at h
    cases hsp : splitAt c s with
    | nil => exact absurd hsp (splitAt_ne_nil c s)
    | cons w' ws' =>
      obtain ⟨h1, h2⟩ := ih w' ws' hsp
      have up : ∀ p, c :: p <:+: s → c :: p <:+: x :: s := fun p hp => List.infix_cons_iff.mpr (Or.inr hp)
      rw [hsp] at h
      by_cases hx : x = c
      · subst hx
        simp only [if_pos, List.cons.injEq] at h
        obtain ⟨e1, e2⟩ := h
        subst e1 e2
        refine ⟨List.nil_prefix, ?_⟩
        intro p hp
        simp only [List.mem_cons] at hp
        rcases hp with hp | hp
        · subst hp
          obtain ⟨q, hq⟩ := h1
          exact ⟨[], q, by simp [hq]⟩
        · exact up p (h2 p hp)
      · simp only [if_neg hx, List.cons.injEq] at h
        obtain ⟨e1, e2⟩ := h
        subst e1 e2
        obtain ⟨q, hq⟩ := h1
        exact ⟨⟨q, by simp [hq]⟩, fun p hp => up p (h2 p hp)⟩

theorem stripCr_prefix (l : List Char) : stripCr l <+: l := by
  simp only [stripCr]
  split
  · exact List.dropLast_prefix l
  · exact List.prefix_refl l

/-- a line is the start of a piece; lines after the first come from pieces after the first -/
theorem piecesToLines_mem {ps : List (List Char)} :
    (∀ l ∈ piecesToLines ps, ∃ p ∈ ps, l <+: p) ∧
    ∀ l ∈ (piecesToLines ps).tail, ∃ p ∈ ps.tail, l <+: p := by
  induction ps with
  | nil => simp [piecesToLines]
  | cons a ps ih =>
    cases ps with
    | nil =>
      simp only [piecesToLines]
      split
      · simp
      · simp
    | cons b ps =>
      simp only [piecesToLines, List.mem_cons, List.tail_cons] at ih ⊢
      constructor
      · rintro l (hl | hl)
        · exact ⟨a, Or.inl rfl, hl ▸ stripCr_prefix a⟩
        · obtain ⟨p, hp, h⟩ := ih.1 l hl
          exact ⟨p, Or.inr hp, h⟩
      · intro l hl
        exact ih.1 l hl

theorem lines_after_first {s l : List Char} (h : l ∈ (lines s).tail) : '\n' :: l <:+: s := by
  obtain ⟨p, hp, hl⟩ := piecesToLines_mem.2 l h
  have hin : '\n' :: p <:+: s := by
    cases hsp : splitAt '\n' s with
    | nil => exact absurd hsp (splitAt_ne_nil _ s)
    | cons w ws =>
      rw [hsp] at hp
      exact (splitAt_infix '\n' s w ws hsp).2 p hp
  refine List.IsInfix.trans ?_ hin
  obtain ⟨q, hq⟩ := hl
  exact ⟨[], q, by simp [← hq]⟩

theorem isQuoted_prefix {start line : List Char} (h : isQuoted start line = true) : start <+: line := by
  simp only [isQuoted, Bool.and_eq_true, Option.isSome_iff_exists] at h
  obtain ⟨⟨r, hr⟩, _⟩ := h
  exact ⟨r, (stripPrefix_eq hr).symm⟩

theorem colorDiff_unchanged (t : Term) {s : List Char} (h : ¬ c!"\nright: `" <:+: s) : colorDiff t s = .err s := by
  simp only [colorDiff]
  cases hr : (lines s).reverse with
  | nil => rfl
  | cons right l =>
    cases l with
    | nil => rfl
    | cons left before =>
      simp only [colorDiffLines]
      split
      · rfl
      · split
        · rename_i hq
          exfalso
          apply h
          simp only [Bool.and_eq_true] at hq
          have hl : lines s = before.reverse ++ [left, right] := by
            have := congrArg List.reverse hr
            simpa using this
          have hmem : right ∈ (lines s).tail := by
            rw [hl]
            cases before.reverse with
            | nil => simp
            | cons x xs => simp
          obtain ⟨r, hr'⟩ := isQuoted_prefix hq.2
          refine List.IsInfix.trans ?_ (lines_after_first hmem)
          exact ⟨[], r, by rw [← hr']; rfl⟩
        · rfl

/-! ## Lines -/

theorem splitAt_break {l : List Char} (h : '\n' ∉ l) (s : List Char) :
    splitAt '\n' (l ++ '\n' :: s) = l :: splitAt '\n' s := by
  induction l with
  | nil => simp [splitAt]
  | cons c l ih =>
    have hc : c ≠ '\n' := fun e => h (by simp [e])
    simp only [List.cons_append, splitAt, if_neg hc]
    rw [ih fun hm => h (by simp [hm])]

theorem piecesToLines_cons (a : List Char) {ps : List (List Char)} (h : ps ≠ []) :
    piecesToLines (a :: ps) = stripCr a :: piecesToLines ps := by
  cases ps with
  | nil => exact absurd rfl h
  | cons b ps => rfl

theorem linesOf_eq {s : List Char} {ls : List (List Char)} (h : LinesOf s ls) : lines s = ls := by
  induction h with
  | nil => rfl
  | last h1 h2 =>
    simp only [lines]
    rw [splitAt_plain _ _ h1]
    simp [piecesToLines, h2]
  | lf h1 h2 _ ih =>
    simp only [lines] at ih ⊢
    rw [splitAt_break h1, piecesToLines_cons _ (splitAt_ne_nil _ _), ih, stripCr, if_neg h2]
  | @crlf l s ls h1 _ ih =>
    have e : l ++ '\r' :: '\n' :: s = (l ++ ['\r']) ++ '\n' :: s := by simp
    have hn : '\n' ∉ l ++ ['\r'] := by simp [h1]
    simp only [lines] at ih ⊢
    rw [e, splitAt_break hn, piecesToLines_cons _ (splitAt_ne_nil _ _), ih, stripCr]
    simp

theorem linesOf_lines (s : List Char) : LinesOf s (lines s) := by
  have main : ∀ n (s : List Char), s.length ≤ n → ∃ ls, LinesOf s ls := by
    intro n
    induction n with
    | zero =>
      intro s hs
      have h0 : s = [] := List.length_eq_zero_iff.mp (by omega)
      subst h0
      exact ⟨[], .nil⟩
    | succ n ih =>
      intro s hs
      by_cases hm : '\n' ∈ s
      · obtain ⟨l, rest, he, hl⟩ := List.eq_append_cons_of_mem hm
        subst he
        obtain ⟨ls, hls⟩ := ih rest (by simp at hs; omega)
        by_cases hr : l.getLast? = some '\r'
        · obtain ⟨k, hk⟩ : ∃ k, l = k ++ ['\r'] := by
            rcases List.eq_nil_or_concat l with h | ⟨k, c, h⟩
            · subst h; cases hr
            · refine ⟨k, ?_⟩
              rw [h] at hr
              simp at hr
              rw [h, hr]; simp
          refine ⟨k :: ls, ?_⟩
          subst hk
          have hk' : '\n' ∉ k := fun h => hl (by simp [h])
          have := LinesOf.crlf hk' hls
          simpa using this
        · exact ⟨_, .lf hl hr hls⟩
      · by_cases hs0 : s = []
        · subst hs0; exact ⟨[], .nil⟩
        · exact ⟨_, .last hm hs0⟩
  obtain ⟨ls, h⟩ := main s.length s (by omega)
  rw [linesOf_eq h]; exact h

theorem linesOf_iff {s : List Char} {ls : List (List Char)} : LinesOf s ls ↔ lines s = ls :=
  ⟨linesOf_eq, fun h => h ▸ linesOf_lines s⟩

theorem leftStart_last : leftStart.getLast? = some '`' := by decide
theorem rightStart_last : rightStart.getLast? = some '`' := by decide

/-- the three outcomes -/
theorem colorDiff_panic_iff {t : Term} {s : List Char} {ls : List (List Char)} (h : LinesOf s ls) :
    colorDiff t s = .panic ↔ ∃ before left right, ls = before ++ [left, right] ∧ before ≠ [] ∧
      isQuoted leftStart left = true ∧ isQuoted rightStart right = true ∧
      (left = leftStart ∨ right = rightStart) := by
  rw [colorDiff, linesOf_eq h]
  constructor
  · intro hp
    cases hr : ls.reverse with
    | nil => rw [hr] at hp; cases hp
    | cons right l =>
      cases l with
      | nil => rw [hr] at hp; cases hp
      | cons left before =>
        rw [hr] at hp
        simp only [colorDiffLines] at hp
        by_cases hb : before = []
        · rw [if_pos hb] at hp; cases hp
        · rw [if_neg hb] at hp
          by_cases hq : (isQuoted leftStart left && isQuoted rightStart right) = true
          · rw [if_pos hq] at hp
            simp only [Bool.and_eq_true] at hq
            refine ⟨before.reverse, left, right, ?_, by simpa using hb, hq.1, hq.2, ?_⟩
            · have := congrArg List.reverse hr
              simpa using this
            · by_cases h1 : left = leftStart
              · exact Or.inl h1
              · by_cases h2 : right = rightStart
                · exact Or.inr h2
                · exfalso
                  have n1 := fun hn => h1 ((quoted_none leftStart_last hq.1).mp hn)
                  have n2 := fun hn => h2 ((quoted_none rightStart_last hq.2).mp hn)
                  cases e1 : quoted leftStart left with
                  | none => exact n1 e1
                  | some a =>
                    cases e2 : quoted rightStart right with
                    | none => exact n2 e2
                    | some b => rw [e1, e2] at hp; cases hp
          · rw [if_neg hq] at hp; cases hp
  · rintro ⟨before, left, right, e, hb, q1, q2, hor⟩
    have hr : ls.reverse = right :: left :: before.reverse := by rw [e]; simp
    rw [hr]
    simp only [colorDiffLines, q1, q2, Bool.and_self, if_true]
    rw [if_neg (by simpa using hb)]
    rcases hor with h1 | h1
    · rw [h1, quoted_self (by decide)]
    · rw [h1, quoted_self (start := rightStart) (by decide)]
      cases quoted leftStart left <;> rfl

theorem colorDiff_values {t : Term} {s : List Char} {before : List (List Char)} {left right l r : List Char}
    (h : LinesOf s (before ++ [left, right])) (hb : before ≠ []) (hl : Value leftStart l left)
    (hr : Value rightStart r right) : colorDiff t s = .ok (diffText t before l r) := by
  have q1 : isQuoted leftStart left = true := (isQuoted_iff leftStart_last).mpr (Or.inr ⟨l, hl⟩)
  have q2 : isQuoted rightStart right = true := (isQuoted_iff rightStart_last).mpr (Or.inr ⟨r, hr⟩)
  rw [colorDiff, linesOf_eq h]
  have e : (before ++ [left, right]).reverse = right :: left :: before.reverse := by simp
  rw [e]
  simp only [colorDiffLines, q1, q2, Bool.and_self, if_true]
  rw [if_neg (by simpa using hb), hl, hr, quoted_full, quoted_full, List.reverse_reverse]

theorem colorDiff_cases (t : Term) (s : List Char) : colorDiff t s = .panic ∨ colorDiff t s = .err s ∨
    ∃ before left right l r, LinesOf s (before ++ [left, right]) ∧ before ≠ [] ∧ Value leftStart l left ∧
      Value rightStart r right := by
  have hl := linesOf_lines s
  cases hr : (lines s).reverse with
  | nil => right; left; rw [colorDiff, hr]; rfl
  | cons right l =>
    cases l with
    | nil => right; left; rw [colorDiff, hr]; rfl
    | cons left before =>
      have he : lines s = before.reverse ++ [left, right] := by
        have := congrArg List.reverse hr
        simpa using this
      by_cases hb : before = []
      · right; left; rw [colorDiff, hr]; simp only [colorDiffLines, if_pos hb]
      · by_cases hq : (isQuoted leftStart left && isQuoted rightStart right) = true
        · simp only [Bool.and_eq_true] at hq
          rcases (isQuoted_iff leftStart_last).mp hq.1 with h1 | ⟨a, h1⟩
          · left
            exact (colorDiff_panic_iff hl).mpr ⟨_, left, right, he, by simpa using hb, hq.1, hq.2, Or.inl h1⟩
          · rcases (isQuoted_iff rightStart_last).mp hq.2 with h2 | ⟨b, h2⟩
            · left
              exact (colorDiff_panic_iff hl).mpr ⟨_, left, right, he, by simpa using hb, hq.1, hq.2, Or.inr h2⟩
            · right; right
              exact ⟨_, left, right, a, b, he ▸ hl, by simpa using hb, h1, h2⟩
        · right; left; rw [colorDiff, hr]; simp only [colorDiffLines, if_neg hb, if_neg hq]

theorem colorDiff_notLike (t : Term) {s : List Char} (h : ¬ LikeDiff s) : colorDiff t s = .err s := by
  rcases colorDiff_cases t s with h1 | h1 | ⟨b, l, r, x, y, h1, h2, h3, h4⟩
  · obtain ⟨b, l, r, e, hb, q1, q2, _⟩ := (colorDiff_panic_iff (linesOf_lines s)).mp h1
    exact absurd ⟨b, l, r, e ▸ linesOf_lines s, hb, (isQuoted_iff leftStart_last).mp q1, (isQuoted_iff rightStart_last).mp q2⟩ h
  · exact h1
  · exact absurd ⟨b, l, r, h1, h2, Or.inr ⟨_, h3⟩, Or.inr ⟨_, h4⟩⟩ h

theorem not_likeDiff {s : List Char} (h : ¬ c!"\nright: `" <:+: s) : ¬ LikeDiff s := by
  rintro ⟨b, l, r, h1, h2, h3, h4⟩
  apply h
  have hmem : r ∈ (lines s).tail := by
    rw [linesOf_eq h1]
    cases b with
    | nil => simp
    | cons x xs => simp
  refine List.IsInfix.trans ?_ (lines_after_first hmem)
  rcases h4 with rfl | ⟨v, rfl⟩
  · exact List.infix_refl _
  · exact ⟨[], v ++ c!"`", by simp⟩

theorem linesOf_esc {s : List Char} {ls : List (List Char)} (h : LinesOf s ls) : esc ∉ s → ∀ l ∈ ls, esc ∉ l := by
  induction h with
  | nil => simp
  | last h1 h2 => intro hs l hl; simp only [List.mem_cons, List.not_mem_nil, or_false] at hl; subst hl; exact hs
  | lf h1 h2 h3 ih =>
    intro hs l hl
    simp only [List.mem_append, List.mem_cons, not_or] at hs
    rcases List.mem_cons.mp hl with rfl | hl
    · exact hs.1
    · exact ih hs.2.2 l hl
  | crlf h1 h3 ih =>
    intro hs l hl
    simp only [List.mem_append, List.mem_cons, not_or] at hs
    rcases List.mem_cons.mp hl with rfl | hl
    · exact hs.1
    · exact ih hs.2.2.2 l hl

theorem textOfLines_esc {ls : List (List Char)} (h : ∀ l ∈ ls, esc ∉ l) : esc ∉ textOfLines ls := by
  induction ls with
  | nil => simp [textOfLines]
  | cons a l ih =>
    have := ih fun l hl => h l (by simp [hl])
    have ha := h a (by simp)
    cases l with
    | nil => exact ha
    | cons b l =>
      simp only [textOfLines, List.mem_append, not_or]
      exact ⟨⟨ha, by decide⟩, this⟩

theorem diffText_off {t : Term} (ht : t.Ok) (hoff : t.colorize = false) (before : List (List Char))
    (l r : List Char) : diffText t before l r = diffShown before l r := by
  obtain ⟨h1, h2⟩ := isDiff_left_off hoff (ht.diff l r)
  simp only [diffText, paint_off hoff, h1, h2, joinLines_eq, diffShown]
  simp

theorem parts_esc {s : List Char} {before : List (List Char)} {left right x y : List Char}
    (hlines : LinesOf s (before ++ [left, right])) (hx : Value c!" left: `" x left) (hy : Value c!"right: `" y right)
    (hv : esc ∉ s) : esc ∉ textOfLines before ∧ esc ∉ x ∧ esc ∉ y := by
  have hesc := linesOf_esc hlines hv
  rw [Value] at hx hy
  refine ⟨textOfLines_esc fun l hl => hesc l (by simp [hl]), fun hm => hesc _ (List.mem_append_right _ (List.mem_cons_self ..)) ?_,
    fun hm => hesc _ (List.mem_append_right _ (List.mem_cons_of_mem _ (List.mem_cons_self ..))) ?_⟩
  · rw [hx]; simp [hm]
  · rw [hy]; simp [hm]

theorem diffShown_esc {s : List Char} {before : List (List Char)} {left right x y : List Char}
    (hlines : LinesOf s (before ++ [left, right])) (hx : Value c!" left: `" x left) (hy : Value c!"right: `" y right)
    (hv : esc ∉ s) : esc ∉ diffShown before x y := by
  obtain ⟨e1, e2, e3⟩ := parts_esc hlines hx hy hv
  have p1 : esc ∉ c!"\ndiff < left / right >\n<" := by decide
  have p2 : esc ∉ c!"\n>" := by decide
  simp only [diffShown, List.mem_append, not_or]
  exact ⟨⟨⟨⟨e1, p1⟩, e2⟩, p2⟩, e3⟩

theorem diffText_closed_visible {t : Term} (ht : t.Ok) {before : List (List Char)} {l r : List Char}
    (hb : esc ∉ textOfLines before) (hl : esc ∉ l) (hr : esc ∉ r) :
    Closed (diffText t before l r) ∧ stripAnsi (diffText t before l r) = diffShown before l r := by
  obtain ⟨⟨c1, v1⟩, ⟨c2, v2⟩⟩ := isDiff_left ht (ht.diff l r) hl hr
  have step : ∀ {a b v w}, (Closed a ∧ stripAnsi a = v) → (Closed b ∧ stripAnsi b = w) →
      (Closed (a ++ b) ∧ stripAnsi (a ++ b) = v ++ w) := by
    intro a b v w ha hb
    exact ⟨ha.1.append hb.1, by rw [stripAnsi_closed ha.1, ha.2, hb.2]⟩
  have plain : ∀ {s}, esc ∉ s → (Closed s ∧ stripAnsi s = s) := fun h => ⟨closed_plain h, stripAnsi_plain h⟩
  have p := fun (fg : Option Color) (st : List Style) {s : List Char} (h : esc ∉ s) => paint_closed ht fg st h
  have hj : esc ∉ joinLines before := by rw [joinLines_eq]; exact hb
  have := step (step (step (step (step (step (step (step (step (step (step
    (p none [.bold] hj) (plain (s := c!"\n") (by decide))) (p none [.bold] (s := c!"diff") (by decide)))
    (plain (s := c!" ") (by decide))) (p (some .red) [] (s := c!"< left") (by decide)))
    (plain (s := c!" / ") (by decide))) (p (some .green) [] (s := c!"right >") (by decide)))
    (plain (s := c!"\n") (by decide))) (p (some .red) [] (s := c!"<") (by decide))) ⟨c1, v1⟩)
    (plain (s := c!"\n") (by decide))) (step (p (some .green) [] (s := c!">") (by decide)) ⟨c2, v2⟩)
  rw [← List.append_assoc] at this
  refine ⟨this.1, ?_⟩
  rw [diffText, this.2, joinLines_eq, diffShown]
  simp

theorem diffText_visible {t : Term} (ht : t.Ok) {before : List (List Char)} {l r : List Char}
    (hb : esc ∉ textOfLines before) (hl : esc ∉ l) (hr : esc ∉ r) :
    stripAnsi (diffText t before l r) = diffShown before l r := (diffText_closed_visible ht hb hl hr).2

theorem diffText_closed {t : Term} (ht : t.Ok) {before : List (List Char)} {l r : List Char}
    (hb : esc ∉ textOfLines before) (hl : esc ∉ l) (hr : esc ∉ r) : Closed (diffText t before l r) :=
  (diffText_closed_visible ht hb hl hr).1

/-! ## Fields -/

theorem levelName_eq (l : Level) : levelName l = levelText l := by cases l <;> rfl

theorem drop_last {α : Type} (dirs names : List α) :
    (dirs ++ names).drop ((dirs ++ names).length - min (dirs ++ names).length names.length) = names := by
  have : (dirs ++ names).length - min (dirs ++ names).length names.length = dirs.length := by
    simp only [List.length_append]; omega
  rw [this, List.drop_left]

/-- the text of a specifier -/
theorem buildField_text_color {t : Term} {r : Record} {m : Metadata} {w : Nat} {v : List Char} (h : FieldText r m w v)
    (f : Format) : ∃ color, buildField t r m f = buildFormatted t v f w r.level color ∧
      (m ≠ .logLevel → color = f.color) ∧ (m = .logLevel → color = some (f.color.getD .severity)) := by
  cases h with
  | timestamp h1 h2 => exact ⟨f.color, by simp [buildField, h1, h2], fun _ => rfl, by intro h; cases h⟩
  | noTimestamp h =>
    refine ⟨f.color, ?_, fun _ => rfl, by intro h; cases h⟩
    simp only [buildField]
    rw [if_neg]
    rintro ⟨h1, h2⟩
    rcases h with h | h
    · rw [h1] at h; cases h
    · exact h2 h
  | level h => exact ⟨some (f.color.getD .severity), by simp only [buildField, h, levelName_eq], fun hm => absurd rfl hm, fun _ => rfl⟩
  | filePath h => exact ⟨f.color, by simp [buildField, h], fun _ => rfl, by intro h; cases h⟩
  | noFilePath h => exact ⟨f.color, by simp [buildField, h], fun _ => rfl, by intro h; cases h⟩
  | @fileName dirs names h hp hne =>
    refine ⟨f.color, ?_, fun _ => rfl, by intro h; cases h⟩
    have hl : dirs ++ names ≠ [] := by simp [hne]
    simp only [buildField, h, fileNameText_eq (pathComponents_relative hl hp) hl (List.length_pos_iff.mpr hne)]
    rw [drop_last]
  | @fileNameAbsolute dirs names h hp hne =>
    refine ⟨f.color, ?_, fun _ => rfl, by intro h; cases h⟩
    have hl : dirs ++ names ≠ [] := by simp [hne]
    simp only [buildField, h, fileNameText_eq (pathComponents_absolute hl hp) (by simp) (List.length_pos_iff.mpr hne)]
    have := drop_last (c!"/" :: dirs) names
    rw [List.cons_append] at this
    rw [this]
  | @fileNameShort names n h hp hne hlt =>
    refine ⟨f.color, ?_, fun _ => rfl, by intro h; cases h⟩
    simp only [buildField, h, fileNameText_eq (pathComponents_relative hne hp) hne (by omega : 0 < n)]
    have : names.length - min names.length n = 0 := by omega
    rw [this, List.drop_zero]
  | noFileName h => exact ⟨f.color, by simp [buildField, h], fun _ => rfl, by intro h; cases h⟩
  | modulePath h => exact ⟨f.color, by simp [buildField, h], fun _ => rfl, by intro h; cases h⟩
  | noModulePath h => exact ⟨f.color, by simp [buildField, h], fun _ => rfl, by intro h; cases h⟩
  | @crateName names _ h hne hp =>
    refine ⟨f.color, ?_, fun _ => rfl, by intro h; cases h⟩
    simp only [buildField, h, crateNameText, splitColons_pathText (l := v :: names) (by simp) hp]
    cases names with
    | nil => exact absurd rfl hne
    | cons a names => rfl
  | noCrateName h => exact ⟨f.color, by simp [buildField, h, crateNameText], fun _ => rfl, by intro h; cases h⟩
  | lineNumber h => exact ⟨f.color, by simp [buildField, h, Display.digits], fun _ => rfl, by intro h; cases h⟩
  | noLineNumber h => exact ⟨f.color, by simp only [buildField, h]; rfl, fun _ => rfl, by intro h; cases h⟩

theorem buildField_text {t : Term} {r : Record} {m : Metadata} {w : Nat} {v : List Char} (h : FieldText r m w v)
    (f : Format) : ∃ color, buildField t r m f = buildFormatted t v f w r.level color ∧
      (m ≠ .logLevel → color = f.color) := by
  obtain ⟨c, h1, h2, _⟩ := buildField_text_color (t := t) h f
  exact ⟨c, h1, h2⟩

theorem fits_none (max : Nat) (v : List Char) : Fits max {} 0 v v := ⟨Nat.zero_le _, 0, 0, by simp, by simp, rfl⟩

/-! ## Segments without colours -/

mutual

theorem shows_off {t : Term} (ht : t.Ok) (hoff : t.colorize = false) {r : Record} :
    ∀ {s out}, Shows t.maxWidth r s out → buildSegment t r s = some out ∧ esc ∉ out
  | _, _, .text h => ⟨by rw [buildSegment], h⟩
  | _, _, .field (f := f) hf hv hfit => by
    obtain ⟨color, hc, _⟩ := buildField_text (t := t) hf f
    rw [buildSegment, hc]
    exact buildFormatted_off ht hoff hv _ _ hfit
  | _, _, .message h hv hd hfit => by
    rw [buildSegment]
    simp only [buildField, buildLog, h, colorDiff_notLike t hd]
    exact buildFormatted_off ht hoff hv _ _ hfit
  | _, _, .diff h hlines hb hx hy hv => by
    rw [buildSegment]
    simp only [buildField, buildLog, h, colorDiff_values hlines hb hx hy, diffText_off ht hoff]
    exact ⟨trivial, diffShown_esc hlines hx hy hv⟩
  | _, _, .hostMessage h hv => by
    rw [buildSegment]
    simp only [buildField, buildLog, h]
    exact ⟨trivial, hv⟩
  | _, _, .group hall hfit => by
    obtain ⟨h1, h2⟩ := showsAll_off ht hoff hall
    rw [buildSegment]
    simp only [h1]
    exact buildFormatted_off ht hoff h2 _ _ hfit

theorem showsAll_off {t : Term} (ht : t.Ok) (hoff : t.colorize = false) {r : Record} :
    ∀ {ss out}, ShowsAll t.maxWidth r ss out → buildSegments t r ss = some out ∧ esc ∉ out
  | _, _, .nil => ⟨by rw [buildSegments], by simp⟩
  | _, _, .cons h hs => by
    obtain ⟨h1, h2⟩ := shows_off ht hoff h
    obtain ⟨h3, h4⟩ := showsAll_off ht hoff hs
    rw [buildSegments]
    simp only [h1, h3]
    exact ⟨trivial, by simp [h2, h4]⟩

end

/-- any text without colours -/
theorem buildFormatted_any {t : Term} (ht : t.Ok) (hoff : t.colorize = false) {s : List Char}
    {f : Format} {dw : Nat} (level : Option Level) (color : Option LogColor) {out : List Char}
    (h : Widened t.maxWidth f dw s out) : buildFormatted t s f dw level color = some out := by
  obtain ⟨seen, h1, h2, h3⟩ := h
  have hpad := padded_unique h3
  rw [fillText_eq] at hpad
  have hmax := ht.maxWidth
  rw [← visible_iff.mp h1] at h2 hpad
  simp only [buildFormatted, ansi_length]
  rw [if_neg (by omega)]
  simp [writeColored, hoff, hpad]

mutual

theorem prints_off {t : Term} (ht : t.Ok) (hoff : t.colorize = false) {r : Record} :
    ∀ {s out}, Prints t.maxWidth r s out → buildSegment t r s = some out
  | _, _, .text => by rw [buildSegment]
  | _, _, .field (f := f) hf hfit => by
    obtain ⟨color, hc, _⟩ := buildField_text (t := t) hf f
    rw [buildSegment, hc]
    exact buildFormatted_any ht hoff _ _ hfit
  | _, _, .message h hd hfit => by
    rw [buildSegment]
    simp only [buildField, buildLog, h, colorDiff_notLike t hd]
    exact buildFormatted_any ht hoff _ _ hfit
  | _, _, .diff h hlines hb hx hy => by
    rw [buildSegment]
    simp only [buildField, buildLog, h, colorDiff_values hlines hb hx hy, diffText_off ht hoff]
  | _, _, .hostMessage h => by
    rw [buildSegment]
    simp only [buildField, buildLog, h]
  | _, _, .group hall hfit => by
    have h1 := printsAll_off ht hoff hall
    rw [buildSegment]
    simp only [h1]
    exact buildFormatted_any ht hoff _ _ hfit

theorem printsAll_off {t : Term} (ht : t.Ok) (hoff : t.colorize = false) {r : Record} :
    ∀ {ss out}, PrintsAll t.maxWidth r ss out → buildSegments t r ss = some out
  | _, _, .nil => by rw [buildSegments]
  | _, _, .cons h hs => by
    have h1 := prints_off ht hoff h
    have h3 := printsAll_off ht hoff hs
    rw [buildSegments]
    simp only [h1, h3]

end

/-! ## Segments with colours -/

theorem visible_field {t : Term} (ht : t.Ok) {v : List Char} (hv : esc ∉ v) {f : Format} {w : Nat}
    {level : Option Level} {color : Option LogColor} {max : Nat} {out shown : List Char}
    (hfit : Fits max f w v shown) (h : buildFormatted t v f w level color = some out) :
    stripAnsi out = shown ∧ Closed out := by
  obtain ⟨h1, h2⟩ := buildFormatted_visible ht h (Or.inr (Or.inr (not_reset_of_plain hv)))
  refine ⟨?_, h2 (closed_plain hv)⟩
  rw [h1, stripAnsi_plain hv, padded_unique hfit.2, fillText_eq]

theorem applyColor_none (l : Option Level) : applyColor none l = none := rfl

mutual

theorem shows_visible {t : Term} (ht : t.Ok) {r : Record} {max : Nat} :
    ∀ {s shown}, Shows max r s shown → GroupsSimple [s] → ∀ {out}, buildSegment t r s = some out →
      stripAnsi out = shown ∧ Closed out
  | _, _, .text h, _, out, ho => by
    rw [buildSegment] at ho
    simp only [Option.some.injEq] at ho
    subst ho
    exact ⟨stripAnsi_plain h, closed_plain h⟩
  | _, _, .field (f := f) hf hv hfit, _, out, ho => by
    obtain ⟨color, hc, _⟩ := buildField_text (t := t) hf f
    rw [buildSegment, hc] at ho
    exact visible_field ht hv hfit ho
  | _, _, .message h hv hd hfit, _, out, ho => by
    rw [buildSegment] at ho
    simp only [buildField, buildLog, h, colorDiff_notLike t hd] at ho
    exact visible_field ht hv hfit ho
  | _, _, .diff h hlines hb hx hy hv, _, out, ho => by
    rw [buildSegment] at ho
    simp only [buildField, buildLog, h, colorDiff_values hlines hb hx hy, Option.some.injEq] at ho
    subst ho
    obtain ⟨e1, e2, e3⟩ := parts_esc hlines hx hy hv
    exact ⟨diffText_visible ht e1 e2 e3, diffText_closed ht e1 e2 e3⟩
  | _, _, .hostMessage h hv, _, out, ho => by
    rw [buildSegment] at ho
    simp only [buildField, buildLog, h, Option.some.injEq] at ho
    subst ho
    exact ⟨stripAnsi_plain hv, closed_plain hv⟩
  | _, _, .group (segments := segments) (f := f) hall hfit, hg, out, ho => by
    rw [buildSegment] at ho
    cases hg with
    | group hwidth hin _ =>
      cases hb : buildSegments t r segments with
      | none => rw [hb] at ho; cases ho
      | some s =>
        rw [hb] at ho
        simp only at ho
        obtain ⟨h1, h2⟩ := showsAll_visible ht hall hin hb
        have hcase : f.width.getD 0 = 0 ∨ (applyColor f.color r.level = none ∧ f.style.getD [] = []) ∨ ¬ reset <:+: s := by
          rcases hwidth with hw | ⟨hc, hs⟩
          · left; rw [hw]; rfl
          · right; left; rw [hc, hs]; exact ⟨rfl, rfl⟩
        obtain ⟨h3, h4⟩ := buildFormatted_visible ht ho hcase
        refine ⟨?_, h4 h2⟩
        rw [h3, h1, padded_unique hfit.2, fillText_eq]

theorem showsAll_visible {t : Term} (ht : t.Ok) {r : Record} {max : Nat} :
    ∀ {ss shown}, ShowsAll max r ss shown → GroupsSimple ss → ∀ {out}, buildSegments t r ss = some out →
      stripAnsi out = shown ∧ Closed out
  | _, _, .nil, _, out, ho => by
    rw [buildSegments] at ho
    simp only [Option.some.injEq] at ho
    subst ho
    exact ⟨rfl, rfl⟩
  | _, _, .cons (s := s) (ss := ss) h hs, hg, out, ho => by
    have hg1 : GroupsSimple [s] := by
      cases hg with
      | text _ => exact .text .nil
      | field _ => exact .field .nil
      | group a b _ => exact .group a b .nil
    have hg2 : GroupsSimple ss := by
      cases hg with
      | text h => exact h
      | field h => exact h
      | group _ _ h => exact h
    rw [buildSegments] at ho
    cases ha : buildSegment t r s with
    | none => rw [ha] at ho; cases ho
    | some a =>
      cases hb : buildSegments t r ss with
      | none => rw [ha, hb] at ho; cases ho
      | some b =>
        rw [ha, hb] at ho
        simp only [Option.some.injEq] at ho
        subst ho
        obtain ⟨h1, h2⟩ := shows_visible ht h hg1 ha
        obtain ⟨h3, h4⟩ := showsAll_visible ht hs hg2 hb
        exact ⟨by rw [stripAnsi_closed h2, h1, h3], h2.append h4⟩

end

end Defmt.LogFormat
