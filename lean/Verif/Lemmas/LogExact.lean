import Verif.Lemmas.LogPaint
import Verif.Spec.LogExact
/-!
Groups with a width and a style.
-/

namespace Defmt.LogFormat

open Parser

/-- one more character: does it end all styles? -/
def endStep (st : AnsiState) (c : Char) : Nat :=
  match st with
  | .params seen => if c = 'm' ∧ seen = ['0'] then 1 else 0
  | _ => 0

/-- the number of resets, from the middle of a possible sequence -/
def endsFrom (st : AnsiState) : List Char → Nat
  | [] => 0
  | c :: s => endStep st c + endsFrom (ansiStep st c).1 s

theorem endsFrom_append (a : List Char) : ∀ (st : AnsiState) (b : List Char), endsFrom st (a ++ b) = endsFrom st a + endsFrom (stateAfter st a) b := by
  induction a with
  | nil => intro st b; simp [endsFrom, stateAfter]
  | cons c a ih => intro st b; simp only [List.cons_append, endsFrom, stateAfter, ih]; omega

theorem endStep_esc (st : AnsiState) : endStep st esc = 0 := by
  cases st with
  | text => rfl
  | esc => rfl
  | params seen => simp [endStep, show esc ≠ 'm' from by decide]

theorem endsFrom_reset (st : AnsiState) (rest : List Char) : endsFrom st (reset ++ rest) = 1 + endsFrom .text rest := by
  simp only [reset, List.cons_append, endsFrom, ansiStep_esc, endStep_esc]
  rw [show endStep .esc '[' = 0 from rfl, show (ansiStep .esc '[').1 = .params [] from rfl]
  rw [show endStep (.params []) '0' = 0 from rfl, show (ansiStep (.params []) '0').1 = .params ['0'] from rfl]
  rw [show endStep (.params ['0']) 'm' = 1 from rfl, show (ansiStep (.params ['0']) 'm').1 = .text from rfl]
  simp

theorem notReset_end {st : AnsiState} {c : Char} {s : List Char} (h : NotReset st (c :: s)) : endStep st c = 0 := by
  cases st with
  | text => rfl
  | esc => rfl
  | params seen =>
    simp only [endStep]
    split
    · rename_i hm
      obtain ⟨rfl, rfl⟩ := hm
      exact absurd rfl (h (by simp [AnsiState.pending]) s)
    · rfl

theorem endsFrom_params {ps : List Char} (h : ∀ c ∈ ps, isDigit c = true ∨ c = ';') : ∀ seen, seen ++ ps ≠ ['0'] →
    endsFrom (.params seen) (ps ++ ['m']) = 0 := by
  induction ps with
  | nil => intro seen h0; simp only [List.append_nil] at h0; simp [endsFrom, endStep, h0]
  | cons c ps ih =>
    intro seen h0
    have hc := h c (by simp)
    have hm := okParam_ne_m hc
    have hstep : ansiStep (.params seen) c = (.params (seen ++ [c]), []) := by
      simp only [ansiStep, if_neg hm]
      exact if_pos hc
    rw [List.cons_append, endsFrom, hstep, ih (fun d hd => h d (by simp [hd])) _ (by simpa using h0)]
    simp [endStep, hm]

theorem endsFrom_sequence {q : List Char} (hq : Sequence q) (hne : q ≠ reset) (s : List Char) : endsFrom .text (q ++ s) = endsFrom .text s := by
  rw [endsFrom_append]
  have hc : stateAfter .text q = .text := closed_sequence hq
  rw [hc]
  cases hq with
  | mk ps hps =>
    have h0 : ps ≠ ['0'] := by rintro rfl; exact hne rfl
    have := endsFrom_params hps [] (by simpa using h0)
    simp only [List.cons_append, endsFrom]
    rw [show endStep .text (Char.ofNat 27) = 0 from rfl, show (ansiStep .text (Char.ofNat 27)).1 = .esc from rfl]
    rw [show endStep .esc '[' = 0 from rfl, show (ansiStep .esc '[').1 = .params [] from rfl, this]
    simp

theorem endings_cons_ne {c : Char} (h : c ≠ esc) (s : List Char) : endings (c :: s) = endings s := by
  rw [endings, if_neg]
  · simp
  · rintro ⟨r, hr⟩
    rw [endSequence_eq, reset, List.cons_append] at hr
    exact h (List.cons.inj hr).1.symm

theorem endings_plain {s : List Char} (h : esc ∉ s) : endings s = 0 := by
  induction s with
  | nil => rfl
  | cons c s ih =>
    simp only [List.mem_cons, not_or] at h
    rw [endings_cons_ne (Ne.symm h.1), ih h.2]

theorem endings_reset (rest : List Char) : endings (reset ++ rest) = 1 + endings rest := by
  rw [reset, List.cons_append, endings, if_pos ⟨rest, rfl⟩]
  simp only [List.cons_append, List.nil_append]
  rw [endings_cons_ne (by decide), endings_cons_ne (by decide), endings_cons_ne (by decide)]

/-- what is inserted in a text by the style around it -/
theorem escapeInner_ends {q : List Char} (hq : Sequence q) (hne : q ≠ reset) (s : List Char) : ∀ st, NotReset st s →
    (escapeInner q s).length = s.length + endings s * q.length ∧ endsFrom st (escapeInner q s) = endings s ∧ endsFrom st s = endings s := by
  fun_induction escapeInner q s with
  | case1 a b c d rest heq ih =>
    intro st hn
    have e : a :: b :: c :: d :: rest = reset ++ rest := by rw [← heq]; rfl
    obtain ⟨h1, h2, h3⟩ := ih .text (by intro h; exact absurd rfl h)
    rw [e, List.append_assoc, endings_reset, endsFrom_reset, endsFrom_reset, endsFrom_sequence hq hne, h2, h3]
    refine ⟨?_, rfl, rfl⟩
    simp only [List.length_append, h1]
    rw [Nat.add_mul]
    omega
  | case2 a b c d rest hne' ih =>
    intro st hn
    have hnp : ∀ r, a :: b :: c :: d :: rest ≠ reset ++ r := by
      intro r hr
      apply hne'
      simp only [reset, List.cons_append, List.cons.injEq, List.nil_append] at hr
      obtain ⟨h1, h2, h3, h4, _⟩ := hr
      rw [h1, h2, h3, h4]; rfl
    have hn' := notReset_next hn (fun _ r hr => hnp r hr)
    obtain ⟨h1, h2, h3⟩ := ih _ hn'
    have he : endings (a :: b :: c :: d :: rest) = endings (b :: c :: d :: rest) := by
      rw [endings, if_neg]
      · simp
      · rintro ⟨r, hr⟩; exact hnp r hr.symm
    rw [he, List.length_cons, endsFrom, endsFrom, h1, h2, h3, notReset_end hn]
    simp only [List.length_cons]
    refine ⟨by omega, by omega, by omega⟩
  | case3 s h =>
    intro st hn
    have hs : s.length < 4 := by
      match s, h with
      | [], _ => simp
      | [_], _ => simp
      | [_, _], _ => simp
      | [_, _, _], _ => simp
      | a :: b :: c :: d :: r, h => exact (h a b c d r rfl).elim
    have he : ∀ s : List Char, s.length < 4 → endings s = 0 := by
      intro s
      induction s with
      | nil => intro _; rfl
      | cons c s ih =>
        intro hl
        rw [endings, ih (by simp at hl; omega), if_neg]
        intro hp
        have := hp.length_le
        simp only [endSequence_eq, reset, List.length_cons, List.length_nil] at this hl
        omega
    have hf : ∀ (s : List Char) (st : AnsiState), s.length < 4 → NotReset st s → endsFrom st s = 0 := by
      intro s
      induction s with
      | nil => intros; rfl
      | cons c s ih =>
        intro st hl hn
        rw [endsFrom, notReset_end hn, ih _ (by simp at hl; omega)]
        apply notReset_next hn
        intro _ r hr
        have := congrArg List.length hr
        simp only [reset, List.length_append, List.length_cons, List.length_nil] at this hl
        omega
    rw [he s hs, hf s st hs hn]
    simp

theorem notReset_text (s : List Char) : NotReset .text s := by intro h; exact absurd rfl h

theorem endings_eq (s : List Char) : endings s = endsFrom .text s :=
  (escapeInner_ends (q := esc :: '[' :: [] ++ ['m']) (Sequence.mk [] (by simp)) (by decide) s .text (notReset_text s)).2.2.symm

theorem endings_append {a : List Char} (h : Closed a) (b : List Char) : endings (a ++ b) = endings a + endings b := by
  rw [endings_eq, endings_eq, endings_eq, endsFrom_append]
  have : stateAfter .text a = .text := h
  rw [this]

theorem escapeInner_cons_ne (q : List Char) {c : Char} (h : c ≠ esc) (s : List Char) : escapeInner q (c :: s) = c :: escapeInner q s := by
  match s with
  | [] => rfl
  | [_] => rfl
  | [_, _] => rfl
  | x :: y :: z :: s =>
    rw [escapeInner, if_neg]
    intro he
    rw [reset] at he
    exact h (List.cons.inj he).1

theorem escapeInner_before (q : List Char) {a : List Char} (h : esc ∉ a) (s : List Char) : escapeInner q (a ++ s) = a ++ escapeInner q s := by
  induction a with
  | nil => rfl
  | cons c a ih =>
    simp only [List.mem_cons, not_or] at h
    rw [List.cons_append, escapeInner_cons_ne q (Ne.symm h.1), ih h.2]
    rfl

theorem escapeInner_after (q : List Char) (s : List Char) {b : List Char} (h : esc ∉ b) (hm : 'm' ∉ b) : escapeInner q (s ++ b) = escapeInner q s ++ b := by
  fun_induction escapeInner q s with
  | case1 x y z w rest heq ih =>
    have e : x :: y :: z :: w :: rest ++ b = x :: y :: z :: w :: (rest ++ b) := rfl
    rw [e, escapeInner, if_pos heq, ih]
    simp
  | case2 x y z w rest hne ih =>
    have e : x :: y :: z :: w :: rest ++ b = x :: y :: z :: w :: (rest ++ b) := rfl
    rw [e, escapeInner, if_neg hne]
    rw [show y :: z :: w :: (rest ++ b) = y :: z :: w :: rest ++ b from rfl, ih]
    rfl
  | case3 s hs =>
    rw [escapeInner_eq]
    rintro ⟨u, v, huv⟩
    -- the last character of the reset is in `s`
    have hs4 : s.length < 4 := by
      match s, hs with
      | [], _ => simp
      | [_], _ => simp
      | [_, _], _ => simp
      | [_, _, _], _ => simp
      | a :: b :: c :: d :: r, h => exact (h a b c d r rfl).elim
    have hget : (s ++ b)[u.length + 3]? = some 'm' := by
      rw [← huv, List.append_assoc, List.getElem?_append_right (by omega)]
      simp [reset]
    rw [List.getElem?_append_right (by omega)] at hget
    exact hm (List.mem_of_getElem? hget)

theorem escapeInner_padTo (q : List Char) {w w' : Nat} {a : Alignment} {fill : Char} (hf : isFill fill) (s : List Char)
    (h : w - s.length = w' - (escapeInner q s).length) : escapeInner q (padTo w a fill s) = padTo w' a fill (escapeInner q s) := by
  have hn : ∀ n, esc ∉ List.replicate n fill := by
    intro n hm
    have := (List.mem_replicate.mp hm).2
    rcases hf with h | h <;> rw [h] at this <;> exact absurd this (by decide)
  have hm : ∀ n, 'm' ∉ List.replicate n fill := by
    intro n hm
    have := (List.mem_replicate.mp hm).2
    rcases hf with h | h <;> rw [h] at this <;> exact absurd this (by decide)
  cases a with
  | left => simp only [padTo, h]; rw [escapeInner_after q s (hn _) (hm _)]
  | right => simp only [padTo, h]; rw [escapeInner_before q (hn _)]
  | center => simp only [padTo, h]; rw [escapeInner_after q _ (hn _) (hm _), escapeInner_before q (hn _)]

theorem stripAnsi_escaped_padTo {q : List Char} (hq : Sequence q) (hne : q ≠ reset) (w : Nat) (a : Alignment) {fill : Char} (hf : isFill fill)
    (s : List Char) :
    padTo (w + (s.length - (stripAnsi s).length)) a fill (escapeInner q s) =
      escapeInner q (padTo (w - endings s * q.length + (s.length - (stripAnsi s).length)) a fill s) := by
  have hle := stripAnsi_length_le s
  have hl := (escapeInner_ends hq hne s .text (notReset_text s)).1
  rw [escapeInner_padTo q hf s (w' := w + (s.length - (stripAnsi s).length))]
  omega

/-- the visible part of a formatted text, in every case -/
theorem buildFormatted_exact {t : Term} (ht : t.Ok) {s : List Char} {f : Format} {dw : Nat} {level : Option Level} {color : Option LogColor}
    {out : List Char} (h : buildFormatted t s f dw level color = some out) :
    stripAnsi out = padTo (reduced t (applyColor color level) (f.style.getD []) (f.width.getD dw) (endings s)) (f.alignment.getD .left)
      (fillOf (f.padding.getD .space)) (stripAnsi s) := by
  have hout := buildFormatted_some h
  have hf := fillOf_isFill (f.padding.getD .space)
  simp only [writeColored] at hout
  rw [reduced, wantedStyle]
  split at hout
  · rename_i hc
    rw [if_pos hc, hout]
    simpa using stripAnsi_padTo _ _ hf s
  · rename_i hc
    rw [if_neg hc]
    have hq := sequence_style ht (applyColor color level) (f.style.getD [])
    have hne := style_not_reset ht (fun h => hc (Or.inr h))
    rw [hout, stripAnsi_reset, stripAnsi_sequence hq, stripAnsi_escaped_padTo hq hne _ _ hf, stripAnsi_escapeInner ht, stripAnsi_padTo _ _ hf]
    simp [styleOf, esc]

/-- a styled and padded text -/
theorem shown_formatted_exact {t : Term} (ht : t.Ok) {s : List Char} {v : List Cell} (h : Shown s v) {f : Format} {dw : Nat}
    {l : Level} {color : Option LogColor} {out : List Char} (ho : buildFormatted t s f dw (some l) color = some out) {cells : List Cell}
    (hp : Padded (reduced t (wantedColor color l) (f.style.getD []) (f.width.getD dw) (endings s)) (f.alignment.getD .left) (fillText f, []) v cells) :
    Shown out (cells.map fun c => (c.1, wantedStyle t (wantedColor color l) (f.style.getD []) ++ c.2)) ∧
      endings out = endings s + styleEnds t (wantedColor color l) (f.style.getD []) := by
  have hout := buildFormatted_some ho
  have hf := fillOf_isFill (f.padding.getD .space)
  rw [fillText_eq] at hp
  have hpad := shown_padTo h hf hp h.length
  have hend : ∀ w, endings (padTo w (f.alignment.getD .left) (fillOf (f.padding.getD .space)) s) = endings s := by
    intro w
    have hn : ∀ n, esc ∉ List.replicate n (fillOf (f.padding.getD .space)) := by
      intro n hm
      have := (List.mem_replicate.mp hm).2
      rcases hf with h | h <;> rw [h] at this <;> exact absurd this (by decide)
    cases f.alignment.getD .left with
    | left => simp only [padTo]; rw [endings_append h.1, endings_plain (hn _)]; rfl
    | right => simp only [padTo]; rw [endings_append (closed_fill hf _), endings_plain (hn _)]; omega
    | center =>
      simp only [padTo]
      rw [endings_append ((closed_fill hf _).append h.1), endings_append (closed_fill hf _), endings_plain (hn _), endings_plain (hn _)]; omega
  simp only [writeColored, applyColor_eq] at hout
  by_cases hcase : t.colorize = false ∨ (wantedColor color l = none ∧ f.style.getD [] = [])
  · rw [if_pos hcase] at hout
    have e : wantedStyle t (wantedColor color l) (f.style.getD []) = [] := if_pos hcase
    rw [styleEnds, e, hout]
    rw [reduced, e] at hpad
    refine ⟨by simpa using hpad, by rw [hend]; rfl⟩
  · rw [if_neg hcase] at hout
    have hne : ¬ (wantedColor color l = none ∧ f.style.getD [] = []) := fun h => hcase (Or.inr h)
    have e : wantedStyle t (wantedColor color l) (f.style.getD []) = [styleOf t (wantedColor color l) (f.style.getD [])] :=
      if_neg hcase
    have hq := sequence_style ht (wantedColor color l) (f.style.getD [])
    have hq' := style_not_reset ht hne
    rw [stripAnsi_escaped_padTo hq hq' _ _ hf] at hout
    rw [reduced, e] at hpad
    simp only [List.flatten_cons, List.flatten_nil, List.append_nil] at hpad
    have hclosed : Closed (escapeInner (styleOf t (wantedColor color l) (f.style.getD []))
        (padTo (f.width.getD dw - endings s * (styleOf t (wantedColor color l) (f.style.getD [])).length + (s.length - (stripAnsi s).length))
          (f.alignment.getD .left) (fillOf (f.padding.getD .space)) s)) := by
      rw [Closed, (escapeInner_state ht _ _ _ .text).1]
      exact hpad.1
    rw [styleEnds, e, hout]
    refine ⟨shown_styled hq hq' hpad hclosed, ?_⟩
    rw [List.append_assoc, endings_eq, endsFrom_sequence hq hq', ← endings_eq, endings_append hclosed,
      endings_eq (escapeInner _ _), (escapeInner_ends hq hq' _ .text (notReset_text _)).2.1, hend]
    rfl

theorem endings_paint {t : Term} (ht : t.Ok) (fg : Option Color) (styles : List Style) {s : List Char} (hs : esc ∉ s) :
    endings (paint t fg styles s) = styleEnds t fg styles := by
  unfold paint writeColored styleEnds wantedStyle
  split
  · exact endings_plain hs
  · rename_i hc
    have hq := sequence_style ht fg styles
    have hq' := style_not_reset ht (fun h => hc (Or.inr h))
    rw [id, escapeInner_eq (not_reset_of_plain hs), List.append_assoc, endings_eq, endsFrom_sequence hq hq', ← endings_eq,
      endings_append (closed_plain hs), endings_plain hs]
    rfl

theorem styleEnds_diff (t : Term) (fg : Option Color) (styles : List Style) (h : ¬ (fg = none ∧ styles = [])) :
    styleEnds t fg styles = if t.colorize = false then 0 else 1 := by
  unfold styleEnds wantedStyle
  by_cases hc : t.colorize = false
  · simp [hc]
  · rw [if_neg (fun h1 => h1.elim hc h), if_neg hc]; rfl

theorem endings_chunks {t : Term} (ht : t.Ok) {l r : List Char} {cs : List Chunk} (h : IsDiff l r cs) (hl : esc ∉ l) (hr : esc ∉ r) :
    endings (cs.flatMap (leftChunk t)) = (if t.colorize = false then 0 else (cs.filter Chunk.ofLeft).length) ∧
    endings (cs.flatMap (rightChunk t)) = (if t.colorize = false then 0 else (cs.filter Chunk.ofRight).length) := by
  induction h with
  | nil => simp [endings]
  | equal _ _ ih =>
    simp only [List.mem_append, not_or] at hl hr
    obtain ⟨i1, i2⟩ := ih hl.2 hr.2
    simp only [List.flatMap_cons, leftChunk, rightChunk]
    rw [endings_append (shown_paint ht _ _ hl.1).1, endings_append (shown_paint ht _ _ hr.1).1, i1, i2, endings_paint ht _ _ hl.1,
      endings_paint ht _ _ hr.1, styleEnds_diff t _ _ (by simp), styleEnds_diff t _ _ (by simp)]
    by_cases hc : t.colorize = false
    · simp [hc]
    · simp only [if_neg hc, List.filter_cons, Chunk.ofLeft, Chunk.ofRight]
      constructor <;> simp <;> omega
  | delete _ _ ih =>
    simp only [List.mem_append, not_or] at hl
    obtain ⟨i1, i2⟩ := ih hl.2 hr
    simp only [List.flatMap_cons, leftChunk, rightChunk]
    rw [endings_append (shown_paint ht _ _ hl.1).1, i1, List.nil_append, i2, endings_paint ht _ _ hl.1, styleEnds_diff t _ _ (by simp)]
    by_cases hc : t.colorize = false
    · simp [hc]
    · simp only [if_neg hc, List.filter_cons, Chunk.ofLeft, Chunk.ofRight]
      constructor <;> simp <;> omega
  | insert _ _ ih =>
    simp only [List.mem_append, not_or] at hr
    obtain ⟨i1, i2⟩ := ih hl hr.2
    simp only [List.flatMap_cons, leftChunk, rightChunk]
    rw [endings_append (shown_paint ht _ _ hr.1).1, i2, List.nil_append, i1, endings_paint ht _ _ hr.1, styleEnds_diff t _ _ (by simp)]
    by_cases hc : t.colorize = false
    · simp [hc]
    · simp only [if_neg hc, List.filter_cons, Chunk.ofLeft, Chunk.ofRight]
      constructor <;> simp <;> omega

theorem endings_diff {t : Term} (ht : t.Ok) {before : List (List Char)} {x y : List Char} (hb : esc ∉ textOfLines before) (hx : esc ∉ x) (hy : esc ∉ y) :
    endings (diffText t before x y) = diffEnds t x y := by
  obtain ⟨h1, h2⟩ := endings_chunks ht (ht.diff x y) hx hy
  obtain ⟨s1, s2⟩ := shown_chunks ht (ht.diff x y) hx hy
  have c : ∀ (fg : Option Color) (styles : List Style) {s : List Char}, esc ∉ s → Closed (paint t fg styles s) := fun _ _ _ h => (shown_paint ht _ _ h).1
  have p : ∀ {s : List Char}, esc ∉ s → Closed s := fun h => closed_plain h
  unfold diffText diffEnds
  rw [joinLines_eq]
  simp only [List.append_assoc]
  rw [endings_append (c _ _ hb), endings_append (p (by decide)), endings_append (c _ _ (by decide)), endings_append (p (by decide)),
    endings_append (c _ _ (by decide)), endings_append (p (by decide)), endings_append (c _ _ (by decide)), endings_append (p (by decide)),
    endings_append (c _ _ (by decide)), endings_append s1.1, endings_append (p (by decide)), endings_append (c _ _ (by decide)), h1, h2,
    endings_paint ht _ _ hb, endings_paint ht _ _ (by decide), endings_paint ht _ _ (by decide), endings_paint ht _ _ (by decide),
    endings_paint ht _ _ (by decide), endings_paint ht _ _ (by decide)]
  simp only [endings_plain (show esc ∉ c!"\n" by decide), endings_plain (show esc ∉ c!" " by decide), endings_plain (show esc ∉ c!" / " by decide)]
  rw [styleEnds_diff t _ _ (by simp), styleEnds_diff t _ _ (by simp), styleEnds_diff t _ _ (by simp)]
  by_cases hc : t.colorize = false
  · simp only [if_pos hc]
  · simp only [if_neg hc]; omega

/-! ## Texts with sequences -/

theorem stateAfter_split (s : List Char) : ∀ st : AnsiState, st.Ok → (stateAfter st s).Ok ∧ ∃ a, st.pending ++ s = a ++ (stateAfter st s).pending := by
  induction s with
  | nil => intro st h; exact ⟨h, [], by simp [stateAfter]⟩
  | cons c s ih =>
    intro st h
    obtain ⟨h1, a, h2⟩ := ih (ansiStep st c).1 (ansiStep_ok h c)
    refine ⟨h1, ?_⟩
    have key : ∃ a', st.pending ++ [c] = a' ++ (ansiStep st c).1.pending := by
      cases st with
      | text =>
        simp only [ansiStep]
        split
        · rename_i hc; exact ⟨[], by rw [hc]; rfl⟩
        · exact ⟨[c], rfl⟩
      | esc =>
        simp only [ansiStep]
        split
        · rename_i hc; exact ⟨[], by rw [hc]; rfl⟩
        · split
          · rename_i hc; exact ⟨[LogFormat.esc], by rw [hc]; rfl⟩
          · exact ⟨[LogFormat.esc, c], rfl⟩
      | params seen =>
        simp only [ansiStep]
        split
        · exact ⟨AnsiState.pending (.params seen) ++ [c], by simp [AnsiState.pending]⟩
        · split
          · exact ⟨[], rfl⟩
          · split
            · rename_i hc; exact ⟨AnsiState.pending (.params seen), by rw [hc]; rfl⟩
            · exact ⟨AnsiState.pending (.params seen) ++ [c], by simp [AnsiState.pending]⟩
    obtain ⟨a', ha'⟩ := key
    refine ⟨a' ++ a, ?_⟩
    rw [show st.pending ++ c :: s = st.pending ++ [c] ++ s by simp, ha', List.append_assoc, h2, List.append_assoc]
    rfl

theorem Contained.shown {s : List Char} {v : List Cell} (h : Contained s v) : Shown s v := by
  have hc : Closed s := by
    obtain ⟨h1, a, h2⟩ := stateAfter_split s .text trivial
    simp only [AnsiState.pending, List.nil_append] at h2
    rw [Closed]
    cases hst : stateAfter .text s with
    | text => rfl
    | esc =>
      rw [hst] at h2
      exact absurd rfl (h.complete a [] h2).1
    | params seen =>
      rw [hst] at h1 h2
      exact absurd rfl ((h.complete a ('[' :: seen) h2).2 seen h1)
  have := h.rendered.unique (rendered_renderFrom s .text [] trivial)
  exact ⟨hc, this.1.symm, this.2.symm⟩

theorem stateAfter_ofParams {ps : List Char} (h : ∀ c ∈ ps, isDigit c = true ∨ c = ';') : ∀ seen, stateAfter (.params seen) ps = .params (seen ++ ps) := by
  induction ps with
  | nil => intro seen; simp [stateAfter]
  | cons c ps ih =>
    intro seen
    have hc := h c (by simp)
    have hm := okParam_ne_m hc
    have hstep : ansiStep (.params seen) c = (.params (seen ++ [c]), []) := by
      simp only [ansiStep, if_neg hm]
      exact if_pos hc
    rw [stateAfter, hstep, ih fun d hd => h d (by simp [hd])]
    simp

theorem contained_of_shown {s : List Char} {v : List Cell} (h : Shown s v) : Contained s v where
  rendered := h.rendered
  complete a b e := by
    have hc : stateAfter .text s = .text := h.1
    rw [e, stateAfter_append, stateAfter, show Char.ofNat 27 = esc from rfl, ansiStep_esc] at hc
    refine ⟨?_, ?_⟩
    · rintro rfl
      cases hc
    · rintro ps hps rfl
      rw [stateAfter, show (ansiStep .esc '[').1 = .params [] from rfl, stateAfter_ofParams hps] at hc
      cases hc

theorem contained_plain {s : List Char} (h : esc ∉ s) : Contained s (s.map fun c => (c, [])) where
  rendered := (shown_plain h).rendered
  complete a b e := by
    exfalso
    apply h
    rw [e]
    simp [esc]

mutual

theorem drawn_shown {t : Term} (ht : t.Ok) {r : Record} {l : Level} (hl : r.level = some l) :
    ∀ {s cells n}, Drawn t r l s cells n → ∀ {out}, buildSegment t r s = some out → Shown out cells ∧ endings out = n
  | _, _, _, .text h, out, ho => by
    rw [buildSegment] at ho
    simp only [Option.some.injEq] at ho
    subst ho
    exact ⟨h.shown, rfl⟩
  | _, _, _, .field (m := m) (f := f) hf hv hp, out, ho => by
    obtain ⟨color, hc, hne, heq⟩ := buildField_text_color (t := t) hf f
    rw [buildSegment, hc, hl] at ho
    have e : color = fieldColor m f := by
      by_cases hm : m = .logLevel
      · rw [heq hm, fieldColor]
        cases hcol : f.color with
        | none => rw [if_pos ⟨hm, rfl⟩]; rfl
        | some c => rw [if_neg (by simp)]; rfl
      · rw [hne hm, fieldColor, if_neg (by simp [hm])]
    rw [e] at ho
    exact shown_formatted_exact ht hv.shown ho hp
  | _, _, _, .message h hd hv hp, out, ho => by
    rw [buildSegment] at ho
    simp only [buildField, buildLog, h, colorDiff_notLike t hd, hl] at ho
    exact shown_formatted_exact ht hv.shown ho hp
  | _, _, _, .diff h hlines hb hx hy hv, out, ho => by
    rw [buildSegment] at ho
    simp only [buildField, buildLog, h, colorDiff_values hlines hb hx hy, Option.some.injEq] at ho
    subst ho
    obtain ⟨e1, e2, e3⟩ := parts_esc hlines hx hy hv
    exact ⟨shown_diff ht e1 e2 e3, endings_diff ht e1 e2 e3⟩
  | _, _, _, .hostMessage h hv, out, ho => by
    rw [buildSegment] at ho
    simp only [buildField, buildLog, h, Option.some.injEq] at ho
    subst ho
    exact ⟨hv.shown, rfl⟩
  | _, _, _, .group (segments := segments) (f := f) hall hp, out, ho => by
    rw [buildSegment] at ho
    cases hb : buildSegments t r segments with
    | none => rw [hb] at ho; cases ho
    | some s =>
      rw [hb] at ho
      simp only [hl] at ho
      obtain ⟨h1, h2⟩ := drawnAll_shown ht hl hall hb
      subst h2
      exact shown_formatted_exact ht h1 ho hp

theorem drawnAll_shown {t : Term} (ht : t.Ok) {r : Record} {l : Level} (hl : r.level = some l) :
    ∀ {ss cells n}, DrawnAll t r l ss cells n → ∀ {out}, buildSegments t r ss = some out → Shown out cells ∧ endings out = n
  | _, _, _, .nil, out, ho => by
    rw [buildSegments] at ho
    simp only [Option.some.injEq] at ho
    subst ho
    exact ⟨⟨rfl, rfl, rfl⟩, rfl⟩
  | _, _, _, .cons (s := s) (ss := ss) h hs, out, ho => by
    rw [buildSegments] at ho
    cases ha : buildSegment t r s with
    | none => rw [ha] at ho; cases ho
    | some a =>
      cases hb : buildSegments t r ss with
      | none => rw [ha, hb] at ho; cases ho
      | some b =>
        rw [ha, hb] at ho
        simp only [Option.some.injEq] at ho
        subst ho
        obtain ⟨h1, h2⟩ := drawn_shown ht hl h ha
        obtain ⟨h3, h4⟩ := drawnAll_shown ht hl hs hb
        exact ⟨h1.append h3, by rw [endings_append h1.1, h2, h4]⟩

end

end Defmt.LogFormat
