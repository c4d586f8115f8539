import Verif.Spec.LogFormat
/-!
Lemmas about the log output: escape sequences and padding.
-/

namespace Defmt.LogFormat

open Parser

/-! ## Sequences -/

def okParam (c : Char) : Prop := isDigit c = true ∨ c = ';'

instance (c : Char) : Decidable (okParam c) := inferInstanceAs (Decidable (_ ∨ _))

/-- what follows the sequence whose parameters start here -/
def paramRest : List Char → Option (List Char)
  | [] => none
  | c :: r => if c = 'm' then some r else if okParam c then paramRest r else none

theorem okParam_ne_m {c : Char} (h : okParam c) : c ≠ 'm' := by
  intro hc; subst hc; rcases h with h | h
  · exact absurd h (by decide)
  · exact absurd h (by decide)

theorem okParam_ne_esc {c : Char} (h : okParam c) : c ≠ esc := by
  intro hc; subst hc; rcases h with h | h
  · exact absurd h (by decide)
  · exact absurd h (by decide)

theorem okParam_ascii {c : Char} (h : okParam c) : c.toNat < 128 := by
  rcases h with h | h
  · simp only [isDigit, Bool.and_eq_true, decide_eq_true_eq] at h
    have : c.toNat ≤ '9'.toNat := h.2
    have h9 : '9'.toNat = 57 := rfl
    omega
  · subst h; decide

theorem paramRest_append (ps rest : List Char) (h : ∀ c ∈ ps, okParam c) :
    paramRest (ps ++ 'm' :: rest) = some rest := by
  induction ps with
  | nil => simp [paramRest]
  | cons c ps ih =>
    have hc := h c (by simp)
    simp only [List.cons_append, paramRest]
    rw [if_neg (okParam_ne_m hc), if_pos hc]
    exact ih fun d hd => h d (by simp [hd])

theorem paramRest_ok (ps rest : List Char) (h : ∀ c ∈ ps, okParam c) :
    paramRest (ps ++ rest) = paramRest rest := by
  induction ps with
  | nil => rfl
  | cons c ps ih =>
    have hc := h c (by simp)
    simp only [List.cons_append, paramRest]
    rw [if_neg (okParam_ne_m hc), if_pos hc]
    exact ih fun d hd => h d (by simp [hd])

theorem esc_eq : esc = Char.ofNat 27 := rfl

theorem not_sequence_of_ne_esc {c : Char} (hc : c ≠ esc) (s : List Char) :
    ∀ q rest, Sequence q → c :: s ≠ q ++ rest := by
  intro q rest hq h
  cases hq
  simp only [List.cons_append, List.cons.injEq] at h
  exact hc h.1

theorem not_sequence_of_ne_bracket {c : Char} (hc : c ≠ '[') (s : List Char) :
    ∀ q rest, Sequence q → esc :: c :: s ≠ q ++ rest := by
  intro q rest hq h
  cases hq
  simp only [List.cons_append, List.cons.injEq] at h
  exact hc h.2.1

theorem not_sequence_esc : ∀ q rest, Sequence q → [esc] ≠ q ++ rest := by
  intro q rest hq h
  cases hq
  simp only [List.cons_append, List.cons.injEq] at h
  exact absurd h.2 (by simp)

theorem not_sequence_of_paramRest {r : List Char} (hr : paramRest r = none) :
    ∀ q rest, Sequence q → esc :: '[' :: r ≠ q ++ rest := by
  intro q rest hq h
  cases hq with
  | mk ps hps =>
    simp only [List.cons_append, List.cons.injEq, List.append_assoc, List.nil_append] at h
    rw [h.2.2, paramRest_append ps rest hps] at hr
    cases hr

theorem visible_chars {a s v : List Char} (ha : ∀ c ∈ a, c ≠ esc) (h : Visible s v) :
    Visible (a ++ s) (a ++ v) := by
  induction a with
  | nil => exact h
  | cons c a ih =>
    refine Visible.char (not_sequence_of_ne_esc (ha c (by simp)) _) ?_
    exact ih fun d hd => ha d (by simp [hd])

theorem okParams_ne_esc {ps : List Char} (h : ∀ c ∈ ps, okParam c) : ∀ c ∈ ps, c ≠ esc :=
  fun c hc => okParam_ne_esc (h c hc)

/-- the parameters of a possible match are parameters -/
def AnsiState.Ok : AnsiState → Prop
  | .params seen => ∀ c ∈ seen, okParam c
  | _ => True

theorem ansiStep_ok {st : AnsiState} (h : st.Ok) (c : Char) : (ansiStep st c).1.Ok := by
  cases st with
  | text => simp only [ansiStep]; split <;> trivial
  | esc =>
    simp only [ansiStep]
    split
    · intro d hd; cases hd
    · split <;> trivial
  | params seen =>
    simp only [ansiStep]
    split
    · trivial
    · split
      · rename_i hc
        intro d hd
        simp only [List.mem_append, List.mem_singleton] at hd
        rcases hd with hd | hd
        · exact h d hd
        · subst hd; exact hc
      · split <;> trivial

theorem visible_stripFrom (s : List Char) : ∀ st : AnsiState, st.Ok →
    Visible (st.pending ++ s) (stripFrom st s) := by
  have hbr : ('[' : Char) ≠ esc := by decide
  induction s with
  | nil =>
    intro st hst
    simp only [List.append_nil, stripFrom]
    cases st with
    | text => exact Visible.nil
    | esc => exact Visible.char not_sequence_esc Visible.nil
    | params seen =>
      refine Visible.char (not_sequence_of_paramRest ?_) ?_
      · have := paramRest_ok seen [] hst
        simpa [paramRest] using this
      · refine Visible.char (not_sequence_of_ne_esc hbr _) ?_
        have := visible_chars (okParams_ne_esc hst) Visible.nil
        simpa using this
  | cons c s ih =>
    intro st hst
    have hnext := ih (ansiStep st c).1 (ansiStep_ok hst c)
    simp only [stripFrom]
    cases st with
    | text =>
      by_cases hc : c = esc
      · simp only [ansiStep, if_pos hc] at hnext ⊢
        simpa [AnsiState.pending, hc] using hnext
      · simp only [ansiStep, if_neg hc] at hnext ⊢
        exact Visible.char (not_sequence_of_ne_esc hc _) hnext
    | esc =>
      by_cases hc : c = '['
      · simp only [ansiStep, if_pos hc] at hnext ⊢
        simpa [AnsiState.pending, hc] using hnext
      · by_cases hc' : c = esc
        · simp only [ansiStep, if_neg hc, if_pos hc'] at hnext ⊢
          subst hc'
          exact Visible.char (not_sequence_of_ne_bracket hc _) hnext
        · simp only [ansiStep, if_neg hc, if_neg hc'] at hnext ⊢
          exact Visible.char (not_sequence_of_ne_bracket hc _)
            (Visible.char (not_sequence_of_ne_esc hc' _) hnext)
    | params seen =>
      by_cases hm : c = 'm'
      · simp only [ansiStep, if_pos hm] at hnext ⊢
        have := Visible.sequence (Sequence.mk seen hst) hnext
        subst hm
        simpa [AnsiState.pending, esc_eq] using this
      · by_cases hp : isDigit c = true ∨ c = ';'
        · simp only [ansiStep, if_neg hm, if_pos hp] at hnext ⊢
          simpa [AnsiState.pending] using hnext
        · have hnone : ∀ s', paramRest (seen ++ c :: s') = none := by
            intro s'
            rw [paramRest_ok seen _ hst]
            simp only [paramRest]
            rw [if_neg hm, if_neg (show ¬ okParam c from hp)]
          by_cases hc' : c = esc
          · simp only [ansiStep, if_neg hm, if_neg hp, if_pos hc'] at hnext ⊢
            refine Visible.char (not_sequence_of_paramRest (hnone s)) ?_
            refine Visible.char (not_sequence_of_ne_esc hbr _) ?_
            have := visible_chars (okParams_ne_esc hst) hnext
            subst hc'
            simpa [AnsiState.pending] using this
          · simp only [ansiStep, if_neg hm, if_neg hp, if_neg hc'] at hnext ⊢
            refine Visible.char (not_sequence_of_paramRest (hnone s)) ?_
            refine Visible.char (not_sequence_of_ne_esc hbr _) ?_
            have h1 := Visible.char (not_sequence_of_ne_esc hc' s) hnext
            have := visible_chars (okParams_ne_esc hst) h1
            simpa [AnsiState.pending] using this

theorem visible_stripAnsi (s : List Char) : Visible s (stripAnsi s) := visible_stripFrom s .text trivial

theorem sequence_cancel {q q' s s' : List Char} (hq : Sequence q) (hq' : Sequence q')
    (h : q ++ s = q' ++ s') : s = s' := by
  cases hq with
  | mk ps hps =>
    cases hq' with
    | mk ps' hps' =>
      simp only [List.cons_append, List.cons.injEq, List.append_assoc, List.nil_append, true_and] at h
      have h1 := paramRest_append ps s hps
      rw [h, paramRest_append ps' s' hps'] at h1
      simpa using h1.symm

theorem Visible.unique {s v : List Char} (h : Visible s v) : ∀ {v'}, Visible s v' → v = v' := by
  induction h with
  | nil =>
    intro v' h'
    generalize hs : ([] : List Char) = s at h'
    cases h' with
    | nil => rfl
    | sequence hq _ => cases hq; simp at hs
    | char _ _ => cases hs
  | @sequence q s v hq hv ih =>
    intro v' h'
    generalize hs : q ++ s = s0 at h'
    cases h' with
    | nil => cases hq; simp at hs
    | sequence hq' hv' =>
      have := sequence_cancel hq hq' hs
      subst this
      exact ih hv'
    | char hn _ => exact absurd hs.symm (hn q s hq)
  | @char c s v hn hv ih =>
    intro v' h'
    generalize hs : c :: s = s0 at h'
    cases h' with
    | nil => cases hs
    | sequence hq' hv' => exact absurd hs (hn _ _ hq')
    | char hn' hv' =>
      simp only [List.cons.injEq] at hs
      obtain ⟨hc, hs⟩ := hs
      subst hc; subst hs
      rw [ih hv']

theorem visible_iff {s v : List Char} : Visible s v ↔ stripAnsi s = v :=
  ⟨fun h => (visible_stripAnsi s).unique h, fun h => h ▸ visible_stripAnsi s⟩

/-! ## Appending -/

/-- the state after a text -/
def stateAfter (st : AnsiState) : List Char → AnsiState
  | [] => st
  | c :: s => stateAfter (ansiStep st c).1 s

/-- what is out before the end of a text -/
def outBefore (st : AnsiState) : List Char → List Char
  | [] => []
  | c :: s => (ansiStep st c).2 ++ outBefore (ansiStep st c).1 s

theorem stripFrom_append (st : AnsiState) (a b : List Char) :
    stripFrom st (a ++ b) = outBefore st a ++ stripFrom (stateAfter st a) b := by
  induction a generalizing st with
  | nil => rfl
  | cons c a ih => simp only [List.cons_append, stripFrom, outBefore, stateAfter, ih, List.append_assoc]

theorem stripFrom_eq (st : AnsiState) (a : List Char) :
    stripFrom st a = outBefore st a ++ (stateAfter st a).pending := by
  have := stripFrom_append st a []
  simpa [stripFrom] using this

/-- a text that is over or goes on with an escape -/
def Breaks (b : List Char) : Prop := b = [] ∨ ∃ r, b = esc :: r

theorem ansiStep_esc (st : AnsiState) : ansiStep st esc = (.esc, st.pending) := by
  cases st with
  | text => rfl
  | esc => rfl
  | params seen =>
    simp only [ansiStep, AnsiState.pending]
    rw [if_neg (by decide), if_neg (by decide)]
    exact if_pos trivial

theorem stripFrom_breaks (st : AnsiState) {b : List Char} (h : Breaks b) :
    stripFrom st b = st.pending ++ stripFrom .text b := by
  rcases h with h | ⟨r, h⟩
  · subst h; simp [stripFrom, AnsiState.pending]
  · subst h
    simp only [stripFrom, ansiStep_esc]
    simp [AnsiState.pending]

theorem stripAnsi_append {a b : List Char} (h : Breaks b) :
    stripAnsi (a ++ b) = stripAnsi a ++ stripAnsi b := by
  simp only [stripAnsi]
  rw [stripFrom_append, stripFrom_breaks _ h, stripFrom_eq .text a, List.append_assoc]

/-- the characters used for padding -/
def isFill (c : Char) : Prop := c = ' ' ∨ c = '0'

theorem stripFrom_fill (n : Nat) {fill : Char} (hf : isFill fill) {b : List Char} (h : Breaks b) :
    ∀ st : AnsiState, stripFrom st (List.replicate n fill ++ b)
      = st.pending ++ List.replicate n fill ++ stripFrom .text b := by
  induction n with
  | zero => intro st; simpa using stripFrom_breaks st h
  | succ n ih =>
    intro st
    have he : fill ≠ esc := by rcases hf with hf | hf <;> subst hf <;> decide
    have hb : fill ≠ '[' := by rcases hf with hf | hf <;> subst hf <;> decide
    have hm : fill ≠ 'm' := by rcases hf with hf | hf <;> subst hf <;> decide
    simp only [List.replicate_succ, List.cons_append, stripFrom]
    rw [ih]
    cases st with
    | text => simp [ansiStep, he, AnsiState.pending]
    | esc => simp [ansiStep, he, hb, AnsiState.pending]
    | params seen =>
      simp only [ansiStep, if_neg hm, if_neg he]
      split <;> simp [AnsiState.pending]

theorem stripAnsi_fill_right (s : List Char) (n : Nat) {fill : Char} (hf : isFill fill) :
    stripAnsi (s ++ List.replicate n fill) = stripAnsi s ++ List.replicate n fill := by
  have := stripFrom_fill n hf (b := []) (Or.inl rfl) (stateAfter .text s)
  have h0 : stripFrom .text [] = [] := rfl
  rw [List.append_nil, h0, List.append_nil] at this
  simp only [stripAnsi]
  rw [stripFrom_append, this, stripFrom_eq .text s, List.append_assoc]

theorem stripAnsi_char {c : Char} (hc : c ≠ esc) (s : List Char) :
    stripAnsi (c :: s) = c :: stripAnsi s := by
  simp [stripAnsi, stripFrom, ansiStep, hc]

theorem stripAnsi_chars {a : List Char} (ha : ∀ c ∈ a, c ≠ esc) (s : List Char) :
    stripAnsi (a ++ s) = a ++ stripAnsi s := by
  induction a with
  | nil => rfl
  | cons c a ih =>
    rw [List.cons_append, stripAnsi_char (ha c (by simp)), ih fun d hd => ha d (by simp [hd])]
    rfl

theorem stripAnsi_fill_left (s : List Char) (n : Nat) {fill : Char} (hf : isFill fill) :
    stripAnsi (List.replicate n fill ++ s) = List.replicate n fill ++ stripAnsi s := by
  apply stripAnsi_chars
  intro c hc
  have := (List.mem_replicate.mp hc).2
  subst this
  rcases hf with hf | hf <;> subst hf <;> decide

theorem stripAnsi_sequence {q : List Char} (hq : Sequence q) (s : List Char) :
    stripAnsi (q ++ s) = stripAnsi s :=
  visible_iff.mp (Visible.sequence hq (visible_stripAnsi s))

theorem stripAnsi_nil : stripAnsi [] = [] := rfl

theorem sequence_reset : Sequence reset := Sequence.mk ['0'] (by decide)

theorem stripAnsi_reset (s : List Char) : stripAnsi (s ++ reset) = stripAnsi s := by
  rw [stripAnsi_append (b := reset) (Or.inr ⟨_, rfl⟩)]
  have := stripAnsi_sequence sequence_reset []
  rw [List.append_nil] at this
  rw [this, stripAnsi_nil, List.append_nil]

theorem sequence_style {t : Term} (ht : t.Ok) (fg : Option Color) (styles : List Style) :
    Sequence (styleOf t fg styles) := Sequence.mk _ (ht.codes fg styles)

theorem breaks_style (t : Term) (fg : Option Color) (styles : List Style) (s : List Char) :
    Breaks (styleOf t fg styles ++ s) := Or.inr ⟨_, rfl⟩

/-! ## Lengths -/

theorem utf8_append (a b : List Char) : utf8 (a ++ b) = utf8 a ++ utf8 b := by
  induction a with
  | nil => rfl
  | cons c a ih => simp [utf8, ih]

theorem utf8Char_ascii {c : Char} (h : c.toNat < 128) : (utf8Char c).length = 1 := by
  simp [utf8Char, h]

theorem utf8_ascii {s : List Char} (h : ∀ c ∈ s, c.toNat < 128) : (utf8 s).length = s.length := by
  induction s with
  | nil => rfl
  | cons c s ih =>
    simp only [utf8, List.length_append, List.length_cons]
    rw [utf8Char_ascii (h c (by simp)), ih fun d hd => h d (by simp [hd])]
    omega

theorem sequence_ascii {q : List Char} (hq : Sequence q) : ∀ c ∈ q, c.toNat < 128 := by
  cases hq with
  | mk ps hps =>
    intro c hc
    simp only [List.cons_append, List.mem_cons, List.mem_append, List.not_mem_nil, or_false] at hc
    rcases hc with hc | hc | hc | hc
    · subst hc; decide
    · subst hc; decide
    · exact okParam_ascii (hps c hc)
    · subst hc; decide

theorem utf8_visible {s v : List Char} (h : Visible s v) :
    (utf8 s).length - (utf8 v).length = s.length - v.length ∧ v.length ≤ s.length ∧
    (utf8 v).length ≤ (utf8 s).length := by
  induction h with
  | nil => simp [utf8]
  | @sequence q s v hq hv ih =>
    rw [utf8_append, List.length_append, List.length_append, utf8_ascii (sequence_ascii hq)]
    omega
  | char hn hv ih =>
    simp only [utf8, List.length_append, List.length_cons]
    omega

theorem ansi_length (s : List Char) :
    (utf8 s).length - (utf8 (stripAnsi s)).length = s.length - (stripAnsi s).length :=
  (utf8_visible (visible_stripAnsi s)).1

theorem stripAnsi_length_le (s : List Char) : (stripAnsi s).length ≤ s.length :=
  (utf8_visible (visible_stripAnsi s)).2.1

/-! ## Padding -/

theorem stripAnsi_padTo (w : Nat) (a : Alignment) {fill : Char} (hf : isFill fill) (s : List Char) :
    stripAnsi (padTo (w + (s.length - (stripAnsi s).length)) a fill s) = padTo w a fill (stripAnsi s) := by
  have hle := stripAnsi_length_le s
  have hn : w + (s.length - (stripAnsi s).length) - s.length = w - (stripAnsi s).length := by omega
  cases a with
  | left => simp only [padTo, hn]; rw [stripAnsi_fill_right _ _ hf]
  | right => simp only [padTo, hn]; rw [stripAnsi_fill_left _ _ hf]
  | center =>
    simp only [padTo, hn]
    rw [stripAnsi_fill_right _ _ hf, stripAnsi_fill_left _ _ hf]

theorem padded_padTo (w : Nat) (a : Alignment) (fill : Char) (s : List Char) :
    Padded w a fill s (padTo w a fill s) := by
  cases a with
  | left =>
    refine ⟨0, w - s.length, ?_, ?_, rfl⟩
    · simp [padTo]
    · simp only [padTo, List.length_append, List.length_replicate]; omega
  | right =>
    refine ⟨w - s.length, 0, ?_, ?_, rfl⟩
    · simp [padTo]
    · simp only [padTo, List.length_append, List.length_replicate]; omega
  | center =>
    refine ⟨(w - s.length) / 2, (w - s.length + 1) / 2, ?_, ?_, ?_, ?_⟩
    · simp [padTo]
    · simp only [padTo, List.length_append, List.length_replicate]; omega
    · omega
    · omega

theorem escapeInner_eq {style s : List Char} (h : ¬ reset <:+: s) : escapeInner style s = s := by
  fun_induction escapeInner style s with
  | case1 a b c d rest heq _ =>
    exfalso
    apply h
    refine ⟨[], rest, ?_⟩
    rw [← heq]
    rfl
  | case2 a b c d rest hne ih =>
    rw [ih]
    intro hin
    apply h
    exact List.IsInfix.trans hin ⟨[a], [], by simp⟩
  | case3 => rfl

theorem fillOf_isFill (p : Padding) : isFill (fillOf p) := by
  cases p
  · exact Or.inl rfl
  · exact Or.inr rfl

theorem buildFormatted_some {t : Term} {s : List Char} {f : Format} {dw : Nat} {level : Option Level}
    {color : Option LogColor} {out : List Char}
    (h : buildFormatted t s f dw level color = some out) :
    out = writeColored t (applyColor color level) (f.style.getD [])
      (padTo (f.width.getD dw + (s.length - (stripAnsi s).length)) (f.alignment.getD .left)
        (fillOf (f.padding.getD .space))) s := by
  simp only [buildFormatted, ansi_length] at h
  split at h
  · cases h
  · exact (Option.some.inj h).symm

end Defmt.LogFormat
