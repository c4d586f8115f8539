import Verif.Lemmas.LogLine
/-!
Colours and styles on the terminal.
-/

namespace Defmt.LogFormat

open Parser

theorem endSequence_eq : endSequence = reset := rfl

/-! ## The terminal -/

/-- the sequences in effect after one more character -/
def activeStep (st : AnsiState) (active : List (List Char)) (c : Char) : List (List Char) :=
  match st with
  | .params seen =>
    if c = 'm' then (if seen = ['0'] then [] else active ++ [esc :: '[' :: seen ++ ['m']]) else active
  | _ => active

/-- what is shown -/
def renderFrom (st : AnsiState) (active : List (List Char)) : List Char → List Cell
  | [] => st.pending.map fun c => (c, active)
  | c :: s => ((ansiStep st c).2.map fun c => (c, active)) ++ renderFrom (ansiStep st c).1 (activeStep st active c) s

/-- the sequences in effect at the end -/
def activeAfter (st : AnsiState) (active : List (List Char)) : List Char → List (List Char)
  | [] => active
  | c :: s => activeAfter (ansiStep st c).1 (activeStep st active c) s

theorem rendered_chars {active active' : List (List Char)} {a s : List Char} {v : List Cell} (ha : ∀ c ∈ a, c ≠ esc)
    (h : Rendered active s v active') : Rendered active (a ++ s) ((a.map fun c => (c, active)) ++ v) active' := by
  induction a with
  | nil => exact h
  | cons c a ih =>
    refine Rendered.char (not_sequence_of_ne_esc (ha c (by simp)) _) ?_
    exact ih fun d hd => ha d (by simp [hd])

theorem rendered_renderFrom (s : List Char) : ∀ (st : AnsiState) (active : List (List Char)), st.Ok →
    Rendered active (st.pending ++ s) (renderFrom st active s) (activeAfter st active s) := by
  have hbr : ('[' : Char) ≠ esc := by decide
  induction s with
  | nil =>
    intro st active hst
    simp only [List.append_nil, renderFrom, activeAfter]
    cases st with
    | text => exact Rendered.nil
    | esc => exact Rendered.char not_sequence_esc Rendered.nil
    | params seen =>
      refine Rendered.char (not_sequence_of_paramRest ?_) ?_
      · have := paramRest_ok seen [] hst
        simpa [paramRest] using this
      · refine Rendered.char (not_sequence_of_ne_esc hbr _) ?_
        have := rendered_chars (okParams_ne_esc hst) (Rendered.nil (active := active))
        simpa using this
  | cons c s ih =>
    intro st active hst
    have hnext := ih (ansiStep st c).1 (activeStep st active c) (ansiStep_ok hst c)
    simp only [renderFrom, activeAfter]
    cases st with
    | text =>
      by_cases hc : c = esc
      · simp only [ansiStep, if_pos hc, activeStep] at hnext ⊢
        simpa [AnsiState.pending, hc] using hnext
      · simp only [ansiStep, if_neg hc, activeStep] at hnext ⊢
        exact Rendered.char (not_sequence_of_ne_esc hc _) hnext
    | esc =>
      by_cases hc : c = '['
      · simp only [ansiStep, if_pos hc, activeStep] at hnext ⊢
        simpa [AnsiState.pending, hc] using hnext
      · by_cases hc' : c = esc
        · simp only [ansiStep, if_neg hc, if_pos hc', activeStep] at hnext ⊢
          subst hc'
          exact Rendered.char (not_sequence_of_ne_bracket hc _) hnext
        · simp only [ansiStep, if_neg hc, if_neg hc', activeStep] at hnext ⊢
          exact Rendered.char (not_sequence_of_ne_bracket hc _)
            (Rendered.char (not_sequence_of_ne_esc hc' _) hnext)
    | params seen =>
      by_cases hm : c = 'm'
      · simp only [ansiStep, if_pos hm, activeStep] at hnext ⊢
        subst hm
        by_cases h0 : seen = ['0']
        · subst h0
          rw [if_pos rfl] at hnext ⊢
          have := Rendered.reset (active := active) hnext
          simpa [AnsiState.pending, endSequence, esc_eq] using this
        · rw [if_neg h0] at hnext ⊢
          have hne : (esc :: '[' :: seen ++ ['m']) ≠ endSequence := by
            intro he
            apply h0
            rw [endSequence_eq, reset] at he
            simp only [List.cons_append, List.cons.injEq, true_and] at he
            have := congrArg List.dropLast he
            simpa using this
          have := Rendered.sequence (Sequence.mk seen hst) hne hnext
          simpa [AnsiState.pending, esc_eq] using this
      · by_cases hp : isDigit c = true ∨ c = ';'
        · simp only [ansiStep, if_neg hm, if_pos hp, activeStep] at hnext ⊢
          simpa [AnsiState.pending] using hnext
        · have hnone : ∀ s', paramRest (seen ++ c :: s') = none := by
            intro s'
            rw [paramRest_ok seen _ hst]
            simp only [paramRest]
            rw [if_neg hm, if_neg (show ¬ okParam c from hp)]
          by_cases hc' : c = esc
          · simp only [ansiStep, if_neg hm, if_neg hp, if_pos hc', activeStep] at hnext ⊢
            refine Rendered.char (not_sequence_of_paramRest (hnone s)) ?_
            refine Rendered.char (not_sequence_of_ne_esc hbr _) ?_
            have := rendered_chars (okParams_ne_esc hst) hnext
            subst hc'
            simpa [AnsiState.pending] using this
          · simp only [ansiStep, if_neg hm, if_neg hp, if_neg hc', activeStep] at hnext ⊢
            refine Rendered.char (not_sequence_of_paramRest (hnone s)) ?_
            refine Rendered.char (not_sequence_of_ne_esc hbr _) ?_
            have h1 := Rendered.char (not_sequence_of_ne_esc hc' s) hnext
            have := rendered_chars (okParams_ne_esc hst) h1
            simpa [AnsiState.pending] using this

theorem sequence_same {q q' s s' : List Char} (hq : Sequence q) (hq' : Sequence q')
    (h : q ++ s = q' ++ s') : q = q' ∧ s = s' := by
  have := sequence_cancel hq hq' h
  subst this
  exact ⟨List.append_cancel_right h, rfl⟩

/-- a terminal shows one thing -/
theorem Rendered.unique {active active' : List (List Char)} {s : List Char} {v : List Cell}
    (h : Rendered active s v active') : ∀ {v' active''}, Rendered active s v' active'' → v = v' ∧ active' = active'' := by
  induction h with
  | nil =>
    intro v' a' h'
    generalize hs : ([] : List Char) = s at h'
    cases h' with
    | nil => exact ⟨rfl, rfl⟩
    | reset _ => simp [endSequence] at hs
    | sequence hq _ _ => cases hq; simp at hs
    | char _ _ => cases hs
  | @reset active s v active' hv ih =>
    intro v' a' h'
    generalize hs : endSequence ++ s = s0 at h'
    cases h' with
    | nil => simp [endSequence] at hs
    | reset hv' =>
      have := (sequence_same sequence_reset sequence_reset hs).2
      subst this
      exact ih hv'
    | sequence hq' hne hv' =>
      exact absurd (sequence_same sequence_reset hq' hs).1.symm hne
    | char hn _ => exact absurd hs.symm (hn _ s sequence_reset)
  | @sequence active q s v active' hq hne hv ih =>
    intro v' a' h'
    generalize hs : q ++ s = s0 at h'
    cases h' with
    | nil => cases hq; simp at hs
    | reset hv' => exact absurd (sequence_same hq sequence_reset hs).1 hne
    | sequence hq' hne' hv' =>
      obtain ⟨h1, h2⟩ := sequence_same hq hq' hs
      subst h1; subst h2
      exact ih hv'
    | char hn _ => exact absurd hs.symm (hn q s hq)
  | @char active c s v active' hn hv ih =>
    intro v' a' h'
    generalize hs : c :: s = s0 at h'
    cases h' with
    | nil => cases hs
    | reset hv' => exact absurd hs (hn _ _ sequence_reset)
    | sequence hq' _ hv' => exact absurd hs (hn _ _ hq')
    | char hn' hv' =>
      simp only [List.cons.injEq] at hs
      obtain ⟨hc, hs⟩ := hs
      subst hc; subst hs
      obtain ⟨h1, h2⟩ := ih hv'
      exact ⟨by rw [h1], h2⟩

/-! ## Appending -/

/-- shown before the end of a text -/
def renderBefore (st : AnsiState) (active : List (List Char)) : List Char → List Cell
  | [] => []
  | c :: s => ((ansiStep st c).2.map fun c => (c, active)) ++ renderBefore (ansiStep st c).1 (activeStep st active c) s

theorem renderFrom_append (st : AnsiState) (active : List (List Char)) (a b : List Char) :
    renderFrom st active (a ++ b) =
      renderBefore st active a ++ renderFrom (stateAfter st a) (activeAfter st active a) b := by
  induction a generalizing st active with
  | nil => rfl
  | cons c a ih =>
    simp only [List.cons_append, renderFrom, renderBefore, stateAfter, activeAfter, ih, List.append_assoc]

theorem activeAfter_append (st : AnsiState) (active : List (List Char)) (a b : List Char) :
    activeAfter st active (a ++ b) = activeAfter (stateAfter st a) (activeAfter st active a) b := by
  induction a generalizing st active with
  | nil => rfl
  | cons c a ih => simp only [List.cons_append, stateAfter, activeAfter, ih]

theorem renderFrom_closed {a : List Char} (ha : Closed a) (active : List (List Char)) (b : List Char) :
    renderFrom .text active (a ++ b) = renderFrom .text active a ++ renderFrom .text (activeAfter .text active a) b := by
  have h1 := renderFrom_append .text active a []
  rw [List.append_nil, ha] at h1
  have h2 : renderFrom .text (activeAfter .text active a) [] = [] := rfl
  rw [h2, List.append_nil] at h1
  rw [renderFrom_append, ha, h1]

theorem activeAfter_closed {a : List Char} (ha : Closed a) (active : List (List Char)) (b : List Char) :
    activeAfter .text active (a ++ b) = activeAfter .text (activeAfter .text active a) b := by
  rw [activeAfter_append, ha]

/-- `s` shows `v` and leaves nothing in effect -/
def Shown (s : List Char) (v : List Cell) : Prop :=
  Closed s ∧ renderFrom .text [] s = v ∧ activeAfter .text [] s = []

theorem Shown.append {a b : List Char} {v w : List Cell} (ha : Shown a v) (hb : Shown b w) : Shown (a ++ b) (v ++ w) := by
  refine ⟨ha.1.append hb.1, ?_, ?_⟩
  · rw [renderFrom_closed ha.1, ha.2.1, ha.2.2, hb.2.1]
  · rw [activeAfter_closed ha.1, ha.2.2, hb.2.2]

theorem render_plain {s : List Char} (h : esc ∉ s) (active : List (List Char)) :
    renderFrom .text active s = (s.map fun c => (c, active)) ∧ activeAfter .text active s = active := by
  induction s with
  | nil => exact ⟨rfl, rfl⟩
  | cons c s ih =>
    have hc : c ≠ esc := fun hc => h (by rw [hc]; simp)
    obtain ⟨h1, h2⟩ := ih fun hm => h (List.mem_cons_of_mem _ hm)
    simp only [renderFrom, activeAfter, ansiStep, if_neg hc, activeStep, h1, h2]
    exact ⟨rfl, trivial⟩

theorem shown_plain {s : List Char} (h : esc ∉ s) : Shown s (s.map fun c => (c, [])) :=
  ⟨closed_plain h, (render_plain h []).1, (render_plain h []).2⟩

theorem active_params {ps : List Char} (h : ∀ c ∈ ps, okParam c) (active : List (List Char)) : ∀ seen,
    stateAfter (.params seen) (ps ++ ['m']) = .text ∧
    renderBefore (.params seen) active (ps ++ ['m']) = [] ∧
    activeAfter (.params seen) active (ps ++ ['m']) =
      (if seen ++ ps = ['0'] then [] else active ++ [esc :: '[' :: (seen ++ ps) ++ ['m']]) := by
  induction ps with
  | nil => intro seen; simp [stateAfter, renderBefore, activeAfter, ansiStep, activeStep]
  | cons c ps ih =>
    intro seen
    have hc := h c (by simp)
    have hm := okParam_ne_m hc
    obtain ⟨h1, h2, h3⟩ := ih (fun d hd => h d (by simp [hd])) (seen ++ [c])
    have hstep : ansiStep (.params seen) c = (.params (seen ++ [c]), []) := by
      simp only [ansiStep, if_neg hm]
      exact if_pos hc
    have hact : activeStep (.params seen) active c = active := by simp [activeStep, hm]
    simp only [List.cons_append, stateAfter, renderBefore, activeAfter, hstep, hact, h1, h2, h3]
    simp

theorem render_sequence {q : List Char} (hq : Sequence q) (hne : q ≠ reset) (active : List (List Char)) (s : List Char) :
    renderFrom .text active (q ++ s) = renderFrom .text (active ++ [q]) s ∧
    activeAfter .text active (q ++ s) = activeAfter .text (active ++ [q]) s := by
  have hc := closed_sequence hq
  cases hq with
  | mk ps hps =>
    obtain ⟨_, h2, h3⟩ := active_params hps active []
    have h0 : ps ≠ ['0'] := by rintro rfl; exact hne rfl
    rw [List.nil_append, if_neg h0] at h3
    have hb : renderBefore .text active (Char.ofNat 27 :: '[' :: ps ++ ['m']) = [] := by
      simp only [List.cons_append, renderBefore]
      exact h2
    have ha : activeAfter .text active (Char.ofNat 27 :: '[' :: ps ++ ['m']) =
        active ++ [Char.ofNat 27 :: '[' :: ps ++ ['m']] := by
      simp only [List.cons_append, activeAfter]
      exact h3
    constructor
    · rw [renderFrom_append, hb, ha, hc]; rfl
    · rw [activeAfter_append, ha, hc]

theorem render_reset (active : List (List Char)) (s : List Char) :
    renderFrom .text active (reset ++ s) = renderFrom .text [] s ∧
    activeAfter .text active (reset ++ s) = activeAfter .text [] s := by
  constructor <;> rfl

theorem render_reset_from (st : AnsiState) (active : List (List Char)) (s : List Char) :
    renderFrom st active (reset ++ s) = (st.pending.map fun c => (c, active)) ++ renderFrom .text [] s ∧
    activeAfter st active (reset ++ s) = activeAfter .text [] s := by
  have h : ∀ a : AnsiState, activeStep a active esc = active := by
    intro a
    cases a with
    | text => rfl
    | esc => rfl
    | params seen => simp [activeStep, show esc ≠ 'm' from by decide]
  constructor
  · simp only [reset, List.cons_append, renderFrom, ansiStep_esc, h]
    rfl
  · simp only [reset, List.cons_append, activeAfter, ansiStep_esc, h]
    rfl

/-! ## Styles around styled text -/

/-- The sequence being read is not the one that ends all styles. -/
def NotReset (st : AnsiState) (s : List Char) : Prop := st.pending ≠ [] → ∀ r, st.pending ++ s ≠ reset ++ r

theorem notReset_next {st : AnsiState} {c : Char} {s : List Char} (h : NotReset st (c :: s))
    (hc : c = esc → ∀ r, c :: s ≠ reset ++ r) : NotReset (ansiStep st c).1 s := by
  have hesc : c = esc → NotReset .esc s := by
    intro he _ r hr
    subst he
    exact hc rfl r hr
  have htext : NotReset .text s := by intro h; exact absurd rfl h
  cases st with
  | text =>
    simp only [ansiStep]
    split
    · rename_i he; exact hesc he
    · exact htext
  | esc =>
    simp only [ansiStep]
    split
    · rename_i hb
      subst hb
      intro _ r hr
      exact h (by simp [AnsiState.pending]) r (by simpa [AnsiState.pending] using hr)
    · split
      · rename_i he; exact hesc he
      · exact htext
  | params seen =>
    simp only [ansiStep]
    split
    · exact htext
    · split
      · intro _ r hr
        exact h (by simp [AnsiState.pending]) r (by simpa [AnsiState.pending] using hr)
      · split
        · rename_i he; exact hesc he
        · exact htext

theorem notReset_active {st : AnsiState} {c : Char} {s : List Char} (h : NotReset st (c :: s)) (q : List Char)
    (active : List (List Char)) : activeStep st (q :: active) c = q :: activeStep st active c := by
  cases st with
  | text => rfl
  | esc => rfl
  | params seen =>
    simp only [activeStep]
    split
    · rename_i hm
      subst hm
      by_cases h0 : seen = ['0']
      · subst h0
        exact absurd rfl (h (by simp [AnsiState.pending]) s)
      · rw [if_neg h0, if_neg h0]; rfl
    · rfl

/-- all cells with one more sequence in effect -/
def within (q : List Char) (v : List Cell) : List Cell := v.map fun c => (c.1, q :: c.2)

theorem within_append (q : List Char) (a b : List Cell) : within q (a ++ b) = within q a ++ within q b := by
  simp [within]

theorem within_map (q : List Char) (s : List Char) (active : List (List Char)) :
    within q (s.map fun c => (c, active)) = s.map fun c => (c, q :: active) := by
  simp [within]

theorem render_within_short (q : List Char) (s : List Char) (hs : ∀ a b, s ≠ a ++ reset ++ b) :
    ∀ st active, NotReset st s → renderFrom st (q :: active) s = within q (renderFrom st active s) ∧
      activeAfter st (q :: active) s = q :: activeAfter st active s := by
  induction s with
  | nil =>
    intro st active _
    simp only [renderFrom, activeAfter, within_map]
    exact ⟨trivial, trivial⟩
  | cons c s ih =>
    intro st active h
    have hn := notReset_next h (fun _ r hr => hs [] r (by simpa using hr))
    obtain ⟨h1, h2⟩ := ih (fun a b hab => hs (c :: a) b (by rw [hab]; rfl)) _ (activeStep st active c) hn
    simp only [renderFrom, activeAfter, notReset_active h, h1, h2, within_append, within_map]
    exact ⟨trivial, trivial⟩

theorem render_within {q : List Char} (hq : Sequence q) (hne : q ≠ reset) (s : List Char) :
    ∀ st active, NotReset st s → renderFrom st (q :: active) (escapeInner q s) = within q (renderFrom st active s) ∧
      activeAfter st (q :: active) (escapeInner q s) = q :: activeAfter st active s := by
  fun_induction escapeInner q s with
  | case1 a b c d rest heq ih =>
    intro st active hn
    have e : a :: b :: c :: d :: rest = reset ++ rest := by
      rw [← heq]; rfl
    obtain ⟨h1, h2⟩ := ih .text [] (by intro h; exact absurd rfl h)
    obtain ⟨r1, r2⟩ := render_reset_from st (q :: active) (q ++ escapeInner q rest)
    obtain ⟨r3, r4⟩ := render_reset_from st active rest
    obtain ⟨s1, s2⟩ := render_sequence hq hne [] (escapeInner q rest)
    rw [e, List.append_assoc]
    constructor
    · rw [r1, s1, List.nil_append, h1, r3, within_append, within_map]
    · rw [r2, s2, List.nil_append, h2, r4]
  | case2 a b c d rest hne' ih =>
    intro st active hn
    have hn' := notReset_next hn (by
      intro _ r hr
      apply hne'
      simp only [reset, List.cons_append, List.cons.injEq, List.nil_append] at hr
      obtain ⟨h1, h2, h3, h4, _⟩ := hr
      rw [h1, h2, h3, h4]; rfl)
    obtain ⟨h1, h2⟩ := ih _ (activeStep st active a) hn'
    constructor
    · rw [renderFrom, notReset_active hn, h1]
      conv => rhs; rw [renderFrom, within_append, within_map]
    · rw [activeAfter, notReset_active hn, h2]
      conv => rhs; rw [activeAfter]
  | case3 s h =>
    intro st active hn
    apply render_within_short q s _ st active hn
    intro a b hab
    have hlen := congrArg List.length hab
    simp only [List.length_append] at hlen
    have h4 : reset.length = 4 := rfl
    match s, h, hlen with
    | [], _, hl => simp at hl; omega
    | [_], _, hl => simp at hl; omega
    | [_, _], _, hl => simp at hl; omega
    | [_, _, _], _, hl => simp at hl; omega
    | a' :: b' :: c' :: d' :: r', h, _ => exact (h a' b' c' d' r' rfl).elim

/-- styled text -/
theorem shown_styled {q s : List Char} {v : List Cell} (hq : Sequence q) (hne : q ≠ reset) (h : Shown s v)
    (hc : Closed (escapeInner q s)) : Shown (q ++ escapeInner q s ++ reset) (within q v) := by
  obtain ⟨h1, h2⟩ := render_within hq hne s .text [] (by intro h; exact absurd rfl h)
  refine ⟨((closed_sequence hq).append hc).append (closed_sequence sequence_reset), ?_, ?_⟩
  · rw [List.append_assoc, (render_sequence hq hne [] _).1, List.nil_append, renderFrom_closed hc, h1, h.2.1]
    have : ∀ a, renderFrom .text a reset = [] := fun _ => rfl
    rw [this, List.append_nil]
  · rw [List.append_assoc, (render_sequence hq hne [] _).2, List.nil_append, activeAfter_closed hc]
    rfl

/-! ## Segments -/

theorem applyColor_eq (color : Option LogColor) (l : Level) : applyColor color (some l) = wantedColor color l := by
  cases color with
  | none => rfl
  | some c =>
    cases c with
    | color c => rfl
    | severity => cases l <;> rfl
    | warnError => cases l <;> rfl

theorem style_not_reset {t : Term} (ht : t.Ok) {fg : Option Color} {styles : List Style}
    (h : ¬ (fg = none ∧ styles = [])) : styleOf t fg styles ≠ reset := by
  intro he
  have := ht.notReset fg styles h
  simp only [styleOf, reset, List.cons_append, List.cons.injEq, true_and] at he
  have h2 := congrArg List.dropLast he
  simp at h2
  exact this h2

theorem shown_fill {fill : Char} (hf : isFill fill) (n : Nat) :
    Shown (List.replicate n fill) (List.replicate n (fill, [])) := by
  have h : esc ∉ List.replicate n fill := by
    intro hm
    have := (List.mem_replicate.mp hm).2
    rcases hf with h | h <;> rw [h] at this <;> exact absurd this (by decide)
  have := shown_plain h
  rwa [List.map_replicate] at this

/-- a text with padding around it -/
theorem shown_padTo {s : List Char} {v : List Cell} (h : Shown s v) {w : Nat} {a : Alignment} {fill : Char}
    (hf : isFill fill) {out : List Cell} (hp : Padded w a (fill, []) v out) (hlen : (stripAnsi s).length = v.length) :
    Shown (padTo (w + (s.length - (stripAnsi s).length)) a fill s) out := by
  have hle := stripAnsi_length_le s
  have hn : w + (s.length - (stripAnsi s).length) - s.length = w - v.length := by omega
  obtain ⟨b, c, h1, h2, h3⟩ := hp
  have hl := congrArg List.length h1
  simp only [List.length_append, List.length_replicate] at hl
  have hsum : b + c = w - v.length := by omega
  cases a with
  | left =>
    simp only at h3
    subst h3
    simp only [padTo, hn]
    rw [h1, ← hsum]
    simpa using h.append (shown_fill hf c)
  | right =>
    simp only at h3
    subst h3
    simp only [padTo, hn]
    rw [h1, ← hsum]
    simpa using (shown_fill hf b).append h
  | center =>
    simp only at h3
    simp only [padTo, hn]
    have e1 : b = (w - v.length) / 2 := by omega
    have e2 : c = (w - v.length + 1) / 2 := by omega
    rw [h1, ← e1, ← e2]
    exact ((shown_fill hf b).append h).append (shown_fill hf c)

theorem renderFrom_length (s : List Char) : ∀ st active, (renderFrom st active s).map Prod.fst = stripFrom st s := by
  induction s with
  | nil => intro st active; simp [renderFrom, stripFrom, Function.comp_def]
  | cons c s ih => intro st active; simp [renderFrom, stripFrom, ih, Function.comp_def]

theorem Shown.length {s : List Char} {v : List Cell} (h : Shown s v) : (stripAnsi s).length = v.length := by
  have := congrArg List.length (renderFrom_length s .text [])
  rw [h.2.1, List.length_map] at this
  exact this.symm

/-- a styled and padded text -/
theorem shown_formatted {t : Term} (ht : t.Ok) {s : List Char} {v : List Cell} (h : Shown s v) {f : Format} {dw : Nat}
    {l : Level} {color : Option LogColor} {out : List Char} (ho : buildFormatted t s f dw (some l) color = some out)
    (hw : f.width.getD dw = 0 ∨ (wantedColor color l = none ∧ f.style.getD [] = []) ∨ esc ∉ s) {cells : List Cell}
    (hp : Padded (f.width.getD dw) (f.alignment.getD .left) (fillText f, []) v cells) :
    Shown out (cells.map fun c => (c.1, wantedStyle t (wantedColor color l) (f.style.getD []) ++ c.2)) := by
  have hout := buildFormatted_some ho
  have hf := fillOf_isFill (f.padding.getD .space)
  rw [fillText_eq] at hp
  have hpad := shown_padTo h hf hp h.length
  simp only [writeColored, applyColor_eq] at hout
  by_cases hcase : t.colorize = false ∨ (wantedColor color l = none ∧ f.style.getD [] = [])
  · rw [if_pos hcase] at hout
    have e : wantedStyle t (wantedColor color l) (f.style.getD []) = [] := if_pos hcase
    rw [e, hout]
    simpa using hpad
  · rw [if_neg hcase] at hout
    have hne : ¬ (wantedColor color l = none ∧ f.style.getD [] = []) := fun h => hcase (Or.inr h)
    have e : wantedStyle t (wantedColor color l) (f.style.getD []) = [styleOf t (wantedColor color l) (f.style.getD [])] :=
      if_neg hcase
    have hq := sequence_style ht (wantedColor color l) (f.style.getD [])
    have hq' := style_not_reset ht hne
    rw [e]
    have key : ∀ {x : List Char}, Shown x cells → escapeInner (styleOf t (wantedColor color l) (f.style.getD [])) x =
        padTo (f.width.getD dw + (s.length - (stripAnsi s).length)) (f.alignment.getD .left)
          (fillOf (f.padding.getD .space)) (escapeInner (styleOf t (wantedColor color l) (f.style.getD [])) s) →
        Shown out (cells.map fun c => (c.1, [styleOf t (wantedColor color l) (f.style.getD [])] ++ c.2)) := by
      intro x hx hxe
      rw [hout, ← hxe]
      apply shown_styled hq hq' hx
      rw [Closed, (escapeInner_state ht _ _ x .text).1]
      exact hx.1
    rcases hw with hw | hw | hw
    · apply key hpad
      rw [hw, Nat.zero_add, padTo_wide (by omega), padTo_wide]
      have := escapeInner_length (styleOf t (wantedColor color l) (f.style.getD [])) s
      omega
    · exact absurd hw hne
    · apply key hpad
      rw [escapeInner_eq (not_reset_of_plain hw), escapeInner_eq]
      apply not_reset_of_plain
      exact esc_padTo hf hw

theorem padded_map {α β : Type} (g : α → β) {w : Nat} {a : Alignment} {fill : α} {v out : List α} (h : Padded w a fill v out) :
    Padded w a (g fill) (v.map g) (out.map g) := by
  obtain ⟨b, c, h1, h2, h3⟩ := h
  exact ⟨b, c, by rw [h1]; simp, by simpa using h2, h3⟩

theorem shown_field {t : Term} (ht : t.Ok) {v : List Char} (hv : esc ∉ v) {f : Format} {dw : Nat} {max : Nat}
    {l : Level} {color : Option LogColor} {out shown : List Char} (hfit : Fits max f dw v shown)
    (ho : buildFormatted t v f dw (some l) color = some out) :
    Shown out (shown.map fun c => (c, wantedStyle t (wantedColor color l) (f.style.getD []))) := by
  have hp := padded_map (fun c => ((c, []) : Cell)) hfit.2
  have := shown_formatted ht (shown_plain hv) ho (Or.inr (Or.inr hv)) hp
  simpa [Function.comp_def] using this

theorem shown_paint {t : Term} (ht : t.Ok) (fg : Option Color) (styles : List Style) {s : List Char} (hs : esc ∉ s) :
    Shown (paint t fg styles s) (styledText t fg styles s) := by
  unfold paint writeColored styledText wantedStyle
  split
  · exact shown_plain hs
  · rename_i hc
    have hq := sequence_style ht fg styles
    have hq' := style_not_reset ht (fun h => hc (Or.inr h))
    have := shown_styled hq hq' (shown_plain hs) (by rw [escapeInner_eq (not_reset_of_plain hs)]; exact closed_plain hs)
    simpa [within, Function.comp_def, styleOf, esc] using this

theorem shown_chunks {t : Term} (ht : t.Ok) {l r : List Char} {cs : List Chunk} (h : IsDiff l r cs) (hl : esc ∉ l) (hr : esc ∉ r) :
    Shown (cs.flatMap (leftChunk t)) (cs.flatMap (leftCells t)) ∧ Shown (cs.flatMap (rightChunk t)) (cs.flatMap (rightCells t)) := by
  induction h with
  | nil => exact ⟨⟨rfl, rfl, rfl⟩, ⟨rfl, rfl, rfl⟩⟩
  | equal _ _ ih =>
    simp only [List.mem_append, not_or] at hl hr
    obtain ⟨i1, i2⟩ := ih hl.2 hr.2
    exact ⟨(shown_paint ht _ _ hl.1).append i1, (shown_paint ht _ _ hr.1).append i2⟩
  | delete _ _ ih =>
    simp only [List.mem_append, not_or] at hl
    obtain ⟨i1, i2⟩ := ih hl.2 hr
    exact ⟨(shown_paint ht _ _ hl.1).append i1, i2⟩
  | insert _ _ ih =>
    simp only [List.mem_append, not_or] at hr
    obtain ⟨i1, i2⟩ := ih hl hr.2
    exact ⟨i1, (shown_paint ht _ _ hr.1).append i2⟩

theorem shown_diff {t : Term} (ht : t.Ok) {before : List (List Char)} {x y : List Char} (hb : esc ∉ textOfLines before) (hx : esc ∉ x) (hy : esc ∉ y) :
    Shown (diffText t before x y) (diffCells t before x y) := by
  obtain ⟨h1, h2⟩ := shown_chunks ht (ht.diff x y) hx hy
  have p : ∀ {s : List Char}, esc ∉ s → Shown s (s.map fun c => (c, [])) := fun h => shown_plain h
  unfold diffText diffCells
  rw [joinLines_eq]
  exact ((((((((((((shown_paint ht _ _ hb).append (p (by decide))).append (shown_paint ht _ _ (by decide))).append (p (by decide))).append
    (shown_paint ht _ _ (by decide))).append (p (by decide))).append (shown_paint ht _ _ (by decide))).append (p (by decide))).append
    (shown_paint ht _ _ (by decide))).append h1).append (p (by decide))).append (shown_paint ht _ _ (by decide))).append h2

mutual

theorem paints_shown {t : Term} (ht : t.Ok) {r : Record} {l : Level} (hl : r.level = some l) :
    ∀ {s cells}, Paints t r l s cells → GroupsSimple [s] → ∀ {out}, buildSegment t r s = some out → Shown out cells
  | _, _, .text h, _, out, ho => by
    rw [buildSegment] at ho
    simp only [Option.some.injEq] at ho
    subst ho
    exact shown_plain h
  | _, _, .field (m := m) (f := f) hf hv hfit, _, out, ho => by
    obtain ⟨color, hc, hne, heq⟩ := buildField_text_color (t := t) hf f
    rw [buildSegment, hc, hl] at ho
    have := shown_field ht hv hfit ho
    have e : color = fieldColor m f := by
      by_cases hm : m = .logLevel
      · rw [heq hm, fieldColor]
        cases hcol : f.color with
        | none => rw [if_pos ⟨hm, rfl⟩]; rfl
        | some c => rw [if_neg (by simp)]; rfl
      · rw [hne hm, fieldColor, if_neg (by simp [hm])]
    rw [← e]
    exact this
  | _, _, .message h hv hd hfit, _, out, ho => by
    rw [buildSegment] at ho
    simp only [buildField, buildLog, h, colorDiff_notLike t hd, hl] at ho
    exact shown_field ht hv hfit ho
  | _, _, .diff h hlines hb hx hy hv, _, out, ho => by
    rw [buildSegment] at ho
    simp only [buildField, buildLog, h, colorDiff_values hlines hb hx hy, Option.some.injEq] at ho
    subst ho
    obtain ⟨e1, e2, e3⟩ := parts_esc hlines hx hy hv
    exact shown_diff ht e1 e2 e3
  | _, _, .hostMessage h hv, _, out, ho => by
    rw [buildSegment] at ho
    simp only [buildField, buildLog, h, Option.some.injEq] at ho
    subst ho
    exact shown_plain hv
  | _, _, .group (segments := segments) (f := f) hall hp, hg, out, ho => by
    rw [buildSegment] at ho
    cases hg with
    | group hwidth hin _ =>
      cases hb : buildSegments t r segments with
      | none => rw [hb] at ho; cases ho
      | some s =>
        rw [hb] at ho
        simp only [hl] at ho
        have h1 := paintsAll_shown ht hl hall hin hb
        refine shown_formatted ht h1 ho ?_ hp
        rcases hwidth with hw | ⟨hc, hs⟩
        · left; rw [hw]; rfl
        · right; left; rw [hc, hs]; exact ⟨rfl, rfl⟩

theorem paintsAll_shown {t : Term} (ht : t.Ok) {r : Record} {l : Level} (hl : r.level = some l) :
    ∀ {ss cells}, PaintsAll t r l ss cells → GroupsSimple ss → ∀ {out}, buildSegments t r ss = some out → Shown out cells
  | _, _, .nil, _, out, ho => by
    rw [buildSegments] at ho
    simp only [Option.some.injEq] at ho
    subst ho
    exact ⟨rfl, rfl, rfl⟩
  | _, _, .cons (s := s) (ss := ss) h hs, hg, out, ho => by
    have hg1 : GroupsSimple [s] := by
      cases hg with
      | text _ => exact .text .nil
      | field _ => exact .field .nil
      | group a b _ => exact .group a b .nil
    have hg2 : GroupsSimple ss := by
      cases hg with
      | text h => exact h
      | field h => exact h
      | group _ _ h => exact h
    rw [buildSegments] at ho
    cases ha : buildSegment t r s with
    | none => rw [ha] at ho; cases ho
    | some a =>
      cases hb : buildSegments t r ss with
      | none => rw [ha, hb] at ho; cases ho
      | some b =>
        rw [ha, hb] at ho
        simp only [Option.some.injEq] at ho
        subst ho
        exact (paints_shown ht hl h hg1 ha).append (paintsAll_shown ht hl hs hg2 hb)

end

theorem Shown.rendered {s : List Char} {v : List Cell} (h : Shown s v) : Rendered [] s v [] := by
  have := rendered_renderFrom s .text [] trivial
  rw [h.2.1, h.2.2] at this
  exact this

end Defmt.LogFormat
