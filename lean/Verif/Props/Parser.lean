import Verif.Lemmas.ParserCheck
/-!
# Properties C11–C16, C18: format strings

`paramTexts`, `number`, `explicitIndex`, `Dense`, `Consistent`, `escape`, `render`, `meaning` are in
`Verif.Spec.Parser`.
-/

namespace Defmt

open Parser

/-- **C11** The host (forwards compatible mode) parses every string the macros (strict mode) accept
to the same fragments. -/
theorem C11_host_accepts_target_strings (s : List Char) (fs : List Fragment)
    (h : parse s .strict = .ok fs) : parse s .forwardsCompatible = .ok fs := by
  obtain ⟨fr, e, args, h1, h2, h3, h4⟩ := parse_ok h
  exact parse_intro (scan_mode _ _ _ _ _ _ _ _ h1) h2 h3 h4

example : parse c!"{=u8:#04x} and {{}} {1=[?; 3]:?}" .strict =
    .ok [.param ⟨0, .u8, some (.hexadecimal true false 4)⟩, .literal c!" and {} ",
      .param ⟨1, .formatArray 3, some .debug⟩] := by decide +kernel

/-- **C12** In an accepted string the argument indices are exactly `0..n-1` and all uses of one
argument have the same type. -/
theorem C12_indices_dense_types_consistent (s : List Char) (m : Mode) (fs : List Fragment)
    (h : parse s m = .ok fs) : (∃ n, Dense (params fs) n) ∧ Consistent (params fs) := by
  obtain ⟨fr, e, args, h1, h2, h3, h4⟩ := parse_ok h
  have hi := checkArgs_inv fs AInv.nil h3
  simp only [List.nil_append] at hi
  rw [firstUnused_none] at h4
  refine ⟨⟨args.length, ?_, ?_⟩, ?_⟩
  · intro p hp
    obtain ⟨t, ht, _⟩ := hi.typed p hp
    exact (List.getElem?_eq_some_iff.mp ht).1
  · intro i hlt
    obtain ⟨t, ht⟩ := h4 i hlt
    obtain ⟨p, hp, h5, _⟩ := hi.used i t ht
    exact ⟨p, hp, h5⟩
  · intro p hp q hq hpq
    obtain ⟨t, ht, hk⟩ := hi.typed p hp
    obtain ⟨t', ht', hk'⟩ := hi.typed q hq
    rw [hpq, ht'] at ht
    simp only [Option.some.injEq] at ht
    subst ht
    exact hk.symm.trans hk'

/-- **C12** is not vacuous: three parameters, two arguments, bitfields of one argument with
different ranges -/
example : parse c!"{1=0..3}{0=u8}{1=4..7}" .strict =
    .ok [.param ⟨1, .bitField 0 3, none⟩, .param ⟨0, .u8, none⟩, .param ⟨1, .bitField 4 7, none⟩] := by
  decide +kernel

/-- **C13** Implicit parameters are numbered in order from 0, explicit ones keep their index. -/
theorem C13_implicit_numbering (s : List Char) (m : Mode) (fs : List Fragment)
    (h : parse s m = .ok fs) :
    (params fs).map Parameter.index = number 0 ((paramTexts s).map explicitIndex) := by
  obtain ⟨fr, e, args, h1, h2, h3, h4⟩ := parse_ok h
  have := scan_params m s s false 0 0 0 [] fr e h1
  simp only [params, List.map_nil, List.nil_append, Bool.false_eq_true, if_false] at this
  rw [litStep_params h2, this]

/-- in the sense of `number`, the k-th parameter without index gets number k, and a parameter with an index keeps it -/
theorem C13_number_spec (l : List (Option Nat)) (j : Nat) :
    (l[j]? = some none → (number 0 l)[j]? = some ((l.take j).filter Option.isNone).length) ∧
    ∀ i, l[j]? = some (some i) → (number 0 l)[j]? = some i := by
  have key : ∀ (l : List (Option Nat)) (n j : Nat), l[j]? = some none →
      (number n l)[j]? = some (n + ((l.take j).filter Option.isNone).length) := by
    intro l
    induction l with
    | nil => intro n j h; simp at h
    | cons o l ih =>
      intro n j h
      cases j with
      | zero =>
        simp only [List.getElem?_cons_zero, Option.some.injEq] at h
        subst h
        simp [number]
      | succ j =>
        simp only [List.getElem?_cons_succ] at h
        cases o with
        | none => simp [number, ih (n + 1) j h]; omega
        | some i => simp [number, ih n j h]
  have key' : ∀ (l : List (Option Nat)) (n j i : Nat), l[j]? = some (some i) → (number n l)[j]? = some i := by
    intro l
    induction l with
    | nil => intro n j i h; simp at h
    | cons o l ih =>
      intro n j i h
      cases j with
      | zero =>
        simp only [List.getElem?_cons_zero, Option.some.injEq] at h
        subst h
        simp [number]
      | succ j =>
        simp only [List.getElem?_cons_succ] at h
        cases o with
        | none => simp [number, ih (n + 1) j i h]
        | some k => simp [number, ih n j i h]
  exact ⟨fun hj => by simpa using key l 0 j hj, fun i hj => key' l 0 j i hj⟩

example : parse c!"{} {1} {} {0}" .strict =
    .ok [.param ⟨0, .format, none⟩, .literal c!" ", .param ⟨1, .format, none⟩, .literal c!" ",
      .param ⟨1, .format, none⟩, .literal c!" ", .param ⟨0, .format, none⟩] := by decide +kernel

/-- **C18** (and C13/C14 on the documented syntax) Any sequence of texts and parameters (any index,
type, hint), written in the documented syntax, parses to exactly these, in both modes, provided the
arguments are dense, consistently typed and there are fewer than 2^59 of them. -/
theorem C18_write_then_parse (m : Mode) (items : List Item) (n : Nat)
    (hv : ItemsValid m items)
    (hd : Dense (params (meaning 0 items)) n) (hc : Consistent (params (meaning 0 items)))
    (hn : n ≤ maxArgs) :
    parse (render items) m = .ok (meaning 0 items) := by
  obtain ⟨fr, e, t, h1, h2, h3, h4⟩ := scan_render m (render items) items [] [] 0 [] hv (by simp)
    (by simp [escape])
  simp only [escape, List.length_nil, Nat.add_zero] at h1
  have h4' : fr ++ optLit t = meaning 0 items := by rw [h4]; simp [optLit]
  have htr : (if e ≠ (render items).length then pushLiteral fr ((render items).drop e) else .ok fr) =
      .ok (meaning 0 items) := by
    by_cases ht : t = []
    · subst ht
      have : (render items).length ≤ e := by
        have := congrArg List.length h3
        simp [escape] at this; omega
      rw [if_neg (by omega), ← h4']; simp [optLit]
    · have hlt : e ≠ (render items).length := by
        intro hh
        rw [hh, List.drop_length] at h3
        exact ht (escape_eq_nil.mp h3.symm)
      rw [if_pos hlt, h3, pushLiteral_escape, ← h4']
      simp [optLit, ht]
  obtain ⟨args, ha⟩ := checkArgs_complete (meaning 0 items) AInv.nil (by simpa using hc)
    (fun p hp => by have := hd.1 p hp; omega)
  have hi := checkArgs_inv _ AInv.nil ha
  simp only [List.nil_append] at hi
  refine parse_intro h1 htr ha ?_
  rw [firstUnused_none]
  intro j hj
  have hjn : j < n := by
    rcases hi.last with rfl | ⟨p, hp, hl⟩
    · simp at hj
    · have := hd.1 p hp; omega
  obtain ⟨p, hp, hpi⟩ := hd.2 j hjn
  obtain ⟨t, ht, _⟩ := hi.typed p hp
  exact ⟨t, by rw [← hpi]; exact ht⟩

/-- an instance: `"a{{{1=[u8; 4]:a}{=?:#010x}"` -/
example : parse c!"a{{{1=[u8;  4]:a}{=?:#010x}" .strict =
    .ok [.literal c!"a{", .param ⟨1, .u8Array 4, some .ascii⟩,
      .param ⟨0, .format, some (.hexadecimal true false 10)⟩] :=
  C18_write_then_parse .strict
    [.text c!"a{", .param ⟨some 1, some (.u8Array 4), 2, some .ascii⟩,
      .param ⟨none, some .format, 0, some (.hexadecimal true false 10)⟩] 2
    (by simp [ItemsValid, Written.Valid, Ty.Valid, Hint.Valid])
    (by
      refine ⟨by simp [meaning, params], ?_⟩
      intro i hi
      have : i = 0 ∨ i = 1 := by omega
      rcases this with rfl | rfl <;> simp [meaning, params])
    (by intro p hp q hq h; simp [meaning, params] at hp hq; rcases hp with rfl | rfl <;>
      rcases hq with rfl | rfl <;> simp_all [SameKind])
    (by decide)

/-- a single parameter of any type and hint, with or without index 0, in the documented syntax -/
theorem C18_single_parameter (m : Mode) (w : Written) (hw : w.Valid m) (hi : w.index = none ∨ w.index = some 0) :
    parse ('{' :: w.text ++ ['}']) m = .ok [.param ⟨0, w.type, w.hint⟩] := by
  have hm : meaning 0 [.param w] = [.param ⟨0, w.type, w.hint⟩] := by
    rcases hi with h | h <;> simp [meaning, h]
  have := C18_write_then_parse m [.param w] 1 ⟨hw, trivial⟩
    (by rw [hm]; refine ⟨by simp [params], ?_⟩; intro i hi; exact ⟨⟨0, w.type, w.hint⟩, by simp [params], by simp; omega⟩)
    (by rw [hm]; intro p hp q hq _; simp [params] at hp hq; subst hp; subst hq; exact SameKind.refl _)
    (by decide)
  rw [hm] at this
  simpa [render] using this

/-- **C14** Any text with doubled braces parses to the text as the only fragment. -/
theorem C14_text_roundtrip (m : Mode) (t : List Char) (ht : t ≠ []) :
    parse (escape t) m = .ok [.literal t] := by
  have := C18_write_then_parse m [.text t] 0 ⟨ht, by simp, trivial⟩
    ⟨by simp [meaning, params], by simp⟩ (by intro p hp; simp [meaning, params] at hp) (by decide)
  simpa [render, meaning] using this

theorem C14_empty_text (m : Mode) : parse (escape []) m = .ok [] := by cases m <;> decide

example : parse c!"100 %% {{x}} }}" .strict = .ok [.literal c!"100 %% {x} }"] :=
  C14_text_roundtrip .strict c!"100 %% {x} }" (by decide)

/-! ### C15 -/

/-- **C15 does not hold**: the accepted string `}{{}` has a single `}` at both ends; it is not the
escaped form of any text. -/
theorem C15_fails : parse c!"}{{}" .strict = .ok [.literal c!"}{}"] ∧ ∀ t, escape t ≠ c!"}{{}" := by
  refine ⟨by decide +kernel, ?_⟩
  intro t h
  cases t with
  | nil => simp [escape] at h
  | cons c cs =>
    simp only [escape] at h
    split at h
    · simp only [List.cons.injEq] at h
      exact absurd (h.1.symm.trans h.2.1) (by decide)
    · simp at h; simp_all

/-- **C15** (partial) What holds: every literal fragment of an accepted string stems from a stretch
of the string between parameters which, unless an opening and a closing brace are adjacent in it,
is the text with all braces doubled. Missing: stretches like `}{{}` where braces of both kinds are
adjacent, see `C15_fails`. -/
theorem C15_single_braces_rejected_partial (s : List Char) (m : Mode) (fs : List Fragment)
    (h : parse s m = .ok fs) (t : List Char) (ht : .literal t ∈ fs) :
    ∃ pre raw post, s = pre ++ raw ++ post ∧ raw ≠ [] ∧
      (pre = [] ∨ pre.getLast? = some '}') ∧ (post = [] ∨ post.head? = some '{') ∧
      (Unmixed raw → raw = escape t) := by
  obtain ⟨fr, e, args, h1, h2, h3, h4⟩ := parse_ok h
  obtain ⟨hE, hL⟩ := scan_literals m s s false 0 0 0 [] fr e h1 (by simp) (Nat.zero_le _)
    ⟨by omega, Or.inl rfl⟩ (by simp)
  have fin : LitFrom s t := by
    split at h2
    · rename_i hne
      unfold pushLiteral at h2
      split at h2
      · simp at h2
      · rename_i hb
        simp only [Except.ok.injEq] at h2
        rw [← h2] at ht
        simp only [List.mem_append, List.mem_singleton, Fragment.literal.injEq] at ht
        rcases ht with ht | ht
        · exact hL t ht
        · refine ⟨s.take e, s.drop e, [], by simp, ?_, ?_, Or.inl rfl, hb, ht⟩
          · intro hd
            have := congrArg List.length hd
            have := hE.1
            simp at *; omega
          · rcases hE.2 with rfl | hh
            · left; simp
            · right; exact hh
    · simp only [Except.ok.injEq] at h2; rw [← h2] at ht; exact hL t ht
  obtain ⟨pre, raw, post, q1, q2, q3, q4, q5, q6⟩ := fin
  refine ⟨pre, raw, post, q1, q2, q3, q4, ?_⟩
  intro hu
  obtain ⟨t', ht'⟩ := checkBraces_unmixed raw.length raw (Nat.le_refl _) q5 hu
  rw [ht', q6, ht', undouble_escape]

example : Unmixed c!"a{{b}}" := by simp [Unmixed]

/-! ### C16 -/

/-- **C16 does not hold**: `{=1}` makes the parser panic. -/
theorem C16_fails : ∀ m, parse c!"{=1}" m = .panic := by
  intro m; cases m <;> decide +kernel

/-- **C16** (partial) What holds: the parser does not panic if every type that starts with a number
has `..` after the number, and explicit indices and the number of parameters are below 2^59. -/
theorem C16_no_panic_partial (s : List Char) (m : Mode)
    (hr : ∀ text ∈ paramTexts s, ∀ ty ∈ typeText text, RangeLike ty)
    (hi : ∀ text ∈ paramTexts s, ∀ i ∈ explicitIndex text, i < maxArgs)
    (hn : (paramTexts s).length ≤ maxArgs) : parse s m ≠ .panic := by
  intro h
  unfold parse at h
  cases hs : scanLoop m s s false 0 0 0 [] with
  | panic =>
    obtain ⟨text, ht, hp⟩ := scan_panic m s s false 0 0 0 [] hs
    obtain ⟨ty, hty, hnr⟩ := parseParam_panic hp
    exact hnr (hr text (by simpa using ht) ty hty)
  | err e => rw [hs] at h; simp at h
  | ok r =>
    obtain ⟨fr, e⟩ := r
    rw [hs] at h
    simp only at h
    cases ht : (if e ≠ s.length then pushLiteral fr (s.drop e) else .ok fr) with
    | error e => rw [ht] at h; simp at h
    | ok fs' =>
      rw [ht] at h
      simp only at h
      have hp : (params fs').map Parameter.index = number 0 ((paramTexts s).map explicitIndex) := by
        have := scan_params m s s false 0 0 0 [] fr e hs
        simp only [params, List.map_nil, List.nil_append, Bool.false_eq_true, if_false] at this
        rw [litStep_params ht, this]
      have hb : ∀ p ∈ params fs', p.index + 1 ≤ maxArgs := by
        intro p hp'
        have hmem : p.index ∈ number 0 ((paramTexts s).map explicitIndex) := by
          rw [← hp]; exact List.mem_map.mpr ⟨p, hp', rfl⟩
        rcases number_mem _ _ _ hmem with h1 | h1
        · obtain ⟨text, htx, he⟩ := List.mem_map.mp h1
          exact hi text htx _ he
        · simp at h1; omega
      have hc := checkArgs_no_panic fs' [] hb
      cases hc' : checkArgs [] fs' with
      | panic => exact hc hc'
      | err e => rw [hc'] at h; simp at h
      | ok args =>
        rw [hc'] at h
        simp only at h
        cases hu : firstUnused 0 args with
        | some i => rw [hu] at h; simp at h
        | none => rw [hu] at h; simp at h

/-- the hypotheses of `C16_no_panic_partial` hold for a string with a range and a broken type -/
example : parse c!"{=0..3} {1=u9} {" .strict ≠ .panic :=
  C16_no_panic_partial _ _
    (by
      intro text ht
      have : paramTexts c!"{=0..3} {1=u9} {" = [c!"=0..3", c!"1=u9", c!""] := by decide +kernel
      rw [this] at ht
      simp only [List.mem_cons, List.not_mem_nil, or_false] at ht
      rcases ht with rfl | rfl | rfl
      · intro ty hty
        have : typeText c!"=0..3" = some c!"0..3" := by decide +kernel
        rw [this] at hty; simp at hty; subst hty
        intro d r _ _; exact ⟨c!"3", by decide +kernel⟩
      · intro ty hty
        have : typeText c!"1=u9" = some c!"u9" := by decide +kernel
        rw [this] at hty; simp at hty; subst hty
        intro d r h1 h2; simp at h1; rw [← h1.1] at h2; exact absurd h2 (by decide)
      · intro ty hty; have : typeText [] = none := by decide +kernel
        rw [this] at hty; simp at hty)
    (by decide +kernel) (by decide +kernel)

end Defmt
