import Verif.Lemmas.ParserPanic
/-!
# Property C16, exactly

Which format strings make the parser panic.
-/

namespace Defmt

open Parser

/-- **C16, exactly** The parser panics on a format string if and only if, after pieces that are correct, there is a parameter whose type starts
with a number that is not followed by (at least) two bytes, or all pieces are correct and an index is too large for a vector (before
arguments with conflicting types). As in `C72_grammar`, parameters do not contain `{`. -/
theorem C16_exact (m : Mode) (s : List Char) (hno : ∀ text ∈ paramTexts s, '{' ∉ text) :
    parse s m = .panic ↔
      (∃ pieces fs text rest, s = glue pieces ++ ('{' :: text ++ '}' :: rest) ∧ Means m 0 pieces fs ∧ '}' ∉ text ∧ Misread text) ∨
      (∃ pieces fs, s = glue pieces ∧ Means m 0 pieces fs ∧
        ∃ before p after, params fs = before ++ p :: after ∧ 2 ^ 59 - 1 ≤ p.index ∧ Consistent before) := by
  show _ ↔ _ ∨ (∃ pieces fs, s = glue pieces ∧ Means m 0 pieces fs ∧
        ∃ before p after, params fs = before ++ p :: after ∧ maxArgs ≤ p.index ∧ Consistent before)
  constructor
  · intro h
    unfold parse at h
    cases hs : scanLoop m s s false 0 0 0 [] with
    | panic =>
      obtain ⟨pieces, fs, text, rest, h1, h2⟩ := scan_panic_means m s s.length [] [] s 0 [] (Nat.le_refl _) rfl rfl hno (by simpa using hs)
      exact Or.inl ⟨pieces, fs, text, rest, h1, h2⟩
    | err e => rw [hs] at h; cases h
    | ok r =>
      right
      rw [hs] at h
      simp only at h
      cases hf : finish s r with
      | error e =>
        unfold finish at hf
        rw [hf] at h
        cases h
      | ok out =>
        obtain ⟨pieces, fs, g1, g2, g3⟩ := scan_means m s s.length [] [] s 0 [] r out (Nat.le_refl _) rfl rfl hno (by simpa using hs) hf
        simp only [List.nil_append] at g1 g3
        subst g3
        refine ⟨pieces, out, g1, g2, ?_⟩
        unfold finish at hf
        rw [hf] at h
        simp only at h
        have := (checkArgs_panic_iff out AInv.nil (by intro p hp; cases hp) (by intro p hp; cases hp)).mp (by
          cases hc : checkArgs [] out with
          | panic => rfl
          | err e => rw [hc] at h; cases h
          | ok args => rw [hc] at h; simp only at h; split at h <;> cases h)
        simpa using this
  · rintro (⟨pieces, fs, text, rest, h1, h2, h3, h4⟩ | ⟨pieces, fs, h1, h2, h3⟩)
    · have := means_scan_panic m s text rest h3 h4 h2 [] [] [] (by simpa using h1) rfl evenRuns_nil (by simp)
      rw [← h1] at this
      unfold parse
      rw [show scanLoop m s s false 0 0 0 [] = .panic by simpa using this]
    · obtain ⟨r, g1, g2⟩ := means_scan m s h2 [] [] [] (by simpa using h1) rfl evenRuns_nil (by simp)
      rw [← h1] at g1
      simp only [pending, if_true, List.append_nil, List.nil_append] at g2
      unfold parse
      rw [show scanLoop m s s false 0 0 0 [] = .ok r by simpa using g1]
      unfold finish at g2
      simp only [g2]
      rw [(checkArgs_panic_iff fs AInv.nil (by intro p hp; cases hp) (by intro p hp; cases hp)).mpr (by simpa using h3)]

/-- **C16** For every string: a parameter with such a type, an index of at least 2^59 or so many parameters are the only reasons for a panic. -/
theorem C16_reasons_partial (s : List Char) (m : Mode) (h : parse s m = .panic) :
    (∃ text ∈ paramTexts s, Misread text) ∨ (∃ text ∈ paramTexts s, ∃ i, explicitIndex text = some i ∧ 2 ^ 59 - 1 ≤ i) ∨
      2 ^ 59 - 1 < (paramTexts s).length := by
  have hmax : maxArgs = 2 ^ 59 - 1 := by decide
  rw [← hmax]
  unfold parse at h
  cases hs : scanLoop m s s false 0 0 0 [] with
  | panic =>
    obtain ⟨text, ht, hp⟩ := scan_panic m s s false 0 0 0 [] hs
    exact Or.inl ⟨text, by simpa using ht, parseParam_panic_iff.mp hp⟩
  | err e => rw [hs] at h; cases h
  | ok r =>
    obtain ⟨fr, e⟩ := r
    rw [hs] at h
    simp only at h
    right
    cases ht : (if e ≠ s.length then pushLiteral fr (s.drop e) else .ok fr) with
    | error e => rw [ht] at h; cases h
    | ok fs' =>
      rw [ht] at h
      simp only at h
      have hp : (params fs').map Parameter.index = number 0 ((paramTexts s).map explicitIndex) := by
        have := scan_params m s s false 0 0 0 [] fr e hs
        simp only [params, List.map_nil, List.nil_append, Bool.false_eq_true, if_false] at this
        rw [litStep_params ht, this]
      obtain ⟨a, p, b, e1, e2, -⟩ := (checkArgs_panic_iff fs' AInv.nil (by intro p hp; cases hp) (by intro p hp; cases hp)).mp (by
          cases hc : checkArgs [] fs' with
          | panic => rfl
          | err e => rw [hc] at h; cases h
          | ok args => rw [hc] at h; simp only at h; split at h <;> cases h)
      have hmem : p.index ∈ number 0 ((paramTexts s).map explicitIndex) := by
        rw [← hp]; exact List.mem_map.mpr ⟨p, by rw [e1]; simp, rfl⟩
      rcases number_mem _ _ _ hmem with h1 | h1
      · obtain ⟨text, htx, he⟩ := List.mem_map.mp h1
        exact Or.inl ⟨text, htx, _, he, e2⟩
      · simp at h1; exact Or.inr (by omega)

/-! which types those are -/

theorem noTwoBytes_nil : NoTwoBytes [] := by
  intro a b e
  have := List.append_eq_nil_iff.mp e.symm
  simp [this.1]

/-- `{=1}`, also behind correct pieces -/
example (m : Mode) (rest : List Char) (h : ∀ text ∈ paramTexts (c!"a{=u8} {=1}" ++ rest), '{' ∉ text) :
    parse (c!"a{=u8} {=1}" ++ rest) m = .panic := by
  refine (C16_exact m _ h).mpr (Or.inl ⟨[.text c!"a", .param c!"=u8", .text c!" "],
    [.literal c!"a", .param ⟨0, .u8, none⟩, .literal c!" "], c!"=1", rest, rfl, ?_, by decide, ?_⟩)
  · refine .text ⟨by decide, rfl, ?_, rfl⟩ (by simp) (.implicit (by decide) (by decide) ?_ (.text ⟨by decide, rfl, ?_, rfl⟩ (by simp) .nil))
    · exact (pushLiteral_iff (fr := []) (fs := [.literal c!"a"]) (raw := c!"a")).mp rfl |>.1
    · exact parseParam_iff.mp (by cases m <;> rfl)
    · exact (pushLiteral_iff (fr := []) (fs := [.literal c!" "]) (raw := c!" ")).mp rfl |>.1
  · exact ⟨(by intro i h; cases h), c!"1", 1, rfl, rfl, by decide, noTwoBytes_nil⟩

/-- two bytes after the number are enough, whatever they are -/
example : parse c!"{=1ab}" .strict = .err (.invalidTypeSpecifier c!"1ab") ∧ parse c!"{=1ä}" .strict = .err (.invalidTypeSpecifier c!"1ä") ∧
    parse c!"{=1€}" .strict = .panic ∧ parse c!"{=1aä}" .strict = .panic ∧ parse c!"{=256}" .strict = .err (.invalidTypeSpecifier c!"256") := by
  decide +kernel

/-- an index that is too large -/
example : parse c!"{576460752303423487}" .strict = .panic ∧ parse c!"{0}{0=u8}{576460752303423487}" .strict = .err (.conflictingTypes 0 .format .u8) := by
  decide +kernel

end Defmt
