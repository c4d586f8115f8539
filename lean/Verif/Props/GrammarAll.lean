import Verif.Lemmas.GrammarAll
import Verif.Props.Grammar
/-!
# C72 and C16 for all format strings

`C72_grammar` and `C16_exact` are about strings whose parameters do not contain `{`; here is the same without that condition.
-/

namespace Defmt

open Parser

/-- **C72, for every string** A format string is accepted as `fs` if and only if it consists of pieces that stand for `fs`, the
arguments are numbered without a gap, and equal arguments have equal types. -/
theorem C72_every_string (m : Mode) (s : List Char) (fs : List Fragment) :
    parse s m = .ok fs ↔
      ∃ pieces, s = glue pieces ∧ Stands m 0 pieces fs ∧
        (∃ n, n ≤ maxArgs ∧ Dense (params fs) n) ∧ Consistent (params fs) := by
  constructor
  · intro h
    obtain ⟨fr, e, args, h1, h2, h3, h4⟩ := parse_ok h
    obtain ⟨pieces, fs', g1, g2, g3⟩ := scan_stands m s s.length [] [] s 0 [] (fr, e) fs (Nat.le_refl _) (by simp) rfl
      (by simpa using h1) h2
    simp only [List.nil_append] at g1 g3
    subst g3
    have hi := checkArgs_inv _ AInv.nil h3
    simp only [List.nil_append] at hi
    rw [firstUnused_none] at h4
    have hb := checkArgs_bound h3
    refine ⟨pieces, g1, g2, ⟨args.length, hb, ?_, ?_⟩, ?_⟩
    · intro p hp
      obtain ⟨t, ht, _⟩ := hi.typed p hp
      exact (List.getElem?_eq_some_iff.mp ht).1
    · intro i hi'
      obtain ⟨t, ht⟩ := h4 i hi'
      obtain ⟨p, hp, hpi, _⟩ := hi.used i t ht
      exact ⟨p, hp, hpi⟩
    · intro p hp q hq hpq
      obtain ⟨t, ht, hk⟩ := hi.typed p hp
      obtain ⟨t', ht', hk'⟩ := hi.typed q hq
      rw [hpq, ht'] at ht
      simp only [Option.some.injEq] at ht
      subst ht
      exact hk.symm.trans hk'
  · rintro ⟨pieces, rfl, hp, ⟨n, hn, hd⟩, hc⟩
    obtain ⟨r, h1, h2⟩ := stands_finish m (glue pieces) hp rfl
    obtain ⟨args, ha⟩ := checkArgs_complete fs AInv.nil (by simpa using hc) (fun p hp => by have := hd.1 p hp; omega)
    have hi := checkArgs_inv _ AInv.nil ha
    simp only [List.nil_append] at hi
    refine parse_intro (fr := r.1) (e := r.2) (by simpa using h1) h2 ha ?_
    rw [firstUnused_none]
    intro j hj
    have hjn : j < n := by
      rcases hi.last with rfl | ⟨p, hp, hl⟩
      · simp at hj
      · have := hd.1 p hp; omega
    obtain ⟨p, hp, hpi⟩ := hd.2 j hjn
    obtain ⟨t, ht, _⟩ := hi.typed p hp
    exact ⟨t, by rw [← hpi]; exact ht⟩

/-- **C16, exactly, for every string** The parser panics on a format string if and only if, after pieces that are correct, there is a
parameter that - itself, or as a parameter beginning in it after correct ones - has a type that starts with a number not followed by (at
least) two bytes; or all pieces are correct and an index is too large for a vector (before arguments with conflicting types). -/
theorem C16_every_string (m : Mode) (s : List Char) :
    parse s m = .panic ↔
      (∃ pieces fs text rest before bad after, s = glue pieces ++ ('{' :: text ++ '}' :: rest) ∧ Stands m 0 pieces fs ∧
        text.head? ≠ some '{' ∧ '}' ∉ text ∧
        text :: paramTexts text = before ++ bad :: after ∧ (∀ t ∈ before, ∃ p, ParamText m t p) ∧ Misread bad) ∨
      (∃ pieces fs, s = glue pieces ∧ Stands m 0 pieces fs ∧
        ∃ before p after, params fs = before ++ p :: after ∧ 2 ^ 59 - 1 ≤ p.index ∧ Consistent before) := by
  show _ ↔ _ ∨ (∃ pieces fs, s = glue pieces ∧ Stands m 0 pieces fs ∧
        ∃ before p after, params fs = before ++ p :: after ∧ maxArgs ≤ p.index ∧ Consistent before)
  constructor
  · intro h
    unfold parse at h
    cases hs : scanLoop m s s false 0 0 0 [] with
    | panic => exact Or.inl (scan_panic_stands m s s.length [] [] s 0 [] (Nat.le_refl _) rfl rfl (by simpa using hs))
    | err e => rw [hs] at h; cases h
    | ok r =>
      right
      rw [hs] at h
      simp only at h
      cases hf : finish s r with
      | error e =>
        unfold finish at hf
        rw [hf] at h
        cases h
      | ok out =>
        obtain ⟨pieces, fs, g1, g2, g3⟩ := scan_stands m s s.length [] [] s 0 [] r out (Nat.le_refl _) rfl rfl (by simpa using hs) hf
        simp only [List.nil_append] at g1 g3
        subst g3
        refine ⟨pieces, out, g1, g2, ?_⟩
        unfold finish at hf
        rw [hf] at h
        simp only at h
        have := (checkArgs_panic_iff out AInv.nil (by intro p hp; cases hp) (by intro p hp; cases hp)).mp (by
          cases hc : checkArgs [] out with
          | panic => rfl
          | err e => rw [hc] at h; cases h
          | ok args => rw [hc] at h; simp only at h; split at h <;> cases h)
        simpa using this
  · rintro (⟨pieces, fs, text, rest, a, bad, b, h1, h2, h3, h4, h5, h6, h7⟩ | ⟨pieces, fs, h1, h2, h3⟩)
    · unfold parse
      rw [stands_panic m s h2 h1 h3 h4 h5 h6 h7]
    · obtain ⟨r, g1, g2⟩ := stands_finish m s h2 h1
      unfold parse
      rw [g1]
      unfold finish at g2
      simp only [g2]
      rw [(checkArgs_panic_iff fs AInv.nil (by intro p hp; cases hp) (by intro p hp; cases hp)).mpr (by simpa using h3)]

/-- **C15, exactly** A string without parameters is accepted if and only if in every run of adjacent braces there is an even number of
each kind; it is read as one text, with every pair of `{` and then every pair of `}` made a single one. -/
theorem C15_exact (m : Mode) (s : List Char) (h0 : s ≠ []) (hp : paramTexts s = []) (fs : List Fragment) :
    parse s m = .ok fs ↔ EvenRuns s ∧ fs = [.literal (single '}' (single '{' s))] := by
  have hsc : scanLoop m s s false 0 0 0 [] = .ok ([], 0) := by
    have := scan_raw m s s [] hp 0 0 0 []
    rw [List.append_nil, scanLoop] at this
    exact this
  have hpos := List.length_pos_iff.mpr h0
  constructor
  · intro h
    obtain ⟨fr, e, args, h1, h2, h3, h4⟩ := parse_ok h
    rw [hsc] at h1
    cases h1
    rw [if_pos (by omega), List.drop_zero] at h2
    simpa using pushLiteral_iff.mp h2
  · rintro ⟨he, rfl⟩
    exact parse_intro (fr := []) (e := 0) (args := []) hsc
      (by rw [if_pos (by omega), List.drop_zero]; exact pushLiteral_iff.mpr ⟨he, by simp⟩) rfl rfl

/-- an instance: `}{{}` with its single braces, and `}` alone -/
example : EvenRuns c!"}{{}" ∧ ¬ EvenRuns c!"}" ∧ parse c!"}" .strict = .err .unmatchedCloseBracket := by
  refine ⟨?_, ?_, by decide +kernel⟩
  · rw [← checkBraces_even 4 _ (by decide)]; decide
  · rw [← checkBraces_even 1 _ (by decide)]; decide

/-- an instance on the host: `{:{=u8}` is one text with two parameters, one with an unknown hint and one beginning in it -/
example : parse c!"{:{=u8}" .forwardsCompatible = .ok [.param ⟨0, .format, some (.unknown c!"{=u8")⟩, .param ⟨1, .u8, none⟩] := by
  refine (C72_every_string _ _ _).mpr ⟨[.param c!":{=u8"], rfl, .param (ps := [.param ⟨0, .format, some (.unknown c!"{=u8")⟩, .param ⟨1, .u8, none⟩]) (by decide) (by decide)
    (.implicit (parseParam_iff.mp rfl) (.implicit (parseParam_iff.mp rfl) .nil)) .nil, ⟨2, by decide, ?_, ?_⟩, ?_⟩
  · decide
  · intro i hi
    match i, hi with
    | 0, _ => exact ⟨_, by simp [params]; left; rfl, rfl⟩
    | 1, _ => exact ⟨⟨1, .u8, none⟩, by simp [params], rfl⟩
  · intro p hp q hq e
    simp [params] at hp hq
    rcases hp with rfl | rfl <;> rcases hq with rfl | rfl
    · exact SameKind.refl _
    · cases e
    · cases e
    · exact SameKind.refl _

/-- the same text panics with a type that is misread, only inside -/
example : parse c!"{:{=1}" .forwardsCompatible = .panic ∧ parse c!"{:{=1}" .strict = .err (.unknownDisplayHint c!"{=1") := by
  refine ⟨(C16_every_string _ _).mpr (Or.inl ⟨[], [], c!":{=1", [], [c!":{=1"], c!"=1", [], rfl, .nil, by decide, by decide, rfl, ?_, ?_⟩),
    by decide +kernel⟩
  · intro t ht
    simp at ht
    subst ht
    exact ⟨_, parseParam_iff.mp rfl⟩
  · exact (parseParam_panic_iff (m := .strict)).mp (by decide +kernel)

end Defmt
