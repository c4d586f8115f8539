import Verif.Lemmas.Grammar
import Verif.Props.Parser
/-!
# C72: which format strings are accepted, and as what
-/

namespace Defmt

open Parser

/-- **C72** (direction from the grammar) Whatever is written by the grammar, is accepted and read as the
grammar says. -/
theorem C72_written_accepted (m : Mode) (pieces : List Piece) (fs : List Fragment) (n : Nat)
    (hp : Means m 0 pieces fs) (hn : n ≤ maxArgs) (hd : Dense (params fs) n) (hc : Consistent (params fs)) :
    parse (glue pieces) m = .ok fs := by
  obtain ⟨r, h1, h2⟩ := means_scan m (glue pieces) hp [] [] [] (by simp) rfl
    (by intro a b e _; have := List.append_eq_nil_iff.mp e.symm; simp [this.2, braces]) (by simp)
  simp only [pending, if_true, List.append_nil, List.nil_append] at h2
  obtain ⟨args, ha⟩ := checkArgs_complete fs AInv.nil (by simpa using hc) (fun p hp => by have := hd.1 p hp; omega)
  have hi := checkArgs_inv _ AInv.nil ha
  simp only [List.nil_append] at hi
  refine parse_intro (fr := r.1) (e := r.2) (by simpa using h1) h2 ha ?_
  rw [firstUnused_none]
  intro j hj
  have hjn : j < n := by
    rcases hi.last with rfl | ⟨p, hp, hl⟩
    · simp at hj
    · have := hd.1 p hp; omega
  obtain ⟨p, hp, hpi⟩ := hd.2 j hjn
  obtain ⟨t, ht, _⟩ := hi.typed p hp
  exact ⟨t, by rw [← hpi]; exact ht⟩

/-- **C72** A format string without an opening brace inside a parameter is accepted exactly if it is
made of texts and parameters as the grammar says, with arguments numbered without gaps and all uses of an
argument of one type; and it is read as the grammar says. -/
theorem C72_grammar (m : Mode) (s : List Char) (fs : List Fragment) (hno : ∀ text ∈ paramTexts s, '{' ∉ text) :
    parse s m = .ok fs ↔
      ∃ pieces, s = glue pieces ∧ Means m 0 pieces fs ∧
        (∃ n, n ≤ maxArgs ∧ Dense (params fs) n) ∧ Consistent (params fs) := by
  constructor
  · intro h
    obtain ⟨fr, e, args, h1, h2, h3, h4⟩ := parse_ok h
    obtain ⟨pieces, fs', g1, g2, g3⟩ := scan_means m s s.length [] [] s 0 [] (fr, e) fs (Nat.le_refl _) (by simp) rfl hno
      (by simpa using h1) h2
    simp only [List.nil_append] at g1 g3
    subst g3
    have hi := checkArgs_inv _ AInv.nil h3
    simp only [List.nil_append] at hi
    rw [firstUnused_none] at h4
    have hb := checkArgs_bound h3
    refine ⟨pieces, g1, g2, ⟨args.length, hb, ?_, ?_⟩, ?_⟩
    · intro p hp
      obtain ⟨t, ht, _⟩ := hi.typed p hp
      exact (List.getElem?_eq_some_iff.mp ht).1
    · intro i hi'
      obtain ⟨t, ht⟩ := h4 i hi'
      obtain ⟨p, hp, hpi, _⟩ := hi.used i t ht
      exact ⟨p, hp, hpi⟩
    · intro p hp q hq hpq
      obtain ⟨t, ht, hk⟩ := hi.typed p hp
      obtain ⟨t', ht', hk'⟩ := hi.typed q hq
      rw [hpq, ht'] at ht
      simp only [Option.some.injEq] at ht
      subst ht
      exact hk.symm.trans hk'
  · rintro ⟨pieces, rfl, h1, ⟨n, hn, hd⟩, hc⟩
    exact C72_written_accepted m pieces fs n h1 hn hd hc

/-- **C72** For the macros this covers every string without the name of the internal bitflags hint. -/
theorem C72_grammar_strict (s : List Char) (fs : List Fragment) (hno : ¬ c!"__internal_bitflags_" <:+: s) :
    parse s .strict = .ok fs ↔
      ∃ pieces, s = glue pieces ∧ Means .strict 0 pieces fs ∧
        (∃ n, n ≤ maxArgs ∧ Dense (params fs) n) ∧ Consistent (params fs) := by
  constructor
  · intro h
    refine (C72_grammar .strict s fs ?_).mp h
    intro text ht hb
    obtain ⟨fr, e, args, h1, _⟩ := parse_ok h
    obtain ⟨p, hp⟩ := scan_all .strict s s false 0 0 0 [] _ h1 text ht
    exact hno ((strict_open (parseParam_iff.mp hp) hb).trans (paramTexts_infix s text ht))
  · rintro ⟨pieces, rfl, h1, ⟨n, hn, hd⟩, hc⟩
    exact C72_written_accepted .strict pieces fs n h1 hn hd hc

/-- an instance: `"a{{{00=[u8; 04]:#008X}"`, leading zeros and all -/
example : parse c!"a{{{00=[u8; 04]:#008X}" .strict =
    .ok [.literal c!"a{", .param ⟨0, .u8Array 4, some (.hexadecimal true true 8)⟩] := by
  have n0 : Number (2 ^ 64) c!"00" 0 := by unfold Number; decide
  have n4 : Number (2 ^ 64) c!"04" 4 := by unfold Number; decide
  have n8 : Number (2 ^ 64) c!"08" 8 := by unfold Number; decide
  have hk : KnownHint c!"#008X" (.hexadecimal true true 8) := .word (a := c!"#") (p := c!"008") .yes (.width n8) (by simp [hintWords])
  have hp : ParamText .strict c!"00=[u8; 04]:#008X" ⟨some 0, .u8Array 4, some (.hexadecimal true true 8)⟩ :=
    .mk (a := c!"00") (b := c!"=[u8; 04]") (.some n0) (.some (.u8Array (k := 1) n4)) (.some (.known (by decide) hk))
  have ht : TextWritten c!"a{{" c!"a{" := by
    refine ⟨by decide, by decide, ?_, by decide⟩
    rw [← checkBraces_even 3 _ (by decide)]
    decide
  refine C72_written_accepted .strict [.text c!"a{{", .param c!"00=[u8; 04]:#008X"] _ 1
    (.text ht (by simp) (.explicit (by decide) (by decide) hp .nil)) (by decide) ?_ ?_
  · refine ⟨by simp [params], ?_⟩
    intro i hi
    exact ⟨_, by simp [params]; rfl, by simp; omega⟩
  · intro p hp q hq _
    simp [params] at hp hq
    subst hp; subst hq
    exact SameKind.refl _

/-- and the other way round: nothing is accepted that is not in the grammar, e.g. a type in upper case -/
example (fs : List Fragment) : parse c!"{=U8}" .strict ≠ .ok fs := by
  have e : parse c!"{=U8}" .strict = .err (.invalidTypeSpecifier c!"U8") := by decide +kernel
  rw [e]; simp

end Defmt
