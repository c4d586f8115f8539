import Verif.Lemmas.LogGroup
import Verif.Props.LogParser
/-!
# Property C64, continued: any text between a pair of brackets

What can be read from such a text (`Reads`, `FieldOf`, `Between`) is in `Verif.Spec.LogField`.
-/

namespace Defmt

open LogFormat
open Parser hiding parse Written

/-- **C64** Exactly which pairs of brackets without brackets inside are accepted, and what they stand for: pieces between colons, one
of them a specifier, no parameter given twice. What follows the last piece is ignored if it does not start with a colon.
Any other such pair makes the whole format be refused (`C64_refused`). -/
theorem C64_field_exact {t : Term} (ht : t.Ok) {content : List Char} (hc : Simple content) (seg : Segment) :
    StandsFor t ('{' :: content ++ ['}']) seg ↔ ∃ xs ignored m ps, Reads t content xs ignored ∧ ignored.head? ≠ some ':' ∧
      FieldOf xs m ps ∧ seg = .field m (formatOf ps) := by
  rw [← content_simple ht hc seg, StandsFor, ← accepts_iff ht (simple_inside hc)]
  constructor
  · rintro ⟨c, r, he, hr⟩
    cases bracket_inj he
    exact ⟨r, hr⟩
  · rintro ⟨r, hr⟩
    exact ⟨content, r, rfl, hr⟩

/-- **C64** In a group the same holds with one difference: what follows the last piece is ignored also if it starts with a colon, as long as
no piece follows that colon. -/
theorem C64_field_in_group {t : Term} (ht : t.Ok) {content : List Char} (hc : Simple content) (seg : Segment) :
    StandsFor t (c!"{-{" ++ content ++ c!"}}") (.nested [.text c!"-", seg] {}) ↔
      ∃ xs ignored m ps, Reads t content xs ignored ∧ (∀ w x r, Piece t w x r → ignored ≠ ':' :: (w ++ r)) ∧
        FieldOf xs m ps ∧ seg = .field m (formatOf ps) := by
  have hcg := content_group ht hc
  have hb : c!"{-{" ++ content ++ c!"}}" = '{' :: (c!"-{" ++ content ++ c!"}") ++ ['}'] := by simp
  rw [StandsFor, hb, ← accepts_iff ht (inside_group hc)]
  constructor
  · rintro ⟨c, r, he, hr⟩
    cases bracket_inj he
    rw [hcg] at hr
    rcases group_simple ht (content.length + 2) hc with ⟨r', seg', h1, xs, rest, m, ps, h2⟩ | ⟨h1, -⟩
    · rw [h1] at hr
      simp only at hr
      split at hr
      · cases hr
        exact ⟨xs, rest, m, ps, h2⟩
      · cases hr
    · rw [h1] at hr
      cases hr
  · rintro ⟨xs, rest, m, ps, h1, h2, h3, rfl⟩
    rcases group_simple ht (content.length + 2) hc with ⟨r', seg', h4, xs', rest', m', ps', h5, h6, h7, rfl⟩ | ⟨-, h4⟩
    · obtain ⟨rfl, rfl⟩ := reads_unique ht hc h1 h2 h5 h6
      have hm : m = m' := by
        have := h3.1.symm.trans h7.1
        simpa using this
      have hp : ps = ps' := h3.2.1.symm.trans h7.2.1
      subst hm hp
      refine ⟨_, [], rfl, ?_⟩
      rw [hcg, h4]
      rfl
    · exact absurd ⟨xs, rest, m, ps, h1, h2, h3⟩ h4

/-- a specifier may be written anywhere among the parameters -/
example : StandsFor (demoTerm true) c!"{bold:<05:s}" (.field .log { style := some [.bold], width := some 5, padding := some .zero, alignment := some .left }) := by
  rw [show c!"{bold:<05:s}" = '{' :: c!"bold:<05:s" ++ ['}'] from rfl, C64_field_exact (demoTerm_ok true) (by unfold Simple; decide)]
  refine ⟨[.inr (.style .bold), .inr (.width 5 .zero (some .left)), .inl .log], [], .log, _, ?_, by simp, ⟨rfl, rfl, by decide⟩, rfl⟩
  refine .more (w := c!"bold") (.word .bold ?_) (.more (w := c!"<05") ?_ (.last (w := c!"s") (rest := []) (.word (.metadata .log) (by simp))))
  · intro c hc; simp at hc; subst hc; decide
  · exact .number (some .left) (ds := c!"05") (n := 5) (by unfold Number; decide) (by intro c hc; simp at hc; subst hc; decide)

/-- **C64** A misspelt parameter: outside groups the format is refused, in a group the parameter is ignored. -/
theorem C64_misspelt : parse (demoTerm true) c!"{L:blod} {s}" = .err () ∧
    parse (demoTerm true) c!"{[{L:blod}]%bold} {s}" = parse (demoTerm true) c!"{[{L}]%bold} {s}" ∧
    parse (demoTerm true) c!"{[{L}]%bold} {s}" =
      .ok [.nested [.text c!"[", .field .logLevel {}, .text c!"]"] { style := some [.bold] }, .text c!" ", .field .log {}] :=
  ⟨rfl, rfl, rfl⟩

/-- **C64** Exactly what any pair of brackets stands for, whatever is inside: fields, groups, groups in groups to any depth. -/
theorem C64_bracket_exact {t : Term} (ht : t.Ok) {content : List Char} (hc : Inside content 0) (seg : Segment) :
    StandsFor t ('{' :: content ++ ['}']) seg ↔ Between t false content seg := by
  rw [← content_iff ht hc seg, StandsFor, ← accepts_iff ht hc]
  constructor
  · rintro ⟨c, r, he, hr⟩
    cases bracket_inj he
    exact ⟨r, hr⟩
  · rintro ⟨r, hr⟩
    exact ⟨content, r, rfl, hr⟩

theorem C64_bracket_iff {t : Term} (ht : t.Ok) {content : List Char} (hc : Inside content 0) (seg : Segment) :
    StandsFor t ('{' :: content ++ ['}']) seg ↔ Bracket t ('{' :: content ++ ['}']) seg := by
  rw [C64_bracket_exact ht hc]
  constructor
  · intro h; exact ⟨content, rfl, h⟩
  · rintro ⟨c, he, h⟩
    cases bracket_inj he
    exact h

/-- **C64** The whole grammar: exactly which strings are accepted, and what they stand for, in terms of texts, brackets, specifiers, colours,
styles and numbers only. -/
theorem C64_grammar {t : Term} (ht : t.Ok) (s : List Char) (segs : List Segment) :
    parse t s = .ok segs ↔ HasLog segs ∧ ∃ before rest, s = before ++ rest ∧ Parts (Bracket t) before segs ∧ Ignored rest := by
  rw [C64_exact ht]
  constructor
  · rintro ⟨h1, before, rest, h2, h3, h4⟩
    exact ⟨h1, before, rest, h2, parts_congr (fun c seg hc => (C64_bracket_iff ht hc seg).mp) h3, h4⟩
  · rintro ⟨h1, before, rest, h2, h3, h4⟩
    exact ⟨h1, before, rest, h2, parts_congr (fun c seg hc => (C64_bracket_iff ht hc seg).mpr) h3, h4⟩

/-- **C64** Parameters that are written before a group, with colons, have no effect. -/
theorem C64_before_group {t : Term} (ht : t.Ok) {content group : List Char} {ps : List LogFormat.Param} (hc : Inside content 0)
    (hg : Inside group 0) (hl : Leads t content (ps.map .inr) group) (hp : ParamsAllowed ps) (hn : NoPiece t group) {seg : Segment}
    (h : StandsFor t ('{' :: group ++ ['}']) seg) : StandsFor t ('{' :: content ++ ['}']) seg := by
  rw [C64_bracket_exact ht hg] at h
  rw [C64_bracket_exact ht hc]
  cases h with
  | field h1 _ _ =>
    cases h1 with
    | last h1 => exact absurd rfl (hn _ _ _ h1)
    | more h1 _ => exact absurd rfl (hn _ _ _ h1)
  | group h1 h2 h3 h4 h5 h6 =>
    generalize hx : (List.map Sum.inr _ : List (Metadata ⊕ LogFormat.Param)) = xs at h1
    cases h1 with
    | nil => exact .group hl hp hn h4 h5 h6
    | cons h1 _ => exact absurd rfl (hn _ _ _ h1)

/-- **C64** Parameters without effect: before a group, and after or before a specifier in a group. -/
theorem C64_without_effect :
    parse (demoTerm true) c!"{bold:5:[{L}]%red} {s}" = parse (demoTerm true) c!"{[{L}]%red} {s}" ∧
    parse (demoTerm true) c!"{[{L%bold}]%red} {s}" = parse (demoTerm true) c!"{[{L}]%red} {s}" ∧
    parse (demoTerm true) c!"{[{bold%L}]%red} {s}" = parse (demoTerm true) c!"{[{L}]%red} {s}" ∧
    parse (demoTerm true) c!"{[{L}]%red} {s}" =
      .ok [.nested [.text c!"[", .field .logLevel {}, .text c!"]"] { color := some (.color .red) }, .text c!" ", .field .log {}] :=
  ⟨rfl, rfl, rfl, rfl⟩

/-- a group in a group: the hypothesis holds, and so this is what it stands for -/
example : Between (demoTerm true) false c!"a{b{s}%bold}{L}" (.nested [.text c!"a",
    .nested [.text c!"b", .field .log {}] { style := some [.bold] }, .field .logLevel {}] {}) := by
  have ht := demoTerm_ok true
  have hi : Inside c!"a{b{s}%bold}{L}" 0 := by
    have p : ∀ {s n} c, Inside s n → c ≠ '\\' → c ≠ '{' → c ≠ '}' → Inside (s ++ [c]) n := fun c h h1 h2 h3 => .plain h h1 h2 h3
    have h1 : Inside c!"a{b{s}" 1 := .closed (.plain (s := c!"a{b{") (.opened (.plain (s := c!"a{") (.opened (.plain (s := []) .nil
      (by decide) (by decide) (by decide))) (by decide) (by decide) (by decide))) (by decide) (by decide) (by decide))
    have h2 : Inside c!"a{b{s}%bold" 1 := p 'd' (p 'l' (p 'o' (p 'b' (p '%' h1 (by decide) (by decide) (by decide)) (by decide) (by decide)
      (by decide)) (by decide) (by decide) (by decide)) (by decide) (by decide) (by decide)) (by decide) (by decide) (by decide)
    exact .closed (p 'L' (.opened (.closed (n := 0) h2)) (by decide) (by decide) (by decide))
  rw [← C64_bracket_exact ht hi]
  rfl

end Defmt
