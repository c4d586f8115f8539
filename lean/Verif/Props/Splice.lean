import Verif.Lemmas.Splice
/-!
# C116: any expression can be given to a macro

True for all macros but `dbg!`: there, an expression with a struct literal that is not in parentheses does not compile (`C116_dbg_partial`,
`C116_dbg_false`), other than with `std::dbg!`.
-/

namespace Defmt
open Splice

theorem expr_ref {e : List Tok} (h : IsExpr true e) (k : Bool) : IsExpr k [refOp, .paren e] := .prefix (.paren (.one h))

/-- **C116** The arguments of log macros, `println!` and of the messages of all other macros: any expressions. -/
theorem C116_log (es : List (List Tok)) (h : ∀ e ∈ es, IsExpr true e) : IsExpr true (logCode es) := by
  refine .match (e := [.paren (commas (es.map fun e => [refOp, .paren e]))]) (.paren ((list_commas ?_).mpr ?_))
  · intro x hx
    obtain ⟨e, _, rfl⟩ := List.mem_map.mp hx
    simp [refOp]
  · intro x hx
    obtain ⟨e, he, rfl⟩ := List.mem_map.mp hx
    exact expr_ref (h e he) true

/-- **C116** The condition of `assert!`, the values of `assert_eq!` and `assert_ne!`, the value of `unwrap!`: any expressions. -/
theorem C116_assert (l r : List Tok) (hl : IsExpr true l) (hr : IsExpr true r) :
    IsExpr true (assertCode l) ∧ IsExpr true (binopCode l r) ∧ IsExpr true (unwrapCode l) := by
  refine ⟨.cond (.one (e := [notOp, .paren l]) (.prefix (.paren (.one hl)))), .match (e := [.paren _]) (.paren ?_),
    .match (e := [intoResult, .paren l]) (.call (f := [intoResult]) .atom (.one hl))⟩
  exact .cons (expr_ref hl true) (.one (expr_ref hr true))

/-- **C116** `dbg!`: what it generates is an expression exactly if none of the given expressions has a struct literal outside of parentheses and brackets. -/
theorem C116_dbg_partial (es : List (List Tok)) (h : ∀ e ∈ es, IsExpr true e) : IsExpr true (dbgCode es) ↔ ∀ e ∈ es, ¬ Exposed e := by
  have hc : ∀ x ∈ es.map (fun e => Tok.kwMatch :: e ++ [.arms]), .comma ∉ x ∧ x ≠ [] := by
    intro x hx
    obtain ⟨e, he, rfl⟩ := List.mem_map.mp hx
    exact ⟨by simpa using (h e he).no_comma, by simp⟩
  have hl : IsExpr true (dbgCode es) ↔ IsList (commas (es.map fun e => Tok.kwMatch :: e ++ [.arms])) := by
    constructor
    · intro h
      generalize hts : dbgCode es = ts at h
      unfold dbgCode at hts
      cases h with
      | paren h => cases hts; exact h
      | atom => cases hts
      | struct => cases hts
      | «prefix» => cases hts
      | «infix» ha hb =>
        have h1 := congrArg List.length hts
        have := List.length_pos_iff.mpr ha.ne_nil
        have := List.length_pos_iff.mpr hb.ne_nil
        simp only [List.length_append, List.length_cons, List.length_nil] at h1
        omega
      | call hf _ =>
        have h1 := congrArg List.length hts
        have := List.length_pos_iff.mpr hf.ne_nil
        simp only [List.length_append, List.length_cons, List.length_nil] at h1
        omega
      | field hf =>
        have h1 := congrArg List.length hts
        simp at h1
      | «match» => simp at hts
      | array => cases hts
      | index hf _ =>
        have h1 := congrArg List.length hts
        have := List.length_pos_iff.mpr hf.ne_nil
        simp only [List.length_append, List.length_cons, List.length_nil] at h1
        omega
      | «postfix» hf =>
        have h1 := congrArg List.length hts
        have := List.length_pos_iff.mpr hf.ne_nil
        simp only [List.length_append, List.length_cons, List.length_nil] at h1
        omega
      | cond h => cases h <;> simp at hts
      | loop => simp at hts
      | block => cases hts
    · exact fun h => .paren h
  rw [hl, list_commas hc]
  constructor
  · intro h' e he
    exact (match_inv (h e he) (h' _ (List.mem_map_of_mem he))).not_exposed rfl
  · intro h' x hx
    obtain ⟨e, he, rfl⟩ := List.mem_map.mp hx
    exact .match ((h e he).restrict (h' e he))

/-- **C116** With parentheses around them, any expressions can be given to `dbg!`. -/
theorem C116_dbg_parentheses (es : List (List Tok)) (h : ∀ e ∈ es, IsExpr true e) : IsExpr true (dbgCode (es.map fun e => [.paren e])) := by
  refine (C116_dbg_partial _ ?_).mpr ?_
  · intro x hx
    obtain ⟨e, he, rfl⟩ := List.mem_map.mp hx
    exact .paren (.one (h e he))
  · intro x hx
    obtain ⟨e, _, rfl⟩ := List.mem_map.mp hx
    simp [Exposed]

/-- `dbg!(S { x: 1 })` does not compile, although `S { x: 1 }` is an expression, and can be the argument of all other macros. -/
theorem C116_dbg_false : IsExpr true [.ident 1, .fields 0] ∧ ¬ IsExpr true (dbgCode [[.ident 1, .fields 0]]) := by
  refine ⟨.struct, fun h => ?_⟩
  exact (C116_dbg_partial [[.ident 1, .fields 0]] (by simp [IsExpr.struct])).mp h [.ident 1, .fields 0] (by simp) ⟨0, by simp⟩

/-- `dbg!(a == S { x: 1 }, b)`, `dbg!(f(S { x: 1 }), match x { .. } + 1)` -/
example : ¬ IsExpr true (dbgCode [[.ident 1, .infixOp 0, .ident 2, .fields 0], [.ident 3]]) := by
  have h1 : IsExpr true ([.ident 1] ++ .infixOp 0 :: [.ident 2, .fields 0]) := .infix .atom .struct
  intro h
  exact (C116_dbg_partial _ (by simpa [IsExpr.atom] using h1)).mp h [.ident 1, .infixOp 0, .ident 2, .fields 0] (by simp) ⟨0, by simp⟩
example : IsExpr true (dbgCode [[.ident 4, .paren [.ident 1, .fields 0]], [.kwMatch, .ident 5, .arms, .infixOp 0, .ident 6]]) := by
  have h1 : IsExpr true ([.ident 4] ++ [.paren [.ident 1, .fields 0]]) := .call .atom (.one .struct)
  have h2 : IsExpr true ((.kwMatch :: [.ident 5] ++ [.arms]) ++ .infixOp 0 :: [.ident 6]) := .infix (.match .atom) .atom
  exact (C116_dbg_partial _ (by simpa using ⟨h1, h2⟩)).mpr (by simp [Exposed])

/-- `dbg!(if a { .. } else if b? { .. } else { .. }, v[S { x: 1 }.n] as u8, [S { x: 1 }, y])` -/
example : IsExpr true (dbgCode [[.kwIf, .ident 1, .block, .kwElse, .kwIf, .ident 2, .postfixOp 0, .block, .kwElse, .block],
    [.ident 3, .bracket [.ident 4, .fields 0, .dot, .ident 5], .postfixOp 1], [.bracket [.ident 4, .fields 0, .comma, .ident 6]]]) := by
  have h1 : IsExpr true (.kwIf :: [.ident 1] ++ .block :: .kwElse :: (.kwIf :: ([.ident 2] ++ [.postfixOp 0]) ++ [.block, .kwElse, .block])) :=
    .cond (.chain .atom (.other (.postfix .atom)))
  have h2 : IsExpr true (([.ident 3] ++ [.bracket ([.ident 4, .fields 0] ++ [.dot, .ident 5])]) ++ [.postfixOp 1]) :=
    .postfix (.index .atom (.field .struct))
  have h3 : IsExpr true [.bracket ([.ident 4, .fields 0] ++ .comma :: [.ident 6])] := .array (.cons .struct (.one .atom))
  exact (C116_dbg_partial _ (by simpa using ⟨h1, h2, h3⟩)).mpr (by simp [Exposed])

end Defmt
