import Verif.Spec.MacroArgs
/-!
Lemmas about comma separated lists.
-/

namespace Defmt.MacroArgs

variable {E : Type}

theorem listed_nil {input : List (Tok E)} : Listed [] input ↔ input = [] := by
  simp [Listed, commas]

theorem listed_one {e : E} {input : List (Tok E)} : Listed [e] input ↔ input = [.expr e] ∨ input = [.expr e, .comma] := by
  simp [Listed, commas]

theorem listed_cons {e : E} {es : List E} {input : List (Tok E)} (h : es ≠ []) :
    Listed (e :: es) input ↔ ∃ rest, input = .expr e :: .comma :: rest ∧ Listed es rest := by
  cases es with
  | nil => exact absurd rfl h
  | cons e' es =>
    simp only [Listed, commas]
    constructor
    · rintro (rfl | ⟨_, rfl⟩)
      · exact ⟨_, rfl, Or.inl rfl⟩
      · exact ⟨_, rfl, Or.inr ⟨by simp, rfl⟩⟩
    · rintro ⟨rest, rfl, rfl | ⟨_, rfl⟩⟩
      · exact Or.inl rfl
      · exact Or.inr ⟨by simp, rfl⟩

/-- the elements of a list, one by one -/
theorem listed_cons' {e : E} {es : List E} {input : List (Tok E)} :
    Listed (e :: es) input ↔ (input = [.expr e] ∧ es = []) ∨ ∃ rest, input = .expr e :: .comma :: rest ∧ Listed es rest := by
  cases es with
  | nil =>
    rw [listed_one]
    simp [listed_nil]
  | cons e' es => rw [listed_cons (by simp)]; simp

theorem parseTerminated_iff {input : List (Tok E)} {es : List E} : parseTerminated input = some es ↔ Listed es input := by
  fun_induction parseTerminated input generalizing es with
  | case1 =>
    cases es with
    | nil => simp [listed_nil]
    | cons e es => simp [listed_cons']
  | case2 e =>
    cases es with
    | nil => simp [listed_nil]
    | cons e' es =>
      rw [listed_cons']
      simp only [Option.some.injEq, List.cons.injEq, Tok.expr.injEq]
      constructor
      · rintro ⟨rfl, rfl⟩; simp
      · rintro (⟨⟨rfl, _⟩, rfl⟩ | ⟨rest, ⟨_, h⟩, _⟩)
        · exact ⟨rfl, rfl⟩
        · simp at h
  | case3 e rest ih =>
    cases es with
    | nil => simp [listed_nil]
    | cons e' es =>
      rw [listed_cons']
      simp only [Option.map_eq_some_iff, List.cons.injEq]
      constructor
      · rintro ⟨es', h, rfl, rfl⟩
        exact Or.inr ⟨rest, ⟨rfl, trivial, rfl⟩, ih.mp h⟩
      · rintro (⟨⟨_, h⟩, _⟩ | ⟨rest', ⟨h1, _, rfl⟩, h⟩)
        · simp at h
        · cases h1
          exact ⟨es, ih.mpr h, rfl, rfl⟩
  | case4 input h1 h2 h3 =>
    simp only [reduceCtorEq, false_iff]
    intro h
    cases es with
    | nil => exact h1 (listed_nil.mp h)
    | cons e es =>
      rcases listed_cons'.mp h with ⟨h, _⟩ | ⟨rest, h, _⟩
      · exact h2 e h
      · exact h3 e rest h

theorem parseLog_iff {lit : E → Option (List Char)} {input : List (Tok E)} {fmt : List Char} {args : List E} :
    (∃ m, parseLog lit input = some m ∧ m.formatString = fmt ∧ m.args = args) ↔ ∃ es, MessageIs lit fmt args es ∧ Listed es input := by
  constructor
  · rintro ⟨m, h, rfl, rfl⟩
    match input with
    | [] => simp [parseLog, parseLitStr] at h
    | .comma :: _ => simp [parseLog, parseLitStr] at h
    | [.expr f] =>
      simp only [parseLog, parseLitStr] at h
      cases hl : lit f with
      | none => simp [hl] at h
      | some s =>
        simp [hl] at h
        subst h
        exact ⟨[f], ⟨f, hl, rfl⟩, listed_one.mpr (Or.inl rfl)⟩
    | .expr f :: .expr _ :: _ =>
      simp only [parseLog, parseLitStr] at h
      cases hl : lit f with
      | none => simp [hl] at h
      | some s => simp [hl, parseComma] at h
    | .expr f :: .comma :: rest =>
      simp only [parseLog, parseLitStr] at h
      cases hl : lit f with
      | none => simp [hl] at h
      | some s =>
        simp only [hl, Option.map_some, List.isEmpty_cons, Bool.false_eq_true, if_false, parseComma, Option.map_eq_some_iff] at h
        obtain ⟨es, h, rfl⟩ := h
        exact ⟨f :: es, ⟨f, hl, rfl⟩, listed_cons'.mpr (Or.inr ⟨rest, rfl, parseTerminated_iff.mp h⟩)⟩
  · rintro ⟨es, ⟨f, hl, rfl⟩, h⟩
    rcases listed_cons'.mp h with ⟨rfl, rfl⟩ | ⟨rest, rfl, h'⟩
    · exact ⟨⟨fmt, none⟩, by simp [parseLog, parseLitStr, hl], rfl, rfl⟩
    · exact ⟨⟨fmt, some args⟩, by simp [parseLog, parseLitStr, hl, parseComma, parseTerminated_iff.mpr h'], rfl, rfl⟩

end Defmt.MacroArgs
