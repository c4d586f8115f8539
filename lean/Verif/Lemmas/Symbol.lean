import Verif.Model.Symbol
import Verif.Lemmas.JsonGrammar
/-! Lemmas about symbol names. -/

namespace Defmt.Symbol

open Parser
open Json (StringBody Ws)

theorem readString_hex4 (a b c d : Nat) (rest : List Char) (h1 : a < 16) (h2 : b < 16) (h3 : c < 16) (h4 : d < 16)
    (hlow : a * 4096 + b * 256 + c * 16 + d < 0xD800) (x1 x2 x3 x4 : Char)
    (e1 : hexValue x1 = some a) (e2 : hexValue x2 = some b) (e3 : hexValue x3 = some c) (e4 : hexValue x4 = some d) :
    readString .normal ('\\' :: 'u' :: x1 :: x2 :: x3 :: x4 :: rest) =
      push (Char.ofNat (a * 4096 + b * 256 + c * 16 + d)) (readString .normal rest) := by
  have hv : (((0 * 16 + a) * 16 + b) * 16 + c) * 16 + d = a * 4096 + b * 256 + c * 16 + d := by omega
  rw [readString, if_neg (by decide), if_pos rfl, readString, if_pos rfl]
  rw [readString, e1]; simp only
  rw [if_neg (by omega), readString, e2]; simp only
  rw [if_neg (by omega), readString, e3]; simp only
  rw [if_neg (by omega), readString, e4]; simp only
  rw [if_pos (by omega), hv]
  unfold hexMeaning
  rw [if_neg (by omega), if_neg (by omega)]

/-- The escapes written for control characters and `@`. -/
theorem unicodeEscape_small : ∀ n < 256, ∃ x3 x4, ∃ c d, c < 16 ∧ d < 16 ∧ hexValue x3 = some c ∧ hexValue x4 = some d ∧
    n = c * 16 + d ∧ unicodeEscape (Char.ofNat n) = ['\\', 'u', '0', '0', x3, x4] := by
  intro n hn
  have key : ∀ n : Fin 256, ∃ x3 x4 : Fin 128, ∃ c d : Fin 16,
      hexValue (Char.ofNat x3) = some c.val ∧ hexValue (Char.ofNat x4) = some d.val ∧
      n.val = c * 16 + d ∧ unicodeEscape (Char.ofNat n) = ['\\', 'u', '0', '0', Char.ofNat x3, Char.ofNat x4] := by
    intro n
    have hx : ∀ d : Fin 16, ∃ x : Fin 128, hexValue (Char.ofNat x) = some d.val ∧ Nat.digitChar d = Char.ofNat x := by
      decide +kernel
    obtain ⟨x3, h3, h3'⟩ := hx ⟨n.val / 16, by omega⟩
    obtain ⟨x4, h4, h4'⟩ := hx ⟨n.val % 16, by omega⟩
    refine ⟨x3, x4, _, _, h3, h4, by simp only; omega, ?_⟩
    have hd : ∀ n : Fin 256, unicodeEscape (Char.ofNat n) =
        ['\\', 'u', '0', '0', Nat.digitChar (n / 16), Nat.digitChar (n % 16)] := by decide +kernel
    rw [hd n]
    simp only at h3' h4'
    rw [h3', h4']
  obtain ⟨x3, x4, c, d, h1, h2, h3, h4⟩ := key ⟨n, hn⟩
  exact ⟨_, _, c, d, c.isLt, d.isLt, h1, h2, h3, h4⟩

theorem char_ofNat_toNat (c : Char) : Char.ofNat c.toNat = c := Char.ofNat_toNat c

theorem isControl_small {c : Char} (h : (isControl c || c = '@') = true) : c.toNat < 256 := by
  simp only [isControl, Bool.or_eq_true, decide_eq_true_eq, Bool.and_eq_true] at h
  rcases h with (h | h) | h
  · omega
  · omega
  · rw [h]; decide

/-- Reading back one escaped character. -/
theorem readString_escape (c : Char) (rest : List Char) :
    readString .normal (escapeChar c ++ rest) = push c (readString .normal rest) := by
  unfold escapeChar
  by_cases h1 : c = '\\'
  · subst h1; rfl
  rw [if_neg h1]
  by_cases h2 : c = '"'
  · subst h2; rfl
  rw [if_neg h2]
  by_cases h3 : c = '\n'
  · subst h3; rfl
  rw [if_neg h3]
  by_cases h4 : (isControl c || c = '@') = true
  · rw [if_pos h4]
    obtain ⟨x3, x4, p, q, hp, hq, e3, e4, hn, he⟩ := unicodeEscape_small c.toNat (isControl_small h4)
    rw [char_ofNat_toNat] at he
    have := isControl_small h4
    rw [he]
    simp only [List.cons_append, List.nil_append]
    rw [readString_hex4 0 0 p q rest (by decide) (by decide) hp hq (by omega) '0' '0' x3 x4 (by decide) (by decide) e3 e4]
    rw [show 0 * 4096 + 0 * 256 + p * 16 + q = c.toNat by omega, char_ofNat_toNat]
  · rw [if_neg h4]
    simp only [List.cons_append, List.nil_append]
    rw [readString, if_neg h2, if_neg h1, if_neg]
    intro h
    apply h4
    simp [isControl, h]

theorem readString_jsonEscape (s rest : List Char) :
    readString .normal (jsonEscape s ++ '"' :: rest) = some (s, rest) := by
  induction s with
  | nil => rfl
  | cons c s ih => rw [jsonEscape, List.append_assoc, readString_escape, ih]; rfl

/-- Text without quotes, backslashes and control characters stands for itself. -/
theorem readString_plain (s rest : List Char) (h : ∀ c ∈ s, c ≠ '"' ∧ c ≠ '\\' ∧ ¬ c.toNat < 0x20) :
    readString .normal (s ++ '"' :: rest) = some (s, rest) := by
  induction s with
  | nil => rfl
  | cons c s ih =>
    have hc := h c (by simp)
    rw [List.cons_append, readString, if_neg hc.1, if_neg hc.2.1, if_neg hc.2.2,
      ih (fun d hd => h d (List.mem_cons_of_mem _ hd))]
    rfl

theorem digits_plain (n : Nat) : ∀ c ∈ Display.digits 10 n, isDigit c = true := by
  intro c hc
  unfold Display.digits at hc
  have := Nat.isDigit_of_mem_toDigits (by decide) (by decide) hc
  simp only [Char.isDigit, Bool.and_eq_true, decide_eq_true_eq] at this
  simp only [isDigit, Bool.and_eq_true, decide_eq_true_eq]
  exact this

theorem isDigit_plain {c : Char} (h : isDigit c = true) : c ≠ '"' ∧ c ≠ '\\' ∧ ¬ c.toNat < 0x20 ∧ c ≠ '@' ∧ isControl c = false := by
  simp only [isDigit, Bool.and_eq_true, decide_eq_true_eq] at h
  have h1 : 48 ≤ c.toNat := h.1
  have h2 : c.toNat ≤ 57 := h.2
  have hne : ∀ d : Char, (d.toNat < 48 ∨ 57 < d.toNat) → c ≠ d := by
    rintro d hd rfl; omega
  refine ⟨hne _ (by decide), hne _ (by decide), by omega, hne _ (by decide), ?_⟩
  simp only [isControl, Bool.or_eq_false_iff, decide_eq_false_iff_not, Bool.and_eq_false_iff]
  omega

/-- What `json_escape` writes is the inside of a string. -/
theorem jsonEscape_body (s : List Char) : StringBody (jsonEscape s) s := by
  obtain ⟨t, h1, h2⟩ := Json.readString_sound _ _ _ _ (Nat.le_refl _) (readString_jsonEscape s [])
  rw [← List.append_cancel_right h1] at h2
  exact h2

theorem plain_body (s : List Char) (h : ∀ c ∈ s, c ≠ '"' ∧ c ≠ '\\' ∧ ¬ c.toNat < 0x20) : StringBody s s := by
  obtain ⟨t, h1, h2⟩ := Json.readString_sound _ _ _ _ (Nat.le_refl _) (readString_plain s [] h)
  rw [← List.append_cancel_right h1] at h2
  exact h2

/-- The object that `mangle` writes. -/
theorem read_mangle (s : MacroSymbol) : Json.read s.mangle =
    some (.obj [(c!"package", .str s.package), (c!"tag", .str s.tag), (c!"data", .str s.data),
      (c!"disambiguator", .str (Display.digits 10 s.disambiguator)), (c!"crate_name", .str s.crateName)]) := by
  have hd : StringBody (Display.digits 10 s.disambiguator) (Display.digits 10 s.disambiguator) := by
    refine plain_body _ fun c hc => ?_
    have := isDigit_plain (digits_plain _ c hc)
    exact ⟨this.1, this.2.1, this.2.2.1⟩
  have h := Json.Value.object
    (.more Ws.nil (plain_body c!"package" (by decide)) Ws.nil Ws.nil (.string (jsonEscape_body s.package)) Ws.nil
    (.more Ws.nil (plain_body c!"tag" (by decide)) Ws.nil Ws.nil (.string (jsonEscape_body s.tag)) Ws.nil
    (.more Ws.nil (plain_body c!"data" (by decide)) Ws.nil Ws.nil (.string (jsonEscape_body s.data)) Ws.nil
    (.more Ws.nil (plain_body c!"disambiguator" (by decide)) Ws.nil Ws.nil (.string hd) Ws.nil
    (.one Ws.nil (plain_body c!"crate_name" (by decide)) Ws.nil Ws.nil (.string (jsonEscape_body s.crateName)) Ws.nil)))))
  refine (Json.read_iff _ _).mpr ⟨[], _, [], ?_, Ws.nil, h, Ws.nil⟩
  simp [MacroSymbol.mangle]

theorem demangle_mangle (s : MacroSymbol) : demangle s.mangle = some
    { package := s.package, disambiguator := Display.digits 10 s.disambiguator, tag := s.tag, data := s.data,
      crateName := some s.crateName } := by
  unfold demangle
  rw [read_mangle]
  rfl

/-! ### No characters that linkers treat in a special way -/

/-- Neither a control character nor `@`. -/
def Harmless (c : Char) : Prop := c ≠ '@' ∧ isControl c = false

theorem escapeChar_harmless (c : Char) : ∀ d ∈ escapeChar c, Harmless d := by
  intro d hd
  unfold escapeChar at hd
  split at hd
  · simp only [List.mem_cons, List.not_mem_nil, or_false] at hd
    rcases hd with rfl | rfl <;> exact ⟨by decide, by decide⟩
  split at hd
  · simp only [List.mem_cons, List.not_mem_nil, or_false] at hd
    rcases hd with rfl | rfl <;> exact ⟨by decide, by decide⟩
  split at hd
  · simp only [List.mem_cons, List.not_mem_nil, or_false] at hd
    rcases hd with rfl | rfl <;> exact ⟨by decide, by decide⟩
  split at hd
  · rename_i h
    have hsmall := isControl_small h
    have key : ∀ n : Fin 256, (unicodeEscape (Char.ofNat n)).all (fun d => d ≠ '@' && !isControl d) = true := by
      decide +kernel
    have := key ⟨c.toNat, hsmall⟩
    simp only [char_ofNat_toNat, List.all_eq_true] at this
    have := this d hd
    simp only [ne_eq, decide_not, Bool.and_eq_true, Bool.not_eq_true', decide_eq_false_iff_not] at this
    exact this
  · rename_i h
    simp only [List.mem_singleton] at hd
    subst hd
    simp only [Bool.or_eq_true, decide_eq_true_eq, not_or, Bool.not_eq_true] at h
    exact ⟨h.2, h.1⟩

theorem jsonEscape_harmless (s : List Char) : ∀ d ∈ jsonEscape s, Harmless d := by
  induction s with
  | nil => intro d hd; cases hd
  | cons c s ih =>
    intro d hd
    rcases List.mem_append.mp hd with hd | hd
    · exact escapeChar_harmless c d hd
    · exact ih d hd

end Defmt.Symbol
