import Verif.Model.Json
import Verif.Lemmas.Symbol
import Verif.Lemmas.LogGrammar
/-! JSON: what is written is read back. -/

namespace Defmt.Json
open Parser Symbol

/-! ### strings -/

theorem readString_escapeChar (c : Char) (rest : List Char) :
    readString .normal (escapeChar c ++ rest) = push c (readString .normal rest) := by
  unfold escapeChar
  by_cases h1 : c = '"'
  · subst h1; rfl
  rw [if_neg h1]
  by_cases h2 : c = '\\'
  · subst h2; rfl
  rw [if_neg h2]
  by_cases h3 : c = Char.ofNat 8
  · subst h3; rfl
  rw [if_neg h3]
  by_cases h4 : c = '\t'
  · subst h4; rfl
  rw [if_neg h4]
  by_cases h5 : c = '\n'
  · subst h5; rfl
  rw [if_neg h5]
  by_cases h6 : c = Char.ofNat 12
  · subst h6; rfl
  rw [if_neg h6]
  by_cases h7 : c = '\r'
  · subst h7; rfl
  rw [if_neg h7]
  by_cases h8 : c.toNat < 0x20
  · rw [if_pos h8]
    obtain ⟨x3, x4, p, q, hp, hq, e3, e4, hn, he⟩ := unicodeEscape_small c.toNat (by omega)
    rw [char_ofNat_toNat] at he
    rw [he]
    simp only [List.cons_append, List.nil_append]
    rw [readString_hex4 0 0 p q rest (by decide) (by decide) hp hq (by omega) '0' '0' x3 x4 (by decide) (by decide) e3 e4]
    rw [show 0 * 4096 + 0 * 256 + p * 16 + q = c.toNat by omega, char_ofNat_toNat]
  · rw [if_neg h8]
    simp only [List.cons_append, List.nil_append]
    rw [readString, if_neg h1, if_neg h2, if_neg h8]

theorem readString_write (s rest : List Char) :
    readString .normal (s.flatMap escapeChar ++ '"' :: rest) = some (s, rest) := by
  induction s with
  | nil => rfl
  | cons c s ih => rw [List.flatMap_cons, List.append_assoc, readString_escapeChar, ih]; rfl

/-- nothing that is written is a control character -/
theorem escapeChar_printable (c : Char) : ∀ d ∈ escapeChar c, ¬ d.toNat < 0x20 := by
  unfold escapeChar
  split
  · decide
  split
  · decide
  split
  · decide
  split
  · decide
  split
  · decide
  split
  · decide
  split
  · decide
  split
  case isTrue h8 =>
    obtain ⟨x3, x4, p, q, hp, hq, e3, e4, hn, he⟩ := unicodeEscape_small c.toNat (by omega)
    rw [char_ofNat_toNat] at he
    rw [he]
    have hx : ∀ x v, hexValue x = some v → ¬ x.toNat < 0x20 := by
      intro x v h hlt
      unfold hexValue at h
      have hc : ∀ d : Char, 0x20 ≤ d.toNat → ¬ d ≤ x := by
        intro d hd hle
        have : d.toNat ≤ x.toNat := hle
        omega
      simp [hc '0' (by decide), hc 'a' (by decide), hc 'A' (by decide)] at h
    intro d hd
    simp only [List.mem_cons, List.not_mem_nil, or_false] at hd
    rcases hd with rfl | rfl | rfl | rfl | rfl | rfl
    · decide
    · decide
    · decide
    · decide
    · exact hx _ _ e3
    · exact hx _ _ e4
  case isFalse h8 =>
    intro d hd
    simp only [List.mem_singleton] at hd
    subst hd; exact h8

theorem writeString_printable (s : List Char) : ∀ d ∈ writeString s, ¬ d.toNat < 0x20 := by
  intro d hd
  simp only [writeString, List.mem_cons, List.mem_append, List.mem_flatMap, List.not_mem_nil, or_false] at hd
  rcases hd with rfl | ⟨c, _, hd⟩ | rfl
  · decide
  · exact escapeChar_printable c d hd
  · decide

theorem digit_printable {c : Char} (h : isDigit c = true) : ¬ c.toNat < 0x20 := (isDigit_plain h).2.2.1

theorem writeNumber_printable (n : Int) : ∀ d ∈ writeNumber n, ¬ d.toNat < 0x20 := by
  intro d hd
  cases n with
  | ofNat n => exact digit_printable (digits_plain n d hd)
  | negSucc n =>
    simp only [writeNumber, List.mem_cons] at hd
    rcases hd with rfl | hd
    · decide
    · exact digit_printable (digits_plain _ d hd)

/-- Numbers that are kept as text are numbers. -/
def Good : Json → Prop
  | .decimal text => Number text (.decimal text)
  | .arr es => elements es
  | .obj ms => members ms
  | _ => True
where
  elements : List Json → Prop
    | [] => True
    | e :: es => Good e ∧ elements es
  members : List (List Char × Json) → Prop
    | [] => True
    | (_, v) :: ms => Good v ∧ members ms

theorem digits_printable {ds : List Char} (h : Digits ds) : ∀ d ∈ ds, ¬ d.toNat < 0x20 :=
  fun d hd => digit_printable ((isDigit_iff d).mpr (h.2 d hd))

theorem number_printable {t : List Char} {j : Json} (h : Number t j) : ∀ d ∈ t, ¬ d.toNat < 0x20 := by
  intro d hd
  cases h with
  | positive h => exact digits_printable h.1 d hd
  | negative h =>
    rcases List.mem_cons.mp hd with rfl | hd
    · decide
    · exact digits_printable h.1 d hd
  | decimal hs h hf he _ =>
    simp only [List.mem_append] at hd
    rcases hd with ((hd | hd) | hd) | hd
    · rcases hs with rfl | rfl
      · cases hd
      · simp only [List.mem_singleton] at hd; subst hd; decide
    · exact digits_printable h.1 d hd
    · rcases hf with rfl | ⟨ds, hds, rfl⟩
      · cases hd
      · rcases List.mem_cons.mp hd with rfl | hd
        · decide
        · exact digits_printable hds d hd
    · rcases he with rfl | ⟨e, sg, ds, he, hsg, hds, rfl⟩
      · cases hd
      · simp only [List.mem_cons, List.mem_append, List.cons_append] at hd
        rcases hd with rfl | hd | hd
        · rcases he with rfl | rfl <;> decide
        · rcases hsg with rfl | rfl | rfl
          · cases hd
          · simp only [List.mem_singleton] at hd; subst hd; decide
          · simp only [List.mem_singleton] at hd; subst hd; decide
        · exact digits_printable hds d hd

mutual

theorem write_printable : ∀ (j : Json), Good j → ∀ d ∈ write j, ¬ d.toNat < 0x20
  | .null, _ => by simp only [write]; decide
  | .bool true, _ => by simp only [write]; decide
  | .bool false, _ => by simp only [write]; decide
  | .num n, _ => by simp only [write]; exact writeNumber_printable n
  | .decimal t, h => by simp only [write]; exact number_printable h
  | .str s, _ => by simp only [write]; exact writeString_printable s
  | .arr [], _ => by simp only [write, writeElements]; decide
  | .arr (e :: es), h => by
    intro d hd
    simp only [write, writeElements, List.mem_cons, List.mem_append, List.not_mem_nil, or_false] at hd
    rcases hd with rfl | (hd | hd) | rfl
    · decide
    · exact write_printable e h.1 d hd
    · exact writeMoreElements_printable es h.2 d hd
    · decide
  | .obj [], _ => by simp only [write, writeMembers]; decide
  | .obj ((k, v) :: ms), h => by
    intro d hd
    simp only [write, writeMembers, List.mem_cons, List.mem_append, List.not_mem_nil, or_false] at hd
    rcases hd with rfl | (hd | rfl | hd | hd) | rfl
    · decide
    · exact writeString_printable k d hd
    · decide
    · exact write_printable v h.1 d hd
    · exact writeMoreMembers_printable ms h.2 d hd
    · decide

theorem writeMoreElements_printable : ∀ (es : List Json), Good.elements es → ∀ d ∈ writeMoreElements es, ¬ d.toNat < 0x20
  | [], _ => by simp [writeMoreElements]
  | e :: es, h => by
    intro d hd
    simp only [writeMoreElements, List.mem_cons, List.mem_append] at hd
    rcases hd with rfl | hd | hd
    · decide
    · exact write_printable e h.1 d hd
    · exact writeMoreElements_printable es h.2 d hd

theorem writeMoreMembers_printable : ∀ (ms : List (List Char × Json)), Good.members ms → ∀ d ∈ writeMoreMembers ms, ¬ d.toNat < 0x20
  | [], _ => by simp [writeMoreMembers]
  | (k, v) :: ms, h => by
    intro d hd
    simp only [writeMoreMembers, List.mem_cons, List.mem_append] at hd
    rcases hd with rfl | hd | rfl | hd | hd
    · decide
    · exact writeString_printable k d hd
    · decide
    · exact write_printable v h.1 d hd
    · exact writeMoreMembers_printable ms h.2 d hd

end

/-! ### what is written is JSON -/

theorem escape_body (s : List Char) : StringBody (s.flatMap escapeChar) s := by
  obtain ⟨t, h1, h2⟩ := readString_sound _ _ _ _ (Nat.le_refl _) (readString_write s [])
  rw [← List.append_cancel_right h1] at h2
  exact h2

theorem toDigits_no_zero (n : Nat) : ¬ ((decimal n).head? = some '0' ∧ decimal n ≠ ['0']) := by
  rintro ⟨h1, h2⟩
  rcases Nat.eq_zero_or_pos n with rfl | hn
  · exact h2 rfl
  · exact LogFormat.toDigits_head hn h1

theorem digits_int (n : Nat) : IntPart (Display.digits 10 n) := by
  refine ⟨⟨decimal_ne n, fun c hc => (isDigit_iff c).mp (digits_plain n c hc)⟩, fun h => ?_⟩
  refine Classical.byContradiction fun hne => ?_
  exact toDigits_no_zero n ⟨h, hne⟩

theorem digits_value (n : Nat) : digitsValue (Display.digits 10 n) = n := by
  rw [digitsValue_eq]
  exact Nat.ofDigitChars_ten_toDigits

theorem writeNumber_number (n : Int) : Number (writeNumber n) (.num n) := by
  cases n with
  | ofNat n =>
    have := Number.positive (digits_int n)
    rw [digits_value] at this
    exact this
  | negSucc n =>
    have := Number.negative (digits_int (n + 1))
    rw [digits_value] at this
    exact this

mutual

theorem write_value : ∀ (j : Json), Good j → Value (write j) j
  | .null, _ => by simp only [write]; exact .null
  | .bool true, _ => by simp only [write]; exact .true
  | .bool false, _ => by simp only [write]; exact .false
  | .num n, _ => by simp only [write]; exact .number (writeNumber_number n)
  | .decimal t, h => by simp only [write]; exact .number h
  | .str s, _ => by simp only [write]; exact .string (escape_body s)
  | .arr [], _ => by simp only [write, writeElements]; exact .emptyArray Ws.nil
  | .arr (e :: es), h => by simp only [write]; exact .array (writeElements_elements (e :: es) (by simp) h)
  | .obj [], _ => by simp only [write, writeMembers]; exact .emptyObject Ws.nil
  | .obj (m :: ms), h => by simp only [write]; exact .object (writeMembers_members (m :: ms) (by simp) h)

theorem writeElements_elements : ∀ (es : List Json), es ≠ [] → Good.elements es → Elements (writeElements es) es
  | [], h, _ => absurd rfl h
  | [e], _, h => by
    have := Elements.one Ws.nil (write_value e h.1) Ws.nil
    simpa [writeElements, writeMoreElements] using this
  | e :: e' :: es, _, h => by
    have := Elements.more Ws.nil (write_value e h.1) Ws.nil (writeElements_elements (e' :: es) (by simp) h.2)
    simpa [writeElements, writeMoreElements] using this

theorem writeMembers_members : ∀ (ms : List (List Char × Json)), ms ≠ [] → Good.members ms → Members (writeMembers ms) ms
  | [], h, _ => absurd rfl h
  | [(k, v)], _, h => by
    have := Members.one Ws.nil (escape_body k) Ws.nil Ws.nil (write_value v h.1) Ws.nil
    simpa [writeMembers, writeMoreMembers, writeString] using this
  | (k, v) :: (k', v') :: ms, _, h => by
    have := Members.more Ws.nil (escape_body k) Ws.nil Ws.nil (write_value v h.1) Ws.nil (writeMembers_members ((k', v') :: ms) (by simp) h.2)
    simpa [writeMembers, writeMoreMembers, writeString] using this

end

theorem write_text (j : Json) (h : Good j) : JsonText (write j) j :=
  ⟨[], write j, [], by simp, Ws.nil, write_value j h, Ws.nil⟩

/-- What is written is read back. -/
theorem read_write (j : Json) (h : Good j) : read (write j) = some j := (read_iff _ _).mpr (write_text j h)

end Defmt.Json
