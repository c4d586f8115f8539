import Verif.Model.Frame
import Verif.Spec.Frame
/-! Lemmas about numerals and display. -/

namespace Defmt.Display

open Parser

theorem numeral_toDigits {alphabet : List Char} {b : Nat} (f : Char → Char) (hl : alphabet.length = b) (hb : 1 < b)
    (hf : ∀ d < b, alphabet[d]? = some (f (Nat.digitChar d))) (n : Nat) :
    Numeral alphabet ((Nat.toDigits b n).map f) n := by
  induction n using Nat.strongRecOn with
  | ind n ih =>
    rw [Nat.toDigits_eq_if hb]
    split
    · rename_i h
      exact Numeral.digit (hf n h)
    · rename_i h
      have hd : n / b < n := Nat.div_lt_self (by omega) hb
      have h1 := ih (n / b) hd
      have h2 : n / b ≠ 0 := by
        have : 1 ≤ n / b := (Nat.le_div_iff_mul_le (by omega)).mpr (by omega)
        omega
      have h3 := Numeral.snoc h1 h2 (hf (n % b) (Nat.mod_lt _ (by omega)))
      rw [List.map_append]
      have h4 : n / b * alphabet.length + n % b = n := by rw [hl]; exact Nat.div_add_mod' n b
      rw [h4] at h3
      exact h3

theorem numeral_decimal (n : Nat) : Numeral decimalDigits (digits 10 n) n := by
  have := numeral_toDigits (alphabet := decimalDigits) (b := 10) id rfl (by decide) (by decide) n
  simpa [digits] using this

theorem numeral_binary (n : Nat) : Numeral binaryDigits (digits 2 n) n := by
  have := numeral_toDigits (alphabet := binaryDigits) (b := 2) id rfl (by decide) (by decide) n
  simpa [digits] using this

theorem numeral_octal (n : Nat) : Numeral octalDigits (digits 8 n) n := by
  have := numeral_toDigits (alphabet := octalDigits) (b := 8) id rfl (by decide) (by decide) n
  simpa [digits] using this

theorem numeral_hex (n : Nat) : Numeral hexadecimalDigits (digits 16 n) n := by
  have := numeral_toDigits (alphabet := hexadecimalDigits) (b := 16) id rfl (by decide) (by decide) n
  simpa [digits] using this

theorem numeral_upper (n : Nat) : Numeral upperHexDigits (upperDigits n) n :=
  numeral_toDigits (alphabet := upperHexDigits) Char.toUpper rfl (by decide) (by decide) n

theorem numeral_ne {al cs n} (h : Numeral al cs n) : cs ≠ [] := by
  cases h <;> simp

/-- A numeral denotes one number. -/
theorem numeral_unique {al : List Char} (hn : al.Nodup) {cs : List Char} {n : Nat} (h : Numeral al cs n) :
    ∀ {m}, Numeral al cs m → n = m := by
  have inj : ∀ {d e : Nat} {c : Char}, al[d]? = some c → al[e]? = some c → d = e := by
    intro d e c h1 h2
    rw [List.getElem?_eq_some_iff] at h1 h2
    obtain ⟨a, b⟩ := h1
    obtain ⟨a', b'⟩ := h2
    exact (List.getElem_inj hn).mp (b.trans b'.symm)
  induction h with
  | digit hd =>
    rename_i c d
    intro m h'
    generalize hcs : [c] = cs at h'
    cases h' with
    | digit hd' => cases hcs; exact inj hd hd'
    | @snoc cs' _ _ _ h1 _ _ =>
      have := numeral_ne h1
      cases cs' with
      | nil => exact absurd rfl this
      | cons _ _ => simp at hcs
  | snoc h1 h2 h3 ih =>
    rename_i cs k c d
    intro m h'
    generalize hcs : cs ++ [c] = cs' at h'
    cases h' with
    | digit hd' =>
      have : cs ≠ [] := numeral_ne h1
      cases cs with
      | nil => exact absurd rfl this
      | cons _ _ => simp at hcs
    | snoc h1' _ h3' =>
      rename_i cs'' k' c' d'
      obtain ⟨e1, e2⟩ := List.append_inj' hcs rfl
      subst e1
      simp only [List.cons.injEq, and_true] at e2
      subst e2
      rw [ih h1', inj h3 h3']

theorem written_pad {al pre ds : List Char} {width n : Nat} (hd : Numeral al ds n) :
    NumberText al pre width n (pre ++ List.replicate (width - (pre.length + ds.length)) '0' ++ ds) := by
  refine ⟨_, ds, rfl, hd, ?_⟩
  simp only [List.length_append, List.length_replicate]
  omega

theorem digits_inj {b n m : Nat} (hb : b = 10) (h : digits b n = digits b m) : n = m := by
  subst hb
  have h1 := numeral_decimal n
  rw [h] at h1
  exact numeral_unique (by decide) h1 (numeral_decimal m)

theorem digits_ten (n : Nat) : digits 10 n = if n < 10 then [Char.ofNat (48 + n)] else digits 10 (n / 10) ++ [Char.ofNat (48 + n % 10)] := by
  unfold digits
  rw [Nat.toDigits_eq_if (by decide)]
  have hc : ∀ d < 10, Nat.digitChar d = Char.ofNat (48 + d) := by decide
  split
  · rename_i h; rw [hc _ h]
  · rw [hc _ (Nat.mod_lt _ (by decide))]

theorem fixedDigits_length (w n : Nat) : (fixedDigits w n).length = w := by
  induction w generalizing n with
  | zero => rfl
  | succ w ih => simp [fixedDigits, ih]

theorem fixedDigits_zero (w : Nat) : fixedDigits w 0 = List.replicate w '0' := by
  induction w with
  | zero => rfl
  | succ w ih => rw [fixedDigits, List.replicate_succ', Nat.zero_div, ih]

theorem zeroPadded_eq (w n : Nat) (hw : 0 < w) (h : n < 10 ^ w) : zeroPadded w n = fixedDigits w n := by
  induction w generalizing n with
  | zero => omega
  | succ w ih =>
    unfold zeroPadded
    rw [digits_ten]
    split
    · rename_i h10
      rw [fixedDigits, show n / 10 = 0 by omega, fixedDigits_zero, Nat.mod_eq_of_lt h10]
      simp
    · rename_i h10
      have hw0 : 0 < w := by
        cases w with
        | zero => simp at h; omega
        | succ _ => omega
      have := ih (n / 10) hw0 (by rw [Nat.pow_succ] at h; omega)
      unfold zeroPadded at this
      rw [fixedDigits, ← this]
      simp only [List.length_append, List.length_singleton, ← List.append_assoc]
      rw [show w + 1 - ((digits 10 (n / 10)).length + 1) = w - (digits 10 (n / 10)).length by omega]

theorem char_digit_inj : ∀ a < 10, ∀ b < 10, Char.ofNat (48 + a) = Char.ofNat (48 + b) → a = b := by decide

theorem fixedDigits_inj (w n m : Nat) (h : n < 10 ^ w) (h' : m < 10 ^ w) (he : fixedDigits w n = fixedDigits w m) : n = m := by
  induction w generalizing n m with
  | zero => simp at h h'; omega
  | succ w ih =>
    rw [fixedDigits, fixedDigits] at he
    obtain ⟨h1, h2⟩ := List.append_inj' he rfl
    rw [Nat.pow_succ] at h h'
    have e1 := ih (n / 10) (m / 10) (by omega) (by omega) h1
    simp only [List.cons.injEq, and_true] at h2
    have e2 := char_digit_inj _ (Nat.mod_lt n (by decide)) _ (Nat.mod_lt m (by decide)) h2
    omega

theorem isDigit_char : ∀ a < 10, isDigit (Char.ofNat (48 + a)) = true := by decide

theorem fixedDigits_isDigit (w n : Nat) : ∀ c ∈ fixedDigits w n, isDigit c = true := by
  induction w generalizing n with
  | zero => simp [fixedDigits]
  | succ w ih =>
    intro c hc
    rw [fixedDigits, List.mem_append] at hc
    rcases hc with hc | hc
    · exact ih _ c hc
    · simp only [List.mem_singleton] at hc
      rw [hc]; exact isDigit_char _ (Nat.mod_lt _ (by decide))

theorem digits_isDigit (n : Nat) : ∀ c ∈ digits 10 n, isDigit c = true := by
  intro c hc
  exact Nat.isDigit_of_mem_toDigits (by decide) (by decide) hc

/-- The first non-digit separates. -/
theorem split_digits {a b r r' : List Char} {x x' : Char} (ha : ∀ c ∈ a, isDigit c = true) (hb : ∀ c ∈ b, isDigit c = true)
    (hx : isDigit x = false) (hx' : isDigit x' = false) (h : a ++ x :: r = b ++ x' :: r') : a = b ∧ x = x' ∧ r = r' := by
  induction a generalizing b with
  | nil =>
    cases b with
    | nil => simp at h; exact ⟨rfl, h⟩
    | cons c b =>
      simp at h
      rw [h.1] at hx
      rw [hb c (by simp)] at hx
      cases hx
  | cons c a ih =>
    cases b with
    | nil =>
      simp at h
      rw [← h.1] at hx'
      rw [ha c (by simp)] at hx'
      cases hx'
    | cons d b =>
      simp only [List.cons_append, List.cons.injEq] at h
      obtain ⟨rfl, h⟩ := h
      obtain ⟨h1, h2, h3⟩ := ih (fun c hc => ha c (by simp [hc])) (fun c hc => hb c (by simp [hc])) h
      exact ⟨by rw [h1], h2, h3⟩

end Defmt.Display
