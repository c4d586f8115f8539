import Verif.Model.Utf8
/-! UTF-8 round trip. -/

namespace Defmt

theorem toNat_ofNat8 (n : Nat) (h : n < 256) : (UInt8.ofNat n).toNat = n := by
  rw [UInt8.toNat_ofNat']; exact Nat.mod_eq_of_lt h

theorem char_range (c : Char) : c.toNat < 0xD800 ∨ (0xDFFF < c.toNat ∧ c.toNat < 0x110000) := by
  exact c.valid

theorem fromUtf8_char (c : Char) (r : List UInt8) :
    fromUtf8 (utf8Char c ++ r) = (fromUtf8 r).map (c :: ·) := by
  have hr := char_range c
  have hc : Char.ofNat c.toNat = c := Char.ofNat_toNat c
  unfold utf8Char
  simp only
  split
  · rename_i h
    rw [List.singleton_append, fromUtf8.eq_def]
    simp only
    rw [toNat_ofNat8 _ (by omega), if_pos h, hc]
  · split
    · rename_i h1 h2
      have ha := toNat_ofNat8 (0xC0 + c.toNat / 64) (by omega)
      have hb := toNat_ofNat8 (0x80 + c.toNat % 64) (by omega)
      rw [List.cons_append, List.singleton_append, fromUtf8.eq_def]
      simp only
      rw [if_neg (by omega), if_pos, ha, hb]
      · have : (192 + c.toNat / 64 - 192) * 64 + (128 + c.toNat % 64 - 128) = c.toNat := by omega
        rw [this, hc]
      · simp only [byteIn, ha, hb, Bool.and_eq_true, decide_eq_true_eq]; omega
    · split
      · rename_i h1 h2 h3
        have ha := toNat_ofNat8 (0xE0 + c.toNat / 4096) (by omega)
        have hb := toNat_ofNat8 (0x80 + c.toNat / 64 % 64) (by omega)
        have hd := toNat_ofNat8 (0x80 + c.toNat % 64) (by omega)
        rw [List.cons_append, List.cons_append, List.singleton_append, fromUtf8.eq_def]
        simp only
        rw [if_neg (by omega), if_neg, if_pos, ha, hb, hd]
        · have : (224 + c.toNat / 4096 - 224) * 4096 + (128 + c.toNat / 64 % 64 - 128) * 64 +
              (128 + c.toNat % 64 - 128) = c.toNat := by omega
          rw [this, hc]
        · simp only [byteIn, utf8Start3, ha, hb, hd, Bool.and_eq_true, Bool.or_eq_true,
            decide_eq_true_eq]; omega
        · simp only [byteIn, ha, hb, Bool.and_eq_true, decide_eq_true_eq]; omega
      · rename_i h1 h2 h3
        have ha := toNat_ofNat8 (0xF0 + c.toNat / 262144) (by omega)
        have hb := toNat_ofNat8 (0x80 + c.toNat / 4096 % 64) (by omega)
        have hd := toNat_ofNat8 (0x80 + c.toNat / 64 % 64) (by omega)
        have he := toNat_ofNat8 (0x80 + c.toNat % 64) (by omega)
        rw [List.cons_append, List.cons_append, List.cons_append, List.singleton_append, fromUtf8.eq_def]
        simp only
        rw [if_neg (by omega), if_neg, if_neg, if_pos, ha, hb, hd, he]
        · have : (240 + c.toNat / 262144 - 240) * 262144 + (128 + c.toNat / 4096 % 64 - 128) * 4096 +
              (128 + c.toNat / 64 % 64 - 128) * 64 + (128 + c.toNat % 64 - 128) = c.toNat := by omega
          rw [this, hc]
        · simp only [byteIn, utf8Start4, ha, hb, hd, he, Bool.and_eq_true, Bool.or_eq_true,
            decide_eq_true_eq]; omega
        · simp only [byteIn, utf8Start3, ha, hb, hd, Bool.and_eq_true, Bool.or_eq_true,
            decide_eq_true_eq]; omega
        · simp only [byteIn, ha, hb, Bool.and_eq_true, decide_eq_true_eq]; omega

/-- decoding the bytes of a text gives the text -/
theorem fromUtf8_utf8 (s : List Char) : fromUtf8 (utf8 s) = some s := by
  induction s with
  | nil => rfl
  | cons c cs ih => rw [utf8, fromUtf8_char, ih]; rfl

/-- no byte of a UTF-8 text is `0xFF` (nor any other byte above `0xF4`) -/
theorem utf8_lt (s : List Char) : ∀ b ∈ utf8 s, b.toNat ≤ 0xF4 := by
  induction s with
  | nil => simp [utf8]
  | cons c cs ih =>
    intro b hb
    rw [utf8, List.mem_append] at hb
    rcases hb with hb | hb
    · have hr := char_range c
      unfold utf8Char at hb
      simp only at hb
      split at hb
      · simp only [List.mem_singleton] at hb; subst hb; rw [toNat_ofNat8 _ (by omega)]; omega
      · split at hb
        · simp only [List.mem_cons, List.not_mem_nil, or_false] at hb
          rcases hb with rfl | rfl <;> rw [toNat_ofNat8 _ (by omega)] <;> omega
        · split at hb
          · simp only [List.mem_cons, List.not_mem_nil, or_false] at hb
            rcases hb with rfl | rfl | rfl <;> rw [toNat_ofNat8 _ (by omega)] <;> omega
          · simp only [List.mem_cons, List.not_mem_nil, or_false] at hb
            rcases hb with rfl | rfl | rfl | rfl <;> rw [toNat_ofNat8 _ (by omega)] <;> omega
    · exact ih b hb

theorem utf8_append (s t : List Char) : utf8 (s ++ t) = utf8 s ++ utf8 t := by
  induction s with
  | nil => rfl
  | cons c cs ih => simp [utf8, ih]

end Defmt
