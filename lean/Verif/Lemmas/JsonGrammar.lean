import Verif.Spec.Json
import Verif.Lemmas.Grammar
/-! The JSON reader reads the JSON texts of RFC 8259 and nothing else. -/

namespace Defmt.Json

open Parser Symbol

/-! ### white space -/

theorem Ws.nil : Ws [] := by intro c h; cases h

theorem Ws.append {a b : List Char} (ha : Ws a) (hb : Ws b) : Ws (a ++ b) := by
  intro c h
  rcases List.mem_append.mp h with h | h
  · exact ha c h
  · exact hb c h

/-- a character that is not white space -/
def NonWs (c : Char) : Prop := ¬ (c = ' ' ∨ c = '\t' ∨ c = '\n' ∨ c = '\r')

theorem skipSpace_cons {c : Char} (h : NonWs c) (t : List Char) : skipSpace (c :: t) = c :: t := by
  rw [skipSpace, if_neg h]

theorem skipSpace_ws {w : List Char} (h : Ws w) (s : List Char) : skipSpace (w ++ s) = skipSpace s := by
  induction w with
  | nil => rfl
  | cons c w ih =>
    rw [List.cons_append, skipSpace, if_pos (h c (by simp))]
    exact ih (fun d hd => h d (by simp [hd]))

theorem skipSpace_split (s : List Char) : ∃ w, s = w ++ skipSpace s ∧ Ws w := by
  induction s with
  | nil => exact ⟨[], rfl, Ws.nil⟩
  | cons c s ih =>
    rw [skipSpace]
    split
    · rename_i h
      obtain ⟨w, h1, h2⟩ := ih
      refine ⟨c :: w, by rw [List.cons_append, ← h1], ?_⟩
      intro d hd
      rcases List.mem_cons.mp hd with rfl | hd
      · exact h
      · exact h2 d hd
    · exact ⟨[], rfl, Ws.nil⟩

theorem skipSpace_nil {s : List Char} : skipSpace s = [] ↔ Ws s := by
  constructor
  · intro h
    obtain ⟨w, h1, h2⟩ := skipSpace_split s
    rw [h, List.append_nil] at h1
    rw [h1]; exact h2
  · intro h
    have := skipSpace_ws h []
    rw [List.append_nil] at this
    exact this

theorem expect_some {c : Char} {s rest : List Char} (h : expect c s = some rest) : ∃ w, s = w ++ c :: rest ∧ Ws w := by
  unfold expect at h
  obtain ⟨w, h1, h2⟩ := skipSpace_split s
  split at h
  · rename_i d r hd
    split at h
    · rename_i hdc
      cases h
      subst hdc
      exact ⟨w, by rw [hd] at h1; exact h1, h2⟩
    · cases h
  · cases h

theorem expect_ws {c : Char} {w : List Char} (hw : Ws w) (hc : NonWs c) (rest : List Char) : expect c (w ++ c :: rest) = some rest := by
  unfold expect
  rw [skipSpace_ws hw, skipSpace_cons hc]
  simp

theorem expect_other {c d : Char} {w : List Char} (hw : Ws w) (hd : NonWs d) (hne : d ≠ c) (rest : List Char) : expect c (w ++ d :: rest) = none := by
  unfold expect
  rw [skipSpace_ws hw, skipSpace_cons hd]
  simp [hne]

/-! ### strings -/

theorem hexValue_iff (c : Char) (v : Nat) : hexValue c = some v ↔ HexDigit c v := by
  constructor
  · intro h
    have hlt : c.toNat < 128 := by
      unfold hexValue at h
      split at h
      · rename_i hc; have : c.toNat ≤ 57 := hc.2; omega
      split at h
      · rename_i hc; have : c.toNat ≤ 102 := hc.2; omega
      split at h
      · rename_i hc; have : c.toNat ≤ 70 := hc.2; omega
      · cases h
    have key : ∀ n : Fin 128, ∀ v : Fin 64, hexValue (Char.ofNat n) = some v.val →
        v.val < 16 ∧ (Char.ofNat n = Nat.digitChar v ∨ Char.ofNat n = (Nat.digitChar v).toUpper) := by decide +kernel
    have hv : v < 64 := by
      unfold hexValue at h
      split at h
      · rename_i hc; have : c.toNat ≤ 57 := hc.2; simp only [Option.some.injEq] at h; omega
      split at h
      · rename_i hc; have : c.toNat ≤ 102 := hc.2; simp only [Option.some.injEq] at h; omega
      split at h
      · rename_i hc; have : c.toNat ≤ 70 := hc.2; simp only [Option.some.injEq] at h; omega
      · cases h
    have := key ⟨c.toNat, hlt⟩ ⟨v, hv⟩ (by simp only [Char.ofNat_toNat]; exact h)
    simp only [Char.ofNat_toNat] at this
    exact this
  · rintro ⟨hv, h⟩
    have key : ∀ v : Fin 16, hexValue (Nat.digitChar v) = some v.val ∧ hexValue (Nat.digitChar v).toUpper = some v.val := by decide +kernel
    rcases h with rfl | rfl
    · exact (key ⟨v, hv⟩).1
    · exact (key ⟨v, hv⟩).2

theorem simpleEscape_iff (c d : Char) : simpleEscape c = some d ↔ (c, d) ∈ twoCharacters := by
  constructor
  · intro h
    unfold simpleEscape at h
    repeat' split at h
    all_goals first
      | (rename_i hc; subst hc; cases h; decide)
      | cases h
  · intro h
    simp only [twoCharacters, List.mem_cons, Prod.mk.injEq, List.not_mem_nil, or_false] at h
    rcases h with ⟨rfl, rfl⟩ | ⟨rfl, rfl⟩ | ⟨rfl, rfl⟩ | ⟨rfl, rfl⟩ | ⟨rfl, rfl⟩ | ⟨rfl, rfl⟩ | ⟨rfl, rfl⟩ | ⟨rfl, rfl⟩ <;> decide

/-- what follows the four digits -/
def afterHex (n : Nat) (high : Option Nat) (rest : List Char) : Option (List Char × List Char) :=
  match hexMeaning n high with
  | none => none
  | some (.inl ch) => push ch (readString .normal rest)
  | some (.inr h) => readString (.lowBackslash h) rest

theorem readString_hex (high : Option Nat) (s : List Char) (r : List Char × List Char) :
    readString (.hex 4 0 high) s = some r ↔ ∃ ds n rest, s = ds ++ rest ∧ Hex4 ds n ∧ afterHex n high rest = some r := by
  constructor
  · intro h
    cases s with
    | nil => simp [readString] at h
    | cons x1 s =>
    rw [readString] at h
    cases e1 : hexValue x1 with
    | none => rw [e1] at h; cases h
    | some a =>
    rw [e1] at h
    simp only [show ¬ (4 ≤ 1) by decide, ↓reduceIte] at h
    cases s with
    | nil => simp [readString] at h
    | cons x2 s =>
    rw [readString] at h
    cases e2 : hexValue x2 with
    | none => rw [e2] at h; cases h
    | some b =>
    rw [e2] at h
    simp only [show ¬ (4 - 1 ≤ 1) by decide, ↓reduceIte] at h
    cases s with
    | nil => simp [readString] at h
    | cons x3 s =>
    rw [readString] at h
    cases e3 : hexValue x3 with
    | none => rw [e3] at h; cases h
    | some c =>
    rw [e3] at h
    simp only [show ¬ (4 - 1 - 1 ≤ 1) by decide, ↓reduceIte] at h
    cases s with
    | nil => simp [readString] at h
    | cons x4 s =>
    rw [readString] at h
    cases e4 : hexValue x4 with
    | none => rw [e4] at h; cases h
    | some d =>
    rw [e4] at h
    simp only [show (4 - 1 - 1 - 1 ≤ 1) by decide, ↓reduceIte] at h
    have hv : (((0 * 16 + a) * 16 + b) * 16 + c) * 16 + d = a * 4096 + b * 256 + c * 16 + d := by omega
    rw [hv] at h
    refine ⟨[x1, x2, x3, x4], _, s, rfl, ⟨x1, x2, x3, x4, a, b, c, d, rfl, (hexValue_iff _ _).mp e1, (hexValue_iff _ _).mp e2,
      (hexValue_iff _ _).mp e3, (hexValue_iff _ _).mp e4, rfl⟩, ?_⟩
    unfold afterHex
    split at h <;> rename_i hm <;> rw [hm] <;> exact h
  · rintro ⟨ds, n, rest, rfl, ⟨x1, x2, x3, x4, a, b, c, d, rfl, e1, e2, e3, e4, rfl⟩, h⟩
    rw [← hexValue_iff] at e1 e2 e3 e4
    have hv : (((0 * 16 + a) * 16 + b) * 16 + c) * 16 + d = a * 4096 + b * 256 + c * 16 + d := by omega
    simp only [List.cons_append, List.nil_append]
    rw [readString, e1]; simp only
    rw [if_neg (by omega), readString, e2]; simp only
    rw [if_neg (by omega), readString, e3]; simp only
    rw [if_neg (by omega), readString, e4]; simp only
    rw [if_pos (by omega), hv]
    unfold afterHex at h
    split at h <;> rename_i hm <;> rw [hm] <;> exact h

theorem push_some {c : Char} {o : Option (List Char × List Char)} {v rest : List Char} (h : push c o = some (v, rest)) :
    ∃ v', v = c :: v' ∧ o = some (v', rest) := by
  cases o with
  | none => cases h
  | some r =>
    obtain ⟨s, r⟩ := r
    simp only [push, Option.some.injEq, Prod.mk.injEq] at h
    exact ⟨s, h.1.symm, by rw [h.2]⟩

theorem readString_sound : ∀ (n : Nat) (s v rest : List Char), s.length ≤ n → readString .normal s = some (v, rest) →
    ∃ t, s = t ++ '"' :: rest ∧ StringBody t v := by
  intro n
  induction n with
  | zero =>
    intro s v rest hn h
    rw [List.length_eq_zero_iff.mp (Nat.le_zero.mp hn)] at h
    simp [readString] at h
  | succ n ih =>
    intro s v rest hn h
    cases s with
    | nil => simp [readString] at h
    | cons c s =>
      simp only [List.length_cons] at hn
      rw [readString] at h
      split at h
      · rename_i hc
        cases h
        subst hc
        exact ⟨[], rfl, .nil⟩
      rename_i hq
      split at h
      · rename_i hc
        subst hc
        cases s with
        | nil => simp [readString] at h
        | cons e s =>
          simp only [List.length_cons] at hn
          rw [readString] at h
          split at h
          · rename_i hu
            subst hu
            obtain ⟨ds, m, r, rfl, hds, ha⟩ := (readString_hex _ _ _).mp h
            simp only [List.length_append] at hn
            unfold afterHex hexMeaning at ha
            dsimp only at ha
            by_cases hs : 0xD800 ≤ m ∧ m ≤ 0xDBFF
            · rw [if_pos hs] at ha
              dsimp only at ha
              cases r with
              | nil => simp [readString] at ha
              | cons x r =>
                rw [readString] at ha
                split at ha
                · rename_i hx
                  subst hx
                  cases r with
                  | nil => simp [readString] at ha
                  | cons y r =>
                    rw [readString] at ha
                    split at ha
                    · rename_i hy
                      subst hy
                      obtain ⟨es, m', r', rfl, hes, hb⟩ := (readString_hex _ _ _).mp ha
                      unfold afterHex hexMeaning at hb
                      dsimp only at hb
                      split at hb
                      · cases hb
                      · rename_i ch hch
                        split at hch
                        · rename_i hlow
                          have hch' := Sum.inl.inj (Option.some.inj hch)
                          rw [← hch'] at hb
                          obtain ⟨v', rfl, hv'⟩ := push_some hb
                          simp only [List.length_cons, List.length_append] at hn
                          obtain ⟨t, rfl, ht⟩ := ih r' v' rest (by omega) hv'
                          refine ⟨'\\' :: 'u' :: (ds ++ '\\' :: 'u' :: (es ++ t)), by simp, ?_⟩
                          exact .pair hds hs.1 hs.2 hes hlow.1 hlow.2 ht
                        · cases hch
                      · rename_i hch
                        split at hch <;> cases hch
                    · cases ha
                · cases ha
            · rw [if_neg hs] at ha
              by_cases hs' : 0xDC00 ≤ m ∧ m ≤ 0xDFFF
              · rw [if_pos hs'] at ha; cases ha
              · rw [if_neg hs'] at ha
                dsimp only at ha
                obtain ⟨v', rfl, hv'⟩ := push_some ha
                obtain ⟨t, rfl, ht⟩ := ih r v' rest (by omega) hv'
                exact ⟨'\\' :: 'u' :: (ds ++ t), by simp, .unicode hds (by omega) ht⟩
          · split at h
            · rename_i d hd
              obtain ⟨v', rfl, hv'⟩ := push_some h
              obtain ⟨t, rfl, ht⟩ := ih s v' rest (by omega) hv'
              exact ⟨'\\' :: e :: t, rfl, .escape ((simpleEscape_iff _ _).mp hd) ht⟩
            · cases h
      rename_i hb
      split at h
      · cases h
      · rename_i hctl
        obtain ⟨v', rfl, hv'⟩ := push_some h
        obtain ⟨t, rfl, ht⟩ := ih s v' rest (by omega) hv'
        exact ⟨c :: t, rfl, .plain hq hb (by omega) ht⟩

theorem readString_complete {t v : List Char} (h : StringBody t v) (rest : List Char) : readString .normal (t ++ '"' :: rest) = some (v, rest) := by
  induction h with
  | nil => rfl
  | @plain c t v h1 h2 h3 _ ih =>
    rw [List.cons_append, readString, if_neg h1, if_neg h2, if_neg (by omega), ih]
    rfl
  | @escape e d t v h1 _ ih =>
    have hu : e ≠ 'u' := by
      rintro rfl
      simp only [twoCharacters, List.mem_cons, Prod.mk.injEq, List.not_mem_nil, or_false] at h1
      revert h1
      simp
    rw [List.cons_append, List.cons_append, readString, if_neg (by decide), if_pos rfl, readString, if_neg hu, (simpleEscape_iff _ _).mpr h1]
    simp only [ih]
    rfl
  | @unicode ds n t v h1 h2 _ ih =>
    rw [List.cons_append, List.cons_append, readString, if_neg (by decide), if_pos rfl, readString, if_pos rfl]
    refine (readString_hex _ _ _).mpr ⟨ds, n, t ++ '"' :: rest, by simp, h1, ?_⟩
    unfold afterHex hexMeaning
    dsimp only
    rw [if_neg (by omega), if_neg (by omega)]
    dsimp only
    rw [ih]
    rfl
  | @pair ds es high low t v h1 h2 h3 h4 h5 h6 _ ih =>
    rw [List.cons_append, List.cons_append, readString, if_neg (by decide), if_pos rfl, readString, if_pos rfl]
    refine (readString_hex _ _ _).mpr ⟨ds, high, '\\' :: 'u' :: (es ++ (t ++ '"' :: rest)), by simp, h1, ?_⟩
    unfold afterHex hexMeaning
    dsimp only
    rw [if_pos ⟨h2, h3⟩]
    dsimp only
    rw [readString, if_pos rfl, readString, if_pos rfl]
    refine (readString_hex _ _ _).mpr ⟨es, low, t ++ '"' :: rest, rfl, h4, ?_⟩
    unfold afterHex hexMeaning
    dsimp only
    rw [if_pos ⟨h5, h6⟩]
    dsimp only
    rw [ih]
    rfl

theorem readQuoted_sound {s v rest : List Char} (h : readQuoted s = some (v, rest)) :
    ∃ w t, s = w ++ '"' :: (t ++ '"' :: rest) ∧ Ws w ∧ StringBody t v := by
  unfold readQuoted at h
  split at h
  · cases h
  · rename_i r hr
    obtain ⟨w, rfl, hw⟩ := expect_some hr
    obtain ⟨t, rfl, ht⟩ := readString_sound _ _ _ _ (Nat.le_refl _) h
    exact ⟨w, t, rfl, hw, ht⟩

theorem readQuoted_complete {w t v : List Char} (hw : Ws w) (ht : StringBody t v) (rest : List Char) :
    readQuoted (w ++ '"' :: (t ++ '"' :: rest)) = some (v, rest) := by
  unfold readQuoted
  rw [expect_ws hw (by unfold NonWs; decide)]
  exact readString_complete ht rest

/-! ### numbers -/

theorem isDigit_iff (c : Char) : isDigit c = true ↔ '0' ≤ c ∧ c ≤ '9' := by
  simp [isDigit]

/-- neither a digit nor something else that belongs to a number -/
def NumStop (rest : List Char) : Prop := ∀ c, rest.head? = some c → isDigit c = false ∧ c ≠ '.' ∧ c ≠ 'e' ∧ c ≠ 'E'

theorem split_digits (s : List Char) : s = s.takeWhile isDigit ++ s.dropWhile isDigit ∧ ∀ c ∈ s.takeWhile isDigit, '0' ≤ c ∧ c ≤ '9' :=
  ⟨(List.takeWhile_append_dropWhile).symm, fun c hc => (isDigit_iff c).mp (mem_takeWhile hc)⟩

theorem Digits.take {ds rest : List Char} (h : Digits ds) (hr : ∀ c, rest.head? = some c → isDigit c = false) :
    (ds ++ rest).takeWhile isDigit = ds ∧ (ds ++ rest).dropWhile isDigit = rest :=
  ⟨takeWhile_app _ _ _ (fun c hc => (isDigit_iff c).mpr (h.2 c hc)) hr, dropWhile_app _ _ _ (fun c hc => (isDigit_iff c).mpr (h.2 c hc)) hr⟩

theorem readInt_sound {s ds rest : List Char} (h : readInt s = some (ds, rest)) : s = ds ++ rest ∧ IntPart ds := by
  unfold readInt at h
  dsimp only at h
  obtain ⟨h1, h2⟩ := split_digits s
  split at h
  · cases h
  rename_i hne
  split at h
  · cases h
  rename_i hz
  cases h
  refine ⟨h1, ⟨hne, h2⟩, ?_⟩
  intro h0
  simp only [not_and, Classical.not_not] at hz
  exact hz h0

theorem readInt_complete {ds rest : List Char} (h : IntPart ds) (hr : ∀ c, rest.head? = some c → isDigit c = false) :
    readInt (ds ++ rest) = some (ds, rest) := by
  obtain ⟨h1, h2⟩ := h.1.take hr
  unfold readInt
  simp only [h1, h2]
  rw [if_neg h.1.1, if_neg]
  rintro ⟨h3, h4⟩
  exact h4 (h.2 h3)

theorem readFraction_sound {s fr rest : List Char} (h : readFraction s = some (fr, rest)) : s = fr ++ rest ∧ FracPart fr := by
  cases s with
  | nil => cases h; exact ⟨rfl, .inl rfl⟩
  | cons c s =>
    rw [readFraction] at h
    split at h
    · rename_i hc
      subst hc
      split at h
      · cases h
      · rename_i hne
        cases h
        obtain ⟨h1, h2⟩ := split_digits s
        exact ⟨by rw [List.cons_append, ← h1], .inr ⟨_, ⟨hne, h2⟩, rfl⟩⟩
    · cases h; exact ⟨rfl, .inl rfl⟩

theorem readFraction_complete {fr rest : List Char} (h : FracPart fr) (hr : ∀ c, rest.head? = some c → isDigit c = false ∧ c ≠ '.') :
    readFraction (fr ++ rest) = some (fr, rest) := by
  rcases h with rfl | ⟨ds, hd, rfl⟩
  · cases rest with
    | nil => rfl
    | cons c rest => rw [List.nil_append, readFraction, if_neg (hr c rfl).2]
  · obtain ⟨h1, h2⟩ := hd.take (fun c hc => (hr c hc).1)
    rw [List.cons_append, readFraction, if_pos rfl, h1, h2, if_neg hd.1]

theorem readExponent_sound {s ex rest : List Char} (h : readExponent s = some (ex, rest)) : s = ex ++ rest ∧ ExpPart ex := by
  cases s with
  | nil => cases h; exact ⟨rfl, .inl rfl⟩
  | cons c s =>
    rw [readExponent] at h
    split at h
    · rename_i hc
      have hs : s = (readSign s).1 ++ (readSign s).2 ∧ ((readSign s).1 = [] ∨ (readSign s).1 = ['+'] ∨ (readSign s).1 = ['-']) := by
        cases s with
        | nil => exact ⟨rfl, .inl rfl⟩
        | cons d s =>
          rw [readSign]
          split
          · rename_i hd
            rcases hd with rfl | rfl
            · exact ⟨rfl, .inr (.inl rfl)⟩
            · exact ⟨rfl, .inr (.inr rfl)⟩
          · exact ⟨rfl, .inl rfl⟩
      dsimp only at h
      split at h
      · cases h
      · rename_i hne
        cases h
        obtain ⟨h1, h2⟩ := split_digits (readSign s).2
        refine ⟨?_, .inr ⟨c, _, _, hc, hs.2, ⟨hne, h2⟩, rfl⟩⟩
        rw [List.cons_append, List.cons_append, List.append_assoc, ← h1, ← hs.1]
    · cases h; exact ⟨rfl, .inl rfl⟩

theorem digits_cons_ne {ds : List Char} (h : Digits ds) : ∃ c t, ds = c :: t ∧ '0' ≤ c ∧ c ≤ '9' := by
  cases ds with
  | nil => exact absurd rfl h.1
  | cons c t => exact ⟨c, t, rfl, h.2 c (by simp)⟩

theorem digit_ne {c d : Char} (h : '0' ≤ c ∧ c ≤ '9') (hd : isDigit d = false) : c ≠ d := by
  rintro rfl
  rw [(isDigit_iff c).mpr h] at hd
  cases hd

theorem readExponent_complete {ex rest : List Char} (h : ExpPart ex) (hr : ∀ c, rest.head? = some c → isDigit c = false ∧ c ≠ 'e' ∧ c ≠ 'E') :
    readExponent (ex ++ rest) = some (ex, rest) := by
  rcases h with rfl | ⟨e, sign, ds, he, hs, hd, rfl⟩
  · cases rest with
    | nil => rfl
    | cons c rest =>
      rw [List.nil_append, readExponent, if_neg]
      rintro (h | h)
      · exact (hr c rfl).2.1 h
      · exact (hr c rfl).2.2 h
  · obtain ⟨h1, h2⟩ := hd.take (fun c hc => (hr c hc).1)
    have hsg : readSign (sign ++ (ds ++ rest)) = (sign, ds ++ rest) := by
      rcases hs with rfl | rfl | rfl
      · obtain ⟨c, t, rfl, hc⟩ := digits_cons_ne hd
        rw [List.nil_append, List.cons_append, readSign, if_neg]
        rintro (h | h)
        · exact digit_ne hc (by decide) h
        · exact digit_ne hc (by decide) h
      · rfl
      · rfl
    rw [List.cons_append, List.cons_append, List.append_assoc, readExponent, if_pos he]
    simp only [hsg, h1, h2, if_neg hd.1, List.cons_append]

theorem readNumber_sound {sign s rest : List Char} {j : Json} (hsign : sign = [] ∨ sign = ['-']) (h : readNumber sign s = some (j, rest)) :
    ∃ t, s = t ++ rest ∧ Number (sign ++ t) j := by
  unfold readNumber at h
  split at h
  · cases h
  rename_i ds s1 h1
  obtain ⟨rfl, hds⟩ := readInt_sound h1
  split at h
  · cases h
  rename_i fr s2 h2
  obtain ⟨rfl, hfr⟩ := readFraction_sound h2
  split at h
  · cases h
  rename_i ex s3 h3
  obtain ⟨rfl, hex⟩ := readExponent_sound h3
  split at h
  · rename_i he
    obtain ⟨rfl, rfl⟩ := he
    cases h
    refine ⟨ds, rfl, ?_⟩
    rcases hsign with rfl | rfl
    · exact .positive hds
    · exact .negative hds
  · rename_i he
    cases h
    refine ⟨ds ++ fr ++ ex, by simp, ?_⟩
    have : sign ++ (ds ++ fr ++ ex) = sign ++ ds ++ fr ++ ex := by simp
    rw [this]
    refine .decimal hsign hds hfr hex ?_
    by_cases hf : fr = []
    · exact .inr (fun h => he ⟨hf, h⟩)
    · exact .inl hf

theorem readNumber_parts {sign ds fr ex rest : List Char} (hds : IntPart ds) (hfr : FracPart fr) (hex : ExpPart ex) (hr : NumStop rest) :
    readNumber sign (ds ++ (fr ++ (ex ++ rest))) = some (if fr = [] ∧ ex = [] then .num (if sign = [] then digitsValue ds else - (digitsValue ds : Int))
      else .decimal (sign ++ ds ++ fr ++ ex), rest) := by
  have hexHead : ∀ c, (ex ++ rest).head? = some c → isDigit c = false ∧ c ≠ '.' := by
    intro c hc
    rcases hex with rfl | ⟨e, sg, ds', he, -, -, rfl⟩
    · exact ⟨(hr c hc).1, (hr c hc).2.1⟩
    · simp only [List.cons_append, List.head?_cons, Option.some.injEq] at hc
      subst hc
      rcases he with rfl | rfl <;> decide
  have hfrHead : ∀ c, (fr ++ (ex ++ rest)).head? = some c → isDigit c = false := by
    intro c hc
    rcases hfr with rfl | ⟨ds', -, rfl⟩
    · exact (hexHead c hc).1
    · simp only [List.cons_append, List.head?_cons, Option.some.injEq] at hc
      subst hc
      decide
  unfold readNumber
  simp only [readInt_complete hds hfrHead, readFraction_complete hfr hexHead,
    readExponent_complete hex (fun c hc => ⟨(hr c hc).1, (hr c hc).2.2⟩)]
  split <;> rfl

/-! ### values -/

/-- the first character of a value -/
theorem Number.starts {t : List Char} {j : Json} (h : Number t j) : ∃ c t', t = c :: t' ∧ (c = '-' ∨ ('0' ≤ c ∧ c ≤ '9')) := by
  cases h with
  | positive h => obtain ⟨c, t, rfl, hc⟩ := digits_cons_ne h.1; exact ⟨c, t, rfl, .inr hc⟩
  | @negative ds h => exact ⟨'-', ds, rfl, .inl rfl⟩
  | decimal hs h _ _ _ =>
    rcases hs with rfl | rfl
    · obtain ⟨c, t, rfl, hc⟩ := digits_cons_ne h.1
      exact ⟨c, _, rfl, .inr hc⟩
    · exact ⟨'-', _, rfl, .inl rfl⟩

theorem number_start_ne {c d : Char} (h : c = '-' ∨ ('0' ≤ c ∧ c ≤ '9')) (hd : isDigit d = false) (hm : d ≠ '-') : c ≠ d := by
  rcases h with rfl | h
  · exact hm.symm
  · exact digit_ne h hd

theorem Value.starts {t : List Char} {j : Json} (h : Value t j) : ∃ c t', t = c :: t' ∧ NonWs c ∧ c ≠ ']' ∧ c ≠ '}' := by
  cases h with
  | number h =>
    obtain ⟨c, t', rfl, hc⟩ := h.starts
    refine ⟨c, t', rfl, ?_, number_start_ne hc (by decide) (by decide), number_start_ne hc (by decide) (by decide)⟩
    rintro (h | h | h | h)
    all_goals exact number_start_ne hc (by decide) (by decide) h
  | null => exact ⟨_, _, rfl, by unfold NonWs; decide, by decide, by decide⟩
  | true => exact ⟨_, _, rfl, by unfold NonWs; decide, by decide, by decide⟩
  | false => exact ⟨_, _, rfl, by unfold NonWs; decide, by decide, by decide⟩
  | string _ => exact ⟨_, _, rfl, by unfold NonWs; decide, by decide, by decide⟩
  | emptyArray _ => exact ⟨_, _, rfl, by unfold NonWs; decide, by decide, by decide⟩
  | array _ => exact ⟨_, _, rfl, by unfold NonWs; decide, by decide, by decide⟩
  | emptyObject _ => exact ⟨_, _, rfl, by unfold NonWs; decide, by decide, by decide⟩
  | object _ => exact ⟨_, _, rfl, by unfold NonWs; decide, by decide, by decide⟩

theorem read_sound (fuel : Nat) :
    (∀ s j rest, readValue fuel s = some (j, rest) → ∃ w t, s = w ++ (t ++ rest) ∧ Ws w ∧ Value t j) ∧
    (∀ s es rest, readElements fuel s = some (es, rest) → ∃ t, s = t ++ ']' :: rest ∧ Elements t es) ∧
    (∀ s ms rest, readFields fuel s = some (ms, rest) → ∃ t, s = t ++ '}' :: rest ∧ Members t ms) := by
  induction fuel with
  | zero =>
    refine ⟨?_, ?_, ?_⟩
    · intro s j rest h; simp [readValue] at h
    · intro s j rest h; simp [readElements] at h
    · intro s j rest h; simp [readFields] at h
  | succ fuel ih =>
    obtain ⟨ihv, ihe, ihm⟩ := ih
    refine ⟨?_, ?_, ?_⟩
    · intro s j rest h
      obtain ⟨w, hs, hw⟩ := skipSpace_split s
      rw [readValue] at h
      cases hk : skipSpace s with
      | nil => rw [hk] at h; cases h
      | cons c r =>
        rw [hk] at h hs
        dsimp only at h
        refine ⟨w, ?_⟩
        suffices ∃ t, c :: r = t ++ rest ∧ Value t j by
          obtain ⟨t, h1, h2⟩ := this
          exact ⟨t, by rw [hs, h1], hw, h2⟩
        split at h
        · rename_i hc
          subst hc
          split at h
          · cases h
          · rename_i t' r' hr
            cases h
            obtain ⟨t, rfl, ht⟩ := readString_sound _ _ _ _ (Nat.le_refl _) hr
            exact ⟨'"' :: (t ++ ['"']), by simp, .string ht⟩
        split at h
        · rename_i hc
          subst hc
          split at h
          · rename_i r' hr
            cases h
            obtain ⟨w', rfl, hw'⟩ := expect_some hr
            exact ⟨'[' :: (w' ++ [']']), by simp, .emptyArray hw'⟩
          · split at h
            · cases h
            · rename_i es r' hr
              cases h
              obtain ⟨t, rfl, ht⟩ := ihe _ _ _ hr
              exact ⟨'[' :: (t ++ [']']), by simp, .array ht⟩
        split at h
        · rename_i hc
          subst hc
          split at h
          · rename_i r' hr
            cases h
            obtain ⟨w', rfl, hw'⟩ := expect_some hr
            exact ⟨'{' :: (w' ++ ['}']), by simp, .emptyObject hw'⟩
          · split at h
            · cases h
            · rename_i es r' hr
              cases h
              obtain ⟨t, rfl, ht⟩ := ihm _ _ _ hr
              exact ⟨'{' :: (t ++ ['}']), by simp, .object ht⟩
        split at h
        · rename_i hc
          subst hc
          unfold readName at h
          split at h
          · cases h
          · rename_i r' hr
            cases h
            exact ⟨c!"null", by rw [stripPrefix_eq hr]; rfl, .null⟩
        split at h
        · rename_i hc
          subst hc
          unfold readName at h
          split at h
          · cases h
          · rename_i r' hr
            cases h
            exact ⟨c!"true", by rw [stripPrefix_eq hr]; rfl, .true⟩
        split at h
        · rename_i hc
          subst hc
          unfold readName at h
          split at h
          · cases h
          · rename_i r' hr
            cases h
            exact ⟨c!"false", by rw [stripPrefix_eq hr]; rfl, .false⟩
        split at h
        · rename_i hc
          subst hc
          obtain ⟨t, rfl, ht⟩ := readNumber_sound (.inr rfl) h
          exact ⟨'-' :: t, rfl, .number ht⟩
        · obtain ⟨t, h1, ht⟩ := readNumber_sound (.inl rfl) h
          exact ⟨t, h1, .number ht⟩
    · intro s es rest h
      rw [readElements] at h
      split at h
      · cases h
      rename_i e s1 h1
      obtain ⟨w, t, rfl, hw, ht⟩ := ihv _ _ _ h1
      split at h
      · rename_i s2 h2
        obtain ⟨w', rfl, hw'⟩ := expect_some h2
        split at h
        · cases h
        · rename_i es' s3 h3
          cases h
          obtain ⟨t', rfl, ht'⟩ := ihe _ _ _ h3
          exact ⟨w ++ (t ++ (w' ++ ',' :: t')), by simp, .more hw ht hw' ht'⟩
      · split at h
        · rename_i s2 h2
          obtain ⟨w', rfl, hw'⟩ := expect_some h2
          cases h
          exact ⟨w ++ (t ++ w'), by simp, .one hw ht hw'⟩
        · cases h
    · intro s ms rest h
      rw [readFields] at h
      split at h
      · cases h
      rename_i k s1 h1
      obtain ⟨w, kt, rfl, hw, hkt⟩ := readQuoted_sound h1
      split at h
      · cases h
      rename_i s2 h2
      obtain ⟨w1, rfl, hw1⟩ := expect_some h2
      split at h
      · cases h
      rename_i v s3 h3
      obtain ⟨w2, t, rfl, hw2, ht⟩ := ihv _ _ _ h3
      split at h
      · rename_i s4 h4
        obtain ⟨w3, rfl, hw3⟩ := expect_some h4
        split at h
        · cases h
        · rename_i ms' s5 h5
          cases h
          obtain ⟨t', rfl, ht'⟩ := ihm _ _ _ h5
          exact ⟨w ++ '"' :: (kt ++ '"' :: (w1 ++ ':' :: (w2 ++ (t ++ (w3 ++ ',' :: t'))))), by simp, .more hw hkt hw1 hw2 ht hw3 ht'⟩
      · split at h
        · rename_i s4 h4
          obtain ⟨w3, rfl, hw3⟩ := expect_some h4
          cases h
          exact ⟨w ++ '"' :: (kt ++ '"' :: (w1 ++ ':' :: (w2 ++ (t ++ w3)))), by simp, .one hw hkt hw1 hw2 ht hw3⟩
        · cases h

/-- what may follow a value -/
def Follow (rest : List Char) : Prop :=
  ∀ c, rest.head? = some c → c = ' ' ∨ c = '\t' ∨ c = '\n' ∨ c = '\r' ∨ c = ',' ∨ c = ']' ∨ c = '}'

theorem Follow.num {rest : List Char} (h : Follow rest) : NumStop rest := by
  intro c hc
  rcases h c hc with rfl | rfl | rfl | rfl | rfl | rfl | rfl <;> decide

theorem Follow.ws {w rest : List Char} (hw : Ws w) (h : Follow rest) : Follow (w ++ rest) := by
  cases w with
  | nil => exact h
  | cons d w =>
    intro c hc
    simp only [List.cons_append, List.head?_cons, Option.some.injEq] at hc
    subst hc
    rcases hw d (by simp) with h | h | h | h <;> simp [h]

theorem follow_cons {c : Char} (h : c = ',' ∨ c = ']' ∨ c = '}') (rest : List Char) : Follow (c :: rest) := by
  intro d hd
  simp only [List.head?_cons, Option.some.injEq] at hd
  subst hd
  rcases h with h | h | h <;> simp [h]

theorem nonWs_comma : NonWs ',' := by unfold NonWs; decide
theorem nonWs_bracket : NonWs ']' := by unfold NonWs; decide
theorem nonWs_brace : NonWs '}' := by unfold NonWs; decide
theorem nonWs_colon : NonWs ':' := by unfold NonWs; decide

/-- a value starts with a digit or with a minus -/
theorem readValue_number {t : List Char} {j : Json} (h : Number t j) {fuel : Nat} (w rest : List Char) (hw : Ws w) (hr : NumStop rest) :
    readValue (fuel + 1) (w ++ (t ++ rest)) = some (j, rest) := by
  obtain ⟨c, t', hct, hc⟩ := h.starts
  have hn : ∀ d, isDigit d = false → d ≠ '-' → c ≠ d := fun d h1 h2 => number_start_ne hc h1 h2
  have hnw : NonWs c := by
    rintro (h | h | h | h)
    all_goals exact hn _ (by decide) (by decide) h
  have hk : skipSpace (w ++ (t ++ rest)) = c :: (t' ++ rest) := by
    rw [skipSpace_ws hw, hct, List.cons_append, skipSpace_cons hnw]
  rw [readValue, hk]
  dsimp only
  rw [if_neg (hn '"' (by decide) (by decide)), if_neg (hn '[' (by decide) (by decide)), if_neg (hn '{' (by decide) (by decide)),
    if_neg (hn 'n' (by decide) (by decide)), if_neg (hn 't' (by decide) (by decide)), if_neg (hn 'f' (by decide) (by decide))]
  have hback : c :: (t' ++ rest) = t ++ rest := by rw [hct]; rfl
  cases h with
  | positive hds =>
    have hm : c ≠ '-' := by
      obtain ⟨d, r, hd, hdd⟩ := digits_cons_ne hds.1
      rw [hd] at hct
      cases hct
      exact digit_ne hdd (by decide)
    rw [if_neg hm, hback]
    have := readNumber_parts (sign := []) hds (.inl rfl) (.inl rfl) hr
    simpa using this
  | @negative ds hds =>
    cases hct
    rw [if_pos rfl]
    have := readNumber_parts (sign := ['-']) hds (.inl rfl) (.inl rfl) hr
    simpa using this
  | @decimal sign ds fr ex hs hds hfr hex hne =>
    have he : ¬ (fr = [] ∧ ex = []) := by
      rintro ⟨h1, h2⟩
      rcases hne with h | h
      · exact h h1
      · exact h h2
    have hp := fun sign => readNumber_parts (sign := sign) hds hfr hex hr
    simp only [if_neg he] at hp
    rcases hs with rfl | rfl
    · have hm : c ≠ '-' := by
        obtain ⟨d, r, hd, hdd⟩ := digits_cons_ne hds.1
        rw [hd] at hct
        simp only [List.nil_append, List.cons_append, List.cons.injEq] at hct
        rw [← hct.1]
        exact digit_ne hdd (by decide)
      rw [if_neg hm, hback]
      have := hp []
      simpa using this
    · simp only [List.cons_append, List.nil_append, List.cons.injEq] at hct
      obtain ⟨rfl, rfl⟩ := hct
      rw [if_pos rfl]
      have := hp ['-']
      simpa using this

theorem read_complete (fuel : Nat) :
    (∀ w t j rest, Ws w → Value t j → 2 * t.length ≤ fuel → Follow rest → readValue fuel (w ++ (t ++ rest)) = some (j, rest)) ∧
    (∀ t es rest, Elements t es → 2 * t.length + 1 ≤ fuel → readElements fuel (t ++ ']' :: rest) = some (es, rest)) ∧
    (∀ t ms rest, Members t ms → 2 * t.length + 1 ≤ fuel → readFields fuel (t ++ '}' :: rest) = some (ms, rest)) := by
  induction fuel with
  | zero =>
    refine ⟨?_, fun t _ _ _ h => by omega, fun t _ _ _ h => by omega⟩
    intro w t j rest _ h hl
    obtain ⟨c, t', rfl, -⟩ := h.starts
    simp at hl
  | succ fuel ih =>
    obtain ⟨ihv, ihe, ihm⟩ := ih
    refine ⟨?_, ?_, ?_⟩
    · intro w t j rest hw h hl hf
      cases h with
      | number h => exact readValue_number h w rest hw hf.num
      | null =>
        rw [readValue, skipSpace_ws hw]
        rfl
      | true =>
        rw [readValue, skipSpace_ws hw]
        rfl
      | false =>
        rw [readValue, skipSpace_ws hw]
        rfl
      | @string b v hb =>
        rw [readValue, skipSpace_ws hw, List.cons_append, skipSpace_cons (by unfold NonWs; decide)]
        dsimp only
        rw [if_pos rfl, List.append_assoc, List.cons_append, List.nil_append, readString_complete hb]
      | @emptyArray w' hw' =>
        rw [readValue, skipSpace_ws hw, List.cons_append, skipSpace_cons (by unfold NonWs; decide)]
        dsimp only
        rw [if_neg (by decide), if_pos rfl, List.append_assoc, List.cons_append, List.nil_append, expect_ws hw' nonWs_bracket]
      | @emptyObject w' hw' =>
        rw [readValue, skipSpace_ws hw, List.cons_append, skipSpace_cons (by unfold NonWs; decide)]
        dsimp only
        rw [if_neg (by decide), if_neg (by decide), if_pos rfl, List.append_assoc, List.cons_append, List.nil_append, expect_ws hw' nonWs_brace]
      | @array b es hb =>
        rw [readValue, skipSpace_ws hw, List.cons_append, skipSpace_cons (by unfold NonWs; decide)]
        simp only [List.length_cons, List.length_append, List.length_nil] at hl
        have hne : expect ']' (b ++ ']' :: rest) = none := by
          cases hb with
          | one h1 h2 h3 =>
            obtain ⟨c, t', rfl, hc1, hc2, -⟩ := h2.starts
            simp only [List.append_assoc, List.cons_append]
            exact expect_other h1 hc1 hc2 _
          | more h1 h2 h3 h4 =>
            obtain ⟨c, t', rfl, hc1, hc2, -⟩ := h2.starts
            simp only [List.append_assoc, List.cons_append]
            exact expect_other h1 hc1 hc2 _
        dsimp only
        rw [if_neg (by decide), if_pos rfl, List.append_assoc, List.cons_append, List.nil_append, hne, ihe b es rest hb (by omega)]
      | @object b ms hb =>
        rw [readValue, skipSpace_ws hw, List.cons_append, skipSpace_cons (by unfold NonWs; decide)]
        simp only [List.length_cons, List.length_append, List.length_nil] at hl
        have hne : expect '}' (b ++ '}' :: rest) = none := by
          cases hb with
          | one h1 _ _ _ _ _ =>
            simp only [List.append_assoc, List.cons_append]
            exact expect_other h1 (by unfold NonWs; decide) (by decide) _
          | more h1 _ _ _ _ _ _ =>
            simp only [List.append_assoc, List.cons_append]
            exact expect_other h1 (by unfold NonWs; decide) (by decide) _
        dsimp only
        rw [if_neg (by decide), if_neg (by decide), if_pos rfl, List.append_assoc, List.cons_append, List.nil_append, hne, ihm b ms rest hb (by omega)]
    · intro t es rest h hl
      rw [readElements]
      cases h with
      | @one w t w' j hw ht hw' =>
        simp only [List.length_append] at hl
        have := ihv w t j (w' ++ ']' :: rest) hw ht (by omega) (Follow.ws hw' (follow_cons (by simp) _))
        simp only [List.append_assoc, this]
        rw [expect_other hw' nonWs_bracket (by decide), expect_ws hw' nonWs_bracket]
      | @more w t w' j rs es hw ht hw' hes =>
        simp only [List.length_append, List.length_cons] at hl
        have := ihv w t j (w' ++ ',' :: (rs ++ ']' :: rest)) hw ht (by omega) (Follow.ws hw' (follow_cons (by simp) _))
        simp only [List.append_assoc, List.cons_append, this]
        rw [expect_ws hw' nonWs_comma]
        simp only [ihe rs es rest hes (by omega)]
    · intro t ms rest h hl
      rw [readFields]
      cases h with
      | @one w k key w1 w2 t j w3 hw hk hw1 hw2 ht hw3 =>
        simp only [List.length_append, List.length_cons] at hl
        have := ihv w2 t j (w3 ++ '}' :: rest) hw2 ht (by omega) (Follow.ws hw3 (follow_cons (by simp) _))
        simp only [List.append_assoc, List.cons_append]
        rw [readQuoted_complete hw hk]
        dsimp only
        rw [expect_ws hw1 nonWs_colon]
        dsimp only
        rw [this]
        dsimp only
        rw [expect_other hw3 nonWs_brace (by decide), expect_ws hw3 nonWs_brace]
      | @more w k key w1 w2 t j w3 rs ms hw hk hw1 hw2 ht hw3 hms =>
        simp only [List.length_append, List.length_cons] at hl
        have := ihv w2 t j (w3 ++ ',' :: (rs ++ '}' :: rest)) hw2 ht (by omega) (Follow.ws hw3 (follow_cons (by simp) _))
        simp only [List.append_assoc, List.cons_append]
        rw [readQuoted_complete hw hk]
        dsimp only
        rw [expect_ws hw1 nonWs_colon]
        dsimp only
        rw [this]
        dsimp only
        rw [expect_ws hw3 nonWs_comma]
        dsimp only
        rw [ihm rs ms rest hms (by omega)]

/-- The reader reads the JSON texts and nothing else. -/
theorem read_iff (s : List Char) (j : Json) : read s = some j ↔ JsonText s j := by
  constructor
  · intro h
    unfold read at h
    split at h
    · cases h
    · rename_i j' rest hr
      obtain ⟨w, t, rfl, hw, ht⟩ := (read_sound _).1 _ _ _ hr
      split at h
      · rename_i hs
        cases h
        exact ⟨w, t, rest, rfl, hw, ht, skipSpace_nil.mp hs⟩
      · cases h
  · rintro ⟨w, t, w', rfl, hw, ht, hw'⟩
    have hf : Follow w' := by
      have := Follow.ws hw' (rest := []) (by intro c h; cases h)
      rwa [List.append_nil] at this
    unfold read
    rw [(read_complete _).1 w t j w' hw ht (by simp only [List.length_append]; omega) hf]
    dsimp only
    rw [if_pos (skipSpace_nil.mpr hw')]

end Defmt.Json
