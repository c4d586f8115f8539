import Verif.Lemmas.TypeCheck
/-!
# C111: the arguments of a log statement are type checked
-/

namespace Defmt

open Parser Encoder TypeCheck

/-- **C111** A call is accepted exactly if its format string is fine and the arguments, and all that is nested in them, have the types of the
parameters. -/
theorem C111_exact (c : Call) : c.encode ≠ none ↔ Accepted c := by
  rw [← Option.isSome_iff_ne_none]
  simp only [Call.encode, Accepted]
  cases argTypes c.fmt c.args.length with
  | none => simp
  | some tys => simpa using encodeArgs_isSome tys c.args

/-- **C111** An accepted call has an argument for each parameter, and a parameter for each argument. -/
theorem C111_arity {c : Call} (h : Accepted c) : ∃ fs, Parser.parse c.fmt .strict = .ok fs ∧
    (∀ p ∈ params fs, p.index < c.args.length) ∧ (∀ i < c.args.length, ∃ p ∈ params fs, p.index = i) := by
  obtain ⟨tys, ht, _⟩ := h
  rw [argTypes] at ht
  split at ht
  · rename_i fs hfs
    refine ⟨fs, hfs, ?_⟩
    split at ht
    · cases ht
    · rename_i hl
      simp only [ne_eq, Decidable.not_not] at hl
      refine ⟨fun p hp => ?_, fun i hi => ?_⟩
      · rw [hl]; exact index_lt_expected hp
      · rw [hl] at hi
        have := allSome_mem ht (List.mem_map.mpr ⟨i, List.mem_range.mpr hi, rfl⟩)
        rw [argType] at this
        split at this
        · exact absurd rfl this
        · rename_i p hp
          exact ⟨p, List.mem_of_find?_eq_some hp, by simpa using List.find?_some hp⟩
  · cases ht

/-- **C111** A number, bool, char, string or interned string is accepted for one type of parameter only (an unsigned integer also for
bitfields). -/
theorem C111_one_type {v : Val} (hv : match v with | .bytes _ | .text _ | .slice _ _ _ => False | _ => True) {ty ty' : Ty}
    (hb : ∀ s e, ty ≠ .bitField s e) (hb' : ∀ s e, ty' ≠ .bitField s e) (h : Fits ty v) (h' : Fits ty' v) : ty = ty' := by
  have e : ∀ {t : Ty}, (∀ s e, t ≠ .bitField s e) → Fits t v → t ∈ paramTypes v := by
    intro t ht h
    unfold Fits at h
    split at h
    · exact absurd rfl (ht _ _)
    · exact h
  have h1 := e hb h
  have h2 := e hb' h'
  cases v with
  | uint => rw [uintTypes] at h1 h2; grind
  | sint => rw [sintTypes] at h1 h2; grind
  | bytes => cases hv
  | text => cases hv
  | slice => cases hv
  | _ => simp only [paramTypes, List.mem_singleton] at h1 h2; rw [h1, h2]

/-- **C111** Bitfields: an unsigned integer that is large enough to contain the bits is always accepted. -/
theorem C111_bits {size start stop n : Nat} (hs : size ∈ [1, 2, 4, 8, 16]) (h : start < stop) (hl : stop ≤ 8 * size) :
    Fits (.bitField start stop) (.uint size n) := by
  refine ⟨by omega, ?_⟩
  have h1 : (stop - 1) / 8 < start / 8 + size := by omega
  simp only [wireOctets]
  have hf : ([1, 2, 4, 8, 16].find? (fun size => decide ((stop - 1) / 8 < start / 8 + size))).isSome = true := by
    rw [List.find?_isSome]
    exact ⟨size, hs, by simpa using h1⟩
  obtain ⟨k, hk⟩ := Option.isSome_iff_exists.mp hf
  refine ⟨k, hk, ?_⟩
  simp only [List.mem_cons, List.not_mem_nil, or_false] at hs
  simp only [List.find?] at hk
  rcases hs with rfl | rfl | rfl | rfl | rfl
  all_goals
    repeat' split at hk
    all_goals first | (cases hk; omega) | (simp_all; omega) | simp_all

/-- **C111** Bits from the first octet on: an unsigned integer that is not large enough is refused, as the book says. -/
theorem C111_bits_refused {size start stop n : Nat} (h : start < 8) (hl : 8 * size < stop) : ¬ Fits (.bitField start stop) (.uint size n) := by
  rintro ⟨_, k, hk, hle⟩
  have := List.find?_some hk
  simp only [decide_eq_true_eq] at this
  omega

/-- **C111** For other bits the rule of the book does not hold: `{=8..24}` accepts an `u16`. -/
theorem C111_bits_book_false : ∃ c : Call, c = ⟨c!"{=8..24}", [.uint 2 0xabcd]⟩ ∧ Accepted c ∧ c.encode = some [0xab, 0] := by
  refine ⟨_, rfl, ?_, by decide +kernel⟩
  rw [← C111_exact]
  decide +kernel

/-- **C111** Neither a signed integer nor `usize` is accepted for a bitfield. -/
theorem C111_bits_unsigned {start stop : Nat} {v : Val} (h : Fits (.bitField start stop) v) : ∃ size n, v = .uint size n := by
  cases v with
  | uint size n => exact ⟨size, n, rfl⟩
  | sint => simp [Fits, sintTypes] at h
  | _ => simp [Fits, paramTypes] at h

/-- A call with two parameters: with the arguments exchanged, one missing or one too many it is refused. -/
example : (Call.mk c!"{=u8} {=str}" [.uint 1 3, .str c!"x"]).encode ≠ none ∧ (Call.mk c!"{=u8} {=str}" [.str c!"x", .uint 1 3]).encode = none ∧
    (Call.mk c!"{=u8} {=str}" [.uint 1 3]).encode = none ∧ (Call.mk c!"{=u8} {=str}" [.uint 1 3, .str c!"x", .bool true]).encode = none ∧
    (Call.mk c!"{=u8} {=str}" [.uint 2 3, .str c!"x"]).encode = none := by decide +kernel

/-- Nested: a derived struct whose field has the wrong type -/
example : Accepted ⟨c!"{=?}", [.formatted 7 c!"S {{ x: {=u8} }}" [.uint 1 3]]⟩ ∧ ¬ Accepted ⟨c!"{=?}", [.formatted 7 c!"S {{ x: {=u8} }}" [.uint 2 3]]⟩ := by
  rw [← C111_exact, ← C111_exact]; decide +kernel

/-- `{=8..12}` and `u8` (the example of the book), `{=0..9}` and `u8`; `{=8..12}` and `u16` is fine -/
example : ¬ Fits (.bitField 8 12) (.uint 1 0) ∧ ¬ Fits (.bitField 0 9) (.uint 1 0) ∧ Fits (.bitField 8 12) (.uint 2 0) :=
  ⟨fun h => by have := h.1; omega, C111_bits_refused (by omega) (by omega), C111_bits (by simp) (by omega) (by omega)⟩

end Defmt
