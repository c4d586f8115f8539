import Verif.Lemmas.Frame
import Verif.Props.RoundTrip
/-!
# Properties of displaying frames: C22, C34-C39
-/

namespace Defmt

open Parser Decoder Encoder Display

/-! ### C34 -/

/-- the hints for integers with what they ask for: digits, prefix, width -/
def Hint.Asks : Option Hint → List Char → List Char → Nat → Prop
  | none, al, pre, w => al = decimalDigits ∧ pre = [] ∧ w = 0
  | some (.noHint pad), al, pre, w => al = decimalDigits ∧ pre = [] ∧ w = pad
  | some (.binary alt pad), al, pre, w =>
    al = binaryDigits ∧ pre = (if alt then c!"0b" else []) ∧ w = pad
  | some (.octal alt pad), al, pre, w =>
    al = octalDigits ∧ pre = (if alt then c!"0o" else []) ∧ w = pad
  | some (.hexadecimal alt upper pad), al, pre, w =>
    al = (if upper then upperHexDigits else hexadecimalDigits) ∧ pre = (if alt then c!"0x" else []) ∧ w = pad
  | _, _, _, _ => False

theorem numeral_hexDigits (upper : Bool) (n : Nat) :
    Numeral (if upper then upperHexDigits else hexadecimalDigits) (hexDigits upper n) n := by
  cases upper
  · exact numeral_hex n
  · exact numeral_upper n

/-- **C34** Unsigned integers: the output is the prefix asked for, zeros only as far as needed for the
width, and the numeral of the value in the base asked for. -/
theorem C34_unsigned (env : Env) (x : Nat) (hint : Option Hint) (al pre : List Char) (w : Nat)
    (h : Hint.Asks hint al pre w) (hw : w ≤ env.maxWidth) :
    ∃ out, formatU128 env x hint = some out ∧ NumberText al pre w x out := by
  have pad : ∀ ds, Numeral al ds x → ∃ out, padIntegral env false pre ds w = some out ∧ NumberText al pre w x out := by
    intro ds hd
    unfold padIntegral
    rw [if_neg (by omega)]
    exact ⟨_, rfl, written_pad hd⟩
  match hint with
  | none =>
    obtain ⟨rfl, rfl, rfl⟩ := h
    exact ⟨_, rfl, 0, digits 10 x, rfl, numeral_decimal x, by simp⟩
  | some (.noHint p) => obtain ⟨rfl, rfl, rfl⟩ := h; exact pad _ (numeral_decimal x)
  | some (.binary alt p) => obtain ⟨rfl, rfl, rfl⟩ := h; exact pad _ (numeral_binary x)
  | some (.octal alt p) => obtain ⟨rfl, rfl, rfl⟩ := h; exact pad _ (numeral_octal x)
  | some (.hexadecimal alt upper p) => obtain ⟨rfl, rfl, rfl⟩ := h; exact pad _ (numeral_hexDigits upper x)
  | some .ascii => exact h.elim
  | some .debug => exact h.elim
  | some (.seconds _) => exact h.elim
  | some (.time _) => exact h.elim
  | some (.iso8601 _) => exact h.elim
  | some (.bitflags ..) => exact h.elim
  | some .cbor => exact h.elim
  | some (.unknown _) => exact h.elim

/-- **C34** The digits denote only one value, so the display determines the number. -/
theorem C34_determines (al ds : List Char) (hal : al ∈ [binaryDigits, octalDigits, decimalDigits, hexadecimalDigits, upperHexDigits])
    (n m : Nat) (h : Numeral al ds n) (h' : Numeral al ds m) : n = m := by
  have : al.Nodup := by clear h h'; revert al; decide
  exact numeral_unique this h h'

/-- external functions for the examples -/
def demoEnv : Env where
  f32 := fun _ => c!"1.0"
  f64 := fun _ => c!"1.0"
  debugStr := fun s => '"' :: s ++ ['"']
  cbor := fun _ => c!"null"
  dateTime := fun _ _ => c!"1970-01-01T00:00:00Z"
  maxWidth := 65535
  bitflags := fun k => if k.name = c!"F" then some [(c!"NONE", 0), (c!"A", 1), (c!"B", 2), (c!"AB", 3)] else none

example : formatU128 demoEnv 42 (some (.hexadecimal true true 8)) = some c!"0x00002A" := by decide +kernel
example : formatU128 demoEnv 42 (some (.noHint 4)) = some c!"0042" := by decide +kernel
example : Hint.Asks (some (.hexadecimal true true 8)) upperHexDigits c!"0x" 8 := ⟨rfl, rfl, rfl⟩

/-- **C34** Signed integers in decimal: minus sign, zeros, numeral of the absolute value. -/
theorem C34_signed (env : Env) (x : Int) (ty : Ty) (w : Nat) (hw : w ≤ env.maxWidth) :
    ∃ out, formatI128 env x ty (some (.noHint w)) = some out ∧
      NumberText decimalDigits (if x < 0 then ['-'] else []) w x.natAbs out := by
  simp only [formatI128]
  unfold padIntegral
  rw [if_neg (by omega)]
  refine ⟨_, rfl, ?_⟩
  have := written_pad (pre := if x < 0 then ['-'] else []) (width := w) (numeral_decimal x.natAbs)
  by_cases h : x < 0
  · simpa [h] using this
  · simpa [h] using this

/-! ### C35 -/

/-- the signed integer types and their sizes in bits -/
def signedTypes : List (Ty × Nat) := [(.i8, 8), (.i16, 16), (.i32, 32), (.i64, 64), (.i128, 128)]

/-- **C35** (partial) Hex display of a signed integer of a fixed size type shows the two's complement
pattern of that size: the value itself if it is not negative, `value + 2^N` otherwise.
Missing: `isize`, for which the host panics (`C35_fails`). -/
theorem C35_signed_hex_partial (env : Env) (ty : Ty) (bits : Nat) (hty : (ty, bits) ∈ signedTypes) (x : Int)
    (h1 : -2 ^ (bits - 1) ≤ x) (h2 : x < 2 ^ (bits - 1)) (alt upper : Bool) (w : Nat) (hw : w ≤ env.maxWidth) :
    ∃ (out : List Char) (n : Nat), formatI128 env x ty (some (.hexadecimal alt upper w)) = some out ∧
      (n : Int) = (if x < 0 then x + 2 ^ bits else x) ∧
      NumberText (if upper then upperHexDigits else hexadecimalDigits) (if alt then c!"0x" else []) w n out := by
  have hb : hexBits ty = some bits ∧ 0 < bits := by
    simp only [signedTypes, List.mem_cons, Prod.mk.injEq, List.not_mem_nil, or_false] at hty
    rcases hty with ⟨rfl, rfl⟩ | ⟨rfl, rfl⟩ | ⟨rfl, rfl⟩ | ⟨rfl, rfl⟩ | ⟨rfl, rfl⟩ <;> exact ⟨rfl, by decide⟩
  obtain ⟨hb, hpos⟩ := hb
  have hp : (2 : Int) ^ bits = 2 * 2 ^ (bits - 1) := by
    conv => lhs; rw [show bits = (bits - 1) + 1 by omega, Int.pow_succ]
    omega
  have hpp : (0 : Int) < 2 ^ (bits - 1) := Int.pow_pos (by decide)
  have hn : ((twosComplement bits x : Nat) : Int) = if x < 0 then x + 2 ^ bits else x := by
    unfold twosComplement
    rw [Int.toNat_of_nonneg (Int.emod_nonneg _ (by omega))]
    split
    · have : x % 2 ^ bits = (x + 2 ^ bits) % 2 ^ bits := by simp
      rw [this, Int.emod_eq_of_lt (by omega) (by omega)]
    · rw [Int.emod_eq_of_lt (by omega) (by omega)]
  simp only [formatI128, hb]
  unfold padIntegral
  rw [if_neg (by omega)]
  refine ⟨_, twosComplement bits x, rfl, hn, ?_⟩
  have := written_pad (pre := if alt then c!"0x" else []) (width := w) (numeral_hexDigits upper (twosComplement bits x))
  simpa [alternatePrefix] using this

example : formatI128 demoEnv (-2) .i16 (some (.hexadecimal true false 0)) = some c!"0xfffe" := by decide +kernel

/-- **C35 does not hold** for `isize`: every `{=isize:x}` panics on the host. -/
theorem C35_fails (env : Env) (x : Int) (alt upper : Bool) (w : Nat) :
    formatI128 env x .isize (some (.hexadecimal alt upper w)) = none := rfl

/-! ### C36 -/

/-- decimal places of a precision -/
def places : TimePrecision → Nat
  | .micros => 6
  | .millis => 3
  | .seconds => 0

/-- `.` and the decimal places, if there are any -/
def fraction (p : TimePrecision) (n : Nat) : List Char := if places p = 0 then [] else '.' :: fixedDigits (places p) n

/-- `days:hh:mm:ss`, or `hh:mm:ss` when there are no days -/
def clockText (days : List Char) (noDays : Bool) (h m s : Nat) : List Char :=
  (if noDays then [] else days ++ [':']) ++ fixedDigits 2 h ++ ':' :: fixedDigits 2 m ++ ':' :: fixedDigits 2 s

/-- **C36** The `tus`, `tms`, `ts` hints: hours, minutes, seconds are in range and together with the
days and the fraction make up the value. -/
theorem C36_time (env : Env) (x : Nat) (p : TimePrecision) :
    ∃ days h m s f ds, h < 24 ∧ m < 60 ∧ s < 60 ∧ f < 10 ^ places p ∧
      x = (((days * 24 + h) * 60 + m) * 60 + s) * 10 ^ places p + f ∧ Numeral decimalDigits ds days ∧
      formatU128 env x (some (.time p)) = some (clockText ds (days = 0) h m s ++ fraction p f) := by
  have two : ∀ n < 60, zeroPadded 2 n = fixedDigits 2 n := fun n h => zeroPadded_eq 2 n (by decide) (by omega)
  have key : ∀ t f : Nat, ∃ days h m s, h < 24 ∧ m < 60 ∧ s < 60 ∧ t = ((days * 24 + h) * 60 + m) * 60 + s ∧
      h = t / 60 / 60 % 24 ∧ m = t / 60 % 60 ∧ s = t % 60 ∧ days = t / 60 / 60 / 24 := by
    intro t f
    exact ⟨_, _, _, _, by omega, by omega, by omega, by omega, rfl, rfl, rfl, rfl⟩
  have shape : ∀ (t days h m s : Nat) (fr : List Char), h < 24 → m < 60 → s < 60 →
      (let hms := zeroPadded 2 h ++ [':'] ++ zeroPadded 2 m ++ [':'] ++ zeroPadded 2 s
       if days = 0 then hms ++ fr else digits 10 days ++ [':'] ++ hms ++ fr) =
      clockText (digits 10 days) (days = 0) h m s ++ fr := by
    intro t days h m s fr h1 h2 h3
    simp only [clockText, two h (by omega), two m h2, two s h3, decide_eq_true_eq]
    split <;> simp [List.append_assoc]
  cases p with
  | micros =>
    obtain ⟨days, h, m, s, h1, h2, h3, h4, rfl, rfl, rfl, rfl⟩ := key (x / 1000000) 0
    refine ⟨x / 1000000 / 60 / 60 / 24, _, _, _, x % 1000000, _, h1, h2, h3, Nat.mod_lt _ (by decide), ?_, numeral_decimal _, ?_⟩
    · rw [← h4]; simp only [places]; omega
    · rw [show fraction .micros (x % 1000000) = '.' :: zeroPadded 6 (x % 1000000) by
        rw [zeroPadded_eq 6 _ (by decide) (Nat.mod_lt _ (by decide))]; rfl]
      rw [← shape (x / 1000000) _ _ _ _ _ h1 h2 h3]
      rfl
  | millis =>
    obtain ⟨days, h, m, s, h1, h2, h3, h4, rfl, rfl, rfl, rfl⟩ := key (x / 1000) 0
    refine ⟨x / 1000 / 60 / 60 / 24, _, _, _, x % 1000, _, h1, h2, h3, Nat.mod_lt _ (by decide), ?_, numeral_decimal _, ?_⟩
    · rw [← h4]; simp only [places]; omega
    · rw [show fraction .millis (x % 1000) = '.' :: zeroPadded 3 (x % 1000) by
        rw [zeroPadded_eq 3 _ (by decide) (Nat.mod_lt _ (by decide))]; rfl]
      rw [← shape (x / 1000) _ _ _ _ _ h1 h2 h3]
      rfl
  | seconds =>
    obtain ⟨days, h, m, s, h1, h2, h3, h4, rfl, rfl, rfl, rfl⟩ := key x 0
    refine ⟨x / 60 / 60 / 24, _, _, _, 0, _, h1, h2, h3, by decide, ?_, numeral_decimal _, ?_⟩
    · rw [← h4]; simp [places]
    · rw [← shape x _ _ _ _ _ h1 h2 h3]
      rfl

/-- **C36** The `us` and `ms` hints: seconds, a point, and all decimal places. -/
theorem C36_seconds (env : Env) (x : Nat) (p : TimePrecision) (hp : p ≠ .seconds) :
    ∃ s f ds, f < 10 ^ places p ∧ x = s * 10 ^ places p + f ∧ Numeral decimalDigits ds s ∧
      formatU128 env x (some (.seconds p)) = some (ds ++ fraction p f) := by
  cases p with
  | micros =>
    refine ⟨x / 1000000, x % 1000000, _, Nat.mod_lt _ (by decide), ?_, numeral_decimal _, ?_⟩
    · simp only [places]; omega
    · simp only [formatU128, fraction, places]
      rw [zeroPadded_eq 6 _ (by decide) (Nat.mod_lt _ (by decide))]; rfl
  | millis =>
    refine ⟨x / 1000, x % 1000, _, Nat.mod_lt _ (by decide), ?_, numeral_decimal _, ?_⟩
    · simp only [places]; omega
    · simp only [formatU128, fraction, places]
      rw [zeroPadded_eq 3 _ (by decide) (Nat.mod_lt _ (by decide))]; rfl
  | seconds => exact absurd rfl hp

example : formatU128 demoEnv 90061000123 (some (.time .micros)) = some c!"1:01:01:01.000123" := by decide +kernel
example : formatU128 demoEnv 1000123 (some (.seconds .micros)) = some c!"1.000123" := by decide +kernel

theorem numeral_decimal_digits {ds : List Char} {n : Nat} (h : Numeral decimalDigits ds n) : ∀ c ∈ ds, isDigit c = true := by
  have one : ∀ (d : Nat) (c : Char), decimalDigits[d]? = some c → isDigit c = true := by
    intro d c h
    have hm := List.mem_of_getElem? h
    clear h
    revert hm; revert c
    decide
  induction h with
  | digit h => intro c hc; simp only [List.mem_singleton] at hc; subst hc; exact one _ _ h
  | snoc _ _ h ih =>
    intro c hc
    rcases List.mem_append.mp hc with hc | hc
    · exact ih c hc
    · simp only [List.mem_singleton] at hc; subst hc; exact one _ _ h

theorem fraction_inj {p : TimePrecision} {f f' : Nat} (h : f < 10 ^ places p) (h' : f' < 10 ^ places p)
    (he : fraction p f = fraction p f') : f = f' := by
  unfold fraction at he
  split at he
  · rename_i hz; rw [hz] at h h'; omega
  · simp only [List.cons.injEq, true_and] at he
    exact fixedDigits_inj _ _ _ h h' he

/-- **C36** The output of a time hint determines the value. -/
theorem C36_time_injective (env : Env) (x y : Nat) (p : TimePrecision)
    (h : formatU128 env x (some (.time p)) = formatU128 env y (some (.time p))) : x = y := by
  obtain ⟨d, hh, m, s, f, ds, a1, a2, a3, a4, a5, a6, a7⟩ := C36_time env x p
  obtain ⟨d', hh', m', s', f', ds', b1, b2, b3, b4, b5, b6, b7⟩ := C36_time env y p
  rw [a7, b7, Option.some.injEq] at h
  have colon : isDigit ':' = false := by decide
  have inj2 : ∀ n n', n < 60 → n' < 60 → fixedDigits 2 n = fixedDigits 2 n' → n = n' :=
    fun n n' h1 h2 he => fixedDigits_inj 2 n n' (by omega) (by omega) he
  have hd := numeral_decimal_digits a6
  have hd' := numeral_decimal_digits b6
  have fx := fixedDigits_isDigit 2
  have frac_colon : ∀ f r, fraction p f ≠ ':' :: r := by
    intro f r hfr
    unfold fraction at hfr
    split at hfr
    · cases hfr
    · simp at hfr
  have tail : ∀ (n n' : Nat) (r r' : List Char), fixedDigits 2 n ++ r = fixedDigits 2 n' ++ r' →
      fixedDigits 2 n = fixedDigits 2 n' ∧ r = r' := by
    intro n n' r r' he
    exact List.append_inj he (by rw [fixedDigits_length, fixedDigits_length])
  unfold clockText at h
  by_cases hz : d = 0
  · by_cases hz' : d' = 0
    · simp only [hz, hz', decide_true, if_true, List.nil_append, List.append_assoc, List.cons_append] at h
      obtain ⟨e1, _, h⟩ := split_digits (fx hh) (fx hh') colon colon h
      obtain ⟨e2, _, h⟩ := split_digits (fx m) (fx m') colon colon h
      obtain ⟨e3, h⟩ := tail _ _ _ _ h
      rw [a5, b5, hz, hz', inj2 _ _ (by omega) (by omega) e1, inj2 _ _ a2 b2 e2, inj2 _ _ a3 b3 e3, fraction_inj a4 b4 h]
    · simp only [hz, hz', decide_true, decide_false, if_true, Bool.false_eq_true, if_false, List.nil_append,
        List.append_assoc, List.cons_append] at h
      obtain ⟨_, _, h⟩ := split_digits (fx hh) hd' colon colon h
      obtain ⟨_, _, h⟩ := split_digits (fx m) (fx hh') colon colon h
      obtain ⟨_, h⟩ := tail _ _ _ _ h
      exact absurd h (frac_colon _ _)
  · by_cases hz' : d' = 0
    · simp only [hz, hz', decide_true, decide_false, if_true, Bool.false_eq_true, if_false, List.nil_append,
        List.append_assoc, List.cons_append] at h
      obtain ⟨_, _, h⟩ := split_digits hd (fx hh') colon colon h
      obtain ⟨_, _, h⟩ := split_digits (fx hh) (fx m') colon colon h
      obtain ⟨_, h⟩ := tail _ _ _ _ h
      exact absurd h.symm (frac_colon _ _)
    · simp only [hz, hz', decide_false, Bool.false_eq_true, if_false, List.nil_append, List.append_assoc,
        List.cons_append] at h
      obtain ⟨e0, _, h⟩ := split_digits hd hd' colon colon h
      obtain ⟨e1, _, h⟩ := split_digits (fx hh) (fx hh') colon colon h
      obtain ⟨e2, _, h⟩ := split_digits (fx m) (fx m') colon colon h
      obtain ⟨e3, h4⟩ := tail _ _ _ _ h
      subst e0
      rw [a5, b5, numeral_unique (by decide) a6 b6, inj2 _ _ (by omega) (by omega) e1, inj2 _ _ a2 b2 e2,
        inj2 _ _ a3 b3 e3, fraction_inj a4 b4 h4]

/-- **C36** The output of the `us` and `ms` hints determines the value. -/
theorem C36_seconds_injective (env : Env) (x y : Nat) (p : TimePrecision) (hp : p ≠ .seconds)
    (h : formatU128 env x (some (.seconds p)) = formatU128 env y (some (.seconds p))) : x = y := by
  obtain ⟨s, f, ds, a1, a2, a3, a4⟩ := C36_seconds env x p hp
  obtain ⟨s', f', ds', b1, b2, b3, b4⟩ := C36_seconds env y p hp
  rw [a4, b4, Option.some.injEq] at h
  have hpl : places p ≠ 0 := by cases p <;> first | decide | exact absurd rfl hp
  have point : isDigit '.' = false := by decide
  have hf : ∀ f, fraction p f = '.' :: fixedDigits (places p) f := fun f => if_neg hpl
  rw [hf, hf] at h
  obtain ⟨e1, _, e2⟩ := split_digits (numeral_decimal_digits a3) (numeral_decimal_digits b3) point point h
  subst e1
  rw [a2, b2, numeral_unique (by decide) a3 b3, fixedDigits_inj _ _ _ a1 b1 e2]

/-! ### C37 -/

theorem land_eq_iff (x v : Nat) : Nat.land x v = v ↔ ∀ i, v.testBit i = true → x.testBit i = true := by
  constructor
  · intro h i hi
    have := congrArg (fun n => n.testBit i) h
    simp only [show Nat.land x v = x &&& v from rfl, Nat.testBit_and, hi, Bool.and_true] at this
    exact this
  · intro h
    apply Nat.eq_of_testBit_eq
    intro i
    rw [show Nat.land x v = x &&& v from rfl, Nat.testBit_and]
    cases hv : v.testBit i with
    | false => simp
    | true => simp [h i hv]

/-- The flag is set: all its bits are set in the value; a flag without bits counts only for value 0. -/
def FlagSet (x value : Nat) : Prop :=
  (∀ i, value.testBit i = true → x.testBit i = true) ∧ (value = 0 → x = 0)

theorem flagShown_iff (x v : Nat) : flagShown x v = true ↔ FlagSet x v := by
  unfold flagShown FlagSet
  split
  · rename_i hv
    simp only [Bool.false_eq_true, false_iff, not_and]
    intro _ hx
    exact hv.2 (hx hv.1)
  · rename_i hv
    simp only [decide_eq_true_eq, land_eq_iff]
    constructor
    · intro hx; exact ⟨hx, fun h0 => Decidable.byContradiction fun hx0 => hv ⟨h0, hx0⟩⟩
    · exact fun h => h.1

theorem joinFlags_eq (l : List (List Char)) : joinFlags l = separated c!" | " l := by
  induction l with
  | nil => rfl
  | cons a l ih =>
    cases l with
    | nil => rfl
    | cons b l => rw [joinFlags, separated, ih]; simp

/-- **C37** The names shown are those of the flags that are set, in the order of definition. -/
theorem C37_bitflags (env : Env) (x : Nat) (n p d : List Char) (c : Option (List Char)) (flags : List (List Char × Nat))
    (h : env.bitflags ⟨n, p, d, c⟩ = some flags) :
    ∃ shown : List (List Char × Nat), shown.Sublist flags ∧ (∀ f ∈ flags, f ∈ shown ↔ FlagSet x f.2) ∧
      (∀ f ∈ shown, FlagSet x f.2) ∧ (∀ f, shown.count f = if f ∈ shown then flags.count f else 0) ∧
      formatU128 env x (some (.bitflags n p d c)) =
        some (if shown = [] then c!"(empty)" else separated c!" | " (shown.map Prod.fst)) := by
  have hiff := flagShown_iff x
  refine ⟨flags.filter (fun f => flagShown x f.2), List.filter_sublist, ?_, ?_, ?_, ?_⟩
  · intro f hf
    rw [List.mem_filter, hiff]
    exact ⟨fun h => h.2, fun h => ⟨hf, h⟩⟩
  · intro f hf
    exact (hiff _).mp (List.mem_filter.mp hf).2
  · intro f
    split
    · rename_i hm
      exact List.count_filter (List.mem_filter.mp hm).2
    · rename_i hm
      exact List.count_eq_zero.mpr hm
  · simp only [formatU128, formatBitflags, h, joinFlags_eq, List.isEmpty_iff, List.map_eq_nil_iff]

example : formatU128 demoEnv 3 (some (.bitflags c!"F" [] [] none)) = some c!"A | B | AB" := by decide +kernel
example : formatU128 demoEnv 0 (some (.bitflags c!"F" [] [] none)) = some c!"NONE" := by decide +kernel
example : formatU128 demoEnv 4 (some (.bitflags c!"F" [] [] none)) = some c!"(empty)" := by decide +kernel

/-! ### C38 -/

theorem byte_cases (P : UInt8 → Prop) (h : ∀ n < 256, P (UInt8.ofNat n)) (b : UInt8) : P b := by
  have := h b.toNat b.toNat_lt
  rwa [UInt8.ofNat_toNat] at this

/-- what `readLiteralBody` does with the text of one byte -/
def readsAs (b : UInt8) : List Char → Bool
  | [c] => c ≠ '"' && c ≠ '\\' && c.toNat < 128 && UInt8.ofNat c.toNat = b
  | ['\\', e] => e ≠ 'x' && letterEscapes.lookup e = some b
  | ['\\', 'x', h, l] => match hexValue h, hexValue l with
    | some x, some y => UInt8.ofNat (16 * x + y) = b
    | _, _ => false
  | _ => false

theorem escape_reads : ∀ b, readsAs b (escapeByte b) = true :=
  byte_cases _ (by decide +kernel)

theorem read_step (b : UInt8) (cs rest : List Char) (h : readsAs b cs = true) :
    readLiteralBody (cs ++ rest) = (readLiteralBody rest).map (b :: ·) := by
  unfold readsAs at h
  split at h
  · rename_i c
    simp only [Bool.and_eq_true, decide_eq_true_eq] at h
    obtain ⟨⟨⟨h1, h2⟩, h3⟩, h4⟩ := h
    rw [List.singleton_append, readLiteralBody.eq_def]
    simp only
    rw [if_neg (by simpa using h1), if_neg (by simpa using h2), if_pos h3, h4]
  · rename_i e
    simp only [Bool.and_eq_true, decide_eq_true_eq] at h
    obtain ⟨h1, h2⟩ := h
    rw [List.cons_append, List.singleton_append, readLiteralBody.eq_def]
    simp only [show ¬ ('\\' = '"') by decide, if_false, if_true, if_neg (show ¬ (e = 'x') by simpa using h1), h2]
  · rename_i hi lo
    split at h
    · rename_i x y hx hy
      simp only [decide_eq_true_eq] at h
      simp only [List.cons_append, List.nil_append]
      rw [readLiteralBody.eq_def]
      simp only [show ¬ ('\\' = '"') by decide, if_false, if_true, hx, hy, h]
    · cases h
  · cases h

/-- **C38** The `:a` display of any bytes is printable ASCII and, read as a Rust byte string literal,
gives back the bytes. -/
theorem C38_reversible (env : Env) (bytes : List UInt8) :
    ∃ out, formatBytes env bytes (some .ascii) = some out ∧ readByteString out = some bytes ∧
      ∀ c ∈ out, ' ' ≤ c ∧ c ≤ '~' := by
  refine ⟨_, rfl, ?_, ?_⟩
  · show readLiteralBody (bytes.flatMap escapeByte ++ c!"\"") = some bytes
    induction bytes with
    | nil => rfl
    | cons b bs ih =>
      rw [List.flatMap_cons, List.append_assoc, read_step b _ _ (escape_reads b), ih]
      rfl
  · have hb : ∀ b, ∀ c ∈ escapeByte b, ' ' ≤ c ∧ c ≤ '~' := byte_cases _ (by decide +kernel)
    intro c hc
    simp only [List.mem_append, List.mem_flatMap] at hc
    rcases hc with (hc | ⟨b, _, hc⟩) | hc
    · revert c; decide
    · exact hb b c hc
    · revert c; decide

/-- **C38** (exactly) Only what has to be escaped is. -/
theorem C38_exact (env : Env) (bytes : List UInt8) :
    formatBytes env bytes (some .ascii) = some (c!"b\"" ++ bytes.flatMap literalByte ++ c!"\"") := by
  have h : ∀ b, escapeByte b = literalByte b := byte_cases (fun b => escapeByte b = literalByte b) (by decide +kernel)
  have : escapeByte = literalByte := funext h
  rw [← this]
  rfl

example : formatBytes demoEnv [0x48, 0x69, 0x22, 0x0a, 0xff, 0x7f] (some .ascii) = some c!"b\"Hi\\\"\\n\\xff\\x7f\"" := by
  decide +kernel

/-! ### C39 -/

/-- **C39** A parameter without a hint is displayed as if it had the parent's hint. -/
theorem C39_inherit (env : Env) (a : Arg) (i : Nat) (ty : Ty) (parent : Option Hint) :
    showArg env a ⟨i, ty, none⟩ parent = showArg env a ⟨i, ty, parent⟩ none := by
  cases a with
  | uxx x =>
    have : formatUxx env x ty parent parent = formatUxx env x ty parent none := by
      unfold formatUxx
      split
      · rfl
      · cases parent with
        | none => rfl
        | some h => cases h <;> rfl
    cases parent <;> exact this
  | format f args => cases parent <;> simp [showArg]
  | _ => cases parent <;> rfl

/-- **C39** (partial) A parameter with its own hint, other than `:?` on an unsigned integer, is
displayed with it whatever hint the parent has. Missing: a nested format whose parent has the `:a`
hint, which replaces its own (`C39_fails`). -/
theorem C39_own_hint_partial (env : Env) (a : Arg) (i : Nat) (ty : Ty) (h : Hint) (parent : Option Hint)
    (hd : (∃ x, a = .uxx x) → h ≠ .debug) (hf : (∃ f args, a = .format f args) → parent ≠ some .ascii) :
    showArg env a ⟨i, ty, some h⟩ parent = showArg env a ⟨i, ty, some h⟩ none := by
  cases a with
  | uxx x =>
    have hd := hd ⟨x, rfl⟩
    show formatUxx env x ty (some h) parent = formatUxx env x ty (some h) none
    unfold formatUxx
    split
    · rfl
    · cases h <;> first | rfl | exact absurd rfl hd
  | format f args =>
    have hf := hf ⟨f, args, rfl⟩
    simp [showArg, hf]
  | _ => rfl

/-- **C39** `:?` on an unsigned integer defers to the parent's hint. -/
theorem C39_debug_defers (env : Env) (x : Nat) (i : Nat) (ty : Ty) (parent : Option Hint)
    (hty : ∀ s e, ty ≠ .bitField s e) :
    showArg env (.uxx x) ⟨i, ty, some .debug⟩ parent = formatU128 env x parent := by
  show formatUxx env x ty (some .debug) parent = _
  unfold formatUxx
  split
  · rename_i s e; exact absurd rfl (hty s e)
  · rfl

/-- **C39 does not hold** for a nested format with its own hint below a parent with the `:a` hint: the
own hint is ignored. -/
theorem C39_fails :
    showArg demoEnv (.format c!"{=u8}" [.uxx 255]) ⟨0, .format, some (.hexadecimal false false 0)⟩ none = some c!"ff" ∧
    showArg demoEnv (.format c!"{=u8}" [.uxx 255]) ⟨0, .format, some (.hexadecimal false false 0)⟩ (some .ascii) =
      some c!"255" := by
  decide +kernel

/-- The hint that is in force for an argument: its own or else the parent's, with two exceptions. A nested format below `:a` is shown with
`:a`. An unsigned integer (not a bit field) with `:?` is shown with the parent's hint, except that a date is not shown as one. -/
def hintInForce : Arg → Ty → Option Hint → Option Hint → Option Hint
  | .format _ _, _, own, parent => if parent = some .ascii then parent else own <|> parent
  | .uxx _, .bitField _ _, own, parent => own <|> parent
  | .uxx _, _, some .debug, some (.iso8601 _) => none
  | .uxx _, _, some .debug, parent => parent
  | _, _, own, parent => own <|> parent

/-- **C39** Exactly: an argument is displayed as if it had the hint in force and the parent had none. -/
theorem C39_exact (env : Env) (a : Arg) (i : Nat) (ty : Ty) (own parent : Option Hint) :
    showArg env a ⟨i, ty, own⟩ parent = showArg env a ⟨i, ty, hintInForce a ty own parent⟩ none := by
  cases a with
  | uxx x =>
    show formatUxx env x ty (own <|> parent) parent = formatUxx env x ty (hintInForce (.uxx x) ty own parent <|> none) none
    have hnone : ∀ h : Option Hint, (h <|> none) = h := fun h => by cases h <;> rfl
    rw [hnone]
    cases ty with
    | bitField s e => rfl
    | _ =>
      cases own with
      | none =>
        cases parent with
        | none => rfl
        | some h => cases h <;> rfl
      | some o =>
        cases o <;> first
          | rfl
          | (cases parent with
             | none => rfl
             | some h => cases h <;> rfl)
  | format f args =>
    simp only [showArg, hintInForce]
    split
    · rename_i h; subst h; rfl
    · rw [if_neg (by simp)]
      cases own <;> cases parent <;> rfl
  | _ => cases own <;> cases parent <;> rfl

example : hintInForce (.uxx 5) .u64 (some .debug) (some (.hexadecimal true false 0)) = some (.hexadecimal true false 0) ∧
    hintInForce (.format c!"{=u8}" [.uxx 5]) .format (some .debug) (some .ascii) = some .ascii ∧
    hintInForce (.ixx 5) .i8 (some .debug) (some (.binary false 0)) = some .debug := ⟨rfl, rfl, rfl⟩

example : showArg demoEnv (.format c!"S {{ x: {=u8}, y: {=u8:x} }}" [.uxx 42, .uxx 42])
    ⟨0, .format, some (.binary false 0)⟩ none = some c!"S { x: 101010, y: 2a }" := by decide +kernel

/-! ### C22 -/

theorem testBit_displayed {s e x i : Nat} (he : e ≤ 128) (hs : s < e) :
    (displayedBits s e x).testBit i = (decide (i + s < e) && x.testBit (i + s)) := by
  unfold displayedBits
  simp only
  rw [Nat.testBit_div_two_pow, Nat.testBit_mod_two_pow, Nat.testBit_mul_two_pow]
  by_cases h : i + s < e
  · have h1 : i + (128 - e + s) < 128 := by omega
    have h2 : i + (128 - e + s) ≥ 128 - e := by omega
    have h3 : i + (128 - e + s) - (128 - e) = i + s := by omega
    simp [h, h1, h3]
    omega
  · have h1 : ¬ i + (128 - e + s) < 128 := by omega
    simp [h, h1]

theorem testBit_bitfieldValue {S E d n i : Nat} (hd : wireOctets S E = some d) (hE : E ≤ 128) (h1 : S ≤ i) (h2 : i < E) :
    (bitfieldValue S E n).testBit i = n.testBit i := by
  unfold bitfieldValue
  rw [hd]
  simp only
  rw [Nat.testBit_mod_two_pow, Nat.testBit_mul_two_pow, Nat.testBit_mod_two_pow, Nat.testBit_div_two_pow]
  have hsz : 8 * (S / 8) + 8 * d ≥ E := by
    rw [wireOctets_eq] at hd
    repeat' split at hd
    all_goals first | (simp only [Option.some.injEq] at hd; omega) | cases hd
  have a1 : i < 128 := by omega
  have a2 : 8 * (S / 8) ≤ i := by omega
  have a3 : i - 8 * (S / 8) < 8 * d := by omega
  have a4 : i - 8 * (S / 8) + 8 * (S / 8) = i := by omega
  simp [a1, a2, a3, a4]

theorem params_sub {fs : List Fragment} {p : Parameter} : p ∈ params fs ↔ .param p ∈ fs := by
  induction fs with
  | nil => simp [params]
  | cons f fs ih => cases f <;> simp [params, ih]

/-- **C22** Bitfields: whatever ranges of an argument the format string uses, in whatever order, the
host gets from the one transmitted integer exactly the bits `start..end` of the value, for each of
the ranges. -/
theorem C22_bitfields (t : Table) (e : LogEvent) (h : e.Ok t) (fs : List Fragment) (hp : parse e.call.fmt .strict = .ok fs)
    (i size n : Nat) (hv : e.call.args[i]? = some (.uint size n)) (p : Parameter) (hpm : p ∈ params fs) (hpi : p.index = i)
    (s' e' : Nat) (hty : p.ty = .bitField s' e') :
    ∃ x, e.frame.args[i]? = some (.uxx x) ∧ displayedBits s' e' x = n / 2 ^ s' % 2 ^ (e' - s') := by
  obtain ⟨_, _, ⟨tys, ht, hargs⟩, _⟩ := h
  obtain ⟨hl, _⟩ := argTypes_spec ht
  -- the type of argument i
  have htyi : ∃ S E, tys[i]? = some (.bitField S E) ∧ S ≤ s' ∧ e' ≤ E ∧ E ≤ 128 ∧ s' < e' := by
    obtain ⟨⟨k, hdense⟩, hcons⟩ := C12_indices_dense_types_consistent _ _ _ hp
    have hb := parse_bit hp
    unfold argTypes at ht
    rw [hp] at ht
    simp only at ht
    split at ht
    · cases ht
    · rename_i hne
      have hmap := allSome_eq ht
      have hi : i < tys.length := by
        rw [hl]
        exact (List.getElem?_eq_some_iff.mp hv).1
      have h1 := congrArg (fun l => l[i]?) hmap
      simp only [List.getElem?_map, List.getElem?_eq_getElem hi, Option.map_some] at h1
      have hir : i < expectedArgs (params fs) := by
        have := congrArg List.length hmap
        simp only [List.length_map, List.length_range] at this
        omega
      rw [List.getElem?_eq_getElem (by simpa using hir)] at h1
      simp only [List.getElem_range, Option.map_some, Option.some.injEq] at h1
      have hcur : argType (params fs) i = some tys[i] := by simpa using h1
      unfold argType at hcur
      cases hfind : (params fs).find? (fun p => decide (p.index = i)) with
      | none => rw [hfind] at hcur; cases hcur
      | some q =>
        rw [hfind] at hcur
        have hq := List.mem_of_find?_eq_some hfind
        have hqi : q.index = i := by simpa using List.find?_some hfind
        have hqb : ∃ a b, q.ty = .bitField a b := by
          rcases hcons q hq p hpm (by omega) with h | ⟨a, b, _, _, h, _⟩
          · exact ⟨s', e', by rw [h, hty]⟩
          · exact ⟨a, b, h⟩
        obtain ⟨a, b, hqt⟩ := hqb
        simp only [hqt] at hcur
        rw [Option.map_eq_some_iff] at hcur
        obtain ⟨r, hr, hr'⟩ := hcur
        obtain ⟨⟨_, m1⟩, ⟨_, m2⟩, m3⟩ := maxRange_some hr
        have hmem : (s', e') ∈ bitRanges ((params fs).filter (fun p => decide (p.index = i))) :=
          bitRanges_mem_iff.mpr ⟨p, List.mem_filter.mpr ⟨hpm, by simpa using hpi⟩, hty⟩
        have hm := m3 _ hmem
        obtain ⟨q2, hq2, hq2t⟩ := bitRanges_mem m2
        have hE := hb q2 (List.mem_filter.mp hq2).1 _ _ hq2t
        have hse := hb p hpm _ _ hty
        refine ⟨r.1, r.2, ?_, ?_⟩
        · rw [List.getElem?_eq_getElem hi, hr']
        · simp at hm hE hse ⊢
          omega
  obtain ⟨S, E, htyi, hS, hE, hE', hse⟩ := htyi
  have hden : ∀ (tys : List Ty) (vs : List Val) (i : Nat), ArgsOk t tys vs → tys[i]? = some (.bitField S E) →
      vs[i]? = some (.uint size n) →
      (denoteArgs tys vs)[i]? = some (.uxx (bitfieldValue S E n)) ∧ ∃ d, wireOctets S E = some d := by
    intro tys
    induction tys with
    | nil => intro vs i _ h; simp at h
    | cons ty tys ih =>
      intro vs i hok h1 h2
      cases vs with
      | nil => simp at h2
      | cons v vs =>
        rw [ArgsOk] at hok
        rw [denoteArgs]
        cases i with
        | zero =>
          simp only [List.getElem?_cons_zero, Option.some.injEq] at h1 h2 ⊢
          subst h1 h2
          simp only [ArgOk] at hok
          exact ⟨by simp [denoteArg], hok.1.2.imp fun _ h => h.1⟩
        | succ i =>
          simp only [List.getElem?_cons_succ] at h1 h2 ⊢
          exact ih vs i hok.2 h1 h2
  obtain ⟨hx, d, hd⟩ := hden tys e.call.args i hargs htyi hv
  refine ⟨bitfieldValue S E n, ?_, ?_⟩
  · simp only [LogEvent.frame, Call.denote, ht]
    exact hx
  · apply Nat.eq_of_testBit_eq
    intro j
    rw [testBit_displayed (by omega) hse, Nat.testBit_mod_two_pow, Nat.testBit_div_two_pow]
    by_cases hj : j + s' < e'
    · rw [testBit_bitfieldValue hd hE' (by omega) (by omega)]
      have : j < e' - s' := by omega
      simp [hj, this]
    · have : ¬ j < e' - s' := by omega
      simp [hj, this]

/-- The value of a range is shown as an unsigned integer with the hint. -/
theorem C22_shown (env : Env) (x i s e : Nat) (hint parent : Option Hint) (h : (hint <|> parent) ≠ some .ascii) :
    showArg env (.uxx x) ⟨i, .bitField s e, hint⟩ parent =
      formatU128 env (displayedBits s e x) (hint <|> parent) := by
  simp only [showArg, formatUxx]
  rw [if_neg h]

example : (demoEvent.frame.message demoEnv) = some c!"Some(<hé>) 5 0 [, ]" := by rfl

end Defmt
