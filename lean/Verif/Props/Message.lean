import Verif.Props.DisplaySafe
/-!
# How a line is put together: C59, C60; bitfields shown as text: C22; signed integers: C34, C35
-/

namespace Defmt

open Parser Decoder Encoder Display

/-! ### C59 -/

theorem concat_iff {xs : List (Option (List Char))} {m : List Char} :
    concat xs = some m ↔ ∃ ss : List (List Char), xs = ss.map some ∧ m = ss.flatten := by
  induction xs generalizing m with
  | nil =>
    constructor
    · intro h; cases h; exact ⟨[], rfl, rfl⟩
    · rintro ⟨ss, h, rfl⟩
      cases ss with
      | nil => rfl
      | cons _ _ => cases h
  | cons x xs ih =>
    cases x with
    | none =>
      constructor
      · intro h; cases h
      · rintro ⟨ss, h, rfl⟩
        cases ss with
        | nil => cases h
        | cons _ _ => cases h
    | some a =>
      rw [concat, Option.map_eq_some_iff]
      constructor
      · rintro ⟨r, hr, rfl⟩
        obtain ⟨ss, rfl, rfl⟩ := ih.mp hr
        exact ⟨a :: ss, rfl, rfl⟩
      · rintro ⟨ss, h, rfl⟩
        cases ss with
        | nil => cases h
        | cons b ss =>
          simp only [List.map_cons, List.cons.injEq, Option.some.injEq] at h
          obtain ⟨rfl, h⟩ := h
          exact ⟨ss.flatten, ih.mpr ⟨ss, h, rfl⟩, rfl⟩

theorem comma_iff {xs : List (Option (List Char))} {m : List Char} :
    commaSeparated xs = some m ↔ ∃ ss, xs = ss.map some ∧ m = separated c!", " ss := by
  induction xs generalizing m with
  | nil =>
    constructor
    · intro h; cases h; exact ⟨[], rfl, rfl⟩
    · rintro ⟨ss, h, rfl⟩
      cases ss with
      | nil => rfl
      | cons _ _ => cases h
  | cons x xs ih =>
    cases xs with
    | nil =>
      rw [commaSeparated]
      constructor
      · rintro rfl; exact ⟨[m], rfl, rfl⟩
      · rintro ⟨ss, h, rfl⟩
        match ss, h with
        | [s], h => simpa [separated] using h
    | cons y l =>
      rw [commaSeparated.eq_def]
      simp only
      constructor
      · intro h
        split at h
        · rename_i a r hr
          cases h
          obtain ⟨ss, hss, rfl⟩ := ih.mp hr
          refine ⟨a :: ss, by rw [hss]; rfl, ?_⟩
          cases ss with
          | nil => cases hss
          | cons s ss => rfl
        · cases h
      · rintro ⟨ss, h, rfl⟩
        match ss, h with
        | s :: s' :: ss, h =>
          simp only [List.map_cons, List.cons.injEq] at h
          obtain ⟨rfl, h1, h2⟩ := h
          rw [ih.mpr ⟨s' :: ss, by rw [h1, h2]; rfl, rfl⟩]
          simp [separated]

theorem bracketed_iff {xs : List (Option (List Char))} {m : List Char} :
    bracketed xs = some m ↔ ∃ ss, xs = ss.map some ∧ m = '[' :: separated c!", " ss ++ [']'] := by
  unfold bracketed
  rw [Option.map_eq_some_iff]
  constructor
  · rintro ⟨r, hr, rfl⟩
    obtain ⟨ss, h1, rfl⟩ := comma_iff.mp hr
    exact ⟨ss, h1, rfl⟩
  · rintro ⟨ss, h1, rfl⟩
    exact ⟨_, comma_iff.mpr ⟨ss, h1, rfl⟩, rfl⟩

theorem each_iff {α : Type} {g : α → Option (List Char)} {as : List α} {ss : List (List Char)} :
    as.map g = ss.map some ↔ Each (fun a s => g a = some s) as ss := by
  induction as generalizing ss with
  | nil =>
    constructor
    · intro h
      cases ss with
      | nil => exact .nil
      | cons _ _ => cases h
    · intro h; cases h; rfl
  | cons a as ih =>
    constructor
    · intro h
      cases ss with
      | nil => cases h
      | cons s ss =>
        simp only [List.map_cons, List.cons.injEq] at h
        exact .cons h.1 (ih.mp h.2)
    · intro h
      cases h with
      | cons h1 h2 => rw [List.map_cons, List.map_cons, h1, ih.mpr h2]

/-- a text for the parameter: the display of the argument it refers to -/
def ShownFor (env : Env) (args : List Arg) (parent : Option Hint) (p : Parameter) (s : List Char) : Prop :=
  ∃ a, args[p.index]? = some a ∧ showArg env a p parent = some s

theorem text_iff {env : Env} {f : List Char} {args : List Arg} {parent : Option Hint} {m : List Char} :
    formatArgs f (showArgs env args) parent = some m ↔
      ∃ fs, parse f .forwardsCompatible = .ok fs ∧ Filled (ShownFor env args parent) fs m := by
  have key : ∀ (fs : List Fragment) (ss : List (List Char)) ,
      fs.map (formatFragment (showArgs env args) parent) = ss.map some → Filled (ShownFor env args parent) fs ss.flatten := by
    intro fs
    induction fs with
    | nil =>
      intro ss h
      cases ss with
      | nil => exact .nil
      | cons _ _ => cases h
    | cons fr fs ih =>
      intro ss h
      cases ss with
      | nil => cases h
      | cons s ss =>
        simp only [List.map_cons, List.cons.injEq] at h
        cases fr with
        | literal t =>
          have : t = s := by simpa [formatFragment] using h.1
          subst this
          exact .literal (ih ss h.2)
        | param p =>
          refine .param ?_ (ih ss h.2)
          have h1 := h.1
          unfold formatFragment at h1
          simp only at h1
          split at h1
          · cases h1
          · rename_i sh hsh
            obtain ⟨a, ha, rfl⟩ := showArgs_at hsh
            exact ⟨a, ha, h1⟩
  have key' : ∀ (fs : List Fragment) (m : List Char), Filled (ShownFor env args parent) fs m →
      ∃ ss : List (List Char), fs.map (formatFragment (showArgs env args) parent) = ss.map some ∧ m = ss.flatten := by
    intro fs m h
    induction h with
    | nil => exact ⟨[], rfl, rfl⟩
    | @literal t fs m _ ih =>
      obtain ⟨ss, h1, rfl⟩ := ih
      exact ⟨t :: ss, by rw [List.map_cons, h1]; rfl, rfl⟩
    | @param p s fs m hs _ ih =>
      obtain ⟨ss, h1, rfl⟩ := ih
      obtain ⟨a, ha, hs⟩ := hs
      refine ⟨s :: ss, ?_, rfl⟩
      rw [List.map_cons, h1, List.map_cons]
      congr 1
      unfold formatFragment
      simp only [showArgs_eq, List.getElem?_map, ha, Option.map_some]
      exact hs
  unfold formatArgs
  constructor
  · intro h
    split at h
    · rename_i fs hp
      obtain ⟨ss, h1, rfl⟩ := concat_iff.mp h
      exact ⟨fs, hp, key fs ss h1⟩
    · cases h
  · rintro ⟨fs, hp, h⟩
    rw [hp]
    exact concat_iff.mpr (key' fs m h)

/-- **C59** The message is the text of the format string with every parameter replaced by the display
of the argument with its index, without a hint from outside. -/
theorem C59_message (env : Env) (f : Frame) (m : List Char) :
    f.message env = some m ↔
      ∃ fs, parse f.format .forwardsCompatible = .ok fs ∧ Filled (ShownFor env f.args none) fs m :=
  text_iff

/-- **C59** The timestamp is put together in the same way from its own arguments; there is none if the
table has no timestamp. -/
theorem C59_timestamp (env : Env) (f : Frame) :
    (f.timestampFormat = none → f.timestamp env = none) ∧
    ∀ fmt m, f.timestampFormat = some fmt → (f.timestamp env = some (some m) ↔
      ∃ fs, parse fmt .forwardsCompatible = .ok fs ∧ Filled (ShownFor env f.timestampArgs none) fs m) := by
  refine ⟨fun h => by simp [Frame.timestamp, h], ?_⟩
  intro fmt m h
  rw [← text_iff]
  simp [Frame.timestamp, h]

/-- the words for the levels -/
def levelNames : List (Level × List Char) :=
  [(.trace, c!"TRACE "), (.debug, c!"DEBUG "), (.info, c!"INFO "), (.warn, c!"WARN "), (.error, c!"ERROR ")]

/-- the timestamp as it begins the line -/
def TimestampText (env : Env) (f : Frame) (ts : List Char) : Prop :=
  match f.timestampFormat with
  | none => ts = []
  | some fmt => ∃ fs m, parse fmt .forwardsCompatible = .ok fs ∧ Filled (ShownFor env f.timestampArgs none) fs m ∧
      ts = m ++ [' ']

/-- the level as it precedes the message; `println!` has none -/
def LevelText (f : Frame) (lv : List Char) : Prop :=
  match f.level with
  | none => lv = []
  | some l => (l, lv) ∈ levelNames

/-- **C59** The line is timestamp, level, message. -/
theorem C59_line (env : Env) (f : Frame) (line : List Char) :
    f.display env = some line ↔
      ∃ ts lv m, TimestampText env f ts ∧ LevelText f lv ∧ f.message env = some m ∧ line = ts ++ lv ++ m := by
  have hlv : ∀ lv, LevelText f lv ↔ lv = (match f.level with | none => [] | some l => levelText l ++ [' ']) := by
    intro lv
    unfold LevelText
    cases f.level with
    | none => rfl
    | some l =>
      simp only [levelNames, List.mem_cons, Prod.mk.injEq, List.not_mem_nil, or_false]
      cases l <;> simp [levelText]
  have hts : ∀ ts, TimestampText env f ts ↔ (match f.timestampFormat with
    | none => some []
    | some fmt => (formatArgs fmt (showArgs env f.timestampArgs) none).map (· ++ [' '])) = some ts := by
    intro ts
    unfold TimestampText
    cases f.timestampFormat with
    | none =>
      simp only [Option.some.injEq]
      exact eq_comm
    | some fmt =>
      simp only [Option.map_eq_some_iff]
      constructor
      · rintro ⟨fs, m, h1, h2, rfl⟩
        exact ⟨m, text_iff.mpr ⟨fs, h1, h2⟩, rfl⟩
      · rintro ⟨m, h, rfl⟩
        obtain ⟨fs, h1, h2⟩ := text_iff.mp h
        exact ⟨fs, m, h1, h2, rfl⟩
  unfold Frame.display
  simp only
  constructor
  · intro h
    split at h
    · rename_i ts m h1 h2
      cases h
      exact ⟨ts, _, m, (hts ts).mpr h1, (hlv _).mpr rfl, h2, rfl⟩
    · cases h
  · rintro ⟨ts, lv, m, h1, h2, h3, rfl⟩
    have e1 := (hts ts).mp h1
    have e2 := (hlv lv).mp h2
    subst e2
    split
    · rename_i ts' m' h4 h5
      have h6 : some ts = some ts' := e1.symm.trans h4
      have h7 : some m = some m' := h3.symm.trans h5
      cases h6
      cases h7
      rfl
    · rename_i hno
      exact absurd h3 (hno ts m e1)

/-- **C59** A nested format is put together in the same way. -/
theorem C59_nested (env : Env) (g : List Char) (args : List Arg) (p : Parameter) (parent : Option Hint) (s : List Char) :
    showArg env (.format g args) p parent = some s ↔
      ∃ fs, parse g .forwardsCompatible = .ok fs ∧
        Filled (ShownFor env args (if parent = some .ascii then parent else p.hint <|> parent)) fs s := by
  simp only [showArg]
  exact text_iff

/-- **C59** The parts of a manual implementation follow each other directly. -/
theorem C59_sequence (env : Env) (args : List Arg) (p : Parameter) (parent : Option Hint) (s : List Char) :
    showArg env (.formatSequence args) p parent = some s ↔
      ∃ ss, Each (fun a x => showArg env a ⟨0, .format, none⟩ (p.hint <|> parent) = some x) args ss ∧ s = ss.flatten := by
  have hone : ∀ a, formatArgs c!"{=?}" [showArg env a] (p.hint <|> parent) =
      showArg env a ⟨0, .format, none⟩ (p.hint <|> parent) := by
    intro a
    unfold formatArgs
    rw [parse_eq_question]
    simp only [List.map_cons, List.map_nil, formatFragment, List.getElem?_cons_zero]
    cases showArg env a ⟨0, .format, none⟩ (p.hint <|> parent) with
    | none => rfl
    | some x => simp [concat]
  simp only [showArg, showArgs_eq, List.map_map]
  rw [concat_iff]
  have : ((fun s => formatArgs c!"{=?}" [s] (p.hint <|> parent)) ∘ showArg env) =
      fun a => showArg env a ⟨0, .format, none⟩ (p.hint <|> parent) := by
    funext a; exact hone a
  rw [this]
  constructor
  · rintro ⟨ss, h, rfl⟩; exact ⟨ss, each_iff.mp h, rfl⟩
  · rintro ⟨ss, h, rfl⟩; exact ⟨ss, each_iff.mpr h, rfl⟩

/-- **C59** Slices and arrays: the elements in order, separated by commas, in brackets (unless shown
as text with `:a`). -/
theorem C59_slice (env : Env) (elems : List Arg) (he : ∀ e ∈ elems, ∃ f as, e = .format f as) (p : Parameter)
    (parent : Option Hint) (ha : (p.hint <|> parent) ≠ some .ascii) (s : List Char) :
    showArg env (.formatSlice elems) p parent = some s ↔
      ∃ ss, Each (fun a x => showArg env a ⟨0, .format, none⟩ (p.hint <|> parent) = some x) elems ss ∧
        s = c!"[" ++ separated c!", " ss ++ c!"]" := by
  simp only [showArg]
  rw [if_neg (fun h => ha h.1), showElements_eq env elems he, bracketed_iff]
  constructor
  · rintro ⟨ss, h, rfl⟩; exact ⟨ss, each_iff.mp h, by simp⟩
  · rintro ⟨ss, h, rfl⟩; exact ⟨ss, each_iff.mpr h, by simp⟩

/-- **C59** Slices of bytes shown with `:a` are shown as one byte string. -/
theorem C59_ascii_slice (env : Env) (bytes : List UInt8) (hne : bytes ≠ []) (p : Parameter)
    (parent : Option Hint) (ha : (p.hint <|> parent) = some .ascii) :
    showArg env (.formatSlice (bytes.map (fun b => .format c!"{=u8}" [.uxx b.toNat]))) p parent =
      showArg env (.slice bytes) p parent := by
  have hall : ∀ bs : List UInt8, allBytes (bs.map (fun b => Arg.format c!"{=u8}" [.uxx b.toNat])) = some bs := by
    intro bs
    induction bs with
    | nil => rfl
    | cons b bs ih =>
      rw [List.map_cons, allBytes, ih]
      have : b.toNat < 256 := b.toNat_lt
      simp [elementByte, this]
  have hany : (bytes.map (fun b => Arg.format c!"{=u8}" [.uxx b.toNat])).any isU8Element = true := by
    cases bytes with
    | nil => exact absurd rfl hne
    | cons b bs => simp [isU8Element]
  simp only [showArg]
  rw [if_pos ⟨ha, hany⟩, hall]

/-- **C59** Booleans, characters and text. `:?` asks for Rust's debug output of text. -/
theorem C59_plain (env : Env) (p : Parameter) (parent : Option Hint) :
    showArg env (.bool true) p parent = some c!"true" ∧ showArg env (.bool false) p parent = some c!"false" ∧
    (∀ c, showArg env (.char c) p parent = some [c]) ∧
    ∀ s, ∀ a ∈ [Arg.str s, .istr s, .preformatted s],
      showArg env a p parent = some (if (p.hint <|> parent) = some .debug then env.debugStr s else s) := by
  refine ⟨rfl, rfl, fun _ => rfl, ?_⟩
  intro s a ha
  simp only [List.mem_cons, List.not_mem_nil, or_false] at ha
  rcases ha with rfl | rfl | rfl <;> simp [showArg, formatStr]

example : demoEvent.frame.display demoEnv = some c!"0.001000 WARN Some(<hé>) 5 0 [, ]" := by rfl

/-! ### C60 -/

/-- **C60** Byte slices with a hint for numbers: every byte in order, shown with the hint. -/
theorem C60_bytes (env : Env) (bytes : List UInt8) (p : Parameter) (parent : Option Hint) (al pre : List Char) (w : Nat)
    (hint : Option Hint) (hh : (p.hint <|> parent) = hint)
    (h : Hint.Asks hint al pre w) (hno : ∀ w, hint ≠ some (.noHint w)) (hw : w ≤ env.maxWidth) :
    ∃ ss, Each (fun (b : UInt8) s => NumberText al pre w b.toNat s) bytes ss ∧
      showArg env (.slice bytes) p parent = some (c!"[" ++ separated c!", " ss ++ c!"]") := by
  have key : ∀ (g : UInt8 → Option (List Char)), (∀ b, ∃ out, g b = some out ∧ NumberText al pre w b.toNat out) →
      ∃ ss, Each (fun (b : UInt8) s => NumberText al pre w b.toNat s) bytes ss ∧
        bracketed (bytes.map g) = some (c!"[" ++ separated c!", " ss ++ c!"]") := by
    intro g hg
    have : ∃ ss, Each (fun (b : UInt8) s => NumberText al pre w b.toNat s) bytes ss ∧ bytes.map g = ss.map some := by
      induction bytes with
      | nil => exact ⟨[], .nil, rfl⟩
      | cons b bs ih =>
        obtain ⟨ss, h1, h2⟩ := ih
        obtain ⟨o, h3, h4⟩ := hg b
        exact ⟨o :: ss, .cons h4 h1, by rw [List.map_cons, h2, h3]; rfl⟩
    obtain ⟨ss, h1, h2⟩ := this
    exact ⟨ss, h1, bracketed_iff.mpr ⟨ss, h2, by simp⟩⟩
  simp only [showArg, hh]
  have hu : ∀ b : UInt8, ∃ out, formatU128 env b.toNat hint = some out ∧ NumberText al pre w b.toNat out :=
    fun b => C34_unsigned env b.toNat hint al pre w h hw
  match hint, h, hno, hu with
  | none, h, _, _ =>
    obtain ⟨rfl, rfl, rfl⟩ := h
    exact key _ fun b => ⟨_, rfl, 0, digits 10 b.toNat, rfl, numeral_decimal _, by simp⟩
  | some (.noHint w), _, hno, _ => exact absurd rfl (hno w)
  | some (.binary alt p), h, _, hu => exact key _ hu
  | some (.octal alt p), h, _, hu => exact key _ hu
  | some (.hexadecimal alt upper p), h, _, hu => exact key _ hu

example : showArg demoEnv (.slice [1, 255]) ⟨0, .u8Slice, some (.hexadecimal true false 4)⟩ none =
    some c!"[0x01, 0xff]" := by decide +kernel

/-! ### C22, shown as text -/

/-- the `k` bytes of a number, most significant byte first -/
def bigEndian (k n : Nat) : List UInt8 := (List.range k).map (fun i => UInt8.ofNat (n / 256 ^ (k - 1 - i) % 256))

theorem beBytes_eq (k n : Nat) : beBytes k n = bigEndian k n := by
  induction k generalizing n with
  | zero => rfl
  | succ k ih =>
    unfold bigEndian
    rw [beBytes, ih, List.range_succ, List.map_append]
    congr 1
    · unfold bigEndian
      apply List.map_congr_left
      intro i hi
      have : i < k := List.mem_range.mp hi
      rw [Nat.div_div_eq_div_mul, show k + 1 - 1 - i = (k - 1 - i) + 1 by omega, Nat.pow_succ, Nat.mul_comm 256]
    · simp

/-- **C22** A range shown with `:a` is shown as the bytes of its value, most significant first, as
many as needed for the range. -/
theorem C22_shown_as_text (env : Env) (x i s e : Nat) (he : e ≤ 128) (hse : s < e) (hint parent : Option Hint)
    (h : (hint <|> parent) = some .ascii) :
    showArg env (.uxx x) ⟨i, .bitField s e, hint⟩ parent =
      showArg env (.slice (bigEndian ((e - s + 7) / 8) (displayedBits s e x))) ⟨i, .bitField s e, hint⟩ parent := by
  simp only [showArg, formatUxx]
  rw [if_pos h, beBytes_eq]
  congr 1
  generalize displayedBits s e x = n
  unfold bigEndian
  rw [← List.map_drop, List.range_eq_range', List.drop_range', List.range'_eq_map_range, List.map_map]
  have hk : 16 - (128 - e + s) / 8 = (e - s + 7) / 8 := by omega
  rw [show 16 - (128 - e + s) / 8 = (e - s + 7) / 8 from hk]
  apply List.map_congr_left
  intro j hj
  have : j < (e - s + 7) / 8 := List.mem_range.mp hj
  simp only [Function.comp]
  congr 4
  omega

example : showArg demoEnv (.uxx 0x414243) ⟨0, .bitField 8 24, some .ascii⟩ none = some c!"b\"AB\"" := by decide +kernel

/-! ### C34, C35: signed integers without or with other hints -/

/-- **C34** Signed integers with no hint or `:?`: minus sign and numeral. -/
theorem C34_signed_plain (env : Env) (x : Int) (ty : Ty) (hint : Option Hint) (hh : hint = none ∨ hint = some .debug) :
    ∃ out, formatI128 env x ty hint = some out ∧
      NumberText decimalDigits (if x < 0 then ['-'] else []) 0 x.natAbs out := by
  refine ⟨(if x < 0 then ['-'] else []) ++ digits 10 x.natAbs, ?_, ?_⟩
  · rcases hh with rfl | rfl <;> rfl
  · have := written_pad (pre := if x < 0 then ['-'] else []) (width := 0) (numeral_decimal x.natAbs)
    simpa using this

/-- **C35** In binary and octal every signed integer is shown as 128 bit two's complement. -/
theorem C35_signed_radix (env : Env) (ty : Ty) (x : Int) (h1 : -2 ^ 127 ≤ x) (h2 : x < 2 ^ 127)
    (alt : Bool) (w : Nat) (hw : w ≤ env.maxWidth) :
    ∃ (n : Nat), (n : Int) = (if x < 0 then x + 2 ^ 128 else x) ∧
      (∃ out, formatI128 env x ty (some (.binary alt w)) = some out ∧
        NumberText binaryDigits (if alt then c!"0b" else []) w n out) ∧
      ∃ out, formatI128 env x ty (some (.octal alt w)) = some out ∧
        NumberText octalDigits (if alt then c!"0o" else []) w n out := by
  have hn : ((twosComplement 128 x : Nat) : Int) = if x < 0 then x + 2 ^ 128 else x := by
    unfold twosComplement
    rw [Int.toNat_of_nonneg (Int.emod_nonneg _ (by decide))]
    split
    · have : x % 2 ^ 128 = (x + 2 ^ 128) % 2 ^ 128 := by simp
      rw [this, Int.emod_eq_of_lt (by omega) (by omega)]
    · rw [Int.emod_eq_of_lt (by omega) (by omega)]
  refine ⟨twosComplement 128 x, hn, ?_, ?_⟩
  · simp only [formatI128]
    unfold padIntegral
    rw [if_neg (by omega)]
    refine ⟨_, rfl, ?_⟩
    have := written_pad (pre := if alt then c!"0b" else []) (width := w) (numeral_binary (twosComplement 128 x))
    simpa [alternatePrefix] using this
  · simp only [formatI128]
    unfold padIntegral
    rw [if_neg (by omega)]
    refine ⟨_, rfl, ?_⟩
    have := written_pad (pre := if alt then c!"0o" else []) (width := w) (numeral_octal (twosComplement 128 x))
    simpa [alternatePrefix] using this

/-- `C59_slice`, `C59_ascii_slice`: a slice of `u8` values with and without `:a` -/
example : showArg demoEnv (.formatSlice ([104, 105].map (fun b => .format c!"{=u8}" [.uxx b]))) ⟨0, .formatSlice, none⟩ none = some c!"[104, 105]" ∧
    showArg demoEnv (.formatSlice ([104, 105].map (fun b => .format c!"{=u8}" [.uxx b]))) ⟨0, .formatSlice, some .ascii⟩ none = some c!"b\"hi\"" := by
  decide +kernel

/-- `C34_signed_plain` and `C35_signed_radix` at the lower end of the range -/
example : formatI128 demoEnv (-2 ^ 127) .i128 none = some c!"-170141183460469231731687303715884105728" ∧
    formatI128 demoEnv (-2 ^ 127) .i128 (some (.octal true 0)) = some c!"0o2000000000000000000000000000000000000000000" := by decide +kernel

end Defmt
