import Verif.Lemmas.RoundTrip
import Verif.Props.Decoder
import Verif.Props.Framing
/-!
# Properties of logging and decoding: C19-C27, C32
-/

namespace Defmt

open Parser Decoder Encoder

/-! ### C23 -/

theorem call_ok {t : Table} {c : Call} (h : c.Ok t) :
    ∃ d, c.encode = some d ∧ ∃ N, ∀ fuel ≥ N, ∀ rest, decodeFormat t fuel c.fmt (d ++ rest) = .ok c.denote rest := by
  obtain ⟨tys, ht, ha⟩ := h
  obtain ⟨d, hd, N, hN⟩ := args_ok t tys c.args ha
  refine ⟨d, by unfold Call.encode; rw [ht]; exact hd, N + 1, ?_⟩
  have : c.denote = denoteArgs tys c.args := by unfold Call.denote; rw [ht]
  rw [this]
  exact fmt_ok ht hN

/-- **C23** For every log statement the macros accept (any format string, any arguments of any
nesting, with or without timestamp), the host decodes exactly the frame that was logged, with the
arguments in argument order, and consumes exactly the bytes sent, whatever bytes follow. -/
theorem C23_log_roundtrip (t : Table) (e : LogEvent) (h : e.Ok t) :
    ∃ bytes, e.bytes = some bytes ∧ ∀ rest, t.decode (bytes ++ rest) = some (.ok (e.frame, bytes.length)) := by
  obtain ⟨hi, he, hc, hts⟩ := h
  obtain ⟨d, hd, N, hN⟩ := call_ok hc
  have fin : ∀ (bytes : List UInt8), (∃ K, ∀ fuel ≥ K, ∀ rest, t.decodeFrame fuel (bytes ++ rest) = .ok e.frame rest) →
      ∀ rest, t.decode (bytes ++ rest) = some (.ok (e.frame, bytes.length)) := by
    rintro bytes ⟨K, hK⟩ rest
    have := decode_of_ok (k := K + (bytes ++ rest).length + 1) (by omega) (hK _ (by omega) rest)
    rw [this]; simp
  have hw : t.getWithLevel e.index = some (e.tag.toLevel, e.call.fmt) := by
    unfold Table.getWithLevel; rw [he]
  cases hets : e.ts with
  | none =>
    cases htt : t.timestamp with
    | some x => rw [hets, htt] at hts; exact hts.elim
    | none =>
      refine ⟨le 2 e.index ++ d, by unfold LogEvent.bytes encodeLog; rw [hets, hd]; rfl, fin _ ⟨N, ?_⟩⟩
      intro fuel hf rest
      unfold Table.decodeFrame
      rw [List.append_assoc, bind_of_ok (readUInt_le' (by simpa using hi) _)]
      unfold Table.decodeTimestamp
      rw [htt, bind_of_ok (pure_apply _ _)]
      simp only
      rw [hw,
        bind_of_ok (show orMalformed (some (e.tag.toLevel, e.call.fmt)) _ = .ok _ _ from rfl),
        bind_of_ok (hN fuel hf rest), pure_apply]
      simp [LogEvent.frame, hets]
  | some c =>
    cases htt : t.timestamp with
    | none => rw [hets, htt] at hts; exact hts.elim
    | some x =>
      rw [hets, htt] at hts
      obtain ⟨hx, hco⟩ := hts
      obtain ⟨d', hd', N', hN'⟩ := call_ok hco
      refine ⟨le 2 e.index ++ d' ++ d, by unfold LogEvent.bytes encodeLog; rw [hets]; simp only [hd, hd'],
        fin _ ⟨max N N', ?_⟩⟩
      intro fuel hf rest
      unfold Table.decodeFrame
      rw [List.append_assoc, List.append_assoc, bind_of_ok (readUInt_le' (by simpa using hi) _)]
      unfold Table.decodeTimestamp
      rw [htt]
      simp only
      rw [hx, bind_of_ok (by rw [bind_of_ok (hN' fuel (by omega) _)]; exact pure_apply _ _)]
      simp only
      rw [hw, bind_of_ok (show orMalformed (some (e.tag.toLevel, e.call.fmt)) _ = .ok _ _ from rfl),
        bind_of_ok (hN fuel (by omega) rest), pure_apply]
      simp [LogEvent.frame, hets]

/-- a program with nested values, used in the example -/
def demoTable : Table where
  timestamp := some ⟨.timestamp, c!"{=u32:us}"⟩
  entries := fun i =>
    if i = 1 then some ⟨.warn, c!"{1=?} {0=0..4} {0=8..12} {2=[?]}"⟩
    else if i = 2 then some ⟨.derived, c!"None|Some({=?})"⟩
    else if i = 3 then some ⟨.prim, c!"{=__internal_FormatSequence}"⟩
    else if i = 4 then some ⟨.write, c!"<{=str}>"⟩
    else none

def demoEvent : LogEvent where
  index := 1
  tag := .warn
  ts := some ⟨c!"{=u32:us}", [.uint 4 1000]⟩
  call := ⟨c!"{1=?} {0=0..4} {0=8..12} {2=[?]}",
    [.uint 2 0x0a5,
     .variant 2 [c!"None", c!"Some({=?})"] 1 [.manual 3 [.formatted 4 c!"<{=str}>" [.str c!"hé"]]],
     .slice 3 c!"{=__internal_FormatSequence}" [.manual 3 [], .manual 3 []]]⟩

/-- the hypothesis of C23 holds for a statement with a merged bitfield, an enum containing a manual
implementation, and a slice of manual implementations -/
theorem demoEvent_ok : demoEvent.Ok demoTable := by
  have l : ∀ i s, i < 2 ^ 16 → demoTable.getWithoutLevel i = some s → Linked demoTable i s := fun i s h h' => ⟨h, h'⟩
  refine ⟨by decide, rfl, ⟨[.bitField 0 12, .format, .formatSlice], by decide +kernel, ?_⟩, rfl,
    [.u32], by decide +kernel, ?_⟩
  · simp only [demoEvent, ArgsOk, ArgOk]
    refine ⟨⟨by decide, 2, by decide, by decide, by decide⟩, ⟨?_, 2, c!"None|Some({=?})", ⟨rfl, by decide⟩,
      l _ _ (by decide) rfl⟩, ⟨?_, by decide, l _ _ (by decide) rfl, ?_⟩, trivial⟩
    · simp only [ValOk]
      refine ⟨by decide, by decide, by decide, by decide, _, rfl, [.format], by decide +kernel, ?_⟩
      simp only [ArgsOk, ArgOk, ValOk, WritesOk]
      refine ⟨⟨⟨⟨by decide, l _ _ (by decide) rfl, [.str], by decide +kernel, ?_⟩, trivial⟩, 3, _, ⟨rfl, rfl⟩,
        l _ _ (by decide) rfl⟩, trivial⟩
      simp only [ArgsOk, ArgOk]
      exact ⟨by decide +kernel, trivial⟩
    · simp only [ValOk, ElemsOk, WritesOk, and_self]
    · intro v hv
      simp only [List.mem_cons, List.not_mem_nil, or_false, or_self] at hv
      subst hv
      exact ⟨rfl, rfl⟩
  · simp only [ArgsOk, ArgOk]
    exact ⟨by decide, trivial⟩

example : demoEvent.bytes = some [1, 0, 0xe8, 3, 0, 0, 0xa5, 0, 2, 0, 1, 3, 0, 4, 0, 3, 0, 0, 0, 0x68, 0xc3, 0xa9, 0, 0,
    2, 0, 0, 0, 3, 0, 0, 0, 0, 0] := by rfl

/-! ### single arguments: C19-C21, C26, C27 -/

theorem oneParam_types {ty : Ty} (hv : ty.Valid) (hs : ty ≠ .formatSequence) :
    argTypes (oneParam ty) 1 = some [ty] := by
  have b := C18_single_parameter .strict ⟨none, some ty, 0, none⟩ ⟨by simp, by simpa using hv, by simp⟩ (Or.inl rfl)
  simp only [Written.text, indexPart, typePart, hintPart, Written.type, List.nil_append, List.append_nil,
    List.cons_append] at b
  unfold argTypes oneParam
  rw [List.cons_append, List.cons_append, b]
  simp only [params, expectedArgs, List.map_cons, List.map_nil, List.foldl_cons, List.foldl_nil]
  have : argType [⟨0, ty, none⟩] 0 = some ty := by
    cases ty <;> first | rfl | exact absurd rfl hs
  simp [this, allSome, List.range_succ]

theorem stamped_ok {t : Table} {ts : Option Call} {sent : List UInt8} (h : Stamped t ts sent) {index : Nat} (hi : index < 2 ^ 16)
    {stmt : Tag} {c : Call} (hx : t.entries index = some ⟨stmt, c.fmt⟩) (hc : c.Ok t) : LogEvent.Ok t ⟨index, stmt, ts, c⟩ := by
  refine ⟨hi, hx, hc, ?_⟩
  cases ts with
  | none => simp only [h.1]
  | some c =>
    obtain ⟨⟨tag, h1⟩, h2, _⟩ := h
    simp only [h1]
    exact ⟨trivial, h2⟩

/-- a log statement, with or without timestamp -/
theorem log_stamped {t : Table} {ts : Option Call} {sent : List UInt8} (h : Stamped t ts sent) {index : Nat} (hi : index < 2 ^ 16)
    {stmt : Tag} {c : Call} (hx : t.entries index = some ⟨stmt, c.fmt⟩) (hc : c.Ok t) {d : List UInt8} (hd : c.encode = some d)
    (rest : List UInt8) :
    t.decode (le 2 index ++ sent ++ d ++ rest) =
      some (.ok ({ level := stmt.toLevel, index, timestampFormat := ts.map Call.fmt, timestampArgs := stampArgs ts,
                   format := c.fmt, args := c.denote }, 2 + sent.length + d.length)) := by
  obtain ⟨bytes, h1, h2⟩ := C23_log_roundtrip t ⟨index, stmt, ts, c⟩ (stamped_ok h hi hx hc)
  have hb : bytes = le 2 index ++ sent ++ d := by
    unfold LogEvent.bytes encodeLog at h1
    cases ts with
    | none => simp only [hd, Option.map_some, Option.some.injEq] at h1; rw [← h1, h.2, List.append_nil]
    | some c' => simp only [hd, h.2.2, Option.some.injEq] at h1; exact h1.symm
  subst hb
  rw [h2 rest]
  have : (LogEvent.frame ⟨index, stmt, ts, c⟩) =
      { level := stmt.toLevel, index, timestampFormat := ts.map Call.fmt, timestampArgs := stampArgs ts,
        format := c.fmt, args := c.denote } := by
    cases ts <;> rfl
  rw [this]
  simp only [List.length_append, le_length]

theorem shows_of_ok {t : Table} {ty : Ty} {v : Val} {a : Arg} (hv : ty.Valid) (hs : ty ≠ .formatSequence)
    (hok : ArgOk t ty v (ValOk t v)) (ha : denoteArg ty v (denote v) = a) : Shows t ty v a := by
  intro tag index ts sent hi ht he
  have hty := oneParam_types hv hs
  obtain ⟨bytes, h1, h2⟩ := C23_log_roundtrip t ⟨index, tag, ts, ⟨oneParam ty, [v]⟩⟩
    (stamped_ok ht hi he ⟨[ty], hty, by rw [ArgsOk, ArgsOk]; exact ⟨hok, trivial⟩⟩)
  refine ⟨bytes, h1, ?_⟩
  intro rest
  rw [h2 rest]
  have hd : Call.denote ⟨oneParam ty, [v]⟩ = [a] := by
    simp only [Call.denote]
    rw [show [v].length = 1 from rfl, hty]
    simp only [denoteArgs, ha]
  unfold LogEvent.frame
  simp only [hd]
  cases ts <;> rfl

/-- **C19** Every integer of every width and every float bit pattern is decoded to the same value. -/
theorem C19_numbers (t : Table) :
    (∀ n < 2 ^ 8, Shows t .u8 (.uint 1 n) (.uxx n)) ∧
    (∀ n < 2 ^ 16, Shows t .u16 (.uint 2 n) (.uxx n)) ∧
    (∀ n < 2 ^ 32, Shows t .u32 (.uint 4 n) (.uxx n)) ∧
    (∀ n < 2 ^ 64, Shows t .u64 (.uint 8 n) (.uxx n)) ∧
    (∀ n < 2 ^ 128, Shows t .u128 (.uint 16 n) (.uxx n)) ∧
    (∀ i : Int, -2 ^ 7 ≤ i → i < 2 ^ 7 → Shows t .i8 (.sint 1 i) (.ixx i)) ∧
    (∀ i : Int, -2 ^ 15 ≤ i → i < 2 ^ 15 → Shows t .i16 (.sint 2 i) (.ixx i)) ∧
    (∀ i : Int, -2 ^ 31 ≤ i → i < 2 ^ 31 → Shows t .i32 (.sint 4 i) (.ixx i)) ∧
    (∀ i : Int, -2 ^ 63 ≤ i → i < 2 ^ 63 → Shows t .i64 (.sint 8 i) (.ixx i)) ∧
    (∀ i : Int, -2 ^ 127 ≤ i → i < 2 ^ 127 → Shows t .i128 (.sint 16 i) (.ixx i)) ∧
    (∀ b < 2 ^ 32, Shows t .f32 (.f32 b) (.f32 b)) ∧
    (∀ b < 2 ^ 64, Shows t .f64 (.f64 b) (.f64 b)) :=
  ⟨fun _ h => shows_of_ok trivial (by simp) h rfl, fun _ h => shows_of_ok trivial (by simp) h rfl,
   fun _ h => shows_of_ok trivial (by simp) h rfl, fun _ h => shows_of_ok trivial (by simp) h rfl,
   fun _ h => shows_of_ok trivial (by simp) h rfl,
   fun _ h h' => shows_of_ok trivial (by simp) ⟨h, h'⟩ rfl, fun _ h h' => shows_of_ok trivial (by simp) ⟨h, h'⟩ rfl,
   fun _ h h' => shows_of_ok trivial (by simp) ⟨h, h'⟩ rfl, fun _ h h' => shows_of_ok trivial (by simp) ⟨h, h'⟩ rfl,
   fun _ h h' => shows_of_ok trivial (by simp) ⟨h, h'⟩ rfl,
   fun _ h => shows_of_ok trivial (by simp) h rfl, fun _ h => shows_of_ok trivial (by simp) h rfl⟩

/-- the hypotheses in `Shows` are met by a table with one entry -/
example : ∃ bytes, encodeLog 5 none ⟨oneParam .i16, [.sint 2 (-2)]⟩ = some bytes ∧
    Table.decode ⟨none, fun i => if i = 5 then some ⟨.error, oneParam .i16⟩ else none⟩ (bytes ++ [1, 2, 3]) =
      some (.ok ({ level := some .error, index := 5, timestampFormat := none, timestampArgs := [],
                   format := c!"{=i16}", args := [.ixx (-2)] }, 4)) := by
  refine ⟨[5, 0, 0xfe, 0xff], by decide +kernel, by rfl⟩

/-- ... and by one with a timestamp in addition -/
example : Stamped ⟨some ⟨.timestamp, c!"{=u32:us}"⟩, fun i => if i = 5 then some ⟨.error, oneParam .i16⟩ else none⟩
    (some ⟨c!"{=u32:us}", [.uint 4 7]⟩) [7, 0, 0, 0] :=
  ⟨⟨.timestamp, rfl⟩, ⟨[.u32], by decide +kernel, by simp [ArgsOk, ArgOk]⟩, by decide +kernel⟩

/-- **C20** (partial) Pointer sized integers that fit in 32 bits (all of them on 16 and 32 bit
targets) are decoded to the same value. Missing: 64 bit targets, see `C20_fails`. -/
theorem C20_pointer_sized_partial (t : Table) :
    (∀ n < 2 ^ 32, Shows t .usize (.usize n) (.uxx n)) ∧
    (∀ i : Int, -2 ^ 31 ≤ i → i < 2 ^ 31 → Shows t .isize (.isize i) (.ixx i)) :=
  ⟨fun _ h => shows_of_ok trivial (by simp) h rfl, fun _ h h' => shows_of_ok trivial (by simp) ⟨h, h'⟩ rfl⟩

theorem le_congr : ∀ (k m n : Nat), m % 256 ^ k = n % 256 ^ k → le k m = le k n := by
  intro k
  induction k with
  | zero => intro m n _; rfl
  | succ k ih =>
    intro m n h
    simp only [le]
    have h0 : m % 256 = n % 256 := by
      have := congrArg (· % 256) h
      simpa [Nat.pow_succ', Nat.mod_mul_right_mod] using this
    have h1 : m / 256 % 256 ^ k = n / 256 % 256 ^ k := by
      have := congrArg (· / 256) h
      simpa [Nat.pow_succ', Nat.mod_mul_right_div_self] using this
    rw [h0, ih _ _ h1]

/-- what is sent for a pointer sized integer depends on its low 32 bits only -/
theorem encodeLog_pointer_sized (index : Nat) (ts : Option Call) (fmt : List Char) :
    (∀ m n : Nat, m % 2 ^ 32 = n % 2 ^ 32 → encodeLog index ts ⟨fmt, [.usize m]⟩ = encodeLog index ts ⟨fmt, [.usize n]⟩) ∧
    (∀ i j : Int, i % 2 ^ 32 = j % 2 ^ 32 → encodeLog index ts ⟨fmt, [.isize i]⟩ = encodeLog index ts ⟨fmt, [.isize j]⟩) := by
  have key : ∀ v w : Val, (∀ tys, encodeArgs tys [v] = encodeArgs tys [w]) → encodeLog index ts ⟨fmt, [v]⟩ = encodeLog index ts ⟨fmt, [w]⟩ := by
    intro v w h
    unfold encodeLog Call.encode
    simp only [List.length_singleton]
    cases argTypes fmt 1 with
    | none => rfl
    | some tys => simp only [h tys]
  constructor
  · intro m n h
    have hle : le 4 m = le 4 n := le_congr 4 m n h
    refine key _ _ fun tys => ?_
    cases tys with
    | nil => rfl
    | cons ty tys =>
      simp only [encodeArgs, formatData]
      rw [show encodeArg ty (.usize m) none = encodeArg ty (.usize n) none by cases ty <;> first | rfl | (simp only [encodeArg, hle])]
  · intro i j h
    have hle : leInt 4 i = leInt 4 j := by unfold leInt; rw [show i % 2 ^ (8 * 4) = j % 2 ^ (8 * 4) from h]
    refine key _ _ fun tys => ?_
    cases tys with
    | nil => rfl
    | cons ty tys =>
      simp only [encodeArgs, formatData]
      rw [show encodeArg ty (.isize i) none = encodeArg ty (.isize j) none by cases ty <;> first | rfl | (simp only [encodeArg, hle])]

/-- **C20** Exactly what is decoded, on all targets: the low 32 bits of the value, for `isize` as a signed number of 32 bits. -/
theorem C20_exact (t : Table) :
    (∀ n, Shows t .usize (.usize n) (.uxx (n % 2 ^ 32))) ∧
    (∀ i j : Int, -2 ^ 31 ≤ j → j < 2 ^ 31 → (∃ k, i = j + 2 ^ 32 * k) → Shows t .isize (.isize i) (.ixx j)) := by
  obtain ⟨h1, h2⟩ := C20_pointer_sized_partial t
  constructor
  · intro n tag index ts sent hi ht he
    obtain ⟨bytes, hb⟩ := h1 (n % 2 ^ 32) (Nat.mod_lt _ (by decide)) tag index ts sent hi ht he
    rw [(encodeLog_pointer_sized index _ _).1 (n % 2 ^ 32) n (Nat.mod_mod _ _)] at hb
    exact ⟨bytes, hb⟩
  · rintro i j hj hj' ⟨k, rfl⟩ tag index ts sent hi ht he
    obtain ⟨bytes, hb⟩ := h2 j hj hj' tag index ts sent hi ht he
    rw [(encodeLog_pointer_sized index _ _).2 j (j + 2 ^ 32 * k) (by omega)] at hb
    exact ⟨bytes, hb⟩

/-- **C20 does not hold** for 64 bit targets: values that differ by a multiple of 2^32 send the same
bytes. -/
theorem C20_fails (index : Nat) (ts : Option Call) (fmt : List Char) :
    (∀ n : Nat, encodeLog index ts ⟨fmt, [.usize (n + 2 ^ 32)]⟩ = encodeLog index ts ⟨fmt, [.usize n]⟩) ∧
    (∀ i : Int, encodeLog index ts ⟨fmt, [.isize (i + 2 ^ 32)]⟩ = encodeLog index ts ⟨fmt, [.isize i]⟩) :=
  ⟨fun n => (encodeLog_pointer_sized index ts fmt).1 _ _ (by omega), fun i => (encodeLog_pointer_sized index ts fmt).2 _ _ (by omega)⟩

/-- **C21** Every bool, char, string, interned string, byte slice and byte array is decoded to the
same value. -/
theorem C21_text_and_bytes (t : Table) :
    (∀ b, Shows t .bool (.bool b) (.bool b)) ∧
    (∀ c, Shows t .char (.char c) (.char c)) ∧
    (∀ s, (utf8 s).length < 2 ^ 32 → Shows t .str (.str s) (.str s)) ∧
    (∀ a s, Linked t a s → Shows t .istr (.istr a s) (.istr s)) ∧
    (∀ bs, bs.length < 2 ^ 32 → Shows t .u8Slice (.bytes bs) (.slice bs)) ∧
    (∀ bs, bs.length < 2 ^ 64 → Shows t (.u8Array bs.length) (.bytes bs) (.slice bs)) :=
  ⟨fun _ => shows_of_ok trivial (by simp) trivial rfl, fun _ => shows_of_ok trivial (by simp) trivial rfl,
   fun _ h => shows_of_ok trivial (by simp) h rfl, fun _ _ h => shows_of_ok trivial (by simp) h rfl,
   fun _ h => shows_of_ok trivial (by simp) h rfl, fun _ h => shows_of_ok h (by simp) rfl rfl⟩

/-- **C26** Text formatted on the target with `core::fmt` is recovered exactly. -/
theorem C26_preformatted (t : Table) (s : List Char) :
    Shows t .debug (.text s) (.preformatted s) ∧ Shows t .display (.text s) (.preformatted s) :=
  ⟨shows_of_ok trivial (by simp) trivial rfl, shows_of_ok trivial (by simp) trivial rfl⟩

/-- **C26** `core::fmt` may hand the text over in any number of fragments; each fragment is written as
it comes, then the terminator. The terminator does not occur in any text. -/
theorem C26_fragments (frags : List (List Char)) :
    encodeArg .debug (.text frags.flatten) none = some (frags.flatMap utf8 ++ [0xff]) ∧
    encodeArg .display (.text frags.flatten) none = some (frags.flatMap utf8 ++ [0xff]) ∧
      0xff ∉ frags.flatMap utf8 := by
  have hj : frags.flatMap utf8 = utf8 frags.flatten := by
    induction frags with
    | nil => rfl
    | cons f fs ih => rw [List.flatMap_cons, ih, List.flatten_cons, utf8_append]
  rw [hj]
  refine ⟨rfl, rfl, ?_⟩
  intro h
  have := utf8_lt _ _ h
  exact absurd this (by decide)

/-- **C27** The `write!` calls of a manual implementation are recovered in order and exactly as many
as were made, wherever the value is logged. -/
theorem C27_manual (t : Table) (tag : Nat) (writes : List Val) (h : WritesOk t writes)
    (hl : Linked t tag sequenceFormat) :
    Shows t .format (.manual tag writes) (.format sequenceFormat [.formatSequence (denoteAll writes)]) ∧
      (denoteAll writes).length = writes.length := by
  refine ⟨shows_of_ok trivial (by simp) ⟨by rw [ValOk]; exact h, tag, sequenceFormat, ⟨rfl, rfl⟩, hl⟩
    (by simp only [denoteArg, denote]), ?_⟩
  clear h
  induction writes with
  | nil => rfl
  | cons v vs ih => simp [denoteAll, ih]

/-- the hypotheses are met by an implementation with two `write!` calls -/
example : WritesOk demoTable [.formatted 4 c!"<{=str}>" [.str c!"hé"], .formatted 4 c!"<{=str}>" [.str []]] ∧ Linked demoTable 3 sequenceFormat := by
  have l : Linked demoTable 4 c!"<{=str}>" := ⟨by decide, rfl⟩
  refine ⟨?_, by decide, rfl⟩
  simp only [WritesOk, ValOk]
  exact ⟨⟨by decide, l, [.str], by decide +kernel, by simp only [ArgsOk, ArgOk]; exact ⟨by decide +kernel, trivial⟩⟩,
    ⟨by decide, l, [.str], by decide +kernel, by simp only [ArgsOk, ArgOk]; exact ⟨by decide +kernel, trivial⟩⟩, trivial⟩

/-- The i-th recovered write is the i-th write. -/
theorem C27_order (writes : List Val) (i : Nat) : (denoteAll writes)[i]? = writes[i]?.map denote := by
  induction writes generalizing i with
  | nil => simp [denoteAll]
  | cons v vs ih =>
    cases i with
    | zero => simp [denoteAll]
    | succ i => simp [denoteAll, ih]

/-! ### C24 -/

/-- **C24** (partial) The discriminant written and the discriminant read have the same width for every
number of variants except 2^8, 2^16 and 2^32 (see `C24_fails`). With a single variant nothing is
written, and nothing is read as the format string has no `|`. -/
theorem C24_discriminant_width_partial (n : Nat) (h1 : 1 ≤ n) (hn : n ∉ [2 ^ 8, 2 ^ 16, 2 ^ 32]) (hn' : n < 2 ^ 64) :
    if n = 1 then discriminantBytes n = some 0 else discriminantBytes n = discriminantSize (n - 1) := by
  split
  · rename_i h; subst h; rfl
  · obtain ⟨s, h2, h3⟩ := discriminant_agree (by omega) hn hn'
    rw [h2, h3]

/-- one variant, a few, and around the first boundary -/
example : discriminantBytes 1 = some 0 ∧ discriminantBytes 255 = discriminantSize 254 ∧ discriminantBytes 257 = discriminantSize 256 ∧
    discriminantSize 254 = some 1 ∧ discriminantSize 256 = some 2 := by decide

/-- **C24** Target and host use the same width exactly if the number of variants is none of these three. -/
theorem C24_exact (n : Nat) (h2 : 2 ≤ n) (hn : n < 2 ^ 64) :
    discriminantBytes n = discriminantSize (n - 1) ↔ n ∉ [2 ^ 8, 2 ^ 16, 2 ^ 32] := by
  constructor
  · intro h hm
    simp only [List.mem_cons, List.not_mem_nil, or_false] at hm
    rcases hm with rfl | rfl | rfl <;> exact absurd h (by decide)
  · intro h
    have := C24_discriminant_width_partial n (by omega) h hn
    rwa [if_neg (by omega)] at this

/-- **C24 does not hold** for enums with 2^8, 2^16 or 2^32 variants: the host reads fewer bytes than
the target writes. -/
theorem C24_fails : discriminantBytes (2 ^ 8) = some 2 ∧ discriminantSize (2 ^ 8 - 1) = some 1 ∧
    discriminantBytes (2 ^ 16) = some 4 ∧ discriminantSize (2 ^ 16 - 1) = some 2 ∧
    discriminantBytes (2 ^ 32) = some 8 ∧ discriminantSize (2 ^ 32 - 1) = some 4 := by decide

set_option maxRecDepth 100000 in
/-- An enum with 256 variants followed by a `u8`: the program sends variant 0 and 7, the host shows
variant 0 and 0 and leaves the last byte unread. -/
theorem C24_fails_decode :
    let e : LogEvent := ⟨1, .info, none, ⟨c!"{=?} {=u8}", [.variant 2 (List.replicate 256 c!"A") 0 [], .uint 1 7]⟩⟩
    let t : Table := ⟨none, fun i =>
      if i = 1 then some ⟨.info, c!"{=?} {=u8}"⟩
      else if i = 2 then some ⟨.derived, joinVariants (List.replicate 256 c!"A")⟩ else none⟩
    e.bytes = some [1, 0, 2, 0, 0, 0, 7] ∧
    t.decode [1, 0, 2, 0, 0, 0, 7] = some (.ok ({ e.frame with args := [.format c!"A" [], .uxx 0] }, 6)) := by
  exact ⟨by rfl, by rfl⟩

/-! ### C25 -/

theorem maxRange_congr {l l' : List (Nat × Nat)} (h : ∀ r, r ∈ l ↔ r ∈ l') :
    maxBitfieldRange l = maxBitfieldRange l' := by
  cases h1 : maxBitfieldRange l with
  | none =>
    have := maxRange_none.mp h1
    subst this
    have : l' = [] := by
      cases l' with
      | nil => rfl
      | cons r _ => exact absurd ((h r).mpr (by simp)) (by simp)
    rw [this]; rfl
  | some r =>
    cases h2 : maxBitfieldRange l' with
    | none =>
      have := maxRange_none.mp h2
      subst this
      obtain ⟨⟨e, he⟩, _⟩ := maxRange_some h1
      exact absurd ((h _).mp he) (by simp)
    | some r' =>
      obtain ⟨⟨e, a1⟩, ⟨s, a2⟩, a3⟩ := maxRange_some h1
      obtain ⟨⟨e', b1⟩, ⟨s', b2⟩, b3⟩ := maxRange_some h2
      have c1 := a3 _ ((h _).mpr b1)
      have c2 := a3 _ ((h _).mpr b2)
      have c3 := b3 _ ((h _).mp a1)
      have c4 := b3 _ ((h _).mp a2)
      simp at c1 c2 c3 c4
      obtain ⟨x, y⟩ := r
      obtain ⟨x', y'⟩ := r'
      simp at c1 c2 c3 c4 ⊢
      omega

theorem bitRanges_mem_iff {ps : List Parameter} {r : Nat × Nat} :
    r ∈ bitRanges ps ↔ ∃ p ∈ ps, p.ty = .bitField r.1 r.2 := by
  refine ⟨bitRanges_mem, ?_⟩
  rintro ⟨p, hp, hty⟩
  induction ps with
  | nil => cases hp
  | cons q ps ih =>
    unfold bitRanges
    rcases List.mem_cons.mp hp with rfl | hp
    · rw [hty]; simp
    · split
      · simp [ih hp]
      · exact ih hp

/-- **C25** What is sent depends only on the set of (argument index, type) pairs in the format string:
reordering parameters, repeating them, changing the text or hints in between has no effect on the
bytes sent, for any arguments. -/
theorem C25_same_bytes (fmt fmt' : List Char) (fs fs' : List Fragment)
    (h : parse fmt .strict = .ok fs) (h' : parse fmt' .strict = .ok fs')
    (hs : ∀ i ty, (∃ p ∈ params fs, p.index = i ∧ p.ty = ty) ↔ (∃ p ∈ params fs', p.index = i ∧ p.ty = ty))
    (args : List Val) : Call.encode ⟨fmt, args⟩ = Call.encode ⟨fmt', args⟩ := by
  obtain ⟨⟨n, hd1⟩, hc1⟩ := C12_indices_dense_types_consistent _ _ _ h
  obtain ⟨⟨n', hd2⟩, hc2⟩ := C12_indices_dense_types_consistent _ _ _ h'
  have hnn : n = n' := by
    apply Nat.le_antisymm
    · apply Nat.le_of_not_lt; intro hlt
      obtain ⟨p, hpm, hpi⟩ := hd1.2 n' hlt
      obtain ⟨q, hq, hqi, _⟩ := (hs n' p.ty).mp ⟨p, hpm, hpi, rfl⟩
      have := hd2.1 q hq; omega
    · apply Nat.le_of_not_lt; intro hlt
      obtain ⟨p, hpm, hpi⟩ := hd2.2 n hlt
      obtain ⟨q, hq, hqi, _⟩ := (hs n p.ty).mpr ⟨p, hpm, hpi, rfl⟩
      have := hd1.1 q hq; omega
  subst hnn
  have hbit : ∀ i, bitfieldRange (params fs) i = bitfieldRange (params fs') i := by
    intro i
    apply maxRange_congr
    intro r
    rw [bitRanges_mem_iff, bitRanges_mem_iff]
    constructor
    · rintro ⟨p, hp, hty⟩
      rw [List.mem_filter] at hp
      obtain ⟨q, hq, hqi, hqt⟩ := (hs i _).mp ⟨p, hp.1, by simpa using hp.2, rfl⟩
      exact ⟨q, List.mem_filter.mpr ⟨hq, by simpa using hqi⟩, by rw [hqt, hty]⟩
    · rintro ⟨p, hp, hty⟩
      rw [List.mem_filter] at hp
      obtain ⟨q, hq, hqi, hqt⟩ := (hs i _).mpr ⟨p, hp.1, by simpa using hp.2, rfl⟩
      exact ⟨q, List.mem_filter.mpr ⟨hq, by simpa using hqi⟩, by rw [hqt, hty]⟩
  have hty : ∀ i < n, argType (params fs) i = argType (params fs') i := by
    intro i hi
    have find : ∀ (ps : List Parameter), Dense ps n → ∃ p ∈ ps, p.index = i ∧ ps.find? (fun p => p.index = i) = some p := by
      intro ps hd
      obtain ⟨p, hp, hpi⟩ := hd.2 i hi
      cases hf : ps.find? (fun p => p.index = i) with
      | none => rw [List.find?_eq_none] at hf; have := hf p hp; simp [hpi] at this
      | some q => exact ⟨q, List.mem_of_find?_eq_some hf, by simpa using List.find?_some hf, rfl⟩
    obtain ⟨p, hp, hpi, hpf⟩ := find _ hd1
    obtain ⟨q, hq, hqi, hqf⟩ := find _ hd2
    unfold argType
    rw [hpf, hqf, hbit]
    simp only
    obtain ⟨p', hp', hpi', hpt'⟩ := (hs i q.ty).mpr ⟨q, hq, hqi, rfl⟩
    rcases hc1 p hp p' hp' (by omega) with e | ⟨s, e, s', e', e1, e2⟩
    · rw [e, hpt']
    · rw [hpt'] at e2; rw [e1, e2]
  unfold Call.encode argTypes
  rw [h, h']
  simp only [expectedArgs_dense hd1, expectedArgs_dense hd2]
  have : (List.range n).map (argType (params fs)) = (List.range n).map (argType (params fs')) :=
    List.map_congr_left fun i hi => hty i (List.mem_range.mp hi)
  rw [this]

/-- two strings with the same arguments in another order, with other texts and hints -/
example : Call.encode ⟨c!"{1=u8:x}, {0=u16}", [.uint 2 258, .uint 1 7]⟩ = Call.encode ⟨c!"a{0=u16:b}{1=u8}{0=u16}", [.uint 2 258, .uint 1 7]⟩ ∧
    Call.encode ⟨c!"{1=u8:x}, {0=u16}", [.uint 2 258, .uint 1 7]⟩ = some [2, 1, 7] :=
  ⟨C25_same_bytes _ _ [.param ⟨1, .u8, some (.hexadecimal false false 0)⟩, .literal c!", ", .param ⟨0, .u16, none⟩]
      [.literal c!"a", .param ⟨0, .u16, some (.binary false 0)⟩, .param ⟨1, .u8, none⟩, .param ⟨0, .u16, none⟩] rfl rfl
      (by intro i ty; simp [params, or_comm]) _, by decide +kernel⟩

/-- all arguments, with their types, in index order: the bytes of each one once, concatenated -/
def concatArgs : List Ty → List Val → Option (List UInt8)
  | [], [] => some []
  | ty :: tys, v :: vs =>
    match encodeArg ty v (formatData v), concatArgs tys vs with
    | some a, some b => some (a ++ b)
    | _, _ => none
  | _, _ => none

/-- the types of the arguments are those in the format string -/
theorem argTypes_kind {fmt : List Char} {n : Nat} {tys : List Ty} (ht : argTypes fmt n = some tys) :
    ∃ fs, parse fmt .strict = .ok fs ∧ ∀ i ty, tys[i]? = some ty → ∃ p ∈ params fs, p.index = i ∧ SameKind p.ty ty := by
  unfold argTypes at ht
  split at ht
  · rename_i fs hfs
    refine ⟨fs, hfs, ?_⟩
    split at ht
    · cases ht
    · have := allSome_eq ht
      intro i ty hi
      have hi' := congrArg (fun l => l[i]?) this
      simp only [List.getElem?_map, hi, Option.map_some] at hi'
      rw [Option.map_eq_some_iff] at hi'
      obtain ⟨j, hj, hj'⟩ := hi'
      obtain ⟨_, rfl⟩ : i < expectedArgs (params fs) ∧ i = j := by
        rw [List.getElem?_eq_some_iff] at hj
        obtain ⟨h1, h2⟩ := hj
        simp at h1 h2
        exact ⟨h1, h2⟩
      unfold argType at hj'
      split at hj'
      · cases hj'
      · rename_i p hp
        refine ⟨p, List.mem_of_find?_eq_some hp, by simpa using List.find?_some hp, ?_⟩
        split at hj'
        · rename_i s e hs
          rw [Option.map_eq_some_iff] at hj'
          obtain ⟨r, _, rfl⟩ := hj'
          exact Or.inr ⟨s, e, r.1, r.2, hs, rfl⟩
        · cases hj'
        · cases hj'; exact Or.inl rfl
  · cases ht

/-- **C25** Each argument is sent exactly once, in index order: the i-th type is the type that the
format string gives to argument `i`, and there is one for each argument. -/
theorem C25_index_order (c : Call) (bytes : List UInt8) (h : c.encode = some bytes) :
    ∃ fs tys, parse c.fmt .strict = .ok fs ∧ tys.length = c.args.length ∧
      (∀ i ty, tys[i]? = some ty → ∃ p ∈ params fs, p.index = i ∧ SameKind p.ty ty) ∧
      concatArgs tys c.args = some bytes := by
  unfold Call.encode at h
  split at h
  · cases h
  · rename_i tys ht
    obtain ⟨hl, _⟩ := argTypes_spec ht
    obtain ⟨fs, hfs, hk⟩ := argTypes_kind ht
    refine ⟨fs, tys, hfs, hl, hk, ?_⟩
    have key : ∀ (tys : List Ty) (vs : List Val), concatArgs tys vs = encodeArgs tys vs := by
      intro tys
      induction tys with
      | nil => intro vs; cases vs <;> simp [concatArgs, encodeArgs]
      | cons ty tys ih => 
        intro vs
        cases vs with
        | nil => simp [concatArgs, encodeArgs]
        | cons v vs =>
          simp only [concatArgs, encodeArgs, ih]
          cases encodeArg ty v (formatData v) <;> cases encodeArgs tys vs <;> rfl
    rw [key]; exact h

/-- an argument that is used first is sent second -/
example : Call.encode ⟨c!"{1=u8}{0=u16}", [.uint 2 258, .uint 1 7]⟩ = some [2, 1, 7] ∧
    concatArgs [.u16, .u8] [.uint 2 258, .uint 1 7] = some [2, 1, 7] := by decide +kernel

/-- the arguments of the decoded frame are in index order too -/
theorem C25_host_index (t : Table) (e : LogEvent) (h : e.Ok t) (i : Nat) (v : Val) (hv : e.call.args[i]? = some v) :
    ∃ fs ty, parse e.call.fmt .strict = .ok fs ∧ (∃ p ∈ params fs, p.index = i ∧ SameKind p.ty ty) ∧
      e.frame.args[i]? = some (denoteArg ty v (denote v)) := by
  obtain ⟨_, _, ⟨tys, ht, _⟩, _⟩ := h
  obtain ⟨hl, _⟩ := argTypes_spec ht
  obtain ⟨fs, hfs, hk⟩ := argTypes_kind ht
  simp only [LogEvent.frame, Call.denote, ht]
  have key : ∀ (tys : List Ty) (vs : List Val) (i : Nat) (v : Val), tys.length = vs.length → vs[i]? = some v →
      ∃ ty, tys[i]? = some ty ∧ (denoteArgs tys vs)[i]? = some (denoteArg ty v (denote v)) := by
    intro tys
    induction tys with
    | nil => intro vs i v hl hv; cases vs with
      | nil => simp at hv
      | cons _ _ => simp at hl
    | cons ty tys ih =>
      intro vs i v hl hv
      cases vs with
      | nil => simp at hl
      | cons w vs =>
        rw [denoteArgs]
        cases i with
        | zero => simp only [List.getElem?_cons_zero, Option.some.injEq] at hv ⊢; subst hv; exact ⟨ty, rfl, rfl⟩
        | succ i =>
          simp only [List.getElem?_cons_succ] at hv ⊢
          exact ih vs i v (by simpa using hl) hv
  obtain ⟨ty, h1, h2⟩ := key tys e.call.args i v hl hv
  exact ⟨fs, ty, hfs, hk i ty h1, h2⟩

/-! ### C32 -/

open _root_.Defmt.Stream in
/-- **C32** End to end: after any noise and a separator, the log statements of a program, framed one
after another and received in chunks of any size, are reported in order as exactly the frames logged,
and nothing is left over. -/
theorem C32_end_to_end (t : Table) (_ : t.Safe) (noise : List UInt8) (events : List LogEvent)
    (hok : ∀ e ∈ events, e.Ok t) :
    ∃ payloads : List (List UInt8), events.map LogEvent.bytes = payloads.map some ∧
      ∀ chunks : List (List UInt8),
        chunks.flatten = noise ++ [0] ++ (payloads.map Rzcobs.frameBytes).flatten →
        Stream.Rzcobs.feed t.td [] chunks =
          some ([], (completeBlocks (noise ++ [0])).map (report t.td) ++ events.map (fun e => .frame e.frame)) := by
  have hex : ∃ payloads : List (List UInt8), events.map LogEvent.bytes = payloads.map some ∧
      (∀ p ∈ payloads, p ≠ []) ∧
      ∀ (pad : List UInt8 → Nat) (g : List UInt8 → DecodeResult Frame),
        (∀ p f n, t.td (p ++ List.replicate (pad p) 0) = .ok (f, n) → g p = .frame f) →
        payloads.map g = events.map (fun e => .frame e.frame) := by
    induction events with
    | nil => exact ⟨[], rfl, by simp, fun _ _ _ => rfl⟩
    | cons e es ih =>
      obtain ⟨ps, h1, h2, h3⟩ := ih (fun e he => hok e (by simp [he]))
      obtain ⟨b, h4, h5⟩ := C23_log_roundtrip t e (hok e (by simp))
      refine ⟨b :: ps, by rw [List.map_cons, List.map_cons, h1, h4], ?_, ?_⟩
      · intro p hp
        rcases List.mem_cons.mp hp with rfl | hp
        · rintro rfl
          have := h5 []
          have h6 := C29_frame_from_entry t _ _ _ this
          obtain ⟨_, _, _, _, h7, _⟩ := h6
          simp at h7
        · exact h2 p hp
      · intro pad g hg
        rw [List.map_cons, List.map_cons, h3 pad g hg, hg b e.frame b.length]
        unfold Table.td
        rw [h5]
  obtain ⟨payloads, h1, h2, h3⟩ := hex
  refine ⟨payloads, h1, ?_⟩
  intro chunks hc
  obtain ⟨pad, _, hp⟩ := C07_resynchronise t.td noise payloads h2 chunks hc
  rw [hp]
  rw [h3 pad _ (fun p f n h => by rw [h])]

/-- the table of the example is safe -/
theorem demoTable_safe : demoTable.Safe := by
  have fine : ∀ s ∈ [c!"{=u32:us}", c!"{1=?} {0=0..4} {0=8..12} {2=[?]}", c!"None|Some({=?})", c!"None", c!"Some({=?})",
      c!"{=__internal_FormatSequence}", c!"<{=str}>"], Fine s := by
    intro s hs
    have hb : (match parse s .forwardsCompatible with
        | .ok fs => (params fs).all (fun p => match p.ty with | .formatArray n => decide (n ≤ maxElements) | _ => true)
        | .err _ => true
        | .panic => false) = true := by
      revert s; decide +kernel
    unfold Fine
    cases hp : parse s .forwardsCompatible with
    | ok fs =>
      rw [hp] at hb
      refine ⟨by simp, fun fs' h p hpm n hn => ?_⟩
      injection h with h
      subst h
      have := List.all_eq_true.mp hb p hpm
      rw [hn] at this
      simpa using this
    | err e => exact ⟨by simp, by simp⟩
    | panic => rw [hp] at hb; cases hb
  refine ⟨fun e h => by cases h; exact fine _ (by simp), fun i e h => ?_⟩
  have hs : e.string ∈ [c!"{1=?} {0=0..4} {0=8..12} {2=[?]}", c!"None|Some({=?})", c!"{=__internal_FormatSequence}",
      c!"<{=str}>"] := by
    simp only [demoTable] at h
    split at h
    · cases h; simp
    · split at h
      · cases h; simp
      · split at h
        · cases h; simp
        · split at h
          · cases h; simp
          · cases h
  generalize e.string = s at hs
  refine ⟨fine _ ?_, fun v hv => fine _ ?_⟩
  · revert s; decide +kernel
  · revert v; revert s; decide +kernel

/-- example: one statement, one separator before it, received byte by byte -/
example : Stream.Rzcobs.feed demoTable.td [] ((9 :: 0 :: Rzcobs.frameBytes [1, 0, 0, 0, 0, 0, 0xa5, 0, 2, 0, 0, 0, 0, 0, 0, 3, 0]).map
    (fun b => [b])) = some ([], [.err .malformed, .frame
      { level := some .warn, index := 1, timestampFormat := some c!"{=u32:us}", timestampArgs := [.uxx 0],
        format := c!"{1=?} {0=0..4} {0=8..12} {2=[?]}",
        args := [.uxx 0xa5, .format c!"None" [], .formatSlice []] }]) := by rfl

end Defmt
