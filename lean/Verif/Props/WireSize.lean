import Verif.Lemmas.WireSize
import Verif.Props.RoundTrip
/-!
# C110: how many bytes a log statement sends
-/

namespace Defmt

open Parser Encoder WireSize

/-- **C110** For every log statement the macros accept, the frame has exactly the size that the types of the parameters and the values say. -/
theorem C110_exact (t : Table) (e : LogEvent) (h : e.Ok t) : ∃ bytes, e.bytes = some bytes ∧ bytes.length = frameSize e.ts e.call := by
  obtain ⟨bytes, hb, _⟩ := C23_log_roundtrip t e h
  exact ⟨bytes, hb, log_length hb⟩

/-- **C110** On the wire, with rzCOBS, there are at most one byte for each 134 and two more (a code byte and the separator). -/
theorem C110_framed (t : Table) (e : LogEvent) (h : e.Ok t) : ∃ bytes, e.bytes = some bytes ∧
    (Rzcobs.frameBytes bytes).length ≤ frameSize e.ts e.call + frameSize e.ts e.call / 134 + 2 := by
  obtain ⟨bytes, hb, hl⟩ := C110_exact t e h
  refine ⟨bytes, hb, ?_⟩
  have := C05_overhead_bound bytes
  rw [hl] at this
  have h2 : (Rzcobs.frameBytes bytes).length ≤ (Rzcobs.frameBody bytes).length + 1 := by
    simp only [Rzcobs.frameBody, List.length_dropLast]; omega
  omega

/-- **C110** Parameters of fixed size (everything but text, slices and `{=?}`): every execution of a statement with this format string takes the
same number of bytes, the sum of the sizes of the types. -/
theorem C110_fixed {fmt : List Char} {n : Nat} {tys : List Ty} {sizes : List Nat} (ht : argTypes fmt n = some tys)
    (hs : tys.map fixed = sizes.map some) {args : List Val} (hn : args.length = n) {d : List UInt8} (h : (Call.mk fmt args).encode = some d) :
    d.length = sizes.sum := by
  subst hn
  rw [call_length h]
  simp only [callSize, ht, Option.getD_some]
  refine argsSize_fixed _ _ _ hs ?_
  simp only [Call.encode, ht] at h
  exact encodeArgs_same_length h

/-- **C110** The elements of a slice are sent without anything between them: `{=[?]}` takes 6 bytes and the contents of the elements, `{=[?; N]}`
takes 4 bytes less. -/
theorem C110_elements {tag : Nat} {s : List Char} {elems : List Val} {d : List UInt8} :
    (encodeArgs [.formatSlice] [.slice tag s elems] = some d → d.length = 6 + (elems.map contents).sum) ∧
    (∀ n, encodeArgs [.formatArray n] [.slice tag s elems] = some d → d.length = 2 + (elems.map contents).sum) := by
  have hsum : ∀ es, elemsSize es = (es.map contents).sum := by
    intro es
    induction es with
    | nil => rfl
    | cons e es ih => rw [elemsSize, ih]; rfl
  refine ⟨fun h => ?_, fun n h => ?_⟩
  · rw [encodeArgs_length _ _ _ h]
    simp [argsSize, argSize, fixed, contents, hsum]
  · rw [encodeArgs_length _ _ _ h]
    simp [argsSize, argSize, fixed, contents, hsum]

/-- **C110** A slice as `{=?}` takes two bytes more than as `{=[?]}` (the index of the format string `{=[?]}`). -/
theorem C110_slice_hint {tag tag' : Nat} {s : List Char} {elems : List Val} {d d' : List UInt8}
    (h : encodeArgs [.formatSlice] [.slice tag s elems] = some d)
    (h' : encodeArgs [.format] [.formatted tag' c!"{=[?]}" [.slice tag s elems]] = some d') : d'.length = d.length + 2 := by
  rw [encodeArgs_length _ _ _ h, encodeArgs_length _ _ _ h']
  have ha : argTypes c!"{=[?]}" 1 = some [.formatSlice] := by decide +kernel
  simp only [argsSize, argSize, fixed, contents, List.length_cons, List.length_nil, Nat.zero_add, ha, Option.getD_some]
  omega

/-- **C110** Bytes as `{=[u8]}` take two bytes less than as `{=[?]}`. -/
theorem C110_bytes {tag tag' : Nat} {s : List Char} {bs : List UInt8} {d d' : List UInt8} (h : encodeArgs [.u8Slice] [.bytes bs] = some d)
    (h' : encodeArgs [.formatSlice] [.slice tag s (bs.map fun b => .formatted tag' c!"{=u8}" [.uint 1 b.toNat])] = some d') :
    d'.length = d.length + 2 := by
  have ha : argTypes c!"{=u8}" 1 = some [.u8] := by decide +kernel
  rw [C110_elements.1 h', encodeArgs_length _ _ _ h]
  have hb : ∀ b : UInt8, contents (.formatted tag' c!"{=u8}" [.uint 1 b.toNat]) = 1 := by
    intro b
    simp only [contents, argsSize, argSize, fixed, List.length_cons, List.length_nil, Nat.zero_add, ha, Option.getD_some]
  have hs : ∀ bs : List UInt8, ((bs.map fun b => Val.formatted tag' c!"{=u8}" [.uint 1 b.toNat]).map contents).sum = bs.length := by
    intro bs
    induction bs with
    | nil => rfl
    | cons b bs ih => simp only [List.map_cons, List.sum_cons, hb, List.length_cons, ih]; omega
  rw [hs]
  simp [argsSize, argSize, fixed]
  omega

/-- **C110** An interned string takes two bytes whatever its length, a string four and its text. -/
theorem C110_interned {a : Nat} {s : List Char} {d d' : List UInt8} (h : encodeArgs [.istr] [.istr a s] = some d)
    (h' : encodeArgs [.str] [.str s] = some d') : d.length = 2 ∧ d'.length = 4 + textSize s := by
  rw [encodeArgs_length _ _ _ h, encodeArgs_length _ _ _ h']
  simp [argsSize, argSize, fixed]

/-- **C110** No compression of booleans: each takes a byte. (The book says that the three arguments of this statement, its own example, "can be
compressed into a single byte".) -/
theorem C110_bools (a b c : Bool) :
    (Call.mk c!"enabled: {=bool}, ready: {=bool}, timeout: {=bool}" [.bool a, .bool b, .bool c]).encode.map List.length = some 3 := by
  have ha : argTypes c!"enabled: {=bool}, ready: {=bool}, timeout: {=bool}" 3 = some [.bool, .bool, .bool] := by decide +kernel
  cases a <;> cases b <;> cases c <;> (simp only [Call.encode, List.length_cons, List.length_nil, Nat.zero_add, Nat.reduceAdd, ha]; rfl)

/-! Concrete cases -/

/-- `info!("{=u8} {=u32} {=0..3}", ..)`: always 6 bytes -/
example : ∃ tys, argTypes c!"{=u8} {=u32} {=0..3}" 3 = some tys ∧ tys.map fixed = [1, 4, 1].map some := ⟨[.u8, .u32, .bitField 0 3], by decide +kernel, rfl⟩

/-- `[1u16, 2]` as `{=[?]}` -/
example : ∃ d, encodeArgs [.formatSlice] [.slice 5 c!"{=u16}" [.formatted 5 c!"{=u16}" [.uint 2 1], .formatted 5 c!"{=u16}" [.uint 2 2]]] = some d ∧
    d.length = 10 := ⟨_, rfl, rfl⟩

/-- three octets of a bitfield take four bytes, an enum of 256 variants has a discriminant of two bytes -/
example : fixed (.bitField 0 17) = some 4 ∧ fixed (.bitField 8 12) = some 1 ∧ smallest [1, 2, 4, 8] (fun k => 256 < 256 ^ k) = 2 := by decide

end Defmt
