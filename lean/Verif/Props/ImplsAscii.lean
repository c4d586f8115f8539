import Verif.Lemmas.ImplsAscii
import Verif.Props.Impls
/-!
# The provided `Format` implementations with the hint `a` (C82, C117)
-/

namespace Defmt

open Parser hiding Written
open Decoder Encoder Display Impls

theorem ascii_log {t : Table} {addr : List Char → Nat} {env : Env} (hw : 2 ≤ env.maxWidth) {v : Value} (ho : v.Ok)
    (hu : ∀ s ∈ v.uses, Interned t addr s) {fmt : List Char}
    (hp : parse fmt .forwardsCompatible = .ok [.param ⟨0, .format, some .ascii⟩]) (ha : argTypes fmt 1 = some [.format])
    {ts : Option Call} {sent : List UInt8} (hts : Stamped t ts sent)
    {index : Nat} (hi : index < 2 ^ 16) {stmt : Tag} (hx : t.entries index = some ⟨stmt, fmt⟩) :
    ∃ bytes, encode addr v = some bytes ∧ ∀ rest, ∃ f : Frame,
      t.decode (le 2 index ++ sent ++ bytes ++ rest) = some (.ok (f, 2 + sent.length + bytes.length)) ∧
      f.index = index ∧ f.level = stmt.toLevel ∧ f.message env = some (v.ascii env) := by
  have g : Good t addr env v := good hw ho hu
  obtain ⟨c, c1, c2⟩ := good_arg g
  have hd := log_stamped hts hi (c := ⟨fmt, [toVal addr v]⟩) hx ⟨[.format], ha, by rw [ArgsOk, ArgsOk]; exact ⟨good_argOk g, trivial⟩⟩
    (d := fmtOf addr v c) (by simp [Call.encode, ha, encodeArgs, c2])
  refine ⟨fmtOf addr v c, by rw [encode, c1]; rfl, fun rest => ⟨_, hd rest, rfl, rfl, ?_⟩⟩
  · show formatArgs fmt (showArgs env (Call.denote ⟨fmt, [toVal addr v]⟩)) none = _
    simp only [Call.denote, List.length_singleton, ha]
    obtain ⟨f, as, e, hs, _⟩ := asc (env := env) hw ho hu
    rw [denoteArgs_one, good_denote g _ rfl, formatArgs_one hp rfl, e, showArg]
    exact hs

/-- **C117** (partial) A value of a provided type, of any nesting, logged with `{:a}`: every non-empty
slice or array of bytes in it, also of references to bytes, is shown as a byte string; everything else as
without a hint, except that IPv6 addresses and pointers lose the hint of the implementation
(`C117_fails`). -/
theorem C117_ascii_partial (t : Table) (addr : List Char → Nat) (env : Env) (hw : 2 ≤ env.maxWidth) (v : Value) (ho : v.Ok)
    (hu : ∀ s ∈ v.uses, Interned t addr s) (fmt : List Char) (hf : fmt = c!"{:a}" ∨ fmt = c!"{=?:a}")
    (ts : Option Call) (sent : List UInt8) (hts : Stamped t ts sent)
    (index : Nat) (hi : index < 2 ^ 16) (stmt : Tag) (hx : t.entries index = some ⟨stmt, fmt⟩) :
    ∃ bytes, encode addr v = some bytes ∧ ∀ rest, ∃ f : Frame,
      t.decode (le 2 index ++ sent ++ bytes ++ rest) = some (.ok (f, 2 + sent.length + bytes.length)) ∧ f.message env = some (v.ascii env) := by
  have hp : parse fmt .forwardsCompatible = .ok [.param ⟨0, .format, some .ascii⟩] ∧ argTypes fmt 1 = some [.format] := by
    rcases hf with rfl | rfl <;> decide +kernel
  obtain ⟨a, a1, a2⟩ := ascii_log hw ho hu hp.1 hp.2 hts hi hx
  refine ⟨a, a1, fun rest => ?_⟩
  obtain ⟨f, f1, _, _, f2⟩ := a2 rest
  exact ⟨f, f1, f2⟩

/-- a slice of bytes in a tuple with a number, in `Some`; a slice of references; a slice of slices, one of
them empty -/
example : (Value.some (.tuple [.slice (some c!"{=u8}") [.prim (.u8 104), .prim (.u8 105), .prim (.u8 10)], .prim (.u16 300)])).ascii demoEnv =
      c!"Some((b\"hi\\n\", 300))" ∧
    (Value.slice (some c!"{=u8}") [.reference (.prim (.u8 65))]).ascii demoEnv = c!"b\"A\"" ∧
    (Value.slice (some c!"{=[?]}") [.slice (some c!"{=u8}") [.prim (.u8 65)], .slice (some c!"{=u8}") []]).ascii demoEnv =
      c!"[b\"A\", []]" := by decide +kernel

/-- the strings of the example -/
def asciiStrings : List (List Char) := [c!"None|Some({=?})", c!"({=?}, {=?})", c!"{=[?]}", c!"{=u8}", c!"{=u16}"]

example :
    let v : Value := .some (.tuple [.slice (some c!"{=u8}") [.prim (.u8 104), .prim (.u8 105), .prim (.u8 10)], .prim (.u16 300)])
    let t : Table := ⟨none, fun i => if i = 1 then some ⟨.info, c!"{:a}"⟩ else if i = 0 then none else
      (asciiStrings[i - 2]?).map (fun s => ⟨.derived, s⟩)⟩
    v.Ok ∧ ∀ s ∈ v.uses, Interned t (fun s => asciiStrings.idxOf s + 2) s := by
  constructor
  · simp [Value.Ok, AllOk, Prim.Ok, Value.tag, Prim.fmt]
  · unfold Interned Linked
    decide +kernel

mutual

theorem ascii_plain (env : Env) : ∀ {v : Value}, ¬ v.Special → v.text c!")" (fun p => some (p.text env id)) = some (v.ascii env)
  | .prim p, _ => by rw [Value.text, Value.ascii]
  | .unit, _ => by rw [Value.text, Value.ascii]
  | .phantom, _ => by rw [Value.text, Value.ascii]
  | .tuple vs, h => by
    rw [Value.Special] at h
    rw [Value.text, Value.ascii, asciis_plain env h]; rfl
  | .none, _ => by rw [Value.text, Value.ascii]
  | .some v, h => by
    rw [Value.Special] at h
    rw [Value.text, Value.ascii, ascii_plain env h]; rfl
  | .err v, h => by
    rw [Value.Special] at h
    rw [Value.text, Value.ascii, ascii_plain env h]; rfl
  | .ok v, h => by
    rw [Value.Special] at h
    rw [Value.text, Value.ascii, ascii_plain env h]; rfl
  | .borrowed, _ => by rw [Value.text, Value.ascii]
  | .refCell v, h => by
    rw [Value.Special] at h
    rw [Value.text, Value.ascii, ascii_plain env h]; rfl
  | .slice _ vs, h => by
    rw [Value.Special] at h
    rw [Value.text, Value.ascii, asciis_plain env (fun x => h (.inr x)), list_plain (fun x => h (.inl x))]; rfl
  | .array _ vs, h => by
    rw [Value.Special] at h
    rw [Value.text, Value.ascii, asciis_plain env (fun x => h (.inr x)), list_plain (fun x => h (.inl x))]; rfl
  | .reference v, h => by
    rw [Value.Special] at h
    rw [Value.text, Value.ascii, ascii_plain env h]
  | .nonZero p, _ => by rw [Value.text, Value.ascii]
  | .duration _ _, _ => by rw [Value.text, Value.ascii]; rfl
  | .location _ _ _, _ => by rw [Value.text, Value.ascii]; rfl
  | .ipv6 _, h => by rw [Value.Special] at h; exact absurd trivial h
  | .pointer _, h => by rw [Value.Special] at h; exact absurd trivial h
  | .iter _ vs, h => by
    rw [Value.Special] at h
    rw [Value.text, Value.ascii, asciis_plain env (fun x => h (.inr x)), list_plain (fun x => h (.inl x))]; simp
  | .written _ vs, h => by
    rw [Value.Special] at h
    rw [Value.text, Value.ascii, asciis_plain env h]; rfl
  | .newtype v, h => by
    rw [Value.Special] at h
    rw [Value.text, Value.ascii, ascii_plain env h]

theorem asciis_plain (env : Env) : ∀ {vs : List Value}, ¬ AnySpecial vs →
    texts c!")" (fun p => some (p.text env id)) vs = some (asciis env vs)
  | [], _ => by rw [texts, asciis]
  | v :: vs, h => by
    rw [AnySpecial] at h
    rw [texts, asciis, ascii_plain env (fun x => h (.inl x)), asciis_plain env (fun x => h (.inr x))]

theorem list_plain {vs : List Value} {ss : List (List Char)} (h : ¬ ∃ bs, bytes? vs = some bs ∧ bs ≠ []) :
    listAscii vs ss = '[' :: separated c!", " ss ++ [']'] := by
  unfold listAscii
  split
  · rename_i b bs e
    exact absurd ⟨_, e, by simp⟩ h
  · rfl

end

/-- **C117** A value without bytes in a list, IPv6 address or pointer is shown with `{:a}` as
with `{}`. -/
theorem C117_plain (t : Table) (addr : List Char → Nat) (env : Env) (hw : 2 ≤ env.maxWidth) (v : Value) (ho : v.Ok)
    (hn : ¬ v.Special) (hu : ∀ s ∈ v.uses, Interned t addr s) (plain hinted : Nat) (h1 : plain < 2 ^ 16) (h2 : hinted < 2 ^ 16)
    (ts : Option Call) (sent : List UInt8) (hts : Stamped t ts sent) (stmt : Tag) (hx : t.entries plain = some ⟨stmt, c!"{}"⟩)
    (hy : t.entries hinted = some ⟨stmt, c!"{:a}"⟩) :
    ∃ bytes, encode addr v = some bytes ∧ ∀ rest, ∃ f g : Frame,
      t.decode (le 2 plain ++ sent ++ bytes ++ rest) = some (.ok (f, 2 + sent.length + bytes.length)) ∧
      t.decode (le 2 hinted ++ sent ++ bytes ++ rest) = some (.ok (g, 2 + sent.length + bytes.length)) ∧
      f.message env ≠ none ∧ g.message env = f.message env := by
  obtain ⟨a, a1, a2⟩ := C117_ascii_partial t addr env hw v ho hu _ (.inl rfl) ts sent hts hinted h2 stmt hy
  obtain ⟨b, m, b1, b2, b3⟩ := C81_exact t addr env hw v ho hu c!"{}" id (by simp [showing]) ts sent hts plain h1 stmt hx
  obtain rfl : a = b := Option.some.inj (a1.symm.trans b1)
  refine ⟨a, a1, fun rest => ?_⟩
  obtain ⟨g, g1, g2⟩ := a2 rest
  obtain ⟨f, f1, _, _, f2⟩ := b3 rest
  refine ⟨f, g, f1, g1, by rw [f2]; simp, ?_⟩
  rw [f2, g2, ← ascii_plain env hn, b2]

/-- **C117 does not hold** where an implementation has a hint of its own: the address `::1:203`
is shown with other digits, and differs from what is shown without a hint; and so are a pointer, and an
empty slice of bytes, which is not shown as a byte string. -/
theorem C117_fails (env : Env) :
    (Value.ipv6 (List.replicate 13 0 ++ [1, 2, 3])).ascii env = c!"00:00:00:00:00:00:01:23" ∧
    (Value.ipv6 (List.replicate 13 0 ++ [1, 2, 3])).text [] (Prim.alone env none) = some c!"0000:0000:0000:0000:0000:0000:0001:0203" ∧
    (Value.pointer 255).ascii env = c!"0x255" ∧ (Value.pointer 255).text [] (Prim.alone env none) = some c!"0xff" ∧
    (Value.slice (some c!"{=u8}") []).ascii env = c!"[]" := by
  refine ⟨?_, ?_, ?_, ?_, ?_⟩
  · rw [Value.ascii]; decide +kernel
  · rw [Value.text]; decide +kernel
  · rw [Value.ascii]; decide +kernel
  · rw [Value.text]; decide +kernel
  · rw [Value.ascii, asciis]; decide +kernel

/-- **C117 does not hold**: in every program the two IPv6 addresses `::b01` and `::10b` are shown alike. -/
theorem C117_ambiguous (t : Table) (addr : List Char → Nat) (env : Env) (hw : 2 ≤ env.maxWidth)
    (hu : ∀ s ∈ [manualFmt, ipv6Fmt, c!"{=u8}"], Interned t addr s)
    (ts : Option Call) (sent : List UInt8) (hts : Stamped t ts sent)
    (index : Nat) (hi : index < 2 ^ 16) (stmt : Tag) (hx : t.entries index = some ⟨stmt, c!"{:a}"⟩) :
    ∃ a b, encode addr (.ipv6 (List.replicate 14 0 ++ [11, 1])) = some a ∧
      encode addr (.ipv6 (List.replicate 14 0 ++ [1, 11])) = some b ∧ ∃ f g : Frame,
        t.decode (le 2 index ++ sent ++ a ++ []) = some (.ok (f, 2 + sent.length + a.length)) ∧
        t.decode (le 2 index ++ sent ++ b ++ []) = some (.ok (g, 2 + sent.length + b.length)) ∧
        f.message env = some c!"00:00:00:00:00:00:00:111" ∧ g.message env = some c!"00:00:00:00:00:00:00:111" := by
  have key : ∀ os : List UInt8, os.length = 16 → ipv6Decimal os = c!"00:00:00:00:00:00:00:111" →
      ∃ a, encode addr (.ipv6 os) = some a ∧ ∃ f : Frame, t.decode (le 2 index ++ sent ++ a ++ []) = some (.ok (f, 2 + sent.length + a.length)) ∧
        f.message env = some c!"00:00:00:00:00:00:00:111" := by
    intro os hl he
    obtain ⟨a, a1, a2⟩ := C117_ascii_partial t addr env hw (.ipv6 os) (by rw [Value.Ok]; exact hl) (by rw [Value.uses]; exact hu)
      _ (.inl rfl) ts sent hts index hi stmt hx
    obtain ⟨f, f1, f2⟩ := a2 []
    exact ⟨a, a1, f, f1, by rw [f2, Value.ascii, he]⟩
  obtain ⟨a, a1, f, f1, f2⟩ := key (List.replicate 14 0 ++ [11, 1]) rfl (by decide +kernel)
  obtain ⟨b, b1, g, g1, g2⟩ := key (List.replicate 14 0 ++ [1, 11]) rfl (by decide +kernel)
  exact ⟨a, b, a1, b1, f, g, f1, g1, f2, g2⟩

/-- **C82** (partial; the hint `a`) A newtype whose `format` calls the `format` of the value inside is shown
like that value with `{:a}`. Missing: as for `C82_newtype_partial`; and in a list of newtypes around bytes
the bytes are shown one by one. -/
theorem C82_newtype_ascii_partial (t : Table) (addr : List Char → Nat) (env : Env) (hw : 2 ≤ env.maxWidth) (v : Value) (ho : v.Ok)
    (hv : '|' ∉ v.tag) (hu : ∀ s ∈ manualFmt :: v.uses, Interned t addr s)
    (fmt : List Char) (hf : fmt = c!"{:a}" ∨ fmt = c!"{=?:a}")
    (ts : Option Call) (sent : List UInt8) (hts : Stamped t ts sent)
    (index : Nat) (hi : index < 2 ^ 16) (stmt : Tag) (hx : t.entries index = some ⟨stmt, fmt⟩) :
    ∃ inner outer, encode addr v = some inner ∧ encode addr (.newtype v) = some outer ∧
      ∀ rest, ∃ f g : Frame, t.decode (le 2 index ++ sent ++ inner ++ rest) = some (.ok (f, 2 + sent.length + inner.length)) ∧
        t.decode (le 2 index ++ sent ++ outer ++ rest) = some (.ok (g, 2 + sent.length + outer.length)) ∧
        f.message env ≠ none ∧ g.message env = f.message env := by
  have hu' : ∀ s ∈ (Value.newtype v).uses, Interned t addr s := by rw [Value.uses]; exact hu
  have ho' : (Value.newtype v).Ok := by rw [Value.Ok]; exact ⟨hv, ho⟩
  obtain ⟨a, a1, a2⟩ := C117_ascii_partial t addr env hw v ho (fun s hs => hu s (by simp [hs])) fmt hf ts sent hts index hi stmt hx
  obtain ⟨b, b1, b2⟩ := C117_ascii_partial t addr env hw _ ho' hu' fmt hf ts sent hts index hi stmt hx
  refine ⟨a, b, a1, b1, fun rest => ?_⟩
  obtain ⟨f, f1, f2⟩ := a2 rest
  obtain ⟨g, g1, g2⟩ := b2 rest
  exact ⟨f, g, f1, g1, by rw [f2]; simp, by rw [f2, g2, Value.ascii]⟩

/-- a list of newtypes around bytes, and of bytes -/
example : (Value.slice (some manualFmt) [.newtype (.prim (.u8 65)), .newtype (.prim (.u8 66))]).ascii demoEnv = c!"[65, 66]" ∧
    (Value.slice (some c!"{=u8}") [.prim (.u8 65), .prim (.u8 66)]).ascii demoEnv = c!"b\"AB\"" := by decide +kernel

end Defmt
