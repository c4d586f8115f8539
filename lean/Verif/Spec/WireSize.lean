import Verif.Spec.Encoder
/-!
Specification side of C110: how many bytes a log statement sends, read off the types of its parameters and the values.
-/

namespace Defmt.WireSize

open Parser Encoder

/-- The smallest of the sizes that satisfies the condition -/
def smallest (sizes : List Nat) (p : Nat → Bool) : Nat := (sizes.find? p).getD 0

/-- Types whose values always take the same number of bytes -/
def fixed : Ty → Option Nat
  | .bool | .u8 | .i8 => some 1
  | .u16 | .i16 | .istr => some 2
  | .u32 | .i32 | .f32 | .char | .usize | .isize => some 4
  | .u64 | .i64 | .f64 => some 8
  | .u128 | .i128 => some 16
  | .u8Array n => some n
  -- the octets from the one with the first bit to the one with the last, rounded up to an integer type
  | .bitField start stop => some (smallest [1, 2, 4, 8, 16] fun k => (stop - 1) / 8 - start / 8 + 1 ≤ k)
  | _ => none

/-- Bytes of a text: one to four for each character -/
def textSize (s : List Char) : Nat := (s.map Char.utf8Size).sum

/-- What a value takes as an argument for a parameter: 4 bytes for a length, 2 for the index of a format string; `nested` is what it takes without
the index of its format string -/
def argSize (ty : Ty) (v : Val) (nested : Nat) : Nat :=
  match fixed ty, ty, v with
  | some k, _, _ => k
  | none, .str, .str s => 4 + textSize s
  | none, .u8Slice, .bytes bs => 4 + bs.length
  | none, .debug, .text s => textSize s + 1
  | none, .display, .text s => textSize s + 1
  | none, .formatSlice, _ => 4 + 2 + nested
  | none, .formatArray _, _ => 2 + nested
  | none, .format, _ => 2 + nested
  | none, _, _ => 0

mutual

/-- What a value takes without the index of its format string -/
def contents : Val → Nat
  | .formatted _ fmt args => argsSize ((argTypes fmt args.length).getD []) args
  | .variant _ variants idx args =>
    (if variants.length = 1 then 0 else smallest [1, 2, 4, 8] fun k => variants.length < 256 ^ k) +
      argsSize ((argTypes (variants[idx]?.getD []) args.length).getD []) args
  | .manual _ writes => writesSize writes + 2
  | .slice _ _ elems => elemsSize elems
  | _ => 0

/-- The arguments of a statement -/
def argsSize : List Ty → List Val → Nat
  | ty :: tys, v :: vs => argSize ty v (contents v) + argsSize tys vs
  | _, _ => 0

/-- The `write!` calls of a manual implementation: each is preceded by the index of its format string -/
def writesSize : List Val → Nat
  | [] => 0
  | w :: ws => 2 + contents w + writesSize ws

/-- The elements of a slice: no indices between them -/
def elemsSize : List Val → Nat
  | [] => 0
  | e :: es => contents e + elemsSize es

end

/-- A macro call -/
def callSize (c : Call) : Nat := argsSize ((argTypes c.fmt c.args.length).getD []) c.args

/-- A log frame without framing: the index, the timestamp, the arguments -/
def frameSize (ts : Option Call) (c : Call) : Nat := 2 + (ts.map callSize).getD 0 + callSize c

end Defmt.WireSize
