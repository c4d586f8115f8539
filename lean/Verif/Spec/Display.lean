import Verif.Model.Frame
import Verif.Spec.Decoder
/-! Specification side of C33: what a decoded argument looks like, which arguments are displayed with
which hints, and which of these make the host panic. -/

namespace Defmt.Display

open Parser

/-- unsigned integer types and number of values -/
def unsignedTypes : List (Ty × Nat) :=
  [(.u8, 2 ^ 8), (.u16, 2 ^ 16), (.u32, 2 ^ 32), (.u64, 2 ^ 64), (.u128, 2 ^ 128), (.usize, 2 ^ 32)]

/-- signed integer types -/
def signedTys : List Ty := [.i8, .i16, .i32, .i64, .i128, .isize]

/-- The argument fits a parameter of the type: right kind of value, and nested formats parse and have
an argument of the right type for each of their parameters. -/
inductive Fits : Arg → Ty → Prop where
  | unsigned {n ty bound} : (ty, bound) ∈ unsignedTypes → n < bound → Fits (.uxx n) ty
  | bits {n s e} : Fits (.uxx n) (.bitField s e)
  | signed {i ty} : ty ∈ signedTys → Fits (.ixx i) ty
  | bool {b} : Fits (.bool b) .bool
  | f32 {b} : Fits (.f32 b) .f32
  | f64 {b} : Fits (.f64 b) .f64
  | str {s} : Fits (.str s) .str
  | istr {s} : Fits (.istr s) .istr
  | slice {bs} : Fits (.slice bs) .u8Slice
  | array {bs : List UInt8} {n} : bs.length = n → Fits (.slice bs) (.u8Array n)
  | char {c} : Fits (.char c) .char
  | debug {s} : Fits (.preformatted s) .debug
  | display {s} : Fits (.preformatted s) .display
  | format {f args fs} : parse f .forwardsCompatible = .ok fs →
      (∀ i, i < args.length ↔ ∃ p ∈ params fs, p.index = i) →
      (∀ p ∈ params fs, ∀ a, args[p.index]? = some a → Fits a p.ty) →
      Fits (.format f args) .format
  | sequence {args} : (∀ a ∈ args, Fits a .format) → Fits (.formatSequence args) .formatSequence
  | formatSlice {elems : List Arg} {s ty} : ty = .formatSlice ∨ ty = .formatArray elems.length →
      (∀ e ∈ elems, Fits e .format) →
      -- all elements have the same format string or are alternatives of one
      (∀ e ∈ elems, ∃ f as, e = .format f as ∧ IsVariant f s) →
      Fits (.formatSlice elems) ty

/-- The hint `:a` shows a slice one of whose elements has the format string `{=u8}` as a string of bytes. -/
def AsBytes (hint : Option Hint) (elems : List Arg) : Prop := hint = some .ascii ∧ ∃ args, .format c!"{=u8}" args ∈ elems

/-- an element that can be taken as a byte: its only argument is a number below 256 -/
def IsByte (e : Arg) : Prop := ∃ f v, e = .format f [.uxx v] ∧ v < 256

/-- `Reaches a p h (b, q, h')`: displaying `a` for parameter `p` below hint `h` leads to displaying
`b` for parameter `q` below hint `h'`. -/
inductive Reaches : Arg → Parameter → Option Hint → Arg × Parameter × Option Hint → Prop where
  | here {a p h} : Reaches a p h (a, p, h)
  | format {f args fs p h q b x} : parse f .forwardsCompatible = .ok fs → q ∈ params fs → args[q.index]? = some b →
      Reaches b q (if h = some .ascii then h else p.hint <|> h) x → Reaches (.format f args) p h x
  | sequence {args p h a x} : a ∈ args → Reaches a ⟨0, .format, none⟩ (p.hint <|> h) x →
      Reaches (.formatSequence args) p h x
  | slice {elems p h e x} : e ∈ elems → ¬ AsBytes (p.hint <|> h) elems → Reaches e ⟨0, .format, none⟩ (p.hint <|> h) x →
      Reaches (.formatSlice elems) p h x

/-- The hint asks for a width that `core::fmt` rejects. -/
def TooWide (env : Env) : Option Hint → Prop
  | some (.noHint w) | some (.binary _ w) | some (.octal _ w) | some (.hexadecimal _ _ w) => env.maxWidth < w
  | _ => False

/-- seconds of a unix timestamp -/
def unixSeconds : TimePrecision → Nat → Nat
  | .micros, n => n / 1000000
  | .millis, n => n / 1000
  | .seconds, n => n

/-- The ways to make the host panic: a width that is too large (for an integer, its own or, with `:?`, that of the parent; for the bytes of
a slice), a date after the year 9999, `:x` for an `isize`, `:a` for a slice with an element `{=u8}` and another element that is not a
byte. -/
def Bad (env : Env) : Arg × Parameter × Option Hint → Prop
  | (.uxx n, p, h) => TooWide env (p.hint <|> h) ∨ ((∀ s e, p.ty ≠ .bitField s e) ∧
      (((p.hint <|> h) = some .debug ∧ TooWide env h) ∨
        ∃ prec, (p.hint <|> h) = some (.iso8601 prec) ∧ 253402300799 < unixSeconds prec (n % 2 ^ 64)))
  | (.ixx _, p, h) => TooWide env (p.hint <|> h) ∨ (p.ty = .isize ∧ ∃ alt up w, (p.hint <|> h) = some (.hexadecimal alt up w))
  | (.slice bytes, p, h) => bytes ≠ [] ∧ TooWide env (p.hint <|> h) ∧ ∀ w, (p.hint <|> h) ≠ some (.noHint w)
  | (.formatSlice elems, p, h) => AsBytes (p.hint <|> h) elems ∧ ∃ e ∈ elems, ¬ IsByte e
  | _ => False

/-- What is displayed for the message or timestamp of a frame. -/
def FrameReaches (f : Frame) (x : Arg × Parameter × Option Hint) : Prop :=
  ∃ fmt args fs p a, ((fmt = f.format ∧ args = f.args) ∨ (some fmt = f.timestampFormat ∧ args = f.timestampArgs)) ∧
    parse fmt .forwardsCompatible = .ok fs ∧ p ∈ params fs ∧ args[p.index]? = some a ∧ Reaches a p none x

end Defmt.Display
