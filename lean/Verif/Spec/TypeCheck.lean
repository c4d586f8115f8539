import Verif.Spec.WireSize
/-!
Specification side of C111: which arguments fit a parameter.
-/

namespace Defmt.TypeCheck

open Parser Encoder

/-- The types of parameters, other than bitfields, that a value can be used for -/
def paramTypes : Val → List Ty
  | .uint 1 _ => [.u8]
  | .uint 2 _ => [.u16]
  | .uint 4 _ => [.u32]
  | .uint 8 _ => [.u64]
  | .uint 16 _ => [.u128]
  | .uint _ _ => []
  | .sint 1 _ => [.i8]
  | .sint 2 _ => [.i16]
  | .sint 4 _ => [.i32]
  | .sint 8 _ => [.i64]
  | .sint 16 _ => [.i128]
  | .sint _ _ => []
  | .usize _ => [.usize]
  | .isize _ => [.isize]
  | .f32 _ => [.f32]
  | .f64 _ => [.f64]
  | .bool _ => [.bool]
  | .char _ => [.char]
  | .str _ => [.str]
  | .istr _ _ => [.istr]
  | .bytes bs => [.u8Slice, .u8Array bs.length]
  | .text _ => [.debug, .display]
  | .slice _ _ elems => [.formatSlice, .formatArray elems.length]
  | .formatted _ _ _ | .variant _ _ _ _ | .manual _ _ => [.format]

/-- An unsigned integer of `size` bytes can be used for the bits `start..stop`: the first octet with one of them exists, and there are as many octets
as the integer has that is sent. -/
def BitsFit (size start stop : Nat) : Prop := start / 8 < size ∧ ∃ k, wireOctets start stop = some k ∧ k ≤ size

/-- The value can be used for the parameter -/
def Fits (ty : Ty) (v : Val) : Prop :=
  match ty, v with
  | .bitField start stop, .uint size _ => BitsFit size start stop
  | ty, v => ty ∈ paramTypes v

mutual

/-- What is nested in a value is well typed as well: the arguments of its `write!` or derived code, the elements of a slice -/
def Inside : Val → Prop
  | .formatted _ fmt args => ∃ tys, argTypes fmt args.length = some tys ∧ AllFit tys args
  | .variant _ variants idx args =>
    variants.length < 2 ^ 64 ∧ ∃ fmt tys, variants[idx]? = some fmt ∧ argTypes fmt args.length = some tys ∧ AllFit tys args
  | .manual _ writes => Written writes
  | .slice _ _ elems => Elements elems
  | _ => True

/-- One value for each type -/
def AllFit : List Ty → List Val → Prop
  | [], [] => True
  | ty :: tys, v :: vs => Fits ty v ∧ Inside v ∧ AllFit tys vs
  | _, _ => False

/-- `write!` calls -/
def Written : List Val → Prop
  | [] => True
  | v :: vs => .format ∈ paramTypes v ∧ Inside v ∧ Written vs

/-- Elements of a slice: values that implement `Format` -/
def Elements : List Val → Prop
  | [] => True
  | v :: vs => (.format ∈ paramTypes v ∨ ∃ tag s es, v = .slice tag s es) ∧ Inside v ∧ Elements vs

end

/-- A macro call the compiler accepts: the format string is fine, there are as many arguments as it has, and each fits its parameter. -/
def Accepted (c : Call) : Prop := ∃ tys, argTypes c.fmt c.args.length = some tys ∧ AllFit tys c.args

end Defmt.TypeCheck
