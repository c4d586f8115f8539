import Verif.Spec.Impls
/-!
# What the provided `Format` implementations should show with the hint `a`

`Value.ascii`: as without a hint, but a list of bytes is shown as a byte string; and what the host does not
get right, addresses and pointers in decimal and a parenthesis after a `Cell`.
-/

namespace Defmt.Impls

open Parser Decoder Encoder Display

/-- The value is a byte, or a reference to one. -/
def Value.byte? : Value → Option UInt8
  | .prim (.u8 n) => Option.some (UInt8.ofNat n)
  | .reference v => v.byte?
  | _ => Option.none

/-- The bytes, if all of the values are bytes. -/
def bytes? : List Value → Option (List UInt8)
  | [] => some []
  | v :: vs =>
    match v.byte?, bytes? vs with
    | some b, some bs => some (b :: bs)
    | _, _ => none

/-- A list of values with the texts `ss`: bytes as a byte string, except if there are none. For the
characters of a byte see C38. -/
def listAscii (vs : List Value) (ss : List (List Char)) : List Char :=
  match bytes? vs with
  | some (b :: bs) => c!"b\"" ++ (b :: bs).flatMap escapeByte ++ c!"\""
  | _ => '[' :: separated c!", " ss ++ [']']

/-- Eight groups of two bytes, in decimal without separator. -/
def ipv6Decimal : List UInt8 → List Char
  | a :: b :: c :: rest => Nat.toDigits 10 a.toNat ++ Nat.toDigits 10 b.toNat ++ ':' :: ipv6Decimal (c :: rest)
  | bs => (bs.map (fun b => Nat.toDigits 10 b.toNat)).flatten

mutual

/-- The text of a value with the hint `a`. -/
def Value.ascii (env : Env) : Value → List Char
  | .prim p => p.text env id
  | .unit => c!"()"
  | .phantom => c!"PhantomData"
  | .tuple vs => '(' :: separated c!", " (asciis env vs) ++ [')']
  | .none => c!"None"
  | .some v => c!"Some(" ++ v.ascii env ++ c!")"
  | .err v => c!"Err(" ++ v.ascii env ++ c!")"
  | .ok v => c!"Ok(" ++ v.ascii env ++ c!")"
  | .borrowed => c!"RefCell { value: <borrowed> }"
  | .refCell v => c!"RefCell { value: " ++ v.ascii env ++ c!" }"
  | .slice _ vs => listAscii vs (asciis env vs)
  | .array _ vs => listAscii vs (asciis env vs)
  | .reference v => v.ascii env
  | .nonZero p => p.text env id
  | .duration s n => c!"Duration { secs: " ++ Nat.toDigits 10 s ++ c!", nanos: " ++ Nat.toDigits 10 n ++ c!" }"
  | .location f l c => f ++ ':' :: Nat.toDigits 10 l ++ ':' :: Nat.toDigits 10 c
  | .ipv6 octets => ipv6Decimal octets
  | .pointer a => c!"0x" ++ Nat.toDigits 10 a
  | .iter _ vs => c!"Iter { slice: " ++ listAscii vs (asciis env vs) ++ c!", position: ? }"
  | .written k vs => k.text c!")" (asciis env vs)
  | .newtype v => v.ascii env

/-- the texts of all values -/
def asciis (env : Env) : List Value → List (List Char)
  | [] => []
  | v :: vs => v.ascii env :: asciis env vs

end

mutual

/-- Somewhere in the value there is a non-empty list of bytes, an IPv6 address or a pointer. -/
def Value.Special : Value → Prop
  | .slice _ vs | .array _ vs | .iter _ vs => (∃ bs, bytes? vs = some bs ∧ bs ≠ []) ∨ AnySpecial vs
  | .tuple vs | .written _ vs => AnySpecial vs
  | .some v | .err v | .ok v | .refCell v | .reference v | .newtype v => v.Special
  | .ipv6 _ | .pointer _ => True
  | _ => False

/-- in one of the values -/
def AnySpecial : List Value → Prop
  | [] => False
  | v :: vs => v.Special ∨ AnySpecial vs

end

end Defmt.Impls
