/-!
# UTF-8

Rust's `str` is a UTF-8 byte sequence. `utf8` gives the bytes of a text (`str::as_bytes`),
`fromUtf8` is `core::str::from_utf8` / `String::from_utf8` (Rust standard library; trusted to accept
exactly the byte sequences of Table 3-7 of the Unicode standard, which is what is written here).
-/

namespace Defmt

/-- The UTF-8 bytes of one character (`char::encode_utf8`). -/
def utf8Char (c : Char) : List UInt8 :=
  let n := c.toNat
  if n < 0x80 then [UInt8.ofNat n]
  else if n < 0x800 then [UInt8.ofNat (0xC0 + n / 64), UInt8.ofNat (0x80 + n % 64)]
  else if n < 0x10000 then
    [UInt8.ofNat (0xE0 + n / 4096), UInt8.ofNat (0x80 + n / 64 % 64), UInt8.ofNat (0x80 + n % 64)]
  else
    [UInt8.ofNat (0xF0 + n / 262144), UInt8.ofNat (0x80 + n / 4096 % 64),
      UInt8.ofNat (0x80 + n / 64 % 64), UInt8.ofNat (0x80 + n % 64)]

/-- `str::as_bytes`. -/
def utf8 : List Char → List UInt8
  | [] => []
  | c :: cs => utf8Char c ++ utf8 cs

/-- `lo <= b <= hi` -/
def byteIn (lo hi : Nat) (b : UInt8) : Bool := lo ≤ b.toNat && b.toNat ≤ hi

/-- Is `a b` a legal start of a three byte sequence? -/
def utf8Start3 (a b : UInt8) : Bool :=
  (byteIn 0xE0 0xE0 a && byteIn 0xA0 0xBF b) || (byteIn 0xE1 0xEC a && byteIn 0x80 0xBF b) ||
  (byteIn 0xED 0xED a && byteIn 0x80 0x9F b) || (byteIn 0xEE 0xEF a && byteIn 0x80 0xBF b)

/-- Is `a b` a legal start of a four byte sequence? -/
def utf8Start4 (a b : UInt8) : Bool :=
  (byteIn 0xF0 0xF0 a && byteIn 0x90 0xBF b) || (byteIn 0xF1 0xF3 a && byteIn 0x80 0xBF b) ||
  (byteIn 0xF4 0xF4 a && byteIn 0x80 0x8F b)

/-- `core::str::from_utf8`; `none` is the error. -/
def fromUtf8 : List UInt8 → Option (List Char)
  | [] => some []
  | a :: r =>
    if a.toNat < 0x80 then (fromUtf8 r).map (Char.ofNat a.toNat :: ·)
    else
      match r with
      | [] => none
      | b :: r =>
        if byteIn 0xC2 0xDF a && byteIn 0x80 0xBF b then
          (fromUtf8 r).map (Char.ofNat ((a.toNat - 0xC0) * 64 + (b.toNat - 0x80)) :: ·)
        else
          match r with
          | [] => none
          | c :: r =>
            if utf8Start3 a b && byteIn 0x80 0xBF c then
              (fromUtf8 r).map
                (Char.ofNat ((a.toNat - 0xE0) * 4096 + (b.toNat - 0x80) * 64 + (c.toNat - 0x80)) :: ·)
            else
              match r with
              | [] => none
              | d :: r =>
                if utf8Start4 a b && byteIn 0x80 0xBF c && byteIn 0x80 0xBF d then
                  (fromUtf8 r).map
                    (Char.ofNat ((a.toNat - 0xF0) * 262144 + (b.toNat - 0x80) * 4096 +
                      (c.toNat - 0x80) * 64 + (d.toNat - 0x80)) :: ·)
                else none

end Defmt
