import Verif.Model.Parser
import Verif.Model.Rtt
/-!
# The size of the RTT buffer

Models `firmware/defmt-rtt/build.rs` and what rustc makes of the constant it writes. The build script runs on a host
with 64 bits; `bits` is the width of `usize` on the target.
-/

namespace Defmt.BufferSize
open Parser

/-- `std::env::var` -/
inductive EnvVar where
  | unset
  | text (s : List Char)
  | notUnicode

/-- `str::parse::<usize>` of `core`: a plus sign is allowed before the digits. -/
def parseUsize (s : List Char) : Option Nat :=
  let digits := match s with
    | '+' :: ds => ds
    | ds => ds
  if digits.all isDigit then parseDigits (2 ^ 64) digits else none

/-- `main` of the build script (firmware/defmt-rtt/build.rs:6-11): the number written to `consts.rs`; `none` is the panic
of `expect`. `map` and `unwrap_or` ignore why the variable cannot be read. -/
def buildScript : EnvVar → Option Nat
  | .text s => parseUsize s
  | .unset | .notUnicode => some 1024

/-- What rustc makes of `const BUF_SIZE: usize = n` (firmware/defmt-rtt/src/consts.rs:2), of `[u8; BUF_SIZE]` (lib.rs:246-255)
and of `% BUF_SIZE` (channel.rs:86). That the literal is too large and that the remainder by zero panics are lints that
are errors, unless lints are switched off, as Cargo does for dependencies; then a literal is taken modulo `2 ^ bits`. An array is smaller
than half of the address space. -/
def compiled (bits : Nat) (lints : Bool) (n : Nat) : Option Nat :=
  if lints && (decide (2 ^ bits ≤ n) || n == 0) then none
  else if 2 ^ (bits - 1) ≤ n % 2 ^ bits then none
  else some (n % 2 ^ bits)

/-- `BUF_SIZE` of the firmware, if it can be built -/
def bufSize (bits : Nat) (lints : Bool) (v : EnvVar) : Option Nat := (buildScript v).bind (compiled bits lints)

end Defmt.BufferSize
