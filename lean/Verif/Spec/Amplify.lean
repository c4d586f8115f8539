import Verif.Model.Decoder
/-! How much a decoded frame contains. -/

namespace Defmt

mutual

/-- The contents of an argument: one for every value, one for every character or byte of a text or byte string. An element of a slice counts as
what it contains, so that elements without contents (`()` and other types without fields) do not count. Interned strings are
references to the table. -/
def Arg.content : Arg → Nat
  | .str s => 1 + s.length
  | .preformatted s => 1 + s.length
  | .slice bytes => bytes.length
  | .format _ args => 1 + Arg.contents args
  | .formatSequence args => 1 + Arg.contents args
  | .formatSlice elements => 1 + Arg.elementContents elements
  | _ => 1

def Arg.contents : List Arg → Nat
  | [] => 0
  | a :: as => Arg.content a + Arg.contents as

def Arg.elementContents : List Arg → Nat
  | [] => 0
  | .format _ args :: es => Arg.contents args + Arg.elementContents es
  | a :: es => Arg.content a + Arg.elementContents es

end

mutual

/-- The number of values in an argument, with all elements of slices. -/
def Arg.nodes : Arg → Nat
  | .format _ args => 1 + Arg.nodesOf args
  | .formatSequence args => 1 + Arg.nodesOf args
  | .formatSlice elements => 1 + Arg.nodesOf elements
  | _ => 1

def Arg.nodesOf : List Arg → Nat
  | [] => 0
  | a :: as => Arg.nodes a + Arg.nodesOf as

end

end Defmt
