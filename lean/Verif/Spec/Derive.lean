import Verif.Model.Derive
import Verif.Spec.Encoder
import Verif.Spec.Frame
/-!
# What `#[derive(Format)]` promises

Independent of the string building of the macro: which fields have a native type, what the attributes
of a field ask for, what the host must show for each field, and the text of the whole value.
-/

namespace Defmt.Derive

open Parser Decoder Encoder

/-- An identifier as far as it matters here. -/
def IsIdent (s : List Char) : Prop := s ≠ [] ∧ ∀ c ∈ s, c ≠ '{' ∧ c ≠ '}' ∧ c ≠ '|'

/-- The types that are transferred without going through `Format`. -/
def nativeTys : List Ty :=
  [.u8, .u16, .u32, .u64, .u128, .usize, .i8, .i16, .i32, .i64, .i128, .isize, .f32, .f64, .bool, .str]

/-- A native type, or a reference to one, and so on. -/
inductive IsNative : FieldTy → Ty → Prop where
  | base {ty} : ty ∈ nativeTys → IsNative (.ident (renderTy 0 ty)) ty
  | reference {f ty} : IsNative f ty → IsNative (.reference f) ty

/-- The type of the parameter of a field. -/
def HasTy (f : Field) (ty : Ty) : Prop := IsNative f.ty ty ∨ (ty = .format ∧ ∀ ty', ¬ IsNative f.ty ty')

/-- the argument naming an option -/
def FormatOption.name : FormatOption → List Char
  | .debug2Format => c!"Debug2Format"
  | .display2Format => c!"Display2Format"

/-- What the attributes of a field ask for: no `defmt` attribute, or one, of which the last argument
counts. Other attributes are not accepted. -/
inductive Asks (f : Field) : Option FormatOption → Prop where
  | nothing : f.attrs = [] → Asks f none
  | wrapper {before : List FormatOption} {o} : f.attrs = [before.map FormatOption.name ++ [o.name]] → Asks f (some o)

/-- all fields of a struct or variant -/
def Fields.all : Fields → List Field
  | .named fs | .unnamed fs => fs
  | .unit => []

/-- Name and fields of a variant; a struct is its own variant 0. -/
def Def.variant : Def → Nat → Option (List Char × Fields)
  | .struct name fields, 0 => some (name, fields)
  | .struct .., _ => none
  | .enum variants, i => variants[i]?.map (fun v => (v.name, v.fields))

/-- number of variants -/
def Def.count : Def → Nat
  | .struct .. => 1
  | .enum variants => variants.length

/-- `f` is a field of the type -/
def Def.HasField (d : Def) (f : Field) : Prop := ∃ i name fields, d.variant i = some (name, fields) ∧ f ∈ fields.all

/-- All names are identifiers (those of unnamed fields do not exist), and there are less than 2^59
fields in a variant. -/
def Def.Named (d : Def) : Prop :=
  ∀ i name fields, d.variant i = some (name, fields) → IsIdent name ∧ fields.all.length ≤ maxArgs ∧
    ∀ fs, fields = .named fs → ∀ f ∈ fs, IsIdent f.name

/-- No field with a native type has an attribute. -/
def Def.NoWrappedNative (d : Def) : Prop :=
  ∀ f, d.HasField f → f.attrs = [] ∨ ∀ ty, ¬ IsNative f.ty ty

/-- The hint with which a field is displayed: `{:?}` if it has a name. -/
def Fields.hint : Fields → Option Hint
  | .named _ => some .debug
  | _ => none

/-- `FieldOk t w f x a`: `x` is a legal value of field `f`, and the host must decode the argument `a`
for it. -/
inductive FieldOk (t : Table) (w : Wrappers) : Field → FieldVal → Arg → Prop where
  | native {f x ty} : Asks f none → IsNative f.ty ty → ArgOk t ty x.val (ValOk t x.val) →
      FieldOk t w f x (denoteArg ty x.val (denote x.val))
  | format {f x} : Asks f none → (∀ ty, ¬ IsNative f.ty ty) → ArgOk t .format x.val (ValOk t x.val) →
      FieldOk t w f x (denote x.val)
  | debug {f x} : Asks f (some .debug2Format) → (∀ ty, ¬ IsNative f.ty ty) →
      Linked t w.debugTag c!"{=__internal_Debug}" →
      FieldOk t w f x (.format c!"{=__internal_Debug}" [.preformatted x.debug])
  | display {f x} : Asks f (some .display2Format) → (∀ ty, ¬ IsNative f.ty ty) →
      Linked t w.displayTag c!"{=__internal_Display}" →
      FieldOk t w f x (.format c!"{=__internal_Display}" [.preformatted x.display])

/-- `FieldOk` for the fields one by one. -/
inductive FieldsOk (t : Table) (w : Wrappers) : List Field → List FieldVal → List Arg → Prop where
  | nil : FieldsOk t w [] [] []
  | cons {f fs x xs a as} : FieldOk t w f x a → FieldsOk t w fs xs as → FieldsOk t w (f :: fs) (x :: xs) (a :: as)

/-- The text of a value as written by Rust's own `#[derive(Debug)]` on one line, given the texts of
its fields. Names are as in the source (`#[derive(Debug)]` leaves out the `r#` of raw identifiers). -/
def debugText (name : List Char) (fields : Fields) (texts : List (List Char)) : List Char :=
  match fields with
  | .unit => name
  | .named fs =>
    if fs.isEmpty then name
    else name ++ c!" { " ++
      Display.separated c!", " (List.zipWith (fun f s => f ++ c!": " ++ s) (fs.map Field.name) texts) ++ c!" }"
  | .unnamed fs => if fs.isEmpty then name else name ++ c!"(" ++ Display.separated c!", " texts ++ c!")"

/-- `HasTys fs tys`: the parameter types of the fields. -/
inductive HasTys : List Field → List Ty → Prop where
  | nil : HasTys [] []
  | cons {f fs ty tys} : HasTy f ty → HasTys fs tys → HasTys (f :: fs) (ty :: tys)

/-- parameters `i, i + 1, ...` of the types, all with the same hint -/
def paramsFrom (hint : Option Hint) : Nat → List Ty → List Parameter
  | _, [] => []
  | i, ty :: tys => ⟨i, ty, hint⟩ :: paramsFrom hint (i + 1) tys

/-- `part` is the part for variant `i` of a format string `s` with `n` alternatives. -/
def IsPart (s : List Char) (n i : Nat) (part : List Char) : Prop :=
  ∃ ps : List (List Char), ps.length = n ∧ (∀ p ∈ ps, '|' ∉ p) ∧ s = Encoder.joinVariants ps ∧ ps[i]? = some part

end Defmt.Derive
