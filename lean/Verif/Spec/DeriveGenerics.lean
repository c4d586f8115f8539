import Verif.Model.DeriveGenerics
import Verif.Spec.Derive
/-!
# When a type implements a trait, and when the derived code type checks

The rules of the Rust compiler as far as they matter for the derived implementation: a type implements a
trait if one of the `impl`s of the program fits and the predicates of its where clause hold, by a finite
derivation; the body of an `impl` is checked once for all instances, with the where clause as the only
thing known about the parameters.
-/

namespace Defmt.Derive

open Parser Decoder Encoder

/-- The type with the parameters replaced. -/
def RTy.inst (params : List (List Char)) (σ : List Char → RTy) : RTy → RTy
  | .name n => if n ∈ params then σ n else .name n
  | .app f a => .app (f.inst params σ) (a.inst params σ)
  | .ref t => .ref (t.inst params σ)

/-- `Holds impls ty b`: in a program with these `impl`s, `ty` implements `b`. -/
inductive Holds (impls : List Impl) : RTy → Bound → Prop where
  | intro {i : Impl} {σ : List Char → RTy} {ty b} : i ∈ impls → i.self.inst i.params σ = ty → i.bound = b →
      (∀ p ∈ i.preds, Holds impls (p.1.inst i.params σ) p.2) → Holds impls ty b

/-- No other implementation of `Format` in the program fits the type `name<..>` (the compiler rejects a
program with two). -/
def OnlyImpl (impls : List Impl) (d : DeriveInput) (i : Impl) : Prop :=
  i ∈ impls ∧ ∀ j ∈ impls, ∀ σ (args : List RTy), j.bound = .format →
    j.self.inst j.params σ = args.foldl RTy.app (.name d.name) → j = i

/-- `f` is a field of the item -/
def GFields.all : GFields → List GField
  | .named fs | .unnamed fs => fs
  | .unit => []

def DeriveInput.HasField (d : DeriveInput) (f : GField) : Prop :=
  match d.body with
  | .struct fields => f ∈ fields.all
  | .enum variants => ∃ v ∈ variants, f ∈ v.fields.all

/-- `RefTo n ty`: `n`, a reference to it, a reference to that, and so on -/
inductive RefTo (n : List Char) : RTy → Prop where
  | base : RefTo n (.name n)
  | ref {t} : RefTo n t → RefTo n (.ref t)

/-- The built-in types with their own statement: the integers, floats, `bool`, `str`. -/
def builtins : List (List Char) :=
  [c!"u8", c!"u16", c!"u32", c!"u64", c!"u128", c!"usize", c!"i8", c!"i16", c!"i32", c!"i64", c!"i128",
   c!"isize", c!"f32", c!"f64", c!"bool", c!"str"]

/-- The trait that the type of a field must implement: that of the wrapper its attribute asks for, or
`Format`. -/
inductive Needs (f : GField) : Bound → Prop where
  | format : Asks f.toField none → Needs f .format
  | debug : Asks f.toField (some .debug2Format) → Needs f .debug
  | display : Asks f.toField (some .display2Format) → Needs f .display

/-- `Checks params env s ty`: the statement `s` type checks in an `impl` with these type parameters and
this where clause, for a field of type `ty`. A type parameter hides the built-in type of the same name. -/
inductive Checks (params : List (List Char)) (env : List Pred) : Stmt → RTy → Prop where
  | fmt {ty} : (ty, Bound.format) ∈ env → Checks params env .fmt ty
  | debug {ty} : (ty, Bound.debug) ∈ env ∨ (∃ n ∈ builtins, n ∉ params ∧ RefTo n ty) →
      Checks params env .debug2Format ty
  | display {ty} : (ty, Bound.display) ∈ env ∨ (∃ n ∈ builtins, n ∉ params ∧ RefTo n ty) →
      Checks params env .display2Format ty
  | native {ty n} : n ∈ builtins → n ∉ params → RefTo n ty → Checks params env (.native n) ty

/-- The fields of the variants, one by one; a struct has one variant. -/
def DeriveInput.variants (d : DeriveInput) : List (List GField) :=
  match d.body with
  | .struct fields => [fields.all]
  | .enum variants => variants.map (fun v => v.fields.all)

/-- Name and fields of variant `k`; a struct is its only variant. -/
def DeriveInput.shape (d : DeriveInput) (k : Nat) : Option (List Char × GFields) :=
  match d.body with
  | .struct fields => if k = 0 then some (d.name, fields) else none
  | .enum variants => variants[k]?.map (fun v => (v.name, v.fields))

/-- The text of a value with the texts of its fields: `Name`, `Name(a, b)` or `Name { x: a, y: b }`. -/
def writtenText (name : List Char) (fields : GFields) (texts : List (List Char)) : List Char :=
  match fields with
  | .unit | .named [] | .unnamed [] => name
  | .named fs => name ++ c!" { " ++ Display.separated c!", " (List.zipWith (fun f s => f.name ++ c!": " ++ s) fs texts) ++ c!" }"
  | .unnamed _ => name ++ c!"(" ++ Display.separated c!", " texts ++ c!")"

/-- `Wrapper impls w`: `w<T>` implements `Format` only if `T` does, like `Option`, `Box` and `Vec`. -/
def Wrapper (impls : List Impl) (w : List Char) : Prop :=
  ∀ i ∈ impls, ∀ σ t, i.bound = .format → i.self.inst i.params σ = .app (.name w) t →
    ∃ p ∈ i.preds, p.1.inst i.params σ = t ∧ p.2 = .format

/-- `Wrapped impls t ty`: `ty` is `t` inside of any number of wrappers, none or more. -/
inductive Wrapped (impls : List Impl) (t : RTy) : RTy → Prop where
  | here : Wrapped impls t t
  | app {w ty} : Wrapper impls w → Wrapped impls t ty → Wrapped impls t (.app (.name w) ty)

end Defmt.Derive
