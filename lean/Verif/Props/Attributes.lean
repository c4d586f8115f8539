import Verif.Lemmas.Attributes
import Verif.Model.Resolve
/-!
# C113: what the attributes of defmt accept, and what they leave of the item
-/

namespace Defmt

open Parser
open Attributes

/-- **C113** `#[panic_handler]` accepts exactly the functions written `fn name() -> !` (or `fn name<>() -> !`), without arguments to the attribute and
without a plain attribute `#[export_name ..]` or `#[no_mangle]`. -/
theorem C113_panic_handler (args : Toks) (f : ItemFn) (h : f.sig.Proper) :
    (∃ r, panicHandler args f = .ok r) ↔
      args = [] ∧
      (f.sig.text = [c!"fn", f.sig.ident, c!"(", c!")", c!"->", c!"!"] ∨
        f.sig.text = [c!"fn", f.sig.ident, c!"<", c!">", c!"(", c!")", c!"->", c!"!"]) ∧
      ∀ a ∈ f.attrs, a.path ≠ [c!"export_name"] ∧ a.path ≠ [c!"no_mangle"] := by
  rw [← sig_exact h]
  have hc := conflicts_ok [c!"export_name", c!"no_mangle"] f.attrs
  simp only [List.mem_cons, List.not_mem_nil, or_false, forall_eq_or_imp, forall_eq] at hc
  rw [← hc]
  rw [← validateFn_ok]
  unfold panicHandler
  cases args with
  | cons a as => simp
  | nil =>
    cases hv : validateFn f <;> simp

/-- **C113** What the user wrote stays: the attributes in their order, the name, and the body as the only content of the function. -/
theorem C113_panic_handler_item (args : Toks) (f r : ItemFn) (h : panicHandler args f = .ok r) :
    r.sig.text = [c!"fn", f.sig.ident, c!"(", c!")", c!"->", c!"!"] ∧ r.block = c!"{" :: (f.block ++ [c!"}"]) ∧
      r.attrs = f.attrs ++ [.plain [c!"export_name"] [c!"=", c!"\"_defmt_panic\""], .plain [c!"inline"] [c!"(", c!"never", c!")"]] := by
  unfold panicHandler at h
  split at h
  · cases h
  · split at h
    · cases h
    · cases h
      exact ⟨rfl, by simp [codegenFn], rfl⟩

/-- **C113** The function is the one that panics call, `_defmt_panic`, unless the user asks for another name in an attribute that the macro does not look into. -/
theorem C113_panic_handler_symbol (args : Toks) (f r : ItemFn) (h : panicHandler args f = .ok r) (hn : exportNames f = []) :
    exportNames r = [c!"\"_defmt_panic\""] ∧ c!"_defmt_panic" ∈ (Resolve.Thing.panicHandler f.sig.ident).defines := by
  unfold panicHandler at h
  split at h
  · cases h
  · split at h
    · cases h
    · cases h
      refine ⟨?_, by simp [Resolve.Thing.defines]⟩
      unfold exportNames at hn ⊢
      simp only [codegenFn, List.flatMap_append, List.filterMap_append, hn]
      rfl

/-- **C113** Without `unsafe(..)` and `cfg_attr` around attributes, an accepted handler has no `#[no_mangle]` and no other `#[export_name]`, as the book says. -/
theorem C113_conflicts_partial (args : Toks) (f r : ItemFn) (h : panicHandler args f = .ok r)
    (hp : ∀ a ∈ f.attrs, ∃ path rest, a = .plain path rest) : exportNames f = [] ∧ ¬ noMangle f := by
  have hc : checkForAttributeConflicts [c!"export_name", c!"no_mangle"] f.attrs = .ok () := by
    unfold panicHandler at h
    split at h
    · cases h
    · split at h
      · cases h
      · rename_i hv
        exact ((validateFn_ok f).mp hv).2
  rw [conflicts_ok] at hc
  constructor
  · unfold exportNames
    rw [List.filterMap_eq_nil_iff]
    intro x hx
    obtain ⟨a, ha, hxa⟩ := List.mem_flatMap.mp hx
    obtain ⟨path, rest, rfl⟩ := hp a ha
    simp only [Attr.effective, List.mem_singleton] at hxa
    subst hxa
    split
    · rw [if_neg]
      exact fun h => hc _ ha _ (by simp) h.1
    · rfl
  · rintro ⟨x, hx, he⟩
    obtain ⟨a, ha, hxa⟩ := List.mem_flatMap.mp hx
    obtain ⟨path, rest, rfl⟩ := hp a ha
    simp only [Attr.effective, List.mem_singleton] at hxa
    subst hxa
    exact hc _ ha _ (by simp) he

/-- A handler with attributes. -/
def demoHandler (vis : Vis) (attrs : List Attr) : ItemFn :=
  ⟨attrs, vis, ⟨false, false, false, none, c!"stop", ⟨false, [], none⟩, [], false, .never⟩, [c!"loop", c!"{", c!"}"]⟩

/-- The hypotheses of the theorems above are met by an ordinary handler with another attribute. -/
example : (demoHandler [] [.plain [c!"cold"] []]).sig.Proper ∧
    panicHandler [] (demoHandler [] [.plain [c!"cold"] []]) = .ok (codegenFn (demoHandler [] [.plain [c!"cold"] []])) ∧
    exportNames (demoHandler [] [.plain [c!"cold"] []]) = [] :=
  ⟨⟨⟨by simp [demoHandler], by simp [demoHandler]⟩, by simp [demoHandler], by simp [demoHandler]⟩, rfl, by decide⟩

/-- **C113** That the attribute cannot be used together with `no_mangle` and `export_name` (book/src/panic.md:45) is not true of the way these are written
since the edition 2024: `#[unsafe(no_mangle)]` and `#[unsafe(export_name = "other")]` are accepted, and the second leaves the function with two names. -/
theorem C113_conflicts_false :
    (∃ f r, panicHandler [] f = .ok r ∧ noMangle f) ∧
    ∃ f r, panicHandler [] f = .ok r ∧ exportNames r = [c!"\"other\"", c!"\"_defmt_panic\""] :=
  ⟨⟨demoHandler [] [.unsafely (.plain [c!"no_mangle"] [])], _, rfl, ⟨([c!"no_mangle"], []), by decide⟩⟩,
   demoHandler [] [.unsafely (.plain [c!"export_name"] [c!"=", c!"\"other\""])], _, rfl, by decide⟩

/-- **C113** The visibility of the handler is lost: a `pub` handler is private afterwards. -/
theorem C113_visibility_false : ∀ args f r, panicHandler args f = .ok r → r.vis = [] := by
  intro args f r h
  unfold panicHandler at h
  split at h
  · cases h
  · split at h
    · cases h
    · cases h; rfl

/-- ... and there are `pub` handlers. -/
example : ∃ r, panicHandler [] (demoHandler [c!"pub"] []) = .ok r := ⟨_, rfl⟩

/-- **C113** `#[global_logger]` accepts exactly the structs written `struct Name;` (or `struct Name<>;`), without arguments to the attribute. -/
theorem C113_global_logger (args : Toks) (s : ItemStruct) (h : s.generics.Proper) :
    (∃ r, globalLogger args s = .ok r) ↔
      args = [] ∧ (s.text = [c!"struct", s.ident, c!";"] ∨ s.text = [c!"struct", s.ident, c!"<", c!">", c!";"]) := by
  rw [← struct_exact h]
  unfold globalLogger validateStruct
  cases args with
  | cons a as => simp
  | nil =>
    obtain ⟨attrs, vis, ident, ⟨angles, params, wh⟩, fields⟩ := s
    cases params <;> cases wh <;> cases fields <;> simp

/-- **C113** The struct stays with its attributes, its visibility and its name, and the four functions that log statements call are those of its `Logger`. -/
theorem C113_global_logger_item (args : Toks) (s : ItemStruct) (r : LoggerItems) (h : globalLogger args s = .ok r) :
    r.strukt.attrs = s.attrs ∧ r.strukt.vis = s.vis ∧ r.strukt.text = [c!"struct", s.ident, c!";"] ∧
      r.functions.map (·.1) = (Resolve.Thing.logger s.ident).defines ∧
      ∀ fn ∈ r.functions, fn.2.1 = s.ident ∧ fn.1 = c!"_defmt_" ++ fn.2.2 := by
  unfold globalLogger at h
  split at h
  · cases h
  · split at h
    · cases h
    · cases h
      refine ⟨rfl, rfl, rfl, rfl, ?_⟩
      intro fn hfn
      simp only [codegenStruct, List.mem_cons, List.not_mem_nil, or_false] at hfn
      rcases hfn with rfl | rfl | rfl | rfl <;> exact ⟨rfl, rfl⟩

/-- A logger that is accepted, and two structs that are not. -/
example : (∃ r, globalLogger [] ⟨[], [c!"pub"], c!"Rtt", ⟨false, [], none⟩, .unit⟩ = .ok r) ∧
    globalLogger [] ⟨[], [], c!"Rtt", ⟨false, [], none⟩, .named []⟩ = .error .notUnit ∧
    globalLogger [] ⟨[], [], c!"Rtt", ⟨false, [], some []⟩, .unit⟩ = .error .notUnit := ⟨⟨_, rfl⟩, rfl, rfl⟩

/-- **C113** `#[defmt(..)]` at a type with `#[derive(Format)]`: accepted exactly if all its entries (of all these attributes) are `crate = path`; the
generated code then uses the last path, or `defmt` without any entry. -/
theorem C113_crate (parsePath : Toks → Option (List Tok)) (attrs : List DefmtAttr) (path : List Tok) :
    defmtCratePath parsePath attrs = some path ↔
      ∃ lists : List (List Meta), attrs = lists.map .list ∧ CratePath parsePath [c!"defmt"] lists.flatten path := by
  unfold defmtCratePath
  constructor
  · intro h
    obtain ⟨lists, rfl⟩ := crateAttrs_lists h
    rw [crateAttrs_eq] at h
    exact ⟨lists, rfl, crateMetas_some.mp h⟩
  · rintro ⟨lists, rfl, h⟩
    rw [crateAttrs_eq]
    exact crateMetas_some.mpr h

/-- `#[defmt(crate = a)] #[defmt(crate = b)]` uses `b`; `#[defmt(krate = a)]` and `#[defmt]` are errors. -/
example : defmtCratePath some [.list [⟨[c!"crate"], [c!"=", c!"a"]⟩], .list [⟨[c!"crate"], [c!"=", c!"b"]⟩]] = some [c!"b"] ∧
    defmtCratePath some [.list [⟨[c!"krate"], [c!"=", c!"a"]⟩]] = none ∧ defmtCratePath some [.bare] = none ∧
    defmtCratePath some [] = some [c!"defmt"] := by decide

end Defmt
