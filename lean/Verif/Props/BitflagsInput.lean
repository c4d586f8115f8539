import Verif.Lemmas.BitflagsInput
/-!
# C109, C63: the input of `bitflags!`
-/

namespace Defmt

open Parser Attributes Bitflags

variable {E : Type}

/-- **C109** `bitflags!` accepts exactly `#[attributes] visibility struct Name: type { flags }`, where a flag is `#[attributes] const NAME = value`, with
a semicolon between two flags and, if the user likes, after the last one; one struct per call. -/
theorem C109_bitflags (input : List (InputTok E)) (d : Input E) : parseInput input = some d ↔ d.Text input := by
  unfold parseInput Input.Text
  constructor
  · intro h
    simp only at h
    split at h
    · rename_i n ty content hr
      cases hf : parseFlags [] content with
      | none => simp [hf] at h
      | some fs =>
        simp [hf] at h
        subst h
        refine ⟨content, parseFlags_iff.mp hf, ?_⟩
        conv => lhs; rw [parseOuter_text input, parseVis_text (parseOuter input).2, hr]
        simp
    · cases h
  · rintro ⟨content, hf, rfl⟩
    rw [List.append_assoc, parseOuter_attrs _ _ (by cases d.vis <;> simp)]
    have hf' := parseFlags_iff.mpr hf
    obtain ⟨attrs, vis, ident, ty, flags⟩ := d
    simp only at hf'
    cases vis <;> simp [parseVis, hf']

/-- A text for the definition below. -/
def demoInput : Input Nat :=
  ⟨[], some [c!"pub"], c!"Flags", c!"u8", [⟨[.plain [c!"cfg"] [c!"a"]], c!"A", 1⟩, ⟨[.plain [c!"doc"] []], c!"B", 2⟩]⟩

example : demoInput.Text [.vis [c!"pub"], .struct, .ident c!"Flags", .colon, .type c!"u8",
    .braces [.attr (.plain [c!"cfg"] [c!"a"]), .const, .ident c!"A", .eq, .expr 1, .semi, .attr (.plain [c!"doc"] []), .const, .ident c!"B", .eq, .expr 2]] :=
  (C109_bitflags _ _).mp (by decide)

/-- Without a semicolon between them, and two structs in one call: refused. -/
example : parseInput (E := Nat) [.struct, .ident c!"F", .colon, .type c!"u8", .braces [.const, .ident c!"A", .eq, .expr 1, .const, .ident c!"B", .eq, .expr 2]] = none ∧
    parseInput (E := Nat) [.struct, .ident c!"F", .colon, .type c!"u8", .braces [], .struct, .ident c!"G", .colon, .type c!"u8", .braces []] = none := by decide

/-- **C63** Flags that are removed by `#[cfg]`: if the program compiles, the flags the host is told about are exactly the constants of the type, each with its
position in the source, however the attributes are nested. -/
theorem C63_cfg (eval : Toks → Bool) (d : Input E) (h : Compiles eval d.flags) : statics eval 0 d.flags = consts eval d.flags := by
  rw [statics_eq d.flags (fun f hf => static_iff_const h hf) 0]
  unfold consts
  rw [List.range_eq_range']

/-- These are the flags of the definition that `C63_flags` and `C63_shown` speak about. -/
theorem C63_cfg_enabled (eval : Toks → Bool) (value : E → Nat) (fs : List (InputFlag E)) (i : Nat) :
    (enabledFlags i (fs.map fun f => ⟨f.ident, value f.value, hasStatic eval f⟩)).map (fun p => (p.1, p.2.name)) = statics eval i fs := by
  induction fs generalizing i with
  | nil => rfl
  | cons f rest ih =>
    simp only [List.map_cons, enabledFlags, statics]
    cases hasStatic eval f <;> simp [ih]

/-- Two flags of the same name under opposite conditions meet the hypothesis, and one is told. -/
example : Compiles (fun c => c == [c!"a"]) [(⟨[.plain [c!"cfg"] [c!"a"]], c!"A", 1⟩ : InputFlag Nat), ⟨[.plain [c!"cfg"] [c!"not", c!"a"]], c!"A", 2⟩] ∧
    consts (fun c => c == [c!"a"]) [(⟨[.plain [c!"cfg"] [c!"a"]], c!"A", 1⟩ : InputFlag Nat), ⟨[.plain [c!"cfg"] [c!"not", c!"a"]], c!"A", 2⟩] = [(0, c!"A")] :=
  ⟨⟨by decide, by decide⟩, by decide⟩

/-- **C63** A `#[cfg]` inside `#[cfg_attr]` is not copied to the static (input.rs:81-91); a flag that it removes is a compile error, not a wrong table. -/
theorem C63_cfg_attr (eval : Toks → Bool) (cond : Toks) (hc : eval cond = false) (n : List Char) (e : E) :
    ¬ Compiles eval [⟨[.cfgAttr true (.plain [c!"cfg"] cond)], n, e⟩] := by
  intro h
  obtain ⟨g, hg, _, hk⟩ := h.resolved ⟨[.cfgAttr true (.plain [c!"cfg"] cond)], n, e⟩ (by simp) (by simp [hasStatic, extractCfgs, Attr.path])
  simp only [List.mem_singleton] at hg
  subst hg
  simp [hasConst, keeps, hc] at hk

end Defmt
