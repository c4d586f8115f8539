import Verif.Spec.BitflagsInput
/-!
# Lemmas about the input of `bitflags!`
-/

namespace Defmt.Bitflags

open Parser Attributes

variable {E : Type}

theorem parseFlags_attrs (attrs pre : List Attr) (rest : List (FlagTok E)) :
    parseFlags pre (attrs.map .attr ++ rest) = parseFlags (pre ++ attrs) rest := by
  induction attrs generalizing pre with
  | nil => simp
  | cons a as ih => simp [parseFlags, ih]

theorem parseFlags_sound {input : List (FlagTok E)} {pre : List Attr} {fs : List (InputFlag E)} (h : parseFlags pre input = some fs) :
    FlagsText fs (pre.map .attr ++ input) := by
  fun_induction parseFlags pre input generalizing fs with
  | case1 pre hp =>
    cases h
    have : pre = [] := by simpa using hp
    subst this
    exact .none
  | case2 => cases h
  | case3 pre a rest ih =>
    have := ih h
    simpa using this
  | case4 pre n e =>
    cases h
    exact FlagsText.last (E := E) ⟨pre, n, e⟩
  | case5 pre n e rest ih =>
    cases hr : parseFlags [] rest with
    | none => simp [hr] at h
    | some gs =>
      simp [hr] at h
      subst h
      have := FlagsText.more ⟨pre, n, e⟩ (ih hr)
      simpa [InputFlag.text] using this
  | case6 => cases h

theorem parseFlags_complete {input : List (FlagTok E)} {fs : List (InputFlag E)} (h : FlagsText fs input) : parseFlags [] input = some fs := by
  induction h with
  | none => rfl
  | last f =>
    rw [InputFlag.text, parseFlags_attrs]
    simp [parseFlags]
  | @more f fs rest h ih =>
    have : f.text ++ .semi :: rest = f.attrs.map .attr ++ (.const :: .ident f.ident :: .eq :: .expr f.value :: .semi :: rest) := by
      simp [InputFlag.text]
    rw [this, parseFlags_attrs]
    simp [parseFlags, ih]

theorem parseFlags_iff {input : List (FlagTok E)} {fs : List (InputFlag E)} : parseFlags [] input = some fs ↔ FlagsText fs input :=
  ⟨fun h => by simpa using parseFlags_sound h, parseFlags_complete⟩

theorem parseOuter_text (input : List (InputTok E)) : input = (parseOuter input).1.map .attr ++ (parseOuter input).2 := by
  fun_induction parseOuter input with
  | case1 a rest ih => simp [← ih]
  | case2 => simp

theorem parseOuter_attrs (attrs : List Attr) (rest : List (InputTok E)) (h : ∀ a r, rest ≠ .attr a :: r) :
    parseOuter (attrs.map .attr ++ rest) = (attrs, rest) := by
  induction attrs with
  | nil =>
    cases rest with
    | nil => rfl
    | cons t r => cases t <;> first | rfl | exact absurd rfl (h _ _)
  | cons a as ih => simp [parseOuter, ih]

theorem parseVis_text (input : List (InputTok E)) : input = ((parseVis input).1.map .vis).toList ++ (parseVis input).2 := by
  fun_cases parseVis input <;> simp

theorem keeps_static {eval : Toks → Bool} {f : InputFlag E} (h : hasConst eval f = true) : hasStatic eval f = true := by
  unfold hasConst at h
  unfold hasStatic extractCfgs
  rw [List.all_eq_true] at h ⊢
  intro a ha
  obtain ⟨ha, hp⟩ := List.mem_filter.mp ha
  have := h a ha
  cases a with
  | plain path rest =>
    simp only [Attr.path, beq_iff_eq] at hp
    simpa [keeps, hp] using this
  | unsafely a => rfl
  | cfgAttr b a => rfl

theorem nodup_inj {α β : Type} {g : α → β} {l : List α} (h : (l.map g).Nodup) {a b : α} (ha : a ∈ l) (hb : b ∈ l) (e : g a = g b) : a = b := by
  induction l with
  | nil => cases ha
  | cons x xs ih =>
    simp only [List.map_cons, List.nodup_cons, List.mem_map, not_exists, not_and] at h
    rcases List.mem_cons.mp ha with ha' | ha' <;> rcases List.mem_cons.mp hb with hb' | hb'
    · rw [ha', hb']
    · exact absurd (ha' ▸ e.symm) (h.1 b hb')
    · exact absurd (hb' ▸ e) (h.1 a ha')
    · exact ih h.2 ha' hb'

theorem static_iff_const {eval : Toks → Bool} {fs : List (InputFlag E)} (h : Compiles eval fs) {f : InputFlag E} (hf : f ∈ fs) :
    hasStatic eval f = hasConst eval f := by
  cases hs : hasStatic eval f with
  | true =>
    obtain ⟨g, hg, he, hc⟩ := h.resolved f hf hs
    have := nodup_inj h.distinct (List.mem_filter.mpr ⟨hf, hs⟩) (List.mem_filter.mpr ⟨hg, keeps_static hc⟩) he.symm
    rw [this, hc]
  | false =>
    cases hc : hasConst eval f with
    | false => rfl
    | true => rw [keeps_static hc] at hs; cases hs

theorem statics_eq {eval : Toks → Bool} (fs : List (InputFlag E)) (h : ∀ f ∈ fs, hasStatic eval f = hasConst eval f) (i : Nat) :
    statics eval i fs = ((List.range' i fs.length).zip fs).filterMap fun p => if hasConst eval p.2 then some (p.1, p.2.ident) else none := by
  induction fs generalizing i with
  | nil => rfl
  | cons f rest ih =>
    simp only [statics, List.length_cons, List.range'_succ, List.zip_cons_cons, List.filterMap_cons]
    rw [h f (by simp), ih (fun g hg => h g (by simp [hg]))]
    cases hasConst eval f <;> simp

end Defmt.Bitflags
