import Verif.Props.Display
import Verif.Lemmas.Display
/-! C33: displaying decoded frames. -/

namespace Defmt

open Parser Decoder Display

theorem showArgs_at {env : Env} {as : List Arg} {i : Nat} {s : Shower} (h : (showArgs env as)[i]? = some s) :
    ∃ a, as[i]? = some a ∧ s = showArg env a := by
  rw [showArgs_eq, List.getElem?_map, Option.map_eq_some_iff] at h
  obtain ⟨a, h1, h2⟩ := h
  exact ⟨a, h1, h2.symm⟩

theorem text_some {env : Env} {fmt : List Char} {args : List Arg} (hf : Fits (.format fmt args) .format)
    (h : ∀ fs p a x, parse fmt .forwardsCompatible = .ok fs → p ∈ params fs → args[p.index]? = some a →
      Reaches a p none x → ¬ Bad env x) :
    ∃ s, formatArgs fmt (showArgs env args) none = some s := by
  cases hf with
  | format hp hi hfit =>
    rename_i fs
    refine formatArgs_some hp ?_ ?_
    · intro p hpm
      rw [showArgs_eq, List.length_map]
      exact (hi p.index).mpr ⟨p, hpm, rfl⟩
    · intro p hpm s hs
      obtain ⟨a, ha, rfl⟩ := showArgs_at hs
      exact show_some (hfit p hpm a ha) p none rfl fun x hx => h fs p a x hp hpm ha hx

/-- **C33** A frame returned by `decode` can be displayed unless displaying it reaches a value with
one of the combinations of `Bad`.
Missing: these combinations, which make the host panic (`C33_exact`, `C33_fails_*`). -/
theorem C33_display_partial (env : Env) (t : Table) (bs : List UInt8) (f : Frame) (n : Nat)
    (h : t.decode bs = some (.ok (f, n))) (hb : ∀ x, FrameReaches f x → ¬ Bad env x) :
    ∃ s, f.display env = some s := by
  obtain ⟨b0, b1, r1, r2, _, _, _, htf, h1, h2⟩ := C29_frame_from_entry t bs f n h
  have hm : ∃ m, f.message env = some m := by
    refine text_some (fits_format t _ _ _ _ _ h2) ?_
    intro fs p a x hp hpm ha hx
    exact hb x ⟨_, _, fs, p, a, Or.inl ⟨rfl, rfl⟩, hp, hpm, ha, hx⟩
  obtain ⟨m, hm⟩ := hm
  unfold Frame.display
  cases ht : t.timestamp with
  | none =>
    rw [ht] at htf
    simp [htf, hm]
  | some e =>
    rw [ht] at h1 htf
    simp only at h1
    simp only [Option.map_some] at htf
    obtain ⟨s, hs⟩ := text_some (env := env) (fits_format t _ _ _ _ _ h1)
      (fun fs p a x hp hpm ha hx => hb x ⟨_, _, fs, p, a, Or.inr ⟨htf.symm, rfl⟩, hp, hpm, ha, hx⟩)
    rw [htf]
    simp [hs, hm]

/-- **C33** Exactly which frames cannot be displayed: those for which displaying reaches one of the combinations of `Bad`. -/
theorem C33_exact (env : Env) (t : Table) (bs : List UInt8) (f : Frame) (n : Nat) (h : t.decode bs = some (.ok (f, n))) :
    f.display env = none ↔ ∃ x, FrameReaches f x ∧ Bad env x := by
  constructor
  · intro hn
    refine Classical.byContradiction fun hno => ?_
    obtain ⟨s, hs⟩ := C33_display_partial env t bs f n h (fun x hx hb => hno ⟨x, hx, hb⟩)
    rw [hn] at hs; cases hs
  · rintro ⟨x, ⟨fmt, args, fs, p, a, hor, hp, hpm, ha, hx⟩, hb⟩
    have key : formatArgs fmt (showArgs env args) none = none :=
      formatArgs_none hp hpm (by rw [showArgs_eq, List.getElem?_map, ha]; rfl) (show_none hx hb)
    unfold Frame.display Frame.message
    rcases hor with ⟨rfl, rfl⟩ | ⟨h1, rfl⟩
    · simp only [key]
      split
      · rename_i h; cases h
      · rfl
    · rw [← h1]
      simp only [key, Option.map_none]

/-! A condition on the table alone. -/

/-- hint without a date and with a width that `core::fmt` accepts -/
def TameHint (env : Env) (h : Option Hint) : Prop := ¬ TooWide env h ∧ ∀ prec, h ≠ some (.iso8601 prec)

/-- Parameters do not have type `isize`, dates or huge widths. -/
def TameText (env : Env) (f : List Char) : Prop :=
  ∀ fs, parse f .forwardsCompatible = .ok fs → ∀ p ∈ params fs, TameHint env p.hint ∧ p.ty ≠ .isize

/-- The text and its alternatives are tame, and `{=u8}` is not one of several alternatives. -/
def TameString (env : Env) (s : List Char) : Prop :=
  TameText env s ∧ (∀ f ∈ Parser.splitAt '|' s, TameText env f) ∧ ('|' ∈ s → c!"{=u8}" ∉ Parser.splitAt '|' s)

def TameTable (env : Env) (t : Table) : Prop :=
  (∀ e, t.timestamp = some e → TameString env e.string) ∧ ∀ i e, t.entries i = some e → TameString env e.string

theorem AllFrom.mem {t : Table} {as : List Arg} (h : Arg.AllFrom t as) {a : Arg} (ha : a ∈ as) : Arg.From t a := by
  induction as with
  | nil => cases ha
  | cons b bs ih =>
    rw [Arg.AllFrom] at h
    rcases List.mem_cons.mp ha with rfl | ha
    · exact h.1
    · exact ih h.2 ha

theorem TameHint.orElse {env : Env} {h h' : Option Hint} (a : TameHint env h) (b : TameHint env h') :
    TameHint env (h <|> h') := by
  cases h with
  | none => exact b
  | some x => exact a

theorem fits_nested {f : List Char} {args : List Arg} {ty : Ty} (h : Fits (.format f args) ty) {fs : List Fragment}
    (hp : parse f .forwardsCompatible = .ok fs) {q : Parameter} (hq : q ∈ params fs) {b : Arg} (hb : args[q.index]? = some b) :
    Fits b q.ty := by
  cases h with
  | format hp' _ h =>
    rw [hp] at hp'
    cases hp'
    exact h q hq b hb

theorem fits_sequence_mem {args : List Arg} {ty : Ty} (h : Fits (.formatSequence args) ty) {a : Arg} (ha : a ∈ args) : Fits a .format := by
  cases h with
  | sequence h => exact h _ ha

theorem fits_slice_mem {elems : List Arg} {ty : Ty} (h : Fits (.formatSlice elems) ty) {e : Arg} (he : e ∈ elems) : Fits e .format := by
  cases h with
  | formatSlice _ h _ => exact h _ he

theorem tame_not_bad {env : Env} {t : Table} (ht : TameTable env t) {a : Arg} {p : Parameter} {h : Option Hint}
    {x : Arg × Parameter × Option Hint} (hr : Reaches a p h x) (hfit : Fits a p.ty) (ha : Arg.From t a) (hp : TameHint env p.hint)
    (hty : p.ty ≠ .isize) (hh : TameHint env h) : ¬ Bad env x := by
  induction hr with
  | @here a p h =>
    intro hb
    have hw := (hp.orElse hh).1
    have hd := (hp.orElse hh).2
    cases a with
    | uxx n =>
      rcases hb with hb | ⟨_, ⟨_, hb⟩ | ⟨prec, hb, _⟩⟩
      · exact hw hb
      · exact hh.1 hb
      · exact hd prec hb
    | ixx n =>
      rcases hb with hb | hb
      · exact hw hb
      · exact hty hb.1
    | slice bytes => exact hw hb.2.1
    | formatSlice elems =>
      obtain ⟨⟨_, as, he⟩, e', he', hn⟩ := hb
      rw [Arg.From] at ha
      obtain ⟨⟨i, s, ⟨en, hen, _, rfl⟩, hv⟩, hall⟩ := ha
      obtain ⟨f, as', he1, hf⟩ := hv _ he
      cases he1
      unfold IsVariant at hf
      split at hf
      · rename_i hbar
        exact (ht.2 i en hen).2.2 hbar hf
      · rename_i hbar
        obtain ⟨f', as', he2, hf'⟩ := hv _ he'
        unfold IsVariant at hf'
        rw [if_neg hbar] at hf'
        rw [← hf] at hf'
        subst hf' he2
        exact hn (isByte_of_fits (fits_slice_mem hfit he'))
    | _ => exact hb.elim
  | @format f args fs p h q b x hparse hq hb _ ih =>
    rw [Arg.From] at ha
    obtain ⟨⟨i, s, ⟨en, hen, _, rfl⟩, hv⟩, hall⟩ := ha
    have htext : TameText env f := by
      rcases hv with rfl | hv
      · exact (ht.2 i en hen).1
      · exact (ht.2 i en hen).2.1 f hv
    obtain ⟨h1, h2⟩ := htext fs hparse q hq
    refine ih (fits_nested hfit hparse hq hb) (AllFrom.mem hall (List.mem_of_getElem? hb)) h1 h2 ?_
    split
    · exact hh
    · exact hp.orElse hh
  | sequence hm _ ih =>
    rw [Arg.From] at ha
    exact ih (fits_sequence_mem hfit hm) (AllFrom.mem ha hm) ⟨by simp [TooWide], by simp⟩ (by simp) (hp.orElse hh)
  | slice hm _ _ ih =>
    rw [Arg.From] at ha
    exact ih (fits_slice_mem hfit hm) (AllFrom.mem ha.2 hm) ⟨by simp [TooWide], by simp⟩ (by simp) (hp.orElse hh)

/-- **C33** for tables without dates, huge widths, `isize`, and `{=u8}` as an alternative: every
frame returned by `decode` can be displayed. -/
theorem C33_tame_table (env : Env) (t : Table) (ht : TameTable env t) (bs : List UInt8) (f : Frame) (n : Nat)
    (h : t.decode bs = some (.ok (f, n))) : ∃ s, f.display env = some s := by
  refine C33_display_partial env t bs f n h ?_
  intro x ⟨fmt, args, fs, p, a, hor, hp, hpm, ha, hx⟩
  obtain ⟨hn1, hn2⟩ := C30_nested_not_log t bs f n h
  obtain ⟨b0, b1, r1, r2, _, _, ⟨e, he, _, hfe⟩, htf, hd1, hd2⟩ := C29_frame_from_entry t bs f n h
  have hnone : TameHint env none := ⟨by simp [TooWide], by simp⟩
  rcases hor with ⟨rfl, rfl⟩ | ⟨h1, rfl⟩
  · have := (ht.2 _ e he).1 fs (hfe ▸ hp) p hpm
    exact tame_not_bad ht hx (fits_nested (fits_format t _ _ _ _ _ hd2) hp hpm ha) (AllFrom.mem hn2 (List.mem_of_getElem? ha)) this.1 this.2 hnone
  · rw [← h1] at htf
    rw [Eq.comm, Option.map_eq_some_iff] at htf
    obtain ⟨e', he', rfl⟩ := htf
    have := (ht.1 e' he').1 fs hp p hpm
    rw [he'] at hd1
    exact tame_not_bad ht hx (fits_nested (fits_format t _ _ _ _ _ hd1) hp hpm ha) (AllFrom.mem hn1 (List.mem_of_getElem? ha)) this.1 this.2 hnone

/-- a table with a log statement and a format string for nested values -/
def twoEntries (statement nested : List Char) : Table where
  timestamp := none
  entries := fun i => if i = 1 then some ⟨.info, statement⟩ else if i = 2 then some ⟨.derived, nested⟩ else none

/-- `decode` returns a frame that cannot be displayed. -/
def DisplayPanics (env : Env) (t : Table) (bs : List UInt8) : Prop :=
  ∃ f n, t.decode bs = some (.ok (f, n)) ∧ f.display env = none

set_option maxRecDepth 100000 in
/-- **C33 does not hold**: a width above the limit of `core::fmt`. -/
theorem C33_fails_width (env : Env) (h : env.maxWidth < 70000) :
    DisplayPanics env (twoEntries c!"{=u8:070000}" []) [1, 0, 5] := by
  refine ⟨⟨some .info, 1, none, [], c!"{=u8:070000}", [.uxx 5]⟩, 3, rfl, ?_⟩
  have hp : parse c!"{=u8:070000}" .forwardsCompatible = .ok [.param ⟨0, .u8, some (.noHint 70000)⟩] := by decide +kernel
  have : padIntegral env false [] (digits 10 5) 70000 = none := by unfold padIntegral; rw [if_pos h]
  simp [Frame.display, Frame.message, formatArgs, hp, formatFragment, showArgs, showArg, formatUxx, formatU128, this, concat]

set_option maxRecDepth 100000 in
/-- **C33 does not hold**: a date after the year 9999. -/
theorem C33_fails_date (env : Env) :
    DisplayPanics env (twoEntries c!"{=u64:iso8601s}" []) [1, 0, 255, 255, 255, 255, 255, 255, 255, 255] :=
  ⟨⟨some .info, 1, none, [], c!"{=u64:iso8601s}", [.uxx (2 ^ 64 - 1)]⟩, 10, rfl, rfl⟩

set_option maxRecDepth 100000 in
/-- **C33 does not hold**: hexadecimal `isize`. -/
theorem C33_fails_isize (env : Env) : DisplayPanics env (twoEntries c!"{=isize:x}" []) [1, 0, 5, 0, 0, 0] :=
  ⟨⟨some .info, 1, none, [], c!"{=isize:x}", [.ixx 5]⟩, 6, rfl, rfl⟩

set_option maxRecDepth 100000 in
/-- **C33 does not hold**: a slice of an enum one of whose alternatives is `{=u8}`, shown with `:a`. -/
theorem C33_fails_slice (env : Env) :
    DisplayPanics env (twoEntries c!"{=[?]:a}" c!"{=u8}|A") [1, 0, 2, 0, 0, 0, 2, 0, 0, 65, 1] :=
  ⟨⟨some .info, 1, none, [], c!"{=[?]:a}", [.formatSlice [.format c!"{=u8}" [.uxx 65], .format c!"A" []]]⟩, 11, rfl, rfl⟩

set_option maxRecDepth 100000 in
/-- The other alternative may be shown as a byte too, then there is no panic. -/
example (env : Env) : ∃ f n, (twoEntries c!"{=[?]:a}" c!"{=u8}|{=u16:070000}").decode [1, 0, 2, 0, 0, 0, 2, 0, 0, 65, 1, 66, 0] =
    some (.ok (f, n)) ∧ f.display env = some c!"INFO b\"AB\"" :=
  ⟨⟨some .info, 1, none, [], c!"{=[?]:a}", [.formatSlice [.format c!"{=u8}" [.uxx 65], .format c!"{=u16:070000}" [.uxx 66]]]⟩, 13, rfl, rfl⟩

/-- decides `TameText` -/
def tameText (env : Env) (f : List Char) : Bool :=
  match parse f .forwardsCompatible with
  | .ok fs => (params fs).all (fun p => (match p.hint with
      | some (.noHint w) | some (.binary _ w) | some (.octal _ w) | some (.hexadecimal _ _ w) => w ≤ env.maxWidth
      | some (.iso8601 _) => false
      | _ => true) && p.ty != .isize)
  | _ => true

theorem TameText.of_eval {env : Env} {f : List Char} (h : tameText env f = true) : TameText env f := by
  intro fs hp p hpm
  unfold tameText at h
  rw [hp] at h
  have := List.all_eq_true.mp h p hpm
  simp only [Bool.and_eq_true, bne_iff_ne, ne_eq] at this
  refine ⟨⟨?_, ?_⟩, this.2⟩
  · intro hw
    unfold TooWide at hw
    split at hw <;> simp_all <;> omega
  · intro prec hh
    rw [hh] at this
    simp at this

/-- the hypotheses of `C33_tame_table` hold for the table used for the round trip -/
example : TameTable demoEnv demoTable := by
  refine ⟨?_, ?_⟩
  · intro e he
    cases he
    exact ⟨.of_eval (by decide +kernel), fun f hf => .of_eval (by revert f; decide +kernel), by decide +kernel⟩
  · intro i e he
    unfold demoTable at he
    simp only at he
    split at he
    · cases he
      exact ⟨.of_eval (by decide +kernel), fun f hf => .of_eval (by revert f; decide +kernel), by decide +kernel⟩
    split at he
    · cases he
      exact ⟨.of_eval (by decide +kernel), fun f hf => .of_eval (by revert f; decide +kernel), by decide +kernel⟩
    split at he
    · cases he
      exact ⟨.of_eval (by decide +kernel), fun f hf => .of_eval (by revert f; decide +kernel), by decide +kernel⟩
    split at he
    · cases he
      exact ⟨.of_eval (by decide +kernel), fun f hf => .of_eval (by revert f; decide +kernel), by decide +kernel⟩
    · cases he

end Defmt
