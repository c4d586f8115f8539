import Verif.Props.LogOutput
import Verif.Lemmas.LogExact
/-!
# C56, C65, C69: exactly what is shown, also for groups with a width and a colour or style
-/

namespace Defmt

open LogFormat

/-- **C56** (exactly) What is seen of any text `s`, with any sequences in it, after formatting: the text, padded to the width, from which for each place at
which all styles end in `s` the length of the sequence of the own colour and style is subtracted (nothing if there is none). -/
theorem C56_exact {t : Term} (ht : t.Ok) {s v out : List Char} {f : Format} {defaultWidth : Nat} {level : Option Level} {color : Option LogColor}
    (hv : Visible s v) (h : buildFormatted t s f defaultWidth level color = some out) :
    ∃ shown, Visible out shown ∧
      Padded (f.width.getD defaultWidth - endings s * (wantedStyle t (applyColor color level) (f.style.getD [])).flatten.length)
        (f.alignment.getD .left) (fillText f) v shown := by
  refine ⟨_, visible_iff.mpr (buildFormatted_exact ht h), ?_⟩
  rw [visible_iff.mp hv, fillText_eq]
  exact padded_padTo _ _ _ _

/-- **C56** (exactly) The width is the one asked for if and only if the text fills it anyway, no style ends in it, or it gets no colour and style itself. -/
theorem C56_width_iff {t : Term} (ht : t.Ok) {s v out shown : List Char} {f : Format} {defaultWidth : Nat} {level : Option Level}
    {color : Option LogColor} (hv : Visible s v) (h : buildFormatted t s f defaultWidth level color = some out) (hs : Visible out shown) :
    shown.length = max v.length (f.width.getD defaultWidth) ↔
      f.width.getD defaultWidth ≤ v.length ∨ endings s = 0 ∨ wantedStyle t (applyColor color level) (f.style.getD []) = [] := by
  obtain ⟨shown', h1, h2⟩ := C56_exact ht hv h
  have e : shown = shown' := by rw [← visible_iff.mp hs, ← visible_iff.mp h1]
  subst e
  obtain ⟨b, c, _, hlen, _⟩ := h2
  rw [hlen]
  generalize f.width.getD defaultWidth = w
  generalize hst : wantedStyle t (applyColor color level) (f.style.getD []) = st
  have hpos : st = [] ∨ 0 < st.flatten.length := by
    rw [← hst, wantedStyle]
    split
    · exact Or.inl rfl
    · right; simp
  constructor
  · intro he
    by_cases hw : w ≤ v.length
    · exact Or.inl hw
    · right
      by_cases hk : endings s = 0
      · exact Or.inl hk
      · right
        rcases hpos with hp | hp
        · exact hp
        · exfalso
          have := Nat.mul_pos (Nat.pos_of_ne_zero hk) hp
          omega
  · rintro (hw | hk | hk)
    · omega
    · rw [hk, Nat.zero_mul]; rfl
    · rw [hk]; simp

/-- **C56** (exactly) Formatting panics if and only if the width, with the characters of the sequences in the text, is larger than `core::fmt` takes. -/
theorem C56_panics_iff {t : Term} (ht : t.Ok) {s v : List Char} (hv : Visible s v) (f : Format) (defaultWidth : Nat) (level : Option Level)
    (color : Option LogColor) :
    buildFormatted t s f defaultWidth level color = none ↔ t.maxWidth < f.width.getD defaultWidth + (s.length - v.length) := by
  rw [buildFormatted]
  simp only [ansi_length]
  simp only [visible_iff.mp hv]
  have hm := ht.maxWidth
  constructor
  · intro h
    split at h
    · rename_i hc
      rcases hc with hc | hc
      · exact Nat.lt_of_lt_of_le hm hc
      · exact hc
    · cases h
  · intro h
    rw [if_pos (Or.inr h)]

/-- **C65** The condition on the sequences in a message is needed: the printer panics exactly if more characters of the message are parts of sequences than
`core::fmt` can pad (65535 in current versions of Rust). -/
theorem C65_hidden_panics {t : Term} (ht : t.Ok) {r : Record} (hs : r.source = .defmt) (hl : r.level = none) (hd : ¬ LikeDiff r.args) (segments : List Segment) :
    formatRecord t segments r = none ↔ ¬ FewHidden t.maxWidth r.args := by
  have hv : Visible r.args (stripAnsi r.args) := visible_iff.mpr rfl
  simp only [formatRecord, hl, Option.isSome_none, Bool.false_eq_true, if_false, buildLog, hs, colorDiff_notLike t hd]
  rw [C56_panics_iff ht hv]
  constructor
  · rintro h ⟨seen, h1, h2⟩
    rw [visible_iff.mp h1] at h
    simp only [Option.getD_none] at h
    omega
  · intro h
    simp only [Option.getD_none]
    refine Classical.byContradiction fun hn => h ⟨_, hv, by omega⟩

/-- **C69** (exactly) Each character of a line is shown with the colour and the styles asked for, also in groups with a width and a colour or style and for texts
with sequences of their own, which take effect in addition; only the padding is shorter where a style ends within. -/
theorem C69_exact {t : Term} (ht : t.Ok) {segments : List Segment} {r : Record} {l : Level} (hl : r.level = some l) {cells : List Cell} {n : Nat}
    (h : DrawnAll t r l segments cells n) {line : List Char} (ho : formatRecord t segments r = some line) : Rendered [] line cells [] := by
  simp only [formatRecord, hl, Option.isSome_some, if_true] at ho
  exact (drawnAll_shown ht hl h ho).1.rendered

/-- **C65** (exactly) The visible characters of a line -/
theorem C65_exact {t : Term} (ht : t.Ok) {segments : List Segment} {r : Record} {l : Level} (hl : r.level = some l) {cells : List Cell} {n : Nat}
    (h : DrawnAll t r l segments cells n) {line : List Char} (ho : formatRecord t segments r = some line) : Visible line (cells.map Prod.fst) := by
  simp only [formatRecord, hl, Option.isSome_some, if_true] at ho
  have hs := (drawnAll_shown ht hl h ho).1
  rw [visible_iff, ← hs.2.1]
  exact (renderFrom_length line .text []).symm

/-! ## Examples -/

/-- the group of `C56_fails`: one style ends in it, its own sequence has four characters; 16 of 20 -/
example : endings (Char.ofNat 27 :: c!"[32mINFO " ++ Char.ofNat 27 :: c!"[0m") = 1 ∧
    (wantedStyle (demoTerm true) none [.bold]).flatten.length = 4 := by decide +kernel

example : ∃ cells n line, DrawnAll (demoTerm true) demoRecord .info [boldGroup] cells n ∧ formatRecord (demoTerm true) [boldGroup] demoRecord = some line ∧
    cells.map Prod.fst = c!"[INFO ]         " ∧ n = 2 := by
  refine ⟨_, _, _, .cons (.group (.cons (.text (contained_plain (by decide))) (.cons (.field (.level rfl) (contained_plain (by decide)) ⟨0, 1, rfl, by decide +kernel, rfl⟩)
    (.cons (.text (contained_plain (by decide))) .nil))) ⟨0, 9, rfl, by decide +kernel, rfl⟩) .nil, rfl, ?_, ?_⟩
  · decide +kernel
  · decide +kernel

/-- a message with a word in red -/
def redWordRecord : Record := { demoRecord with args := c!"a " ++ Char.ofNat 27 :: c!"[31mb" ++ Char.ofNat 27 :: c!"[0m c" }

theorem redWord_contained : Contained redWordRecord.args [('a', []), (' ', []), ('b', [Char.ofNat 27 :: c!"[31m"]), (' ', []), ('c', [])] :=
  contained_of_shown ⟨rfl, rfl, rfl⟩

/-- in a bold group: the words around it are bold, it is bold and red -/
example : ∃ line, formatRecord (demoTerm true) [.nested [.field .log {}] { style := some [.bold] }] redWordRecord = some line ∧
    Rendered [] line [('a', [Char.ofNat 27 :: c!"[1m"]), (' ', [Char.ofNat 27 :: c!"[1m"]), ('b', [Char.ofNat 27 :: c!"[1m", Char.ofNat 27 :: c!"[31m"]),
      (' ', [Char.ofNat 27 :: c!"[1m"]), ('c', [Char.ofNat 27 :: c!"[1m"])] [] := by
  have h : Drawn (demoTerm true) redWordRecord .info (.field .log {}) _ _ :=
    .message (f := {}) rfl (not_likeDiff (by decide)) redWord_contained ⟨0, 0, rfl, by decide +kernel, rfl⟩
  have h2 : Drawn (demoTerm true) redWordRecord .info (.nested [.field .log {}] { style := some [.bold] }) _ _ :=
    .group (.cons h .nil) ⟨0, 0, rfl, by decide +kernel, rfl⟩
  refine ⟨_, rfl, ?_⟩
  exact C69_exact (demoTerm_ok true) (r := redWordRecord) (l := .info) rfl (.cons h2 .nil) rfl

/-- a terminal that can pad two characters, and a message with a sequence of four -/
example : ¬ FewHidden 2 (Char.ofNat 27 :: c!"[0mab") := by
  rintro ⟨seen, h1, h2⟩
  have : stripAnsi (Char.ofNat 27 :: c!"[0mab") = c!"ab" := by decide +kernel
  rw [visible_iff] at h1
  rw [← h1, this] at h2
  revert h2
  decide

/-- a text with a sequence in it: in red and with width 8 there are only three characters -/
example : Visible (Char.ofNat 27 :: c!"[0mab") c!"ab" ∧
    ∃ out, buildFormatted (demoTerm true) (Char.ofNat 27 :: c!"[0mab") { width := some 8 } 0 (some .info) (some (.color .red)) = some out ∧
      Visible out c!"ab " := ⟨visible_iff.mpr (by decide +kernel), _, rfl, visible_iff.mpr (by decide +kernel)⟩

/-- a width that is accepted for a plain text, but not for one with a sequence -/
example : (buildFormatted (demoTerm true) c!"ab" { width := some 65535 } 0 (some .info) none).isSome = true ∧
    buildFormatted (demoTerm true) (Char.ofNat 27 :: c!"[0mab") { width := some 65535 } 0 (some .info) none = none := by decide +kernel

end Defmt
