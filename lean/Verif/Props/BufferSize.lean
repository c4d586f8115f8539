import Verif.Model.BufferSize
import Verif.Props.Rtt
import Verif.Lemmas.Grammar
/-!
# C105: the size of the RTT buffer is the one asked for
-/

namespace Defmt.BufferSize
open Parser

/-- `Asked s n`: the text `s` is the number `n` in decimal; a plus sign and leading zeros are allowed. -/
def Asked (s : List Char) (n : Nat) : Prop := Number (2 ^ 64) s n ∨ ∃ ds, s = '+' :: ds ∧ Number (2 ^ 64) ds n

theorem parseUsize_iff (s : List Char) (n : Nat) : parseUsize s = some n ↔ Asked s n := by
  have key : ∀ ds : List Char, (if ds.all isDigit then parseDigits (2 ^ 64) ds else none) = some n ↔ Number (2 ^ 64) ds n := by
    intro ds
    by_cases h : ds.all isDigit = true
    · rw [if_pos h]
      exact parseDigits_iff (by simpa using h)
    · rw [if_neg h]
      refine ⟨(by intro h'; cases h'), fun h' => absurd ?_ h⟩
      have := h'.2.1
      rw [← isDigit_eq'] at this
      simpa using this
  unfold parseUsize Asked
  split
  · rename_i ds
    rw [key]
    constructor
    · exact fun h => Or.inr ⟨ds, rfl, h⟩
    · rintro (h | ⟨ds', h1, h2⟩)
      · have := h.2.1 '+' (by simp)
        exact absurd this (by decide)
      · cases h1; exact h2
  · rename_i h
    rw [key]
    constructor
    · exact Or.inl
    · rintro (h' | ⟨ds', h1, h2⟩)
      · exact h'
      · exact absurd h1 (h ds')

end Defmt.BufferSize

namespace Defmt
open BufferSize
open Parser (Number)

/-- **C105** Which buffer the firmware has, exactly: the variable holds a number, or cannot be read (then it is 1024); the array
is smaller than half of the address space; with lints the number is positive and fits into `usize`, without them it is
taken modulo the size of `usize`. -/
theorem C105_exact (bits : Nat) (lints : Bool) (v : EnvVar) (size : Nat) :
    bufSize bits lints v = some size ↔
      ∃ n, ((∃ s, v = .text s ∧ Asked s n) ∨ (v = .unset ∨ v = .notUnicode) ∧ n = 1024) ∧
        (lints = true → 0 < n ∧ n < 2 ^ bits) ∧ size = n % 2 ^ bits ∧ size < 2 ^ (bits - 1) := by
  have hb : ∀ n, buildScript v = some n ↔ ((∃ s, v = .text s ∧ Asked s n) ∨ (v = .unset ∨ v = .notUnicode) ∧ n = 1024) := by
    intro n
    cases v with
    | unset => simp [buildScript, eq_comm]
    | notUnicode => simp [buildScript, eq_comm]
    | text s => simp [buildScript, parseUsize_iff]
  unfold bufSize
  rw [Option.bind_eq_some_iff]
  constructor
  · rintro ⟨n, h1, h2⟩
    refine ⟨n, (hb n).mp h1, ?_⟩
    unfold compiled at h2
    split at h2
    · cases h2
    · rename_i hl
      split at h2
      · cases h2
      · simp only [Option.some.injEq] at h2
        refine ⟨fun hlt => ?_, h2.symm, by omega⟩
        simp only [hlt, Bool.true_and, Bool.or_eq_true, decide_eq_true_eq, beq_iff_eq, not_or] at hl
        omega
  · rintro ⟨n, h1, h2, h3, h4⟩
    refine ⟨n, (hb n).mpr h1, ?_⟩
    unfold compiled
    rw [if_neg, if_neg (by omega), h3]
    cases hlt : lints with
    | false => simp
    | true =>
      have := h2 hlt
      simp only [Bool.true_and, Bool.or_eq_true, decide_eq_true_eq, beq_iff_eq, not_or]
      omega

/-- **C105** (part) With lints, a variable that is text is obeyed: the buffer has the size it says, or the firmware cannot be built. -/
theorem C105_obeyed_partial (bits : Nat) (s : List Char) (size : Nat) (h : bufSize bits true (.text s) = some size) :
    Asked s size ∧ 0 < size ∧ size < 2 ^ (bits - 1) := by
  obtain ⟨n, h1, h2, h3, h4⟩ := (C105_exact bits true (.text s) size).mp h
  rw [Nat.mod_eq_of_lt (h2 rfl).2] at h3
  subst h3
  rcases h1 with ⟨s', e, h1⟩ | ⟨h1 | h1, _⟩
  · cases e; exact ⟨h1, (h2 rfl).1, h4⟩
  · cases h1
  · cases h1

/-- **C105** Cursors never overflow: what the target adds to the cursor fits in `usize`, for every size that can be built. -/
theorem C105_no_overflow (bits : Nat) (hbits : 0 < bits) (lints : Bool) (v : EnvVar) (cfg : Rtt.Config)
    (h : bufSize bits lints v = some cfg.size) (s0 s : Rtt.State) (h0 : Rtt.Between cfg s0) (hr : Rtt.Reachable cfg s0 s)
    (rest : List UInt8) (cursor len : Nat) (pending : List (Nat × UInt8)) (ht : s.target = .copying rest cursor len pending) :
    cursor + len < 2 ^ bits := by
  obtain ⟨n, _, _, _, h4⟩ := (C105_exact bits lints v cfg.size).mp h
  obtain ⟨h1, _, h3, _⟩ := C49_copies cfg s0 s h0 hr rest cursor len pending ht
  have : 2 ^ bits = 2 * 2 ^ (bits - 1) := by rw [← Nat.pow_succ']; congr 1; omega
  omega

/-- **C105** fails: a buffer of one byte can be built, and then a write never completes. -/
theorem C105_fails_one : bufSize 32 true (.text c!"1") = some 1 ∧
    ∃ cfg σ, cfg.size = 1 ∧ Rtt.Between cfg (σ 0) ∧ Rtt.blocking cfg (σ 0) = true ∧ Rtt.Run cfg σ ∧
      Rtt.TargetRuns cfg σ ∧ Rtt.HostReads cfg σ ∧ ∀ j, 1 ≤ j → Rtt.Writing (σ j).target :=
  ⟨by decide +kernel, C50_size_one⟩

/-- **C105** fails: a value that is not Unicode is ignored. -/
theorem C105_fails_unicode (lints : Bool) : bufSize 32 lints .notUnicode = some 1024 := by cases lints <;> decide +kernel

/-- **C105** fails without lints (as for dependencies): a number too large for the target gives another size, and no bytes at all
are accepted as size. -/
theorem C105_fails_lints : bufSize 32 false (.text c!"4294967301") = some 5 ∧ bufSize 32 false (.text c!"0") = some 0 :=
  ⟨by decide +kernel, by decide +kernel⟩

example : bufSize 32 true (.text c!"+0512") = some 512 ∧ bufSize 32 true (.text c!"512 ") = none ∧ bufSize 32 true (.text c!"0x200") = none ∧
    bufSize 32 true (.text c!"") = none ∧ bufSize 32 true .unset = some 1024 ∧ bufSize 32 true (.text c!"4294967301") = none ∧
    bufSize 32 true (.text c!"0") = none ∧ bufSize 32 true (.text c!"2147483648") = none := by decide +kernel

end Defmt
