import Verif.Props.RoundTrip
import Verif.Lemmas.Sendable
/-! # Property C104: the host accepts nothing but what a log statement sends -/

namespace Defmt

open Parser Decoder Encoder

/-- **C104** Whatever bytes arrive: if the host decodes them to a frame of a log statement, then some execution of this log statement, with
arguments that type check, sends exactly the bytes that were consumed and means exactly this frame. The only exception are frames
in which a manual implementation of `Format` is directly a part of another one; those are never sent. -/
theorem C104_exact (t : Table) (ht : Strings t) (bytes : List UInt8) (frame : Frame) (n : Nat)
    (h : t.decode bytes = some (.ok (frame, n))) (e : Entry) (he : t.entries frame.index = some e) (hlog : LogTag e.tag) :
    (FlatAll frame.timestampArgs ∧ FlatAll frame.args) ↔
      ∃ event : LogEvent, event.Ok t ∧ event.frame = frame ∧ event.bytes = some (bytes.take n) ∧ n ≤ bytes.length := by
  constructor
  · rintro ⟨hf1, hf2⟩
    unfold Table.decode at h
    split at h
    · rename_i fr rest hd
      cases h
      obtain ⟨index, r1, h1, hd⟩ := bind_ok hd
      obtain ⟨e1, e2⟩ := readUInt_inv h1
      obtain ⟨⟨tf, ta⟩, r2, h2, hd⟩ := bind_ok hd
      obtain ⟨⟨level, fmt⟩, r3, h3, hd⟩ := bind_ok hd
      obtain ⟨e3, rfl⟩ := orMalformed_inv h3
      obtain ⟨as, r4, h4, hd⟩ := bind_ok hd
      cases hd
      simp only at he hf1 hf2
      unfold Table.getWithLevel at e3
      rw [he] at e3
      cases e3
      obtain ⟨tys, vs, d, a1, a2, a3, a4, a5⟩ := (format_inv ht _).1 _ _ _ _ (ht.log _ _ he hlog) h4 hf2
      have hcall : Call.Ok t ⟨e.string, vs⟩ := ⟨tys, a1, a2⟩
      have hden : Call.denote ⟨e.string, vs⟩ = as := by unfold Call.denote; simp only [a1, a5]
      have henc : Call.encode ⟨e.string, vs⟩ = some d := by unfold Call.encode; simp only [a1, a3]
      unfold Table.decodeTimestamp at h2
      cases hts : t.timestamp with
      | none =>
        rw [hts] at h2
        cases h2
        subst e1 a4
        refine ⟨⟨index, e.tag, none, ⟨e.string, vs⟩⟩, ⟨by simpa using e2, he, hcall, by simp [hts]⟩, ?_, ?_, by simp⟩
        · simp only [LogEvent.frame, hden, Option.map_none]
        · simp only [LogEvent.bytes, encodeLog, henc, Option.map_some]
          rw [← List.append_assoc, List.length_append, Nat.add_sub_cancel, List.take_left]
      | some te =>
        rw [hts] at h2
        obtain ⟨tas, r5, h5, h2⟩ := bind_ok h2
        cases h2
        obtain ⟨tys', vs', d', b1, b2, b3, b4, b5⟩ := (format_inv ht _).1 _ _ _ _ (ht.timestamp _ hts) h5 hf1
        have hcall' : Call.Ok t ⟨te.string, vs'⟩ := ⟨tys', b1, b2⟩
        have hden' : Call.denote ⟨te.string, vs'⟩ = ta := by unfold Call.denote; simp only [b1, b5]
        have henc' : Call.encode ⟨te.string, vs'⟩ = some d' := by unfold Call.encode; simp only [b1, b3]
        subst e1 a4 b4
        refine ⟨⟨index, e.tag, some ⟨te.string, vs'⟩, ⟨e.string, vs⟩⟩, ⟨by simpa using e2, he, hcall, by simp [hts, hcall']⟩, ?_, ?_, by simp⟩
        · simp only [LogEvent.frame, hden, hden', Option.map_some]
        · simp only [LogEvent.bytes, encodeLog, henc, henc']
          rw [← List.append_assoc, ← List.append_assoc, List.length_append, Nat.add_sub_cancel, List.take_left]
    all_goals cases h
  · rintro ⟨event, ⟨-, -, h3, h4⟩, rfl, -, -⟩
    refine ⟨?_, call_flat h3⟩
    unfold LogEvent.frame
    cases hets : event.ts with
    | none => trivial
    | some c =>
      rw [hets] at h4
      cases hts : t.timestamp with
      | none => rw [hts] at h4; exact h4.elim
      | some te => rw [hts] at h4; exact call_flat h4.2

/-- a program with a log statement, a manual implementation, a `write!` and an enum -/
def sendTable : Table := ⟨some ⟨.timestamp, c!"{=u32:us}"⟩, fun i =>
  if i = 1 then some ⟨.info, c!"{=?} {=bool} {=char}"⟩
  else if i = 2 then some ⟨.derived, sequenceFormat⟩
  else if i = 3 then some ⟨.write, c!"a {=u8}"⟩
  else if i = 4 then some ⟨.derived, c!"A|B {=str}"⟩ else none⟩

theorem sendTable_strings : Strings sendTable := by
  have hc : ∀ i e, sendTable.entries i = some e → (i = 1 ∧ e = ⟨.info, c!"{=?} {=bool} {=char}"⟩) ∨ (i = 2 ∧ e = ⟨.derived, sequenceFormat⟩) ∨
      (i = 3 ∧ e = ⟨.write, c!"a {=u8}"⟩) ∨ (i = 4 ∧ e = ⟨.derived, c!"A|B {=str}"⟩) := by
    intro i e h
    simp only [sendTable] at h
    repeat' split at h
    all_goals (cases h; try simp_all)
  have a1 : Accepted c!"{=?} {=bool} {=char}" := ⟨3, [.format, .bool, .char], by decide +kernel, by simp [ExactTy]⟩
  have a3 : Accepted c!"a {=u8}" := ⟨1, [.u8], by decide +kernel, by simp [ExactTy]⟩
  have a4 : Accepted c!"A|B {=str}" := ⟨1, [.str], by decide +kernel, by simp [ExactTy]⟩
  have p1 : Accepted c!"A" := ⟨0, [], by decide +kernel, by simp⟩
  have p2 : Accepted c!"B {=str}" := ⟨1, [.str], by decide +kernel, by simp [ExactTy]⟩
  refine ⟨?_, ?_, ?_, ?_⟩
  · intro i e h; rcases hc i e h with ⟨rfl, -⟩ | ⟨rfl, -⟩ | ⟨rfl, -⟩ | ⟨rfl, -⟩ <;> decide
  · intro i e h
    rcases hc i e h with ⟨-, rfl⟩ | ⟨-, rfl⟩ | ⟨-, rfl⟩ | ⟨-, rfl⟩
    · exact ⟨.inr a1, fun hm => absurd hm (by decide), by decide⟩
    · exact ⟨.inl rfl, fun hm => absurd hm (by decide), by decide⟩
    · exact ⟨.inr a3, fun hm => absurd hm (by decide), by decide⟩
    · refine ⟨.inr a4, fun _ v hv => .inl ?_, by decide⟩
      have : Parser.splitAt '|' c!"A|B {=str}" = [c!"A", c!"B {=str}"] := by decide
      rw [this] at hv
      simp only [List.mem_cons, List.not_mem_nil, or_false] at hv
      rcases hv with rfl | rfl
      · exact p1
      · exact p2
  · intro i e h hl
    rcases hc i e h with ⟨-, rfl⟩ | ⟨-, rfl⟩ | ⟨-, rfl⟩ | ⟨-, rfl⟩
    · exact a1
    · exact absurd hl (by unfold LogTag; decide)
    · exact a3
    · exact a4
  · intro e h
    cases h
    exact ⟨1, [.u32], by decide +kernel, by simp [ExactTy]⟩

/-- the hypotheses are met: a frame with a manual implementation that makes one `write!`, and one more byte -/
example : ∃ frame, sendTable.decode [1, 0, 9, 0, 0, 0, 2, 0, 3, 0, 7, 0, 0, 1, 0x61, 0, 0, 0, 0xee] = some (.ok (frame, 18)) ∧
    frame.index = 1 ∧ FlatAll frame.timestampArgs ∧ FlatAll frame.args :=
  ⟨_, rfl, rfl, ⟨trivial, trivial⟩, by
    simp only [FlatAll, Flat, and_true, true_and]
    intro a ha bs
    simp only [List.mem_cons, List.not_mem_nil, or_false] at ha
    subst ha
    intro e
    cases e⟩

/-- a bool that is neither 0 nor 1, a char that is no char, text that is not UTF-8, a variant that does not exist are not accepted -/
example : sendTable.decode [1, 0, 9, 0, 0, 0, 4, 0, 0, 2, 0x61, 0, 0, 0] = some (.err .malformed) ∧
    sendTable.decode [1, 0, 9, 0, 0, 0, 4, 0, 0, 1, 0, 0xd8, 0, 0] = some (.err .malformed) ∧
    sendTable.decode [1, 0, 9, 0, 0, 0, 4, 0, 1, 2, 0, 0, 0, 0xc0, 0x80, 1, 0x61, 0, 0, 0] = some (.err .malformed) ∧
    sendTable.decode [1, 0, 9, 0, 0, 0, 4, 0, 2, 1, 0x61, 0, 0, 0] = some (.err .malformed) := ⟨rfl, rfl, rfl, rfl⟩

/-- **C104 does not hold** in full: a manual implementation that is directly a part of another one is accepted, but no program sends it. -/
theorem C104_fails_sequence : ∃ bytes frame n, sendTable.decode bytes = some (.ok (frame, n)) ∧
    ¬ ∃ event : LogEvent, event.Ok sendTable ∧ event.frame = frame := by
  refine ⟨[1, 0, 9, 0, 0, 0, 2, 0, 2, 0, 0, 0, 0, 0, 1, 0x61, 0, 0, 0], _, _, rfl, ?_⟩
  rintro ⟨event, ⟨-, -, h3, -⟩, he⟩
  have hf := call_flat h3
  have : event.call.denote = event.frame.args := rfl
  rw [this, he] at hf
  simp only [FlatAll, Flat] at hf
  exact hf.1.1.2 _ (List.mem_cons_self ..) _ rfl

/-- **C104 does not hold** for bitfields of more than four octets that end in the last octets of 128 bits: the host reads eight bytes and
does not look at the last three. No `u128` sends these bytes. -/
theorem C104_fails_padding :
    let t : Table := ⟨none, fun i => if i = 1 then some ⟨.info, c!"{=88..128}"⟩ else none⟩
    t.decode [1, 0, 1, 2, 3, 4, 5, 6, 7, 8] = t.decode [1, 0, 1, 2, 3, 4, 5, 0, 0, 0] ∧
    (∃ frame, t.decode [1, 0, 1, 2, 3, 4, 5, 6, 7, 8] = some (.ok (frame, 10))) ∧
    ∀ n < 2 ^ 128, encodeLog 1 none ⟨c!"{=88..128}", [.uint 16 n]⟩ ≠ some [1, 0, 1, 2, 3, 4, 5, 6, 7, 8] := by
  refine ⟨rfl, ⟨_, rfl⟩, fun n hn h => ?_⟩
  have ht : argTypes c!"{=88..128}" 1 = some [.bitField 88 128] := by decide +kernel
  have he : encodeArg (.bitField 88 128) (.uint 16 n) (formatData (.uint 16 n)) = some (le 8 (n / 2 ^ 88)) := rfl
  simp only [encodeLog, Call.encode, List.length_cons, List.length_nil, Nat.zero_add, ht, encodeArgs, he, List.append_nil,
    Option.map_some, Option.some.injEq] at h
  have h1 : le 8 (n / 2 ^ 88) = [1, 2, 3, 4, 5, 6, 7, 8] := List.append_cancel_left (as := le 2 1) h
  have h2 := congrArg leNat h1
  rw [leNat_le, show leNat [1, 2, 3, 4, 5, 6, 7, 8] = 578437695752307201 by decide] at h2
  omega

/-- **C104** The host does not look at the kind of a string either: a string that no log statement uses is shown like the message of one. -/
theorem C104_fails_kind : ∃ frame, sendTable.decode [3, 0, 9, 0, 0, 0, 7] = some (.ok (frame, 7)) ∧ frame.format = c!"a {=u8}" ∧ frame.level = none :=
  ⟨_, rfl, rfl, rfl⟩

end Defmt
