import Verif.Lemmas.Logger
import Verif.Props.Framing
/-!
# C53: frames of different contexts never interleave

`kind` ranges over the three loggers, `enc` over the two encodings, `s` over all states reachable by any
interleaving of the steps of any number of contexts.
-/

namespace Defmt
open Logger

/-- At most one context is in the middle of a frame. -/
theorem C53_one_at_a_time (kind : Kind) (enc : Logger.Encoding) (s : State) (h : Logger.Reachable kind enc s) (c d : Nat)
    (hc : s.inside c = true) (hd : s.inside d = true) : c = d := by
  have hi := Inv.reachable h
  have key : ∀ i, s.inside i = true → s.owner = some i := by
    intro i hin
    by_cases ho : s.owner = some i
    · exact ho
    · rw [(hi.others i ho).2.2] at hin; cases hin
  exact Option.some.inj ((key c hc).symm.trans (key d hd))

/-- **C53** The wire is always the concatenation of the whole frames completed so far, in the order of their
completion, followed by the beginning of at most one unfinished frame of one context. -/
theorem C53_whole_frames (kind : Kind) (enc : Logger.Encoding) (s : State) (h : Logger.Reachable kind enc s) :
    ((∀ c, s.inside c = false) ∧ s.wire = wireOf enc (s.completed.map Prod.snd) none) ∨
    (∃ c, s.inside c = true ∧ (∀ d, s.inside d = true → d = c) ∧
      s.wire = wireOf enc (s.completed.map Prod.snd) (some (s.payload c))) := by
  have hi := Inv.reachable h
  by_cases hex : ∃ c, s.inside c = true
  · obtain ⟨c, hc⟩ := hex
    exact .inr ⟨c, hc, fun d hd => C53_one_at_a_time kind enc s h d c hd hc, (hi.frame c hc).2⟩
  · have hall : ∀ c, s.inside c = false := fun c => by
      cases hin : s.inside c
      · rfl
      · exact absurd ⟨c, hin⟩ hex
    exact .inl ⟨hall, (hi.between hall).2⟩

/-- **C53** A context that logs while it is in the middle of a frame (a `Format` implementation that logs)
panics in `acquire`, and nothing is written. -/
theorem C53_reentrant_panics (kind : Kind) (enc : Logger.Encoding) (s s' : State) (h : Logger.Reachable kind enc s) (c : Nat)
    (hc : s.inside c = true) (r : Bool) (hp : s.pc c = .entered r) (hs : Logger.Step kind enc c s s') :
    s'.pc c = .panicked ∧ s'.wire = s.wire ∧ s'.completed = s.completed := by
  have hi := Inv.reachable h
  have ho := hi.owned (c := c) (by rw [hp]; simp)
  have hok := hi.owner c ho
  rw [hp] at hok
  have ht : s.taken = true := hok.1.trans hc
  cases hs with
  | reentered h1 h2 => exact ⟨update_same, rfl, rfl⟩
  | check h1 h2 => rw [ht] at h2; cases h2
  | enterSection h1 => rw [hp] at h1; cases h1
  | leaveSection h1 => rw [hp] at h1; cases h1
  | acquire h1 => rcases h1 with h1 | h1 | h1 <;> rw [hp] at h1 <;> cases h1
  | take h1 => rw [hp] at h1; cases h1
  | save h1 => rw [hp] at h1; cases h1
  | start h1 => rw [hp] at h1; cases h1
  | write _ h1 => rw [hp] at h1; cases h1
  | writeOutside h1 => rw [hp] at h1; cases h1
  | release h1 => rw [hp] at h1; cases h1
  | releaseOutside h1 => rw [hp] at h1; cases h1
  | finish h1 => rw [hp] at h1; cases h1
  | load _ h1 => rw [hp] at h1; cases h1
  | clear _ h1 => rw [hp] at h1; cases h1
  | clearItm _ h1 => rw [hp] at h1; cases h1
  | loadItm _ h1 => rw [hp] at h1; cases h1
  | leave h1 => rw [hp] at h1; cases h1

/-- any number of steps of any contexts -/
inductive LoggerSteps (kind : Kind) (enc : Logger.Encoding) : State → State → Prop where
  | refl {s : State} : LoggerSteps kind enc s s
  | step {s s' s'' : State} (c : Nat) : LoggerSteps kind enc s s' → Logger.Step kind enc c s' s'' → LoggerSteps kind enc s s''

/-- **C53** After such a panic nothing is ever written again, by no context, also not when the panic handler
logs. -/
theorem C53_silent_after_panic (kind : Kind) (enc : Logger.Encoding) (s s' : State) (h : Logger.Reachable kind enc s) (c : Nat)
    (hp : s.pc c = .panicked) (hs : LoggerSteps kind enc s s') : s'.wire = s.wire ∧ s'.completed = s.completed := by
  have hi := Inv.reachable h
  have ho := hi.owned (c := c) (by rw [hp]; simp)
  have hok := hi.owner c ho
  rw [hp] at hok
  have key : Inv enc s' ∧ s'.owner = some c ∧ s'.inside c = true ∧ (s'.pc c = .panicked ∨ ∃ r, s'.pc c = .entered r) ∧
      s'.wire = s.wire ∧ s'.completed = s.completed := by
    induction hs with
    | refl => exact ⟨hi, ho, hok.2, .inl hp, rfl, rfl⟩
    | @step s1 s2 d hr hs ih =>
      obtain ⟨a1, a2, a3, a4, a5, a6⟩ := ih
      have b1 := a1.step hs
      by_cases hd : d = c
      · subst hd
        have hok1 := a1.owner d a2
        cases hs with
        | acquire h1 h2 => exact ⟨b1, rfl, a3, .inr ⟨_, update_same⟩, a5, a6⟩
        | reentered h1 h2 => exact ⟨b1, a2, a3, .inl update_same, a5, a6⟩
        | check h1 h2 => rw [h1] at hok1; rw [hok1.1, a3] at h2; cases h2
        | enterSection h1 => rcases a4 with a4 | ⟨r, a4⟩ <;> rw [a4] at h1 <;> cases h1
        | leaveSection h1 => rcases a4 with a4 | ⟨r, a4⟩ <;> rw [a4] at h1 <;> cases h1
        | take h1 => rcases a4 with a4 | ⟨r, a4⟩ <;> rw [a4] at h1 <;> cases h1
        | save h1 => rcases a4 with a4 | ⟨r, a4⟩ <;> rw [a4] at h1 <;> cases h1
        | start h1 => rcases a4 with a4 | ⟨r, a4⟩ <;> rw [a4] at h1 <;> cases h1
        | write _ h1 => rcases a4 with a4 | ⟨r, a4⟩ <;> rw [a4] at h1 <;> cases h1
        | writeOutside h1 => rcases a4 with a4 | ⟨r, a4⟩ <;> rw [a4] at h1 <;> cases h1
        | release h1 => rcases a4 with a4 | ⟨r, a4⟩ <;> rw [a4] at h1 <;> cases h1
        | releaseOutside h1 => rcases a4 with a4 | ⟨r, a4⟩ <;> rw [a4] at h1 <;> cases h1
        | finish h1 => rcases a4 with a4 | ⟨r, a4⟩ <;> rw [a4] at h1 <;> cases h1
        | load _ h1 => rcases a4 with a4 | ⟨r, a4⟩ <;> rw [a4] at h1 <;> cases h1
        | clear _ h1 => rcases a4 with a4 | ⟨r, a4⟩ <;> rw [a4] at h1 <;> cases h1
        | clearItm _ h1 => rcases a4 with a4 | ⟨r, a4⟩ <;> rw [a4] at h1 <;> cases h1
        | loadItm _ h1 => rcases a4 with a4 | ⟨r, a4⟩ <;> rw [a4] at h1 <;> cases h1
        | leave h1 => rcases a4 with a4 | ⟨r, a4⟩ <;> rw [a4] at h1 <;> cases h1
      · obtain ⟨o1, o2, o3⟩ := a1.others d (by rw [a2]; simpa using fun h => hd h.symm)
        have hno : ¬ (s1.owner = none ∨ s1.owner = some d) := by
          rw [a2]; simpa using fun h => hd h.symm
        cases hs with
        | enterSection h1 h2 => exact absurd h2 hno
        | leaveSection h1 h2 => rw [o2] at h2; cases h2
        | acquire h1 h2 => exact absurd h2 hno
        | reentered h1 h2 => rw [o1] at h1; cases h1
        | check h1 h2 => rw [o1] at h1; cases h1
        | take h1 => rw [o1] at h1; cases h1
        | save h1 => rw [o1] at h1; cases h1
        | start h1 => rw [o1] at h1; cases h1
        | write _ h1 => rw [o1] at h1; cases h1
        | writeOutside h1 => rw [o1] at h1; cases h1
        | release h1 => rw [o1] at h1; cases h1
        | releaseOutside h1 => rw [o1] at h1; cases h1
        | finish h1 => rw [o1] at h1; cases h1
        | load _ h1 => rw [o1] at h1; cases h1
        | clear _ h1 => rw [o1] at h1; cases h1
        | clearItm _ h1 => rw [o1] at h1; cases h1
        | loadItm _ h1 => rw [o1] at h1; cases h1
        | leave h1 => rw [o1] at h1; cases h1
  exact ⟨key.2.2.2.2.1, key.2.2.2.2.2⟩

/-- **C53** The only panic is the one of a reentrant `acquire`: `acquire` never panics because another context
is logging, and the checks in `write` and `release` never fire. -/
theorem C53_no_other_panic (kind : Kind) (enc : Logger.Encoding) (s s' : State) (h : Logger.Reachable kind enc s) (c d : Nat)
    (hs : Logger.Step kind enc c s s') (hp : s'.pc d = .panicked) (hn : s.pc d ≠ .panicked) :
    d = c ∧ s.inside c = true ∧ ∃ r, s.pc c = .entered r := by
  have hi := Inv.reachable h
  have hd : d = c := by
    refine Classical.byContradiction fun hne => hn ?_
    cases hs <;> first | exact hp | exact (update_ne hne).symm.trans hp
  subst hd
  refine ⟨rfl, ?_⟩
  cases hs with
  | reentered h1 h2 =>
    have hok := hi.owner d (hi.owned (by rw [h1]; simp))
    rw [h1] at hok
    exact ⟨hok.1.symm.trans h2, _, h1⟩
  | writeOutside h1 h2 =>
    have hok := hi.owner d (hi.owned (by rw [h1]; simp))
    rw [h1] at hok
    rw [hok.1] at h2; cases h2.2
  | releaseOutside h1 h2 =>
    have hok := hi.owner d (hi.owned (by rw [h1]; simp))
    rw [h1] at hok
    rw [hok.1] at h2; cases h2.2
  | enterSection h1 => exact absurd hp hn
  | leaveSection h1 => exact absurd hp hn
  | write _ h1 => exact absurd hp hn
  | acquire h1 => simp [update] at hp
  | check h1 h2 => simp [update] at hp
  | take h1 => simp [update] at hp
  | save h1 => simp [update] at hp
  | start h1 => simp [update] at hp
  | release h1 => simp [update] at hp
  | finish h1 => simp [update] at hp
  | load _ h1 => simp [update] at hp
  | clear _ h1 => simp [update] at hp
  | clearItm _ h1 => simp [update] at hp
  | loadItm _ h1 => simp [update] at hp
  | leave h1 => simp [update] at hp

/-- **C53** A context inside of a log statement is never blocked by the others. -/
theorem C53_not_blocked (kind : Kind) (enc : Logger.Encoding) (s : State) (h : Logger.Reachable kind enc s) (c : Nat)
    (hc : s.pc c ≠ .idle) : ∃ s', Logger.Step kind enc c s s' := by
  have hi := Inv.reachable h
  have ho := hi.owned hc
  have hkind : (s.pc c = .cleared → kind = .itm) ∧ (∀ r, s.pc c = .restoring r → kind ≠ .itm) := by
    clear hi hc ho
    induction h with
    | initial => exact ⟨by simp [Logger.initial], by simp [Logger.initial]⟩
    | step d hr hs ih =>
      by_cases hd : c = d
      · subst hd
        cases hs <;> simp [update] at * <;> assumption
      · cases hs <;> simp only [update_ne hd] <;> exact ih
  cases hp : s.pc c with
  | idle => exact absurd hp hc
  | entered r =>
    cases ht : s.taken
    · exact ⟨_, .check hp ht⟩
    · exact ⟨_, .reentered hp ht⟩
  | checked r => exact ⟨_, .take hp⟩
  | stored r => exact ⟨_, .save hp⟩
  | saved => exact ⟨_, .start hp⟩
  | framing =>
    have hok := hi.owner c ho
    rw [hp] at hok
    exact ⟨_, .release hp (.inr hok.1)⟩
  | releasing => exact ⟨_, .finish hp⟩
  | ended =>
    by_cases hk : kind = .itm
    · exact ⟨_, .clearItm hk hp⟩
    · exact ⟨_, .load hk hp⟩
  | restoring r => exact ⟨_, .clear (hkind.2 r hp) hp⟩
  | cleared => exact ⟨_, .loadItm (hkind.1 hp) hp⟩
  | leaving r => exact ⟨_, .leave hp⟩
  | panicked => exact ⟨_, .acquire (.inr (.inr hp)) (.inr ho)⟩

/-- **C53** When all contexts are outside of log statements and of critical sections of their own, the
critical section is free and the logger is not taken: every `acquire` is undone by its `release`. -/
theorem C53_released (kind : Kind) (enc : Logger.Encoding) (s : State) (h : Logger.Reachable kind enc s)
    (hidle : ∀ c, s.pc c = .idle ∧ s.sections c = []) : s.owner = none ∧ s.taken = false := by
  have hi := Inv.reachable h
  have ho : s.owner = none := by
    cases ho : s.owner with
    | none => rfl
    | some c =>
      have hok := hi.owner c ho
      rw [(hidle c).1] at hok
      exact absurd (hidle c).2 hok.2.2
  exact ⟨ho, hi.free ho⟩

/-- **C53** A critical section that a context holds around a log statement is still held after it, and one
that was not held is released: while a context has critical sections of its own it owns the lock, and the
lock is owned only by a context that logs or has a critical section of its own. -/
theorem C53_sections_kept (kind : Kind) (enc : Logger.Encoding) (s : State) (h : Logger.Reachable kind enc s) (c : Nat) :
    (s.sections c ≠ [] → s.owner = some c) ∧ (s.owner = some c → s.sections c ≠ [] ∨ s.pc c ≠ .idle) := by
  have hi := Inv.reachable h
  refine ⟨hi.owned_section, fun ho => ?_⟩
  by_cases hp : s.pc c = .idle
  · have hok := hi.owner c ho
    rw [hp] at hok
    exact .inl hok.2.2
  · exact .inr hp

/-- the blocks of frames that were sent one after another, and perhaps the beginning of one more -/
theorem scan_frames (fs : List (List UInt8)) (tail : List UInt8) (ht : ∀ b ∈ tail, b ≠ 0) :
    Stream.scan [] ([0] ++ (fs.map Rzcobs.frameBytes).flatten ++ tail) =
      ((fs.filter (· ≠ [])).map Rzcobs.frameBody, tail) := by
  show Stream.scan [] (0 :: ((fs.map Rzcobs.frameBytes).flatten ++ tail)) = _
  have h0 : Stream.scan [] (0 :: ((fs.map Rzcobs.frameBytes).flatten ++ tail)) =
      Stream.scan [] ((fs.map Rzcobs.frameBytes).flatten ++ tail) := by simp [Stream.scan]
  rw [h0]
  induction fs with
  | nil => simp [Stream.scan_nonzero tail ht]
  | cons p ps ih =>
    have hrec := ih (by simp [Stream.scan])
    by_cases hp : p = []
    · subst hp
      have he : Rzcobs.frameBytes [] = [0] := by decide
      simp only [List.map_cons, List.flatten_cons, he]
      show Stream.scan [] (0 :: ((ps.map Rzcobs.frameBytes).flatten ++ tail)) = _
      simp only [Stream.scan, if_true]
      rw [hrec]
      simp
    · obtain ⟨h1, h2⟩ := C02_separator_unambiguous p
      have hb : Rzcobs.frameBody p ≠ [] := by
        intro h
        obtain ⟨k, hk, h3⟩ := C01_frame_roundtrip p
        rw [h] at h3
        have : p ++ List.replicate k 0 = [] := by
          simpa [Rzcobs.rzcobsDecode, Rzcobs.decodeLoop] using h3.symm
        exact hp (List.append_eq_nil_iff.mp this).1
      simp only [List.map_cons, List.flatten_cons]
      rw [h1, List.append_assoc, List.append_assoc, List.singleton_append, Stream.scan_block _ _ h2 hb, hrec]
      simp [hp]

/-- the blocks on a wire -/
theorem scan_wireOf (fs : List (List UInt8)) (cur : Option (List UInt8)) :
    ∃ rest, Stream.scan [] (wireOf .rzcobs fs cur) = ((fs.filter (· ≠ [])).map Rzcobs.frameBody, rest) := by
  cases cur with
  | none =>
    cases fs with
    | nil => exact ⟨[], rfl⟩
    | cons f fs =>
      refine ⟨[], ?_⟩
      have := scan_frames (f :: fs) [] (by simp)
      rw [List.append_nil] at this
      exact this
  | some d =>
    refine ⟨(Rzcobs.Encoder.write { run := 0, zeros := 0, started := true } d).2, ?_⟩
    have := scan_frames fs _ (C02_unfinished_frame_has_no_separator d true)
    cases fs <;> exact this

/-- the blocks on the wire are the bodies of the completed frames -/
theorem wire_blocks (kind : Kind) (s : State) (h : Logger.Reachable kind .rzcobs s) :
    ∃ rest, Stream.scan [] s.wire =
      (((s.completed.map Prod.snd).filter (· ≠ [])).map Rzcobs.frameBody, rest) := by
  rcases C53_whole_frames kind .rzcobs s h with ⟨_, hw⟩ | ⟨c, _, _, hw⟩
  · rw [hw]; exact scan_wireOf _ _
  · rw [hw]; exact scan_wireOf _ _

/-- **C53** What the host sees (rzCOBS), for every way to cut the wire into chunks: one result for every
completed frame that is not empty, in order, nothing else, and the unfinished frame waits in the buffer.
(Empty frames come from `defmt::flush`.) -/
theorem C53_host_sees_whole_frames (kind : Kind) (s : State) (h : Logger.Reachable kind .rzcobs s)
    {F : Type} (td : List UInt8 → Except DecodeError (F × Nat)) (chunks : List (List UInt8))
    (hc : chunks.flatten = s.wire) :
    ∃ rest, Stream.Rzcobs.feed td [] chunks =
      some (rest, ((s.completed.map Prod.snd).filter (· ≠ [])).map (fun p => Stream.report td (Rzcobs.frameBody p))) := by
  obtain ⟨rest, hr⟩ := wire_blocks kind s h
  refine ⟨rest, ?_⟩
  rw [C06_stream_meaning, hc]
  simp only [Stream.unfinished, Stream.completeBlocks, hr, List.map_map]
  rfl

/-! ### A concrete execution -/

/-- Context 0 takes a critical section of its own and sends a frame, releases it, then context 1 is in the
middle of a frame when it logs again. -/
example : ∃ s, Logger.Reachable .rtt .raw s ∧ s.completed = [(0, [1, 2])] ∧ s.wire = [1, 2, 3] ∧
    s.inside 1 = true ∧ s.pc 1 = .entered true ∧ s.taken = true := by
  refine ⟨_, .step 1 (.step 1 (.step 1 (.step 1 (.step 1 (.step 1 (.step 1 (.step 0 (.step 0 (.step 0 (.step 0 (.step 0 (.step 0
    (.step 0 (.step 0 (.step 0 (.step 0 (.step 0 (.step 0 (.step 0 (.step 0 .initial
    (.enterSection rfl (.inl rfl)))
    (.acquire (.inl rfl) (.inr rfl))) (.check rfl rfl)) (.take rfl)) (.save rfl)) (.start rfl))
    (.write [1] rfl (.inr rfl))) (.write [2] rfl (.inr rfl))) (.release rfl (.inr rfl))) (.finish rfl))
    (.load (by decide) rfl)) (.clear (by decide) rfl)) (.leave rfl)) (.leaveSection rfl rfl))
    (.acquire (.inl rfl) (.inl rfl))) (.check rfl rfl)) (.take rfl)) (.save rfl)) (.start rfl))
    (.write [3] rfl (.inr rfl))) (.acquire (.inr (.inl rfl)) (.inr rfl)), ?_, ?_, ?_, ?_, ?_⟩ <;> rfl

/-- Context 1 has panicked and its panic handler logs, while context 0 waits: the hypotheses of `C53_silent_after_panic` and, one step earlier, of
`C53_no_other_panic`. -/
example : ∃ s s' s'', Logger.Reachable .itm .raw s ∧ s.inside 1 = true ∧ s.pc 1 ≠ .panicked ∧ Logger.Step .itm .raw 1 s s' ∧ s'.pc 1 = .panicked ∧
    LoggerSteps .itm .raw s' s'' ∧ s''.pc 1 = .panicked ∧ s''.wire = [3] := by
  refine ⟨_, _, _, .step 1 (.step 1 (.step 1 (.step 1 (.step 1 (.step 1 (.step 1 .initial
    (.acquire (.inl rfl) (.inl rfl))) (.check rfl rfl)) (.take rfl)) (.save rfl)) (.start rfl))
    (.write [3] rfl (.inl rfl))) (.acquire (.inr (.inl rfl)) (.inr rfl)), rfl, ?_, .reentered rfl rfl, rfl,
    .step 1 (.step 1 .refl (.acquire (.inr (.inr rfl)) (.inr rfl))) (.reentered rfl rfl), rfl, rfl⟩
  simp [update]

/-- All contexts are outside after a frame (`C53_released`), with the other order of the last steps of `defmt-itm`. -/
example : ∃ s, Logger.Reachable .itm .rzcobs s ∧ (∀ c, s.pc c = .idle ∧ s.sections c = []) ∧ s.completed = [(4, [1])] ∧ s.wire = [0, 1, 0x7e, 0] := by
  refine ⟨_, .step 4 (.step 4 (.step 4 (.step 4 (.step 4 (.step 4 (.step 4 (.step 4 (.step 4 (.step 4 (.step 4 .initial
    (.acquire (.inl rfl) (.inl rfl))) (.check rfl rfl)) (.take rfl)) (.save rfl)) (.start rfl))
    (.write [1] rfl (.inl rfl))) (.release rfl (.inl rfl))) (.finish rfl)) (.clearItm rfl rfl)) (.loadItm rfl rfl)) (.leave rfl), ?_, rfl, rfl⟩
  intro c
  simp only [update, Logger.initial]
  split <;> simp

end Defmt
