import Verif.Lemmas.Program
/-!
# C90 to C92: programs that log

C90: what a program that logs does, exactly: arguments are evaluated in order, once each, before the frame of the statement begins, and also
if the statement is filtered out. C91: what `DEFMT_LOG` selects changes nothing but the log. C92: panics end in a hard fault and print their
message once at most; but a panic in formatting code is not shown (`C92_fails`).
-/

namespace Defmt
open Program

variable {W : Type}

/-! ### a program -/

/-- Function 0 is `main`: `info!("{} {}", f(), g()); h();` where `f` logs itself (`trace!`, site 1). The world counts calls.
Format functions: 0 is the timestamp, 1 writes two bytes, 2 the number of calls, 5 is the message of a panic, 6 panics, 7 logs. -/
def demoProgram (trace : Bool) : Program Nat where
  body f w := (w + 1, match f with
    | 0 => [.log 0 [⟨1, 1⟩, ⟨2, 2⟩], .call 3]
    | 1 => [.log 1 []]
    | 4 => [.log 0 [⟨2, 6⟩], .call 3]
    | 5 => [.panic 5]
    | 6 => [.log 0 [⟨2, 7⟩], .call 3]
    | 7 => [.log 2 [⟨2, 1⟩], .defmtPanic 3 [⟨2, 2⟩]]
    | _ => [])
  fmt g w := match g with
    | 0 => [.write [9]]
    | 1 => [.write [1], .write [2]]
    | 2 => [.write [UInt8.ofNat w]]
    | 6 => [.write [6], .stmt (.panic 5)]
    | 7 => [.nested 1, .stmt (.log 1 [])]
    | _ => [.write [7, 7]]
  timestamp := 0
  enabled site := trace || site ≠ 1
  printer := some 100
  reentrant := 8
  outOfContext := 9
  explicitPanic := 10
  override := true

/-! ### C90: evaluation of arguments -/

/-- `main` returns with a trace and a world exactly if it runs so by the specification. -/
theorem C90_exact (p : Program W) (main : Nat) (w w' : W) (t : List Event) :
    (∃ n, Returned (run p n (start main w)) ∧ (run p n (start main w)).trace = t ∧ (run p n (start main w)).world = w') ↔
      Runs p false [.stmt (.call main)] w t w' := by
  constructor
  · rintro ⟨n, hr, rfl, rfl⟩
    obtain ⟨m, t, w', _, h, e⟩ := returns_runs n false false [.stmt (.call main)] [] w [] (.inr (by simp)) hr
    rw [show start main w = ⟨[Code.stmt (.call main)].map .code ++ [], w, false, false, []⟩ from rfl, e]
    have : run p m ⟨[], w', false, false, [] ++ t⟩ = ⟨[], w', false, false, t⟩ := by cases m <;> rfl
    rw [this]
    exact h
  · intro h
    obtain ⟨n, hn⟩ := runs_reaches h [] false []
    refine ⟨n, ?_⟩
    rw [show start main w = ⟨[Code.stmt (.call main)].map .code ++ [], w, false, false, []⟩ from rfl, hn]
    exact ⟨⟨rfl, by simpa using runs_events h⟩, by simp, rfl⟩

/-- In the middle of any program: a log statement that returns. -/
theorem C90_statement (p : Program W) (site : Nat) (args : List Arg) (w w1 w2 : W) (t t' : List Event) (rest : List Op) (pan : Bool)
    (tr : List Event) (hargs : Runs p false (args.map (fun a => .stmt (.call a.eval))) w t w1)
    (hfmt : Runs p true (.nested p.timestamp :: args.map (fun a => .nested a.fmt)) w1 t' w2) :
    ∃ n, run p n ⟨.code (.stmt (.log site args)) :: rest, w, false, pan, tr⟩ =
      if p.enabled site then ⟨rest, w2, false, pan, tr ++ (t ++ [.start, .header site] ++ t' ++ [.stop])⟩
      else ⟨rest, w1, false, pan, tr ++ t⟩ := by
  cases he : p.enabled site with
  | true =>
    obtain ⟨n, hn⟩ := runs_reaches (.log he hargs hfmt .done) rest pan tr
    exact ⟨n, by simpa using hn⟩
  | false =>
    obtain ⟨n, hn⟩ := runs_reaches (.filtered he hargs .done) rest pan tr
    exact ⟨n, by simpa using hn⟩

-- the log statement in the argument comes first as a whole frame; with it filtered out, everything else is as before
example : (run (demoProgram true) 30 (start 0 0)).trace =
    [.call 0, .call 1, .start, .header 1, .data [9], .stop, .call 2, .start, .header 0, .data [9], .data [1], .data [2], .data [3], .stop,
     .call 3] ∧ Returned (run (demoProgram true) 30 (start 0 0)) := ⟨rfl, rfl, by decide, by decide⟩
example : (run (demoProgram false) 30 (start 0 0)).trace =
    [.call 0, .call 1, .call 2, .start, .header 0, .data [9], .data [1], .data [2], .data [3], .stop, .call 3] := rfl

/-! ### C91: DEFMT_LOG only changes the log -/

/-- If formatting code only formats, then a program does the same with any other selection of log statements: the same calls, panics and
faults in the same order, the same world, and it ends if it ends. -/
theorem C91_only_the_log (p : Program W) (hp : PureFormats p) (enabled : Nat → Bool) (main : Nat) (w : W) (n : Nat) :
    ∃ m, own (run { p with enabled := enabled } m (start main w)).trace = own (run p n (start main w)).trace ∧
      (run { p with enabled := enabled } m (start main w)).world = (run p n (start main w)).world ∧
      ((run p n (start main w)).ops = [] → (run { p with enabled := enabled } m (start main w)).ops = []) := by
  obtain ⟨m, hm⟩ := sim_run hp n (sim_start main w)
  obtain ⟨s', ⟨k, rfl⟩, h, ho⟩ := sim_back (p := { p with enabled := enabled }) (pureFormats_enabled hp) m (sim_start main w)
  have e : quiet { p with enabled := enabled } = quiet p := rfl
  rw [e] at h ho
  refine ⟨k, h.trace.trans hm.trace.symm, h.world.trans hm.world.symm, fun h0 => ?_⟩
  obtain ⟨fr, hfr, _⟩ := hm.ops
  rw [h0] at hfr
  rw [ho]
  exact (List.append_eq_nil_iff.mp hfr.symm).2

-- the hypothesis: a program without the functions 6 and 7
example : PureFormats { demoProgram true with fmt := fun g w => if g = 2 then [.nested 3, .write [UInt8.ofNat w]] else [.write [9]] } := by
  intro g w
  simp only
  split
  · exact .nested (.write .done) (.write .done)
  · exact .write .done

/-! ### C92: panics -/

/-- In every run: the panic handler is entered twice at most, at most one frame is begun after a panic, and nothing happens after the
hard fault. -/
theorem C92_bounded (p : Program W) (main : Nat) (w : W) (n : Nat) :
    (run p n (start main w)).trace.count .handler ≤ 2 ∧ (afterPanic (run p n (start main w)).trace).count .start ≤ 1 ∧
      (.fault ∈ (run p n (start main w)).trace →
        (run p n (start main w)).ops = [] ∧ ∃ t, (run p n (start main w)).trace = t ++ [.fault] ∧ .fault ∉ t) := by
  have := panicInv_run (p := p) n _ (panicInv_start main w)
  cases this with
  | running _ h hf =>
    refine ⟨by simp [List.count_eq_zero.mpr h], ?_, fun h' => absurd h' hf⟩
    have : ∀ l : List Event, .handler ∉ l → afterPanic l = [] := by
      intro l hl
      rcases List.eq_nil_or_concat l with rfl | ⟨l', e, rfl⟩
      · rfl
      · simp only [List.concat_eq_append, List.mem_append, List.mem_singleton, not_or] at hl
        rw [List.concat_eq_append]
        exact afterPanic_of_not_mem hl.1 e (Ne.symm hl.2)
    rw [this _ h]; simp
  | entered _ _ hc ha hf => exact ⟨by omega, by omega, fun h' => absurd h' hf⟩
  | acquiring _ _ _ hc ha hf => exact ⟨by omega, by omega, fun h' => absurd h' hf⟩
  | printing _ _ _ _ hc ha hf => exact ⟨by omega, by omega, fun h' => absurd h' hf⟩
  | nested _ _ _ hc ha hf => exact ⟨by omega, by omega, fun h' => absurd h' hf⟩
  | faulting _ hc ha hf => exact ⟨hc, ha, fun h' => absurd h' hf⟩
  | halted ho ht hf hc ha => exact ⟨hc, ha, fun _ => ⟨ho, _, ht, hf⟩⟩

/-- A panic outside of log statements: its message is shown in a frame of its own, then there is the fault. The message is what its
formatting code writes; that code must return. Missing: panics in formatting code (`C92_fails`). -/
theorem C92_shown_partial (p : Program W) (site message : Nat) (hp : p.printer = some site) (he : p.enabled site = true)
    (w w' : W) (t : List Event) (hm : Runs p true [.nested p.timestamp, .nested message] w t w') (rest : List Op) (tr : List Event) :
    ∃ n, run p n ⟨.code (.stmt (.panic message)) :: rest, w, false, false, tr⟩ =
      ⟨[], w', false, true, tr ++ ([.handler, .start, .header site] ++ t ++ [.stop, .fault])⟩ := by
  refine Reaches.step (s' := ⟨[.logBody site [⟨0, message⟩], .fault], w, false, true, tr ++ [.handler]⟩) ?_ ?_
  · simp [step, handle, hp]
  · refine .trans (frame_reaches (args := [⟨0, message⟩]) he (runs_reaches hm) _ _ _) ?_
    refine .step rfl ?_
    refine .to (.refl _) ?_
    simp

/-- A panic while a frame is written: nothing of its message is shown, the frame remains incomplete. -/
theorem C92_lost (p : Program W) (site message : Nat) (hp : p.printer = some site) (he : p.enabled site = true)
    (w : W) (rest : List Op) (tr : List Event) :
    ∃ n, run p n ⟨.code (.stmt (.panic message)) :: rest, w, true, false, tr⟩ = ⟨[], w, true, true, tr ++ [.handler, .handler, .fault]⟩ := by
  refine ⟨4, ?_⟩
  simp [run, step, handle, hp, he, frameOps]

/-- A log statement inside formatting code ends the program, without a message. -/
theorem C92_nested (p : Program W) (site : Nat) (hp : p.printer = some site) (he : p.enabled site = true) (s : Nat) (hs : p.enabled s = true)
    (w : W) (rest : List Op) (tr : List Event) :
    ∃ n, run p n ⟨.code (.stmt (.log s [])) :: rest, w, true, false, tr⟩ = ⟨[], w, true, true, tr ++ [.handler, .handler, .fault]⟩ := by
  refine ⟨6, ?_⟩
  simp [run, step, handle, hp, he, hs, frameOps, logOps]

/-- `defmt::panic!` shows its message; then there is only the fault if there is a `#[defmt::panic_handler]` that calls `hard_fault`,
otherwise another panic. -/
theorem C92_defmt_panic (p : Program W) (site : Nat) (he : p.enabled site = true) (args : List Arg) (w w1 w2 : W) (t t' : List Event)
    (hargs : Runs p false (args.map (fun a => .stmt (.call a.eval))) w t w1)
    (hfmt : Runs p true (.nested p.timestamp :: args.map (fun a => .nested a.fmt)) w1 t' w2) (rest : List Op) (tr : List Event) :
    (p.override = true → ∃ n, run p n ⟨.code (.stmt (.defmtPanic site args)) :: rest, w, false, false, tr⟩ =
      ⟨[], w2, false, false, tr ++ (t ++ [.start, .header site] ++ t' ++ [.stop, .fault])⟩) ∧
    (p.override = false → ∃ n rest', run p n ⟨.code (.stmt (.defmtPanic site args)) :: rest, w, false, false, tr⟩ =
      handle p p.explicitPanic ⟨rest', w2, false, false, tr ++ (t ++ [.start, .header site] ++ t' ++ [.stop])⟩) := by
  have key : ∀ rest, Reaches p ⟨.code (.stmt (.defmtPanic site args)) :: rest, w, false, false, tr⟩
      ⟨.exportPanic :: rest, w2, false, false, tr ++ (t ++ [.start, .header site] ++ t' ++ [.stop])⟩ := by
    intro rest
    refine .step (s' := ⟨logOps site args ++ [.exportPanic] ++ rest, w, false, false, tr⟩) rfl ?_
    simp only [logOps_eq, List.append_assoc]
    refine .trans (runs_reaches hargs _ _ _) ?_
    refine .trans (frame_reaches he (runs_reaches hfmt) _ _ _) ?_
    refine .to (.refl _) ?_
    simp
  constructor
  · intro ho
    refine Reaches.trans (key rest) ?_
    refine .step (s' := ⟨[.fault], w2, false, false, tr ++ (t ++ [.start, .header site] ++ t' ++ [.stop])⟩) (by simp [step, ho]) ?_
    refine .step rfl ?_
    refine .to (.refl _) ?_
    simp
  · intro ho
    have : Reaches p ⟨.code (.stmt (.defmtPanic site args)) :: rest, w, false, false, tr⟩
        (handle p p.explicitPanic ⟨.exportPanic :: rest, w2, false, false, tr ++ (t ++ [.start, .header site] ++ t' ++ [.stop])⟩) := by
      refine .trans (key rest) ?_
      refine .step (s' := handle p p.explicitPanic ⟨.exportPanic :: rest, w2, false, false,
        tr ++ (t ++ [.start, .header site] ++ t' ++ [.stop])⟩) (by simp [step, ho]) ?_
      exact .refl _
    obtain ⟨n, hn⟩ := this
    exact ⟨n, _, hn⟩

/-- A `Format` implementation that panics: the message of the panic (format function 5, `[7, 7]`) is not shown, although
`print-defmt` is on. -/
theorem C92_fails : ∃ n, (run (demoProgram true) n (start 4 0)).ops = [] ∧ .handler ∈ (run (demoProgram true) n (start 4 0)).trace ∧
    .header 100 ∉ (run (demoProgram true) n (start 4 0)).trace ∧ .data [7, 7] ∉ (run (demoProgram true) n (start 4 0)).trace :=
  ⟨30, rfl, by decide, by decide, by decide⟩

-- the same message if the panic is in a function; a log statement in a `Format` implementation; `defmt::panic!`
example : (run (demoProgram true) 30 (start 5 0)).trace =
    [.call 5, .handler, .start, .header 100, .data [9], .data [7, 7], .stop, .fault] := rfl
example : (run (demoProgram true) 30 (start 6 0)).trace =
    [.call 6, .call 2, .start, .header 0, .data [9], .data [1], .data [2], .handler, .handler, .fault] := rfl
example : (run (demoProgram true) 30 (start 7 0)).trace =
    [.call 7, .call 2, .start, .header 2, .data [9], .data [1], .data [2], .stop, .call 2, .start, .header 3, .data [9], .data [3], .stop,
     .fault] := rfl

end Defmt
