import Verif.Lemmas.PanicExact
import Verif.Props.Program
/-!
# C92: exactly when the message of a panic is shown

For any panic, in any state of the logger and any configuration of `panic-probe`: a frame is completed after the panic if and only if there is
a printer, `DEFMT_LOG` lets its statement pass, no frame was open, and the timestamp and the message can be formatted (which includes that they
do not panic or log). The frame is then that of the message, and the fault follows.
-/

namespace Defmt
open Program

variable {W : Type}

private theorem shown_handle (p : Program W) (message : Nat) (s : State W) (hpan : s.panicked = false) :
    (∃ n, .stop ∈ (run p n (handle p message s)).trace.drop s.trace.length) ↔
      ∃ site, p.printer = some site ∧ p.enabled site = true ∧ s.taken = false ∧
        ∃ t w', Runs p true [.nested p.timestamp, .nested message] s.world t w' := by
  obtain ⟨rest, w, k, pan, tr⟩ := s
  cases hpan
  constructor
  · rintro ⟨n, hn⟩
    simp only at hn ⊢
    cases hp : p.printer with
    | none =>
      exfalso
      have e : handle p message ⟨rest, w, k, false, tr⟩ = ⟨[.fault], w, k, true, tr ++ [.handler]⟩ := by simp [handle, hp]
      rw [e] at hn
      cases n with
      | zero => simp [run] at hn
      | succ n =>
        simp only [run, step] at hn
        rw [run_ended rfl] at hn
        simp at hn
    | some site =>
    have e : handle p message ⟨rest, w, k, false, tr⟩ = ⟨[.logBody site [⟨0, message⟩], .fault], w, k, true, tr ++ [.handler]⟩ := by
      simp [handle, hp]
    rw [e] at hn
    cases n with
    | zero => simp [run] at hn
    | succ n =>
    cases he : p.enabled site with
    | false =>
      exfalso
      have e : run p (n + 1) ⟨[.logBody site [⟨0, message⟩], .fault], w, k, true, tr ++ [.handler]⟩ =
          run p n ⟨[.fault], w, k, true, tr ++ [.handler]⟩ := by simp [run, step, he]
      rw [e] at hn
      cases n with
      | zero => simp [run] at hn
      | succ n =>
        simp only [run, step] at hn
        rw [run_ended rfl] at hn
        simp at hn
    | true =>
    have e : run p (n + 1) ⟨[.logBody site [⟨0, message⟩], .fault], w, k, true, tr ++ [.handler]⟩ =
        run p n ⟨[.acquire, .header site, .code (.nested p.timestamp), .code (.nested message), .release, .fault], w, k, true, tr ++ [.handler]⟩ := by
      simp [run, step, he, frameOps]
    rw [e] at hn
    cases n with
    | zero => simp [run] at hn
    | succ n =>
    cases k with
    | true =>
      exfalso
      simp only [run, step, if_true, handle] at hn
      cases n with
      | zero => simp [run] at hn
      | succ n =>
        simp only [run, step] at hn
        rw [run_ended rfl] at hn
        simp at hn
    | false =>
    refine ⟨site, rfl, he, rfl, ?_⟩
    simp only [run, step, Bool.false_eq_true, if_false] at hn
    cases n with
    | zero => simp [run] at hn
    | succ n =>
    simp only [run, step] at hn
    obtain ⟨t, ht⟩ := trace_run (p := p) n ⟨[.code (.nested p.timestamp), .code (.nested message), .release, .fault], w, true, true,
      tr ++ [.handler] ++ [.start] ++ [.header site]⟩
    have hm : Event.stop ∈ t := by
      rw [ht] at hn
      simpa using hn
    obtain ⟨m, _, hm⟩ := stop_frees (p := p) n _ rfl rfl t ht hm
    obtain ⟨_, t', w', _, h, _⟩ := frees_runs (p := p) m [.nested p.timestamp, .nested message] [.release, .fault] w _ hm
    exact ⟨t', w', h⟩
  · rintro ⟨site, hp, he, hk, t, w', h⟩
    obtain rfl : k = false := hk
    obtain ⟨n, hn⟩ := C92_shown_partial p site message hp he w w' t h rest tr
    cases n with
    | zero =>
      simp only [run, State.mk.injEq] at hn
      cases hn.1
    | succ n =>
      refine ⟨n, ?_⟩
      have e : run p (n + 1) ⟨.code (.stmt (.panic message)) :: rest, w, false, false, tr⟩ =
          run p n (handle p message ⟨rest, w, false, false, tr⟩) := by simp [run, step, handle]
      rw [e] at hn
      rw [hn]
      simp

/-- When the message of a panic is shown. -/
theorem C92_shown_iff (p : Program W) (message : Nat) (k : Bool) (w : W) (rest : List Op) (tr : List Event) :
    (∃ n, .stop ∈ (run p n ⟨.code (.stmt (.panic message)) :: rest, w, k, false, tr⟩).trace.drop tr.length) ↔
      ∃ site, p.printer = some site ∧ p.enabled site = true ∧ k = false ∧
        ∃ t w', Runs p true [.nested p.timestamp, .nested message] w t w' := by
  refine Iff.trans ?_ (shown_handle p message ⟨.code (.stmt (.panic message)) :: rest, w, k, false, tr⟩ rfl)
  have e : ∀ n, run p (n + 1) ⟨.code (.stmt (.panic message)) :: rest, w, k, false, tr⟩ =
      run p n (handle p message ⟨.code (.stmt (.panic message)) :: rest, w, k, false, tr⟩) := fun n => by simp [run, step]
  constructor
  · rintro ⟨n, hn⟩
    cases n with
    | zero => simp [run] at hn
    | succ n => exact ⟨n, by rw [← e]; exact hn⟩
  · rintro ⟨n, hn⟩
    exact ⟨n + 1, by rw [e]; exact hn⟩

/-- **C92** In every run in which the panic handler is entered: there is a first panic, and exactly if its message can be formatted outside of
a frame (and is printed at all), a frame is completed after it. Nothing else panics than explicit panics, log statements while a frame is
written, and `defmt::panic!` without a handler of its own. -/
theorem C92_every_panic (p : Program W) (main : Nat) (w : W) (n : Nat) (hn : .handler ∈ (run p n (start main w)).trace) :
    ∃ m message, m < n ∧ Panics p (run p m (start main w)) message ∧
      (run p (m + 1) (start main w)).trace = (run p m (start main w)).trace ++ [.handler] ∧ .handler ∉ (run p m (start main w)).trace ∧
      ((∃ n', .stop ∈ (run p (m + 1 + n') (start main w)).trace.drop (run p m (start main w)).trace.length) ↔
        ∃ site, p.printer = some site ∧ p.enabled site = true ∧ (run p m (start main w)).taken = false ∧
          ∃ t w', Runs p true [.nested p.timestamp, .nested message] (run p m (start main w)).world t w') := by
  obtain ⟨m, message, h1, h2, h3, h4, h5⟩ := first_panic (p := p) n (start main w) (wireInv_start _ _ main w) rfl (by simp [start]) hn
  refine ⟨m, message, h1, h2, ?_, h4, ?_⟩
  · rw [h5]; simp [handle, h3]
  · rw [← shown_handle p message _ h3]
    simp only [run_add (m + 1), h5]

/-- If a frame is completed after a panic it is the frame of its message, all of it, and the program is at the fault. -/
theorem C92_shown_exact (p : Program W) (message : Nat) (k : Bool) (w : W) (rest : List Op) (tr : List Event) (n : Nat)
    (h : .stop ∈ (run p n ⟨.code (.stmt (.panic message)) :: rest, w, k, false, tr⟩).trace.drop tr.length) :
    ∃ site t w' m, p.printer = some site ∧ p.enabled site = true ∧ k = false ∧ Runs p true [.nested p.timestamp, .nested message] w t w' ∧
      run p m ⟨.code (.stmt (.panic message)) :: rest, w, k, false, tr⟩ =
        ⟨[], w', false, true, tr ++ ([.handler, .start, .header site] ++ t ++ [.stop, .fault])⟩ := by
  obtain ⟨site, hp, he, rfl, t, w', hr⟩ := (C92_shown_iff p message k w rest tr).mp ⟨n, h⟩
  obtain ⟨m, hm⟩ := C92_shown_partial p site message hp he w w' t hr rest tr
  exact ⟨site, t, w', m, hp, he, rfl, hr, hm⟩

-- a message that can be formatted is shown; one that panics itself or logs is not, nor any other while a frame is open
example : ∃ n, .stop ∈ (run (demoProgram true) n ⟨[.code (.stmt (.panic 5))], 3, false, false, []⟩).trace.drop 0 := ⟨30, by decide⟩

example : ¬ ∃ n, .stop ∈ (run (demoProgram true) n ⟨[.code (.stmt (.panic 5))], 3, true, false, []⟩).trace.drop 0 := by
  intro h
  obtain ⟨_, _, _, hk, _⟩ := (C92_shown_iff (demoProgram true) 5 true 3 [] []).mp h
  cases hk

example : ¬ ∃ n, .stop ∈ (run (demoProgram true) n ⟨[.code (.stmt (.panic 6))], 3, false, false, []⟩).trace.drop 0 := by
  intro h
  obtain ⟨_, _, _, _, _, _, hr⟩ := (C92_shown_iff (demoProgram true) 6 false 3 [] []).mp h
  have h1 : ∀ {k : Bool} {code : List Code} {w t w'}, Runs (demoProgram true) k code w t w' → ∀ m, .stmt (.panic m) ∉ code := by
    intro k code w t w' h
    induction h with
    | done => simp
    | _ => simp_all
  cases hr with
  | nested _ hr =>
    cases hr with
    | nested hr _ => exact h1 hr 5 (by simp [demoProgram])

example : .handler ∈ (run (demoProgram true) 30 (start 4 0)).trace := by decide

end Defmt
