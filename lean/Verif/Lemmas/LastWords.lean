import Verif.Lemmas.Program
import Verif.Lemmas.Logger
/-! Helper lemmas for C115: what a program writes to the channel of the logger. -/

namespace Defmt.Program
open Logger (encoderOf wireOf)

variable {W : Type} {p : Program W}

/-- What is left to do fits to whether a frame is open. -/
def Bal : Bool → List Op → Prop
  | _, [] => True
  | k, .code (.stmt _) :: r => Bal k r
  | k, .code (.write _) :: r => k = true ∧ Bal k r
  | k, .code (.nested _) :: r => k = true ∧ Bal k r
  | k, .header _ :: r => k = true ∧ Bal k r
  | k, .logBody _ _ :: r => Bal k r
  | true, .acquire :: _ => True
  | false, .acquire :: r => Bal true r
  | true, .release :: r => Bal false r
  | false, .release :: _ => False
  | _, .exportPanic :: _ => True
  | _, .fault :: _ => True

theorem bal_codes (codes : List Code) (rest : List Op) (h : Bal true rest) : Bal true (codes.map .code ++ rest) := by
  induction codes with
  | nil => exact h
  | cons c codes ih => cases c <;> simp [Bal, ih]

theorem bal_stmts (k : Bool) (l : List Stmt) (rest : List Op) (h : Bal k rest) :
    Bal k (l.map (fun st => Op.code (.stmt st)) ++ rest) := by
  induction l with
  | nil => exact h
  | cons c codes ih => simp [Bal, ih]

theorem bal_logOps (k : Bool) (site : Nat) (args : List Arg) (rest : List Op) (h : Bal k rest) : Bal k (logOps site args ++ rest) := by
  unfold logOps
  rw [List.append_assoc]
  have := bal_stmts k (args.map (fun a => Stmt.call a.eval)) ([.logBody site args] ++ rest) (by simpa [Bal] using h)
  simpa [List.map_map, Function.comp_def] using this

theorem bal_frameOps (k : Bool) (site : Nat) (args : List Arg) (rest : List Op) (h : Bal k rest) : Bal k (frameOps p site args ++ rest) := by
  rw [frameOps_eq]
  cases k with
  | true => simp [Bal]
  | false =>
    have := bal_codes (Code.nested p.timestamp :: args.map (fun a => Code.nested a.fmt)) (.release :: rest) (by simpa [Bal] using h)
    simpa [Bal] using this

/-- The state of a run and its log belong together. -/
structure WireInv (enc : Logger.Encoding) (index : Nat → List UInt8) (s : State W) : Prop where
  wire : s.trace.foldl (sendEvent enc index) (.new, []) =
    (encoderOf enc (s.trace.foldl (logged index) ([], none)).1 (s.trace.foldl (logged index) ([], none)).2,
     wireOf enc (s.trace.foldl (logged index) ([], none)).1 (s.trace.foldl (logged index) ([], none)).2)
  isOpen : (s.trace.foldl (logged index) ([], none)).2.isSome = s.taken
  bal : Bal s.taken s.ops

theorem wireInv_start (enc : Logger.Encoding) (index : Nat → List UInt8) (main : Nat) (w : W) : WireInv enc index (start main w) :=
  ⟨by cases enc <;> rfl, rfl, by simp [start, Bal]⟩

theorem wireInv_handle {enc : Logger.Encoding} {index : Nat → List UInt8} {s : State W} (m : Nat) (h : WireInv enc index s) :
    WireInv enc index (handle p m s) := by
  have hw := h.wire
  have ho := h.isOpen
  unfold handle
  split
  · refine ⟨?_, ?_, ?_⟩
    · simp only [List.foldl_append, List.foldl_cons, List.foldl_nil, sendEvent, logged]; exact hw
    · simp only [List.foldl_append, List.foldl_cons, List.foldl_nil, logged]; exact ho
    · simp [Bal]
  · refine ⟨?_, ?_, ?_⟩
    · simp only [List.foldl_append, List.foldl_cons, List.foldl_nil, sendEvent, logged]; exact hw
    · simp only [List.foldl_append, List.foldl_cons, List.foldl_nil, logged]; exact ho
    · cases p.printer <;> simp [Bal]

theorem wireInv_step {enc : Logger.Encoding} {index : Nat → List UInt8} {s s' : State W} (h : WireInv enc index s)
    (hs : step p s = some s') : WireInv enc index s' := by
  obtain ⟨ops, w, k, pan, tr⟩ := s
  have hw := h.wire
  have ho := h.isOpen
  have hb := h.bal
  simp only at hw ho hb
  have hwrite : ∀ (e : Event) (d : List UInt8) (rest : List Op), k = true → Bal k rest →
      (∀ x, sendEvent enc index x e = ((Logger.writeData enc x.1 d).1, x.2 ++ (Logger.writeData enc x.1 d).2)) →
      (∀ x, logged index x e = (x.1, x.2.map (· ++ d))) → WireInv enc index ⟨rest, w, k, pan, tr ++ [e]⟩ := by
    intro e d rest hk hr he hl
    subst hk
    obtain ⟨cur, hc⟩ := Option.isSome_iff_exists.mp ho
    have hsp := Logger.writeData_spec enc (tr.foldl (logged index) ([], none)).1 cur d
    rw [hc] at hw
    refine ⟨?_, ?_, hr⟩
    · simp only [List.foldl_append, List.foldl_cons, List.foldl_nil, he, hl, hw, hc, Option.map_some, hsp.1, hsp.2]
    · simp only [List.foldl_append, List.foldl_cons, List.foldl_nil, hl, hc, Option.map_some, Option.isSome_some]
  cases ops with
  | nil => simp [step] at hs
  | cons op rest =>
    cases op with
    | code c =>
      cases c with
      | write b =>
        simp only [step, Option.some.injEq] at hs
        subst hs
        simp only [Bal] at hb
        exact hwrite _ b rest hb.1 hb.2 (fun _ => rfl) (fun _ => rfl)
      | nested g =>
        simp only [step, Option.some.injEq] at hs
        subst hs
        simp only [Bal] at hb
        obtain ⟨rfl, hb⟩ := hb
        exact ⟨hw, ho, bal_codes _ _ hb⟩
      | stmt st =>
        simp only [Bal] at hb
        cases st with
        | call f =>
          simp only [step, Option.some.injEq] at hs
          subst hs
          refine ⟨?_, ?_, bal_stmts _ _ _ hb⟩
          · simp only [List.foldl_append, List.foldl_cons, List.foldl_nil, sendEvent, logged]; exact hw
          · simp only [List.foldl_append, List.foldl_cons, List.foldl_nil, logged]; exact ho
        | log site args =>
          simp only [step, Option.some.injEq] at hs
          subst hs
          exact ⟨hw, ho, bal_logOps _ _ _ _ hb⟩
        | panic m =>
          simp only [step, Option.some.injEq] at hs
          subst hs
          exact wireInv_handle m h
        | defmtPanic site args =>
          simp only [step, Option.some.injEq] at hs
          subst hs
          refine ⟨hw, ho, ?_⟩
          simp only [List.append_assoc]
          exact bal_logOps _ _ _ _ (by simp [Bal])
    | logBody site args =>
      simp only [step, Option.some.injEq] at hs
      subst hs
      refine ⟨hw, ho, ?_⟩
      simp only [Bal] at hb
      by_cases he : p.enabled site = true
      · simp only [he, if_true]; exact bal_frameOps _ _ _ _ hb
      · simpa [he] using hb
    | acquire =>
      cases k with
      | true =>
        simp only [step, if_true, Option.some.injEq] at hs
        subst hs
        exact wireInv_handle _ h
      | false =>
        simp only [step, Bool.false_eq_true, if_false, Option.some.injEq] at hs
        subst hs
        have hc := Option.isSome_eq_false_iff.mp ho
        rw [Option.isNone_iff_eq_none] at hc
        have hsp := Logger.startFrame_spec enc (tr.foldl (logged index) ([], none)).1
        rw [hc] at hw
        refine ⟨?_, ?_, by simpa [Bal] using hb⟩
        · simp only [List.foldl_append, List.foldl_cons, List.foldl_nil, sendEvent, logged, hw, hsp.1, hsp.2]
        · simp only [List.foldl_append, List.foldl_cons, List.foldl_nil, logged, Option.isSome_some]
    | header site =>
      simp only [step, Option.some.injEq] at hs
      subst hs
      simp only [Bal] at hb
      exact hwrite _ (index site) rest hb.1 hb.2 (fun _ => rfl) (fun _ => rfl)
    | release =>
      cases k with
      | false =>
        simp [Bal] at hb
      | true =>
        simp only [step, if_true, Option.some.injEq] at hs
        subst hs
        obtain ⟨cur, hc⟩ := Option.isSome_iff_exists.mp ho
        have hsp := Logger.endFrame_spec enc (tr.foldl (logged index) ([], none)).1 cur
        rw [hc] at hw
        refine ⟨?_, ?_, by simpa [Bal] using hb⟩
        · simp only [List.foldl_append, List.foldl_cons, List.foldl_nil, sendEvent, logged, hw, hc, Option.toList_some, hsp.1, hsp.2]
        · simp only [List.foldl_append, List.foldl_cons, List.foldl_nil, logged, Option.isSome_none]
    | exportPanic =>
      simp only [step] at hs
      split at hs
      · simp only [Option.some.injEq] at hs
        subst hs
        exact ⟨hw, ho, by simp [Bal]⟩
      · simp only [Option.some.injEq] at hs
        subst hs
        exact wireInv_handle _ h
    | fault =>
      simp only [step, Option.some.injEq] at hs
      subst hs
      refine ⟨?_, ?_, by simp [Bal]⟩
      · simp only [List.foldl_append, List.foldl_cons, List.foldl_nil, sendEvent, logged]; exact hw
      · simp only [List.foldl_append, List.foldl_cons, List.foldl_nil, logged]; exact ho

theorem wireInv_run {enc : Logger.Encoding} {index : Nat → List UInt8} (n : Nat) {s : State W} (h : WireInv enc index s) :
    WireInv enc index (run p n s) := by
  induction n generalizing s with
  | zero => exact h
  | succ n ih =>
    simp only [run]
    cases hs : step p s with
    | none => exact h
    | some s' => exact ih (wireInv_step h hs)

theorem written_append (t t' : List Event) : written (t ++ t') = written t ++ written t' := by
  induction t with
  | nil => rfl
  | cons e t ih => cases e <;> simp [written, ih]

/-- Code that returns inside of a frame only appends to it. -/
theorem logged_runs {k : Bool} {codes : List Code} {w w' : W} {t : List Event} (h : Runs p k codes w t w') (index : Nat → List UInt8)
    (hk : k = true) (fs : List (List UInt8)) (cur : List UInt8) :
    t.foldl (logged index) (fs, some cur) = (fs, some (cur ++ written t)) := by
  induction h generalizing cur with
  | done => simp [written]
  | write _ ih => simp [logged, written, ih hk, List.append_assoc]
  | @nested _ _ _ t _ t' _ _ _ ih1 ih2 =>
    rw [List.foldl_append, ih1 hk, ih2 hk]
    rw [written_append, List.append_assoc]
  | @call _ _ _ _ t _ t' _ _ _ ih1 ih2 =>
    simp only [List.foldl_cons, logged, List.foldl_append, ih1 hk, ih2 hk, written, written_append, List.append_assoc]
  | log => cases hk
  | @filtered _ _ _ _ _ t _ t' _ _ _ _ ih1 ih2 =>
    rw [List.foldl_append, ih1 hk, ih2 hk, written_append, List.append_assoc]

/-- once nothing is left to do nothing happens any more -/
theorem run_ended {s : State W} (h : s.ops = []) (n : Nat) : run p n s = s := by
  cases n with
  | zero => rfl
  | succ n =>
    have : step p s = none := by unfold step; rw [h]
    simp [run, this]

theorem run_from {s s' : State W} {n : Nat} (h : run p n s = s') (hs : s'.ops = []) (m : Nat) (hm : n ≤ m) : run p m s = s' := by
  obtain ⟨k, rfl⟩ := Nat.exists_eq_add_of_le hm
  rw [run_add, h, run_ended hs]

/-- Where a panic is, if formatting code only formats: outside of frames. -/
theorem sim_panic (hp : PureFormats p) (n : Nat) {s u : State W} (h : Sim p s u) (hpan : s.panicked = false) (hh : .handler ∉ s.trace)
    (hn : .handler ∈ (run p n s).trace) :
    ∃ m message s1, run p m s = s1 ∧ run p (m + 1) s = handle p message s1 ∧ s1.taken = false ∧ s1.panicked = false ∧ .handler ∉ s1.trace := by
  induction n generalizing s u with
  | zero => exact absurd hn hh
  | succ n ih =>
    simp only [run] at hn
    cases hs : step p s with
    | none => rw [hs] at hn; exact absurd hn hh
    | some s' =>
      rw [hs] at hn
      simp only at hn
      have hnext : (∃ message, s' = handle p message s ∧ s.taken = false) ∨ (s'.panicked = false ∧ .handler ∉ s'.trace) := by
        obtain ⟨fr, hfr, hin⟩ := h.ops
        obtain ⟨ops, w, k, pan, tr⟩ := s
        simp only at hfr hin hpan hh
        subst hfr
        subst hpan
        cases hin with
        | none =>
          rw [List.nil_append] at hs
          have hpl := h.plain
          cases hu : u.ops with
          | nil => rw [hu] at hs; simp [step] at hs
          | cons op rest =>
            rw [hu] at hs hpl
            have h0 := hpl op (by simp)
            cases op with
            | code c =>
              cases c with
              | stmt st =>
                cases st with
                | panic m =>
                  simp only [step, Option.some.injEq] at hs
                  subst hs
                  exact .inl ⟨m, by simp [handle, hu], rfl⟩
                | _ =>
                  simp only [step, Option.some.injEq] at hs
                  subst hs
                  exact .inr ⟨rfl, by simpa using hh⟩
              | _ => exact h0.elim
            | logBody =>
              simp only [step, Option.some.injEq] at hs
              subst hs
              exact .inr ⟨rfl, by simpa using hh⟩
            | exportPanic =>
              simp only [step] at hs
              split at hs
              · simp only [Option.some.injEq] at hs
                subst hs
                exact .inr ⟨rfl, by simpa using hh⟩
              · simp only [Option.some.injEq] at hs
                subst hs
                exact .inl ⟨p.explicitPanic, by simp [handle], rfl⟩
            | fault =>
              simp only [step, Option.some.injEq] at hs
              subst hs
              exact .inr ⟨rfl, by simpa using hh⟩
            | _ => exact h0.elim
        | acquire _ =>
          simp only [step, List.cons_append, Bool.false_eq_true, if_false, Option.some.injEq] at hs
          subst hs
          exact .inr ⟨rfl, by simpa using hh⟩
        | header _ =>
          simp only [step, List.cons_append, Option.some.injEq] at hs
          subst hs
          exact .inr ⟨rfl, by simpa using hh⟩
        | body hc =>
          cases hc with
          | done =>
            simp only [step, List.map_nil, List.nil_append, List.cons_append, if_true, Option.some.injEq] at hs
            subst hs
            exact .inr ⟨rfl, by simpa using hh⟩
          | write _ =>
            simp only [step, List.map_cons, List.cons_append, Option.some.injEq] at hs
            subst hs
            exact .inr ⟨rfl, by simpa using hh⟩
          | nested _ _ =>
            simp only [step, List.map_cons, List.cons_append, Option.some.injEq] at hs
            subst hs
            exact .inr ⟨rfl, by simpa using hh⟩
      rcases hnext with ⟨message, rfl, hk⟩ | ⟨h1, h2⟩
      · exact ⟨0, message, s, rfl, by simp [run, hs], hk, hpan, hh⟩
      · have hsim : ∃ u', Sim p s' u' := by
          rcases sim_step hp h hs with h | ⟨u', _, h⟩
          · exact ⟨_, h⟩
          · exact ⟨_, h⟩
        obtain ⟨u', hsim⟩ := hsim
        obtain ⟨m, message, s1, e1, e2, h3⟩ := ih hsim h1 h2 hn
        exact ⟨m + 1, message, s1, by simp only [run, hs]; exact e1, by simp only [run, hs] at e2 ⊢; exact e2, h3⟩

end Defmt.Program
