import Verif.Lemmas.LastWords
import Verif.Spec.Panic
/-! Lemmas about panics: when the frame of the message is ended. -/

namespace Defmt.Program

variable {W : Type} {p : Program W}

/-- after a second panic the logger remains taken -/
theorem taken_fault (n : Nat) (w : W) (pan : Bool) (tr : List Event) : (run p n ⟨[.fault], w, true, pan, tr⟩).taken = true := by
  cases n with
  | zero => rfl
  | succ n => simp only [run, step]; rw [run_ended rfl]

theorem taken_handle (n : Nat) (m : Nat) (s : State W) (hk : s.taken = true) (hp : s.panicked = true) : (run p n (handle p m s)).taken = true := by
  obtain ⟨ops, w, k, pan, tr⟩ := s
  cases hk; cases hp
  simp only [handle, if_true]
  exact taken_fault n _ _ _

theorem taken_export (n : Nat) (w : W) (tr : List Event) (rest : List Op) : (run p n ⟨.exportPanic :: rest, w, true, true, tr⟩).taken = true := by
  cases n with
  | zero => rfl
  | succ n =>
    simp only [run, step]
    cases p.override with
    | true => exact taken_fault _ _ _ _
    | false => exact taken_handle _ _ _ rfl rfl

/-- If the logger is released after code that runs in a frame of the panic handler, this code returns. -/
theorem frees_runs (n : Nat) : ∀ (code : List Code) (rest : List Op) (w : W) (tr : List Event),
    (run p n ⟨code.map .code ++ rest, w, true, true, tr⟩).taken = false →
    ∃ m t w', m ≤ n ∧ Runs p true code w t w' ∧
      run p n ⟨code.map .code ++ rest, w, true, true, tr⟩ = run p m ⟨rest, w', true, true, tr ++ t⟩ := by
  induction n using Nat.strongRecOn with
  | _ n ih =>
  intro code rest w tr hret
  cases code with
  | nil => exact ⟨n, [], w, Nat.le_refl _, .done, by simp⟩
  | cons c code =>
  cases n with
  | zero => simp [run] at hret
  | succ n =>
  have hargs : ∀ (args : List Arg) (site : Nat) (after : List Op),
      (run p n ⟨logOps site args ++ after, w, true, true, tr⟩).taken = false →
      ∃ m t w', m ≤ n ∧ Runs p true (args.map (fun a => Code.stmt (.call a.eval))) w t w' ∧
        run p n ⟨logOps site args ++ after, w, true, true, tr⟩ = run p m ⟨.logBody site args :: after, w', true, true, tr ++ t⟩ := by
    intro args site after hr
    rw [logOps_eq, List.append_assoc] at hr ⊢
    exact ih n (Nat.lt_succ_self _) _ _ w tr hr
  have hbody : ∀ (m : Nat) (args : List Arg) (site : Nat) (after : List Op) (w : W) (tr : List Event), m ≤ n →
      (run p m ⟨.logBody site args :: after, w, true, true, tr⟩).taken = false →
      p.enabled site = false ∧ ∃ m', m' < m ∧
        run p m ⟨.logBody site args :: after, w, true, true, tr⟩ = run p m' ⟨after, w, true, true, tr⟩ := by
    intro m args site after w tr hm hr
    cases m with
    | zero => simp [run] at hr
    | succ m =>
    cases he : p.enabled site with
    | false =>
      refine ⟨rfl, m, Nat.lt_succ_self _, ?_⟩
      simp [run, step, he]
    | true =>
      exfalso
      have e1 : run p (m + 1) ⟨.logBody site args :: after, w, true, true, tr⟩ = run p m ⟨frameOps p site args ++ after, w, true, true, tr⟩ := by
        simp [run, step, he]
      rw [e1, frameOps_eq] at hr
      cases m with
      | zero => simp [run] at hr
      | succ m =>
      simp only [run, step, List.cons_append, if_true] at hr
      rw [taken_handle _ _ _ rfl rfl] at hr
      cases hr
  cases c with
  | write b =>
    simp only [List.map_cons, List.cons_append, run, step] at hret ⊢
    obtain ⟨m, t, w', hm, hr, e⟩ := ih n (Nat.lt_succ_self _) code rest w _ hret
    exact ⟨m, _, w', by omega, .write hr, by rw [e]; simp⟩
  | nested g =>
    simp only [List.map_cons, List.cons_append, run, step] at hret ⊢
    obtain ⟨m, t, w', hm, hr, e⟩ := ih n (Nat.lt_succ_self _) _ _ w _ hret
    rw [e] at hret ⊢
    obtain ⟨m2, t2, w2, hm2, hr2, e2⟩ := ih m (by omega) code rest w' _ hret
    exact ⟨m2, _, w2, by omega, .nested hr hr2, by rw [e2]; simp⟩
  | stmt st =>
    cases st with
    | call f =>
      simp only [List.map_cons, List.cons_append, run, step_call] at hret ⊢
      obtain ⟨m, t, w', hm, hr, e⟩ := ih n (Nat.lt_succ_self _) _ _ _ _ hret
      rw [e] at hret ⊢
      obtain ⟨m2, t2, w2, hm2, hr2, e2⟩ := ih m (by omega) code rest w' _ hret
      exact ⟨m2, _, w2, by omega, .call hr hr2, by rw [e2]; simp⟩
    | panic msg =>
      simp only [List.map_cons, List.cons_append, run, step] at hret
      rw [taken_handle _ _ _ rfl rfl] at hret
      cases hret
    | log site args =>
      have e0 : run p (n + 1) ⟨(Code.stmt (.log site args) :: code).map .code ++ rest, w, true, true, tr⟩ =
          run p n ⟨logOps site args ++ (code.map .code ++ rest), w, true, true, tr⟩ := by simp [run, step]
      rw [e0] at hret ⊢
      obtain ⟨m, t, w', hm, hr, e⟩ := hargs args site _ hret
      rw [e] at hret ⊢
      obtain ⟨he, m', hm', e'⟩ := hbody m args site _ w' _ hm hret
      rw [e'] at hret ⊢
      obtain ⟨m2, t2, w2, hm2, hr2, e2⟩ := ih m' (by omega) code rest w' _ hret
      exact ⟨m2, _, w2, by omega, .filtered he hr hr2, by rw [e2]; simp⟩
    | defmtPanic site args =>
      exfalso
      have e0 : run p (n + 1) ⟨(Code.stmt (.defmtPanic site args) :: code).map .code ++ rest, w, true, true, tr⟩ =
          run p n ⟨logOps site args ++ (.exportPanic :: (code.map .code ++ rest)), w, true, true, tr⟩ := by simp [run, step]
      rw [e0] at hret
      obtain ⟨m, t, w', hm, hr, e⟩ := hargs args site _ hret
      rw [e] at hret
      obtain ⟨he, m', hm', e'⟩ := hbody m args site _ w' _ hm hret
      rw [e', taken_export] at hret
      cases hret

/-- In a frame of the panic handler the frame is ended only by releasing the logger. -/
theorem stop_frees (n : Nat) : ∀ (s : State W), s.taken = true → s.panicked = true → ∀ t, (run p n s).trace = s.trace ++ t → .stop ∈ t →
    ∃ m ≤ n, (run p m s).taken = false := by
  induction n with
  | zero =>
    intro s _ _ t ht hm
    have : t = [] := by simpa [run] using ht
    subst this
    cases hm
  | succ n ih =>
    intro s hk hp t ht hm
    simp only [run] at ht
    cases hs : step p s with
    | none =>
      rw [hs] at ht
      have : t = [] := by simpa using ht
      subst this
      cases hm
    | some s' =>
      rw [hs] at ht
      simp only at ht
      cases hk' : s'.taken with
      | false => exact ⟨1, by omega, by simp [run, hs, hk']⟩
      | true =>
        have hstep : s'.panicked = true ∧ ∃ u, s'.trace = s.trace ++ u ∧ .stop ∉ u := by
          obtain ⟨ops, w, k, pan, tr⟩ := s
          cases hk; cases hp
          unfold step handle at hs
          split at hs
          all_goals (try simp only [if_true] at hs)
          all_goals (try split at hs)
          all_goals (try cases hs)
          all_goals (first
            | exact ⟨rfl, [], (List.append_nil _).symm, List.not_mem_nil⟩
            | (refine ⟨rfl, _, rfl, ?_⟩; intro h; cases h with | tail _ h => cases h; done)
            | (simp at hk'; done))
        obtain ⟨hp', u, hu, hnu⟩ := hstep
        obtain ⟨t', ht'⟩ := trace_run (p := p) n s'
        have e : t = u ++ t' := by
          have := ht.symm.trans ht'
          rw [hu, List.append_assoc] at this
          exact List.append_cancel_left this
        subst e
        have hm' : .stop ∈ t' := by
          rcases List.mem_append.mp hm with h | h
          · exact absurd h hnu
          · exact h
        obtain ⟨m, hm1, hm2⟩ := ih s' hk' hp' t' ht' hm'
        exact ⟨m + 1, by omega, by simp [run, hs, hm2]⟩

/-- The first panic. -/
theorem first_panic (n : Nat) : ∀ (s : State W), WireInv .raw (fun _ => []) s → s.panicked = false → .handler ∉ s.trace → .handler ∈ (run p n s).trace →
    ∃ m message, m < n ∧ Panics p (run p m s) message ∧ (run p m s).panicked = false ∧ .handler ∉ (run p m s).trace ∧
      run p (m + 1) s = handle p message (run p m s) := by
  induction n with
  | zero => intro s _ _ h1 h2; exact absurd h2 h1
  | succ n ih =>
    intro s hb hpan hh hn
    simp only [run] at hn
    cases hs : step p s with
    | none => rw [hs] at hn; exact absurd hn hh
    | some s' =>
      rw [hs] at hn
      simp only at hn
      have hcase : (∃ message, Panics p s message ∧ s' = handle p message s) ∨
          (s'.panicked = false ∧ .handler ∉ s'.trace) := by
        obtain ⟨ops, w, k, pan, tr⟩ := s
        cases hpan
        unfold step at hs
        split at hs
        · cases hs
        · cases hs; exact .inr ⟨rfl, by simpa using hh⟩
        · cases hs; exact .inr ⟨rfl, hh⟩
        · rename_i e; cases hs; exact .inl ⟨_, .explicit e, rfl⟩
        · cases hs; exact .inr ⟨rfl, hh⟩
        · cases hs; exact .inr ⟨rfl, by simpa using hh⟩
        · cases hs; exact .inr ⟨rfl, hh⟩
        · cases hs; exact .inr ⟨rfl, hh⟩
        · rename_i e
          split at hs
          · rename_i hk; cases hs; exact .inl ⟨_, .reentrant e hk, rfl⟩
          · cases hs; exact .inr ⟨rfl, by simpa using hh⟩
        · cases hs; exact .inr ⟨rfl, by simpa using hh⟩
        · rename_i e
          split at hs
          · cases hs; exact .inr ⟨rfl, by simpa using hh⟩
          · rename_i hk
            have := hb.bal
            simp only [Bool.not_eq_true] at e hk
            rw [e, hk] at this
            simp [Bal] at this
        · rename_i e
          split at hs
          · cases hs; exact .inr ⟨rfl, hh⟩
          · rename_i ho; cases hs; exact .inl ⟨_, .afterMessage e (by simpa using ho), rfl⟩
        · cases hs; exact .inr ⟨rfl, by simpa using hh⟩
      rcases hcase with ⟨message, hm, rfl⟩ | ⟨h1, h2⟩
      · exact ⟨0, message, by omega, hm, hpan, hh, by simp [run, hs]⟩
      · obtain ⟨m, message, hm, h3, h4, h5, h6⟩ := ih s' (wireInv_step hb hs) h1 h2 hn
        have e : run p (m + 1) s = run p m s' := by simp [run, hs]
        refine ⟨m + 1, message, by omega, ?_, ?_, ?_, ?_⟩
        · rw [e]; exact h3
        · rw [e]; exact h4
        · rw [e]; exact h5
        · rw [e, ← h6]; simp [run, hs]

end Defmt.Program
