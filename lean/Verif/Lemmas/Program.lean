import Verif.Spec.Program
/-! Lemmas for C90 to C92. -/

namespace Defmt.Program

variable {W : Type} {p : Program W}

theorem run_add (n m : Nat) (s : State W) : run p (n + m) s = run p m (run p n s) := by
  induction n generalizing s with
  | zero => simp [run]
  | succ n ih =>
    rw [Nat.add_right_comm]
    simp only [run]
    cases h : step p s with
    | none =>
      simp only
      cases m with
      | zero => rfl
      | succ m => simp [run, h]
    | some s' => exact ih s'

/-- The machine gets from one state to the other. -/
def Reaches (p : Program W) (s s' : State W) : Prop := ∃ n, run p n s = s'

theorem Reaches.refl (s : State W) : Reaches p s s := ⟨0, rfl⟩

theorem Reaches.trans {s s' s'' : State W} (h : Reaches p s s') (h' : Reaches p s' s'') : Reaches p s s'' := by
  obtain ⟨n, rfl⟩ := h
  obtain ⟨m, rfl⟩ := h'
  exact ⟨n + m, run_add n m s⟩

theorem Reaches.to {s s' s'' : State W} (h : Reaches p s s') (h' : s' = s'') : Reaches p s s'' := h' ▸ h

theorem Reaches.step {s s' s'' : State W} (h : step p s = some s') (h' : Reaches p s' s'') : Reaches p s s'' := by
  obtain ⟨m, rfl⟩ := h'
  exact ⟨m + 1, by simp [run, h]⟩

theorem step_call (f : Nat) (rest : List Op) (w : W) (k pan : Bool) (tr : List Event) :
    step p ⟨.code (.stmt (.call f)) :: rest, w, k, pan, tr⟩ =
      some ⟨((p.body f w).2.map .stmt).map .code ++ rest, (p.body f w).1, k, pan, tr ++ [.call f]⟩ := by
  simp [step, List.map_map, Function.comp_def]

theorem logOps_eq (site : Nat) (args : List Arg) :
    logOps site args = (args.map (fun a => Code.stmt (.call a.eval))).map .code ++ [.logBody site args] := by
  simp [logOps, List.map_map, Function.comp_def]

theorem frameOps_eq (site : Nat) (args : List Arg) :
    frameOps p site args =
      .acquire :: .header site :: ((Code.nested p.timestamp :: args.map (fun a => Code.nested a.fmt)).map .code ++ [.release]) := by
  simp [frameOps, List.map_map, Function.comp_def]

/-- The body of an enabled log statement while the logger is free. -/
theorem frame_reaches {site : Nat} {args : List Arg} (he : p.enabled site = true) {w w' : W} {t : List Event}
    (h : ∀ rest pan tr, Reaches p ⟨(Code.nested p.timestamp :: args.map (fun a => Code.nested a.fmt)).map .code ++ rest, w, true, pan, tr⟩
      ⟨rest, w', true, pan, tr ++ t⟩) (rest : List Op) (pan : Bool) (tr : List Event) :
    Reaches p ⟨.logBody site args :: rest, w, false, pan, tr⟩ ⟨rest, w', false, pan, tr ++ ([.start, .header site] ++ t ++ [.stop])⟩ := by
  refine .step (s' := ⟨frameOps p site args ++ rest, w, false, pan, tr⟩) (by simp [step, he]) ?_
  rw [frameOps_eq]
  simp only [List.cons_append, List.append_assoc]
  refine .step rfl ?_
  refine .step rfl ?_
  refine .trans (h _ _ _) ?_
  refine .step rfl ?_
  simp only [List.append_assoc, List.cons_append, List.nil_append]
  exact .refl _

theorem runs_reaches {k : Bool} {code : List Code} {w w' : W} {t : List Event} (h : Runs p k code w t w') :
    ∀ rest pan tr, Reaches p ⟨code.map .code ++ rest, w, k, pan, tr⟩ ⟨rest, w', k, pan, tr ++ t⟩ := by
  induction h with
  | done => intro rest pan tr; simp only [List.append_nil]; exact .refl _
  | @write b _ _ _ _ _ ih =>
    intro rest pan tr
    refine .step rfl ?_
    have := ih rest pan (tr ++ [.data b])
    simp only [List.append_assoc, List.cons_append, List.nil_append] at this
    exact this
  | nested _ _ ih1 ih2 =>
    intro rest pan tr
    refine .step rfl ?_
    refine .trans (ih1 _ pan tr) ?_
    rw [← List.append_assoc tr]
    exact ih2 rest pan _
  | call _ _ ih1 ih2 =>
    intro rest pan tr
    simp only [List.map_cons, List.cons_append]
    refine .step (step_call ..) ?_
    refine .trans (ih1 _ pan _) ?_
    refine .to (ih2 rest pan _) ?_
    simp only [List.append_assoc, List.cons_append, List.nil_append]
  | log he _ _ _ ih1 ih2 ih3 =>
    intro rest pan tr
    refine .step rfl ?_
    simp only [logOps_eq, List.append_assoc]
    refine .trans (ih1 _ pan tr) ?_
    refine .trans (frame_reaches he ih2 _ pan _) ?_
    refine .to (ih3 rest pan _) ?_
    simp only [List.append_assoc, List.cons_append, List.nil_append]
  | filtered he _ _ ih1 ih2 =>
    intro rest pan tr
    refine .step rfl ?_
    simp only [logOps_eq, List.append_assoc]
    refine .trans (ih1 _ pan tr) ?_
    refine .step (s' := ⟨_, _, _, _, _⟩) (by simp only [List.cons_append, step, he]; rfl) ?_
    rw [← List.append_assoc tr]
    exact ih2 rest pan _

/-! ### the other direction -/

theorem trace_step {s s' : State W} (h : step p s = some s') : ∃ t, s'.trace = s.trace ++ t := by
  unfold step handle at h
  split at h
  all_goals (try split at h)
  all_goals (try split at h)
  all_goals (first | (cases h; done) | (cases h; exact ⟨_, rfl⟩) | (cases h; exact ⟨[], (List.append_nil _).symm⟩))

theorem trace_run (n : Nat) (s : State W) : ∃ t, (run p n s).trace = s.trace ++ t := by
  induction n generalizing s with
  | zero => exact ⟨[], (List.append_nil _).symm⟩
  | succ n ih =>
    simp only [run]
    cases h : step p s with
    | none => exact ⟨[], (List.append_nil _).symm⟩
    | some s' =>
      obtain ⟨t, ht⟩ := trace_step h
      obtain ⟨t', ht'⟩ := ih s'
      exact ⟨t ++ t', by simp [ht', ht]⟩

theorem not_returned_of_handler (n : Nat) (s : State W) (h : .handler ∈ s.trace) : ¬ Returned (run p n s) := by
  rintro ⟨_, h', _⟩
  obtain ⟨t, ht⟩ := trace_run (p := p) n s
  rw [ht] at h'
  exact h' (List.mem_append_left _ h)

theorem not_returned_handle (n : Nat) (m : Nat) (s : State W) : ¬ Returned (run p n (handle p m s)) := by
  apply not_returned_of_handler
  unfold handle
  split <;> simp

theorem not_returned_fault (n : Nat) (w : W) (k pan : Bool) (tr : List Event) (rest : List Op) :
    ¬ Returned (run p n ⟨.fault :: rest, w, k, pan, tr⟩) := by
  cases n with
  | zero => rintro ⟨h, _⟩; cases h
  | succ n =>
    rintro ⟨_, _, h'⟩
    simp only [run, step] at h'
    obtain ⟨t, ht⟩ := trace_run (p := p) n ⟨[], w, k, pan, tr ++ [.fault]⟩
    rw [ht] at h'
    simp at h'

theorem not_returned_export (n : Nat) (w : W) (k pan : Bool) (tr : List Event) (rest : List Op) :
    ¬ Returned (run p n ⟨.exportPanic :: rest, w, k, pan, tr⟩) := by
  cases n with
  | zero => rintro ⟨h, _⟩; cases h
  | succ n =>
    simp only [run, step]
    cases p.override with
    | true => simp only [if_true]; exact not_returned_fault _ _ _ _ _ _
    | false => simp only [Bool.false_eq_true, if_false]; exact not_returned_handle _ _ _

/-- Code that can run with the logger free or taken. -/
def Fits (k : Bool) (code : List Code) : Prop := k = true ∨ ∀ c ∈ code, ∃ s, c = .stmt s

theorem fits_tail {k : Bool} {c : Code} {code : List Code} (h : Fits k (c :: code)) : Fits k code :=
  h.imp id (fun h c hc => h c (List.mem_cons_of_mem _ hc))

theorem fits_map (k : Bool) (l : List α) (f : α → Stmt) : Fits k (l.map (fun a => .stmt (f a))) := by
  refine .inr (fun c hc => ?_)
  obtain ⟨a, _, rfl⟩ := List.mem_map.mp hc
  exact ⟨_, rfl⟩

/-- If the machine returns from code and what follows, the code runs as specified and the machine reaches what follows. -/
theorem returns_runs (n : Nat) : ∀ (k pan : Bool) (code : List Code) (rest : List Op) (w : W) (tr : List Event), Fits k code →
    Returned (run p n ⟨code.map .code ++ rest, w, k, pan, tr⟩) →
    ∃ m t w', m ≤ n ∧ Runs p k code w t w' ∧
      run p n ⟨code.map .code ++ rest, w, k, pan, tr⟩ = run p m ⟨rest, w', k, pan, tr ++ t⟩ := by
  induction n using Nat.strongRecOn with
  | _ n ih =>
  intro k pan code rest w tr hfit hret
  cases code with
  | nil => exact ⟨n, [], w, Nat.le_refl _, .done, by simp⟩
  | cons c code =>
  cases n with
  | zero => exact absurd hret.1 (by simp [run])
  | succ n =>
  have hft := fits_tail hfit
  -- a log statement up to its body
  have hargs : ∀ (args : List Arg) (site : Nat) (after : List Op),
      Returned (run p n ⟨logOps site args ++ after, w, k, pan, tr⟩) →
      ∃ m t w', m ≤ n ∧ Runs p k (args.map (fun a => Code.stmt (.call a.eval))) w t w' ∧
        run p n ⟨logOps site args ++ after, w, k, pan, tr⟩ = run p m ⟨.logBody site args :: after, w', k, pan, tr ++ t⟩ := by
    intro args site after hr
    rw [logOps_eq, List.append_assoc] at hr ⊢
    exact ih n (Nat.lt_succ_self _) k pan _ _ w tr (fits_map ..) hr
  -- the body
  have hbody : ∀ (m : Nat) (args : List Arg) (site : Nat) (after : List Op) (w : W) (tr : List Event), m ≤ n →
      Returned (run p m ⟨.logBody site args :: after, w, k, pan, tr⟩) →
      (p.enabled site = false ∧ ∃ m', m' < m ∧
        run p m ⟨.logBody site args :: after, w, k, pan, tr⟩ = run p m' ⟨after, w, k, pan, tr⟩) ∨
      (p.enabled site = true ∧ k = false ∧ ∃ m' t w', m' < m ∧
        Runs p true (.nested p.timestamp :: args.map (fun a => Code.nested a.fmt)) w t w' ∧
        run p m ⟨.logBody site args :: after, w, k, pan, tr⟩ =
          run p m' ⟨after, w', k, pan, tr ++ ([.start, .header site] ++ t ++ [.stop])⟩) := by
    intro m args site after w tr hm hr
    cases m with
    | zero => exact absurd hr.1 (by simp [run])
    | succ m =>
    cases he : p.enabled site with
    | false =>
      refine .inl ⟨rfl, m, Nat.lt_succ_self _, ?_⟩
      simp [run, step, he]
    | true =>
      have e1 : run p (m + 1) ⟨.logBody site args :: after, w, k, pan, tr⟩ = run p m ⟨frameOps p site args ++ after, w, k, pan, tr⟩ := by
        simp [run, step, he]
      rw [e1] at hr ⊢
      rw [frameOps_eq] at hr ⊢
      cases m with
      | zero => exact absurd hr.1 (by simp [run])
      | succ m =>
      cases k with
      | true =>
        exfalso
        simp only [run, step, List.cons_append, if_true] at hr
        exact not_returned_handle _ _ _ hr
      | false =>
      simp only [run, step, List.cons_append, Bool.false_eq_true, if_false] at hr ⊢
      cases m with
      | zero => exact absurd hr.1 (by simp [run])
      | succ m =>
      simp only [run, step, List.append_assoc] at hr ⊢
      obtain ⟨m1, t1, w1, hm1, hr1, e⟩ := ih m (by omega) true pan (.nested p.timestamp :: args.map (fun a => Code.nested a.fmt))
        ([.release] ++ after) w _ (.inl rfl) hr
      rw [e] at hr ⊢
      cases m1 with
      | zero => exact absurd hr.1 (by simp [run])
      | succ m1 =>
      refine .inr ⟨trivial, trivial, m1, t1, w1, by omega, hr1, ?_⟩
      simp [run, step]
  cases c with
  | write b =>
    rcases hfit with rfl | hfit
    · simp only [List.map_cons, List.cons_append, run, step] at hret ⊢
      obtain ⟨m, t, w', hm, hr, e⟩ := ih n (Nat.lt_succ_self _) true pan code rest w _ hft hret
      exact ⟨m, _, w', by omega, .write hr, by rw [e]; simp⟩
    · obtain ⟨s, hs⟩ := hfit _ (List.mem_cons_self ..); cases hs
  | nested g =>
    rcases hfit with rfl | hfit
    · simp only [List.map_cons, List.cons_append, run, step] at hret ⊢
      obtain ⟨m, t, w', hm, hr, e⟩ := ih n (Nat.lt_succ_self _) true pan _ _ w _ (.inl rfl) hret
      rw [e] at hret ⊢
      obtain ⟨m2, t2, w2, hm2, hr2, e2⟩ := ih m (by omega) true pan code rest w' _ hft hret
      exact ⟨m2, _, w2, by omega, .nested hr hr2, by rw [e2]; simp⟩
    · obtain ⟨s, hs⟩ := hfit _ (List.mem_cons_self ..); cases hs
  | stmt st =>
    cases st with
    | call f =>
      simp only [List.map_cons, List.cons_append, run, step_call] at hret ⊢
      obtain ⟨m, t, w', hm, hr, e⟩ := ih n (Nat.lt_succ_self _) k pan _ _ _ _ (fits_map k _ id) hret
      rw [show (List.map (fun a => Code.stmt (id a)) (p.body f w).2) = (p.body f w).2.map .stmt from rfl] at hr
      simp only [id] at e
      rw [e] at hret ⊢
      obtain ⟨m2, t2, w2, hm2, hr2, e2⟩ := ih m (by omega) k pan code rest w' _ hft hret
      exact ⟨m2, _, w2, by omega, .call hr hr2, by rw [e2]; simp⟩
    | panic msg =>
      simp only [List.map_cons, List.cons_append, run, step] at hret
      exact absurd hret (not_returned_handle _ _ _)
    | log site args =>
      have e0 : run p (n + 1) ⟨(Code.stmt (.log site args) :: code).map .code ++ rest, w, k, pan, tr⟩ =
          run p n ⟨logOps site args ++ (code.map .code ++ rest), w, k, pan, tr⟩ := by simp [run, step]
      rw [e0] at hret ⊢
      obtain ⟨m, t, w', hm, hr, e⟩ := hargs args site _ hret
      rw [e] at hret ⊢
      rcases hbody m args site _ w' _ hm hret with ⟨he, m', hm', e'⟩ | ⟨he, rfl, m', t', w2, hm', hf, e'⟩
      · rw [e'] at hret ⊢
        obtain ⟨m2, t2, w2, hm2, hr2, e2⟩ := ih m' (by omega) k pan code rest w' _ hft hret
        exact ⟨m2, _, w2, by omega, .filtered he hr hr2, by rw [e2]; simp⟩
      · rw [e'] at hret ⊢
        obtain ⟨m2, t2, w3, hm2, hr2, e2⟩ := ih m' (by omega) false pan code rest w2 _ hft hret
        exact ⟨m2, _, w3, by omega, .log he hr hf hr2, by rw [e2]; simp⟩
    | defmtPanic site args =>
      exfalso
      have e0 : run p (n + 1) ⟨(Code.stmt (.defmtPanic site args) :: code).map .code ++ rest, w, k, pan, tr⟩ =
          run p n ⟨logOps site args ++ (.exportPanic :: (code.map .code ++ rest)), w, k, pan, tr⟩ := by simp [run, step]
      rw [e0] at hret
      obtain ⟨m, t, w', hm, hr, e⟩ := hargs args site _ hret
      rw [e] at hret
      rcases hbody m args site _ w' _ hm hret with ⟨he, m', hm', e'⟩ | ⟨he, rfl, m', t', w2, hm', hf, e'⟩
      · rw [e'] at hret
        exact not_returned_export _ _ _ _ _ _ hret
      · rw [e'] at hret
        exact not_returned_export _ _ _ _ _ _ hret

theorem runs_events {k : Bool} {code : List Code} {w w' : W} {t : List Event} (h : Runs p k code w t w') :
    .handler ∉ t ∧ .fault ∉ t := by
  induction h <;> simp_all

/-! ### programs that differ in what is logged -/

/-- The program with all log statements filtered out. -/
def quiet (p : Program W) : Program W := { p with enabled := fun _ => false }

/-- What can be left to do outside of frames. -/
def Plain : Op → Prop
  | .code (.stmt _) | .logBody .. | .exportPanic | .fault => True
  | _ => False

/-- What is left to do of a frame. -/
inductive InFrame (p : Program W) (w : W) : Bool → List Op → Prop
  | none : InFrame p w false []
  | acquire {site codes} : Pure p w codes → InFrame p w false (.acquire :: .header site :: (codes.map .code ++ [.release]))
  | header {site codes} : Pure p w codes → InFrame p w true (.header site :: (codes.map .code ++ [.release]))
  | body {codes} : Pure p w codes → InFrame p w true (codes.map .code ++ [.release])

/-- The states correspond to each other. -/
structure Sim (p : Program W) (s u : State W) : Prop where
  ops : ∃ fr, s.ops = fr ++ u.ops ∧ InFrame p s.world s.taken fr
  world : s.world = u.world
  panicked : s.panicked = u.panicked
  trace : own s.trace = own u.trace
  plain : ∀ o ∈ u.ops, Plain o

theorem own_append (t t' : List Event) : own (t ++ t') = own t ++ own t' := by simp [own]

theorem pure_append {w : W} {l l' : List Code} (h : Pure p w l) (h' : Pure p w l') : Pure p w (l ++ l') := by
  induction h with
  | done => exact h'
  | write _ ih => exact .write ih
  | nested h1 _ _ ih => exact .nested h1 ih

theorem pure_formats (hp : PureFormats p) (w : W) (l : List Arg) : Pure p w (l.map (fun a => Code.nested a.fmt)) := by
  induction l with
  | nil => exact .done
  | cons a l ih => exact .nested (hp _ _) ih

theorem pure_runs {w : W} {codes : List Code} (h : Pure p w codes) : ∃ t, Runs p true codes w t w ∧ own t = [] := by
  induction h with
  | done => exact ⟨_, .done, rfl⟩
  | write _ ih =>
    obtain ⟨t, h, e⟩ := ih
    exact ⟨_, .write h, e⟩
  | nested _ _ ih1 ih2 =>
    obtain ⟨t1, h1, e1⟩ := ih1
    obtain ⟨t2, h2, e2⟩ := ih2
    exact ⟨_, .nested h1 h2, by rw [own_append, e1, e2]; rfl⟩

/-- A frame is completed. -/
theorem drain {w : W} {k : Bool} {fr : List Op} (h : InFrame p w k fr) (rest : List Op) (pan : Bool) (tr : List Event) :
    ∃ t, Reaches p ⟨fr ++ rest, w, k, pan, tr⟩ ⟨rest, w, false, pan, tr ++ t⟩ ∧ own t = [] := by
  have body : ∀ {codes : List Code}, Pure p w codes → ∀ tr, ∃ t,
      Reaches p ⟨codes.map .code ++ [.release] ++ rest, w, true, pan, tr⟩ ⟨rest, w, false, pan, tr ++ t⟩ ∧ own t = [] := by
    intro codes hc tr
    obtain ⟨t, h, e⟩ := pure_runs hc
    refine ⟨t ++ [.stop], ?_, by rw [own_append, e]; rfl⟩
    rw [List.append_assoc]
    refine .trans (runs_reaches h _ _ _) ?_
    refine .step rfl ?_
    rw [List.append_assoc]
    exact .refl _
  cases h with
  | none => exact ⟨[], by rw [List.append_nil]; exact .refl _, rfl⟩
  | @acquire site codes hc =>
    obtain ⟨t, h, e⟩ := body hc (tr ++ [.start] ++ [.header site])
    refine ⟨[.start, .header site] ++ t, ?_, by rw [own_append, e]; rfl⟩
    refine .step rfl ?_
    refine .step rfl ?_
    refine .to h ?_
    simp
  | @header site codes hc =>
    obtain ⟨t, h, e⟩ := body hc (tr ++ [.header site])
    refine ⟨[.header site] ++ t, ?_, by rw [own_append, e]; rfl⟩
    refine .step rfl ?_
    refine .to h ?_
    simp
  | body hc => exact body hc tr

theorem plain_stmts (l : List Stmt) (rest : List Op) (h : ∀ o ∈ rest, Plain o) :
    ∀ o ∈ l.map (fun st => Op.code (.stmt st)) ++ rest, Plain o := by
  intro o ho
  rcases List.mem_append.mp ho with ho | ho
  · obtain ⟨st, _, rfl⟩ := List.mem_map.mp ho
    trivial
  · exact h o ho

theorem plain_logOps (site : Nat) (args : List Arg) (rest : List Op) (h : ∀ o ∈ rest, Plain o) :
    ∀ o ∈ logOps site args ++ rest, Plain o := by
  intro o ho
  simp only [logOps, List.append_assoc, List.mem_append, List.mem_map, List.mem_singleton] at ho
  rcases ho with ⟨a, _, rfl⟩ | rfl | ho
  · trivial
  · trivial
  · exact h o ho

theorem sim_handle {s u : State W} (m : Nat) (hk : s.taken = false) (h : Sim p s u) : Sim p (handle p m s) (handle (quiet p) m u) := by
  have hw := h.world
  have ht : own (s.trace ++ [.handler]) = own (u.trace ++ [.handler]) := by rw [own_append, own_append, h.trace]
  unfold handle
  rw [h.panicked]
  cases u.panicked with
  | true => exact ⟨⟨[], rfl, by simp only [if_true, hk]; exact .none⟩, hw, rfl, ht, by simp [Plain]⟩
  | false =>
    refine ⟨⟨[], rfl, by simp only [Bool.false_eq_true, if_false, hk]; exact .none⟩, hw, rfl, ht, ?_⟩
    simp only [Bool.false_eq_true, if_false, quiet]
    cases p.printer <;> simp [Plain]

/-- Outside of frames both do a step or none. -/
theorem sim_sync (hp : PureFormats p) {s u : State W} (h : Sim p s u) (ho : s.ops = u.ops) (hk : s.taken = false) :
    (s.ops = [] ∧ step p s = none ∧ step (quiet p) u = none) ∨
      ∃ s' u', step p s = some s' ∧ step (quiet p) u = some u' ∧ Sim p s' u' := by
  obtain ⟨ops, w, k, pan, tr⟩ := s
  obtain ⟨uops, uw, uk, upan, utr⟩ := u
  have hw : w = uw := h.world
  have hpan : pan = upan := h.panicked
  have htr : own tr = own utr := h.trace
  have hpl := h.plain
  simp only at ho hk
  subst ho hk hw hpan
  have ht : ∀ e, own (tr ++ [e]) = own (utr ++ [e]) := fun e => by rw [own_append, own_append, htr]
  cases ops with
  | nil => exact .inl ⟨rfl, rfl, rfl⟩
  | cons o rest =>
  have hrest : ∀ o ∈ rest, Plain o := fun o' ho' => hpl o' (List.mem_cons_of_mem _ ho')
  have hhead := hpl o (List.mem_cons_self ..)
  refine .inr ?_
  cases o with
  | code c =>
    cases c with
    | write b => exact hhead.elim
    | nested g => exact hhead.elim
    | stmt st =>
      cases st with
      | call f => exact ⟨_, _, rfl, rfl, ⟨⟨[], rfl, .none⟩, rfl, rfl, ht _, plain_stmts _ _ hrest⟩⟩
      | log site args => exact ⟨_, _, rfl, rfl, ⟨⟨[], rfl, .none⟩, rfl, rfl, htr, plain_logOps _ _ _ hrest⟩⟩
      | panic m => exact ⟨_, _, rfl, rfl, sim_handle m rfl h⟩
      | defmtPanic site args =>
        refine ⟨_, _, rfl, rfl, ⟨⟨[], rfl, .none⟩, rfl, rfl, htr, ?_⟩⟩
        simp only [List.append_assoc]
        apply plain_logOps
        intro o ho
        rcases List.mem_cons.mp ho with rfl | ho
        · trivial
        · exact hrest o ho
  | logBody site args =>
    refine ⟨_, _, rfl, rfl, ⟨⟨if p.enabled site then frameOps p site args else [], ?_, ?_⟩, rfl, rfl, htr, ?_⟩⟩
    · simp [quiet]
    · cases p.enabled site with
      | false => exact .none
      | true =>
        simp only [if_true, frameOps_eq]
        exact .acquire (.nested (hp _ _) (pure_formats hp w args))
    · simpa [quiet] using hrest
  | exportPanic =>
    simp only [step]
    rw [show (quiet p).override = p.override from rfl]
    cases p.override with
    | true => exact ⟨_, _, rfl, rfl, ⟨⟨[], rfl, .none⟩, rfl, rfl, htr, by simp [Plain]⟩⟩
    | false => exact ⟨_, _, rfl, rfl, sim_handle _ rfl h⟩
  | fault => exact ⟨_, _, rfl, rfl, ⟨⟨[], rfl, .none⟩, rfl, rfl, ht _, by simp⟩⟩
  | acquire => exact hhead.elim
  | header => exact hhead.elim
  | release => exact hhead.elim

/-- A step of the program is a step of the quiet program, or happens within a frame. -/
theorem sim_step (hp : PureFormats p) {s s' u : State W} (h : Sim p s u) (hs : step p s = some s') :
    Sim p s' u ∨ ∃ u', step (quiet p) u = some u' ∧ Sim p s' u' := by
  obtain ⟨fr, hfr, hin⟩ := h.ops
  obtain ⟨ops, w, k, pan, tr⟩ := s
  simp only at hfr hin
  subst hfr
  have hb : ∀ {codes : List Code} (tr' : List Event), Pure p w codes → own tr' = own tr →
      Sim p ⟨codes.map .code ++ [.release] ++ u.ops, w, true, pan, tr'⟩ u := fun {codes} tr' hc ht =>
    ⟨⟨_, rfl, .body hc⟩, h.world, h.panicked, ht.trans h.trace, h.plain⟩
  cases hin with
  | none =>
    rcases sim_sync hp h rfl rfl with ⟨_, h1, _⟩ | ⟨s1, u1, h1, h2, h3⟩
    · rw [h1] at hs; cases hs
    · rw [h1] at hs; cases hs
      exact .inr ⟨_, h2, h3⟩
  | acquire hc =>
    cases hs
    exact .inl ⟨⟨_, rfl, .header hc⟩, h.world, h.panicked, by rw [own_append]; simpa [own] using h.trace, h.plain⟩
  | header hc =>
    cases hs
    exact .inl (hb _ hc (by rw [own_append]; simp [own]))
  | body hc =>
    cases hc with
    | done =>
      cases hs
      exact .inl ⟨⟨[], rfl, .none⟩, h.world, h.panicked, by rw [own_append]; simpa [own] using h.trace, h.plain⟩
    | write hc =>
      cases hs
      exact .inl (hb _ hc (by rw [own_append]; simp [own]))
    | nested hc hc' =>
      cases hs
      have := hb tr (pure_append hc hc') rfl
      simp only [List.map_append, List.append_assoc, List.append_eq] at this ⊢
      exact .inl this

theorem sim_run (hp : PureFormats p) (n : Nat) {s u : State W} (h : Sim p s u) : ∃ m, Sim p (run p n s) (run (quiet p) m u) := by
  induction n generalizing s u with
  | zero => exact ⟨0, h⟩
  | succ n ih =>
    simp only [run]
    cases hs : step p s with
    | none => exact ⟨0, h⟩
    | some s' =>
      rcases sim_step hp h hs with h' | ⟨u', hu, h'⟩
      · exact ih h'
      · obtain ⟨m, hm⟩ := ih h'
        exact ⟨m + 1, by simpa [run, hu] using hm⟩

/-- The program completes the frame. -/
theorem sim_drain {s u : State W} (h : Sim p s u) : ∃ s', Reaches p s s' ∧ Sim p s' u ∧ s'.ops = u.ops ∧ s'.taken = false := by
  obtain ⟨fr, hfr, hin⟩ := h.ops
  obtain ⟨ops, w, k, pan, tr⟩ := s
  simp only at hfr hin
  subst hfr
  obtain ⟨t, hr, ht⟩ := drain hin u.ops pan tr
  exact ⟨_, hr, ⟨⟨[], rfl, .none⟩, h.world, h.panicked, by rw [own_append, ht, List.append_nil]; exact h.trace, h.plain⟩, rfl, rfl⟩

theorem sim_back (hp : PureFormats p) (m : Nat) {s u : State W} (h : Sim p s u) :
    ∃ s', Reaches p s s' ∧ Sim p s' (run (quiet p) m u) ∧ s'.ops = (run (quiet p) m u).ops := by
  induction m generalizing s u with
  | zero =>
    obtain ⟨s', h1, h2, h3, _⟩ := sim_drain h
    exact ⟨s', h1, h2, h3⟩
  | succ m ih =>
    obtain ⟨s1, hr, h1, ho, hk⟩ := sim_drain h
    simp only [run]
    rcases sim_sync hp h1 ho hk with ⟨_, _, hu⟩ | ⟨s2, u2, e1, e2, h2⟩
    · rw [hu]; exact ⟨s1, hr, h1, ho⟩
    · rw [e2]
      obtain ⟨s3, hr3, h3, ho3⟩ := ih h2
      exact ⟨s3, hr.trans (.step e1 hr3), h3, ho3⟩

theorem sim_start (main : Nat) (w : W) : Sim p (start main w) (start main w) :=
  ⟨⟨[], rfl, .none⟩, rfl, rfl, rfl, by simp [start, Plain]⟩

theorem pureFormats_enabled {e : Nat → Bool} (h : PureFormats p) : PureFormats { p with enabled := e } := by
  intro g w
  have : ∀ {l : List Code}, Pure p w l → Pure { p with enabled := e } w l := by
    intro l hl
    induction hl with
    | done => exact .done
    | write _ ih => exact .write ih
    | nested _ _ ih1 ih2 => exact .nested ih1 ih2
  exact this (h g w)

/-! ### panics -/

/-- What can be left to do while the message of a panic is written: nothing that releases the logger, unless the logger is taken before. -/
def Locked : Op → Prop
  | .code _ | .logBody .. | .exportPanic | .header _ => True
  | _ => False

inductive PanicInv : State W → Prop
  /-- no panic yet -/
  | running {s} : s.panicked = false → .handler ∉ s.trace → .fault ∉ s.trace → PanicInv s
  /-- the handler has been entered -/
  | entered {s site args} : s.panicked = true → s.ops = [.logBody site args, .fault] → s.trace.count .handler = 1 →
      (afterPanic s.trace).count .start = 0 → .fault ∉ s.trace → PanicInv s
  /-- before the frame of the message -/
  | acquiring {s rest} : s.panicked = true → s.ops = .acquire :: rest ++ [.release, .fault] → (∀ o ∈ rest, Locked o) →
      s.trace.count .handler = 1 → (afterPanic s.trace).count .start = 0 → .fault ∉ s.trace → PanicInv s
  /-- in the frame of the message -/
  | printing {s rest} : s.panicked = true → s.taken = true → s.ops = rest ++ [.release, .fault] → (∀ o ∈ rest, Locked o) →
      s.trace.count .handler = 1 → (afterPanic s.trace).count .start = 1 → .fault ∉ s.trace → PanicInv s
  /-- in the frame of the message, and a log statement begins -/
  | nested {s rest} : s.panicked = true → s.taken = true → s.ops = .acquire :: rest →
      s.trace.count .handler = 1 → (afterPanic s.trace).count .start = 1 → .fault ∉ s.trace → PanicInv s
  | faulting {s} : s.ops = [.fault] → s.trace.count .handler ≤ 2 → (afterPanic s.trace).count .start ≤ 1 → .fault ∉ s.trace → PanicInv s
  | halted {s t} : s.ops = [] → s.trace = t ++ [.fault] → .fault ∉ t → s.trace.count .handler ≤ 2 →
      (afterPanic s.trace).count .start ≤ 1 → PanicInv s

theorem afterPanic_of_not_mem {t : List Event} (h : .handler ∉ t) (e : Event) (he : e ≠ .handler) : afterPanic (t ++ [e]) = [] := by
  unfold afterPanic
  have : .handler ∉ t ++ [e] := by simp [h, Ne.symm he]
  generalize t ++ [e] = l at this
  induction l with
  | nil => rfl
  | cons x l ih =>
    rw [List.dropWhile_cons_of_pos (by simp; rintro rfl; simp at this)]
    exact ih (fun h => this (List.mem_cons_of_mem _ h))

theorem afterPanic_first {t : List Event} (h : .handler ∉ t) : afterPanic (t ++ [.handler]) = [] := by
  unfold afterPanic
  induction t with
  | nil => rfl
  | cons x l ih =>
    rw [List.cons_append, List.dropWhile_cons_of_pos (by simp; rintro rfl; simp at h)]
    exact ih (fun h' => h (List.mem_cons_of_mem _ h'))

theorem afterPanic_append {t : List Event} (h : .handler ∈ t) (t' : List Event) : afterPanic (t ++ t') = afterPanic t ++ t' := by
  unfold afterPanic
  induction t with
  | nil => cases h
  | cons x l ih =>
    by_cases hx : x = .handler
    · subst hx; simp
    · rw [List.cons_append, List.dropWhile_cons_of_pos (by simpa using hx), List.dropWhile_cons_of_pos (by simpa using hx)]
      exact ih (by simpa [Ne.symm hx] using h)

theorem step_cases {s s' : State W} (h : step p s = some s') :
    (∃ m, s' = handle p m s) ∨ (∃ rest, s.ops = .fault :: rest ∧ s' = { s with ops := [], trace := s.trace ++ [.fault] }) ∨
      (s'.panicked = s.panicked ∧ ∃ t, s'.trace = s.trace ++ t ∧ .handler ∉ t ∧ .fault ∉ t) := by
  unfold step at h
  split at h
  all_goals (try split at h)
  all_goals first
    | (cases h; done)
    | (cases h; exact .inl ⟨_, rfl⟩)
    | (cases h; exact .inr (.inl ⟨_, by assumption, rfl⟩))
    | (cases h; exact .inr (.inr ⟨rfl, [], (List.append_nil _).symm, by simp, by simp⟩))
    | (cases h; exact .inr (.inr ⟨rfl, _, rfl, by simp, by simp⟩))

/-- A second panic. -/
theorem panicInv_again {s : State W} (m : Nat) (hp : s.panicked = true) (hc : s.trace.count .handler = 1)
    (ha : (afterPanic s.trace).count .start ≤ 1) (hf : .fault ∉ s.trace) : PanicInv (handle p m s) := by
  have hm : .handler ∈ s.trace := List.count_pos_iff.mp (by omega)
  unfold handle
  rw [if_pos hp]
  refine .faulting rfl ?_ ?_ ?_
  · simp [hc]
  · simp only [afterPanic_append hm]
    simpa using ha
  · simpa using hf

theorem panicInv_step {s s' : State W} (hi : PanicInv s) (h : step p s = some s') : PanicInv s' := by
  cases hi with
  | running hp hh hf =>
    rcases step_cases h with ⟨m, rfl⟩ | ⟨rest, ho, rfl⟩ | ⟨hp', t, ht, h1, h2⟩
    · unfold handle
      rw [if_neg (by simp [hp])]
      have hc : (s.trace ++ [Event.handler]).count .handler = 1 := by
        simp [List.count_eq_zero.mpr hh]
      have ha : (afterPanic (s.trace ++ [Event.handler])).count .start = 0 := by rw [afterPanic_first hh]; rfl
      have hf' : .fault ∉ s.trace ++ [Event.handler] := by simpa using hf
      cases hpr : p.printer with
      | none => exact .faulting rfl (by simp only; omega) (by simp only; omega) hf'
      | some site => exact .entered rfl rfl hc ha hf'
    · refine .halted rfl rfl hf ?_ ?_
      · simp [List.count_eq_zero.mpr hh]
      · simp only [afterPanic_of_not_mem hh .fault (by simp)]; simp
    · exact .running (hp'.trans hp) (by rw [ht]; simp [hh, h1]) (by rw [ht]; simp [hf, h2])
  | @entered site args hp ho hc ha hf =>
    obtain ⟨ops, w, k, pan, tr⟩ := s
    simp only at ho hp hc ha hf
    subst ho
    cases h
    cases he : p.enabled site with
    | false => exact .faulting (by simp) (by simp only; omega) (by simp only; omega) hf
    | true =>
      refine .acquiring (rest := .header site :: (Code.nested p.timestamp :: args.map (fun a => Code.nested a.fmt)).map .code) hp ?_ ?_ hc ha hf
      · simp only [if_true, frameOps_eq]; simp
      · intro o ho
        rcases List.mem_cons.mp ho with rfl | ho
        · trivial
        · obtain ⟨c, _, rfl⟩ := List.mem_map.mp ho
          trivial
  | @acquiring rest hp ho hl hc ha hf =>
    have hm : .handler ∈ s.trace := List.count_pos_iff.mp (by omega)
    obtain ⟨ops, w, k, pan, tr⟩ := s
    simp only at ho hp hc ha hf hm
    subst ho
    cases k with
    | true =>
      cases h
      exact panicInv_again _ hp hc (by simp only; omega) hf
    | false =>
      cases h
      refine .printing (rest := rest) hp rfl rfl hl ?_ ?_ ?_
      · simpa using hc
      · simp only [afterPanic_append hm]; simpa using ha
      · simpa using hf
  | @printing rest hp hk ho hl hc ha hf =>
    have hm : .handler ∈ s.trace := List.count_pos_iff.mp (by omega)
    have again : ∀ m, PanicInv (handle p m s) := fun m => panicInv_again m hp hc (by omega) hf
    obtain ⟨ops, w, k, pan, tr⟩ := s
    simp only at ho hp hc ha hf hm hk
    subst ho hk
    have keep : ∀ (rest' : List Op) (w' : W) (t : List Event), (∀ o ∈ rest', Locked o) → .handler ∉ t → .fault ∉ t → .start ∉ t →
        PanicInv ⟨rest' ++ [.release, .fault], w', true, pan, tr ++ t⟩ := by
      intro rest' w' t hl' h1 h2 h3
      refine .printing (rest := rest') hp rfl rfl hl' ?_ ?_ ?_
      · simp [hc, List.count_eq_zero.mpr h1]
      · simp [afterPanic_append hm, ha, List.count_eq_zero.mpr h3]
      · simp [hf, h2]
    have keep0 : ∀ (rest' : List Op) (w' : W), (∀ o ∈ rest', Locked o) →
        PanicInv ⟨rest' ++ [.release, .fault], w', true, pan, tr⟩ := by
      intro rest' w' hl'
      have := keep rest' w' [] hl' (by simp) (by simp) (by simp)
      simpa using this
    cases rest with
    | nil =>
      cases h
      refine .faulting rfl ?_ ?_ ?_
      · simp [hc]
      · simp only [afterPanic_append hm]; simpa using Nat.le_of_eq ha
      · simpa using hf
    | cons o rest =>
      have hr : ∀ o ∈ rest, Locked o := fun o' ho' => hl o' (List.mem_cons_of_mem _ ho')
      have hhead := hl o (List.mem_cons_self ..)
      have hlog : ∀ (site : Nat) (args : List Arg) (l : List Op), (∀ o ∈ l, Locked o) → ∀ o ∈ logOps site args ++ l, Locked o := by
        intro site args l hl o ho
        simp only [logOps, List.append_assoc, List.mem_append, List.mem_map, List.mem_singleton] at ho
        rcases ho with ⟨a, _, rfl⟩ | rfl | ho
        · trivial
        · trivial
        · exact hl o ho
      cases o with
      | code c =>
        cases c with
        | write b => cases h; exact keep rest w _ hr (by simp) (by simp) (by simp)
        | nested g =>
          cases h
          have := keep0 ((p.fmt g w).map .code ++ rest) w (by
            intro o ho
            rcases List.mem_append.mp ho with ho | ho
            · obtain ⟨c, _, rfl⟩ := List.mem_map.mp ho; trivial
            · exact hr o ho)
          simpa using this
        | stmt st =>
          cases st with
          | call f =>
            cases h
            have := keep ((p.body f w).2.map (fun st => .code (.stmt st)) ++ rest) (p.body f w).1 [.call f] (by
              intro o ho
              rcases List.mem_append.mp ho with ho | ho
              · obtain ⟨c, _, rfl⟩ := List.mem_map.mp ho; trivial
              · exact hr o ho) (by simp) (by simp) (by simp)
            simpa using this
          | log site args =>
            cases h
            have := keep0 (logOps site args ++ rest) w (hlog _ _ _ hr)
            simpa using this
          | panic m => cases h; exact again m
          | defmtPanic site args =>
            cases h
            have := keep0 (logOps site args ++ (.exportPanic :: rest)) w (hlog _ _ _ (by
              intro o ho
              rcases List.mem_cons.mp ho with rfl | ho
              · trivial
              · exact hr o ho))
            simpa using this
      | logBody site args =>
        cases h
        cases he : p.enabled site with
        | false =>
          simp only [Bool.false_eq_true, if_false, List.nil_append]
          exact keep0 rest w hr
        | true =>
          simp only [if_true, frameOps_eq]
          exact .nested hp rfl rfl hc ha hf
      | exportPanic =>
        simp only [step, List.cons_append] at h
        cases ho : p.override with
        | true => rw [ho] at h; cases h; exact .faulting rfl (by simp only; omega) (by simp only; omega) hf
        | false => rw [ho] at h; cases h; exact again _
      | header site => cases h; exact keep rest w _ hr (by simp) (by simp) (by simp)
      | fault => exact hhead.elim
      | acquire => exact hhead.elim
      | release => exact hhead.elim
  | @nested rest hp hk ho hc ha hf =>
    obtain ⟨ops, w, k, pan, tr⟩ := s
    simp only at ho hp hc ha hf hk
    subst ho hk
    cases h
    exact panicInv_again _ hp hc (by simp only; omega) hf
  | faulting ho hc ha hf =>
    rcases s with ⟨ops, w, k, pan, tr⟩
    simp only at ho hc ha hf
    subst ho
    cases h
    refine .halted rfl rfl hf ?_ ?_
    · simpa using hc
    · by_cases hm : .handler ∈ tr
      · simp only [afterPanic_append hm]; simpa using ha
      · simp [afterPanic_of_not_mem hm]
  | halted ho ht hf hc ha =>
    rcases s with ⟨ops, w, k, pan, tr⟩
    simp only at ho
    subst ho
    cases h

theorem panicInv_run (n : Nat) (s : State W) (h : PanicInv s) : PanicInv (run p n s) := by
  induction n generalizing s with
  | zero => exact h
  | succ n ih =>
    simp only [run]
    cases hs : step p s with
    | none => exact h
    | some s' => exact ih s' (panicInv_step h hs)

theorem panicInv_start (main : Nat) (w : W) : PanicInv (start main w) := .running rfl (by simp [start]) (by simp [start])

end Defmt.Program
