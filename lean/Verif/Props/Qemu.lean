import Verif.Spec.Qemu
import Verif.Props.Printer
import Verif.Props.Display
/-!
# Property C106: `qemu-run`
-/

namespace Defmt

open Printer Stream Qemu Decoder Encoder

theorem meaning_of_run (t : Table) (enc : Encoding) (chunks : List (List UInt8)) :
    ∃ fs bad, Meaning t.td enc chunks.flatten fs bad ∧
      (bad = false → ∃ b, qemuRun t.td enc chunks = some (fs.map .frame, .wait b)) ∧
      (bad = true → qemuRun t.td enc chunks = some (fs.map .frame, .abort)) := by
  cases enc with
  | raw =>
    obtain ⟨fs, e, h1, h2⟩ := run_raw (settled_table t) chunks [] rfl
    rw [List.nil_append] at h1
    rcases h1.no_panic with rfl | ⟨rest, rfl, _⟩
    · exact ⟨fs, true, h1, fun h => by (cases h), fun _ => h2⟩
    · exact ⟨fs, false, ⟨rest, h1⟩, fun _ => ⟨rest, h2⟩, fun h => by (cases h)⟩
  | rzcobs =>
    have key : ∀ bs : List (List UInt8), (∃ fs : List Frame, bs.map (report t.td) = fs.map .frame) ∨
        ∃ (fs : List Frame) (rest : List (DecodeResult Frame)), bs.map (report t.td) = fs.map .frame ++ .err .malformed :: rest := by
      intro bs
      induction bs with
      | nil => exact Or.inl ⟨[], rfl⟩
      | cons b bs ih =>
        rcases report_cases t.td b with ⟨f, hf⟩ | hf
        · rcases ih with ⟨fs, h⟩ | ⟨fs, rest, h⟩
          · exact Or.inl ⟨f :: fs, by simp [hf, h]⟩
          · exact Or.inr ⟨f :: fs, rest, by simp [hf, h]⟩
        · exact Or.inr ⟨[], bs.map (report t.td), by simp [hf]⟩
    obtain ⟨q1, q2⟩ := C54_qemu_run t.td chunks
    rcases key (completeBlocks chunks.flatten) with ⟨fs, h⟩ | ⟨fs, rest, h⟩
    · exact ⟨fs, false, h, fun _ => ⟨_, q1 fs h⟩, fun h => by (cases h)⟩
    · exact ⟨fs, true, ⟨rest, h⟩, fun h => by (cases h), fun _ => q2 fs rest h⟩

theorem run_snoc {F : Type} (td : List UInt8 → Except DecodeError (F × Nat)) (enc : Encoding) (r : Bool) (cs : List (List UInt8)) (c : List UInt8) :
    ∀ buf out b, Printer.run td enc r buf cs = some (out, .wait b) →
    Printer.run td enc r buf (cs ++ [c]) =
      (Printer.drain td enc r ((received enc b c).length + 1) (received enc b c)).map (fun x => (out ++ x.1, x.2)) := by
  induction cs with
  | nil =>
    intro buf out b h
    cases h
    rw [List.nil_append, Printer.run]
    cases drain td enc r ((received enc buf c).length + 1) (received enc buf c) with
    | none => rfl
    | some x =>
      obtain ⟨o, n⟩ := x
      cases n <;> simp [Printer.run]
  | cons d ds ih =>
    intro buf out b h
    rw [List.cons_append, Printer.run]
    rw [Printer.run] at h
    cases hd : drain td enc r ((received enc buf d).length + 1) (received enc buf d) with
    | none => rw [hd] at h; cases h
    | some x =>
      obtain ⟨o, n⟩ := x
      rw [hd] at h
      cases n with
      | wait b1 =>
        simp only at h ⊢
        cases hr : Printer.run td enc r b1 ds with
        | none => rw [hr] at h; cases h
        | some y =>
          obtain ⟨o2, n2⟩ := y
          rw [hr] at h
          simp only [Option.map_some, Option.some.injEq, Prod.mk.injEq] at h
          obtain ⟨rfl, rfl⟩ := h
          rw [ih b1 o2 b hr]
          cases drain td enc r ((received enc b c).length + 1) (received enc b c) <;> simp
      | abort => cases h
      | panicked => cases h

theorem printUnits_frames (env : Env) (fs : List Frame) :
    ((printUnits env (fs.map .frame)).2 = true ∧ Shown env fs (printUnits env (fs.map .frame)).1) ∨
    ((printUnits env (fs.map .frame)).2 = false ∧ ∃ pre f post, fs = pre ++ f :: post ∧ f.display env = none ∧
      Shown env pre (printUnits env (fs.map .frame)).1) := by
  induction fs with
  | nil => exact Or.inl ⟨rfl, rfl⟩
  | cons f fs ih =>
    rw [List.map_cons, printUnits]
    cases hf : f.display env with
    | none => exact Or.inr ⟨rfl, [], f, fs, rfl, hf, rfl⟩
    | some line =>
      rcases ih with ⟨h1, h2⟩ | ⟨h1, pre, g, post, rfl, h3, h4⟩
      · refine Or.inl ⟨h1, ?_⟩
        unfold Shown at h2 ⊢
        simp only [List.map_cons, hf, h2]
      · refine Or.inr ⟨h1, f :: pre, g, post, rfl, h3, ?_⟩
        unfold Shown at h4 ⊢
        simp only [List.map_cons, hf, h4]

theorem frames_inj {a b : List Frame} (h : a.map (Printer.Line.frame : Frame → Printer.Line Frame) = b.map .frame) : a = b :=
  (List.map_inj_right (fun x y h => by cases h; rfl)).mp h

/-- what the state of `qemu-run` says about the chunks read so far -/
def QemuInv (env : Env) (t : Table) (enc : Encoding) (s : Qemu.State) : Prop :=
  ∃ (chunks : List (List UInt8)) (fs : List Frame), chunks.flatten ++ s.pipe = s.written ∧
    match s.phase with
    | .reading | .waiting => qemuRun t.td enc chunks = some (fs.map .frame, .wait s.buffer) ∧ Shown env fs s.output
    | .rest c => qemuRun t.td enc chunks = some (fs.map .frame, .wait s.buffer) ∧ Shown env fs s.output ∧ ∃ e, s.child = some e ∧ c = e.toCode
    | .done (.status n) => (∃ b, qemuRun t.td enc chunks = some (fs.map .frame, .wait b)) ∧ Shown env fs s.output ∧ s.pipe = [] ∧
        ∃ e, s.child = some e ∧ exitStatus e.toCode = .status n
    | .done .error => qemuRun t.td enc chunks = some (fs.map .frame, .abort) ∧ Shown env fs s.output ∧ s.child ≠ none
    | .done .panic => ∃ next pre f post, qemuRun t.td enc chunks = some (fs.map .frame, next) ∧ fs = pre ++ f :: post ∧ f.display env = none ∧
        Shown env pre s.output ∧ s.child ≠ none

theorem feed_inv (env : Env) (t : Table) (enc : Encoding) (s : Qemu.State) (chunk : List UInt8) (next : Phase) (chunks : List (List UInt8))
    (fs : List Frame) (hw : chunks.flatten ++ (chunk ++ s.pipe) = s.written)
    (hr : qemuRun t.td enc chunks = some (fs.map .frame, .wait s.buffer)) (hs : Shown env fs s.output)
    (hn : next = .waiting ∨ s.pipe = [] ∧ ∃ e, s.child = some e ∧ next = .done (exitStatus e.toCode)) :
    QemuInv env t enc (Qemu.feed env t.td enc chunk next s) := by
  obtain ⟨fs', bad, _, hb1, hb2⟩ := meaning_of_run t enc (chunks ++ [chunk])
  have hrun := run_snoc t.td enc false chunks chunk [] _ _ hr
  have hw' : (chunks ++ [chunk]).flatten ++ s.pipe = s.written := by simpa using hw
  have hres : ∃ next, qemuRun t.td enc (chunks ++ [chunk]) = some (fs'.map .frame, next) ∧ ((∃ b, next = .wait b) ∨ next = .abort) := by
    cases bad with
    | false => obtain ⟨b, h⟩ := hb1 rfl; exact ⟨_, h, Or.inl ⟨b, rfl⟩⟩
    | true => exact ⟨_, hb2 rfl, Or.inr rfl⟩
  obtain ⟨nx, hq, hnx⟩ := hres
  have hq' := hq
  unfold qemuRun at hq
  rw [hrun] at hq
  unfold Qemu.feed
  simp only
  cases hd : drain t.td enc false ((received enc s.buffer chunk).length + 1) (received enc s.buffer chunk) with
  | none => rw [hd] at hq; cases hq
  | some x =>
    obtain ⟨units, after⟩ := x
    rw [hd] at hq
    simp only [Option.map_some, Option.some.injEq, Prod.mk.injEq] at hq
    obtain ⟨hu, rfl⟩ := hq
    obtain ⟨fs1, gs, rfl, h1, h2⟩ := List.map_eq_append_iff.mp hu.symm
    have hfs1 : fs1 = fs := by
      exact frames_inj h1
    subst hfs1
    subst h2
    simp only
    rcases printUnits_frames env gs with ⟨p1, p2⟩ | ⟨p1, pre, f, post, rfl, p3, p4⟩
    · rw [if_pos p1]
      have hsh : Shown env (fs1 ++ gs) (s.output ++ (printUnits env (gs.map .frame)).1) := by
        unfold Shown at hs p2 ⊢
        rw [List.map_append, List.map_append, hs, p2]
      rcases hnx with ⟨b, rfl⟩ | rfl
      · refine ⟨chunks ++ [chunk], fs1 ++ gs, hw', ?_⟩
        rcases hn with rfl | ⟨hp, e, he, rfl⟩
        · exact ⟨hq', hsh⟩
        · cases hx : exitStatus e.toCode with
          | status n => exact ⟨⟨b, hq'⟩, hsh, hp, e, he, hx⟩
          | error => cases e <;> cases hx
          | panic => cases e <;> cases hx
      · refine ⟨chunks ++ [chunk], fs1 ++ gs, hw', hq', hsh, ?_⟩
        simp only [kill]
        cases s.child <;> simp
    · rw [if_neg (by rw [p1]; simp)]
      refine ⟨chunks ++ [chunk], _, hw', after, fs1 ++ pre, f, post, hq', by simp, p3, ?_, ?_⟩
      · unfold Shown at hs p4 ⊢
        simp only [kill]
        rw [List.map_append, List.map_append, hs, p4]
      · simp only [kill]
        cases s.child <;> simp

theorem step_inv (env : Env) (t : Table) (enc : Encoding) (s : Qemu.State) (h : QemuInv env t enc s) (ev : Qemu.Event) :
    QemuInv env t enc (Qemu.step env t.td enc s ev) := by
  obtain ⟨chunks, fs, hw, hp⟩ := h
  cases ev with
  | writes bytes =>
    unfold Qemu.step
    by_cases hc : s.child = none
    · simp only [if_pos hc]
      refine ⟨chunks, fs, by simp [← hw], ?_⟩
      obtain ⟨w, pipe, child, buffer, output, phase⟩ := s
      simp only at hp hc ⊢
      subst hc
      cases phase with
      | reading => exact hp
      | waiting => exact hp
      | rest c => obtain ⟨_, _, _, h, _⟩ := hp; cases h
      | done r =>
        cases r with
        | status n => obtain ⟨_, _, _, _, h, _⟩ := hp; cases h
        | error => exact absurd rfl hp.2.2
        | panic => obtain ⟨_, _, _, _, _, _, _, _, h⟩ := hp; exact absurd rfl h
    · simp only [if_neg hc]
      exact ⟨chunks, fs, hw, hp⟩
  | ends e =>
    unfold Qemu.step
    by_cases hc : s.child = none
    · simp only [if_pos hc]
      refine ⟨chunks, fs, hw, ?_⟩
      obtain ⟨w, pipe, child, buffer, output, phase⟩ := s
      simp only at hp hc ⊢
      subst hc
      cases phase with
      | reading => exact hp
      | waiting => exact hp
      | rest c => obtain ⟨_, _, _, h, _⟩ := hp; cases h
      | done r =>
        cases r with
        | status n => obtain ⟨_, _, _, _, h, _⟩ := hp; cases h
        | error => exact absurd rfl hp.2.2
        | panic => obtain ⟨_, _, _, _, _, _, _, _, h⟩ := hp; exact absurd rfl h
    · simp only [if_neg hc]
      exact ⟨chunks, fs, hw, hp⟩
  | host n =>
    unfold Qemu.step
    cases hph : s.phase with
    | reading =>
      rw [hph] at hp
      simp only
      by_cases hb : s.pipe = [] ∧ s.child = none
      · rw [if_pos hb]
        exact ⟨chunks, fs, hw, by rw [hph]; exact hp⟩
      · rw [if_neg hb]
        exact feed_inv env t enc _ _ _ chunks fs (by simpa using hw) hp.1 hp.2 (Or.inl rfl)
    | waiting =>
      rw [hph] at hp
      simp only
      cases hc : s.child with
      | none => exact ⟨chunks, fs, hw, hp⟩
      | some e =>
        simp only
        exact ⟨chunks, fs, hw, hp.1, hp.2, e, rfl, rfl⟩
    | rest c =>
      rw [hph] at hp
      simp only
      obtain ⟨h1, h2, e, h3, rfl⟩ := hp
      exact feed_inv env t enc _ _ _ chunks fs (by simpa using hw) h1 h2 (Or.inr ⟨rfl, e, h3, rfl⟩)
    | done r =>
      simp only
      exact ⟨chunks, fs, hw, hp⟩

theorem exec_inv (env : Env) (t : Table) (enc : Encoding) (events : List Qemu.Event) : QemuInv env t enc (exec env t.td enc events) := by
  have key : ∀ (l : List Qemu.Event) (s : Qemu.State), QemuInv env t enc s → QemuInv env t enc (l.foldl (Qemu.step env t.td enc) s) := by
    intro l
    induction l with
    | nil => exact fun s h => h
    | cons ev l ih => exact fun s h => ih _ (step_inv env t enc s h ev)
  exact key events _ ⟨[], [], rfl, rfl, rfl⟩


/-- the frames read so far begin the frames of everything that was written -/
theorem meaning_more (t : Table) (enc : Encoding) (chunks : List (List UInt8)) (fs : List Frame) (next : Next) (more : List UInt8)
    (h : qemuRun t.td enc chunks = some (fs.map .frame, next)) :
    ∃ gs bad, Meaning t.td enc (chunks.flatten ++ more) (fs ++ gs) bad ∧ (next = .abort → gs = [] ∧ bad = true) ∧
      ((∃ b, next = .wait b) → more = [] → gs = [] ∧ bad = false) := by
  cases next with
  | wait b =>
    obtain ⟨fs', bad, hm, h1, h2⟩ := meaning_of_run t enc (chunks ++ [more])
    have hrun := run_snoc t.td enc false chunks more [] _ _ h
    have hpre : ∃ gs, fs' = fs ++ gs := by
      have : ∃ n, qemuRun t.td enc (chunks ++ [more]) = some (fs'.map .frame, n) := by
        cases bad with
        | false => obtain ⟨b, h⟩ := h1 rfl; exact ⟨_, h⟩
        | true => exact ⟨_, h2 rfl⟩
      obtain ⟨n, hn⟩ := this
      unfold qemuRun at hn
      rw [hrun] at hn
      cases hd : drain t.td enc false ((received enc b more).length + 1) (received enc b more) with
      | none => rw [hd] at hn; cases hn
      | some x =>
        rw [hd] at hn
        simp only [Option.map_some, Option.some.injEq, Prod.mk.injEq] at hn
        obtain ⟨a, c, rfl, ha, _⟩ := List.map_eq_append_iff.mp hn.1.symm
        exact ⟨c, by rw [frames_inj ha]⟩
    obtain ⟨gs, rfl⟩ := hpre
    by_cases hmore : more = []
    · obtain ⟨fs2, bad2, hm2, h3, h4⟩ := meaning_of_run t enc chunks
      cases bad2 with
      | false =>
        obtain ⟨b2, h5⟩ := h3 rfl
        rw [h] at h5
        simp only [Option.some.injEq, Prod.mk.injEq] at h5
        have : fs = fs2 := frames_inj h5.1
        subst this
        subst hmore
        exact ⟨[], false, by simpa using hm2, (by intro h; cases h), fun _ _ => ⟨rfl, rfl⟩⟩
      | true =>
        have h5 := h4 rfl
        rw [h] at h5
        simp at h5
    · exact ⟨gs, bad, by simpa using hm, (by intro h; cases h), fun _ h => absurd h hmore⟩
  | abort =>
    refine ⟨[], true, ?_, fun _ => ⟨rfl, rfl⟩, fun ⟨b, hb⟩ => by cases hb⟩
    obtain ⟨fs2, bad2, hm2, h3, h4⟩ := meaning_of_run t enc chunks
    cases bad2 with
    | false =>
      obtain ⟨b2, h5⟩ := h3 rfl
      rw [h] at h5
      simp at h5
    | true =>
      have h5 := h4 rfl
      rw [h] at h5
      simp only [Option.some.injEq, Prod.mk.injEq, and_true] at h5
      have : fs = fs2 := frames_inj h5
      subst this
      rw [List.append_nil]
      cases enc with
      | raw => exact (RawMeans.append (settled_table t) hm2 more).1 rfl
      | rzcobs =>
        obtain ⟨rest, hr⟩ := hm2
        refine ⟨rest ++ (scan (scan [] chunks.flatten).2 more).1.map (report t.td), ?_⟩
        unfold completeBlocks at hr ⊢
        rw [scan_append, List.map_append, hr]
        simp
  | panicked =>
    obtain ⟨fs2, bad2, hm2, h3, h4⟩ := meaning_of_run t enc chunks
    cases bad2 with
    | false => obtain ⟨b2, h5⟩ := h3 rfl; rw [h] at h5; simp at h5
    | true => have h5 := h4 rfl; rw [h] at h5; simp at h5

theorem shown_take {env : Env} {a b : List Frame} {lines : List (List Char)} (h : Shown env a lines) :
    Shown env ((a ++ b).take lines.length) lines := by
  have : a.length = lines.length := by simpa using congrArg List.length h
  rw [← this, List.take_left]
  exact h

/-- **C106** At every moment, whatever the timing, the lines on stdout are those of the first frames of what the emulator has written, in
order. -/
theorem C106_shown (env : Env) (t : Table) (enc : Encoding) (events : List Qemu.Event) (s : Qemu.State) (h : exec env t.td enc events = s) :
    ∃ fs bad, Meaning t.td enc s.written fs bad ∧ Shown env (fs.take s.output.length) s.output := by
  obtain ⟨chunks, fs, hw, hp⟩ := exec_inv env t enc events
  rw [h] at hw hp
  have key : ∀ next, qemuRun t.td enc chunks = some (fs.map .frame, next) → ∀ a b, fs = a ++ b → Shown env a s.output →
      ∃ fs bad, Meaning t.td enc s.written fs bad ∧ Shown env (fs.take s.output.length) s.output := by
    rintro next hq a b rfl hs
    obtain ⟨gs, bad, hm, _, _⟩ := meaning_more t enc chunks _ next s.pipe hq
    rw [hw] at hm
    exact ⟨_, bad, hm, by rw [List.append_assoc]; exact shown_take hs⟩
  cases hph : s.phase with
  | reading => rw [hph] at hp; exact key _ hp.1 fs [] (by simp) hp.2
  | waiting => rw [hph] at hp; exact key _ hp.1 fs [] (by simp) hp.2
  | rest c => rw [hph] at hp; exact key _ hp.1 fs [] (by simp) hp.2.1
  | done r =>
    rw [hph] at hp
    cases r with
    | status n => obtain ⟨⟨b, h1⟩, h2, _⟩ := hp; exact key _ h1 fs [] (by simp) h2
    | error => exact key _ hp.1 fs [] (by simp) hp.2.1
    | panic => obtain ⟨next, pre, f, post, h1, h2, h3, h4, _⟩ := hp; exact key _ h1 pre (f :: post) h2 h4

/-- **C106** If `qemu-run` ends with an exit status, every frame of everything the emulator has written was shown, nothing was malformed, the
emulator has ended, and the status is that of the emulator (0 if a signal killed it). -/
theorem C106_status (env : Env) (t : Table) (enc : Encoding) (events : List Qemu.Event) (s : Qemu.State) (h : exec env t.td enc events = s) (n : Int)
    (hn : s.phase = .done (.status n)) :
    ∃ fs, Meaning t.td enc s.written fs false ∧ Shown env fs s.output ∧ (s.child = some (.code n) ∨ s.child = some .signal ∧ n = 0) := by
  obtain ⟨chunks, fs, hw, hp⟩ := exec_inv env t enc events
  rw [h] at hw hp
  rw [hn] at hp
  obtain ⟨⟨b, h1⟩, h2, h3, e, h4, h5⟩ := hp
  obtain ⟨gs, bad, hm, _, hx⟩ := meaning_more t enc chunks _ _ s.pipe h1
  obtain ⟨rfl, rfl⟩ := hx ⟨b, rfl⟩ h3
  rw [hw, List.append_nil] at hm
  refine ⟨fs, hm, h2, ?_⟩
  cases e with
  | code m => cases h5; exact Or.inl h4
  | signal => cases h5; exact Or.inr ⟨h4, rfl⟩

/-- **C106** If `qemu-run` ends with an error, the emulator has sent something malformed; exactly the frames before it were shown, and the
emulator does not run any more. -/
theorem C106_error (env : Env) (t : Table) (enc : Encoding) (events : List Qemu.Event) (s : Qemu.State) (h : exec env t.td enc events = s)
    (hn : s.phase = .done .error) : ∃ fs, Meaning t.td enc s.written fs true ∧ Shown env fs s.output ∧ s.child ≠ none := by
  obtain ⟨chunks, fs, hw, hp⟩ := exec_inv env t enc events
  rw [h] at hw hp
  rw [hn] at hp
  obtain ⟨h1, h2, h3⟩ := hp
  obtain ⟨gs, bad, hm, hx, _⟩ := meaning_more t enc chunks _ _ s.pipe h1
  obtain ⟨rfl, rfl⟩ := hx rfl
  rw [hw, List.append_nil] at hm
  exact ⟨fs, hm, h2, h3⟩

/-- **C106** `qemu-run` panics only on a frame that cannot be displayed (C33 says which): exactly the frames before it were shown, and the emulator
does not run any more. -/
theorem C106_panic (env : Env) (t : Table) (enc : Encoding) (events : List Qemu.Event) (s : Qemu.State) (h : exec env t.td enc events = s)
    (hn : s.phase = .done .panic) :
    ∃ pre f post bad, Meaning t.td enc s.written (pre ++ f :: post) bad ∧ f.display env = none ∧ Shown env pre s.output ∧ s.child ≠ none := by
  obtain ⟨chunks, fs, hw, hp⟩ := exec_inv env t enc events
  rw [h] at hw hp
  rw [hn] at hp
  obtain ⟨next, pre, f, post, h1, rfl, h3, h4, h5⟩ := hp
  obtain ⟨gs, bad, hm, _, _⟩ := meaning_more t enc chunks _ _ s.pipe h1
  rw [hw] at hm
  exact ⟨pre, f, post ++ gs, bad, by simpa using hm, h3, h4, h5⟩

/-- the number of host events in a list -/
def hostEvents (l : List Qemu.Event) : Nat := l.countP (fun e => match e with | .host _ => true | _ => false)

/-- steps to the end when the emulator has ended -/
def toGo : Phase → Nat
  | .reading => 3
  | .waiting => 2
  | .rest _ => 1
  | .done _ => 0

theorem feed_phase (env : Env) (td : List UInt8 → Except DecodeError (Frame × Nat)) (enc : Encoding) (c : List UInt8) (next : Phase) (s : Qemu.State)
    (hc : s.child ≠ none) : (Qemu.feed env td enc c next s).child ≠ none ∧
      ((Qemu.feed env td enc c next s).phase = next ∨ ∃ r, (Qemu.feed env td enc c next s).phase = .done r) := by
  unfold Qemu.feed
  have hk : ∀ s' : Qemu.State, (kill s').child ≠ none := by intro s'; simp only [kill]; cases s'.child <;> simp
  simp only
  split
  · exact ⟨hk _, Or.inr ⟨_, rfl⟩⟩
  · split
    · split
      · exact ⟨hc, Or.inl rfl⟩
      · exact ⟨hk _, Or.inr ⟨_, rfl⟩⟩
      · exact ⟨hk _, Or.inr ⟨_, rfl⟩⟩
    · exact ⟨hk _, Or.inr ⟨_, rfl⟩⟩

/-- **C106** When the emulator has ended, `qemu-run` ends: after at most three more of its own steps, whatever happens in between. -/
theorem C106_ends (env : Env) (t : Table) (enc : Encoding) (events more : List Qemu.Event) (hc : (exec env t.td enc events).child ≠ none)
    (hm : 3 ≤ hostEvents more) : ∃ r, (exec env t.td enc (events ++ more)).phase = .done r := by
  have key : ∀ (l : List Qemu.Event) (s : Qemu.State), s.child ≠ none → toGo s.phase ≤ hostEvents l →
      ∃ r, (l.foldl (Qemu.step env t.td enc) s).phase = .done r := by
    intro l
    induction l with
    | nil =>
      intro s _ h
      cases hph : s.phase with
      | done r => exact ⟨r, hph⟩
      | _ => rw [hph] at h; simp [toGo, hostEvents] at h
    | cons ev l ih =>
      intro s hc h
      rw [List.foldl_cons]
      cases ev with
      | writes b =>
        have e : Qemu.step env t.td enc s (.writes b) = s := if_neg hc
        rw [e]
        exact ih s hc (by simpa [hostEvents] using h)
      | ends b =>
        have e : Qemu.step env t.td enc s (.ends b) = s := if_neg hc
        rw [e]
        exact ih s hc (by simpa [hostEvents] using h)
      | host n =>
        have h' : toGo s.phase ≤ hostEvents l + 1 := by simpa [hostEvents] using h
        unfold Qemu.step
        cases hph : s.phase with
        | reading =>
          simp only
          rw [if_neg (fun h => hc h.2)]
          rw [hph] at h'
          have h'' : 3 ≤ hostEvents l + 1 := h'
          have := feed_phase env t.td enc (s.pipe.take (max 1 (min n 256))) .waiting { s with pipe := s.pipe.drop (max 1 (min n 256)) } hc
          rw [hph] at this
          refine ih _ this.1 ?_
          rcases this.2 with h | ⟨r, h⟩ <;> rw [h] <;> simp only [toGo] <;> omega
        | waiting =>
          simp only
          rw [hph] at h'
          have h'' : 2 ≤ hostEvents l + 1 := h'
          cases hcc : s.child with
          | none => exact absurd hcc hc
          | some e => exact ih _ (by simp) (by simp only [toGo]; omega)
        | rest c =>
          simp only
          have := feed_phase env t.td enc s.pipe (.done (exitStatus c)) { s with pipe := [] } hc
          rw [hph] at this
          refine ih _ this.1 ?_
          rcases this.2 with h | ⟨r, h⟩ <;> rw [h] <;> simp only [toGo] <;> omega
        | done r =>
          simp only
          exact ih s hc (by rw [hph]; simp [toGo])
  unfold exec at hc ⊢
  rw [List.foldl_append]
  refine key more _ hc ?_
  refine Nat.le_trans ?_ hm
  cases (events.foldl (Qemu.step env t.td enc) Qemu.start).phase <;> simp [toGo]


theorem meaning_unique {t : Table} {enc : Encoding} {w : List UInt8} {fs fs' : List Frame} {bad bad' : Bool} (h : Meaning t.td enc w fs bad)
    (h' : Meaning t.td enc w fs' bad') : fs = fs' ∧ bad = bad' := by
  obtain ⟨a, b, _, h1, h2⟩ := meaning_of_run t enc [w]
  have key : ∀ {fs bad}, Meaning t.td enc w fs bad → fs = a ∧ bad = b := by
    intro fs bad h
    cases enc with
    | raw =>
      obtain ⟨fs1, e1, hr1, hr2⟩ := run_raw (settled_table t) [w] [] rfl
      simp only [List.flatten_cons, List.flatten_nil, List.append_nil, List.nil_append] at hr1
      cases bad with
      | false =>
        obtain ⟨rest, h⟩ := h
        obtain ⟨rfl, rfl⟩ := RawMeans.unique h hr1
        cases b with
        | false =>
          obtain ⟨_, h1⟩ := h1 rfl; unfold qemuRun at h1; rw [hr2] at h1
          simp only [Option.some.injEq, Prod.mk.injEq] at h1
          exact ⟨frames_inj h1.1, rfl⟩
        | true => have h2 := h2 rfl; unfold qemuRun at h2; rw [hr2] at h2; simp at h2
      | true =>
        obtain ⟨rfl, rfl⟩ := RawMeans.unique h hr1
        cases b with
        | false => obtain ⟨_, h1⟩ := h1 rfl; unfold qemuRun at h1; rw [hr2] at h1; simp at h1
        | true =>
          have h2 := h2 rfl; unfold qemuRun at h2; rw [hr2] at h2
          simp only [Option.some.injEq, Prod.mk.injEq, and_true] at h2
          exact ⟨frames_inj h2, rfl⟩
    | rzcobs =>
      obtain ⟨q1, q2⟩ := C54_qemu_run t.td [w]
      simp only [List.flatten_cons, List.flatten_nil, List.append_nil] at q1 q2
      cases bad with
      | false =>
        have := q1 fs h
        cases b with
        | false =>
          obtain ⟨_, h1⟩ := h1 rfl
          rw [this] at h1
          simp only [Option.some.injEq, Prod.mk.injEq] at h1
          exact ⟨frames_inj h1.1, rfl⟩
        | true => have h2 := h2 rfl; rw [this] at h2; simp at h2
      | true =>
        obtain ⟨rest, h⟩ := h
        have := q2 fs rest h
        cases b with
        | false => obtain ⟨_, h1⟩ := h1 rfl; rw [this] at h1; simp at h1
        | true =>
          have h2 := h2 rfl
          rw [this] at h2
          simp only [Option.some.injEq, Prod.mk.injEq, and_true] at h2
          exact ⟨frames_inj h2, rfl⟩
  exact ⟨(key h).1.trans (key h').1.symm, (key h).2.trans (key h').2.symm⟩


/-- **C106** A program that sends only well formed frames that can be displayed and ends with a status: whatever the timing, all its frames are
shown in order, and `qemu-run` ends with the same status. -/
theorem C106_complete_partial (env : Env) (t : Table) (enc : Encoding) (events more : List Qemu.Event) (fs : List Frame) (n : Int)
    (hw : Meaning t.td enc (exec env t.td enc events).written fs false) (hd : ∀ f ∈ fs, f.display env ≠ none)
    (hc : (exec env t.td enc events).child = some (.code n)) (hm : 3 ≤ hostEvents more) :
    (exec env t.td enc (events ++ more)).phase = .done (.status n) ∧ Shown env fs (exec env t.td enc (events ++ more)).output := by
  have hkeep : ∀ (l : List Qemu.Event) (s : Qemu.State), s.child = some (.code n) →
      (l.foldl (Qemu.step env t.td enc) s).child = some (.code n) ∧ (l.foldl (Qemu.step env t.td enc) s).written = s.written := by
    have hfeed : ∀ (c : List UInt8) (next : Phase) (s : Qemu.State), s.child = some (.code n) →
        (Qemu.feed env t.td enc c next s).child = some (.code n) ∧ (Qemu.feed env t.td enc c next s).written = s.written := by
      intro c next s hs
      unfold Qemu.feed kill
      simp only
      split
      · simp [hs]
      · split
        · split <;> simp [hs]
        · simp [hs]
    intro l
    induction l with
    | nil => exact fun s h => ⟨h, rfl⟩
    | cons ev l ih =>
      intro s hs
      rw [List.foldl_cons]
      have : (Qemu.step env t.td enc s ev).child = some (.code n) ∧ (Qemu.step env t.td enc s ev).written = s.written := by
        cases ev with
        | writes b => simp [Qemu.step, hs]
        | ends b => simp [Qemu.step, hs]
        | host k =>
          unfold Qemu.step
          cases hph : s.phase with
          | reading =>
            simp only
            split
            · exact ⟨hs, rfl⟩
            · exact hfeed _ _ _ hs
          | waiting => simp [hs]
          | rest c => exact hfeed _ _ _ hs
          | done r => exact ⟨hs, rfl⟩
      obtain ⟨h1, h2⟩ := ih _ this.1
      exact ⟨h1, h2.trans this.2⟩
  obtain ⟨r, hr⟩ := C106_ends env t enc events more (by rw [hc]; simp) hm
  obtain ⟨hc', hw'⟩ := hkeep more _ hc
  have ex : exec env t.td enc (events ++ more) = more.foldl (Qemu.step env t.td enc) (exec env t.td enc events) := by
    unfold exec; rw [List.foldl_append]
  rw [← ex] at hc' hw'
  rw [← hw'] at hw
  cases r with
  | status m =>
    obtain ⟨fs', h1, h2, h3⟩ := C106_status env t enc _ _ rfl m hr
    obtain ⟨rfl, _⟩ := meaning_unique hw h1
    refine ⟨?_, h2⟩
    rcases h3 with h3 | ⟨h3, _⟩
    · rw [hc'] at h3
      cases h3
      exact hr
    · rw [hc'] at h3; cases h3
  | error =>
    obtain ⟨fs', h1, _⟩ := C106_error env t enc _ _ rfl hr
    have := (meaning_unique hw h1).2
    cases this
  | panic =>
    obtain ⟨pre, f, post, bad, h1, h2, _⟩ := C106_panic env t enc _ _ rfl hr
    obtain ⟨rfl, _⟩ := meaning_unique hw h1
    exact absurd h2 (hd f (by simp))

/-- **C106** The same from log statements: what the log statements of a program write with rzCOBS (C04: a separator, then the frames) is shown
statement after statement. -/
theorem C106_program (env : Env) (t : Table) (hs : t.Safe) (statements : List LogEvent) (hok : ∀ e ∈ statements, e.Ok t)
    (hd : ∀ e ∈ statements, e.frame.display env ≠ none) :
    ∃ payloads : List (List UInt8), statements.map LogEvent.bytes = payloads.map some ∧
      ∀ (events more : List Qemu.Event) (n : Int),
        (exec env t.td .rzcobs events).written = [0] ++ (payloads.map Rzcobs.frameBytes).flatten →
        (exec env t.td .rzcobs events).child = some (.code n) → 3 ≤ hostEvents more →
        (exec env t.td .rzcobs (events ++ more)).phase = .done (.status n) ∧
        Shown env (statements.map LogEvent.frame) (exec env t.td .rzcobs (events ++ more)).output := by
  obtain ⟨payloads, h1, h2⟩ := C32_end_to_end t hs [] statements hok
  refine ⟨payloads, h1, ?_⟩
  intro events more n hw hc hm
  have h3 := h2 [[0] ++ (payloads.map Rzcobs.frameBytes).flatten] (by simp)
  rw [C06_stream_meaning] at h3
  simp only [Option.some.injEq, Prod.mk.injEq] at h3
  refine C106_complete_partial env t .rzcobs events more _ n ?_ ?_ hc hm
  · rw [hw]
    have h4 := h3.2
    simp only [List.flatten_cons, List.flatten_nil, List.append_nil] at h4
    refine h4.trans ?_
    have : completeBlocks ([] ++ [0]) = [] := rfl
    rw [this, List.map_nil, List.nil_append, List.map_map]
    rfl
  · intro f hf
    obtain ⟨e, he, rfl⟩ := List.mem_map.mp hf
    exact hd e he

theorem child_stays (env : Env) (td : List UInt8 → Except DecodeError (Frame × Nat)) (enc : Encoding) (l : List Qemu.Event) :
    ∀ s : Qemu.State, s.child ≠ none → (l.foldl (Qemu.step env td enc) s).child ≠ none := by
  induction l with
  | nil => exact fun s h => h
  | cons ev l ih =>
    intro s hs
    rw [List.foldl_cons]
    refine ih _ ?_
    cases ev with
    | writes b => have e : Qemu.step env td enc s (.writes b) = s := if_neg hs; rw [e]; exact hs
    | ends b => have e : Qemu.step env td enc s (.ends b) = s := if_neg hs; rw [e]; exact hs
    | host k =>
      unfold Qemu.step
      cases hph : s.phase with
      | reading =>
        simp only
        split
        · exact hs
        · refine (feed_phase env td enc _ _ _ ?_).1; exact hs
      | waiting =>
        simp only
        cases hc : s.child with
        | none => exact absurd hc hs
        | some e => simp
      | rest c => simp only; refine (feed_phase env td enc _ _ _ ?_).1; exact hs
      | done r => exact hs

theorem feed_running (env : Env) (td : List UInt8 → Except DecodeError (Frame × Nat)) (enc : Encoding) (c : List UInt8) (next : Phase) (s : Qemu.State)
    (h : (Qemu.feed env td enc c next s).child = none) :
    (Qemu.feed env td enc c next s).phase = next ∧ (Qemu.feed env td enc c next s).pipe = s.pipe := by
  have hk : ∀ s' : Qemu.State, (kill s').child ≠ none := by intro s'; simp only [kill]; cases s'.child <;> simp
  unfold Qemu.feed at h ⊢
  simp only at h ⊢
  split at h
  · exact absurd h (hk _)
  · split at h
    · rename_i hp
      split at h
      · rw [if_pos hp]; exact ⟨rfl, rfl⟩
      · exact absurd h (hk _)
      · exact absurd h (hk _)
    · exact absurd h (hk _)

/-- steps until the pipe is empty -/
def toRead (s : Qemu.State) : Nat := 2 * s.pipe.length + (match s.phase with | .waiting => 1 | _ => 0)

theorem drained (env : Env) (t : Table) (enc : Encoding) (l : List Qemu.Event) (hl : ∀ e ∈ l, ∃ n, e = .host n) :
    ∀ s : Qemu.State, QemuInv env t enc s → (l.foldl (Qemu.step env t.td enc) s).child = none → toRead s ≤ l.length →
    (l.foldl (Qemu.step env t.td enc) s).pipe = [] := by
  induction l with
  | nil =>
    intro s _ _ h
    have h : toRead s ≤ 0 := h
    unfold toRead at h
    exact List.length_eq_zero_iff.mp (by omega : s.pipe.length = 0)
  | cons ev l ih =>
    intro s hi hc h
    have hchild : s.child = none := by
      cases hx : s.child with
      | none => rfl
      | some e => exact absurd hc (child_stays env t.td enc (ev :: l) s (by rw [hx]; simp))
    obtain ⟨n, rfl⟩ := hl ev (by simp)
    rw [List.foldl_cons] at hc ⊢
    have hi' := step_inv env t enc s hi (.host n)
    have hchild' : (Qemu.step env t.td enc s (.host n)).child = none := by
      cases hx : (Qemu.step env t.td enc s (.host n)).child with
      | none => rfl
      | some e => exact absurd hc (child_stays env t.td enc l _ (by rw [hx]; simp))
    refine ih (fun e he => hl e (by simp [he])) _ hi' hc ?_
    rw [List.length_cons] at h
    unfold toRead at h
    obtain ⟨chunks, fs, _, hp⟩ := hi
    cases hph : s.phase with
    | reading =>
      rw [hph] at h
      simp only at h
      by_cases hb : s.pipe = [] ∧ s.child = none
      · have e : Qemu.step env t.td enc s (.host n) = s := by simp only [Qemu.step, hph, if_pos hb]
        rw [e]
        unfold toRead
        rw [hph, hb.1]
        simp
      · have e : Qemu.step env t.td enc s (.host n) =
            Qemu.feed env t.td enc (s.pipe.take (max 1 (min n 256))) .waiting { s with pipe := s.pipe.drop (max 1 (min n 256)) } := by
          simp only [Qemu.step, hph, if_neg hb]
        rw [e] at hchild' ⊢
        obtain ⟨h1, h2⟩ := feed_running env t.td enc _ _ _ hchild'
        unfold toRead
        rw [h1, h2]
        have hne : s.pipe ≠ [] := fun hx => hb ⟨hx, hchild⟩
        have := List.length_pos_iff.mpr hne
        simp only [List.length_drop]
        omega
    | waiting =>
      rw [hph] at h
      have e : Qemu.step env t.td enc s (.host n) = { s with phase := .reading } := by simp only [Qemu.step, hph, hchild]
      rw [e]
      unfold toRead
      simp only at h ⊢
      omega
    | rest c =>
      rw [hph] at hp
      obtain ⟨_, _, e, he, _⟩ := hp
      rw [hchild] at he; cases he
    | done r =>
      rw [hph] at hp
      cases r with
      | status m => obtain ⟨_, _, _, e, he, _⟩ := hp; rw [hchild] at he; cases he
      | error => exact absurd hchild hp.2.2
      | panic => obtain ⟨_, _, _, _, _, _, _, _, he⟩ := hp; exact absurd hchild he

/-- **C106, while the emulator runs** When it is quiet for long enough, every frame it has sent is shown. (When `qemu-run` has ended, the emulator does
not run.) -/
theorem C106_live (env : Env) (t : Table) (enc : Encoding) (events more : List Qemu.Event) (hm : ∀ e ∈ more, ∃ n, e = .host n)
    (hl : 2 * (exec env t.td enc events).written.length + 1 ≤ more.length) (s : Qemu.State) (h : exec env t.td enc (events ++ more) = s)
    (hr : s.child = none) : ∃ fs, Meaning t.td enc s.written fs false ∧ Shown env fs s.output := by
  have ex : exec env t.td enc (events ++ more) = more.foldl (Qemu.step env t.td enc) (exec env t.td enc events) := by
    unfold exec; rw [List.foldl_append]
  have hi := exec_inv env t enc events
  have hp : s.pipe = [] := by
    rw [← h, ex]
    refine drained env t enc more hm _ hi (by rw [← ex, h]; exact hr) ?_
    obtain ⟨chunks, _, hw, _⟩ := hi
    refine Nat.le_trans ?_ hl
    have := congrArg List.length hw
    rw [List.length_append] at this
    unfold toRead
    split <;> omega
  obtain ⟨chunks, fs, hw, hph⟩ := exec_inv env t enc (events ++ more)
  rw [h] at hw hph
  have key : qemuRun t.td enc chunks = some (fs.map .frame, .wait s.buffer) → Shown env fs s.output →
      ∃ fs, Meaning t.td enc s.written fs false ∧ Shown env fs s.output := by
    intro h1 h2
    obtain ⟨gs, bad, hm, _, hx⟩ := meaning_more t enc chunks _ _ s.pipe h1
    obtain ⟨rfl, rfl⟩ := hx ⟨_, rfl⟩ hp
    rw [hw, List.append_nil] at hm
    exact ⟨fs, hm, h2⟩
  cases hx : s.phase with
  | reading => rw [hx] at hph; exact key hph.1 hph.2
  | waiting => rw [hx] at hph; exact key hph.1 hph.2
  | rest c => rw [hx] at hph; exact key hph.1 hph.2.1
  | done r =>
    rw [hx] at hph
    cases r with
    | status m => obtain ⟨_, _, _, e, he, _⟩ := hph; rw [hr] at he; cases he
    | error => exact absurd hr hph.2.2
    | panic => obtain ⟨_, _, _, _, _, _, _, _, he⟩ := hph; exact absurd hr he

/-- **C106, the finding** An emulator that is killed by a signal counts as success. -/
theorem C106_fails_signal (env : Env) (t : Table) : ∃ s, exec env t.td .rzcobs [.ends .signal, .host 1, .host 1, .host 1] = s ∧
    s.child = some .signal ∧ s.phase = .done (.status 0) := ⟨_, rfl, rfl, rfl⟩


/-! ### A concrete execution -/

def qemuTable : Table where
  timestamp := none
  entries := fun i => if i = 1 then some ⟨.info, c!"hi {=u8}"⟩ else none

def qemuEvents : List Qemu.Event :=
  [.host 5, .writes (0 :: (Rzcobs.frameBytes [1, 0, 7]).take 2), .host 100, .host 0, .writes ((Rzcobs.frameBytes [1, 0, 7]).drop 2 ++ Rzcobs.frameBytes [1, 0, 8]),
    .host 1, .host 1, .ends (.code 3)]

def qemuFrame (n : Nat) : Frame :=
  { level := some .info, index := 1, timestampFormat := none, timestampArgs := [], format := c!"hi {=u8}", args := [.uxx n] }

example : exec demoEnv qemuTable.td .rzcobs (qemuEvents ++ [.host 1, .host 1, .host 1]) =
    ⟨0 :: Rzcobs.frameBytes [1, 0, 7] ++ Rzcobs.frameBytes [1, 0, 8], [], some (.code 3), [], [c!"INFO hi 7", c!"INFO hi 8"], .done (.status 3)⟩ := by rfl

example : Meaning qemuTable.td .rzcobs (exec demoEnv qemuTable.td .rzcobs qemuEvents).written [qemuFrame 7, qemuFrame 8] false ∧
    (∀ f ∈ [qemuFrame 7, qemuFrame 8], f.display demoEnv ≠ none) ∧
    (exec demoEnv qemuTable.td .rzcobs qemuEvents).child = some (.code 3) ∧ 3 ≤ hostEvents [.host 1, .host 1, .host 1] := by
  refine ⟨rfl, ?_, rfl, by decide⟩
  intro f hf
  rcases List.mem_cons.mp hf with rfl | hf
  · exact fun h => by cases h
  · rcases List.mem_cons.mp hf with rfl | hf
    · exact fun h => by cases h
    · cases hf

/-- something malformed after the first frame: an error, and the emulator is killed -/
example : (exec demoEnv qemuTable.td .rzcobs [.writes (Rzcobs.frameBytes [1, 0, 7] ++ Rzcobs.frameBytes [9, 0]), .host 256]).phase = .done .error ∧
    (exec demoEnv qemuTable.td .rzcobs [.writes (Rzcobs.frameBytes [1, 0, 7] ++ Rzcobs.frameBytes [9, 0]), .host 256]).output = [c!"INFO hi 7"] ∧
    (exec demoEnv qemuTable.td .rzcobs [.writes (Rzcobs.frameBytes [1, 0, 7] ++ Rzcobs.frameBytes [9, 0]), .host 256]).child = some .signal :=
  ⟨rfl, rfl, rfl⟩

end Defmt
