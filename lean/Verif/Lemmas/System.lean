import Verif.Model.System
import Verif.Lemmas.Logger
import Verif.Lemmas.Attach
import Verif.Lemmas.Stream
/-! The logger on the RTT channel: invariant. -/

namespace Defmt.System
open Logger (update update_same update_ne)

theorem owner_of_step {kind : Logger.Kind} {enc : Logger.Encoding} {s s' : Logger.State} {d : Nat} (hi : Logger.Inv enc s)
    (hs : Logger.Step kind enc d s s') : s.owner = none ∨ s.owner = some d := by
  have key : s.pc d ≠ .idle → s.owner = none ∨ s.owner = some d := fun h => .inr (hi.owned h)
  cases hs with
  | enterSection _ h => exact h
  | acquire _ h => exact h
  | leaveSection _ h => exact .inr (hi.owned_section (by rw [h]; simp))
  | reentered h => exact key (by rw [h]; simp)
  | check h => exact key (by rw [h]; simp)
  | take h => exact key (by rw [h]; simp)
  | save h => exact key (by rw [h]; simp)
  | start h => exact key (by rw [h]; simp)
  | write _ h => exact key (by rw [h]; simp)
  | writeOutside h => exact key (by rw [h]; simp)
  | release h => exact key (by rw [h]; simp)
  | releaseOutside h => exact key (by rw [h]; simp)
  | finish h => exact key (by rw [h]; simp)
  | load _ h => exact key (by rw [h]; simp)
  | clear _ h => exact key (by rw [h]; simp)
  | clearItm _ h => exact key (by rw [h]; simp)
  | loadItm _ h => exact key (by rw [h]; simp)
  | leave h => exact key (by rw [h]; simp)

theorem call_accepted {cfg : Rtt.Config} {r r' : Rtt.State} (hr : r.target ≠ .ready) (hs : Rtt.TargetStep cfg r r') :
    r'.accepted = r.accepted := by
  cases hs <;> first | rfl | contradiction

theorem call_flushing {cfg : Rtt.Config} {r r' : Rtt.State} (hr : r.target ≠ .ready) (hs : Rtt.TargetStep cfg r r')
    (hf : Rtt.Flushing r'.target) : Rtt.Flushing r.target := by
  cases hs <;> simp_all [Rtt.Flushing, Rtt.writeImpl]

/-- the channel with the flags -/
def State.attached (s : State) : Attach.State := ⟨s.flags, s.rtt⟩

/-- `base`: what was written before the histories of the channel start -/
structure Inv (cfg : Rtt.Config) (enc : Logger.Encoding) (base : List UInt8) (a0 : Attach.State) (s : State) : Prop where
  logger : Logger.Reachable .rtt enc s.logger
  rtt : Attach.Steady cfg a0 s.attached
  busy : ∀ c, Busy s c → s.logger.owner = some c ∧ s.logger.pc c ≠ .idle
  called : s.rtt.target ≠ .ready → s.caller ≠ none
  bytes : ∀ c, (∀ d, d ≠ c → s.queue d = []) → base ++ s.rtt.accepted ++ (s.queue c).flatten = s.logger.wire
  flushing : Rtt.Flushing s.rtt.target → ∀ c, s.queue c = []

/-- at most one context is busy -/
theorem Inv.others {cfg : Rtt.Config} {enc : Logger.Encoding} {base : List UInt8} {a0 : Attach.State} {s : State} (h : Inv cfg enc base a0 s) {c : Nat}
    (hc : Busy s c) {d : Nat} (hd : d ≠ c) : ¬ Busy s d := by
  intro hb
  have h1 := (h.busy c hc).1
  have h2 := (h.busy d hb).1
  rw [h1] at h2
  exact hd (Option.some.inj h2).symm

theorem Inv.quiet {cfg : Rtt.Config} {enc : Logger.Encoding} {base : List UInt8} {a0 : Attach.State} {s : State} (h : Inv cfg enc base a0 s) {c : Nat}
    (hc : Busy s c) : ∀ d, d ≠ c → s.queue d = [] := fun d hd =>
  Classical.byContradiction fun hq => h.others hc hd (.inl hq)

theorem Inv.step {cfg : Rtt.Config} {enc : Logger.Encoding} {base : List UInt8} {a0 : Attach.State} {s s' : State} (h : Inv cfg enc base a0 s)
    (hs : Step cfg enc s s') : Inv cfg enc base a0 s' := by
  have hli := Logger.Inv.reachable h.logger
  cases hs with
  | @logger l c slices hfree hs hw hp =>
    have hl' : Logger.Reachable .rtt enc l := .step c h.logger hs
    -- nobody else is busy
    have hnone : ∀ d, ¬ Busy s d := by
      intro d hd
      by_cases hdc : d = c
      · subst hdc; exact hfree hd
      · have h1 := (h.busy d hd).1
        rcases owner_of_step hli hs with h2 | h2 <;> rw [h2] at h1
        · cases h1
        · exact hdc (Option.some.inj h1).symm
    have hq : ∀ d, s.queue d = [] := fun d => Classical.byContradiction fun hq => hnone d (.inl hq)
    have hready : s.rtt.target = .ready := Classical.byContradiction fun hn => by
      cases hc : s.caller with
      | none => exact h.called hn hc
      | some d => exact hnone d (.inr hc)
    refine ⟨hl', h.rtt, ?_, h.called, ?_, fun hf => by rw [hready] at hf; exact hf.elim⟩
    · rintro d (hd | hd)
      · have hdc : d = c := by
          refine Classical.byContradiction fun hne => hd ?_
          simp only [update_ne hne]; exact hq d
        subst hdc
        simp only [update_same] at hd
        have hpc : l.pc d ≠ .idle := by rcases hp hd with h | h <;> rw [h] <;> simp
        exact ⟨(Logger.Inv.reachable hl').owned hpc, hpc⟩
      · exact absurd (.inr hd) (hnone d)
    · intro d hd
      have h0 := h.bytes c (fun d _ => hq d)
      rw [hq c, List.flatten_nil, List.append_nil] at h0
      by_cases hdc : d = c
      · subst hdc
        simp only [update_same]
        rw [h0, hw]
      · have := hd c (fun e => hdc e.symm)
        simp only [update_same] at this
        subst this
        simp only [update_ne hdc, hq d]
        rw [hw, h0]
  | @call c slice rest hq hc hr =>
    have hb : Busy s c := .inl (by rw [hq]; simp)
    refine ⟨h.logger, .step h.rtt (.enter (s := s.attached) hr (.call slice hr)), ?_, fun _ => by simp, ?_, fun hf => hf.elim⟩
    · rintro d (hd | hd)
      · by_cases hdc : d = c
        · subst hdc; exact h.busy d hb
        · simp only [update_ne hdc] at hd
          exact h.busy d (.inl hd)
      · simp only [Option.some.injEq] at hd
        subst hd
        exact h.busy _ hb
    · intro d hd
      have h0 := h.bytes c (h.quiet hb)
      rw [hq] at h0
      by_cases hdc : d = c
      · subst hdc
        simp only [update_same]
        rw [← h0]; simp
      · have := hd c (fun e => hdc e.symm)
        simp only [update_same] at this
        subst this
        simp only [update_ne hdc, h.quiet hb d hdc]
        rw [← h0]; simp
  | @flush r c hfree hp hc hr hf =>
    have hacc : r.accepted = s.rtt.accepted ∧ Attach.Steady cfg a0 ⟨s.flags, r⟩ := by
      rcases hf with ⟨h1, rfl⟩ | ⟨h1, rfl⟩
      · exact ⟨rfl, .step h.rtt (.enter (s := s.attached) hr (.flush hr h1))⟩
      · exact ⟨rfl, .step h.rtt (.enter (s := s.attached) hr (.flushNoHost hr h1))⟩
    have hpc : s.logger.pc c ≠ .idle := by rw [hp]; simp
    refine ⟨h.logger, hacc.2, ?_, fun _ => by simp, ?_, fun _ d => Classical.byContradiction fun hq => ?_⟩
    · rintro d (hd | hd)
      · exact h.busy d (.inl hd)
      · simp only [Option.some.injEq] at hd
        subst hd
        exact ⟨hli.owned hpc, hpc⟩
    · intro d hd
      simp only [hacc.1]
      exact h.bytes d hd
    · have h1 := (h.busy d (.inl hq)).1
      rw [hli.owned hpc] at h1
      cases h1
      exact hfree (.inl hq)
  | @channel r hr hs =>
    refine ⟨h.logger, .step h.rtt (.inside (s := s.attached) hr hs), h.busy, fun _ => h.called hr, ?_, fun hf => h.flushing (call_flushing hr hs hf)⟩
    intro d hd
    simp only [call_accepted hr hs]
    exact h.bytes d hd
  | @returned c hc hr =>
    refine ⟨h.logger, h.rtt, ?_, fun hn => absurd hr hn, h.bytes, h.flushing⟩
    rintro d (hd | hd)
    · exact h.busy d (.inl hd)
    · cases hd
  | @host r hs =>
    refine ⟨h.logger, .step h.rtt (.host (s := s.attached) hs), h.busy, ?_, ?_, fun hf => h.flushing (by rwa [Rtt.hostStep_target hs] at hf)⟩
    · intro hr; exact h.called (by rw [Rtt.hostStep_target hs] at hr; exact hr)
    · intro d hd
      simp only [Rtt.hostStep_accepted hs]
      exact h.bytes d hd

theorem Inv.start (cfg : Rtt.Config) (enc : Logger.Encoding) (flags : Nat) (buffer : Nat → UInt8) :
    Inv cfg enc [] (start flags buffer).attached (start flags buffer) := by
  refine ⟨.initial, .refl, ?_, fun h => absurd rfl h, fun c _ => rfl, fun h => h.elim⟩
  rintro c (h | h)
  · exact absurd rfl h
  · cases h

theorem Inv.attach {cfg : Rtt.Config} {enc : Logger.Encoding} {base : List UInt8} {a0 : Attach.State} {s : State}
    (h : Inv cfg enc base a0 s) {done : List UInt8} (hd : s.rtt.accepted = done ++ Rtt.outstanding s.rtt.target) (flags : Nat) :
    Inv cfg enc (base ++ done) (attach flags s).attached (attach flags s) := by
  refine ⟨h.logger, .refl, h.busy, h.called, fun c hc => ?_, h.flushing⟩
  have := h.bytes c hc
  rw [hd] at this
  simpa [System.attach] using this

theorem Inv.reachable {cfg : Rtt.Config} {enc : Logger.Encoding} {base : List UInt8} {s0 s : State} (h0 : Inv cfg enc base s0.attached s0)
    (h : Reachable cfg enc s0 s) : Inv cfg enc base s0.attached s := by
  induction h with
  | refl => exact h0
  | step _ hs ih => exact ih.step hs

/-- while the flags do not change the loaded ones are those in memory -/
theorem Inv.same {cfg : Rtt.Config} {enc : Logger.Encoding} {base : List UInt8} {a0 : Attach.State} {s : State} (h : Inv cfg enc base a0 s)
    (hf : a0.channel.flags = a0.flags) : Rtt.Reachable cfg a0.channel s.rtt := (h.rtt.same hf).1

/-- the slices of the busy context, or nothing -/
theorem Inv.pending {cfg : Rtt.Config} {enc : Logger.Encoding} {base : List UInt8} {a0 : Attach.State} {s : State}
    (h : Inv cfg enc base a0 s) : ∃ p, base ++ s.rtt.accepted ++ p = s.logger.wire ∧ ((∀ c, s.queue c = []) → p = []) := by
  by_cases hb : ∃ c, s.queue c ≠ []
  · obtain ⟨c, hc⟩ := hb
    exact ⟨_, h.bytes c (h.quiet (.inl hc)), fun hn => absurd (hn c) hc⟩
  · have hn : ∀ c, s.queue c = [] := fun c => Classical.byContradiction fun hc => hb ⟨c, hc⟩
    have := h.bytes 0 (fun d _ => hn d)
    rw [hn 0] at this
    exact ⟨[], by simpa using this, fun _ => rfl⟩

theorem between_start (cfg : Rtt.Config) (flags : Nat) (buffer : Nat → UInt8) (h : 1 ≤ cfg.size) :
    Rtt.Between cfg (start flags buffer).rtt ∧ Rtt.unread cfg (start flags buffer).rtt = [] := by
  refine ⟨⟨h, h, rfl, rfl, rfl, rfl⟩, ?_⟩
  simp [Rtt.unread, Rtt.distance, start]

/-- inside of `write_all` or `flush` the channel always can go on -/
theorem channel_step (cfg : Rtt.Config) (r : Rtt.State) (h : r.target ≠ .ready) : ∃ r', Rtt.TargetStep cfg r r' := by
  cases ht : r.target with
  | ready => exact absurd ht h
  | attempt rest =>
    cases rest with
    | nil => exact ⟨_, .return_ ht⟩
    | cons b bs =>
      cases hb : Rtt.blocking cfg r
      · exact ⟨_, .startNonblocking ht (by simp) hb⟩
      · exact ⟨_, .loadRead ht (by simp) hb⟩
  | loadedRead rest read =>
    by_cases ha : Rtt.availableBufferSize cfg.size read r.write = 0
    · exact ⟨_, .full ht ha⟩
    · exact ⟨_, .start ht ha⟩
  | copying rest cursor len pending =>
    cases pending with
    | nil => exact ⟨_, .store ht⟩
    | cons x xs => exact ⟨_, .copy (before := []) (p := x.1) (b := x.2) (after := xs) ht⟩
  | flushing => exact ⟨_, .flushLoad ht⟩
  | flushLoaded read =>
    by_cases hd : read = r.write
    · exact ⟨_, .flushReturn ht hd⟩
    · exact ⟨_, .flushAgain ht hd⟩

theorem channel_moves {cfg : Rtt.Config} {r r' : Rtt.State} (h : r.target ≠ .ready) (hs : Rtt.TargetStep cfg r r') :
    r'.target ≠ r.target ∧ r'.host = r.host := by
  cases hs with
  | call bytes ht => exact absurd ht h
  | flushNoHost ht _ => exact absurd ht h
  | flush ht _ => exact absurd ht h
  | @copy rest cursor len before after p b ht =>
    refine ⟨?_, rfl⟩
    rw [ht]
    intro he
    simp only [Rtt.Target.copying.injEq, true_and] at he
    have := congrArg List.length he
    simp at this
  | return_ ht => rw [ht]; exact ⟨by simp, rfl⟩
  | loadRead ht _ _ => rw [ht]; exact ⟨by simp, rfl⟩
  | full ht _ => rw [ht]; exact ⟨by simp, rfl⟩
  | start ht _ => rw [ht]; exact ⟨by simp [Rtt.writeImpl], rfl⟩
  | startNonblocking ht _ _ => rw [ht]; exact ⟨by simp [Rtt.writeImpl], rfl⟩
  | store ht => rw [ht]; exact ⟨by simp, rfl⟩
  | flushLoad ht => rw [ht]; exact ⟨by simp, rfl⟩
  | flushAgain ht _ => rw [ht]; exact ⟨by simp, rfl⟩
  | flushReturn ht _ => rw [ht]; exact ⟨by simp, rfl⟩

/-! ### A host that attaches later -/

/-- the write cursor counts the bytes -/
theorem write_cursor {cfg : Rtt.Config} {s0 s : Rtt.State} (h0 : Rtt.Between cfg s0) (hw : s0.write = 0)
    (hr : Rtt.Reachable cfg s0 s) : ∃ n, s.accepted.length = n + (Rtt.outstanding s.target).length ∧ s.write = n % cfg.size := by
  induction hr with
  | refl => exact ⟨0, by simp [h0.accepted, h0.target, Rtt.outstanding], by simp [hw]⟩
  | @step s' s'' hr hs ih =>
    obtain ⟨n, h1, h2⟩ := ih
    have hb := Rtt.Bounded.reachable h0.bounded hr
    rcases hs with hs | hs
    · cases hs with
      | call bytes h => rw [h] at h1; exact ⟨n, by simp [Rtt.outstanding] at h1 ⊢; omega, h2⟩
      | return_ h => rw [h] at h1; exact ⟨n, by simpa [Rtt.outstanding] using h1, h2⟩
      | loadRead h _ _ => rw [h] at h1; exact ⟨n, by simpa [Rtt.outstanding] using h1, h2⟩
      | full h _ => rw [h] at h1; exact ⟨n, by simpa [Rtt.outstanding] using h1, h2⟩
      | start h _ => rw [h] at h1; exact ⟨n, by simpa [Rtt.outstanding, Rtt.writeImpl] using h1, h2⟩
      | startNonblocking h _ _ => rw [h] at h1; exact ⟨n, by simpa [Rtt.outstanding, Rtt.writeImpl] using h1, h2⟩
      | copy h => rw [h] at h1; exact ⟨n, by simpa [Rtt.outstanding] using h1, h2⟩
      | @store rest cursor len h =>
        have hc := hb.copying _ _ _ _ h
        rw [h] at h1
        have hen := hc.enough
        refine ⟨n + len, by simp [Rtt.outstanding] at h1 ⊢; omega, ?_⟩
        simp only [hc.cursor, h2, Nat.mod_add_mod]
      | flushNoHost _ _ => exact ⟨n, h1, h2⟩
      | flush h _ => rw [h] at h1; exact ⟨n, by simpa [Rtt.outstanding] using h1, h2⟩
      | flushLoad h => rw [h] at h1; exact ⟨n, by simpa [Rtt.outstanding] using h1, h2⟩
      | flushAgain h _ => rw [h] at h1; exact ⟨n, by simpa [Rtt.outstanding] using h1, h2⟩
      | flushReturn h _ => rw [h] at h1; exact ⟨n, by simpa [Rtt.outstanding] using h1, h2⟩
    · cases hs <;> exact ⟨n, h1, h2⟩

/-- cutting a stream damages at most one block -/
theorem scan_cut (b : List UInt8) : ∀ (old new : List UInt8), (new ≠ [] → old ≠ []) →
    ∃ (junk : List (List UInt8)) (k : Nat), junk.length ≤ k ∧ k ≤ 1 ∧
      (Stream.scan new b).1 = junk ++ ((Stream.scan old b).1.drop k) := by
  induction b with
  | nil => intro old new _; exact ⟨[], 0, by simp, by simp, by simp [Stream.scan]⟩
  | cons x xs ih =>
    intro old new hne
    simp only [Stream.scan]
    by_cases hx : x = 0
    · simp only [if_pos hx]
      by_cases h1 : new = [] <;> by_cases h2 : old = []
      · exact ⟨[], 0, by simp, by simp, by simp [h1, h2]⟩
      · exact ⟨[], 1, by simp, by simp, by simp [h1, h2]⟩
      · exact absurd h2 (hne h1)
      · exact ⟨[new], 1, by simp, by simp, by simp [h1, h2]⟩
    · simp only [if_neg hx]
      exact ih (old ++ [x]) (new ++ [x]) (by simp)

theorem completeBlocks_cut (a b : List UInt8) : ∃ (junk : List (List UInt8)) (k : Nat), junk.length ≤ k ∧ k ≤ 1 ∧
    Stream.completeBlocks b = junk ++ (Stream.completeBlocks (a ++ b)).drop ((Stream.completeBlocks a).length + k) := by
  obtain ⟨junk, k, h1, h2, h3⟩ := scan_cut b (Stream.scan [] a).2 [] (by simp)
  refine ⟨junk, k, h1, h2, ?_⟩
  unfold Stream.completeBlocks
  rw [h3, Stream.scan_append, List.drop_append]
  simp

end Defmt.System
