import Verif.Spec.Clock
import Verif.Props.Logger
/-!
Lemmas about the order of log statements in time.
-/

namespace Defmt.Clock

open Encoder
open Logger (update update_same update_ne)

/-- the frame of a context is open -/
def Phase.open_ : Phase → Bool
  | .outside | .ready _ => false
  | _ => true

/-- the phase fits the bytes written so far and the times -/
def Good (ts : Timestamp) (now : Nat) (log : List Entry) (payload : List UInt8) : Phase → Prop
  | .outside => True
  | .ready job => job.evaluated ≤ now ∧ job.call.encode ≠ none
  | .header job a => job.evaluated ≤ a ∧ a ≤ now ∧ job.call.encode ≠ none ∧ payload = [] ∧ ∀ e ∈ log, e.finished ≤ a
  | .stamping job a => job.evaluated ≤ a ∧ a ≤ now ∧ job.call.encode ≠ none ∧ payload = le 2 job.index ∧ ∀ e ∈ log, e.finished ≤ a
  | .rest job a t more => job.evaluated ≤ a ∧ a ≤ t ∧ t ≤ now ∧ (∀ e ∈ log, e.finished ≤ a) ∧
      ∃ d d', stampBytes ts t = some d ∧ job.call.encode = some d' ∧ payload ++ more = le 2 job.index ++ (d ++ d')
  | .flushing => payload = []

structure Inv {b : Base} (kind : Logger.Kind) (enc : Logger.Encoding) (ts : Timestamp) (s : State b) : Prop where
  logger : Logger.Reachable kind enc (b.logger s.base)
  inside : ∀ c, (b.logger s.base).inside c = (s.phase c).open_
  good : ∀ c, Good ts s.clock s.log ((b.logger s.base).payload c) (s.phase c)
  past : ∀ e ∈ s.log, e.job.evaluated ≤ e.acquired ∧ e.acquired ≤ e.stamp ∧ e.stamp ≤ e.finished ∧ e.finished ≤ s.clock
  disjoint : s.log.Pairwise (fun a b => a.finished ≤ b.acquired)
  bytes : s.log.map (fun e => (e.event ts).bytes) = (((b.logger s.base).completed.map Prod.snd).filter (· ≠ [])).map some

theorem Good.later {ts : Timestamp} {now now' : Nat} (h : now ≤ now') {log : List Entry} {payload : List UInt8} {p : Phase}
    (hg : Good ts now log payload p) : Good ts now' log payload p := by
  cases p with
  | outside => trivial
  | ready job => exact ⟨Nat.le_trans hg.1 h, hg.2⟩
  | header job a => exact ⟨hg.1, Nat.le_trans hg.2.1 h, hg.2.2⟩
  | stamping job a => exact ⟨hg.1, Nat.le_trans hg.2.1 h, hg.2.2⟩
  | rest job a t more => exact ⟨hg.1, hg.2.1, Nat.le_trans hg.2.2.1 h, hg.2.2.2⟩
  | flushing => exact hg

/-- of a context without a frame the payload and the log do not matter -/
theorem Good.closed {ts : Timestamp} {now : Nat} {log log' : List Entry} {payload payload' : List UInt8} {p : Phase} (hp : p.open_ = false)
    (hg : Good ts now log payload p) : Good ts now log' payload' p := by
  cases p <;> simp [Phase.open_] at hp
  · trivial
  · exact hg

theorem le_ne_nil (x : Nat) (d : List UInt8) : le 2 x ++ d ≠ [] := by simp [le]

theorem event_bytes {ts : Timestamp} {c a t f : Nat} {job : Job} {d d' : List UInt8} (h : stampBytes ts t = some d) (h' : job.call.encode = some d') :
    (Entry.event ts ⟨c, job, a, t, f⟩).bytes = some (le 2 job.index ++ (d ++ d')) := by
  simp only [Entry.event, LogEvent.bytes, encodeLog]
  cases ts with
  | none =>
    simp only [stampBytes, Option.some.injEq] at h
    subst h
    simp [h']
  | some call =>
    simp only [stampBytes] at h
    simp [h, h']

theorem Inv.step {b : Base} {kind : Logger.Kind} {enc : Logger.Encoding} (hb : b.Ok kind enc) {ts : Timestamp} {s s' : State b}
    (hi : Inv kind enc ts s) (hs : Step b ts s s') : Inv kind enc ts s' := by
  cases hs with
  | tick now h =>
    exact ⟨hi.logger, hi.inside, fun c => (hi.good c).later h, fun e he => let p := hi.past e he; ⟨p.1, p.2.1, p.2.2.1, Nat.le_trans p.2.2.2 h⟩, hi.disjoint, hi.bytes⟩
  | evaluate c index tag call h he =>
    refine ⟨hi.logger, fun d => ?_, fun d => ?_, hi.past, hi.disjoint, hi.bytes⟩
    · by_cases hd : d = c
      · subst hd; rw [hi.inside, h]; simp [update_same, Phase.open_]
      · simp only [update_ne hd]; exact hi.inside d
    · by_cases hd : d = c
      · subst hd; simp only [update_same]; exact ⟨Nat.le_refl _, he⟩
      · simp only [update_ne hd]; exact hi.good d
  | stamp c job acquired h ht ha =>
    refine ⟨hi.logger, fun d => ?_, fun d => ?_, hi.past, hi.disjoint, hi.bytes⟩
    · by_cases hd : d = c
      · subst hd; rw [hi.inside, h]; simp [update_same, Phase.open_]
      · simp only [update_ne hd]; exact hi.inside d
    · by_cases hd : d = c
      · subst hd
        simp only [update_same]
        have hg := hi.good d
        rw [h] at hg
        obtain ⟨g1, g2, g3, g4, g5⟩ := hg
        exact ⟨g1, g2, Nat.le_refl _, g5, _, _, ht, ha, by rw [g4]⟩
      · simp only [update_ne hd]; exact hi.good d
  | @base b' phase log hstep he =>
    have hl : Logger.Reachable kind enc (b.logger b') := by
      rcases hb _ _ hstep with h | ⟨c, h⟩
      · rw [h]; exact hi.logger
      · exact .step c hi.logger h
    -- only one frame is open
    have hone : ∀ {c d : Nat}, (s.phase c).open_ = true → d ≠ c → (s.phase d).open_ = false := by
      intro c d hc hd
      by_cases ho : (s.phase d).open_ = true
      · exact absurd (C53_one_at_a_time kind enc _ hi.logger d c (by rw [hi.inside, ho]) (by rw [hi.inside, hc])) hd
      · simpa using ho
    cases he with
    | quiet h1 h2 h3 => exact ⟨hl, fun c => by rw [h1]; exact hi.inside c, fun c => by rw [h2]; exact hi.good c, hi.past, hi.disjoint, by rw [h3]; exact hi.bytes⟩
    | start c job h h1 h2 h3 =>
      refine ⟨hl, fun d => ?_, fun d => ?_, hi.past, hi.disjoint, by rw [h3]; exact hi.bytes⟩
      · rw [h1]
        by_cases hd : d = c
        · subst hd; simp [update_same, Phase.open_]
        · simp only [update_ne hd]; exact hi.inside d
      · rw [h2]
        by_cases hd : d = c
        · subst hd
          simp only [update_same]
          have hg := hi.good d
          rw [h] at hg
          exact ⟨hg.1, Nat.le_refl _, hg.2, rfl, fun e he => (hi.past e he).2.2.2⟩
        · simp only [update_ne hd]; exact hi.good d
    | header c job a h h1 h2 h3 =>
      refine ⟨hl, fun d => ?_, fun d => ?_, hi.past, hi.disjoint, by rw [h3]; exact hi.bytes⟩
      · rw [h1]
        by_cases hd : d = c
        · subst hd; rw [hi.inside, h]; simp [update_same, Phase.open_]
        · simp only [update_ne hd]; exact hi.inside d
      · rw [h2]
        by_cases hd : d = c
        · subst hd
          simp only [update_same]
          have hg := hi.good d
          rw [h] at hg
          obtain ⟨g1, g2, g3, g4, g5⟩ := hg
          exact ⟨g1, g2, g3, by rw [g4]; rfl, g5⟩
        · simp only [update_ne hd]; exact hi.good d
    | write c job a t data more h h1 h2 h3 =>
      refine ⟨hl, fun d => ?_, fun d => ?_, hi.past, hi.disjoint, by rw [h3]; exact hi.bytes⟩
      · rw [h1]
        by_cases hd : d = c
        · subst hd; rw [hi.inside, h]; simp [update_same, Phase.open_]
        · simp only [update_ne hd]; exact hi.inside d
      · rw [h2]
        by_cases hd : d = c
        · subst hd
          simp only [update_same]
          have hg := hi.good d
          rw [h] at hg
          obtain ⟨g1, g2, g3, g4, x, y, g5, g6, g7⟩ := hg
          exact ⟨g1, g2, g3, g4, x, y, g5, g6, by rw [List.append_assoc]; exact g7⟩
        · simp only [update_ne hd]; exact hi.good d
    | finish c job a t h h1 h2 h3 =>
      have hg := hi.good c
      rw [h] at hg
      obtain ⟨g1, g2, g3, g4, x, y, g5, g6, g7⟩ := hg
      have hopen : (s.phase c).open_ = true := by rw [h]; rfl
      refine ⟨hl, fun d => ?_, fun d => ?_, fun e he => ?_, ?_, ?_⟩
      · rw [h1]
        by_cases hd : d = c
        · subst hd; simp [update_same, Phase.open_]
        · simp only [update_ne hd]; exact hi.inside d
      · rw [h2]
        by_cases hd : d = c
        · subst hd; simp only [update_same]; trivial
        · simp only [update_ne hd]; exact (hi.good d).closed (hone hopen hd)
      · rcases List.mem_append.mp he with he | he
        · exact hi.past e he
        · simp only [List.mem_singleton] at he; subst he; exact ⟨g1, g2, g3, Nat.le_refl _⟩
      · rw [List.pairwise_append]
        refine ⟨hi.disjoint, by simp, fun e he e' he' => ?_⟩
        simp only [List.mem_singleton] at he'; subst he'
        exact g4 e he
      · simp only [List.append_nil] at g7
        rw [h3, List.map_append, hi.bytes]
        simp only [List.map_cons, List.map_nil, List.map_append, List.filter_append]
        rw [event_bytes g5 g6, g7]
        simp [le]
    | startFlush c h h1 h2 h3 =>
      refine ⟨hl, fun d => ?_, fun d => ?_, hi.past, hi.disjoint, by rw [h3]; exact hi.bytes⟩
      · rw [h1]
        by_cases hd : d = c
        · subst hd; simp [update_same, Phase.open_]
        · simp only [update_ne hd]; exact hi.inside d
      · rw [h2]
        by_cases hd : d = c
        · subst hd; simp only [update_same]; rfl
        · simp only [update_ne hd]; exact hi.good d
    | finishFlush c h h1 h2 h3 =>
      have hg := hi.good c
      rw [h] at hg
      have hg' : (b.logger s.base).payload c = [] := hg
      refine ⟨hl, fun d => ?_, fun d => ?_, hi.past, hi.disjoint, ?_⟩
      · rw [h1]
        by_cases hd : d = c
        · subst hd; simp [update_same, Phase.open_]
        · simp only [update_ne hd]; exact hi.inside d
      · rw [h2]
        by_cases hd : d = c
        · subst hd; simp only [update_same]; trivial
        · simp only [update_ne hd]; exact hi.good d
      · rw [h3, hi.bytes, hg']
        simp

theorem Inv.start {b : Base} {kind : Logger.Kind} {enc : Logger.Encoding} (ts : Timestamp) {base : b.State} (h : b.logger base = Logger.initial)
    (clock : Nat) : Inv kind enc ts (start base clock) := by
  refine ⟨?_, fun c => ?_, fun c => trivial, ?_, ?_, ?_⟩
  · show Logger.Reachable kind enc (b.logger base); rw [h]; exact .initial
  · show (b.logger base).inside c = false; rw [h]; rfl
  · intro e he; cases he
  · exact .nil
  · show _ = (((b.logger base).completed.map Prod.snd).filter (· ≠ [])).map some; rw [h]; rfl

theorem Inv.reachable {b : Base} {kind : Logger.Kind} {enc : Logger.Encoding} (hb : b.Ok kind enc) {ts : Timestamp} {s0 s : State b}
    (h0 : Inv kind enc ts s0) (h : Reachable b ts s0 s) : Inv kind enc ts s := by
  induction h with
  | refl => exact h0
  | step _ hs ih => exact ih.step hb hs

theorem overLogger_ok (kind : Logger.Kind) (enc : Logger.Encoding) : (overLogger kind enc).Ok kind enc := fun _ _ h => .inr h

theorem overRtt_ok (cfg : Rtt.Config) (enc : Logger.Encoding) : (overRtt cfg enc).Ok .rtt enc := by
  intro s s' h
  cases h with
  | logger c slices hfree hs hw hp => exact .inr ⟨c, hs⟩
  | _ => exact .inl rfl

/-- the system without the clock -/
theorem Reachable.system {cfg : Rtt.Config} {enc : Logger.Encoding} {ts : Timestamp} {s0 s : State (overRtt cfg enc)}
    (h : Reachable (overRtt cfg enc) ts s0 s) : System.Reachable cfg enc s0.base s.base := by
  induction h with
  | refl => exact .refl
  | step _ hs ih =>
    cases hs with
    | base hstep _ => exact .step ih hstep
    | _ => exact ih

end Defmt.Clock
