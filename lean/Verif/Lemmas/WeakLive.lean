import Verif.Lemmas.Weak
import Verif.Lemmas.RttLive
/-! Helper lemmas for liveness of the RTT channel with store buffers. -/

namespace Defmt.Weak
open Rtt (Config distance distance_add distance_lt wrap_lt outstanding Writing Flushing leInduction soon soonFlushed)

/-- the invariant of a run with a connected host -/
structure Live (cfg : Config) (init : List UInt8) (s : State) : Prop where
  safe : Safe cfg init s
  mode : blocking cfg s = true

theorem Live.step {cfg : Config} {init : List UInt8} {s s' : State} (h : Live cfg init s) (hs : Step .release cfg s s') :
    Live cfg init s' := by
  refine ⟨?_, by have := h.mode; unfold blocking at this ⊢; rw [hs.flags]; exact this⟩
  rcases hs with hs | hs | hs
  · exact h.safe.targetStep h.mode hs
  · exact h.safe.hostStep hs
  · exact h.safe.memoryStep hs

theorem Live.lengths {cfg : Config} {init : List UInt8} {s : State} (h : Live cfg init s) :
    s.received.length + distance cfg.size s.read s.write + (outstanding s.target).length = init.length + s.accepted.length := by
  have := congrArg List.length h.safe.strong.data
  rw [List.length_append, List.length_append, List.length_append, Rtt.unread_eq, Rtt.length_ring] at this
  exact this

theorem Run.induct {cfg : Config} {σ : Nat → State} (hrun : Run cfg σ) {P : State → Prop} {i : Nat}
    (hstep : ∀ j, i ≤ j → P (σ j) → Step .release cfg (σ j) (σ (j + 1)) → P (σ (j + 1))) (h : P (σ i)) : ∀ j, i ≤ j → P (σ j) := by
  intro j hj
  induction j, hj using leInduction with
  | base => exact h
  | succ j hj ih =>
    rcases hrun j with hs | hs
    · exact hstep _ hj ih hs
    · rw [hs]; exact ih

/-- A sequence of numbers that never grows is constant from some point on. -/
theorem settles {f : Nat → Nat} : ∀ {n i : Nat}, (∀ j, i ≤ j → f (j + 1) ≤ f j) → f i ≤ n → ∃ j ≥ i, ∀ k ≥ j, f k = f j := by
  intro n
  induction n using Nat.strongRecOn with
  | _ n ih =>
  intro i hf hn
  by_cases h : ∃ j ≥ i, f j < f i
  · obtain ⟨j, hj, hlt⟩ := h
    obtain ⟨k, hk, hc⟩ := ih (f j) (by omega) (i := j) (fun l hl => hf l (by omega)) (Nat.le_refl _)
    exact ⟨k, by omega, hc⟩
  · refine ⟨i, Nat.le_refl _, ?_⟩
    intro k hk
    have h1 : f k ≤ f i := by
      induction k, hk using leInduction with
      | base => exact Nat.le_refl _
      | succ k hk ih => exact Nat.le_trans (hf k hk) ih
    have h2 : ¬ f k < f i := fun hlt => h ⟨k, hk, hlt⟩
    omega

/-- Steps of the target while it is busy: what they change, and when they decrease the bytes to be written. -/
theorem busy_step {cfg : Config} {s s' : State} (hi : Inside cfg s) (hw : s.target ≠ .ready) (hs : TargetStep cfg s s') :
    s'.target = .ready ∨ (s'.accepted = s.accepted ∧ s'.received = s.received ∧ s'.read = s.read ∧
      ((outstanding s'.target).length < (outstanding s.target).length ∨
        ((outstanding s'.target).length = (outstanding s.target).length ∧ s'.write = s.write))) := by
  cases hs with
  | call bytes h => exact absurd h hw
  | return_ h => exact .inl rfl
  | loadRead h hne hb' => right; rw [h]; exact ⟨rfl, rfl, rfl, .inr ⟨rfl, rfl⟩⟩
  | full h ha => right; rw [h]; exact ⟨rfl, rfl, rfl, .inr ⟨rfl, rfl⟩⟩
  | start h ha => right; rw [h]; exact ⟨rfl, rfl, rfl, .inr ⟨rfl, rfl⟩⟩
  | startNonblocking h hne hb' => right; rw [h]; exact ⟨rfl, rfl, rfl, .inr ⟨rfl, rfl⟩⟩
  | copy h => right; rw [h]; exact ⟨rfl, rfl, rfl, .inr ⟨rfl, rfl⟩⟩
  | store h =>
    right
    have hc := hi.bounded.copying _ _ _ _ h
    have := hc.pos
    have := hc.enough
    rw [h]
    exact ⟨rfl, rfl, rfl, .inl (by simp only [outstanding, List.length_drop]; omega)⟩
  | flushNoHost h _ => exact absurd h hw
  | flush h _ => exact absurd h hw
  | flushLoad h => right; rw [h]; exact ⟨rfl, rfl, rfl, .inr ⟨rfl, rfl⟩⟩
  | flushAgain h _ => right; rw [h]; exact ⟨rfl, rfl, rfl, .inr ⟨rfl, rfl⟩⟩
  | flushReturn h _ => exact .inl rfl

theorem host_step {cfg : Config} {s s' : State} (hs : HostStep cfg s s') : s'.target = s.target ∧ s'.accepted = s.accepted ∧
    s'.write = s.write ∧ ∃ x, s'.received = s.received ++ x := by
  cases hs
  · exact ⟨rfl, rfl, rfl, [], by simp⟩
  · exact ⟨rfl, rfl, rfl, [], by simp⟩
  · exact ⟨rfl, rfl, rfl, _, rfl⟩

theorem memory_step {order : Order} {s s' : State} (hs : MemoryStep order s s') : s'.target = s.target ∧ s'.accepted = s.accepted ∧
    s'.write = s.write ∧ s'.received = s.received ∧ s'.read = s.read := by
  cases hs <;> exact ⟨rfl, rfl, rfl, rfl, rfl⟩

/-- Everything is read and the target sees it. -/
structure Quiet (s : State) : Prop where
  read : s.read = s.write
  seen : s.readSeen = s.write

theorem distance_zero {n a b : Nat} (ha : a < n) (hb : b < n) (h : distance n a b = 0) : a = b := by
  have := distance_add ha hb
  rw [h, Nat.add_zero, wrap_lt ha] at this
  exact this

theorem distance_self {n a : Nat} : distance n a a = 0 := by unfold distance; simp

/-- In a quiet state steps of host and memory change nothing for the target. -/
theorem Quiet.other {cfg : Config} {init : List UInt8} {s s' : State} (hl : Live cfg init s) (hq : Quiet s)
    (hs : HostStep cfg s s' ∨ MemoryStep .release s s') : Quiet s' ∧ s'.target = s.target ∧ s'.write = s.write := by
  have hin := hl.safe.inside.reads
  have hw := hl.safe.strong.bounded.write
  have hzero : distance cfg.size s.read s.write = 0 := by rw [hq.read, distance_self]
  rcases hs with hs | hs
  · cases hs with
    | load h => exact ⟨⟨hq.read, hq.seen⟩, rfl, rfl⟩
    | byte h hp => exact ⟨⟨hq.read, hq.seen⟩, rfl, rfl⟩
    | @store w pos got h =>
      refine ⟨⟨?_, hq.seen⟩, rfl, rfl⟩
      obtain ⟨k, h1, h2, h3⟩ := hl.safe.stores
      obtain ⟨m, m', h4, h5, h6, h7⟩ := h3 _ _ _ h
      have := h2.le
      have : m = 0 := by omega
      subst this
      show pos = s.write
      rw [h6, Nat.add_zero, show s.read % cfg.size = s.read from wrap_lt hl.safe.strong.bounded.read]
      exact hq.read
  · cases hs with
    | byte h ho => exact ⟨⟨hq.read, hq.seen⟩, rfl, rfl⟩
    | release hr h => exact ⟨⟨hq.read, hq.seen⟩, rfl, rfl⟩
    | relaxed hr h ho => cases hr
    | @ack r after h =>
      refine ⟨⟨hq.read, ?_⟩, rfl, rfl⟩
      have hr : r ∈ s.acks := by rw [h]; exact List.mem_cons_self ..
      have := (List.pairwise_cons.1 hl.safe.order).1 r hr
      rw [hq.seen, distance_self] at this
      exact distance_zero (hin r (List.mem_cons_of_mem _ hr)) hw (Nat.le_zero.1 this)

/-- In a quiet state the steps of the target are those of the channel without store buffers. -/
theorem Quiet.strong {cfg : Config} {s s' : State} (hq : Quiet s) (hs : TargetStep cfg s s') :
    Rtt.TargetStep cfg (settled s) (settled s') := by
  have he : s.readSeen = (settled s).read := hq.seen.trans hq.read.symm
  cases hs with
  | call bytes h => exact .call bytes h
  | return_ h => exact .return_ h
  | loadRead h hne hb => rw [he]; exact .loadRead (s := settled s) h hne hb
  | full h ha => exact .full h ha
  | start h ha => exact .start (s := settled s) h ha
  | startNonblocking h hne hb => exact .startNonblocking (s := settled s) h hne hb
  | copy h => rw [settled_copy]; exact .copy (s := settled s) h
  | store h => rw [settled_store]; exact .store (s := settled s) h
  | flushNoHost h hb => exact .flushNoHost h hb
  | flush h hb => exact .flush h hb
  | flushLoad h => rw [he]; exact .flushLoad (s := settled s) h
  | flushAgain h hd => exact .flushAgain h hd
  | flushReturn h hd => exact .flushReturn h hd

/-- steps until the target is ready or has written some bytes, when the state is quiet -/
def until_ (s : State) : Nat := soon s.write s.target + soonFlushed s.write s.target

theorem busy_cases {t : Rtt.Target} (h : t ≠ .ready) : (Writing t ∧ ∀ w, soonFlushed w t = 0) ∨ (Flushing t ∧ ∀ w, soon w t = 0) := by
  cases t with
  | ready => exact absurd rfl h
  | attempt _ | loadedRead _ _ | copying _ _ _ _ => exact .inl ⟨trivial, fun _ => rfl⟩
  | flushing | flushLoaded _ => exact .inr ⟨trivial, fun _ => rfl⟩

theorem Quiet.targetStep {cfg : Config} {init : List UInt8} {s s' : State} (h2 : 2 ≤ cfg.size) (hl : Live cfg init s)
    (hq : Quiet s) (hw : s.target ≠ .ready) (hs : TargetStep cfg s s') (hw' : s'.target ≠ .ready)
    (ho : (outstanding s'.target).length = (outstanding s.target).length) :
    Quiet s' ∧ until_ s' < until_ s := by
  have hst := hq.strong hs
  have hseen : s'.readSeen = s.readSeen := by cases hs <;> rfl
  have hu : Rtt.unread cfg (settled s) = [] := by
    rw [Rtt.unread_eq, Rtt.ring_eq_nil]
    show distance cfg.size s.read s.write = 0
    rw [hq.read, distance_self]
  rcases busy_step hl.safe.inside hw hs with h | ⟨_, _, hr, h | ⟨_, h⟩⟩
  · exact absurd h hw'
  · omega
  · have hq' : Quiet s' := ⟨by rw [hr, h]; exact hq.read, by rw [hseen, h]; exact hq.seen⟩
    refine ⟨hq', ?_⟩
    unfold until_
    rcases busy_cases hw with ⟨hwr, hz⟩ | ⟨hfl, hz⟩
    · rcases Rtt.soon_step (s := settled s) h2 hl.mode hl.safe.strong hwr hu hst with h | ⟨_, h⟩ | ⟨h3, _, _, h4⟩
      · exact absurd h hw'
      · exact absurd ho (Nat.ne_of_lt h)
      · rcases busy_cases hw' with ⟨_, hz'⟩ | ⟨hfl', _⟩
        · rw [hz, hz']; exact h4
        · exfalso; revert h3 hfl'
          show Writing s'.target → Flushing s'.target → False
          cases s'.target <;> simp [Writing, Flushing]
    · rcases Rtt.flushing_step (s := settled s) hfl hst with h | ⟨h3, _, _, _, _, _, h4⟩
      · exact absurd h hw'
      · have h5 := h4 hq.read
        rcases busy_cases hw' with ⟨hwr', _⟩ | ⟨_, hz'⟩
        · exfalso; revert h3 hwr'
          show Flushing s'.target → Writing s'.target → False
          cases s'.target <;> simp [Writing, Flushing]
        · rw [hz, hz', Nat.zero_add, Nat.zero_add]; exact h5

theorem returns {cfg : Config} {init : List UInt8} {σ : Nat → State} (h2 : 2 ≤ cfg.size) (hrun : Run cfg σ)
    (hfair : TargetRuns cfg σ) (hws : WritesSeen σ) (hrs : ReadsSeen σ) (hhost : HostReads σ) {i : Nat} (hl : Live cfg init (σ i)) :
    ∃ j ≥ i, (σ j).target = .ready := by
  apply Classical.byContradiction
  intro hno
  have hbusy : ∀ j, i ≤ j → (σ j).target ≠ .ready := fun j hj h => hno ⟨j, hj, h⟩
  have hlive : ∀ j, i ≤ j → Live cfg init (σ j) :=
    hrun.induct (P := Live cfg init) (fun _ _ h hs => h.step hs) hl
  -- one step
  have hone : ∀ j, i ≤ j → (σ (j + 1)).accepted = (σ j).accepted ∧ (∃ x, (σ (j + 1)).received = (σ j).received ++ x) ∧
      (outstanding (σ (j + 1)).target).length ≤ (outstanding (σ j).target).length := by
    intro j hj
    rcases hrun j with (hs | hs | hs) | hs
    · rcases busy_step (hlive j hj).safe.inside (hbusy j hj) hs with h | ⟨h1, h2, _, h⟩
      · exact absurd h (hbusy (j + 1) (by omega))
      · exact ⟨h1, ⟨[], by rw [h2]; simp⟩, by omega⟩
    · obtain ⟨h1, h2, _, h3⟩ := host_step hs
      exact ⟨h2, h3, by rw [h1]; exact Nat.le_refl _⟩
    · obtain ⟨h1, h2, _, h3, _⟩ := memory_step hs
      exact ⟨h2, ⟨[], by rw [h3]; simp⟩, by rw [h1]; exact Nat.le_refl _⟩
    · rw [hs]; exact ⟨rfl, ⟨[], by simp⟩, Nat.le_refl _⟩
  have hacc : ∀ j, i ≤ j → (σ j).accepted = (σ i).accepted :=
    fun j hj => by
      induction j, hj using leInduction with
      | base => rfl
      | succ j hj ih => rw [(hone j hj).1, ih]
  -- a point from which on nothing is written or read
  obtain ⟨a, ha, hstop⟩ := settles (f := fun j => (outstanding (σ j).target).length + (init.length + (σ i).accepted.length - (σ j).received.length))
    (i := i) (n := _) (by
      intro j hj
      obtain ⟨_, ⟨x, hx⟩, h3⟩ := hone j hj
      show (outstanding (σ (j + 1)).target).length + (init.length + (σ i).accepted.length - (σ (j + 1)).received.length) ≤ _
      rw [hx, List.length_append]
      omega) (Nat.le_refl _)
  have hrec : ∀ j, a ≤ j → ∃ x, (σ j).received = (σ a).received ++ x := by
    intro j hj
    induction j, hj using leInduction with
    | base => exact ⟨[], by simp⟩
    | succ j hj ih =>
      obtain ⟨x, hx⟩ := ih
      obtain ⟨_, ⟨y, hy⟩, _⟩ := hone j (by omega)
      exact ⟨x ++ y, by rw [hy, hx, List.append_assoc]⟩
  have hout : ∀ j, a ≤ j → (outstanding (σ j).target).length ≤ (outstanding (σ a).target).length := by
    intro j hj
    induction j, hj using leInduction with
    | base => exact Nat.le_refl _
    | succ j hj ih => exact Nat.le_trans (hone j (by omega)).2.2 ih
  have hsame : ∀ j, a ≤ j → (σ j).received = (σ a).received ∧
      (outstanding (σ j).target).length = (outstanding (σ a).target).length := by
    intro j hj
    have h1 : (outstanding (σ j).target).length + (init.length + (σ i).accepted.length - (σ j).received.length)
      = (outstanding (σ a).target).length + (init.length + (σ i).accepted.length - (σ a).received.length) := hstop j hj
    obtain ⟨x, hx⟩ := hrec j hj
    have h3 := hout j hj
    have e1 := (hlive j (by omega)).lengths
    have e2 := (hlive a ha).lengths
    rw [hacc j (by omega)] at e1
    rw [hacc a ha] at e2
    rw [hx, List.length_append] at h1 e1
    have : x = [] := by rw [← List.length_eq_zero_iff]; omega
    subst this
    exact ⟨by rw [hx]; simp, by omega⟩
  have hdist : ∀ j, a ≤ j → distance cfg.size (σ j).read (σ j).write = distance cfg.size (σ a).read (σ a).write := by
    intro j hj
    have e1 := (hlive j (by omega)).lengths
    have e2 := (hlive a ha).lengths
    rw [hacc j (by omega)] at e1
    rw [hacc a ha] at e2
    obtain ⟨h1, h3⟩ := hsame j hj
    rw [h1] at e1
    omega
  have hwrite : ∀ j, a ≤ j → (σ j).write = (σ a).write := by
    intro j hj
    induction j, hj using leInduction with
    | base => rfl
    | succ j hj ih =>
      rw [← ih]
      rcases hrun j with (hs | hs | hs) | hs
      · rcases busy_step (hlive j (by omega)).safe.inside (hbusy j (by omega)) hs with h | ⟨_, _, _, h | ⟨_, h⟩⟩
        · exact absurd h (hbusy (j + 1) (by omega))
        · rw [(hsame j hj).2, (hsame (j + 1) (by omega)).2] at h
          exact absurd h (Nat.lt_irrefl _)
        · exact h
      · exact (host_step hs).2.2.1
      · exact (memory_step hs).2.2.1
      · rw [hs]
  -- nothing is unread
  have hread : ∀ j, a ≤ j → (σ j).read = (σ j).write := by
    obtain ⟨b, hb, hseen⟩ := hws a
    have hz : distance cfg.size (σ a).read (σ a).write = 0 := by
      apply Classical.byContradiction
      intro hne
      have : (σ b).writeSeen ≠ (σ b).read := by
        rw [hseen, ← hwrite b hb]
        intro h
        apply hne
        rw [← hdist b hb, h, distance_self]
      obtain ⟨c, hc, hchange⟩ := hhost b this
      exact hchange ((hsame c (by omega)).1.trans (hsame b hb).1.symm)
    intro j hj
    have hb := (hlive j (by omega)).safe.strong.bounded
    exact distance_zero hb.read hb.write ((hdist j hj).trans hz)
  -- the target sees that
  obtain ⟨b, hb, hseen⟩ := hrs a
  have hq : Quiet (σ b) := ⟨hread b hb, by rw [hseen, hread a (Nat.le_refl _), hwrite b hb]⟩
  have key : ∀ n c, b ≤ c → Quiet (σ c) → until_ (σ c) ≤ n → False := by
    intro n
    induction n using Nat.strongRecOn with
    | _ n ih =>
    intro c hc hqc hn
    obtain ⟨d, hd, hstep⟩ := hfair c
    have hkeep : ∀ d, c ≤ d → Quiet (σ d) ∧ until_ (σ d) ≤ until_ (σ c) := by
      intro d hd
      induction d, hd using leInduction with
      | base => exact ⟨hqc, Nat.le_refl _⟩
      | succ d hd ihd =>
        have hld := hlive d (by omega)
        rcases hrun d with (hs | hs) | hs
        · obtain ⟨h1, h3⟩ := ihd.1.targetStep h2 hld (hbusy d (by omega)) hs (hbusy (d + 1) (by omega))
            (by rw [(hsame d (by omega)).2, (hsame (d + 1) (by omega)).2])
          exact ⟨h1, by omega⟩
        · obtain ⟨h1, h3, h4⟩ := ihd.1.other hld hs
          exact ⟨h1, by unfold until_ at ihd ⊢; rw [h3, h4]; exact ihd.2⟩
        · rw [hs]; exact ihd
    obtain ⟨h1, h3⟩ := hkeep d hd
    obtain ⟨h4, h5⟩ := h1.targetStep h2 (hlive d (by omega)) (hbusy d (by omega)) hstep (hbusy (d + 1) (by omega))
      (by rw [(hsame d (by omega)).2, (hsame (d + 1) (by omega)).2])
    exact ih (until_ (σ (d + 1))) (by omega) (d + 1) (by omega) h4 (Nat.le_refl _)
  exact key _ b (Nat.le_refl _) hq (Nat.le_refl _)

end Defmt.Weak
