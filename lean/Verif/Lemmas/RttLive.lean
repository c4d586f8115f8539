import Verif.Lemmas.Rtt
/-! Helper lemmas for liveness of the RTT channel. -/

namespace Defmt.Rtt

@[elab_as_elim]
theorem leInduction {i : Nat} {motive : (j : Nat) → i ≤ j → Prop} (base : motive i (Nat.le_refl i))
    (succ : ∀ j (h : i ≤ j), motive j h → motive (j + 1) (Nat.le_succ_of_le h)) : ∀ j (h : i ≤ j), motive j h := by
  intro j h
  induction h with
  | refl => exact base
  | @step j h ih => exact succ j h ih

theorem Run.induct {cfg : Config} {σ : Nat → State} (hrun : Run cfg σ) {P : State → Prop}
    (hstep : ∀ s s', P s → Step cfg s s' → P s') {i : Nat} (h : P (σ i)) : ∀ j, i ≤ j → P (σ j) := by
  intro j hj
  induction j, hj using leInduction with
  | base => exact h
  | succ j hj ih =>
    rcases hrun j with hs | hs
    · exact hstep _ _ ih hs
    · rw [hs]; exact ih

/-- If every target step decreases a measure or reaches `Q`, and host steps do no harm, then `Q` is
reached. -/
theorem Run.eventually {cfg : Config} {σ : Nat → State} (hrun : Run cfg σ) (hfair : TargetRuns cfg σ)
    {P Q : State → Prop} {μ : State → Nat}
    (ht : ∀ s s', P s → TargetStep cfg s s' → Q s' ∨ (P s' ∧ μ s' < μ s))
    (hh : ∀ s s', P s → HostStep cfg s s' → Q s' ∨ (P s' ∧ μ s' ≤ μ s)) :
    ∀ n i, P (σ i) → μ (σ i) ≤ n → ∃ j ≥ i, Q (σ j) := by
  intro n
  induction n using Nat.strongRecOn with
  | _ n ih =>
    intro i hP hn
    obtain ⟨k, hk, hstep⟩ := hfair i
    have key : ∀ k, i ≤ k → (∃ j ≥ i, Q (σ j)) ∨ (P (σ k) ∧ μ (σ k) ≤ μ (σ i)) := by
      intro k hk
      induction k, hk using leInduction with
      | base => exact .inr ⟨hP, Nat.le_refl _⟩
      | succ k hk ihk =>
        rcases ihk with h | ⟨h1, h2⟩
        · exact .inl h
        · rcases hrun k with (hs | hs) | hs
          · rcases ht _ _ h1 hs with h | ⟨h3, h4⟩
            · exact .inl ⟨k + 1, by omega, h⟩
            · exact .inr ⟨h3, by omega⟩
          · rcases hh _ _ h1 hs with h | ⟨h3, h4⟩
            · exact .inl ⟨k + 1, by omega, h⟩
            · exact .inr ⟨h3, by omega⟩
          · rw [hs]; exact .inr ⟨h1, h2⟩
    rcases key k hk with h | ⟨h1, h2⟩
    · exact h
    · rcases ht _ _ h1 hstep with h | ⟨h3, h4⟩
      · exact ⟨k + 1, by omega, h⟩
      · obtain ⟨j, hj, hq⟩ := ih (μ (σ (k + 1))) (by omega) (k + 1) h3 (Nat.le_refl _)
        exact ⟨j, by omega, hq⟩

theorem hostStep_target {cfg : Config} {s s' : State} (h : HostStep cfg s s') : s'.target = s.target := by
  cases h <;> rfl

theorem hostStep_accepted {cfg : Config} {s s' : State} (h : HostStep cfg s s') : s'.accepted = s.accepted := by
  cases h <;> rfl

/-! ### Without a host -/

/-- steps to go without a host -/
def toGo : Target → Nat
  | .attempt rest => 3 * rest.length + 1
  | .loadedRead rest _ => 3 * rest.length + 3
  | .copying rest _ len pending => pending.length + 1 + 3 * (rest.length - len) + 1
  | .ready | .flushing | .flushLoaded _ => 0

theorem toGo_step {cfg : Config} {s s' : State} (hsize : 1 ≤ cfg.size) (hb : blocking cfg s = false)
    (hw : Writing s.target) (hs : TargetStep cfg s s') :
    s'.target = .ready ∨ (Writing s'.target ∧ toGo s'.target < toGo s.target) := by
  cases hs with
  | call bytes h => rw [h] at hw; exact hw.elim
  | return_ h => exact .inl rfl
  | loadRead h hne hb' => rw [hb] at hb'; cases hb'
  | full h ha => right; rw [h]; exact ⟨trivial, by simp [toGo]⟩
  | start h ha =>
    right; rw [h]; refine ⟨trivial, ?_⟩
    simp only [writeImpl, toGo]
    rw [length_copies (by omega)]
    omega
  | startNonblocking h hne hb' =>
    right; rw [h]; refine ⟨trivial, ?_⟩
    simp only [writeImpl, toGo]
    rw [length_copies (by omega)]
    have := List.length_pos_iff.2 hne
    omega
  | copy h =>
    right; rw [h]; refine ⟨trivial, ?_⟩
    simp only [toGo, List.length_append, List.length_cons]; omega
  | store h =>
    right; rw [h]; refine ⟨trivial, ?_⟩
    simp only [toGo, List.length_drop, List.length_nil]; omega
  | flushNoHost h _ => rw [h] at hw; exact hw.elim
  | flush h _ => rw [h] at hw; exact hw.elim
  | flushLoad h => rw [h] at hw; exact hw.elim
  | flushAgain h _ => rw [h] at hw; exact hw.elim
  | flushReturn h _ => rw [h] at hw; exact hw.elim

theorem TargetStep.flags {cfg : Config} {s s' : State} (h : TargetStep cfg s s') : s'.flags = s.flags :=
  Step.flags (.inl h)

theorem HostStep.flags {cfg : Config} {s s' : State} (h : HostStep cfg s s') : s'.flags = s.flags :=
  Step.flags (.inr h)

/-! ### With a host -/

/-- A target step inside of `write_all`: it stays inside or becomes ready. -/
theorem writing_step {cfg : Config} {s s' : State} (hw : Writing s.target) (hs : TargetStep cfg s s') :
    s'.target = .ready ∨ (Writing s'.target ∧ s'.accepted = s.accepted ∧
      (outstanding s'.target).length ≤ (outstanding s.target).length) := by
  cases hs with
  | call bytes h => rw [h] at hw; exact hw.elim
  | return_ h => exact .inl rfl
  | loadRead h hne hb' => right; rw [h]; exact ⟨trivial, rfl, Nat.le_refl _⟩
  | full h ha => right; rw [h]; exact ⟨trivial, rfl, Nat.le_refl _⟩
  | start h ha => right; rw [h]; exact ⟨trivial, rfl, Nat.le_refl _⟩
  | startNonblocking h hne hb' => right; rw [h]; exact ⟨trivial, rfl, Nat.le_refl _⟩
  | copy h => right; rw [h]; exact ⟨trivial, rfl, Nat.le_refl _⟩
  | store h => right; rw [h]; exact ⟨trivial, rfl, by simp [outstanding]⟩
  | flushNoHost h _ => rw [h] at hw; exact hw.elim
  | flush h _ => rw [h] at hw; exact hw.elim
  | flushLoad h => rw [h] at hw; exact hw.elim
  | flushAgain h _ => rw [h] at hw; exact hw.elim
  | flushReturn h _ => rw [h] at hw; exact hw.elim

theorem targetStep_received {cfg : Config} {s s' : State} (h : TargetStep cfg s s') : s'.received = s.received := by
  cases h <;> rfl

theorem hostStep_received {cfg : Config} {s s' : State} (h : HostStep cfg s s') : ∃ x, s'.received = s.received ++ x := by
  cases h
  · exact ⟨[], by simp⟩
  · exact ⟨[], by simp⟩
  · exact ⟨_, rfl⟩

theorem Run.received {cfg : Config} {σ : Nat → State} (hrun : Run cfg σ) {i j : Nat} (h : i ≤ j) :
    ∃ x, (σ j).received = (σ i).received ++ x := by
  apply hrun.induct (P := fun s => ∃ x, s.received = (σ i).received ++ x) _ ⟨[], by simp⟩ j h
  rintro s s' ⟨x, hx⟩ (hs | hs)
  · exact ⟨x, by rw [targetStep_received hs, hx]⟩
  · obtain ⟨y, hy⟩ := hostStep_received hs
    exact ⟨x ++ y, by rw [hy, hx, List.append_assoc]⟩

/-- number of target steps until the outstanding bytes decrease, when nothing is unread -/
def soon (write : Nat) : Target → Nat
  | .loadedRead rest r => if r = write then rest.length + 2 else rest.length + 4
  | .attempt rest => rest.length + 3
  | .copying _ _ _ pending => pending.length + 1
  | .ready | .flushing | .flushLoaded _ => 0

theorem soon_step {cfg : Config} {init : List UInt8} {s s' : State} (h2 : 2 ≤ cfg.size) (hbl : blocking cfg s = true)
    (hi : Blocking cfg init s) (hw : Writing s.target) (hu : unread cfg s = []) (hs : TargetStep cfg s s') :
    s'.target = .ready ∨ (Writing s'.target ∧ (outstanding s'.target).length < (outstanding s.target).length)
      ∨ (Writing s'.target ∧ (outstanding s'.target).length = (outstanding s.target).length ∧ unread cfg s' = [] ∧
        soon s'.write s'.target < soon s.write s.target) := by
  have hi' := hi.targetStep hbl hs
  have hempty : ∀ s', Blocking cfg init s' → s'.received = s.received → s'.accepted = s.accepted →
      outstanding s'.target = outstanding s.target → unread cfg s' = [] := by
    intro s' hi' h3 h4 h5
    have h6 := hi.data
    have h7 := hi'.data
    rw [h3, h4, h5, ← h6, hu] at h7
    have := congrArg List.length h7
    simp at this
    exact this
  have heq : s.read = s.write := by
    rw [unread_eq, ring_eq_nil] at hu
    have := distance_add hi.bounded.read hi.bounded.write
    rw [hu, Nat.add_zero, wrap_lt hi.bounded.read] at this
    exact this
  cases hs with
  | call bytes h => rw [h] at hw; exact hw.elim
  | return_ h => exact .inl rfl
  | loadRead h hne hb' =>
    right; right
    refine ⟨trivial, by rw [h]; rfl, hempty _ hi' rfl rfl (by rw [h]; rfl), ?_⟩
    rw [h]; simp [soon, heq]
  | full h ha =>
    right; right
    refine ⟨trivial, by rw [h]; rfl, hempty _ hi' rfl rfl (by rw [h]; rfl), ?_⟩
    rw [h]
    simp only [soon]
    split
    case isTrue he => subst he; exact absurd ha (available_pos h2 hi.bounded.write)
    case isFalse => omega
  | start h ha =>
    right; right
    refine ⟨trivial, by rw [h]; rfl, hempty _ hi' rfl rfl (by rw [h]; rfl), ?_⟩
    rw [h]
    simp only [soon, writeImpl]
    rw [length_copies (by omega)]
    split <;> omega
  | startNonblocking h hne hb' => rw [hbl] at hb'; cases hb'
  | copy h =>
    right; right
    refine ⟨trivial, by rw [h]; rfl, hempty _ hi' rfl rfl (by rw [h]; rfl), ?_⟩
    rw [h]
    simp [soon]
  | store h =>
    right; left
    have hc := hi.bounded.copying _ _ _ _ h
    refine ⟨trivial, ?_⟩
    rw [h]
    simp only [outstanding, List.length_drop]
    have := hc.pos
    have := hc.enough
    omega
  | flushNoHost h _ => rw [h] at hw; exact hw.elim
  | flush h _ => rw [h] at hw; exact hw.elim
  | flushLoad h => rw [h] at hw; exact hw.elim
  | flushAgain h _ => rw [h] at hw; exact hw.elim
  | flushReturn h _ => rw [h] at hw; exact hw.elim

/-- the invariant of a run with a connected host -/
structure Live (cfg : Config) (init : List UInt8) (s : State) : Prop where
  inv : Blocking cfg init s
  mode : blocking cfg s = true

theorem Live.step {cfg : Config} {init : List UInt8} {s s' : State} (h : Live cfg init s) (hs : Step cfg s s') :
    Live cfg init s' := ⟨h.inv.step h.mode hs, by have := h.mode; unfold blocking at this ⊢; rw [hs.flags]; exact this⟩

theorem lengths {cfg : Config} {init : List UInt8} {s : State} (h : Live cfg init s) :
    s.received.length + (unread cfg s).length + (outstanding s.target).length = init.length + s.accepted.length := by
  have := congrArg List.length h.inv.data
  simpa [List.length_append, Nat.add_assoc] using this

theorem completes {cfg : Config} {init : List UInt8} {σ : Nat → State} (h2 : 2 ≤ cfg.size) (hrun : Run cfg σ)
    (hfair : TargetRuns cfg σ) (hhost : HostReads cfg σ) :
    ∀ n k i, Live cfg init (σ i) → Writing (σ i).target → (outstanding (σ i).target).length ≤ n →
      (unread cfg (σ i)).length ≤ k → ∃ j ≥ i, (σ j).target = .ready := by
  intro n
  induction n using Nat.strongRecOn with
  | _ n ihn =>
  intro k
  induction k using Nat.strongRecOn with
  | _ k ihk =>
  intro i hl hw hn hk
  by_cases hu : unread cfg (σ i) = []
  · obtain ⟨j, hj, hq⟩ := hrun.eventually hfair
      (P := fun s => Live cfg init s ∧ Writing s.target ∧
        (outstanding s.target).length = (outstanding (σ i).target).length ∧ unread cfg s = [])
      (Q := fun s => Live cfg init s ∧ (s.target = .ready ∨ (Writing s.target ∧
        (outstanding s.target).length < (outstanding (σ i).target).length)))
      (μ := fun s => soon s.write s.target)
      (by
        rintro s s' ⟨p1, p2, p3, p4⟩ hs
        have hl' := p1.step (.inl hs)
        rcases soon_step h2 p1.mode p1.inv p2 p4 hs with h | ⟨h, h'⟩ | ⟨h, h', h'', h'''⟩
        · exact .inl ⟨hl', .inl h⟩
        · exact .inl ⟨hl', .inr ⟨h, by omega⟩⟩
        · exact .inr ⟨⟨hl', h, by omega, h''⟩, h'''⟩)
      (by
        rintro s s' ⟨p1, p2, p3, p4⟩ hs
        have hl' := p1.step (.inr hs)
        right
        refine ⟨⟨hl', by rw [hostStep_target hs]; exact p2, by rw [hostStep_target hs]; exact p3, ?_⟩, ?_⟩
        · have e1 := lengths p1
          have e2 := lengths hl'
          rw [hostStep_target hs, hostStep_accepted hs] at e2
          obtain ⟨x, hx⟩ := hostStep_received hs
          rw [hx, List.length_append] at e2
          rw [p4] at e1
          rw [← List.length_eq_zero_iff]
          simp at e1
          omega
        · rw [hostStep_target hs]
          have : s'.write = s.write := by cases hs <;> rfl
          rw [this]; exact Nat.le_refl _)
      _ i ⟨hl, hw, rfl, hu⟩ (Nat.le_refl _)
    rcases hq with ⟨hl', hq | ⟨hq1, hq2⟩⟩
    · exact ⟨j, hj, hq⟩
    · obtain ⟨j', hj', hr⟩ := ihn _ (by omega) _ j hl' hq1 (Nat.le_refl _) (Nat.le_refl _)
      exact ⟨j', by omega, hr⟩
  · obtain ⟨j, hj, hne⟩ := hhost i hu
    have key : ∀ j, i ≤ j → (∃ j' ≥ i, (σ j').target = .ready) ∨ (Live cfg init (σ j) ∧ Writing (σ j).target ∧
        (σ j).accepted = (σ i).accepted ∧
        (outstanding (σ j).target).length ≤ (outstanding (σ i).target).length) := by
      intro j hj
      induction j, hj using leInduction with
      | base => exact .inr ⟨hl, hw, rfl, Nat.le_refl _⟩
      | succ j hj ih =>
        rcases ih with h | ⟨a1, a2, a3, a4⟩
        · exact .inl h
        · rcases hrun j with hs | hs
          · have hl' := a1.step hs
            rcases hs with hs | hs
            · rcases writing_step a2 hs with h | ⟨b1, b2, b3⟩
              · exact .inl ⟨j + 1, by omega, h⟩
              · exact .inr ⟨hl', b1, b2.trans a3, by omega⟩
            · right
              refine ⟨hl', ?_, (hostStep_accepted hs).trans a3, ?_⟩
              · rw [hostStep_target hs]; exact a2
              · rw [hostStep_target hs]; exact a4
          · rw [hs]; exact .inr ⟨a1, a2, a3, a4⟩
    rcases key j hj with h | ⟨a1, a2, a3, a4⟩
    · exact h
    · by_cases hlt : (outstanding (σ j).target).length < (outstanding (σ i).target).length
      · obtain ⟨j', hj', hr⟩ := ihn _ (Nat.lt_of_lt_of_le hlt hn) _ j a1 a2 (Nat.le_refl _) (Nat.le_refl _)
        exact ⟨j', by omega, hr⟩
      · obtain ⟨x, hx⟩ := hrun.received hj
        have hxne : x ≠ [] := by rintro rfl; simp at hx; exact hne hx
        have := List.length_pos_iff.2 hxne
        have e1 := lengths hl
        have e2 := lengths a1
        rw [hx, List.length_append, a3] at e2
        obtain ⟨j', hj', hr⟩ := ihk _ (show (unread cfg (σ j)).length < k by omega) j a1 a2 (by omega) (Nat.le_refl _)
        exact ⟨j', by omega, hr⟩

/-! ### Flush -/

def soonFlushed (write : Nat) : Target → Nat
  | .flushLoaded r => if r = write then 1 else 3
  | .flushing => 2
  | _ => 0

theorem flushing_step {cfg : Config} {s s' : State} (hf : Flushing s.target) (hs : TargetStep cfg s s') :
    s'.target = .ready ∨ (Flushing s'.target ∧ s'.accepted = s.accepted ∧ s'.received = s.received ∧
      s'.read = s.read ∧ s'.write = s.write ∧ s'.buffer = s.buffer ∧
      (s.read = s.write → soonFlushed s'.write s'.target < soonFlushed s.write s.target)) := by
  cases hs with
  | flushLoad h => right; rw [h]; exact ⟨trivial, rfl, rfl, rfl, rfl, rfl, fun h => by simp [soonFlushed, h]⟩
  | flushAgain h hd => right; rw [h]; exact ⟨trivial, rfl, rfl, rfl, rfl, rfl, fun _ => by simp [soonFlushed, hd]⟩
  | flushReturn h _ => exact .inl rfl
  | call bytes h => rw [h] at hf; exact hf.elim
  | return_ h => rw [h] at hf; exact hf.elim
  | loadRead h _ _ => rw [h] at hf; exact hf.elim
  | full h ha => rw [h] at hf; exact hf.elim
  | start h ha => rw [h] at hf; exact hf.elim
  | startNonblocking h hne hb' => rw [h] at hf; exact hf.elim
  | copy h => rw [h] at hf; exact hf.elim
  | store h => rw [h] at hf; exact hf.elim
  | flushNoHost h _ => rw [h] at hf; exact hf.elim
  | flush h _ => rw [h] at hf; exact hf.elim

theorem Flushing.outstanding {t : Target} (h : Flushing t) : outstanding t = [] := by
  cases t <;> first | rfl | exact h.elim

theorem read_eq_write {cfg : Config} {s : State} (hb : Bounded cfg s) (hu : unread cfg s = []) : s.read = s.write := by
  rw [unread_eq, ring_eq_nil] at hu
  have := distance_add hb.read hb.write
  rw [hu, Nat.add_zero, wrap_lt hb.read] at this
  exact this

theorem flushes {cfg : Config} {init : List UInt8} {σ : Nat → State} (hrun : Run cfg σ)
    (hfair : TargetRuns cfg σ) (hhost : HostReads cfg σ) :
    ∀ k i, Live cfg init (σ i) → Flushing (σ i).target → (unread cfg (σ i)).length ≤ k →
      ∃ j ≥ i, (σ j).target = .ready := by
  intro k
  induction k using Nat.strongRecOn with
  | _ k ihk =>
  intro i hl hw hk
  by_cases hu : unread cfg (σ i) = []
  · exact hrun.eventually hfair
      (P := fun s => Live cfg init s ∧ Flushing s.target ∧ unread cfg s = [])
      (Q := fun s => s.target = .ready)
      (μ := fun s => soonFlushed s.write s.target)
      (by
        rintro s s' ⟨p1, p2, p4⟩ hs
        have hl' := p1.step (.inl hs)
        rcases flushing_step p2 hs with h | ⟨h1, h2, h3, h4, h5, h6, h7⟩
        · exact .inl h
        · right
          refine ⟨⟨hl', h1, ?_⟩, h7 (read_eq_write p1.inv.bounded p4)⟩
          rw [unread_eq, h4, h5, h6]; exact p4)
      (by
        rintro s s' ⟨p1, p2, p4⟩ hs
        have hl' := p1.step (.inr hs)
        right
        refine ⟨⟨hl', by rw [hostStep_target hs]; exact p2, ?_⟩, ?_⟩
        · have e1 := lengths p1
          have e2 := lengths hl'
          rw [hostStep_target hs, hostStep_accepted hs] at e2
          obtain ⟨x, hx⟩ := hostStep_received hs
          rw [hx, List.length_append] at e2
          rw [p4] at e1
          rw [← List.length_eq_zero_iff]
          simp at e1
          omega
        · rw [hostStep_target hs]
          have : s'.write = s.write := by cases hs <;> rfl
          rw [this]; exact Nat.le_refl _)
      _ i ⟨hl, hw, hu⟩ (Nat.le_refl _)
  · obtain ⟨j, hj, hne⟩ := hhost i hu
    have key : ∀ j, i ≤ j → (∃ j' ≥ i, (σ j').target = .ready) ∨ (Live cfg init (σ j) ∧ Flushing (σ j).target ∧
        (σ j).accepted = (σ i).accepted) := by
      intro j hj
      induction j, hj using leInduction with
      | base => exact .inr ⟨hl, hw, rfl⟩
      | succ j hj ih =>
        rcases ih with h | ⟨a1, a2, a3⟩
        · exact .inl h
        · rcases hrun j with hs | hs
          · have hl' := a1.step hs
            rcases hs with hs | hs
            · rcases flushing_step a2 hs with h | ⟨b1, b2, _⟩
              · exact .inl ⟨j + 1, by omega, h⟩
              · exact .inr ⟨hl', b1, b2.trans a3⟩
            · right
              refine ⟨hl', ?_, (hostStep_accepted hs).trans a3⟩
              rw [hostStep_target hs]; exact a2
          · rw [hs]; exact .inr ⟨a1, a2, a3⟩
    rcases key j hj with h | ⟨a1, a2, a3⟩
    · exact h
    · obtain ⟨x, hx⟩ := hrun.received hj
      have hxne : x ≠ [] := by rintro rfl; simp at hx; exact hne hx
      have := List.length_pos_iff.2 hxne
      have e1 := lengths hl
      have e2 := lengths a1
      rw [hx, List.length_append, a3, a2.outstanding] at e2
      rw [hw.outstanding] at e1
      obtain ⟨j', hj', hr⟩ := ihk _ (show (unread cfg (σ j)).length < k by simp at e1 e2; omega) j a1 a2 (Nat.le_refl _)
      exact ⟨j', by omega, hr⟩

/-- every state has a target step -/
theorem never_stuck {cfg : Config} (s : State) : ∃ s', TargetStep cfg s s' := by
  cases ht : s.target with
  | ready => exact ⟨_, .call [] ht⟩
  | attempt rest =>
    by_cases hr : rest = []
    · subst hr; exact ⟨_, .return_ ht⟩
    · cases hb : blocking cfg s
      · exact ⟨_, .startNonblocking ht hr hb⟩
      · exact ⟨_, .loadRead ht hr hb⟩
  | loadedRead rest read =>
    by_cases ha : availableBufferSize cfg.size read s.write = 0
    · exact ⟨_, .full ht ha⟩
    · exact ⟨_, .start ht ha⟩
  | copying rest cursor len pending =>
    cases pending with
    | nil => exact ⟨_, .store ht⟩
    | cons p ps => exact ⟨_, .copy (before := []) (p := p.1) (b := p.2) ht⟩
  | flushing => exact ⟨_, .flushLoad ht⟩
  | flushLoaded read =>
    by_cases he : read = s.write
    · exact ⟨_, .flushReturn ht he⟩
    · exact ⟨_, .flushAgain ht he⟩

end Defmt.Rtt
