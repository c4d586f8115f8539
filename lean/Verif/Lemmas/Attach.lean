import Verif.Spec.Attach
import Verif.Lemmas.RttLive
/-! Lemmas about hosts that attach to a running program. -/

namespace Defmt.Attach
open Rtt (blocking unread outstanding distance Bounded Blocking Between)

theorem Bounded.withFlags {cfg : Rtt.Config} {s : Rtt.State} (h : Bounded cfg s) (f : Nat) : Bounded cfg { s with flags := f } :=
  ⟨h.read, h.write, h.host, h.loaded, h.flushed, h.copying⟩

theorem Blocking.withFlags {cfg : Rtt.Config} {init : List UInt8} {s : Rtt.State} (h : Blocking cfg init s) (f : Nat) :
    Blocking cfg init { s with flags := f } :=
  ⟨Bounded.withFlags h.bounded f, h.data, h.host, h.loaded, h.flushed, h.room⟩

/-- what is true in every mode -/
structure Any (cfg : Rtt.Config) (s : State) : Prop where
  bounded : Bounded cfg s.channel
  /-- only a blocking write loads the read cursor -/
  loaded : ∀ rest r, s.channel.target = .loadedRead rest r → blocking cfg s.channel = true
  flushing : Rtt.Flushing s.channel.target → Rtt.hostIsConnected s.channel.flags = true
  /-- a write that does not block copies as much as it can -/
  copying : ∀ rest cursor len pending, s.channel.target = .copying rest cursor len pending → blocking cfg s.channel = false →
    len = min rest.length cfg.size

theorem Any.targetStep {cfg : Rtt.Config} {f : Nat} {r r' : Rtt.State} (h : Any cfg ⟨f, r⟩) (hs : Rtt.TargetStep cfg r r') : Any cfg ⟨f, r'⟩ := by
  have hb := h.bounded.targetStep hs
  have hf : r'.flags = r.flags := Rtt.Step.flags (.inl hs)
  have hbl : blocking cfg r' = blocking cfg r := by unfold blocking; rw [hf]
  refine ⟨hb, ?_, ?_, ?_⟩
  · intro rest x ht
    change blocking cfg r' = true
    rw [hbl]
    cases hs <;> first | (exact h.loaded _ _ ht) | cases ht | skip
    assumption
  · intro hfl
    change Rtt.hostIsConnected r'.flags = true
    rw [hf]
    cases hs <;> first | exact hfl.elim | assumption | skip
    all_goals first
      | exact h.flushing hfl
      | (apply h.flushing; dsimp only; rename_i ht; rw [ht]; trivial)
      | (apply h.flushing; dsimp only; rename_i ht _; rw [ht]; trivial)
  · intro rest cursor len pending ht hn
    change blocking cfg r' = false at hn
    rw [hbl] at hn
    cases hs with
    | @start rest' read ht' ha =>
      have := h.loaded _ _ ht'
      change blocking cfg r = true at this
      rw [this] at hn; cases hn
    | startNonblocking _ _ _ => cases ht; rfl
    | copy ht' => cases ht; exact h.copying _ _ _ _ ht' hn
    | flushNoHost _ _ => exact h.copying _ _ _ _ ht hn
    | _ => cases ht

theorem Any.withFlags {cfg : Rtt.Config} {s : State} (h : Any cfg s) (f g : Nat) (hr : s.channel.target = .ready) :
    Any cfg ⟨f, { s.channel with flags := g }⟩ :=
  ⟨Bounded.withFlags h.bounded g, by simp [hr], by simp [hr, Rtt.Flushing], by simp [hr]⟩

theorem Any.step {cfg : Rtt.Config} {s s' : State} (h : Any cfg s) (hs : Step cfg s s') : Any cfg s' := by
  cases hs with
  | enter hr ht => exact (h.withFlags s.flags s.flags hr).targetStep ht
  | inside hr ht => exact h.targetStep ht
  | host ht =>
    have hb := h.bounded.hostStep ht
    refine ⟨hb, ?_, ?_, ?_⟩
    · cases ht <;> exact h.loaded
    · cases ht <;> exact h.flushing
    · cases ht <;> exact h.copying

theorem Any.steady {cfg : Rtt.Config} {s0 s : State} (h0 : Any cfg s0) (hr : Steady cfg s0 s) : Any cfg s := by
  induction hr with
  | refl => exact h0
  | step _ hs ih => exact ih.step hs

theorem Any.reachable {cfg : Rtt.Config} {s0 s : State} (h0 : Any cfg s0) (hr : Reachable cfg s0 s) : Any cfg s := by
  induction hr with
  | refl => exact h0
  | step _ hs ih => exact ih.step hs
  | setFlags f _ ih => exact ⟨ih.bounded, ih.loaded, ih.flushing, ih.copying⟩

theorem Any.between {cfg : Rtt.Config} {s : State} (h : Between cfg s.channel) : Any cfg s :=
  ⟨h.bounded, by simp [h.target], by simp [h.target, Rtt.Flushing], by simp [h.target]⟩

/-- The running call cannot harm what is unread: it blocks, or it has room. -/
structure Safe (cfg : Rtt.Config) (init : List UInt8) (s : State) : Prop where
  inv : Blocking cfg init s.channel
  any : Any cfg s
  flags : blocks cfg s.flags = true
  mode : s.channel.target = .ready ∨ blocking cfg s.channel = true ∨
    distance cfg.size s.channel.read s.channel.write + (outstanding s.channel.target).length < cfg.size

theorem blocking_of_flags {cfg : Rtt.Config} {f : Nat} {r : Rtt.State} (h : blocks cfg f = true) (hf : r.flags = f) : blocking cfg r = true := by
  unfold blocking; rw [hf]; exact h

theorem Safe.step {cfg : Rtt.Config} {init : List UInt8} {s s' : State} (h : Safe cfg init s) (hs : Step cfg s s') : Safe cfg init s' := by
  have hany := h.any.step hs
  cases hs with
  | @enter r hr ht =>
    have hf : r.flags = s.flags := Rtt.Step.flags (.inl ht)
    exact ⟨(Blocking.withFlags h.inv s.flags).targetStep (blocking_of_flags h.flags rfl) ht, hany, h.flags,
      .inr (.inl (blocking_of_flags h.flags hf))⟩
  | @inside r hr ht =>
    have hf : r.flags = s.channel.flags := Rtt.Step.flags (.inl ht)
    cases hb : blocking cfg s.channel with
    | true =>
      refine ⟨h.inv.targetStep hb ht, hany, h.flags, .inr (.inl ?_)⟩
      change blocking cfg r = true
      unfold blocking at hb ⊢
      rw [hf]; exact hb
    | false =>
      have hroom := (h.mode.resolve_left hr).resolve_left (by rw [hb]; exact Bool.false_ne_true)
      -- the same step in the other mode
      have key : ∀ x : Rtt.State, Rtt.TargetStep cfg { s.channel with flags := s.flags } x →
          Blocking cfg init { x with flags := s.channel.flags } := fun x hst =>
        Blocking.withFlags ((Blocking.withFlags h.inv s.flags).targetStep (blocking_of_flags h.flags rfl) hst) s.channel.flags
      cases ht with
      | call bytes h' => exact absurd h' hr
      | flushNoHost h' _ => exact absurd h' hr
      | flush h' _ => exact absurd h' hr
      | return_ h' => exact ⟨key _ (.return_ h'), hany, h.flags, .inl rfl⟩
      | loadRead h' hne hb' => rw [hb] at hb'; cases hb'
      | full h' _ => have := h.any.loaded _ _ h'; rw [hb] at this; cases this
      | start h' _ => have := h.any.loaded _ _ h'; rw [hb] at this; cases this
      | @startNonblocking rest h' hne hb' =>
        refine ⟨⟨hany.bounded, ?_, h.inv.host, ?_, ?_, ?_⟩, hany, h.flags, .inr (.inr ?_)⟩
        · have := h.inv.data
          rw [h'] at this
          exact this
        · intro rest r' ht; cases ht
        · intro r' ht; cases ht
        · intro rest' cursor len pending ht
          cases ht
          rw [h'] at hroom
          simp only [outstanding] at hroom
          change distance cfg.size s.channel.read s.channel.write + min rest.length cfg.size < cfg.size
          omega
        · rw [h'] at hroom
          exact hroom
      | @copy rest cursor len before after p b h' =>
        refine ⟨key _ (.copy (s := { s.channel with flags := s.flags }) h'), hany, h.flags, .inr (.inr ?_)⟩
        rw [h'] at hroom
        exact hroom
      | @store rest cursor len h' =>
        refine ⟨key _ (.store (s := { s.channel with flags := s.flags }) h'), hany, h.flags, .inr (.inr ?_)⟩
        have hlen := h.any.copying _ _ _ _ h' hb
        have hd1 := h.inv.data
        have hd2 := (key _ (.store (s := { s.channel with flags := s.flags }) h')).data
        have e1 := congrArg List.length hd1
        have e2 := congrArg List.length hd2
        rw [h'] at e1 hroom
        simp only [List.length_append, Rtt.unread_eq, Rtt.length_ring, outstanding] at e1 e2 hroom ⊢
        omega
      | flushLoad h' =>
        refine ⟨key _ (.flushLoad (s := { s.channel with flags := s.flags }) h'), hany, h.flags, .inr (.inr ?_)⟩
        rw [h'] at hroom
        exact hroom
      | flushAgain h' hd =>
        refine ⟨key _ (.flushAgain (s := { s.channel with flags := s.flags }) h' hd), hany, h.flags, .inr (.inr ?_)⟩
        rw [h'] at hroom
        exact hroom
      | flushReturn h' he =>
        exact ⟨key _ (.flushReturn (s := { s.channel with flags := s.flags }) h' he), hany, h.flags, .inl rfl⟩
  | @host r ht =>
    have hinv := h.inv.hostStep ht
    refine ⟨hinv, hany, h.flags, ?_⟩
    rcases h.mode with hm | hm | hm
    · left; cases ht <;> exact hm
    · right; left; cases ht <;> exact hm
    · right; right
      have e1 := congrArg List.length h.inv.data
      have e2 := congrArg List.length hinv.data
      cases ht with
      | load _ => exact hm
      | byte _ _ => exact hm
      | store h' =>
        simp only [List.length_append, Rtt.unread_eq, Rtt.length_ring] at e1 e2 hm ⊢
        omega

theorem Safe.steady {cfg : Rtt.Config} {init : List UInt8} {s0 s : State} (h0 : Safe cfg init s0) (hr : Steady cfg s0 s) : Safe cfg init s := by
  induction hr with
  | refl => exact h0
  | step _ hs ih => exact ih.step hs

theorem safe_attach {cfg : Rtt.Config} {s : State} {flags : Nat} (h : Any cfg s) (hj : Joinable cfg s.channel)
    (hb : blocks cfg flags = true) : Safe cfg (unread cfg s.channel) (attach flags s) := by
  obtain ⟨hidle, hroom⟩ := hj
  have hbd : Bounded cfg (attach flags s).channel :=
    ⟨h.bounded.read, h.bounded.write, h.bounded.host, h.bounded.loaded, h.bounded.flushed, h.bounded.copying⟩
  refine ⟨⟨hbd, ?_, ?_, ?_, ?_, ?_⟩, ⟨hbd, h.loaded, h.flushing, h.copying⟩, hb, ?_⟩
  · simp [attach, unread]
  · intro w pos got ht
    change s.channel.host = _ at ht
    rw [hidle] at ht; cases ht
  · intro rest r ht
    change s.channel.target = _ at ht
    rcases hroom with hr | ⟨hr, _⟩
    · rw [ht] at hr; cases hr
    · rw [h.loaded _ _ ht] at hr; cases hr
  · intro r ht
    change s.channel.target = _ at ht
    rcases hroom with hr | ⟨_, hr, _⟩
    · rw [ht] at hr; cases hr
    · rw [ht] at hr; exact hr.elim
  · intro rest cursor len pending ht
    change s.channel.target = _ at ht
    rcases hroom with hr | ⟨hn, _, hr⟩
    · rw [ht] at hr; cases hr
    · have := h.copying _ _ _ _ ht hn
      rw [ht] at hr
      simp only [outstanding] at hr
      change distance cfg.size s.channel.read s.channel.write + len < cfg.size
      omega
  · rcases hroom with hr | ⟨_, _, hr⟩
    · exact .inl hr
    · exact .inr (.inr hr)

/-- while the flags do not change the loaded ones are those in memory -/
theorem Steady.same {cfg : Rtt.Config} {s0 s : State} (hr : Steady cfg s0 s) (hf : s0.channel.flags = s0.flags) :
    Rtt.Reachable cfg s0.channel s.channel ∧ s.channel.flags = s.flags := by
  induction hr with
  | refl => exact ⟨.refl, hf⟩
  | @step s1 s2 _ hs ih =>
    obtain ⟨h1, h2⟩ := ih
    cases hs with
    | @enter r hr ht =>
      have he : ({ s1.channel with flags := s1.flags } : Rtt.State) = s1.channel := by rw [← h2]
      rw [he] at ht
      exact ⟨.step h1 (.inl ht), (Rtt.Step.flags (.inl ht)).trans h2⟩
    | inside hr ht => exact ⟨.step h1 (.inl ht), (Rtt.Step.flags (.inl ht)).trans h2⟩
    | host ht => exact ⟨.step h1 (.inr ht), (Rtt.Step.flags (.inr ht)).trans h2⟩

/-- the last step of `flush` -/
theorem Safe.flushed {cfg : Rtt.Config} {init : List UInt8} {s s' : State} (h : Safe cfg init s) (hf : Rtt.Flushing s.channel.target)
    (hs : Step cfg s s') (hd : s'.channel.target = .ready) : s'.channel.received = init ++ s'.channel.accepted := by
  have hdata := h.inv.data
  cases hs with
  | enter hr _ => rw [hr] at hf; exact hf.elim
  | host ht => rw [Rtt.hostStep_target ht] at hd; rw [hd] at hf; exact hf.elim
  | @inside r hne hs =>
    cases hs with
    | @flushReturn read ht he =>
      have h1 := h.inv.flushed _ ht
      have h2 : distance cfg.size read s.channel.write = 0 := by rw [he]; unfold distance; split <;> omega
      have h3 : unread cfg s.channel = [] := by rw [Rtt.unread_eq, Rtt.ring_eq_nil]; omega
      rw [ht, h3] at hdata
      simpa [outstanding] using hdata
    | flushLoad ht => cases hd
    | flushAgain ht _ => cases hd
    | call bytes h => cases hd
    | return_ h => rw [h] at hf; exact hf.elim
    | loadRead h _ _ => cases hd
    | full h ha => cases hd
    | start h ha => cases hd
    | startNonblocking h hne hb' => cases hd
    | copy h => cases hd
    | store h => cases hd
    | flushNoHost h _ => rw [h] at hf; exact hf.elim
    | flush h _ => cases hd

end Defmt.Attach
