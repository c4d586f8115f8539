import Verif.Spec.Logger
import Verif.Lemmas.Rzcobs
/-! Helper lemmas for the loggers. -/

namespace Defmt.Logger
open Rzcobs

/-- the encoder state that belongs to `wireOf` -/
def encoderOf : Encoding → List (List UInt8) → Option (List UInt8) → Encoder
  | .raw, _, _ => .new
  | .rzcobs, [], none => .new
  | .rzcobs, _, none => { run := 0, zeros := 0, started := true }
  | .rzcobs, _, some data => (Encoder.write { run := 0, zeros := 0, started := true } data).1

theorem startFrame_spec (enc : Encoding) (frames : List (List UInt8)) :
    (startFrame enc (encoderOf enc frames none)).1 = encoderOf enc frames (some []) ∧
    wireOf enc frames none ++ (startFrame enc (encoderOf enc frames none)).2 = wireOf enc frames (some []) := by
  cases enc with
  | raw => simp [startFrame, encoderOf, wireOf]
  | rzcobs =>
    cases frames with
    | nil => exact ⟨rfl, rfl⟩
    | cons f fs => exact ⟨rfl, by simp [startFrame, encoderOf, wireOf, Encoder.startFrame, Encoder.write]⟩

theorem writeData_spec (enc : Encoding) (frames : List (List UInt8)) (p d : List UInt8) :
    (writeData enc (encoderOf enc frames (some p)) d).1 = encoderOf enc frames (some (p ++ d)) ∧
    wireOf enc frames (some p) ++ (writeData enc (encoderOf enc frames (some p)) d).2 = wireOf enc frames (some (p ++ d)) := by
  cases enc with
  | raw => simp [writeData, encoderOf, wireOf]
  | rzcobs => cases frames <;> simp [writeData, encoderOf, wireOf, Encoder.write_append]

theorem endFrame_spec (enc : Encoding) (frames : List (List UInt8)) (p : List UInt8) :
    (endFrame enc (encoderOf enc frames (some p))).1 = encoderOf enc (frames ++ [p]) none ∧
    wireOf enc frames (some p) ++ (endFrame enc (encoderOf enc frames (some p))).2 = wireOf enc (frames ++ [p]) none := by
  cases enc with
  | raw => simp [endFrame, encoderOf, wireOf]
  | rzcobs =>
    have hst := Encoder.write_started { run := 0, zeros := 0, started := true } p
    have h := (Inv.write p (Inv.start true))
    simp only [List.nil_append] at h
    obtain ⟨body, k, h1, -, -, -, -, h6⟩ := h.endFrame
    have e1 : ∀ fs : List (List UInt8), encoderOf .rzcobs (fs ++ [p]) none = { run := 0, zeros := 0, started := true } := by
      intro fs; cases fs <;> rfl
    have e2 : ∀ fs : List (List UInt8), wireOf .rzcobs (fs ++ [p]) none = [0] ++ ((fs ++ [p]).map frameBytes).flatten := by
      intro fs; cases fs <;> rfl
    have e3 : ∀ fs : List (List UInt8), encoderOf .rzcobs fs (some p) = (Encoder.write { run := 0, zeros := 0, started := true } p).1 := by
      intro fs; cases fs <;> rfl
    have e4 : ∀ fs : List (List UInt8), wireOf .rzcobs fs (some p) =
        [0] ++ (fs.map frameBytes).flatten ++ (Encoder.write { run := 0, zeros := 0, started := true } p).2 := by
      intro fs; cases fs <;> rfl
    rw [e1, e2, e3, e4]
    refine ⟨?_, ?_⟩
    · simp only [endFrame, h6, hst]
    · simp only [endFrame, List.map_append, List.flatten_append, List.map_cons, List.map_nil, List.flatten_cons,
        List.flatten_nil, List.append_nil, List.append_assoc]
      congr 2

/-- the restore states of nested critical sections -/
def Nested (l : List Bool) : Prop := l = [] ∨ ∃ n, l = List.replicate n true ++ [false]

/-- what is known about the context that owns the critical section -/
def OwnerOk (p : Pc) (sections : List Bool) (taken restore inside : Bool) : Prop :=
  match p with
  | .idle => taken = false ∧ inside = false ∧ sections ≠ []
  | .entered r => taken = inside ∧ (inside = false → (r = true ↔ sections ≠ []))
  | .checked r | .leaving r => taken = false ∧ inside = false ∧ (r = true ↔ sections ≠ [])
  | .stored r | .restoring r => taken = true ∧ inside = false ∧ (r = true ↔ sections ≠ [])
  | .saved | .ended => taken = true ∧ inside = false ∧ (restore = true ↔ sections ≠ [])
  | .framing | .releasing => taken = true ∧ inside = true ∧ (restore = true ↔ sections ≠ [])
  | .cleared => taken = false ∧ inside = false ∧ (restore = true ↔ sections ≠ [])
  | .panicked => taken = true ∧ inside = true

structure Inv (enc : Encoding) (s : State) : Prop where
  others : ∀ c, s.owner ≠ some c → s.pc c = .idle ∧ s.sections c = [] ∧ s.inside c = false
  free : s.owner = none → s.taken = false
  owner : ∀ c, s.owner = some c → OwnerOk (s.pc c) (s.sections c) s.taken s.restore (s.inside c)
  nested : ∀ c, Nested (s.sections c)
  between : (∀ c, s.inside c = false) → s.encoder = encoderOf enc (s.completed.map Prod.snd) none ∧
    s.wire = wireOf enc (s.completed.map Prod.snd) none
  frame : ∀ c, s.inside c = true → s.encoder = encoderOf enc (s.completed.map Prod.snd) (some (s.payload c)) ∧
    s.wire = wireOf enc (s.completed.map Prod.snd) (some (s.payload c))

theorem Inv.initial (enc : Encoding) : Inv enc initial := by
  refine ⟨fun c _ => ⟨rfl, rfl, rfl⟩, fun _ => rfl, ?_, fun c => .inl rfl, fun _ => ?_, ?_⟩
  · intro c h; cases h
  · cases enc <;> exact ⟨rfl, rfl⟩
  · intro c h; cases h

theorem update_same {α : Type} {f : Nat → α} {c : Nat} {x : α} : update f c x c = x := by simp [update]

theorem update_ne {α : Type} {f : Nat → α} {c i : Nat} {x : α} (h : i ≠ c) : update f c x i = f i := by simp [update, h]

/-- A busy context owns the critical section. -/
theorem Inv.owned {enc : Encoding} {s : State} (h : Inv enc s) {c : Nat} (hp : s.pc c ≠ .idle) : s.owner = some c := by
  by_cases ho : s.owner = some c
  · exact ho
  · exact absurd (h.others c ho).1 hp

theorem Inv.owned_section {enc : Encoding} {s : State} (h : Inv enc s) {c : Nat} (hp : s.sections c ≠ []) : s.owner = some c := by
  by_cases ho : s.owner = some c
  · exact ho
  · exact absurd (h.others c ho).2.1 hp

theorem Inv.no_other {enc : Encoding} {s : State} (h : Inv enc s) {c : Nat} (ho : s.owner = some c) {i : Nat} (hi : i ≠ c) :
    s.inside i = false := (h.others i (by rw [ho]; simpa using fun h => hi h.symm)).2.2

/-- steps that change only the position of the owner and nothing on the wire -/
theorem Inv.move {enc : Encoding} {s : State} (h : Inv enc s) {c : Nat} (ho : s.owner = some c) {p : Pc} {taken restore : Bool}
    (hok : OwnerOk p (s.sections c) taken restore (s.inside c)) :
    Inv enc { s with taken := taken, restore := restore, pc := update s.pc c p } := by
  refine ⟨?_, ?_, ?_, h.nested, h.between, h.frame⟩
  · intro i hi
    try dsimp only at hi ⊢
    have hne : i ≠ c := by rintro rfl; exact hi ho
    rw [update_ne hne]
    exact h.others i hi
  · intro hn; rw [ho] at hn; cases hn
  · intro i hi
    try dsimp only at hi ⊢
    have : i = c := by
      have : some i = some c := hi.symm.trans ho
      exact Option.some.inj this
    subst this
    rw [update_same]
    exact hok

theorem Inv.step {kind : Kind} {enc : Encoding} {c : Nat} {s s' : State} (h : Inv enc s) (hs : Step kind enc c s s') : Inv enc s' := by
  cases hs with
  | enterSection hp ho =>
    have hin : s.inside c = false ∧ s.taken = false := by
      rcases ho with ho | ho
      · exact ⟨(h.others c (by simp [ho])).2.2, h.free ho⟩
      · have := h.owner c ho; rw [hp] at this; exact ⟨this.2.1, this.1⟩
    refine ⟨?_, by simp, ?_, ?_, h.between, h.frame⟩
    · intro i hi
      try dsimp only at hi ⊢
      have hne : i ≠ c := by rintro rfl; exact hi rfl
      rw [update_ne hne]
      apply h.others i
      rcases ho with ho | ho <;> rw [ho]
      · simp
      · simpa using fun h => hne h.symm
    · intro i hi
      try dsimp only at hi ⊢
      cases hi
      rw [hp, update_same]
      exact ⟨hin.2, hin.1, by simp⟩
    · intro i
      try dsimp only
      by_cases hne : i = c
      · subst hne
        rw [update_same]
        rcases ho with ho | ho
        · rw [(h.others i (by simp [ho])).2.1, ho]
          exact .inr ⟨0, rfl⟩
        · have := h.owner i ho
          rw [hp] at this
          rcases h.nested i with hn | ⟨n, hn⟩
          · exact absurd hn this.2.2
          · rw [hn, ho]
            exact .inr ⟨n + 1, by simp [List.replicate_succ]⟩
      · rw [update_ne hne]; exact h.nested i
  | @leaveSection restore rest hp hsec =>
    have ho : s.owner = some c := h.owned_section (by rw [hsec]; simp)
    have hok := h.owner c ho
    rw [hp] at hok
    have hrest : (restore = true ∧ rest ≠ [] ∧ Nested rest) ∨ (restore = false ∧ rest = []) := by
      rcases h.nested c with hn | ⟨n, hn⟩
      · rw [hsec] at hn; cases hn
      · rw [hsec] at hn
        cases n with
        | zero => simp at hn; exact .inr hn
        | succ n =>
          rw [List.replicate_succ, List.cons_append] at hn
          injection hn with h1 h2
          exact .inl ⟨h1, by rw [h2]; simp, .inr ⟨n, h2⟩⟩
    have hnested : ∀ i, Nested (update s.sections c rest i) := by
      intro i
      try dsimp only
      by_cases hne : i = c
      · subst hne
        rw [update_same]
        rcases hrest with ⟨_, _, h1⟩ | ⟨_, h1⟩
        · exact h1
        · exact .inl h1
      · rw [update_ne hne]; exact h.nested i
    rcases hrest with ⟨hr, hne, hn⟩ | ⟨hr, he⟩
    · refine ⟨?_, ?_, ?_, hnested, h.between, h.frame⟩
      · intro i hi
        try dsimp only at hi ⊢
        simp only [hr, leave, if_true] at hi
        have hne : i ≠ c := by rintro rfl; exact hi ho
        rw [update_ne hne]
        exact h.others i hi
      · intro _; exact hok.1
      · intro i hi
        try dsimp only at hi ⊢
        simp only [hr, leave, if_true] at hi
        have : i = c := Option.some.inj (hi.symm.trans ho)
        subst this
        rw [hp, update_same]
        exact ⟨hok.1, hok.2.1, hne⟩
    · refine ⟨?_, ?_, ?_, hnested, h.between, h.frame⟩
      · intro i hi
        try dsimp only at hi ⊢
        by_cases hne : i = c
        · subst hne
          rw [update_same]
          exact ⟨hp, he, hok.2.1⟩
        · rw [update_ne hne]
          exact h.others i (by rw [ho]; simpa using fun h => hne h.symm)
      · intro _; exact hok.1
      · intro i hi
        try dsimp only at hi ⊢
        simp [hr, leave] at hi
  | acquire hp ho =>
    have key : OwnerOk (.entered (s.owner == some c)) (s.sections c) s.taken s.restore (s.inside c) := by
      rcases ho with ho | ho
      · obtain ⟨h1, h2, h3⟩ := h.others c (by simp [ho])
        rw [h2, h3, ho]
        exact ⟨h.free ho, fun _ => by simp⟩
      · have hok := h.owner c ho
        rcases hp with hp | hp | hp <;> rw [hp] at hok
        · exact ⟨by rw [hok.1, hok.2.1], fun _ => by simp [ho, hok.2.2]⟩
        · exact ⟨by rw [hok.1, hok.2.1], fun hi => by rw [hok.2.1] at hi; cases hi⟩
        · exact ⟨by rw [hok.1, hok.2], fun hi => by rw [hok.2] at hi; cases hi⟩
    refine ⟨?_, by simp, ?_, h.nested, h.between, h.frame⟩
    · intro i hi
      try dsimp only at hi ⊢
      have hne : i ≠ c := by rintro rfl; exact hi rfl
      rw [update_ne hne]
      apply h.others i
      rcases ho with ho | ho <;> rw [ho]
      · simp
      · simpa using fun h => hne h.symm
    · intro i hi
      try dsimp only at hi ⊢
      cases hi
      rw [update_same]
      exact key
  | reentered hp ht =>
    have ho := h.owned (c := c) (by rw [hp]; simp)
    have hok := h.owner c ho
    rw [hp] at hok
    exact h.move ho (p := .panicked) ⟨ht, hok.1 ▸ ht⟩
  | check hp ht =>
    have ho := h.owned (c := c) (by rw [hp]; simp)
    have hok := h.owner c ho
    rw [hp] at hok
    exact h.move ho (p := .checked _) ⟨ht, hok.1 ▸ ht, hok.2 (hok.1 ▸ ht)⟩
  | take hp =>
    have ho := h.owned (c := c) (by rw [hp]; simp)
    have hok := h.owner c ho
    rw [hp] at hok
    exact h.move ho (p := .stored _) ⟨rfl, hok.2⟩
  | save hp =>
    have ho := h.owned (c := c) (by rw [hp]; simp)
    have hok := h.owner c ho
    rw [hp] at hok
    exact h.move ho (p := .saved) hok
  | start hp =>
    have ho := h.owned (c := c) (by rw [hp]; simp)
    have hok := h.owner c ho
    rw [hp] at hok
    have hall : ∀ i, s.inside i = false := by
      intro i
      try dsimp only
      by_cases hne : i = c
      · subst hne; exact hok.2.1
      · exact h.no_other ho hne
    obtain ⟨he, hw⟩ := h.between hall
    obtain ⟨e1, e2⟩ := startFrame_spec enc (s.completed.map Prod.snd)
    refine ⟨?_, ?_, ?_, h.nested, ?_, ?_⟩
    · intro i hi
      try dsimp only at hi ⊢
      have hne : i ≠ c := by rintro rfl; exact hi ho
      rw [update_ne hne, update_ne hne]
      exact h.others i hi
    · intro hn; rw [ho] at hn; cases hn
    · intro i hi
      try dsimp only at hi ⊢
      have : i = c := Option.some.inj (hi.symm.trans ho)
      subst this
      rw [update_same, update_same]
      exact ⟨hok.1, rfl, hok.2.2⟩
    · intro hi
      have := hi c
      try dsimp only at this
      rw [update_same] at this
      cases this
    · intro i hi
      try dsimp only at hi ⊢
      by_cases hne : i = c
      · subst hne
        rw [update_same]
        show (startFrame enc s.encoder).1 = _ ∧ s.wire ++ (startFrame enc s.encoder).2 = _
        rw [he, hw]; exact ⟨e1, e2⟩
      · rw [update_ne hne, hall i] at hi
        cases hi
  | write data hp ht =>
    have ho := h.owned (c := c) (by rw [hp]; simp)
    have hok := h.owner c ho
    rw [hp] at hok
    obtain ⟨he, hw⟩ := h.frame c hok.2.1
    obtain ⟨e1, e2⟩ := writeData_spec enc (s.completed.map Prod.snd) (s.payload c) data
    refine ⟨h.others, h.free, h.owner, h.nested, ?_, ?_⟩
    · intro hi
      have := hi c
      try dsimp only at this
      rw [hok.2.1] at this
      cases this
    · intro i hi
      try dsimp only at hi ⊢
      by_cases hne : i = c
      · subst hne
        rw [update_same]
        show (writeData enc s.encoder data).1 = _ ∧ s.wire ++ (writeData enc s.encoder data).2 = _
        rw [he, hw]; exact ⟨e1, e2⟩
      · have : s.inside i = true := hi
        rw [h.no_other ho hne] at this
        cases this
  | writeOutside hp ht =>
    have ho := h.owned (c := c) (by rw [hp]; simp)
    have hok := h.owner c ho
    rw [hp] at hok
    have := ht.2; rw [hok.1] at this; cases this
  | release hp ht =>
    have ho := h.owned (c := c) (by rw [hp]; simp)
    have hok := h.owner c ho
    rw [hp] at hok
    exact h.move ho (p := .releasing) hok
  | releaseOutside hp ht =>
    have ho := h.owned (c := c) (by rw [hp]; simp)
    have hok := h.owner c ho
    rw [hp] at hok
    have := ht.2; rw [hok.1] at this; cases this
  | finish hp =>
    have ho := h.owned (c := c) (by rw [hp]; simp)
    have hok := h.owner c ho
    rw [hp] at hok
    obtain ⟨he, hw⟩ := h.frame c hok.2.1
    obtain ⟨e1, e2⟩ := endFrame_spec enc (s.completed.map Prod.snd) (s.payload c)
    refine ⟨?_, ?_, ?_, h.nested, ?_, ?_⟩
    · intro i hi
      try dsimp only at hi ⊢
      have hne : i ≠ c := by rintro rfl; exact hi ho
      rw [update_ne hne, update_ne hne]
      exact h.others i hi
    · intro hn; rw [ho] at hn; cases hn
    · intro i hi
      try dsimp only at hi ⊢
      have : i = c := Option.some.inj (hi.symm.trans ho)
      subst this
      rw [update_same, update_same]
      exact ⟨hok.1, rfl, hok.2.2⟩
    · intro _
      dsimp only
      show (endFrame enc s.encoder).1 = _ ∧ s.wire ++ (endFrame enc s.encoder).2 = _
      rw [he, hw, List.map_append]; exact ⟨e1, e2⟩
    · intro i hi
      try dsimp only at hi ⊢
      by_cases hne : i = c
      · subst hne; rw [update_same] at hi; cases hi
      · rw [update_ne hne, h.no_other ho hne] at hi
        cases hi
  | load hk hp =>
    have ho := h.owned (c := c) (by rw [hp]; simp)
    have hok := h.owner c ho
    rw [hp] at hok
    exact h.move ho (p := .restoring _) hok
  | clear hk hp =>
    have ho := h.owned (c := c) (by rw [hp]; simp)
    have hok := h.owner c ho
    rw [hp] at hok
    exact h.move ho (p := .leaving _) ⟨rfl, hok.2⟩
  | clearItm hk hp =>
    have ho := h.owned (c := c) (by rw [hp]; simp)
    have hok := h.owner c ho
    rw [hp] at hok
    exact h.move ho (p := .cleared) ⟨rfl, hok.2⟩
  | loadItm hk hp =>
    have ho := h.owned (c := c) (by rw [hp]; simp)
    have hok := h.owner c ho
    rw [hp] at hok
    exact h.move ho (p := .leaving _) hok
  | @leave restore hp =>
    have ho := h.owned (c := c) (by rw [hp]; simp)
    have hok := h.owner c ho
    rw [hp] at hok
    cases restore with
    | true =>
      have hne : s.sections c ≠ [] := hok.2.2.1 rfl
      have := h.move ho (p := .idle) (taken := s.taken) (restore := s.restore) ⟨hok.1, hok.2.1, hne⟩
      exact this
    | false =>
      have he : s.sections c = [] := Classical.byContradiction fun hne => by simpa using hok.2.2.2 hne
      refine ⟨?_, fun _ => hok.1, ?_, h.nested, h.between, h.frame⟩
      · intro i hi
        try dsimp only at hi ⊢
        by_cases hne : i = c
        · subst hne
          rw [update_same]
          exact ⟨rfl, he, hok.2.1⟩
        · rw [update_ne hne]
          exact h.others i (by rw [ho]; simpa using fun h => hne h.symm)
      · intro i hi
        try dsimp only at hi ⊢
        simp [Logger.leave] at hi

theorem Inv.reachable {kind : Kind} {enc : Encoding} {s : State} (h : Reachable kind enc s) : Inv enc s := by
  induction h with
  | initial => exact Inv.initial enc
  | step c _ hs ih => exact ih.step hs

end Defmt.Logger
