import Verif.Spec.Weak
import Verif.Lemmas.Rtt
/-! Lemmas about the RTT channel with store buffers. -/

namespace Defmt.Weak
open Rtt (Config distance ring_inj ring_add distance_lt distance_add distance_eq wrap_lt available_le unread_eq)

/-! ### The settled buffer -/

theorem settle_append {l l' : List Store} : ∀ {memory : Nat → UInt8},
    settle memory (l ++ l') = settle (settle memory l) l' := by
  induction l with
  | nil => intro _; rfl
  | cons x l ih => intro _; cases x <;> exact ih

theorem settle_other {l : List Store} {p : Nat} : ∀ {memory : Nat → UInt8}, (∀ b, .byte p b ∉ l) →
    settle memory l p = memory p := by
  induction l with
  | nil => intro _ _; rfl
  | cons x l ih =>
    intro memory h
    have h' : ∀ b, .byte p b ∉ l := fun b hb => h b (List.mem_cons_of_mem _ hb)
    cases x with
    | byte q c =>
      simp only [settle]
      rw [ih h']
      have : ¬ p = q := by rintro rfl; exact h c (List.mem_cons_self ..)
      simp [this]
    | cursor c => exact ih h'

theorem settle_byte {l : List Store} {p : Nat} {b : UInt8} : ∀ {memory : Nat → UInt8}, (∀ c, .byte p c ∉ l) →
    settle (fun i => if i = p then b else memory i) l = fun i => if i = p then b else settle memory l i := by
  induction l with
  | nil => intro _ _; rfl
  | cons x l ih =>
    intro memory h
    have h' : ∀ b, .byte p b ∉ l := fun b hb => h b (List.mem_cons_of_mem _ hb)
    cases x with
    | byte q c =>
      have hne : p ≠ q := by rintro rfl; exact h c (List.mem_cons_self ..)
      simp only [settle]
      rw [← ih h']
      congr 1
      funext i
      by_cases h1 : i = q <;> by_cases h2 : i = p
      · exact absurd (h2.symm.trans h1) hne
      · rw [if_pos h1, if_neg h2, if_pos h1]
      · rw [if_neg h1, if_pos h2, if_pos h2]
      · rw [if_neg h1, if_neg h2, if_neg h2, if_neg h1]
    | cursor c => exact ih h'

theorem settle_drain {before after : List Store} {p : Nat} {b : UInt8} {memory : Nat → UInt8} (h : ∀ c, .byte p c ∉ before) :
    settle (fun i => if i = p then b else memory i) (before ++ after) = settle memory (before ++ .byte p b :: after) := by
  rw [settle_append, settle_append, settle_byte h]
  rfl

/-! ### The store buffer of the target -/

/-- The stores that wait, in terms of distances to the read cursor: the host sees a write cursor `k` behind the read
cursor, the last one is `top` behind it, and bytes are stored behind all cursors stored before. -/
def Pending (n read top : Nat) : Nat → List Store → Prop
  | k, [] => k = top
  | k, .byte p _ :: rest => (∃ j, k ≤ j ∧ j < n ∧ p = (read + j) % n) ∧ Pending n read top k rest
  | k, .cursor c :: rest => ∃ k', k ≤ k' ∧ c = (read + k') % n ∧ Pending n read top k' rest

theorem Pending.le {n read top : Nat} {l : List Store} : ∀ {k : Nat}, Pending n read top k l → k ≤ top := by
  induction l with
  | nil => intro k h; exact Nat.le_of_eq h
  | cons x l ih =>
    intro k h
    cases x with
    | byte p b => exact ih h.2
    | cursor c =>
      obtain ⟨k', h1, _, h3⟩ := h
      exact Nat.le_trans h1 (ih h3)

theorem Pending.addByte {n read top p : Nat} {b : UInt8} {l : List Store} (hp : ∃ j, top ≤ j ∧ j < n ∧ p = (read + j) % n) :
    ∀ {k : Nat}, Pending n read top k l → Pending n read top k (l ++ [.byte p b]) := by
  induction l with
  | nil => intro k h; cases h; exact ⟨hp, rfl⟩
  | cons x l ih =>
    intro k h
    cases x with
    | byte q c => exact ⟨h.1, ih h.2⟩
    | cursor c =>
      obtain ⟨k', h1, h2, h3⟩ := h
      exact ⟨k', h1, h2, ih h3⟩

theorem Pending.addCursor {n read top top' c : Nat} {l : List Store} (hle : top ≤ top') (hc : c = (read + top') % n) :
    ∀ {k : Nat}, Pending n read top k l → Pending n read top' k (l ++ [.cursor c]) := by
  induction l with
  | nil => intro k h; cases h; exact ⟨top', hle, hc, rfl⟩
  | cons x l ih =>
    intro k h
    cases x with
    | byte q c => exact ⟨h.1, ih h.2⟩
    | cursor c =>
      obtain ⟨k', h1, h2, h3⟩ := h
      exact ⟨k', h1, h2, ih h3⟩

theorem Pending.removeByte {n read top p : Nat} {b : UInt8} {before after : List Store} :
    ∀ {k : Nat}, Pending n read top k (before ++ .byte p b :: after) → Pending n read top k (before ++ after) := by
  induction before with
  | nil => intro k h; exact h.2
  | cons x l ih =>
    intro k h
    cases x with
    | byte q c => exact ⟨h.1, ih h.2⟩
    | cursor c =>
      obtain ⟨k', h1, h2, h3⟩ := h
      exact ⟨k', h1, h2, ih h3⟩

theorem Pending.mem {n read top p : Nat} {b : UInt8} {l : List Store} (hm : .byte p b ∈ l) :
    ∀ {k : Nat}, Pending n read top k l → ∃ j, k ≤ j ∧ j < n ∧ p = (read + j) % n := by
  induction l with
  | nil => cases hm
  | cons x l ih =>
    intro k h
    cases x with
    | byte q c =>
      rcases List.mem_cons.1 hm with hm | hm
      · cases hm; exact h.1
      · exact ih hm h.2
    | cursor c =>
      obtain ⟨k', h1, _, h3⟩ := h
      rcases List.mem_cons.1 hm with hm | hm
      · cases hm
      · obtain ⟨j, h4, h5, h6⟩ := ih hm h3
        exact ⟨j, by omega, h5, h6⟩

theorem Pending.advance {n read top m : Nat} {l : List Store} :
    ∀ {k : Nat}, m ≤ k → Pending n read top k l → Pending n ((read + m) % n) (top - m) (k - m) l := by
  induction l with
  | nil => intro k _ h; cases h; rfl
  | cons x l ih =>
    intro k hm h
    cases x with
    | byte p b =>
      obtain ⟨⟨j, h1, h2, h3⟩, h4⟩ := h
      refine ⟨⟨j - m, by omega, by omega, ?_⟩, ih hm h4⟩
      rw [ring_add, show m + (j - m) = j by omega, h3]
    | cursor c =>
      obtain ⟨k', h1, h2, h3⟩ := h
      refine ⟨k' - m, by omega, ?_, ih (by omega) h3⟩
      rw [ring_add, show m + (k' - m) = k' by omega, h2]

/-! ### Cursors stay inside of the buffer, in both modes -/

structure Inside (cfg : Config) (s : State) : Prop where
  bounded : Rtt.Bounded cfg (settled s)
  reads : ∀ v ∈ s.readSeen :: s.acks, v < cfg.size
  bytes : ∀ p b, .byte p b ∈ s.stores → p < cfg.size

theorem settled_copy {s : State} {p : Nat} {b : UInt8} {t : Rtt.Target} :
    settled { s with stores := s.stores ++ [.byte p b], target := t }
      = { settled s with buffer := fun i => if i = p then b else (settled s).buffer i, target := t } := by
  simp [settled, settle_append, settle]

theorem settled_store {s : State} {w : Nat} {t : Rtt.Target} :
    settled { s with stores := s.stores ++ [.cursor w], write := w, target := t }
      = { settled s with write := w, target := t } := by
  simp [settled, settle_append, settle]

theorem Inside.targetStep {cfg : Config} {s s' : State} (h : Inside cfg s) (hs : TargetStep cfg s s') : Inside cfg s' := by
  have hb := h.bounded
  cases hs with
  | call bytes ht => exact ⟨hb.targetStep (.call bytes ht), h.reads, h.bytes⟩
  | return_ ht => exact ⟨hb.targetStep (.return_ ht), h.reads, h.bytes⟩
  | loadRead ht hne hbl =>
    refine ⟨⟨hb.read, hb.write, hb.host, ?_, by simp [settled], by simp [settled]⟩, h.reads, h.bytes⟩
    rintro rest r he
    cases he
    exact ⟨h.reads _ (List.mem_cons_self ..), hne⟩
  | full ht ha => exact ⟨hb.targetStep (.full ht ha), h.reads, h.bytes⟩
  | start ht ha => exact ⟨hb.targetStep (.start (s := settled s) ht ha), h.reads, h.bytes⟩
  | startNonblocking ht hne hbl => exact ⟨hb.targetStep (.startNonblocking (s := settled s) ht hne hbl), h.reads, h.bytes⟩
  | @copy rest cursor len before after p b ht =>
    refine ⟨?_, h.reads, ?_⟩
    · rw [settled_copy]
      exact hb.targetStep (.copy (s := settled s) ht)
    · intro q c hm
      rcases List.mem_append.1 hm with hm | hm
      · exact h.bytes _ _ hm
      · simp only [List.mem_singleton] at hm
        cases hm
        obtain ⟨j, _, hp, _⟩ := (hb.copying _ _ _ _ ht).sound _ _ (List.mem_append_right _ (List.mem_cons_self ..))
        have := hb.write
        rw [hp]
        exact Nat.mod_lt _ (by omega)
  | store ht =>
    refine ⟨?_, h.reads, ?_⟩
    · rw [settled_store]
      exact hb.targetStep (.store (s := settled s) ht)
    · intro q c hm
      rcases List.mem_append.1 hm with hm | hm
      · exact h.bytes _ _ hm
      · simp at hm
  | flushNoHost ht hc => exact h
  | flush ht hc => exact ⟨hb.targetStep (.flush ht hc), h.reads, h.bytes⟩
  | flushLoad ht =>
    refine ⟨⟨hb.read, hb.write, hb.host, by simp [settled], ?_, by simp [settled]⟩, h.reads, h.bytes⟩
    rintro r he
    cases he
    exact h.reads _ (List.mem_cons_self ..)
  | flushAgain ht hd => exact ⟨hb.targetStep (.flushAgain ht hd), h.reads, h.bytes⟩
  | flushReturn ht he => exact ⟨hb.targetStep (.flushReturn ht he), h.reads, h.bytes⟩

theorem Inside.hostStep {cfg : Config} {s s' : State} (h : Inside cfg s) (hs : HostStep cfg s s') : Inside cfg s' := by
  have hb := h.bounded
  have hw := hb.write
  cases hs with
  | load hh =>
    refine ⟨⟨hb.read, hb.write, ?_, hb.loaded, hb.flushed, hb.copying⟩, h.reads, h.bytes⟩
    rintro w pos got he
    cases he
    exact hb.read
  | byte hh hp =>
    refine ⟨⟨hb.read, hb.write, ?_, hb.loaded, hb.flushed, hb.copying⟩, h.reads, h.bytes⟩
    rintro w pos got he
    cases he
    exact Nat.mod_lt _ (by omega)
  | store hh =>
    refine ⟨hb.hostStep (.store hh), ?_, h.bytes⟩
    intro v hv
    rcases List.mem_cons.1 hv with hv | hv
    · exact hv ▸ h.reads _ (List.mem_cons_self ..)
    · rcases List.mem_append.1 hv with hv | hv
      · exact h.reads _ (List.mem_cons_of_mem _ hv)
      · rw [List.mem_singleton.1 hv]
        exact hb.host _ _ _ hh

theorem settled_memory {order : Order} {s s' : State} (hs : MemoryStep order s s') : settled s' = settled s := by
  cases hs with
  | byte h ho => simp only [settled, h]; rw [settle_drain ho]
  | release hr h => simp [settled, h, settle]
  | relaxed hr h ho => simp only [settled, h]; rw [settle_append, settle_append]; rfl
  | ack h => rfl

theorem Inside.memoryStep {order : Order} {cfg : Config} {s s' : State} (h : Inside cfg s) (hs : MemoryStep order s s') :
    Inside cfg s' := by
  have hb : Rtt.Bounded cfg (settled s') := by rw [settled_memory hs]; exact h.bounded
  refine ⟨hb, ?_, ?_⟩
  · cases hs with
    | ack ha => intro v hv; exact h.reads v (List.mem_cons_of_mem _ (by rw [ha]; exact hv))
    | _ => exact h.reads
  · intro p b hm
    cases hs with
    | byte ha ho =>
      refine h.bytes p b ?_
      rw [ha]
      rcases List.mem_append.1 hm with hm | hm
      · exact List.mem_append_left _ hm
      · exact List.mem_append_right _ (List.mem_cons_of_mem _ hm)
    | release hr ha => exact h.bytes p b (by rw [ha]; exact List.mem_cons_of_mem _ hm)
    | relaxed hr ha ho =>
      refine h.bytes p b ?_
      rw [ha]
      rcases List.mem_append.1 hm with hm | hm
      · exact List.mem_append_left _ hm
      · exact List.mem_append_right _ (List.mem_cons_of_mem _ hm)
    | ack ha => exact h.bytes p b hm

theorem Between.settled {cfg : Config} {s : State} (h : Between cfg s) : Rtt.Between cfg (settled s) :=
  ⟨h.read, h.write, h.target, h.host, h.accepted, h.received⟩

theorem Between.inside {cfg : Config} {s : State} (h : Between cfg s) : Inside cfg s := by
  refine ⟨h.settled.bounded, ?_, by simp [h.stores]⟩
  intro v hv
  rw [h.acks, h.readSeen] at hv
  rw [List.mem_singleton.1 hv]
  exact h.read

theorem Inside.reachable {order : Order} {cfg : Config} {s0 s : State} (h0 : Inside cfg s0) (hr : Reachable order cfg s0 s) :
    Inside cfg s := by
  induction hr with
  | refl => exact h0
  | step _ hs ih =>
    rcases hs with hs | hs | hs
    · exact ih.targetStep hs
    · exact ih.hostStep hs
    · exact ih.memoryStep hs

/-! ### Blocking mode -/

/-- The invariant of blocking mode; `init` are the bytes that were unread at the start. -/
structure Safe (cfg : Config) (init : List UInt8) (s : State) : Prop where
  inside : Inside cfg s
  strong : Rtt.Blocking cfg init (settled s)
  order : (s.readSeen :: s.acks).Pairwise (fun a b => distance cfg.size b s.write ≤ distance cfg.size a s.write)
  behind : ∀ v ∈ s.readSeen :: s.acks, distance cfg.size s.read s.write ≤ distance cfg.size v s.write
  loaded : ∀ rest r, s.target = .loadedRead rest r →
    ∀ v ∈ s.readSeen :: s.acks, distance cfg.size v s.write ≤ distance cfg.size r s.write
  room : ∀ rest cursor len pending, s.target = .copying rest cursor len pending →
    ∀ v ∈ s.readSeen :: s.acks, distance cfg.size v s.write + len < cfg.size
  latest : (s.readSeen :: s.acks).getLast? = some s.read
  stores : ∃ k, s.writeSeen = (s.read + k) % cfg.size ∧ Pending cfg.size s.read (distance cfg.size s.read s.write) k s.stores ∧
    ∀ w pos got, s.host = .reading w pos got → ∃ m m', m ≤ m' ∧ m' ≤ k ∧ pos = (s.read + m) % cfg.size ∧ w = (s.read + m') % cfg.size

theorem Safe.calm {cfg : Config} {init : List UInt8} {s : State} (h : Safe cfg init s) {t : Rtt.Target} {acc : List UInt8}
    (h1 : Inside cfg { s with target := t, accepted := acc }) (h2 : Rtt.Blocking cfg init (settled { s with target := t, accepted := acc }))
    (h3 : ∀ rest r, t = .loadedRead rest r → ∀ v ∈ s.readSeen :: s.acks, distance cfg.size v s.write ≤ distance cfg.size r s.write)
    (h4 : ∀ rest cursor len pending, t = .copying rest cursor len pending →
      ∀ v ∈ s.readSeen :: s.acks, distance cfg.size v s.write + len < cfg.size) :
    Safe cfg init { s with target := t, accepted := acc } :=
  ⟨h1, h2, h.order, h.behind, h3, h4, h.latest, h.stores⟩

theorem Safe.targetStep {cfg : Config} {init : List UInt8} {s s' : State} (h : Safe cfg init s)
    (hbl : blocking cfg s = true) (hs : TargetStep cfg s s') : Safe cfg init s' := by
  have hi := h.inside.targetStep hs
  have hb := h.strong
  have hbl' : Rtt.blocking cfg (settled s) = true := hbl
  have hread := hb.bounded.read
  have hwrite := hb.bounded.write
  cases hs with
  | call bytes ht => exact h.calm hi (hb.targetStep hbl' (.call bytes ht)) (by simp) (by simp)
  | return_ ht => exact h.calm hi (hb.targetStep hbl' (.return_ ht)) (by simp) (by simp)
  | @loadRead rest ht hne _ =>
    have hdata := hb.data
    rw [show (settled s).target = .attempt rest from ht] at hdata
    refine h.calm hi ⟨hi.bounded, hdata, hb.host, ?_, by simp [settled], by simp [settled]⟩ ?_ (by simp)
    · rintro _ r he
      cases he
      exact h.behind _ (List.mem_cons_self ..)
    · rintro _ r he
      cases he
      intro v hv
      rcases List.mem_cons.1 hv with hv | hv
      · exact Nat.le_of_eq (by rw [hv])
      · exact (List.pairwise_cons.1 h.order).1 v hv
  | full ht ha => exact h.calm hi (hb.targetStep hbl' (.full ht ha)) (by simp) (by simp)
  | start ht ha =>
    refine h.calm hi (hb.targetStep hbl' (.start (s := settled s) ht ha)) (by simp [Rtt.writeImpl]) ?_
    rintro rest cursor len pending he
    cases he
    intro v hv
    have h1 := h.loaded _ _ ht v hv
    have h2 := available_le (h.inside.bounded.loaded _ _ ht).1 hwrite
    change _ + distance cfg.size _ s.write + 1 ≤ _ at h2
    simp only [settled] at h2
    omega
  | startNonblocking ht hne hb' => rw [hbl] at hb'; cases hb'
  | @copy rest cursor len before after p b ht =>
    refine ⟨hi, ?_, h.order, h.behind, by simp, ?_, h.latest, ?_⟩
    · rw [settled_copy]
      exact hb.targetStep hbl' (.copy (s := settled s) ht)
    · rintro _ _ _ _ he
      cases he
      exact h.room _ _ _ _ ht
    · obtain ⟨k, h1, h2, h3⟩ := h.stores
      refine ⟨k, h1, h2.addByte ?_, h3⟩
      obtain ⟨j, hj, hp, _⟩ := (hb.bounded.copying _ _ _ _ ht).sound _ _ (List.mem_append_right _ (List.mem_cons_self ..))
      have hroom := hb.room _ _ _ _ ht
      have hd := distance_add hread hwrite
      refine ⟨distance cfg.size s.read s.write + j, Nat.le_add_right .., Nat.lt_of_lt_of_le (Nat.add_lt_add_left hj _) (Nat.le_of_lt hroom), ?_⟩
      rw [hp, ← hd, ring_add]
      rfl
  | @store rest cursor len ht =>
    have hc := hb.bounded.copying _ _ _ _ ht
    have hroom := h.room _ _ _ _ ht
    have hmove : ∀ v, v < cfg.size → distance cfg.size v s.write + len < cfg.size →
        distance cfg.size v ((cursor + len) % cfg.size) = distance cfg.size v s.write + len := by
      intro v hv hr
      apply distance_eq hv hr
      rw [hc.cursor, ← ring_add, show (v + distance cfg.size v s.write) % cfg.size = s.write from distance_add hv hwrite]
      rfl
    have hmoveR : distance cfg.size s.read ((cursor + len) % cfg.size) = distance cfg.size s.read s.write + len :=
      hmove _ hread (hb.room _ _ _ _ ht)
    have hin := h.inside.reads
    refine ⟨hi, ?_, ?_, ?_, by simp, by simp, h.latest, ?_⟩
    · rw [settled_store]
      exact hb.targetStep hbl' (.store (s := settled s) ht)
    · refine h.order.imp_of_mem ?_
      intro a b ha hb' hab
      show distance cfg.size b ((cursor + len) % cfg.size) ≤ distance cfg.size a ((cursor + len) % cfg.size)
      rw [hmove _ (hin _ ha) (hroom _ ha), hmove _ (hin _ hb') (hroom _ hb')]
      omega
    · intro v hv
      show distance cfg.size s.read ((cursor + len) % cfg.size) ≤ distance cfg.size v ((cursor + len) % cfg.size)
      rw [hmove _ (hin _ hv) (hroom _ hv), hmoveR]
      have := h.behind _ hv
      omega
    · obtain ⟨k, h1, h2, h3⟩ := h.stores
      refine ⟨k, h1, ?_, h3⟩
      show Pending cfg.size s.read (distance cfg.size s.read ((cursor + len) % cfg.size)) k _
      rw [hmoveR]
      apply h2.addCursor (Nat.le_add_right ..)
      rw [hc.cursor, ← ring_add, show (s.read + distance cfg.size s.read s.write) % cfg.size = s.write from distance_add hread hwrite]
      rfl
  | flushNoHost ht hc => exact h
  | flush ht hc => exact h.calm hi (hb.targetStep hbl' (.flush ht hc)) (by simp) (by simp)
  | flushLoad ht =>
    have hdata := hb.data
    rw [show (settled s).target = .flushing from ht] at hdata
    refine h.calm hi ⟨hi.bounded, hdata, hb.host, by simp [settled], ?_, by simp [settled]⟩ (by simp) (by simp)
    rintro r he
    cases he
    exact h.behind _ (List.mem_cons_self ..)
  | flushAgain ht hd => exact h.calm hi (hb.targetStep hbl' (.flushAgain ht hd)) (by simp) (by simp)
  | flushReturn ht he => exact h.calm hi (hb.targetStep hbl' (.flushReturn ht he)) (by simp) (by simp)

/-- The host only reads bytes that are visible. -/
theorem Safe.visible {cfg : Config} {init : List UInt8} {s : State} (h : Safe cfg init s) {w pos : Nat} {got : List UInt8}
    (hh : s.host = .reading w pos got) (hp : pos ≠ w) : settle s.memory s.stores pos = s.memory pos := by
  obtain ⟨k, _, h2, h3⟩ := h.stores
  obtain ⟨m, m', h4, h5, h6, h7⟩ := h3 _ _ _ hh
  have hlt : m < m' := by
    rcases Nat.lt_or_eq_of_le h4 with h' | h'
    · exact h'
    · subst h'; exact absurd (h6.trans h7.symm) hp
  apply settle_other
  intro b hm
  obtain ⟨j, h8, h9, h10⟩ := h2.mem hm
  have := ring_inj (by omega) h9 (h6.symm.trans h10)
  omega

theorem Safe.hostStep {cfg : Config} {init : List UInt8} {s s' : State} (h : Safe cfg init s)
    (hs : HostStep cfg s s') : Safe cfg init s' := by
  have hi := h.inside.hostStep hs
  have hb := h.strong
  have hread := hb.bounded.read
  have hwrite := hb.bounded.write
  obtain ⟨k, h1, h2, h3⟩ := h.stores
  cases hs with
  | load hh =>
    refine ⟨hi, ⟨hi.bounded, hb.data, ?_, hb.loaded, hb.flushed, hb.room⟩, h.order, h.behind, h.loaded, h.room, h.latest,
      ⟨k, h1, h2, ?_⟩⟩
    · rintro w pos got he
      cases he
      exact ⟨0, k, Nat.zero_le _, h2.le, (wrap_lt hread).symm, h1, by simp⟩
    · rintro w pos got he
      cases he
      exact ⟨0, k, Nat.zero_le _, Nat.le_refl _, (wrap_lt hread).symm, h1⟩
  | @byte w pos got hh hp =>
    have hv := h.visible hh hp
    refine ⟨hi, ?_, h.order, h.behind, h.loaded, h.room, h.latest, ⟨k, h1, h2, ?_⟩⟩
    · have := hb.hostStep (.byte (s := settled s) hh hp)
      rw [show (settled s).buffer pos = s.memory pos from hv] at this
      exact this
    · obtain ⟨m, m', h4, h5, h6, h7⟩ := h3 _ _ _ hh
      rintro _ _ _ he
      cases he
      have hlt : m < m' := by
        rcases Nat.lt_or_eq_of_le h4 with h' | h'
        · exact h'
        · subst h'; exact absurd (h6.trans h7.symm) hp
      exact ⟨m + 1, m', hlt, h5, by rw [h6, ring_add], h7⟩
  | @store w pos got hh =>
    obtain ⟨m, m', h4, h5, h6, h7⟩ := h3 _ _ _ hh
    have hle := h2.le
    have hlt := distance_lt hread hwrite
    change distance cfg.size s.read s.write < _ at hlt
    have hdist : distance cfg.size pos s.write = distance cfg.size s.read s.write - m := by
      rw [h6]
      apply distance_eq (Nat.mod_lt _ (by omega)) (by omega)
      rw [ring_add, show m + (distance cfg.size s.read s.write - m) = distance cfg.size s.read s.write by omega]
      exact distance_add hread hwrite
    refine ⟨hi, hb.hostStep (.store hh), ?_, ?_, ?_, ?_, ?_, ⟨k - m, ?_, ?_, by simp⟩⟩
    · show (s.readSeen :: (s.acks ++ [pos])).Pairwise _
      rw [← List.cons_append, List.pairwise_append]
      refine ⟨h.order, by simp, ?_⟩
      intro a ha b hb'
      rw [List.mem_singleton.1 hb', hdist]
      have := h.behind a ha
      show _ ≤ distance cfg.size a s.write
      omega
    · intro v hv
      show distance cfg.size pos s.write ≤ _
      rw [hdist]
      have hv : v ∈ s.readSeen :: s.acks ∨ v = pos := by simpa [or_assoc] using hv
      rcases hv with hv | hv
      · have := h.behind v hv
        show _ ≤ distance cfg.size v s.write
        omega
      · rw [hv]; exact Nat.le_of_eq hdist.symm
    · intro rest r ht v hv
      have hv : v ∈ s.readSeen :: s.acks ∨ v = pos := by simpa [or_assoc] using hv
      rcases hv with hv | hv
      · exact h.loaded rest r ht v hv
      · rw [hv]
        show distance cfg.size pos s.write ≤ distance cfg.size r s.write
        have := h.loaded rest r ht _ (List.mem_cons_self ..)
        have := h.behind _ (List.mem_cons_self ..)
        omega
    · intro rest cursor len pending ht v hv
      have hv : v ∈ s.readSeen :: s.acks ∨ v = pos := by simpa [or_assoc] using hv
      rcases hv with hv | hv
      · exact h.room _ _ _ _ ht v hv
      · rw [hv]
        show distance cfg.size pos s.write + len < cfg.size
        have := h.room _ _ _ _ ht _ (List.mem_cons_self ..)
        have := h.behind _ (List.mem_cons_self ..)
        omega
    · show (s.readSeen :: (s.acks ++ [pos])).getLast? = some pos
      rw [← List.cons_append, List.getLast?_concat]
    · show s.writeSeen = (pos + (k - m)) % cfg.size
      rw [h6, ring_add, show m + (k - m) = k by omega, h1]
    · show Pending cfg.size pos (distance cfg.size pos s.write) (k - m) s.stores
      rw [hdist, h6]
      exact h2.advance (by omega)

theorem Safe.memoryStep {cfg : Config} {init : List UInt8} {s s' : State} (h : Safe cfg init s)
    (hs : MemoryStep .release s s') : Safe cfg init s' := by
  have hi := h.inside.memoryStep hs
  have hb : Rtt.Blocking cfg init (settled s') := by rw [settled_memory hs]; exact h.strong
  obtain ⟨k, h1, h2, h3⟩ := h.stores
  cases hs with
  | byte ha ho =>
    rw [ha] at h2
    exact ⟨hi, hb, h.order, h.behind, h.loaded, h.room, h.latest, ⟨k, h1, h2.removeByte, h3⟩⟩
  | release hr ha =>
    rw [ha] at h2
    obtain ⟨k', h4, h5, h6⟩ := h2
    refine ⟨hi, hb, h.order, h.behind, h.loaded, h.room, h.latest, ⟨k', h5, h6, ?_⟩⟩
    intro w pos got hh
    obtain ⟨m, m', h7, h8, h9⟩ := h3 _ _ _ hh
    exact ⟨m, m', h7, by omega, h9⟩
  | relaxed hr ha ho => cases hr
  | ack ha =>
    rename_i r after
    have hsub : ∀ v ∈ r :: after, v ∈ s.readSeen :: s.acks := fun v hv => List.mem_cons_of_mem _ (by rw [ha]; exact hv)
    have ho := h.order
    have hl := h.latest
    rw [ha] at ho hl
    exact ⟨hi, hb, (List.pairwise_cons.1 ho).2, fun v hv => h.behind v (hsub v hv), fun rest r ht v hv => h.loaded rest r ht v (hsub v hv),
      fun _ _ _ _ ht v hv => h.room _ _ _ _ ht v (hsub v hv), by rw [← hl]; rfl, ⟨k, h1, h2, h3⟩⟩

theorem Between.safe {cfg : Config} {s : State} (h : Between cfg s) : Safe cfg (unread cfg s) s := by
  refine ⟨h.inside, h.settled.blocking, ?_, ?_, by simp [h.target], by simp [h.target], ?_, ⟨distance cfg.size s.read s.write, ?_, ?_, by simp [h.host]⟩⟩
  · simp [h.acks]
  · simp [h.acks, h.readSeen]
  · simp [h.acks, h.readSeen]
  · rw [h.writeSeen, distance_add h.read h.write]
  · rw [h.stores]; rfl

theorem Step.flags {order : Order} {cfg : Config} {s s' : State} (hs : Step order cfg s s') : s'.flags = s.flags := by
  rcases hs with hs | hs | hs <;> cases hs <;> rfl

theorem Safe.reachable {cfg : Config} {s0 s : State} (h0 : Between cfg s0) (hbl : blocking cfg s0 = true)
    (hr : Reachable .release cfg s0 s) : Safe cfg (unread cfg s0) s ∧ s.flags = s0.flags := by
  induction hr with
  | refl => exact ⟨h0.safe, rfl⟩
  | step hr hs ih =>
    refine ⟨?_, hs.flags.trans ih.2⟩
    have hb : blocking cfg _ = true := (congrArg (fun f => !cfg.disableBlocking && Rtt.hostIsConnected f) ih.2).trans hbl
    rcases hs with hs | hs | hs
    · exact ih.1.targetStep hb hs
    · exact ih.1.hostStep hs
    · exact ih.1.memoryStep hs

end Defmt.Weak
