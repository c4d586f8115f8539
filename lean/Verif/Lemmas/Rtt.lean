import Verif.Spec.Rtt
/-! Helper lemmas for the RTT channel. -/

namespace Defmt.Rtt

/-! ### Arithmetic in a ring -/

theorem ring_inj {n a i j : Nat} (hi : i < n) (hj : j < n) (h : (a + i) % n = (a + j) % n) : i = j := by
  have key : ∀ i j, i < n → j < n → i ≤ j → (a + i) % n = (a + j) % n → i = j := by
    intro i j hi hj hle h
    have h1 := Nat.sub_mod_eq_zero_of_mod_eq h.symm
    have h2 : a + j - (a + i) = j - i := by omega
    rw [h2, Nat.mod_eq_of_lt (by omega)] at h1
    omega
  rcases Nat.le_total i j with h' | h'
  · exact key i j hi hj h' h
  · exact (key j i hj hi h' h.symm).symm

theorem ring_add {n a i j : Nat} : ((a + i) % n + j) % n = (a + (i + j)) % n := by
  rw [Nat.mod_add_mod, Nat.add_assoc]

theorem wrap_lt {n x : Nat} (h : x < n) : x % n = x := Nat.mod_eq_of_lt h

theorem wrap_ge {n x : Nat} (h : n ≤ x) (h2 : x < 2 * n) : x % n = x - n := by
  rw [Nat.mod_eq_sub_mod h, Nat.mod_eq_of_lt (by omega)]

theorem ring_self {n a j : Nat} : (a + (n + j)) % n = (a + j) % n := by
  rw [show a + (n + j) = a + j + n by omega, Nat.add_mod_right]

theorem distance_lt {n a b : Nat} (ha : a < n) (hb : b < n) : distance n a b < n := by
  unfold distance; split <;> omega

theorem distance_add {n a b : Nat} (ha : a < n) (hb : b < n) : (a + distance n a b) % n = b := by
  unfold distance; split
  · rw [wrap_lt (by omega)]; omega
  · rw [wrap_ge (by omega) (by omega)]; omega

theorem distance_eq {n a b k : Nat} (ha : a < n) (hk : k < n) (h : (a + k) % n = b) : distance n a b = k := by
  have hb : b < n := h ▸ Nat.mod_lt _ (by omega)
  exact ring_inj (distance_lt ha hb) hk (by rw [distance_add ha hb, h])

theorem available_le {n r w : Nat} (hr : r < n) (hw : w < n) :
    availableBufferSize n r w + distance n r w < n := by
  unfold availableBufferSize distance
  split
  · split <;> omega
  · split <;> split <;> omega

theorem available_pos {n w : Nat} (h2 : 2 ≤ n) (hw : w < n) : availableBufferSize n w w ≠ 0 := by
  unfold availableBufferSize
  split
  · omega
  · split <;> omega

/-! ### Copies -/

theorem mem_place {l : List UInt8} : ∀ {start p : Nat} {b : UInt8},
    (p, b) ∈ place start l ↔ ∃ j, p = start + j ∧ l[j]? = some b := by
  induction l with
  | nil => simp [place]
  | cons x xs ih =>
    intro start p b
    simp only [place, List.mem_cons, Prod.mk.injEq, ih]
    constructor
    · rintro (⟨rfl, rfl⟩ | ⟨j, rfl, h⟩)
      · exact ⟨0, by simp⟩
      · exact ⟨j + 1, by omega, by simpa using h⟩
    · rintro ⟨j, rfl, h⟩
      cases j with
      | zero => simp at h; exact .inl ⟨rfl, h.symm⟩
      | succ j => exact .inr ⟨j, by omega, by simpa using h⟩

theorem length_place {l : List UInt8} : ∀ {start : Nat}, (place start l).length = l.length := by
  induction l with
  | nil => simp [place]
  | cons x xs ih => intro start; simp [place, ih]

theorem length_copies {n cursor len : Nat} {bytes : List UInt8} (hl : len ≤ bytes.length) :
    (copies n bytes cursor len).length = len := by
  unfold copies
  split
  · simp only [List.length_append, length_place, List.length_take, List.length_drop]; omega
  · simp only [length_place, List.length_take]; omega

theorem mem_copies {n cursor len : Nat} {bytes : List UInt8} (hc : cursor < n) (hn : len ≤ n)
    {p : Nat} {b : UInt8} :
    (p, b) ∈ copies n bytes cursor len ↔ ∃ j, j < len ∧ p = (cursor + j) % n ∧ bytes[j]? = some b := by
  unfold copies
  split
  case isTrue h =>
    simp only [List.mem_append, mem_place, List.getElem?_take, List.getElem?_drop]
    constructor
    · rintro (⟨j, rfl, hj⟩ | ⟨j, rfl, hj⟩)
      · split at hj
        · exact ⟨j, by omega, (wrap_lt (by omega)).symm, hj⟩
        · simp at hj
      · split at hj
        · exact ⟨n - cursor + j, by omega, by rw [wrap_ge (by omega) (by omega)]; omega, hj⟩
        · simp at hj
    · rintro ⟨j, hj, rfl, hb⟩
      by_cases hp : cursor + j < n
      · exact .inl ⟨j, wrap_lt hp, by rw [if_pos (by omega)]; exact hb⟩
      · refine .inr ⟨j - (n - cursor), by rw [wrap_ge (by omega) (by omega)]; omega, ?_⟩
        rw [if_pos (by omega), show n - cursor + (j - (n - cursor)) = j by omega]; exact hb
  case isFalse h =>
    simp only [mem_place, List.getElem?_take]
    constructor
    · rintro ⟨j, rfl, hj⟩
      split at hj
      · exact ⟨j, by omega, (wrap_lt (by omega)).symm, hj⟩
      · simp at hj
    · rintro ⟨j, hj, rfl, hb⟩
      exact ⟨j, wrap_lt (by omega), by rw [if_pos (by omega)]; exact hb⟩

/-! ### The cyclic contents -/

/-- `k` bytes starting at `a` -/
def ring (n : Nat) (buffer : Nat → UInt8) (a k : Nat) : List UInt8 :=
  (List.range k).map (fun i => buffer ((a + i) % n))

theorem unread_eq {cfg : Config} {s : State} :
    unread cfg s = ring cfg.size s.buffer s.read (distance cfg.size s.read s.write) := rfl

theorem length_ring {n a k : Nat} {buf : Nat → UInt8} : (ring n buf a k).length = k := by simp [ring]

theorem getElem?_ring {n a k i : Nat} {buf : Nat → UInt8} :
    (ring n buf a k)[i]? = if i < k then some (buf ((a + i) % n)) else none := by
  unfold ring
  rw [List.getElem?_map]
  split
  case isTrue h => rw [List.getElem?_range h]; rfl
  case isFalse h => rw [List.getElem?_eq_none (by simpa using h)]; rfl

theorem ring_congr {n a k : Nat} {buf buf' : Nat → UInt8} (h : ∀ i, i < k → buf ((a + i) % n) = buf' ((a + i) % n)) :
    ring n buf a k = ring n buf' a k := by
  unfold ring
  exact List.map_congr_left fun i hi => h i (List.mem_range.1 hi)

theorem take_ring {n a k m : Nat} {buf : Nat → UInt8} (h : m ≤ k) : (ring n buf a k).take m = ring n buf a m := by
  apply List.ext_getElem?
  intro i
  rw [List.getElem?_take, getElem?_ring, getElem?_ring]
  split
  · rw [if_pos (by omega)]
  · rfl

theorem drop_ring {n a k m : Nat} {buf : Nat → UInt8} :
    (ring n buf a k).drop m = ring n buf ((a + m) % n) (k - m) := by
  apply List.ext_getElem?
  intro i
  rw [List.getElem?_drop, getElem?_ring, getElem?_ring, ring_add]
  by_cases h : m + i < k
  · rw [if_pos h, if_pos (by omega)]
  · rw [if_neg h, if_neg (by omega)]

theorem ring_succ {n a m : Nat} {buf : Nat → UInt8} : ring n buf a (m + 1) = ring n buf a m ++ [buf ((a + m) % n)] := by
  unfold ring; rw [List.range_succ, List.map_append]; rfl

theorem ring_append {n a k : Nat} {buf : Nat → UInt8} {l : List UInt8}
    (h : ∀ j b, l[j]? = some b → buf ((a + (k + j)) % n) = b) : ring n buf a (k + l.length) = ring n buf a k ++ l := by
  apply List.ext_getElem?
  intro i
  rw [List.getElem?_append, getElem?_ring, getElem?_ring, length_ring]
  by_cases h1 : i < k
  · rw [if_pos (by omega), if_pos h1, if_pos h1]
  · rw [if_neg h1]
    by_cases h2 : i < k + l.length
    · rw [if_pos h2]
      have h3 : l[i - k]? = some l[i - k] := List.getElem?_eq_getElem (by omega)
      rw [h3, ← h _ _ h3, show k + (i - k) = i by omega]
    · rw [if_neg h2, List.getElem?_eq_none (by omega)]

theorem ring_eq_nil {n a k : Nat} {buf : Nat → UInt8} : ring n buf a k = [] ↔ k = 0 := by
  rw [← List.length_eq_zero_iff, length_ring]

/-! ### Both modes: bounds and the newest data -/

/-- what is known about a write in progress, in both modes -/
structure Copying (n : Nat) (buffer : Nat → UInt8) (write : Nat) (rest : List UInt8) (cursor len : Nat)
    (pending : List (Nat × UInt8)) : Prop where
  cursor : cursor = write
  pos : 1 ≤ len
  enough : len ≤ rest.length
  fits : len ≤ n
  count : pending.length ≤ len
  sound : ∀ p b, (p, b) ∈ pending → ∃ j, j < len ∧ p = (write + j) % n ∧ rest[j]? = some b
  complete : ∀ j b, j < len → rest[j]? = some b → buffer ((write + j) % n) = b ∨ ((write + j) % n, b) ∈ pending

theorem Copying.init {cfg : Config} {buffer : Nat → UInt8} {write : Nat} {rest : List UInt8} {available : Nat}
    (hw : write < cfg.size) (ha : available ≤ cfg.size) (hne : rest ≠ []) (h0 : available ≠ 0) :
    Copying cfg.size buffer write rest write (min rest.length available)
      (copies cfg.size rest write (min rest.length available)) where
  cursor := rfl
  pos := by have := List.length_pos_iff.2 hne; omega
  enough := by omega
  fits := by omega
  count := by rw [length_copies (by omega)]; exact Nat.le_refl _
  sound := fun p b h => (mem_copies hw (by omega)).1 h
  complete := fun j b hj hb => .inr ((mem_copies hw (by omega)).2 ⟨j, hj, rfl, hb⟩)

theorem Copying.copy {n : Nat} {buffer : Nat → UInt8} {write : Nat} {rest : List UInt8} {cursor len p : Nat} {b : UInt8}
    {before after : List (Nat × UInt8)} (h : Copying n buffer write rest cursor len (before ++ (p, b) :: after)) :
    Copying n (fun i => if i = p then b else buffer i) write rest cursor len (before ++ after) := by
  obtain ⟨j0, hj0, hp, hb⟩ := h.sound p b (by simp)
  refine ⟨h.cursor, h.pos, h.enough, h.fits, ?_, ?_, ?_⟩
  · have := h.count; simp at this ⊢; omega
  · intro p' b' hm
    exact h.sound p' b' (by simp at hm ⊢; rcases hm with hm | hm <;> simp [hm])
  · intro j b' hj hb'
    by_cases he : (write + j) % n = p
    · left
      have : j = j0 := by
        have := h.fits
        exact ring_inj (by omega) (by omega) (he.trans hp)
      subst this
      rw [hb'] at hb
      simp only [he, if_true]
      exact (Option.some.inj hb).symm
    · simp only [he, if_false]
      rcases h.complete j b' hj hb' with h1 | h1
      · exact .inl h1
      · right
        simp only [List.mem_append, List.mem_cons, Prod.mk.injEq, he, false_and, false_or] at h1 ⊢
        exact h1

/-- Bounds, in both modes. -/
structure Bounded (cfg : Config) (s : State) : Prop where
  read : s.read < cfg.size
  write : s.write < cfg.size
  host : ∀ w pos got, s.host = .reading w pos got → pos < cfg.size
  loaded : ∀ rest r, s.target = .loadedRead rest r → r < cfg.size ∧ rest ≠ []
  flushed : ∀ r, s.target = .flushLoaded r → r < cfg.size
  copying : ∀ rest cursor len pending, s.target = .copying rest cursor len pending →
    Copying cfg.size s.buffer s.write rest cursor len pending

theorem available_le_size {n r w : Nat} (hr : r < n) (hw : w < n) : availableBufferSize n r w ≤ n := by
  have := available_le hr hw; omega

theorem Bounded.targetStep {cfg : Config} {s s' : State} (h : Bounded cfg s) (hs : TargetStep cfg s s') : Bounded cfg s' := by
  have hread := h.read
  have hwrite := h.write
  have hhost := h.host
  cases hs with
  | call bytes ht => exact ⟨hread, hwrite, hhost, by simp, by simp, by simp⟩
  | return_ ht => exact ⟨hread, hwrite, hhost, by simp, by simp, by simp⟩
  | loadRead ht hne hb =>
    refine ⟨hread, hwrite, hhost, ?_, by simp, by simp⟩
    rintro rest r he
    cases he
    exact ⟨hread, hne⟩
  | full ht ha => exact ⟨hread, hwrite, hhost, by simp, by simp, by simp⟩
  | start ht ha =>
    refine ⟨hread, hwrite, hhost, by simp [writeImpl], by simp [writeImpl], ?_⟩
    rintro rest cursor len pending he
    cases he
    obtain ⟨hr, hne⟩ := h.loaded _ _ ht
    exact Copying.init hwrite (available_le_size hr hwrite) hne ha
  | startNonblocking ht hne hb =>
    refine ⟨hread, hwrite, hhost, by simp [writeImpl], by simp [writeImpl], ?_⟩
    rintro rest cursor len pending he
    cases he
    exact Copying.init hwrite (Nat.le_refl _) hne (by omega)
  | copy ht =>
    refine ⟨hread, hwrite, hhost, by simp, by simp, ?_⟩
    rintro rest cursor len pending he
    cases he
    exact (h.copying _ _ _ _ ht).copy
  | store ht => exact ⟨hread, Nat.mod_lt _ (by omega), hhost, by simp, by simp, by simp⟩
  | flushNoHost ht hb => exact h
  | flush ht hb => exact ⟨hread, hwrite, hhost, by simp, by simp, by simp⟩
  | flushLoad ht =>
    refine ⟨hread, hwrite, hhost, by simp, ?_, by simp⟩
    rintro r he
    cases he
    exact hread
  | flushAgain ht hd => exact ⟨hread, hwrite, hhost, by simp, by simp, by simp⟩
  | flushReturn ht he => exact ⟨hread, hwrite, hhost, by simp, by simp, by simp⟩

theorem Bounded.hostStep {cfg : Config} {s s' : State} (h : Bounded cfg s) (hs : HostStep cfg s s') : Bounded cfg s' := by
  have hread := h.read
  have hwrite := h.write
  cases hs with
  | load hh =>
    refine ⟨hread, hwrite, ?_, h.loaded, h.flushed, h.copying⟩
    rintro w pos got he
    cases he
    exact hread
  | byte hh hp =>
    refine ⟨hread, hwrite, ?_, h.loaded, h.flushed, h.copying⟩
    rintro w pos got he
    cases he
    exact Nat.mod_lt _ (by omega)
  | store hh => exact ⟨h.host _ _ _ hh, hwrite, by simp, h.loaded, h.flushed, h.copying⟩

theorem Bounded.reachable {cfg : Config} {s0 s : State} (h0 : Bounded cfg s0) (hr : Reachable cfg s0 s) : Bounded cfg s := by
  induction hr with
  | refl => exact h0
  | step _ hs ih => exact hs.elim ih.targetStep ih.hostStep

theorem Between.bounded {cfg : Config} {s : State} (h : Between cfg s) : Bounded cfg s :=
  ⟨h.read, h.write, by simp [h.host], by simp [h.target], by simp [h.target], by simp [h.target]⟩

theorem Step.flags {cfg : Config} {s s' : State} (hs : Step cfg s s') : s'.flags = s.flags := by
  rcases hs with hs | hs <;> cases hs <;> rfl

theorem Reachable.flags {cfg : Config} {s0 s : State} (hr : Reachable cfg s0 s) : s.flags = s0.flags := by
  induction hr with
  | refl => rfl
  | step _ hs ih => rw [hs.flags, ih]

theorem Reachable.blocking {cfg : Config} {s0 s : State} (hr : Reachable cfg s0 s) :
    Rtt.blocking cfg s = Rtt.blocking cfg s0 := by
  unfold Rtt.blocking; rw [hr.flags]

/-- The newest data: positions `skip ≤ j < size` after the write cursor contain the history `done`. -/
def Holds (n : Nat) (buffer : Nat → UInt8) (write : Nat) (done : List UInt8) (skip : Nat) : Prop :=
  ∀ j, skip ≤ j → j < n → n ≤ done.length + j → done[done.length + j - n]? = some (buffer ((write + j) % n))

/-- how many bytes after the write cursor are being overwritten -/
def overwritten : Target → Nat
  | .copying _ _ len _ => len
  | _ => 0

structure Newest (cfg : Config) (s : State) (done : List UInt8) : Prop where
  split : s.accepted = done ++ outstanding s.target
  holds : Holds cfg.size s.buffer s.write done (overwritten s.target)

theorem Newest.targetStep {cfg : Config} {s s' : State} {done : List UInt8} (hb : Bounded cfg s)
    (h : Newest cfg s done) (hs : TargetStep cfg s s') : ∃ done', Newest cfg s' done' := by
  have h1 := h.split
  have h2 := h.holds
  cases hs with
  | call bytes ht =>
    rw [ht] at h1 h2
    exact ⟨done, by simp [outstanding] at h1 ⊢; exact h1, h2⟩
  | return_ ht => rw [ht] at h1 h2; exact ⟨done, h1, h2⟩
  | loadRead ht hne hb => rw [ht] at h1 h2; exact ⟨done, h1, h2⟩
  | full ht ha => rw [ht] at h1 h2; exact ⟨done, h1, h2⟩
  | start ht ha => rw [ht] at h1 h2; exact ⟨done, h1, fun j _ => h2 j (Nat.zero_le _)⟩
  | startNonblocking ht hne hb => rw [ht] at h1 h2; exact ⟨done, h1, fun j _ => h2 j (Nat.zero_le _)⟩
  | copy ht =>
    rw [ht] at h1 h2
    refine ⟨done, h1, ?_⟩
    intro j hj hn hd
    have hc := hb.copying _ _ _ _ ht
    obtain ⟨j0, hj0, hp, _⟩ := hc.sound _ _ (List.mem_append_right _ (List.mem_cons_self ..))
    rw [h2 j hj hn hd]
    simp only [overwritten] at hj
    have : ¬ (s.write + j) % cfg.size = (s.write + j0) % cfg.size := by
      intro he
      have := ring_inj hn (by omega) he
      omega
    rw [hp]
    simp only [this, if_false]
  | @store rest cursor len ht =>
    rw [ht] at h1 h2
    have hc := hb.copying _ _ _ _ ht
    have hw := hb.write
    have hlen := hc.enough
    have htake : (rest.take len).length = len := by rw [List.length_take]; omega
    refine ⟨done ++ rest.take len, ?_, ?_⟩
    · simp only [outstanding] at h1 ⊢
      rw [List.append_assoc, List.take_append_drop]; exact h1
    · intro j hj hn hd
      rw [List.length_append, htake] at hd ⊢
      rw [hc.cursor, ring_add]
      by_cases hl : len + j < cfg.size
      · have h3 := h2 (len + j) (by simp [overwritten]) hl (by omega)
        rw [List.getElem?_append_left (by omega), ← h3]
        congr 1; omega
      · obtain ⟨k, hk⟩ : ∃ k, len + j = cfg.size + k := ⟨len + j - cfg.size, by omega⟩
        rw [hk, ring_self, show done.length + len + j - cfg.size = done.length + k by omega,
          List.getElem?_append_right (by omega), Nat.add_sub_cancel_left, List.getElem?_take, if_pos (by omega)]
        have h4 : rest[k]? = some rest[k] := List.getElem?_eq_getElem (by omega)
        rw [h4]
        rcases hc.complete k _ (by omega) h4 with h5 | h5
        · rw [h5]
        · simp at h5
  | flushNoHost ht hb => exact ⟨done, h⟩
  | flush ht hb => rw [ht] at h1 h2; exact ⟨done, h1, h2⟩
  | flushLoad ht => rw [ht] at h1 h2; exact ⟨done, h1, h2⟩
  | flushAgain ht hd => rw [ht] at h1 h2; exact ⟨done, h1, h2⟩
  | flushReturn ht he => rw [ht] at h1 h2; exact ⟨done, h1, h2⟩

theorem Newest.hostStep {cfg : Config} {s s' : State} {done : List UInt8}
    (h : Newest cfg s done) (hs : HostStep cfg s s') : Newest cfg s' done := by
  cases hs <;> exact ⟨h.split, h.holds⟩

theorem Newest.reachable {cfg : Config} {s0 s : State} (h0 : Between cfg s0) (hr : Reachable cfg s0 s) :
    ∃ done, Newest cfg s done := by
  induction hr with
  | refl =>
    refine ⟨[], by simp [h0.accepted, h0.target, outstanding], ?_⟩
    intro j _ hn hd
    simp at hd; omega
  | step hr hs ih =>
    obtain ⟨done, ih⟩ := ih
    exact hs.elim (ih.targetStep (h0.bounded.reachable hr)) (fun hs => ⟨done, ih.hostStep hs⟩)

/-! ### Blocking mode -/

/-- The invariant of blocking mode; `init` are the bytes that were unread at the start. -/
structure Blocking (cfg : Config) (init : List UInt8) (s : State) : Prop where
  bounded : Bounded cfg s
  data : s.received ++ unread cfg s ++ outstanding s.target = init ++ s.accepted
  host : ∀ w pos got, s.host = .reading w pos got → ∃ m m', m ≤ m' ∧ m' ≤ distance cfg.size s.read s.write ∧
    pos = (s.read + m) % cfg.size ∧ w = (s.read + m') % cfg.size ∧ got = (unread cfg s).take m
  loaded : ∀ rest r, s.target = .loadedRead rest r → distance cfg.size s.read s.write ≤ distance cfg.size r s.write
  flushed : ∀ r, s.target = .flushLoaded r → distance cfg.size s.read s.write ≤ distance cfg.size r s.write
  room : ∀ rest cursor len pending, s.target = .copying rest cursor len pending →
    distance cfg.size s.read s.write + len < cfg.size

theorem Blocking.disjoint {cfg : Config} {init : List UInt8} {s : State} (h : Blocking cfg init s)
    {rest : List UInt8} {cursor len : Nat} {pending : List (Nat × UInt8)} (ht : s.target = .copying rest cursor len pending)
    {p : Nat} {b : UInt8} (hm : (p, b) ∈ pending) {i : Nat} (hi : i < distance cfg.size s.read s.write) :
    (s.read + i) % cfg.size ≠ p := by
  obtain ⟨j, hj, hp, _⟩ := (h.bounded.copying _ _ _ _ ht).sound _ _ hm
  have hroom := h.room _ _ _ _ ht
  intro he
  rw [hp] at he
  have hd := distance_add h.bounded.read h.bounded.write
  rw [← hd, ring_add] at he
  have := ring_inj (by omega) (by omega) he
  omega

theorem Blocking.targetStep {cfg : Config} {init : List UInt8} {s s' : State} (h : Blocking cfg init s)
    (hbl : Rtt.blocking cfg s = true) (hs : TargetStep cfg s s') : Blocking cfg init s' := by
  have hb' := h.bounded.targetStep hs
  have hread := h.bounded.read
  have hwrite := h.bounded.write
  have hdata := h.data
  have hhost := h.host
  cases hs with
  | call bytes ht =>
    rw [ht] at hdata
    refine ⟨hb', ?_, hhost, by simp, by simp, by simp⟩
    simp only [outstanding, List.append_nil] at hdata ⊢
    rw [← List.append_assoc, ← hdata]; rfl
  | return_ ht =>
    rw [ht] at hdata
    exact ⟨hb', hdata, hhost, by simp, by simp, by simp⟩
  | loadRead ht hne hb =>
    rw [ht] at hdata
    refine ⟨hb', hdata, hhost, ?_, by simp, by simp⟩
    rintro rest r he
    cases he
    exact Nat.le_refl _
  | full ht ha =>
    rw [ht] at hdata
    exact ⟨hb', hdata, hhost, by simp, by simp, by simp⟩
  | start ht ha =>
    rw [ht] at hdata
    refine ⟨hb', hdata, hhost, by simp [writeImpl], by simp [writeImpl], ?_⟩
    rintro rest cursor len pending he
    cases he
    have h1 := h.loaded _ _ ht
    have h2 := available_le (h.bounded.loaded _ _ ht).1 hwrite
    show distance cfg.size s.read s.write + _ < _
    omega
  | startNonblocking ht hne hb => rw [hbl] at hb; cases hb
  | @copy rest cursor len before after p b ht =>
    rw [ht] at hdata
    have hu : unread cfg { s with
        buffer := fun i => if i = p then b else s.buffer i
        target := .copying rest cursor len (before ++ after) } = unread cfg s := by
      rw [unread_eq, unread_eq]
      apply ring_congr
      intro i hi
      have := h.disjoint ht (List.mem_append_right _ (List.mem_cons_self ..)) hi
      simp only [this, if_false]
    refine ⟨hb', ?_, ?_, by simp, by simp, ?_⟩
    · rw [hu]; exact hdata
    · intro w pos got hh
      rw [hu]; exact hhost w pos got hh
    · rintro _ _ _ _ he
      cases he
      exact h.room _ _ _ _ ht
  | @store rest cursor len ht =>
    rw [ht] at hdata
    have hc := h.bounded.copying _ _ _ _ ht
    have hroom := h.room _ _ _ _ ht
    have hlen := hc.enough
    have htake : (rest.take len).length = len := by rw [List.length_take]; omega
    have hdist : distance cfg.size s.read ((cursor + len) % cfg.size) = distance cfg.size s.read s.write + len := by
      apply distance_eq hread hroom
      rw [hc.cursor, ← ring_add, distance_add hread hwrite]
    have hu : unread cfg { s with write := (cursor + len) % cfg.size, target := .attempt (rest.drop len) }
        = unread cfg s ++ rest.take len := by
      rw [unread_eq, unread_eq]
      show ring cfg.size s.buffer s.read (distance cfg.size s.read ((cursor + len) % cfg.size)) = _
      rw [hdist]
      conv => lhs; rw [← htake]
      apply ring_append
      intro j b hj
      rw [List.getElem?_take] at hj
      split at hj
      case isFalse => cases hj
      case isTrue hjl =>
        rw [← ring_add, distance_add hread hwrite]
        rcases hc.complete j b hjl hj with h1 | h1
        · exact h1
        · cases h1
    refine ⟨hb', ?_, ?_, by simp, by simp, by simp⟩
    · rw [hu]
      simp only [outstanding] at hdata ⊢
      rw [← hdata]
      simp only [List.append_assoc, List.take_append_drop]
    · intro w pos got hh
      obtain ⟨m, m', h1, h2, h3, h4, h5⟩ := hhost w pos got hh
      refine ⟨m, m', h1, ?_, h3, h4, ?_⟩
      · show m' ≤ distance cfg.size s.read ((cursor + len) % cfg.size)
        omega
      · rw [hu, h5, List.take_append_of_le_length]
        rw [unread_eq, length_ring]; omega
  | flushNoHost ht hb => exact h
  | flush ht hb =>
    rw [ht] at hdata
    exact ⟨hb', hdata, hhost, by simp, by simp, by simp⟩
  | flushLoad ht =>
    rw [ht] at hdata
    refine ⟨hb', hdata, hhost, by simp, ?_, by simp⟩
    rintro r he
    cases he
    exact Nat.le_refl _
  | flushAgain ht hd =>
    rw [ht] at hdata
    exact ⟨hb', hdata, hhost, by simp, by simp, by simp⟩
  | flushReturn ht he =>
    rw [ht] at hdata
    exact ⟨hb', hdata, hhost, by simp, by simp, by simp⟩

theorem Blocking.hostStep {cfg : Config} {init : List UInt8} {s s' : State} (h : Blocking cfg init s)
    (hs : HostStep cfg s s') : Blocking cfg init s' := by
  have hb' := h.bounded.hostStep hs
  have hread := h.bounded.read
  have hwrite := h.bounded.write
  cases hs with
  | load hh =>
    refine ⟨hb', h.data, ?_, h.loaded, h.flushed, h.room⟩
    rintro w pos got he
    cases he
    refine ⟨0, distance cfg.size s.read s.write, Nat.zero_le _, Nat.le_refl _, ?_, ?_, ?_⟩
    · exact (wrap_lt hread).symm
    · exact (distance_add hread hwrite).symm
    · simp
  | byte hh hp =>
    refine ⟨hb', h.data, ?_, h.loaded, h.flushed, h.room⟩
    obtain ⟨m, m', h1, h2, h3, h4, h5⟩ := h.host _ _ _ hh
    rintro w pos got he
    cases he
    have hlt : m < m' := by
      rcases Nat.lt_or_eq_of_le h1 with h' | h'
      · exact h'
      · subst h'; exact absurd (h3.trans h4.symm) hp
    refine ⟨m + 1, m', by omega, h2, ?_, h4, ?_⟩
    · rw [h3, ring_add]
    · show _ = (unread cfg s).take (m + 1)
      rw [h5, h3, unread_eq, take_ring (by omega), take_ring (by omega), ring_succ]
  | store hh =>
    obtain ⟨m, m', h1, h2, h3, h4, h5⟩ := h.host _ _ _ hh
    have hlt := distance_lt hread hwrite
    have hdist : distance cfg.size ((s.read + m) % cfg.size) s.write = distance cfg.size s.read s.write - m := by
      apply distance_eq (Nat.mod_lt _ (by omega)) (by omega)
      rw [ring_add, show m + (distance cfg.size s.read s.write - m) = distance cfg.size s.read s.write by omega,
        distance_add hread hwrite]
    refine ⟨hb', ?_, by simp, ?_, ?_, ?_⟩
    · rw [← h.data, h3, h5]
      simp only [List.append_assoc]
      congr 1
      rw [← List.append_assoc]
      congr 1
      rw [unread_eq]
      show _ ++ ring cfg.size s.buffer ((s.read + m) % cfg.size) (distance cfg.size ((s.read + m) % cfg.size) s.write) = _
      rw [hdist, ← drop_ring, List.take_append_drop]
    · intro rest r ht
      have := h.loaded rest r ht
      rw [h3]
      show distance cfg.size ((s.read + m) % cfg.size) s.write ≤ distance cfg.size r s.write
      omega
    · intro r ht
      have := h.flushed r ht
      rw [h3]
      show distance cfg.size ((s.read + m) % cfg.size) s.write ≤ distance cfg.size r s.write
      omega
    · intro rest cursor len pending ht
      have := h.room _ _ _ _ ht
      rw [h3]
      show distance cfg.size ((s.read + m) % cfg.size) s.write + len < cfg.size
      omega

theorem Between.blocking {cfg : Config} {s : State} (h : Between cfg s) : Blocking cfg (unread cfg s) s := by
  refine ⟨h.bounded, ?_, by simp [h.host], by simp [h.target], by simp [h.target], by simp [h.target]⟩
  simp [h.received, h.accepted, h.target, outstanding]

theorem Blocking.step {cfg : Config} {init : List UInt8} {s s' : State} (h : Blocking cfg init s)
    (hbl : Rtt.blocking cfg s = true) (hs : Step cfg s s') : Blocking cfg init s' :=
  hs.elim (h.targetStep hbl) h.hostStep

theorem Blocking.reachable {cfg : Config} {s0 s : State} (h0 : Between cfg s0) (hbl : Rtt.blocking cfg s0 = true)
    (hr : Reachable cfg s0 s) : Blocking cfg (unread cfg s0) s := by
  induction hr with
  | refl => exact h0.blocking
  | step hr hs ih => exact ih.step (hr.blocking.trans hbl) hs

end Defmt.Rtt
