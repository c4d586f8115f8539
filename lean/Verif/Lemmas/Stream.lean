import Verif.Spec.Stream
import Verif.Lemmas.Rzcobs
/-! Helper lemmas about the stream decoders. -/

namespace Defmt.Stream

variable {F : Type}

theorem trimZeros_head (d) : trimZeros d = [] ∨ (trimZeros d).head? ≠ some 0 := by
  induction d with
  | nil => simp [trimZeros]
  | cons b bs ih =>
    simp only [trimZeros]
    split
    · exact ih
    · right; simpa

theorem scan_trim (d) : scan [] (trimZeros d) = scan [] d := by
  induction d with
  | nil => rfl
  | cons b bs ih =>
    simp only [trimZeros]
    split
    · rename_i h; rw [ih, h]; simp [scan]
    · rfl

theorem scan_append (a : List UInt8) : ∀ cur b, scan cur (a ++ b) =
    ((scan cur a).1 ++ (scan (scan cur a).2 b).1, (scan (scan cur a).2 b).2) := by
  induction a with
  | nil => intro cur b; simp [scan]
  | cons x xs ih =>
    intro cur b
    simp only [List.cons_append, scan]
    split
    · simp only [ih]; split <;> simp
    · exact ih _ _

theorem scan_nonzero (a : List UInt8) (h : ∀ b ∈ a, b ≠ 0) : ∀ cur, scan cur a = ([], cur ++ a) := by
  induction a with
  | nil => intro cur; simp [scan]
  | cons x xs ih =>
    intro cur
    simp only [scan, if_neg (h x (by simp))]
    rw [ih (fun b hb => h b (by simp [hb]))]; simp

theorem scan_block (a rest : List UInt8) (h : ∀ b ∈ a, b ≠ 0) (hne : a ≠ []) :
    scan [] (a ++ 0 :: rest) = (a :: (scan [] rest).1, (scan [] rest).2) := by
  rw [scan_append, scan_nonzero a h]; simp [scan, hne]

theorem scan_unfinished_nz (w : List UInt8) : ∀ cur, (∀ b ∈ cur, b ≠ 0) →
    ∀ b ∈ (scan cur w).2, b ≠ 0 := by
  induction w with
  | nil => intro cur h; simpa [scan] using h
  | cons x xs ih =>
    intro cur h
    simp only [scan]
    split
    · exact ih [] (by simp)
    · rename_i hx
      apply ih
      intro b hb
      simp only [List.mem_append, List.mem_singleton] at hb
      rcases hb with hb | hb
      · exact h b hb
      · rw [hb]; exact hx

theorem position_zero_none (l) : position (· == 0) l = none ↔ ∀ b ∈ l, b ≠ 0 := by
  induction l with
  | nil => simp [position]
  | cons b bs ih =>
    simp only [position]
    by_cases hb : b = 0 <;> simp [hb, ih]

theorem position_zero_some (l k) (h : position (· == 0) l = some k) :
    (∀ b ∈ l.take k, b ≠ 0) ∧ ∃ rest, l.drop k = 0 :: rest := by
  induction l generalizing k with
  | nil => simp [position] at h
  | cons b bs ih =>
    simp only [position] at h
    by_cases hb : b = 0
    · simp [hb] at h; subst h; simp [hb]
    · simp [hb] at h
      obtain ⟨j, hj, rfl⟩ := h
      have := ih j hj
      simpa [hb] using this

theorem position_nonzero (l) : (match position (· != 0) l with
    | some n => l.drop n | none => []) = trimZeros l := by
  induction l with
  | nil => simp [position, trimZeros]
  | cons b bs ih =>
    simp only [position, trimZeros]
    by_cases hb : b = 0
    · simp only [hb, bne_self_eq_false, Bool.false_eq_true, ↓reduceIte, ← ih]
      cases h : position (· != 0) bs <;> simp
    · simp [hb]

theorem trimZeros_len (l) : (trimZeros l).length ≤ l.length := by
  induction l with
  | nil => simp [trimZeros]
  | cons b bs ih => simp only [trimZeros]; split <;> simp <;> omega

/-- one decode call, no separator in the buffer -/
theorem decode_none (td : List UInt8 → Except DecodeError (F × Nat)) (raw : List UInt8)
    (h : ∀ b ∈ raw, b ≠ 0) : Rzcobs.decode td raw = (raw, .err .unexpectedEof) := by
  simp only [Rzcobs.decode, (position_zero_none raw).mpr h]

/-- one decode call with a separator in the buffer -/
theorem decode_some (td : List UInt8 → Except DecodeError (F × Nat)) (raw : List UInt8) (k)
    (h : position (· == 0) raw = some k) :
    ∃ rest, raw = raw.take k ++ 0 :: rest ∧ (∀ b ∈ raw.take k, b ≠ 0) ∧
    Rzcobs.decode td raw = (trimZeros rest, report td (raw.take k)) := by
  obtain ⟨h1, rest, h2⟩ := position_zero_some raw k h
  refine ⟨rest, ?_, h1, ?_⟩
  · rw [← h2]; simp
  · have hpn := position_nonzero (raw.drop k)
    have htr : trimZeros (raw.drop k) = trimZeros rest := by rw [h2]; simp [trimZeros]
    rw [htr] at hpn
    have hcond : (trimZeros rest).isEmpty ∨ (trimZeros rest).head? ≠ some 0 := by
      rcases trimZeros_head rest with h | h
      · left; simp [h]
      · right; exact h
    have fin : ∀ raw' : List UInt8, raw' = trimZeros rest →
        (if raw'.isEmpty ∨ raw'.head? ≠ some 0 then
          match Rzcobs.rzcobsDecode (raw.take k) with
          | none => (raw', DecodeResult.err .malformed)
          | some frame =>
            match td frame with
            | .ok (f, _consumed) => (raw', .frame f)
            | .error _ => (raw', .err .malformed)
        else (raw', .panicked)) = (trimZeros rest, report td (raw.take k)) := by
      intro raw' he
      rw [he, if_pos hcond]
      simp only [report]
      cases Rzcobs.rzcobsDecode (raw.take k) with
      | none => rfl
      | some p =>
        dsimp only
        cases td p with
        | error e => rfl
        | ok r => rfl
    unfold Rzcobs.decode
    rw [h]
    apply fin
    cases hq : position (· != 0) (raw.drop k) with
    | none => rw [hq] at hpn; exact hpn
    | some n => rw [hq] at hpn; simp only [List.drop_drop] at hpn ⊢; exact hpn

theorem report_ne_eof (td : List UInt8 → Except DecodeError (F × Nat)) (b) :
    report td b ≠ .err .unexpectedEof := by
  simp only [report]; split
  · simp
  · split <;> simp

theorem report_ne_panicked (td : List UInt8 → Except DecodeError (F × Nat)) (b) :
    report td b ≠ .panicked := by
  simp only [report]; split
  · simp
  · split <;> simp

/-- buffer invariant -/
def BufInv (raw : List UInt8) : Prop := raw = [] ∨ raw.head? ≠ some 0

theorem received_inv {raw} (h : BufInv raw) (data) : BufInv (Rzcobs.received raw data) := by
  unfold Rzcobs.received
  split
  · rename_i he
    have : raw = [] := by simpa using he
    subst this; exact trimZeros_head data
  · rename_i he
    right
    rcases h with h | h
    · simp [h] at he
    · cases raw with
      | nil => simp at he
      | cons b bs => simpa using h

theorem decode_inv (td : List UInt8 → Except DecodeError (F × Nat)) {raw} (h : BufInv raw) :
    BufInv (Rzcobs.decode td raw).1 := by
  cases hp : position (· == 0) raw with
  | none =>
    rw [decode_none td raw ((position_zero_none raw).mp hp)]; exact h
  | some k =>
    obtain ⟨rest, -, -, h2⟩ := decode_some td raw k hp
    rw [h2]; exact trimZeros_head rest

theorem reachable_inv (td : List UInt8 → Except DecodeError (F × Nat)) {raw}
    (h : Reachable td raw) : BufInv raw := by
  induction h with
  | new => left; rfl
  | received data _ ih => exact received_inv ih data
  | decode _ ih => exact decode_inv td ih

theorem BufInv.take_ne {raw k} (h : BufInv raw) (hp : position (· == 0) raw = some k) :
    raw.take k ≠ [] := by
  cases raw with
  | nil => simp [position] at hp
  | cons b bs =>
    have hb : b ≠ 0 := by
      rcases h with h | h
      · simp at h
      · simpa using h
    simp [position, hb] at hp
    obtain ⟨j, _, rfl⟩ := hp
    simp

theorem drain_spec (td : List UInt8 → Except DecodeError (F × Nat)) : ∀ fuel raw, BufInv raw →
    raw.length < fuel →
    Rzcobs.drain td fuel raw = some ((scan [] raw).2, (scan [] raw).1.map (report td)) := by
  intro fuel
  induction fuel with
  | zero => intro raw _ h; omega
  | succ fuel ih =>
    intro raw hinv hlen
    unfold Rzcobs.drain
    cases hp : position (· == 0) raw with
    | none =>
      have hz := (position_zero_none raw).mp hp
      rw [decode_none td raw hz, scan_nonzero raw hz]
      simp
    | some k =>
      obtain ⟨rest, h1, h2, h3⟩ := decode_some td raw k hp
      rw [h3]
      have hl : raw.length = (raw.take k).length + 1 + rest.length := by
        have := congrArg List.length h1
        simp only [List.length_append, List.length_cons] at this
        omega
      have htl := trimZeros_len rest
      have := ih (trimZeros rest) (trimZeros_head rest) (by omega)
      have hs : scan [] raw = (raw.take k :: (scan [] rest).1, (scan [] rest).2) := by
        conv => lhs; rw [h1]
        exact scan_block _ _ h2 (hinv.take_ne hp)
      split
      · rename_i heq
        simp only [Prod.mk.injEq] at heq
        exact absurd heq.2 (report_ne_eof td _)
      · rename_i heq
        simp only [Prod.mk.injEq] at heq
        obtain ⟨rfl, rfl⟩ := heq
        rw [this]
        simp only [scan_trim, hs, List.map_cons]

theorem received_scan (u data : List UInt8) (hu : ∀ b ∈ u, b ≠ 0) :
    scan [] (Rzcobs.received u data) = scan [] (u ++ data) := by
  unfold Rzcobs.received
  split
  · rename_i he
    have : u = [] := by simpa using he
    subst this; simpa using scan_trim data
  · rfl

theorem nzInv {u : List UInt8} (hu : ∀ b ∈ u, b ≠ 0) : BufInv u := by
  cases u with
  | nil => left; rfl
  | cons b bs => right; simpa using hu b (by simp)

theorem feed_spec (td : List UInt8 → Except DecodeError (F × Nat)) (cs : List (List UInt8)) :
    ∀ u, (∀ b ∈ u, b ≠ 0) → Rzcobs.feed td u cs =
      some ((scan u cs.flatten).2, (scan u cs.flatten).1.map (report td)) := by
  induction cs with
  | nil => intro u _; simp [Rzcobs.feed, scan]
  | cons c cs ih =>
    intro u hu
    simp only [Rzcobs.feed]
    rw [drain_spec td _ _ (received_inv (nzInv hu) c) (by omega)]
    have h1 : scan [] (Rzcobs.received u c) = scan u c := by
      rw [received_scan u c hu, scan_append, scan_nonzero u hu]; simp
    simp only [h1]
    rw [ih _ (scan_unfinished_nz c u hu)]
    simp only [List.flatten_cons, scan_append, List.map_append]

end Defmt.Stream
