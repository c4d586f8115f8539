import Verif.Spec.Rzcobs
/-! Helper lemmas about the rzCOBS model. -/

namespace Defmt.Rzcobs

/-! ## decoder loop: fuel does not matter -/

theorem takeLoop_len : ∀ n res data res' data', takeLoop n res data = some (res', data') →
    data'.length ≤ data.length := by
  intro n
  induction n with
  | zero => intro res data res' data' h; simp [takeLoop] at h; simp [h.2]
  | succ n ih =>
    intro res data res' data' h
    cases data with
    | nil => simp [takeLoop] at h
    | cons b data =>
      have := ih _ _ _ _ (by simpa [takeLoop] using h)
      simp; omega

theorem bitLoop_len (x : UInt8) : ∀ n res data res' data', bitLoop x n res data = some (res', data') →
    data'.length ≤ data.length := by
  intro n
  induction n with
  | zero => intro res data res' data' h; simp [bitLoop] at h; simp [h.2]
  | succ n ih =>
    intro res data res' data' h
    unfold bitLoop at h
    split at h
    · cases data with
      | nil => simp at h
      | cons b data =>
        have := ih _ _ _ _ h
        simp; omega
    · exact ih _ _ _ _ h

theorem decodeLoop_fuel : ∀ f₁ f₂ res data, data.length ≤ f₁ → data.length ≤ f₂ →
    decodeLoop f₁ res data = decodeLoop f₂ res data := by
  intro f₁
  induction f₁ with
  | zero =>
    intro f₂ res data h₁ h₂
    have : data = [] := by cases data <;> simp_all
    subst this; cases f₂ <;> simp [decodeLoop]
  | succ f₁ ih =>
    intro f₂ res data h₁ h₂
    cases data with
    | nil => cases f₂ <;> simp [decodeLoop]
    | cons x data =>
      cases f₂ with
      | zero => simp at h₂
      | succ f₂ =>
        simp at h₁ h₂
        simp only [decodeLoop]
        split
        · rfl
        split
        · split
          · rfl
          · rename_i r d h
            have := bitLoop_len _ _ _ _ _ _ h
            exact ih _ _ _ (by omega) (by omega)
        split
        · split
          · rfl
          · rename_i r d h
            have := takeLoop_len _ _ _ _ _ h
            exact ih _ _ _ (by omega) (by omega)
        · split
          · rfl
          · rename_i r d h
            have := takeLoop_len _ _ _ _ _ h
            exact ih _ _ _ (by omega) (by omega)

/-- decoder loop with enough fuel -/
def dl (res data : List UInt8) : Option (List UInt8) := decodeLoop data.length res data

theorem dl_nil (res) : dl res [] = some res := by simp [dl, decodeLoop]

theorem dl_cons (res x data) : dl res (x :: data) =
    if x = 0 then none
    else if 0x01 ≤ x ∧ x ≤ 0x7f then
      (bitLoop x 7 res data).bind fun p => dl p.1 p.2
    else if 0x80 ≤ x ∧ x ≤ 0xfe then
      (takeLoop ((x &&& 0x7f) + 7).toNat (res ++ [0]) data).bind fun p => dl p.1 p.2
    else
      (takeLoop 134 res data).bind fun p => dl p.1 p.2 := by
  simp only [dl, List.length_cons, decodeLoop]
  split
  · rfl
  split
  · split
    · rename_i h; rw [h]; rfl
    · rename_i r d h
      simp only [h, Option.bind_some]
      have := bitLoop_len _ _ _ _ _ _ h
      exact decodeLoop_fuel _ _ _ _ (by omega) (by omega)
  split
  · split
    · rename_i h; rw [h]; rfl
    · rename_i r d h
      simp only [h, Option.bind_some]
      have := takeLoop_len _ _ _ _ _ h
      exact decodeLoop_fuel _ _ _ _ (by omega) (by omega)
  · split
    · rename_i h; simp [h]
    · rename_i r d h
      simp only [h, Option.bind_some]
      have := takeLoop_len _ _ _ _ _ h
      exact decodeLoop_fuel _ _ _ _ (by omega) (by omega)

theorem rzcobsDecode_eq (data) : rzcobsDecode data = (dl [] data.reverse).map List.reverse := by
  simp [rzcobsDecode, dl]

/-! ## groups -/

/-- bit mask of the zero positions -/
def mask : List UInt8 → Nat
  | [] => 0
  | b :: bs => (if b = 0 then 1 else 0) + 2 * mask bs

def nz (l : List UInt8) : List UInt8 := l.filter (· ≠ 0)

theorem nz_append (a b) : nz (a ++ b) = nz a ++ nz b := by simp [nz]
theorem nz_eq_self (l) (h : ∀ b ∈ l, b ≠ 0) : nz l = l := by
  simp only [nz]; rw [List.filter_eq_self]; simpa using h
theorem nz_ne (l) : ∀ b ∈ nz l, b ≠ 0 := by simp [nz]

theorem mask_lt (l) : mask l < 2 ^ l.length := by
  induction l with
  | nil => simp [mask]
  | cons b bs ih => simp only [mask, List.length_cons, Nat.pow_succ]; split <;> omega

theorem mask_append_one (l b) : mask (l ++ [b]) = mask l + (if b = 0 then 2 ^ l.length else 0) := by
  induction l with
  | nil => simp [mask]
  | cons c cs ih =>
    simp only [List.cons_append, mask, ih, List.length_cons, Nat.pow_succ]
    split <;> split <;> omega

theorem mask_zero_iff (l) : mask l = 0 ↔ ∀ b ∈ l, b ≠ 0 := by
  induction l with
  | nil => simp [mask]
  | cons b bs ih =>
    simp only [mask, List.mem_cons, forall_eq_or_imp, ← ih]
    split <;> rename_i h
    · simp [h]
    · simp only [h, ne_eq, not_false_eq_true, true_and]; omega

theorem mask_replicate (n : Nat) : mask (List.replicate n 0) + 1 = 2 ^ n := by
  induction n with
  | zero => simp [mask]
  | succ n ih => simp only [List.replicate_succ, mask, Nat.pow_succ]; simp; omega

theorem mask_append (l m) : mask (l ++ m) = mask l + 2 ^ l.length * mask m := by
  induction l with
  | nil => simp [mask]
  | cons b bs ih =>
    simp only [List.cons_append, mask, ih, List.length_cons, Nat.pow_succ]
    rw [Nat.mul_add, Nat.mul_comm (2 ^ bs.length) 2, Nat.mul_assoc]; omega

theorem shl_toNat : ∀ k : Nat, k < 8 → ((1 : UInt8) <<< UInt8.ofNat k).toNat = 2 ^ k := by decide

theorem u8_eq_zero (x : UInt8) : x = 0 ↔ x.toNat = 0 := by
  constructor
  · rintro rfl; rfl
  · intro h; exact UInt8.toNat_inj.mp (by simpa using h)

theorem and_shl_eq_zero (x : UInt8) (k : Nat) (hk : k < 8) :
    x &&& ((1 : UInt8) <<< UInt8.ofNat k) = 0 ↔ x.toNat.testBit k = false := by
  rw [u8_eq_zero, UInt8.toNat_and, shl_toNat k hk]
  constructor
  · intro h
    have := congrArg (fun n => n.testBit k) h
    simpa [Nat.testBit_and, Nat.testBit_two_pow_self] using this
  · intro h
    apply Nat.eq_of_testBit_eq
    intro i
    simp only [Nat.testBit_and, Nat.zero_testBit, Nat.testBit_two_pow]
    by_cases hi : k = i
    · subst hi; simp [h]
    · simp [hi]

theorem bitLoop_spec (x : UInt8) : ∀ k, k ≤ 7 → ∀ t : List UInt8, t.length = k →
    x.toNat % 2 ^ k = mask t → ∀ res rest,
    bitLoop x k res ((nz t).reverse ++ rest) = some (res ++ t.reverse, rest) := by
  intro k
  induction k with
  | zero =>
    intro _ t ht _ res rest
    have : t = [] := List.length_eq_zero_iff.mp ht
    subst this; simp [bitLoop, nz]
  | succ k ih =>
    intro hk t ht hm res rest
    obtain ⟨t', b, rfl⟩ : ∃ t' b, t = t' ++ [b] := by
      exact ⟨t.dropLast, t.getLast (by intro h; simp [h] at ht), (List.dropLast_concat_getLast _).symm⟩
    simp only [List.length_append, List.length_singleton] at ht
    have ht' : t'.length = k := by omega
    rw [mask_append_one, ht'] at hm
    have hlt := mask_lt t'
    rw [ht'] at hlt
    have hlow : x.toNat % 2 ^ k = mask t' := by
      have : x.toNat % 2 ^ k = (x.toNat % 2 ^ (k + 1)) % 2 ^ k := by
        rw [Nat.mod_mod_of_dvd]; exact Nat.pow_dvd_pow 2 (by omega)
      rw [this, hm]
      split
      · rw [Nat.add_mod_right, Nat.mod_eq_of_lt hlt]
      · rw [Nat.add_zero, Nat.mod_eq_of_lt hlt]
    have hbit : x.toNat.testBit k = decide (b = 0) := by
      have h1 : x.toNat.testBit k = (x.toNat % 2 ^ (k + 1)).testBit k := by
        rw [Nat.testBit_mod_two_pow]; simp
      rw [h1, hm]
      split <;> rename_i hb
      · rw [Nat.add_comm, Nat.testBit_two_pow_add_eq, Nat.testBit_lt_two_pow hlt]; simp [hb]
      · rw [Nat.add_zero, Nat.testBit_lt_two_pow hlt]; simp [hb]
    unfold bitLoop
    rw [nz_append]
    by_cases hb : b = 0
    · rw [if_neg]
      · subst hb
        have := ih (by omega) t' ht' hlow (res ++ [0]) rest
        simp [nz] at this ⊢
        exact this
      · rw [and_shl_eq_zero x k (by omega), hbit]; simp [hb]
    · rw [if_pos]
      · have := ih (by omega) t' ht' hlow (res ++ [b]) rest
        simp [nz, hb] at this ⊢
        exact this
      · rw [and_shl_eq_zero x k (by omega), hbit]; simp [hb]

theorem takeLoop_spec : ∀ (l : List UInt8) (res rest), takeLoop l.length res (l ++ rest) =
    some (res ++ l, rest) := by
  intro l
  induction l with
  | nil => simp [takeLoop]
  | cons b l ih => intro res rest; simp [takeLoop, ih]

/-- `o` is the encoding of `q` as a sequence of complete groups -/
def Dec (o q : List UInt8) : Prop :=
  ∀ res rest, dl res (o.reverse ++ rest) = dl (res ++ q.reverse) rest

theorem Dec.nil : Dec [] [] := by intro res rest; simp

theorem Dec.append {o₁ q₁ o₂ q₂} (h₁ : Dec o₁ q₁) (h₂ : Dec o₂ q₂) : Dec (o₁ ++ o₂) (q₁ ++ q₂) := by
  intro res rest
  rw [List.reverse_append, List.append_assoc, h₂, h₁]
  simp

theorem Dec.bits (t : List UInt8) (x : UInt8) (ht : t.length = 7) (hx : x.toNat = mask t)
    (h0 : x ≠ 0) : Dec (nz t ++ [x]) t := by
  intro res rest
  have hlt := mask_lt t
  rw [ht] at hlt
  simp only [List.reverse_append, List.reverse_cons, List.reverse_nil, List.nil_append,
    List.cons_append]
  rw [dl_cons, if_neg h0, if_pos]
  · rw [bitLoop_spec x 7 (by omega) t ht (by rw [hx]; exact Nat.mod_eq_of_lt hlt)]
    simp
  · have : x.toNat ≠ 0 := fun h => h0 ((u8_eq_zero x).mpr h)
    simp only [UInt8.le_iff_toNat_le]
    simp; omega

theorem marker_facts : ∀ n : Nat, n < 127 →
    let x := (UInt8.ofNat (n + 7) - 7) ||| 0x80
    x ≠ 0 ∧ ¬ (0x01 ≤ x ∧ x ≤ 0x7f) ∧ (0x80 ≤ x ∧ x ≤ 0xfe) ∧ ((x &&& 0x7f) + 7).toNat = n + 7 := by
  decide +kernel

theorem Dec.run (t : List UInt8) (r : UInt8) (hr : r.toNat = t.length) (h7 : 7 ≤ t.length)
    (h134 : t.length < 134) : Dec (t ++ [(r - 7) ||| 0x80]) (t ++ [0]) := by
  intro res rest
  obtain ⟨h0, h1, h2, h3⟩ := marker_facts (t.length - 7) (by omega)
  have hr' : UInt8.ofNat (t.length - 7 + 7) = r := by
    rw [show t.length - 7 + 7 = t.length by omega, ← hr]; simp
  rw [hr'] at h0 h1 h2 h3
  simp only [List.reverse_append, List.reverse_cons, List.reverse_nil, List.nil_append,
    List.cons_append]
  rw [dl_cons, if_neg h0, if_neg h1, if_pos h2, h3]
  have := takeLoop_spec t.reverse (res ++ [0]) rest
  rw [List.length_reverse] at this
  rw [show t.length - 7 + 7 = t.length by omega, this]
  simp

theorem Dec.full (t : List UInt8) (ht : t.length = 134) : Dec (t ++ [0xFF]) t := by
  intro res rest
  simp only [List.reverse_append, List.reverse_cons, List.reverse_nil, List.nil_append,
    List.cons_append]
  rw [dl_cons, if_neg (by decide), if_neg (by decide), if_neg (by decide)]
  have := takeLoop_spec t.reverse res rest
  rw [List.length_reverse, ht] at this
  rw [this]; simp

/-! ## encoder invariant -/

/-- After writing `p` and emitting `out`, the encoder has finished groups `q` (emitted as `oq`) and
holds an open group `t`. -/
structure Inv (e : Encoder) (p out : List UInt8) : Prop where
  ex : ∃ q t oq, p = q ++ t ∧ out = oq ++ nz t ∧ Dec oq q ∧ (∀ b ∈ oq, b ≠ 0) ∧
    oq.length ≤ q.length + q.length / 134 ∧
    e.run.toNat = t.length ∧ t.length < 134 ∧ e.zeros.toNat = mask t ∧
    (7 ≤ t.length → mask t = 0)

theorem run_succ (r : UInt8) (h : r.toNat < 134) : (r + 1).toNat = r.toNat + 1 := by
  rw [UInt8.toNat_add]; simp; omega

theorem zeros_or (z r : UInt8) (t : List UInt8) (hr : r.toNat = t.length) (h7 : t.length < 7)
    (hz : z.toNat = mask t) : (z ||| ((1 : UInt8) <<< r)).toNat = mask (t ++ [0]) := by
  rw [UInt8.toNat_or]
  have : r = UInt8.ofNat t.length := by rw [← hr]; simp
  rw [this, shl_toNat _ (by omega), hz, mask_append_one, if_pos rfl, Nat.or_comm]
  have := Nat.two_pow_add_eq_or_of_lt (i := t.length) (mask_lt t) 1
  rw [Nat.mul_one] at this
  rw [← this, Nat.add_comm]

theorem Inv.writeByte {e p out} (h : Inv e p out) (b : UInt8) :
    Inv (e.writeByte b).1 (p ++ [b]) (out ++ (e.writeByte b).2) := by
  obtain ⟨q, t, oq, hp, ho, hd, hnz, hlen, hrun, h134, hz, h7⟩ := h.ex
  have key : ∀ (z : UInt8) (o : List UInt8), z.toNat = mask (t ++ [b]) → o = nz [b] → t.length < 7 →
      Inv (if e.run + 1 = 7 ∧ z ≠ 0 then
        (({ e with run := 0, zeros := 0 } : Encoder), o ++ [z])
        else ({ e with run := e.run + 1, zeros := z }, o)).1 (p ++ [b])
        (out ++ (if e.run + 1 = 7 ∧ z ≠ 0 then
        (({ e with run := 0, zeros := 0 } : Encoder), o ++ [z])
        else ({ e with run := e.run + 1, zeros := z }, o)).2) := by
    intro z o hz' ho' hlt
    have hrun' := run_succ e.run (by omega)
    split
    · rename_i hc
      have h7' : (t ++ [b]).length = 7 := by
        have := congrArg UInt8.toNat hc.1
        rw [hrun', hrun] at this; simpa using this
      refine ⟨⟨q ++ (t ++ [b]), [], oq ++ (nz (t ++ [b]) ++ [z]), ?_, ?_, ?_, ?_, ?_, ?_, ?_, ?_, ?_⟩⟩
      · simp [hp]
      · simp [ho, ho', nz_append, nz]
      · exact hd.append (Dec.bits _ _ h7' hz' hc.2)
      · intro c hc'
        simp only [List.mem_append, List.mem_singleton] at hc'
        rcases hc' with h | h | h
        · exact hnz c h
        · exact nz_ne _ c h
        · rw [h]; exact hc.2
      · have : (nz (t ++ [b])).length < 7 := by
          have hne : nz (t ++ [b]) ≠ t ++ [b] := by
            intro heq
            have hm : mask (t ++ [b]) = 0 := by
              rw [mask_zero_iff]; intro c hc; rw [← heq] at hc; exact nz_ne _ c hc
            exact hc.2 ((u8_eq_zero z).mpr (by rw [hz', hm]))
          have hle : (nz (t ++ [b])).length ≤ (t ++ [b]).length := List.length_filter_le _ _
          rcases Nat.lt_or_ge (nz (t ++ [b])).length 7 with h | h
          · exact h
          · exact absurd (List.Sublist.eq_of_length_le List.filter_sublist (by rw [h7']; exact h)) hne
        have h3 : (q ++ (t ++ [b])).length = q.length + 7 := by simp only [List.length_append] at h7' ⊢; omega
        rw [h3]; simp only [List.length_append] at this ⊢; simp at this ⊢; omega
      · simp
      · simp
      · simp [mask]
      · simp
    · rename_i hc
      refine ⟨⟨q, t ++ [b], oq, ?_, ?_, hd, hnz, hlen, ?_, ?_, hz', ?_⟩⟩
      · simp [hp]
      · simp [ho, ho', nz_append]
      · simp [hrun', hrun]
      · simp; omega
      · intro h
        have h7' : t.length + 1 = 7 := by simp at h; omega
        have : e.run + 1 = 7 := UInt8.toNat_inj.mp (by rw [hrun', hrun, h7']; rfl)
        simp only [this, true_and, Decidable.not_not, ne_eq] at hc
        rw [← hz', hc]; rfl
  unfold Encoder.writeByte
  by_cases hlt : e.run < 7
  · have hlt' : t.length < 7 := by rw [← hrun]; exact UInt8.lt_iff_toNat_lt.mp hlt
    rw [if_pos hlt]
    by_cases hb : b = 0
    · subst hb
      simp only [↓reduceIte]
      exact key _ _ (zeros_or _ _ _ hrun hlt' hz) (by simp [nz]) hlt'
    · simp only [if_neg hb]
      exact key _ _ (by rw [hz, mask_append_one, if_neg hb]; rfl) (by simp [nz, hb]) hlt'
  · have hge : 7 ≤ t.length := by
      rw [← hrun]; rw [UInt8.lt_iff_toNat_lt] at hlt; simpa using hlt
    have hall := (mask_zero_iff t).mp (h7 hge)
    have hnzt := nz_eq_self t hall
    rw [if_neg hlt]
    by_cases hb : b = 0
    · subst hb
      simp only [↓reduceIte]
      refine ⟨⟨q ++ (t ++ [0]), [], oq ++ (t ++ [(e.run - 7) ||| 0x80]), ?_, ?_, ?_, ?_, ?_, ?_, ?_, ?_, ?_⟩⟩
      · simp [hp]
      · rw [ho, hnzt]; simp [nz]
      · exact hd.append (Dec.run t _ hrun hge h134)
      · intro c hc
        simp only [List.mem_append, List.mem_singleton] at hc
        rcases hc with h | h | h
        · exact hnz c h
        · exact hall c h
        · rw [h]
          have := (marker_facts (t.length - 7) (by omega)).1
          rwa [show UInt8.ofNat (t.length - 7 + 7) = e.run by
            rw [show t.length - 7 + 7 = t.length by omega, ← hrun]; simp] at this
      · simp only [List.length_append, List.length_singleton] at hlen ⊢; omega
      · simp
      · simp
      · simp [mask]
      · simp
    · simp only [if_neg hb]
      have hrun' := run_succ e.run (by omega)
      have hallb : ∀ c ∈ t ++ [b], c ≠ 0 := by
        intro c hc; simp only [List.mem_append, List.mem_singleton] at hc
        rcases hc with h | h
        · exact hall c h
        · rw [h]; exact hb
      split
      · rename_i hc
        have hl : (t ++ [b]).length = 134 := by
          have := congrArg UInt8.toNat hc
          rw [hrun', hrun] at this; simpa using this
        refine ⟨⟨q ++ (t ++ [b]), [], oq ++ ((t ++ [b]) ++ [0xFF]), ?_, ?_, ?_, ?_, ?_, ?_, ?_, ?_, ?_⟩⟩
        · simp [hp]
        · rw [ho, hnzt]; simp [nz]
        · exact hd.append (Dec.full _ hl)
        · intro c hc
          simp only [List.mem_append, List.mem_singleton] at hc
          rcases hc with h | (h | h) | h
          · exact hnz c h
          · exact hall c h
          · rw [h]; exact hb
          · rw [h]; decide
        · have h3 : (q ++ (t ++ [b])).length = q.length + 134 := by simp only [List.length_append] at hl ⊢; omega
          rw [h3]; simp only [List.length_append, List.length_singleton] at hl ⊢; omega
        · simp
        · simp
        · simp [mask]
        · simp
      · rename_i hc
        refine ⟨⟨q, t ++ [b], oq, ?_, ?_, hd, hnz, hlen, ?_, ?_, ?_, ?_⟩⟩
        · simp [hp]
        · rw [ho, hnzt, nz_eq_self _ hallb]; simp
        · simp [hrun', hrun]
        · have : t.length + 1 ≠ 134 := fun h => hc (UInt8.toNat_inj.mp (by rw [hrun', hrun, h]; rfl))
          simp; omega
        · rw [(mask_zero_iff _).mpr hallb, hz, (mask_zero_iff _).mpr hall]
        · intro _; exact (mask_zero_iff _).mpr hallb

theorem Inv.write (data : List UInt8) : ∀ {e p out}, Inv e p out →
    Inv (e.write data).1 (p ++ data) (out ++ (e.write data).2) := by
  induction data with
  | nil => intro e p out h; simpa [Encoder.write] using h
  | cons b bs ih =>
    intro e p out h
    have := ih (h.writeByte b)
    simpa [Encoder.write] using this

theorem Inv.start (st : Bool) : Inv { run := 0, zeros := 0, started := st } [] [] :=
  ⟨⟨[], [], [], rfl, rfl, Dec.nil, by simp, by simp, by simp, by simp, by simp [mask], by simp⟩⟩

theorem end_marker' : ∀ r : Nat, r < 7 → 1 ≤ r → ∀ z : Nat, z < 2 ^ r →
    ((UInt8.ofNat z ||| ((0xFF : UInt8) <<< UInt8.ofNat r)) &&& 0x7F).toNat = z + (128 - 2 ^ r) := by
  decide +kernel

theorem end_marker (r : Nat) (h1 : 1 ≤ r) (h6 : r ≤ 6) (z : Nat) (hz : z < 2 ^ r) :
    ((UInt8.ofNat z ||| ((0xFF : UInt8) <<< UInt8.ofNat r)) &&& 0x7F).toNat = z + (128 - 2 ^ r) :=
  end_marker' r (by omega) h1 z hz

theorem Dec.len_zero_of (l : List UInt8) : l.length = 0 → l = [] := List.length_eq_zero_iff.mp

/-- finishing a frame -/
theorem Inv.endFrame {e p out} (h : Inv e p out) : ∃ body k,
    e.endFrame.2 = body ++ [0] ∧ k ≤ 6 ∧ Dec (out ++ body) (p ++ List.replicate k 0) ∧
    (∀ b ∈ out ++ body, b ≠ 0) ∧ (out ++ body).length ≤ p.length + p.length / 134 + 1 ∧
    e.endFrame.1 = { run := 0, zeros := 0, started := e.started } := by
  obtain ⟨q, t, oq, hp, ho, hd, hnz, hlen, hrun, h134, hz, h7⟩ := h.ex
  have hlenle : (nz t).length ≤ t.length := List.length_filter_le _ _
  unfold Encoder.endFrame
  by_cases h0 : e.run = 0
  · have : t = [] := Dec.len_zero_of _ (by rw [← hrun, h0]; rfl)
    subst this
    refine ⟨[], 0, ?_, by omega, ?_, ?_, ?_, rfl⟩
    · simp [h0]
    · simpa [ho, hp, nz] using hd
    · simpa [ho, nz] using hnz
    · simp [ho, hp, nz]; omega
  · have hpos : 1 ≤ t.length := by
      rw [← hrun]
      have : e.run.toNat ≠ 0 := fun h => h0 ((u8_eq_zero _).mpr h)
      omega
    by_cases h6 : t.length ≤ 6
    · have hc : 1 ≤ e.run ∧ e.run ≤ 6 := by
        simp only [UInt8.le_iff_toNat_le, hrun]; simp; omega
      have hre : e.run = UInt8.ofNat t.length := by rw [← hrun]; simp
      have hze : e.zeros = UInt8.ofNat (mask t) := by rw [← hz]; simp
      have hm := end_marker t.length hpos h6 (mask t) (mask_lt t)
      rw [← hre, ← hze] at hm
      have hmask : mask (t ++ List.replicate (7 - t.length) 0) = mask t + (128 - 2 ^ t.length) := by
        rw [mask_append]
        have h1 := mask_replicate (7 - t.length)
        have h2 : 2 ^ t.length * 2 ^ (7 - t.length) = 128 := by
          rw [← Nat.pow_add, show t.length + (7 - t.length) = 7 by omega]
        rw [← h1, Nat.mul_add, Nat.mul_one] at h2
        omega
      have hpw : 2 ^ t.length < 128 := by
        have : 2 ^ t.length < 2 ^ 7 := Nat.pow_lt_pow_right (by omega) (by omega)
        simpa using this
      refine ⟨[(e.zeros ||| ((0xFF : UInt8) <<< e.run)) &&& 0x7F], 7 - t.length, ?_, by omega, ?_, ?_, ?_, rfl⟩
      · simp only [if_neg h0, if_pos hc]
      · have := hd.append (Dec.bits (t ++ List.replicate (7 - t.length) 0) _ (by simp; omega)
          (by rw [hmask]; exact hm) (by intro h; rw [h] at hm; simp at hm; omega))
        have hn : nz (t ++ List.replicate (7 - t.length) 0) = nz t := by
          rw [nz_append]
          have : nz (List.replicate (7 - t.length) 0) = [] := by
            simp [nz]
          rw [this, List.append_nil]
        rw [hn] at this
        rw [ho, hp]
        simpa using this
      · intro b hb
        rw [ho] at hb
        simp only [List.mem_append, List.mem_singleton] at hb
        rcases hb with (hb | hb) | hb
        · exact hnz b hb
        · exact nz_ne _ b hb
        · rw [hb]; intro h; rw [h] at hm; simp at hm; omega
      · rw [ho, hp]; simp only [List.length_append, List.length_singleton] at *; omega
    · have hc : ¬ (1 ≤ e.run ∧ e.run ≤ 6) := by
        simp only [UInt8.le_iff_toNat_le, hrun]; simp; omega
      have hall := (mask_zero_iff t).mp (h7 (by omega))
      have hnzt := nz_eq_self t hall
      refine ⟨[(e.run - 7) ||| 0x80], 1, ?_, by omega, ?_, ?_, ?_, rfl⟩
      · simp only [if_neg h0, if_neg hc]
      · have := hd.append (Dec.run t _ hrun (by omega) h134)
        rw [ho, hp, hnzt]
        simpa using this
      · intro b hb
        rw [ho, hnzt] at hb
        simp only [List.mem_append, List.mem_singleton] at hb
        rcases hb with (hb | hb) | hb
        · exact hnz b hb
        · exact hall b hb
        · rw [hb]
          have := (marker_facts (t.length - 7) (by omega)).1
          rwa [show UInt8.ofNat (t.length - 7 + 7) = e.run by
            rw [show t.length - 7 + 7 = t.length by omega, ← hrun]; simp] at this
      · rw [ho, hp]; simp only [List.length_append, List.length_singleton] at *; omega

/-- everything about one frame -/
theorem frame_facts (p : List UInt8) : ∃ body k, frameBytes p = body ++ [0] ∧ k ≤ 6 ∧
    Dec body (p ++ List.replicate k 0) ∧ (∀ b ∈ body, b ≠ 0) ∧
    body.length ≤ p.length + p.length / 134 + 1 := by
  have h := Inv.write p (Inv.start true)
  simp only [List.nil_append] at h
  obtain ⟨body, k, h1, h2, h3, h4, h5, _⟩ := h.endFrame
  refine ⟨_, k, ?_, h2, h3, h4, h5⟩
  simp only [frameBytes]
  rw [h1]; simp

theorem Encoder.write_started (e : Encoder) (data) : (e.write data).1.started = e.started := by
  induction data generalizing e with
  | nil => rfl
  | cons b bs ih =>
    simp only [Encoder.write, ih]
    unfold Encoder.writeByte
    dsimp only
    split <;> (split <;> try split) <;> (try split) <;> rfl

theorem Encoder.write_append (e : Encoder) (a b : List UInt8) : e.write (a ++ b) =
    (((e.write a).1.write b).1, (e.write a).2 ++ ((e.write a).1.write b).2) := by
  induction a generalizing e with
  | nil => simp [Encoder.write]
  | cons x xs ih => simp [Encoder.write, ih]

theorem go_eq (e : Encoder) (ws : List (List UInt8)) :
    runFrames.go e ws = e.write ws.flatten := by
  induction ws generalizing e with
  | nil => rfl
  | cons w ws ih => simp [runFrames.go, ih, Encoder.write_append]

end Defmt.Rzcobs
