import Verif.Spec.WireSize
import Verif.Lemmas.RoundTrip
/-!
Lemmas about the number of bytes that are sent.
-/

namespace Defmt.WireSize

open Parser Encoder

theorem leInt_length (n : Nat) (i : Int) : (leInt n i).length = n := le_length n _

theorem utf8Char_length (c : Char) : (utf8Char c).length = c.utf8Size := by
  unfold utf8Char Char.utf8Size
  have e : c.toNat = c.val.toNat := rfl
  simp only [e, UInt32.le_iff_toNat_le]
  change _ = if c.val.toNat ≤ 127 then 1 else if c.val.toNat ≤ 2047 then 2 else if c.val.toNat ≤ 65535 then 3 else 4
  repeat' split
  all_goals first | rfl | (exfalso; omega)

theorem utf8_length (s : List Char) : (utf8 s).length = textSize s := by
  induction s with
  | nil => rfl
  | cons c cs ih => simp only [utf8, textSize, List.length_append, List.map_cons, List.sum_cons, utf8Char_length] at *; omega

theorem truncatedSize_smallest {s e d : Nat} (h : truncatedSize s e = some d) :
    smallest [1, 2, 4, 8, 16] (fun k => (e - 1) / 8 - s / 8 + 1 ≤ k) = d := by
  simp only [truncatedSize] at h
  simp only [smallest, List.find?]
  generalize (e - 1) / 8 - s / 8 + 1 = n at *
  by_cases h0 : n = 0
  · subst h0; simp at h
  repeat' split at h
  all_goals first | (simp at h) | skip
  all_goals subst h
  all_goals grind

theorem discriminant_smallest {n d : Nat} (h : discriminantBytes n = some d) :
    (if n = 1 then 0 else smallest [1, 2, 4, 8] fun k => n < 256 ^ k) = d := by
  simp only [discriminantBytes] at h
  simp only [smallest, List.find?]
  repeat' split at h
  all_goals first | (simp at h; done) | skip
  all_goals simp only [Option.some.injEq] at h; subst h
  all_goals grind

theorem encodeArg_length {ty : Ty} {v : Val} {data : Option (List UInt8)} {bytes : List UInt8} {n : Nat}
    (hd : ∀ d, data = some d → d.length = n) (h : encodeArg ty v data = some bytes) : bytes.length = argSize ty v n := by
  unfold encodeArg at h
  split at h
  all_goals first | (simp only [Option.some.injEq] at h; subst h; simp [argSize, fixed, le_length, leInt_length, utf8_length]; done) | skip
  · split at h
    · rename_i hl
      simp only [Option.some.injEq] at h; subst h; simp [argSize, fixed, hl]
    · simp at h
  · split at h
    · simp at h
    · rename_i hd'
      split at h
      · simp only [Option.some.injEq] at h; subst h
        simp [argSize, fixed, le_length, truncatedSize_smallest hd']
      · simp at h
  · split at h
    · simp only [Option.some.injEq] at h; subst h
      simp [argSize, fixed, le_length, hd _ rfl]
    · simp at h
  · simp only [Option.map_eq_some_iff] at h
    obtain ⟨d, h1, rfl⟩ := h
    simp [argSize, fixed, le_length, hd _ h1]; omega
  · split at h
    · simp only [Option.map_eq_some_iff] at h
      obtain ⟨d, h1, rfl⟩ := h
      simp [argSize, fixed, le_length, hd _ h1]
    · simp at h
  · simp at h

mutual

theorem formatData_length : ∀ (v : Val) (d : List UInt8), formatData v = some d → d.length = contents v
  | .formatted _ fmt args, d, h => by
    rw [formatData] at h
    rw [contents]
    split at h
    · simp at h
    · rename_i tys ht
      rw [ht]
      exact encodeArgs_length tys args d h
  | .variant _ variants idx args, d, h => by
    rw [formatData] at h
    rw [contents]
    split at h
    · rename_i fmt size hv hs
      split at h
      · simp at h
      · rename_i tys ht
        simp only [Option.map_eq_some_iff] at h
        obtain ⟨d', h1, rfl⟩ := h
        rw [discriminant_smallest hs, hv, Option.getD_some, ht, Option.getD_some, List.length_append, le_length, encodeArgs_length tys args d' h1]
    · simp at h
  | .manual _ writes, d, h => by
    rw [formatData] at h
    rw [contents]
    simp only [Option.map_eq_some_iff] at h
    obtain ⟨d', h1, rfl⟩ := h
    rw [List.length_append, le_length, encodeWrites_length writes d' h1]
  | .slice _ _ elems, d, h => by
    rw [formatData] at h
    rw [contents]
    exact encodeElems_length elems d h
  | .uint _ _, d, h => by simp [formatData] at h
  | .sint _ _, d, h => by simp [formatData] at h
  | .usize _, d, h => by simp [formatData] at h
  | .isize _, d, h => by simp [formatData] at h
  | .f32 _, d, h => by simp [formatData] at h
  | .f64 _, d, h => by simp [formatData] at h
  | .bool _, d, h => by simp [formatData] at h
  | .char _, d, h => by simp [formatData] at h
  | .str _, d, h => by simp [formatData] at h
  | .istr _ _, d, h => by simp [formatData] at h
  | .bytes _, d, h => by simp [formatData] at h
  | .text _, d, h => by simp [formatData] at h

theorem encodeArgs_length : ∀ (tys : List Ty) (vs : List Val) (d : List UInt8), encodeArgs tys vs = some d → d.length = argsSize tys vs
  | [], [], d, h => by simp [encodeArgs] at h; subst h; simp [argsSize]
  | [], _ :: _, d, h => by simp [encodeArgs] at h
  | _ :: _, [], d, h => by simp [encodeArgs] at h
  | ty :: tys, v :: vs, d, h => by
    rw [encodeArgs] at h
    rw [argsSize]
    split at h
    · rename_i a b ha hb
      simp only [Option.some.injEq] at h
      subst h
      rw [List.length_append, encodeArg_length (formatData_length v) ha, encodeArgs_length tys vs b hb]
    · simp at h

theorem encodeWrites_length : ∀ (vs : List Val) (d : List UInt8), encodeWrites vs = some d → d.length = writesSize vs
  | [], d, h => by simp [encodeWrites] at h; subst h; simp [writesSize]
  | v :: vs, d, h => by
    rw [encodeWrites] at h
    rw [writesSize]
    split at h
    · rename_i tag a b _ ha hb
      simp only [Option.some.injEq] at h
      subst h
      rw [List.length_append, List.length_append, le_length, formatData_length v a ha, encodeWrites_length vs b hb]
    · simp at h

theorem encodeElems_length : ∀ (vs : List Val) (d : List UInt8), encodeElems vs = some d → d.length = elemsSize vs
  | [], d, h => by simp [encodeElems] at h; subst h; simp [elemsSize]
  | v :: vs, d, h => by
    rw [encodeElems] at h
    rw [elemsSize]
    split at h
    · rename_i a b ha hb
      simp only [Option.some.injEq] at h
      subst h
      rw [List.length_append, formatData_length v a ha, encodeElems_length vs b hb]
    · simp at h

end

theorem call_length {c : Call} {d : List UInt8} (h : c.encode = some d) : d.length = callSize c := by
  unfold Call.encode at h
  unfold callSize
  split at h
  · simp at h
  · rename_i tys ht
    rw [ht]
    exact encodeArgs_length _ _ _ h

theorem log_length {index : Nat} {ts : Option Call} {c : Call} {d : List UInt8} (h : encodeLog index ts c = some d) :
    d.length = frameSize ts c := by
  unfold encodeLog at h
  unfold frameSize
  cases ts with
  | none =>
    simp only [Option.map_eq_some_iff] at h
    obtain ⟨d', h1, rfl⟩ := h
    simp [le_length, call_length h1]
  | some ts =>
    simp only [] at h
    split at h
    · rename_i a b ha hb
      simp only [Option.some.injEq] at h
      subst h
      simp [le_length, call_length ha, call_length hb]; omega
    · simp at h

/-- arguments of fixed size -/
theorem argsSize_fixed : ∀ (tys : List Ty) (vs : List Val) (ks : List Nat), tys.map fixed = ks.map some → tys.length = vs.length →
    argsSize tys vs = ks.sum
  | [], [], [], _, _ => rfl
  | [], [], _ :: _, h, _ => by simp at h
  | [], _ :: _, _, _, h => by simp at h
  | _ :: _, [], _, _, h => by simp at h
  | _ :: _, _ :: _, [], h, _ => by simp at h
  | ty :: tys, v :: vs, k :: ks, h, hl => by
    simp only [List.map_cons, List.cons.injEq] at h
    rw [argsSize, argsSize_fixed tys vs ks h.2 (by simpa using hl)]
    simp [argSize, h.1]

theorem encodeArgs_same_length {tys : List Ty} {vs : List Val} {d : List UInt8} (h : encodeArgs tys vs = some d) : tys.length = vs.length := by
  induction tys generalizing vs d with
  | nil => cases vs with
    | nil => rfl
    | cons v vs => simp [encodeArgs] at h
  | cons ty tys ih => cases vs with
    | nil => simp [encodeArgs] at h
    | cons v vs =>
      rw [encodeArgs] at h
      split at h
      · rename_i hb
        simp [ih hb]
      · simp at h

end Defmt.WireSize
